import Verif.Model.Collect
import Verif.Spec.Project
import Verif.Spec.Harith

/-! Specifications for the projection of dense matrices and H-matrices (C60). -/

namespace H2.Spec
variable {G 𝕜 : Type} [RCLike 𝕜]

/-- Entry `(a, b)` of `V_t^* A|_{t × s} W_s`, the rows and columns of `A` being positions in the index arrays. -/
def coupling (rb cb : CBV G 𝕜) (A : Nat → Nat → 𝕜) (a b : Nat) : 𝕜 :=
  ∑ i ∈ Finset.range rb.t.cl.size, ∑ j ∈ Finset.range cb.t.cl.size,
    star (vbasis rb (rb.t.cl.off + i) a) * A (rb.t.cl.off + i) (cb.t.cl.off + j) * vbasis cb (cb.t.cl.off + j) b

/-- The leaves of `h` are obtained from `A`: coupling matrices `V^* A W`, dense matrices containing the entries of `A`; leaves without content only where `A` is zero. -/
def ProjectionOf (A : Nat → Nat → 𝕜) : H2V G 𝕜 → Prop
  | .zero rb cb => ∀ r c, In rb.cb.t r → In cb.cb.t c → A r c = 0
  | .uni rb cb S => S.rows = rb.cb.k ∧ S.cols = cb.cb.k ∧ ∀ a < rb.cb.k, ∀ b < cb.cb.k, S.e a b = coupling rb.cb cb.cb A a b
  | .full rb cb f => f.rows = rb.cb.t.cl.size ∧ f.cols = cb.cb.t.cl.size ∧ ∀ i < rb.cb.t.cl.size, ∀ j < cb.cb.t.cl.size, f.e i j = A (rb.cb.t.cl.off + i) (cb.cb.t.cl.off + j)
  | .super _ _ _ _ son => ∀ i j, ProjectionOf A (son i j)

/-- `h` and `h'` are H²-matrices with the same bases and the same block structure -/
def SameForm : H2V G 𝕜 → H2V G 𝕜 → Prop
  | .zero rb cb, h' => h' = .zero rb cb
  | .uni rb cb _, h' => ∃ S', h' = .uni rb cb S'
  | .full rb cb _, h' => ∃ f', h' = .full rb cb f'
  | .super rb cb m n son, h' => ∃ son', h' = .super rb cb m n son' ∧ ∀ i j, SameForm (son i j) (son' i j)

/-- No part of a block is described twice: a block whose sons use its own row (column) basis has only one row (column) of sons. -/
def H2VTiles : H2V G 𝕜 → Prop
  | .zero .. | .uni .. | .full .. => True
  | .super rb cb m n son => (∀ i j, (son i j).rb = rb → m = 1) ∧ (∀ i j, (son i j).cb = cb → n = 1) ∧ ∀ i j, H2VTiles (son i j)

/-- squared Frobenius norm of the difference between `A` and the matrix represented by `h`, restricted to the block of `h` -/
noncomputable def errSq (A : Nat → Nat → 𝕜) (h : H2V G 𝕜) : ℝ :=
  ∑ i ∈ Finset.range h.rb.cb.t.cl.size, ∑ j ∈ Finset.range h.cb.cb.t.cl.size,
    ‖A (h.rb.cb.t.cl.off + i) (h.cb.cb.t.cl.off + j) - h2vplace h (h.rb.cb.t.cl.off + i) (h.cb.cb.t.cl.off + j)‖ ^ 2

/-- no leaves without content -/
def NoZero : H2V G 𝕜 → Prop
  | .zero .. => False
  | .uni .. | .full .. => True
  | .super _ _ _ _ son => ∀ i j, NoZero (son i j)

/-- basis for a complete cluster tree -/
def FullBasis : CBV G 𝕜 → Prop
  | .mk t _ _ _ _ _ n son => (∃ e : n = t.nsons, ∀ i : Fin n, (son i).t = t.son (Fin.cast e i)) ∧ ∀ i, FullBasis (son i)

/-- the H²-matrix has the structure of a block tree: leaves correspond to leaves (uniform for admissible ones), sons to sons -/
def FormOf : _root_.H2.Block G → H2V G 𝕜 → Prop
  | .mk rc cc a _ m n son, h => h.rb.cb.t = rc ∧ h.cb.cb.t = cc ∧
    if 0 < m ∧ 0 < n then ∃ son', h = .super h.rb h.cb m n son' ∧ ∀ i j, FormOf (son i j) (son' i j)
    else if a then ∃ S, h = .uni h.rb h.cb S else ∃ f, h = .full h.rb h.cb f

/-- the H²-matrix and the H-matrix have the same structure, low-rank leaves corresponding to uniform leaves -/
def HMatch : H2V G 𝕜 → HV G 𝕜 → Prop
  | .uni rb cb _, h => ∃ r, h = .rk rb.cb.t cb.cb.t r
  | .full rb cb _, h => ∃ f, h = .full rb.cb.t cb.cb.t f
  | .super rb cb m n son, h => ∃ son', h = .super rb.cb.t cb.cb.t m n son' ∧ ∀ i j, HMatch (son i j) (son' i j)
  | .zero .., _ => False

/-- as `HMatch`, with leaves without content for low-rank leaves of rank zero -/
def HBuilt : HV G 𝕜 → H2V G 𝕜 → Prop
  | .rk rc cc r, h => h.rb.cb.t = rc ∧ h.cb.cb.t = cc ∧ if r.k = 0 then h = .zero h.rb h.cb else ∃ S, h = .uni h.rb h.cb S
  | .full rc cc _, h => h.rb.cb.t = rc ∧ h.cb.cb.t = cc ∧ ∃ f, h = .full h.rb h.cb f
  | .super rc cc m n son, h => h.rb.cb.t = rc ∧ h.cb.cb.t = cc ∧ ∃ son', h = .super h.rb h.cb m n son' ∧ ∀ i j, HBuilt (son i j) (son' i j)

/-- The H-matrix is subdivided according to the cluster trees: in each direction, a block keeps its cluster or uses the sons of the cluster. -/
def HVSons : HV G 𝕜 → Prop
  | .rk .. | .full .. => True
  | .super t s m n son => 0 < m ∧ 0 < n ∧ (((∀ i j, (son i j).rc = t) ∧ m = 1) ∨ ∃ e : m = t.nsons, ∀ i j, (son i j).rc = t.son (Fin.cast e i)) ∧
    (((∀ i j, (son i j).cc = s) ∧ n = 1) ∨ ∃ e : n = s.nsons, ∀ i j, (son i j).cc = s.son (Fin.cast e j)) ∧ ∀ i j, HVSons (son i j)

end H2.Spec
