import Verif.Spec.H2Matrix
import Verif.Spec.HSolve

/-! Specifications for H2-matrices used as triangular factors (C81). -/

namespace H2.Spec
variable {G K : Type}

/-- Row and column cluster are the same, and the diagonal blocks are subdivided symmetrically down to dense diagonal leaves. -/
def H2SqOk : H2Mat G → Prop
  | .zero .. => False
  | .uni .. => False
  | .full rb cb _ => rb.t = cb.t
  | .super rb cb m n son => rb.t = cb.t ∧ 0 < rb.sons ∧ 0 < cb.sons ∧ ∃ e : m = n, ∀ i, H2SqOk (son i (Fin.cast e i))

/-- Only finitely many cells are allocated. -/
def FiniteMem (m : Mem K) : Prop := ∃ b, ∀ c, b ≤ c → m c = none

/-- The allocator returns unused memory. -/
def FreshAlloc (alloc : Mem K → Nat → Nat) : Prop := ∀ m n, FiniteMem m → Fresh m (alloc m n) n

/-- The H2-matrix and its bases are complete and allocated. -/
def H2Ready (m : Mem K) (a : H2Mat G) : Prop :=
  H2Ok a ∧ CbOk a.rb ∧ CbOk a.cb ∧ CbSons a.rb ∧ CbSons a.cb ∧ H2Valid m a ∧ CbValid m a.rb ∧ CbValid m a.cb

/-- The vector does not overlap the matrices of the H2-matrix and of its bases. -/
def H2Apart (a : H2Mat G) (x : Vec) : Prop := Disj (H2Cell a) x.Cell ∧ Disj (CbCell a.rb) x.Cell ∧ Disj (CbCell a.cb) x.Cell

/-- Entry `(i, j)` of the represented matrix, counted from the beginning of the clusters. -/
noncomputable def h2entry [CommRing K] [StarRing K] (m : Mem K) (a : H2Mat G) (i j : Nat) : K :=
  h2place m a (a.rb.t.cl.off + i) (a.cb.t.cl.off + j)

end H2.Spec
