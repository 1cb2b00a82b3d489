import Verif.Proof.LocalWeights3
import Verif.Proof.Collect2
import Verif.Spec.Compress

/-! Error of the compression of H²-matrices: one block. -/

set_option linter.unusedSectionVars false

namespace H2.TB
open Spec Svd
variable {G 𝕜 : Type} [RCLike 𝕜]

/-- `alpha W S^*` -/
def yMat (alpha : ℝ) (rb cb : CBV G 𝕜) (S : VMat 𝕜) (j a : Nat) : 𝕜 := (alpha : 𝕜) * ∑ b ∈ Finset.range cb.k, vb cb j b * star (S.e a b)
/-- `alpha V S` -/
def xMat (alpha : ℝ) (rb cb : CBV G 𝕜) (S : VMat 𝕜) (i b : Nat) : 𝕜 := (alpha : 𝕜) * ∑ a ∈ Finset.range rb.k, vb rb i a * S.e a b

/-- left error `alpha (V - QQ^*V) S W^*` -/
def lErr (alpha : ℝ) (rb cb rb' : CBV G 𝕜) (S : VMat 𝕜) : Nat → Nat → 𝕜 := dz (dErr rb rb') rb.k (yMat alpha rb cb S)
/-- right error `alpha V S (W - PP^*W)^*`, transposed -/
def rErr (alpha : ℝ) (rb cb cb' : CBV G 𝕜) (S : VMat 𝕜) : Nat → Nat → 𝕜 := dz (dErr cb cb') cb.k (xMat alpha rb cb S)

theorem vecSq_smul (c : ℝ) (n : Nat) (x : Nat → 𝕜) : vecSq n (fun i => (c : 𝕜) * x i) = c ^ 2 * vecSq n x := by
  unfold vecSq
  rw [Finset.mul_sum]
  refine Finset.sum_congr rfl fun i _ => ?_
  rw [norm_mul, mul_pow, RCLike.norm_ofReal, sq_abs]

theorem yMat_en (tm : Option CMode) (rb cb : BRef G 𝕜) (S : VMat 𝕜) (x : Nat → 𝕜) :
    en rb.cb.k cb.cb.t.cl.size (yMat (blockScale tm rb.cb cb.cb S) rb.cb cb.cb S) x = rowSum tm (.uni rb cb S) rb.path x := by
  unfold rowSum
  rw [if_pos rfl, ← vecSq_smul]
  unfold en
  refine vecSq_congr fun j _ => ?_
  unfold matVec yMat vb
  simp only [Finset.mul_sum, Finset.sum_mul]
  rw [Finset.sum_comm]
  exact Finset.sum_congr rfl fun b _ => Finset.sum_congr rfl fun a _ => by ring

theorem xMat_en (tm : Option CMode) (rb cb : BRef G 𝕜) (S : VMat 𝕜) (x : Nat → 𝕜) :
    en cb.cb.k rb.cb.t.cl.size (xMat (blockScale tm rb.cb cb.cb S) rb.cb cb.cb S) x = colSum tm (.uni rb cb S) cb.path x := by
  unfold colSum
  rw [if_pos rfl, ← vecSq_smul]
  unfold en
  refine vecSq_congr fun j _ => ?_
  unfold matVec xMat vb
  simp only [Finset.mul_sum, Finset.sum_mul]
  rw [Finset.sum_comm]
  exact Finset.sum_congr rfl fun b _ => Finset.sum_congr rfl fun a _ => by ring

/-- orthonormal basis: the norm of a projected vector -/
theorem proj_split {cb cb' : CBV G 𝕜} (ht : cb'.t = cb.t) (ho : ∀ a < cb'.k, ∀ b < cb'.k, cross cb' cb' a b = if a = b then 1 else 0) (x y : Nat → 𝕜) :
    vecSq cb.t.cl.size (fun i => matVec cb.k (dErr cb cb') x i + matVec cb.k (projected cb cb') y i) =
      vecSq cb.t.cl.size (matVec cb.k (dErr cb cb') x) + vecSq cb'.k (matVec cb.k (cross cb' cb) y) := by
  have hU : OrthCols cb.t.cl.size cb'.k (fun i l => vbasis cb' (cb.t.cl.off + i) l) := by
    intro l hl l' hl'
    rw [← ho l hl l' hl']
    unfold cross
    rw [ht]
  rw [← vecSq_pyth hU (fun l hl => dErr_orth ht ho x hl)]
  refine vecSq_congr fun i _ => ?_
  congr 1
  unfold matVec projected
  simp only [Finset.mul_sum, Finset.sum_mul]
  rw [Finset.sum_comm]
  exact Finset.sum_congr rfl fun b _ => Finset.sum_congr rfl fun a _ => by ring

theorem proj_le {cb cb' : CBV G 𝕜} (ht : cb'.t = cb.t) (ho : ∀ a < cb'.k, ∀ b < cb'.k, cross cb' cb' a b = if a = b then 1 else 0) (x y : Nat → 𝕜) :
    vecSq cb.t.cl.size (fun i => matVec cb.k (dErr cb cb') x i + matVec cb.k (projected cb cb') y i) ≤
      vecSq cb.t.cl.size (matVec cb.k (dErr cb cb') x) + vecSq cb.t.cl.size (matVec cb.k (vb cb) y) := by
  rw [proj_split ht ho]
  have h1 := proj_split ht ho y y
  have h2 : vecSq cb.t.cl.size (fun i => matVec cb.k (dErr cb cb') y i + matVec cb.k (projected cb cb') y i) = vecSq cb.t.cl.size (matVec cb.k (vb cb) y) := by
    refine vecSq_congr fun i _ => ?_
    unfold matVec
    rw [← Finset.sum_add_distrib]
    refine Finset.sum_congr rfl fun l _ => ?_
    unfold dErr vb
    ring
  rw [h2] at h1
  have h3 := vecSq_nonneg cb.t.cl.size (matVec cb.k (dErr cb cb') y)
  linarith

/-- the product of a matrix in factorized form -/
theorem trip_mul (alpha : 𝕜) (k1 k2 q : Nat) (A S B : Nat → Nat → 𝕜) (x : Nat → 𝕜) (i : Nat) :
    matVec q (fun i j => alpha * trip k1 k2 A S B i j) x i = matVec k1 A (fun a => alpha * ∑ b ∈ Finset.range k2, S a b * ∑ j ∈ Finset.range q, star (B j b) * x j) i := by
  unfold matVec trip
  simp only [Finset.mul_sum, Finset.sum_mul]
  rw [Finset.sum_comm]
  refine Finset.sum_congr rfl fun a _ => ?_
  rw [Finset.sum_comm]
  exact Finset.sum_congr rfl fun b _ => Finset.sum_congr rfl fun j _ => by ring

theorem lErr_trip (alpha : ℝ) (rb cb rb' : CBV G 𝕜) (S : VMat 𝕜) (i j : Nat) : lErr alpha rb cb rb' S i j = (alpha : 𝕜) * trip rb.k cb.k (dErr rb rb') S.e (vb cb) i j := by
  unfold lErr dz yMat trip
  simp only [star_mul', star_sum, RCLike.star_def, RCLike.conj_ofReal, RCLike.conj_conj, Finset.mul_sum]
  exact Finset.sum_congr rfl fun b _ => Finset.sum_congr rfl fun a _ => by ring

theorem rErr_trip (alpha : ℝ) (rb cb cb' : CBV G 𝕜) (S : VMat 𝕜) (i j : Nat) : star (rErr alpha rb cb cb' S j i) = (alpha : 𝕜) * trip rb.k cb.k (vb rb) S.e (dErr cb cb') i j := by
  unfold rErr dz xMat trip
  simp only [star_mul', star_sum, RCLike.star_def, RCLike.conj_ofReal, RCLike.conj_conj, Finset.mul_sum, map_sum, map_mul]
  rw [Finset.sum_comm]
  exact Finset.sum_congr rfl fun b _ => Finset.sum_congr rfl fun a _ => by ring

/-- coupling matrix of the projected block -/
def IsProj (rb cb rb' cb' : CBV G 𝕜) (S S' : VMat 𝕜) : Prop :=
  ∀ a < rb'.k, ∀ b < cb'.k, S'.e a b = ∑ i ∈ Finset.range rb.k, ∑ j ∈ Finset.range cb.k, cross rb' rb a i * S.e i j * star (cross cb' cb b j)

theorem proj_block {rb cb rb' cb' : CBV G 𝕜} {S S' : VMat 𝕜} (hr : rb'.t = rb.t) (hc : cb'.t = cb.t) (h : IsProj rb cb rb' cb' S S') (i j : Nat) :
    blockMat rb' cb' S' i j = trip rb.k cb.k (projected rb rb') S.e (projected cb cb') i j := by
  unfold blockMat trip projected
  rw [hr, hc]
  have h1 : ∀ a ∈ Finset.range rb'.k, ∀ b ∈ Finset.range cb'.k, vbasis rb' (rb.t.cl.off + i) a * S'.e a b * star (vbasis cb' (cb.t.cl.off + j) b) =
      ∑ l ∈ Finset.range rb.k, ∑ m ∈ Finset.range cb.k, vbasis rb' (rb.t.cl.off + i) a * cross rb' rb a l * S.e l m * star (vbasis cb' (cb.t.cl.off + j) b * cross cb' cb b m) := by
    intro a ha b hb
    rw [h a (Finset.mem_range.mp ha) b (Finset.mem_range.mp hb)]
    simp only [Finset.mul_sum, Finset.sum_mul, star_mul']
    exact Finset.sum_congr rfl fun l _ => Finset.sum_congr rfl fun m _ => by ring
  rw [Finset.sum_congr rfl fun a ha => Finset.sum_congr rfl fun b hb => h1 a ha b hb]
  simp only [Finset.mul_sum, Finset.sum_mul, star_sum]
  rw [Finset.sum_congr rfl fun a _ => Finset.sum_comm, Finset.sum_comm]
  refine Finset.sum_congr rfl fun l _ => ?_
  rw [Finset.sum_congr rfl fun a _ => Finset.sum_comm, Finset.sum_comm]
  refine Finset.sum_congr rfl fun m _ => ?_
  rw [Finset.sum_comm]

/-- the error of a block -/
def bErr (alpha : ℝ) (rb cb rb' cb' : CBV G 𝕜) (S S' : VMat 𝕜) (i j : Nat) : 𝕜 := (alpha : 𝕜) * (blockMat rb cb S i j - blockMat rb' cb' S' i j)

theorem block_le {alpha : ℝ} {rb cb rb' cb' : CBV G 𝕜} {S S' : VMat 𝕜} (hr : rb'.t = rb.t) (hc : cb'.t = cb.t) (h : IsProj rb cb rb' cb' S S')
    (ho : ∀ a < rb'.k, ∀ b < rb'.k, cross rb' rb' a b = if a = b then 1 else 0) (x : Nat → 𝕜) :
    vecSq rb.t.cl.size (matVec cb.t.cl.size (bErr alpha rb cb rb' cb' S S') x) ≤ vecSq rb.t.cl.size (matVec cb.t.cl.size (lErr alpha rb cb rb' S) x) +
      vecSq rb.t.cl.size (matVec cb.t.cl.size (fun i j => star (rErr alpha rb cb cb' S j i)) x) := by
  have h1 : lErr alpha rb cb rb' S = fun i j => (alpha : 𝕜) * trip rb.k cb.k (dErr rb rb') S.e (vb cb) i j := by funext i j; exact lErr_trip ..
  have h2 : (fun i j => star (rErr alpha rb cb cb' S j i)) = fun i j => (alpha : 𝕜) * trip rb.k cb.k (vb rb) S.e (dErr cb cb') i j := by funext i j; exact rErr_trip ..
  rw [h1, h2]
  have h3 : ∀ i, matVec cb.t.cl.size (bErr alpha rb cb rb' cb' S S') x i =
      matVec cb.t.cl.size (fun i j => (alpha : 𝕜) * trip rb.k cb.k (dErr rb rb') S.e (vb cb) i j) x i +
      matVec cb.t.cl.size (fun i j => (alpha : 𝕜) * trip rb.k cb.k (projected rb rb') S.e (dErr cb cb') i j) x i := by
    intro i
    unfold matVec
    rw [← Finset.sum_add_distrib]
    refine Finset.sum_congr rfl fun j _ => ?_
    rw [← add_mul, ← mul_add]
    unfold bErr
    rw [proj_block hr hc h]
    congr 2
    unfold blockMat trip
    rw [← Finset.sum_sub_distrib, ← Finset.sum_add_distrib]
    refine Finset.sum_congr rfl fun a _ => ?_
    rw [← Finset.sum_sub_distrib, ← Finset.sum_add_distrib]
    refine Finset.sum_congr rfl fun b _ => ?_
    unfold dErr vb
    rw [star_sub]
    ring
  rw [vecSq_congr (y := fun i => _) fun i _ => h3 i]
  simp only [trip_mul]
  refine (proj_le hr ho _ _).trans (le_of_eq ?_)
  congr 1 <;> exact vecSq_congr fun i _ => (trip_mul ..).symm

theorem frob_units (rows cols : Nat) (M : Nat → Nat → 𝕜) : frobSq rows cols M = ∑ j ∈ Finset.range cols, vecSq rows (matVec cols M fun l => if l = j then 1 else 0) := by
  unfold frobSq
  exact Finset.sum_congr rfl fun j hj => by rw [matVec_unit M (Finset.mem_range.mp hj)]

theorem frob_adj (rows cols : Nat) (M : Nat → Nat → 𝕜) : frobSq rows cols (fun i j => star (M j i)) = frobSq cols rows M := by
  rw [frob_rows]
  simp only [star_star]
  rfl

theorem errLe_adj {frob : Bool} {rows cols : Nat} {M : Nat → Nat → 𝕜} {B : ℝ} (hB : 0 ≤ B) (h : ErrLe frob cols rows M B) : ErrLe frob rows cols (fun i j => star (M j i)) B := by
  unfold ErrLe at h ⊢
  split
  · next hf => rw [if_pos hf] at h; rw [frob_adj]; exact h
  · next hf => rw [if_neg hf] at h; exact spec_adj hB h

theorem errLe_add_le {frob : Bool} {rows p : Nat} {M A C : Nat → Nat → 𝕜} {B B' : ℝ} (h : ∀ x, vecSq rows (matVec p M x) ≤ vecSq rows (matVec p A x) + vecSq rows (matVec p C x))
    (h1 : ErrLe frob rows p A B) (h2 : ErrLe frob rows p C B') : ErrLe frob rows p M (B + B') := by
  unfold ErrLe at h1 h2 ⊢
  split
  · next hf =>
    rw [if_pos hf] at h1 h2
    rw [frob_units] at h1 h2 ⊢
    refine (Finset.sum_le_sum fun j _ => h _).trans ?_
    rw [Finset.sum_add_distrib]
    exact add_le_add h1 h2
  · next hf =>
    rw [if_neg hf] at h1 h2
    intro x
    refine (h x).trans ?_
    rw [add_mul]
    exact add_le_add (h1 x) (h2 x)

theorem block_frob {alpha : ℝ} {rb cb rb' cb' : CBV G 𝕜} {S S' : VMat 𝕜} (hr : rb'.t = rb.t) (hc : cb'.t = cb.t) (h : IsProj rb cb rb' cb' S S')
    (ho : ∀ a < rb'.k, ∀ b < rb'.k, cross rb' rb' a b = if a = b then 1 else 0) :
    frobSq rb.t.cl.size cb.t.cl.size (bErr alpha rb cb rb' cb' S S') ≤
      frobSq rb.t.cl.size cb.t.cl.size (lErr alpha rb cb rb' S) + frobSq cb.t.cl.size rb.t.cl.size (rErr alpha rb cb cb' S) := by
  rw [← frob_adj (𝕜 := 𝕜) rb.t.cl.size]
  have := errLe_add_le (frob := true) (B := frobSq rb.t.cl.size cb.t.cl.size (lErr alpha rb cb rb' S))
    (B' := frobSq rb.t.cl.size cb.t.cl.size (fun i j => star (rErr alpha rb cb cb' S j i))) (block_le (alpha := alpha) hr hc h ho) (le_refl _) (le_refl _)
  exact this

end H2.TB
