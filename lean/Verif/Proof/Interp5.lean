import Verif.Proof.Interp4
import Mathlib.RingTheory.Polynomial.Chebyshev
import Mathlib.Analysis.SpecialFunctions.Trigonometric.Chebyshev.Basic

/-! Low-rank blocks by interpolation, nested cluster bases, Chebyshev points. -/

set_option linter.unusedSectionVars false

namespace H2.Interp
open Spec Dense Finset

section
variable {K : Type} [Field K]

theorem frame_val {A B : Mat} {m m' : Mem K} (hd : Disj A.Cell B.Cell) (hf : Frame B.Cell m m') {i j : Nat} (hi : i < A.rows) (hj : j < A.cols) :
    A.val m' i j = A.val m i j := by
  unfold Mat.val
  rw [hf _ (hd _ ⟨i, hi, j, hj, rfl⟩)]

theorem frame_valid {A B : Mat} {m m' : Mem K} (hd : Disj A.Cell B.Cell) (hf : Frame B.Cell m m') (hv : A.Valid m) : A.Valid m' :=
  ⟨hv.1, fun i hi j hj => by rw [hf _ (hd _ ⟨i, hi, j, hj, rfl⟩)]; exact hv.2 i hi j hj⟩

theorem edgeInt_sum {gr : Geo K} {tt : Nat} {n : Nat} (c : Nat → K) (f : Nat → K → K → K) :
    ∑ v ∈ range n, edgeInt gr tt (f v) * c v = edgeInt gr tt fun x y => ∑ v ∈ range n, f v x y * c v := by
  unfold edgeInt
  simp only [mul_sum, sum_mul]
  rw [sum_comm]
  exact sum_congr rfl fun q _ => sum_congr rfl fun v _ => by ring

theorem lagrPoly_self {n : Nat} {p : Nat → K} (hp : DistinctPts n p) {j : Nat} (hj : j < n) : lagrPoly n p j (p j) = 1 := by
  unfold lagrPoly
  refine prod_eq_one fun l hl => ?_
  rw [mem_erase, mem_range] at hl
  exact div_self (sub_ne_zero.mpr fun e => hl.1 (hp l hl.2 j hj e.symm))

theorem lagrPoly_other {n : Nat} {p : Nat → K} {j l : Nat} (hl : l < n) (h : l ≠ j) : lagrPoly n p j (p l) = 0 := by
  unfold lagrPoly
  exact prod_eq_zero (i := l) (by simp [h, hl]) (by simp)

end

variable {K : Type} [Field K] [LinearOrder K] [IsStrictOrderedRing K] [DecidableEq K]

/-- the points of one direction -/
def pts (eps a b : K) (x : Nat → K) (i : Nat) : K := point (widen eps a b).1 (widen eps a b).2 (x i)

theorem pts_eq (eps a b : K) (x : Nat → K) : pts eps a b x = boxPts eps a b x := by
  funext i
  unfold pts boxPts widen point
  split <;> dsimp only <;> ring

theorem pts_nodes {eps a b : K} (he : 0 < eps) (hab : a ≤ b) {m : Nat} {x : Nat → K} (hx : DistinctPts m x) : DistinctPts m (pts eps a b x) :=
  fun i hi j hj e => hx i hi j hj (point_inj (widen_lt he hab).1 e)

theorem nodes_congr {m n : Nat} {p q : Nat → K} (hn : n = m) (h : ∀ i < m, q i = p i) (hp : DistinctPts m p) : DistinctPts n q := by
  subst hn
  intro i hi j hj e
  rw [h i hi, h j hj] at e
  exact hp i hi j hj e

theorem lagrPoly_congr {m : Nat} {p q : Nat → K} (h : ∀ i < m, q i = p i) {j : Nat} (hj : j < m) (x : K) : lagrPoly m q j x = lagrPoly m p j x := by
  unfold lagrPoly
  refine prod_congr rfl fun l hl => ?_
  rw [mem_erase, mem_range] at hl
  rw [h j hj, h l hl.2]

theorem split_lt {m c : Nat} (h : c < m * m) : c / m < m ∧ c % m < m ∧ c / m * m + c % m = c := by
  have hm : 0 < m := by
    rcases Nat.eq_zero_or_pos m with rfl | h'
    · simp at h
    · exact h'
  exact ⟨Nat.div_lt_of_lt_mul h, Nat.mod_lt _ hm, Nat.div_add_mod' c m⟩

/-- `lagrangeConst` with the points from `pointsVec` -/
theorem basis_tot {eps ax bx ay by' : K} (he : 0 < eps) (hx : ax ≤ bx) (hy : ay ≤ by') {junk : Nat → K} {m : Nat} {x : Arr K} (hm : m ≤ x.n) (hn : DistinctPts m x.v)
    {gr : Geo K} {idx : Option (Arr Nat)} {A : Mat} {s : Mem K} (hg : GeoOk gr idx A.rows) (hA : A.Valid s) (hc : A.cols = m * m) :
    Tot (do
      let p ← pointsVec eps ax bx ay by' m x ⟨m, junk⟩ ⟨m, junk⟩
      lagrangeConst junk gr idx p.1 p.2 A s) (MatBecomes A s fun t c => edgeInt gr (edgeOf idx t) fun u v =>
        lagrPoly m (pts eps ax bx x.v) (c / m) u * lagrPoly m (pts eps ay by' x.v) (c % m) v) := by
  refine Tot.bind (pointsVec_tot eps ax bx ay by' hm rfl rfl) ?_
  rintro ⟨px, py⟩ - ⟨h1, h2, h3⟩
  replace h1 : px.n = m := h1
  replace h2 : py.n = m := h2
  have n1 : DistinctPts px.n px.v := nodes_congr h1 (fun i hi => (h3 i hi).1) (pts_nodes he hx hn)
  have n2 : DistinctPts py.n py.v := nodes_congr h2 (fun i hi => (h3 i hi).2) (pts_nodes he hy hn)
  refine (lagrangeConst_tot hg n1 n2 hA (by rw [h1, h2, hc])).mono fun s' hs => mb_congr hs fun t ht c hcc => ?_
  beta_reduce
  rw [h1, h2]
  have hs := split_lt (hc ▸ hcc)
  congr 1
  funext u v
  rw [lagrPoly_congr (fun i hi => (h3 i hi).1) hs.1, lagrPoly_congr (fun i hi => (h3 i hi).2) hs.2.1]
  rfl

theorem interRow_tot {eps ax bx ay by' : K} (he : 0 < eps) (hx : ax ≤ bx) (hy : ay ≤ by') {junk : Nat → K} {m : Nat} {x : Arr K} (hm : m ≤ x.n) (hn : DistinctPts m x.v)
    {gr : Geo K} {idx : Option (Arr Nat)} {A B : Mat} {s : Mem K} (hg : GeoOk gr idx A.rows) (hA : A.Valid s) (hB : B.Valid s) (hc : A.cols = m * m)
    (hc2 : B.cols = m * m) (hd : Disj A.Cell B.Cell) {kernelCol : Arr (K × K) → Mat → Mem K → R (Mem K)} {b : Nat → K → K → K}
    (hk : ∀ (Z : Arr (K × K)) (s : Mem K), Z.n = m * m → B.Valid s → Tot (kernelCol Z B s) (MatBecomes B s fun j v => b j (Z.v v).1 (Z.v v).2)) :
    Tot (interRow eps ax bx ay by' junk m x gr idx kernelCol A B s) fun s' => A.Valid s' ∧ B.Valid s' ∧
      (∀ t < A.rows, ∀ j < B.rows, ∑ v ∈ range (m * m), A.val s' t v * B.val s' j v =
        edgeInt gr (edgeOf idx t) (interpol m (pts eps ax bx x.v) (pts eps ay by' x.v) (b j))) ∧
      Frame (fun c => A.Cell c ∨ B.Cell c) s s' := by
  unfold interRow
  refine Tot.bind (pointsArray_tot eps ax bx ay by' hm rfl) ?_
  rintro Z - ⟨z1, z2⟩
  have hb := basis_tot he hx hy (junk := junk) hm hn hg hA hc
  obtain ⟨s1, e1, hs1⟩ := hb
  rcases hp : pointsVec eps ax bx ay by' m x ⟨m, junk⟩ ⟨m, junk⟩ with er | p
  · rw [hp] at e1; cases e1
  rw [hp, ok_bind] at e1
  rw [ok_bind, e1, ok_bind]
  refine (hk Z s1 z1 (frame_valid (fun c h1 h2 => hd c h2 h1) hs1.2.2 hB)).mono ?_
  rintro s2 hs2
  refine ⟨frame_valid hd hs2.2.2 hs1.1, hs2.1, ?_, ?_⟩
  · intro t ht j hj
    have : ∀ v ∈ range (m * m), A.val s2 t v * B.val s2 j v = edgeInt gr (edgeOf idx t) (fun u w =>
        lagrPoly m (pts eps ax bx x.v) (v / m) u * lagrPoly m (pts eps ay by' x.v) (v % m) w) *
        b j (pts eps ax bx x.v (v / m)) (pts eps ay by' x.v (v % m)) := by
      intro v hv
      rw [mem_range] at hv
      have hs := split_lt hv
      rw [frame_val hd hs2.2.2 ht (by omega), hs1.2.1 t ht v (by omega), hs2.2.1 j hj v (by omega)]
      have hz := z2 (v / m) hs.1 (v % m) hs.2.1
      rw [hs.2.2] at hz
      beta_reduce
      rw [hz]
      rfl
    rw [sum_congr rfl this, edgeInt_sum (n := m * m) (fun v => b j (pts eps ax bx x.v (v / m)) (pts eps ay by' x.v (v % m)))
      (fun v u w => lagrPoly m (pts eps ax bx x.v) (v / m) u * lagrPoly m (pts eps ay by' x.v) (v % m) w)]
    congr 1
    funext u w
    unfold interpol
    rw [sum_grid m m (fun i k => lagrPoly m (pts eps ax bx x.v) i u * lagrPoly m (pts eps ay by' x.v) k w * b j (pts eps ax bx x.v i) (pts eps ay by' x.v k))]
    exact sum_congr rfl fun i _ => sum_congr rfl fun k _ => by ring
  · intro c hcell
    rw [hs2.2.2 c (fun h => hcell (Or.inr h)), hs1.2.2 c (fun h => hcell (Or.inl h))]

theorem transfer_tot {eps ax bx ay by' ax' bx' ay' by'' : K} (he : 0 < eps) (hx : ax ≤ bx) (hy : ay ≤ by') {junk : Nat → K} {m : Nat} {x : Arr K} (hm : m ≤ x.n)
    (hn : DistinctPts m x.v) {E : Mat} {s : Mem K} (hE : E.Valid s) (hr : E.rows = m * m) (hc : E.cols = m * m) :
    Tot (transfer eps ax bx ay by' ax' bx' ay' by'' junk m x E s) (MatBecomes E s fun v c =>
      lagrPoly m (pts eps ax bx x.v) (c / m) (pts eps ax' bx' x.v (v / m)) * lagrPoly m (pts eps ay by' x.v) (c % m) (pts eps ay' by'' x.v (v % m))) := by
  unfold transfer
  refine Tot.bind (pointsVec_tot eps ax bx ay by' hm rfl rfl) ?_
  rintro ⟨px, py⟩ - ⟨h1, h2, h3⟩
  replace h1 : px.n = m := h1
  replace h2 : py.n = m := h2
  have n1 : DistinctPts px.n px.v := nodes_congr h1 (fun i hi => (h3 i hi).1) (pts_nodes he hx hn)
  have n2 : DistinctPts py.n py.v := nodes_congr h2 (fun i hi => (h3 i hi).2) (pts_nodes he hy hn)
  refine Tot.bind (pointsArray_tot eps ax' bx' ay' by'' hm rfl) ?_
  rintro Z - ⟨z1, z2⟩
  refine (lagrange_tot n1 n2 hE (by rw [h1, h2, hc]) (by omega)).mono fun s' hs => mb_congr hs fun v hv c hcc => ?_
  beta_reduce
  rw [h1, h2]
  have hs := split_lt (hc ▸ hcc)
  have hs' := split_lt (hr ▸ hv)
  have hz := z2 (v / m) hs'.1 (v % m) hs'.2.1
  rw [hs'.2.2] at hz
  rw [lagrPoly_congr (fun i hi => (h3 i hi).1) hs.1, lagrPoly_congr (fun i hi => (h3 i hi).2) hs.2.1, hz]
  rfl

theorem nested {eps ax bx ay by' ax' bx' ay' by'' : K} (he : 0 < eps) (hx : ax ≤ bx) (hy : ay ≤ by') (hx' : ax' ≤ bx') (hy' : ay' ≤ by'')
    {m : Nat} {x : Nat → K} (hn : DistinctPts m x) (gr : Geo K) (tt : Nat) {c : Nat} (hc : c < m * m) :
    edgeInt gr tt (fun u v => lagrPoly m (pts eps ax bx x) (c / m) u * lagrPoly m (pts eps ay by' x) (c % m) v) =
      ∑ v ∈ range (m * m), edgeInt gr tt (fun u w => lagrPoly m (pts eps ax' bx' x) (v / m) u * lagrPoly m (pts eps ay' by'' x) (v % m) w) *
        (lagrPoly m (pts eps ax bx x) (c / m) (pts eps ax' bx' x (v / m)) * lagrPoly m (pts eps ay by' x) (c % m) (pts eps ay' by'' x (v % m))) := by
  rw [edgeInt_sum (n := m * m) (fun v => lagrPoly m (pts eps ax bx x) (c / m) (pts eps ax' bx' x (v / m)) * lagrPoly m (pts eps ay by' x) (c % m) (pts eps ay' by'' x (v % m)))
    (fun v u w => lagrPoly m (pts eps ax' bx' x) (v / m) u * lagrPoly m (pts eps ay' by'' x) (v % m) w)]
  congr 1
  funext u w
  have hs := split_lt hc
  have h := tensor_exact (pts_nodes he hx' hn) (pts_nodes he hy' hn) (lagrPoly_tensor (pts_nodes he hx hn) (pts_nodes he hy hn) hs.1 hs.2.1) u w
  rw [← h, sum_grid m m (fun i k => lagrPoly m (pts eps ax' bx' x) i u * lagrPoly m (pts eps ay' by'' x) k w * (lagrPoly m (pts eps ax bx x) (c / m) (pts eps ax' bx' x i) *
    lagrPoly m (pts eps ay by' x) (c % m) (pts eps ay' by'' x k)))]
  exact sum_congr rfl fun i _ => sum_congr rfl fun k _ => by ring

/-! ### Chebyshev points -/

theorem chebyshev_arg {m i : Nat} (hm : 0 < m) : Real.pi * (2 * (i : ℝ) * (1 / (2 * m)) + 1 / (2 * m)) = Real.pi * (2 * i + 1) / (2 * m) := by
  have : (m : ℝ) ≠ 0 := by exact_mod_cast hm.ne'
  field_simp

theorem chebyshev_nodes (m : Nat) : DistinctPts m (chebyshev m) := by
  intro i hi j hj e
  have hm : 0 < m := by omega
  have hm' : (0 : ℝ) < 2 * m := by have : (0 : ℝ) < m := by exact_mod_cast hm
                                   linarith
  unfold chebyshev at e
  rw [chebyshev_arg hm, chebyshev_arg hm] at e
  have hr : ∀ k : Nat, k < m → Real.pi * (2 * k + 1) / (2 * m) ∈ Set.Icc 0 Real.pi := by
    intro k hk
    have hk' : (k : ℝ) + 1 ≤ m := by exact_mod_cast hk
    have hp := Real.pi_pos
    have hk0 : (0 : ℝ) ≤ k := Nat.cast_nonneg k
    constructor
    · positivity
    · rw [div_le_iff₀ hm']
      exact mul_le_mul_of_nonneg_left (by linarith) hp.le
  have h := Real.injOn_cos (hr i hi) (hr j hj) e
  rw [div_left_inj' hm'.ne'] at h
  have h2 := mul_left_cancel₀ Real.pi_pos.ne' h
  have : (i : ℝ) = j := by linarith
  exact_mod_cast this

theorem chebyshev_in (m i : Nat) : -1 ≤ chebyshev m i ∧ chebyshev m i ≤ 1 := ⟨Real.neg_one_le_cos _, Real.cos_le_one _⟩

theorem chebyshev_root {m i : Nat} (hi : i < m) : (Polynomial.Chebyshev.T ℝ m).eval (chebyshev m i) = 0 := by
  unfold chebyshev
  rw [Polynomial.Chebyshev.T_real_cos, chebyshev_arg (by omega), Real.cos_eq_zero_iff]
  refine ⟨i, ?_⟩
  have : (m : ℝ) ≠ 0 := by exact_mod_cast (by omega : m ≠ 0)
  push_cast
  field_simp

end H2.Interp
