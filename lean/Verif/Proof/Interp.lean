import Verif.Spec.Interp
import Verif.Proof.HFill
import Verif.Proof.TriP1f
import Mathlib.LinearAlgebra.Lagrange

/-! Lagrange polynomials and the loops of bem2d.c. -/

set_option linter.unusedSectionVars false

namespace H2.Interp
open Spec Dense Finset

section
variable {K : Type} [Field K]

theorem erase_split {n j : Nat} (hj : j < n) : (range n).erase j = (range j).disjUnion (Ico (j + 1) n) (by
    rw [Finset.disjoint_left]; intro a h1 h2; rw [mem_range] at h1; rw [mem_Ico] at h2; omega) := by
  ext a
  simp only [mem_erase, mem_range, mem_disjUnion, mem_Ico]
  omega

/-! ### interpolation in one variable -/

theorem lagrPoly_eval (n : Nat) (p : Nat → K) (j : Nat) (x : K) :
    Polynomial.eval x (Lagrange.basis (range n) p j) = lagrPoly n p j x := by
  unfold Lagrange.basis lagrPoly
  rw [Polynomial.eval_prod]
  refine prod_congr rfl fun l _ => ?_
  simp [Lagrange.basisDivisor, div_eq_mul_inv, mul_comm]

theorem lagr_pow {n : Nat} {p : Nat → K} (hp : DistinctPts n p) {a : Nat} (ha : a < n) (x : K) :
    ∑ j ∈ range n, p j ^ a * lagrPoly n p j x = x ^ a := by
  have hi : Set.InjOn p (range n) := fun i hi j hj e => hp i (by simpa using hi) j (by simpa using hj) e
  have hd : (Polynomial.X ^ a : Polynomial K).degree < #(range n) := by
    rw [Polynomial.degree_X_pow, card_range]; exact_mod_cast ha
  have h := Lagrange.eq_interpolate hi hd
  have h' := congrArg (Polynomial.eval x) h
  rw [Lagrange.interpolate_apply, Polynomial.eval_finset_sum] at h'
  simp only [Polynomial.eval_pow, Polynomial.eval_X, Polynomial.eval_mul, Polynomial.eval_C, lagrPoly_eval] at h'
  exact h'.symm

/-- interpolation of a polynomial in two variables is exact -/
theorem tensor_exact {m : Nat} {px py : Nat → K} (hx : DistinctPts m px) (hy : DistinctPts m py) {f : K → K → K} (hf : TensorPoly m f) (x y : K) :
    ∑ i ∈ range m, ∑ j ∈ range m, f (px i) (py j) * (lagrPoly m px i x * lagrPoly m py j y) = f x y := by
  obtain ⟨c, hc⟩ := hf
  simp only [hc]
  have e1 : ∀ i j, (∑ a ∈ range m, ∑ b ∈ range m, c a b * px i ^ a * py j ^ b) * (lagrPoly m px i x * lagrPoly m py j y) =
      ∑ a ∈ range m, ∑ b ∈ range m, c a b * (px i ^ a * lagrPoly m px i x) * (py j ^ b * lagrPoly m py j y) := by
    intro i j
    rw [sum_mul]
    refine sum_congr rfl fun a _ => ?_
    rw [sum_mul]
    exact sum_congr rfl fun b _ => by ring
  simp only [e1]
  calc _ = ∑ a ∈ range m, ∑ b ∈ range m, ∑ i ∈ range m, ∑ j ∈ range m, c a b * (px i ^ a * lagrPoly m px i x) * (py j ^ b * lagrPoly m py j y) := by
        have : ∀ i, (∑ j ∈ range m, ∑ a ∈ range m, ∑ b ∈ range m, c a b * (px i ^ a * lagrPoly m px i x) * (py j ^ b * lagrPoly m py j y)) =
            ∑ a ∈ range m, ∑ b ∈ range m, ∑ j ∈ range m, c a b * (px i ^ a * lagrPoly m px i x) * (py j ^ b * lagrPoly m py j y) := by
          intro i
          rw [sum_comm]
          exact sum_congr rfl fun a _ => sum_comm
        simp only [this]
        rw [sum_comm]
        exact sum_congr rfl fun a _ => sum_comm
    _ = _ := by
        refine sum_congr rfl fun a ha => sum_congr rfl fun b hb => ?_
        rw [← lagr_pow hx (mem_range.mp ha) x, ← lagr_pow hy (mem_range.mp hb) y]
        simp only [mul_sum, sum_mul]
        exact sum_comm

/-- sums over the points of the tensor grid, numbered row by row -/
theorem sum_grid {M : Type} [AddCommMonoid M] (m n : Nat) (f : Nat → Nat → M) :
    ∑ v ∈ range (m * n), f (v / n) (v % n) = ∑ i ∈ range m, ∑ j ∈ range n, f i j := by
  induction m with
  | zero => simp
  | succ m ih =>
    rw [Nat.add_mul, one_mul, sum_range_add, ih, sum_range_succ]
    congr 1
    refine sum_congr rfl fun j hj => ?_
    rw [mem_range] at hj
    rw [Nat.mul_comm m n, Nat.mul_add_div (by omega), Nat.mul_add_mod, Nat.div_eq_of_lt hj, Nat.mod_eq_of_lt hj, add_zero]

theorem lagrPoly_isPoly {n : Nat} {p : Nat → K} (hp : DistinctPts n p) {j : Nat} (hj : j < n) :
    ∃ c : Nat → K, ∀ x, lagrPoly n p j x = ∑ a ∈ range n, c a * x ^ a := by
  have hi : Set.InjOn p (range n) := fun i hi j hj e => hp i (by simpa using hi) j (by simpa using hj) e
  refine ⟨(Lagrange.basis (range n) p j).coeff, fun x => ?_⟩
  rw [← lagrPoly_eval]
  refine Polynomial.eval_eq_sum_range' ?_ x
  rw [Lagrange.natDegree_basis hi (by simpa using hj), card_range]
  omega

theorem lagrPoly_tensor {n : Nat} {px py : Nat → K} (hx : DistinctPts n px) (hy : DistinctPts n py) {i j : Nat} (hi : i < n) (hj : j < n) :
    TensorPoly n fun x y => lagrPoly n px i x * lagrPoly n py j y := by
  obtain ⟨c, hc⟩ := lagrPoly_isPoly hx hi
  obtain ⟨d, hd⟩ := lagrPoly_isPoly hy hj
  refine ⟨fun a b => c a * d b, fun x y => ?_⟩
  simp only
  rw [hc, hd, sum_mul_sum]
  exact sum_congr rfl fun a _ => sum_congr rfl fun b _ => by ring

/-! ### writing columns -/

theorem mb_congr {a : Mat} {m m' : Mem K} {F F' : Nat → Nat → K} (h : MatBecomes a m F m')
    (e : ∀ i < a.rows, ∀ j < a.cols, F i j = F' i j) : MatBecomes a m F' m' :=
  ⟨h.1, fun i hi j hj => by rw [h.2.1 i hi j hj, e i hi j hj], h.2.2⟩

theorem fillCol {V : Mat} {m0 m1 : Mem K} {F : Nat → Nat → K} {E : Nat → K} {c : Nat} {body : Nat → Mem K → R (Mem K)}
    (h : MatBecomes V m0 F m1) (hc : c < V.cols) (hb : ∀ i < V.rows, ∀ m, body i m = m.write (V.addr i c) (E i)) :
    Tot (forUp 0 V.rows body m1) (MatBecomes V m0 (fun i j => if j = c then E i else F i j)) := by
  refine (forUp_tot (fun k (m : Mem K) => MatBecomes V m0 (fun i j => if i < k ∧ j = c then E i else F i j) m) (Nat.zero_le _) (by simpa using h) ?_).mono ?_
  · intro k m _ hk hm
    rw [hb k hk]
    refine (HMat.write_entry hm hk hc (E k)).mono fun m2 h2 => mb_congr h2 fun i hi j hj => ?_
    beta_reduce
    by_cases e : i = k
    · subst e
      by_cases ej : j = c
      · simp [ej]
      · simp [ej]
    · have : (i < k + 1) ↔ i < k := by omega
      simp [e, this]
  · intro m hm
    exact mb_congr hm fun i hi j hj => by simp [hi]

theorem gridLoop {V : Mat} {m0 : Mem K} {E : Nat → Nat → Nat → K} {nx ny : Nat} {body : Nat → Nat → Mem K × Nat → R (Mem K × Nat)}
    (hv : V.Valid m0) (hc : V.cols = nx * ny)
    (hb : ∀ jx < nx, ∀ jy < ny, ∀ (F : Nat → Nat → K) (m1 : Mem K), MatBecomes V m0 F m1 → Tot (body jx jy (m1, jx * ny + jy)) fun st =>
      MatBecomes V m0 (fun i j => if j = jx * ny + jy then E i jx jy else F i j) st.1 ∧ st.2 = jx * ny + jy + 1) :
    Tot (forUp 0 nx (fun jx st => forUp 0 ny (fun jy (st : Mem K × Nat) => body jx jy st) st) (m0, 0)) fun st =>
      MatBecomes V m0 (fun i c => E i (c / ny) (c % ny)) st.1 := by
  refine (forUp_tot (fun jx (st : Mem K × Nat) => st.2 = jx * ny ∧
    MatBecomes V m0 (fun i c => if c < jx * ny then E i (c / ny) (c % ny) else V.val m0 i c) st.1) (Nat.zero_le _) ?_ ?_).mono ?_
  · refine ⟨by simp, ?_⟩
    simp only [Nat.zero_mul, Nat.not_lt_zero, if_false]
    exact ⟨hv, fun _ _ _ _ => rfl, fun _ _ => rfl⟩
  · rintro jx ⟨m1, ix⟩ _ hjx ⟨e, h1⟩
    replace e : ix = jx * ny := e
    subst e
    refine (forUp_tot (fun jy (st : Mem K × Nat) => st.2 = jx * ny + jy ∧
      MatBecomes V m0 (fun i c => if c < jx * ny + jy then E i (c / ny) (c % ny) else V.val m0 i c) st.1) (Nat.zero_le _) ⟨rfl, h1⟩ ?_).mono ?_
    · rintro jy ⟨m2, ix⟩ _ hjy ⟨e, h2⟩
      replace e : ix = jx * ny + jy := e
      subst e
      refine (hb jx hjx jy hjy _ m2 h2).mono ?_
      rintro ⟨m3, ix⟩ ⟨h3, e3⟩
      refine ⟨e3, mb_congr h3 fun i hi c hc => ?_⟩
      beta_reduce
      by_cases e : c = jx * ny + jy
      · rw [if_pos e, if_pos (by omega), e, Nat.mul_comm jx ny, Nat.mul_add_div (by omega), Nat.mul_add_mod, Nat.div_eq_of_lt hjy, Nat.mod_eq_of_lt hjy,
          add_zero]
      · rw [if_neg e]
        have : (c < jx * ny + jy) ↔ c < jx * ny + (jy + 1) := by omega
        simp only [this]
    · rintro ⟨m3, ix⟩ ⟨e3, h3⟩
      have : jx * ny + ny = (jx + 1) * ny := by ring
      rw [this] at e3 h3
      exact ⟨e3, h3⟩
  · rintro ⟨m3, ix⟩ ⟨_, h3⟩
    exact mb_congr h3 fun i hi c hc' => by beta_reduce; rw [if_pos (by omega)]

end

variable {K : Type} [Field K] [LinearOrder K] [DecidableEq K]

theorem skipProd_ok {p : Arr K} {n j : Nat} (hj : j < n) (hn : n ≤ p.n) (x c : K) :
    skipProd p n j x c = .ok (c * ∏ l ∈ (range n).erase j, (x - p.v l)) := by
  unfold skipProd
  have h1 : Tot (forUp 0 j (fun l (d : K) => do
      let v ← p.get l
      pure (d * (x - v))) c) (fun d => d = c * ∏ l ∈ range j, (x - p.v l)) := by
    refine forUp_tot (fun k (d : K) => d = c * ∏ l ∈ range k, (x - p.v l)) (Nat.zero_le _) (by simp) ?_
    rintro k d _ hk rfl
    rw [Arr.get_ok (by omega), ok_bind]
    exact ⟨_, rfl, by rw [prod_range_succ]; ring⟩
  obtain ⟨d, e, rfl⟩ := h1
  rw [e, ok_bind]
  have h2 : Tot (forUp (j + 1) n (fun l (d : K) => do
      let v ← p.get l
      pure (d * (x - v))) (c * ∏ l ∈ range j, (x - p.v l))) (fun d => d = c * ((∏ l ∈ range j, (x - p.v l)) * ∏ l ∈ Ico (j + 1) n, (x - p.v l))) := by
    refine forUp_tot (fun k (d : K) => d = c * ((∏ l ∈ range j, (x - p.v l)) * ∏ l ∈ Ico (j + 1) k, (x - p.v l))) (by omega) (by simp) ?_
    rintro k d hk1 hk rfl
    rw [Arr.get_ok (by omega), ok_bind]
    exact ⟨_, rfl, by rw [prod_Ico_succ_top hk1]; ring⟩
  obtain ⟨d, e, rfl⟩ := h2
  rw [e, erase_split hj, prod_disjUnion]

theorem numer_ok {px py : Arr K} {jx jy : Nat} (hx : jx < px.n) (hy : jy < py.n) (x y : K) : numer px py jx jy x y =
    .ok ((∏ l ∈ (range px.n).erase jx, (x - px.v l)) * ∏ l ∈ (range py.n).erase jy, (y - py.v l)) := by
  unfold numer
  rw [skipProd_ok hx le_rfl, ok_bind, skipProd_ok hy le_rfl, one_mul]

theorem denoms_tot {p : Arr K} (hp : DistinctPts p.n p.v) (junk : Nat → K) :
    Tot (denoms p ⟨p.n, junk⟩) fun d => d.n = p.n ∧ ∀ j < p.n, d.v j = 1 / ∏ l ∈ (range p.n).erase j, (p.v j - p.v l) := by
  unfold denoms
  refine (forUp_tot (fun k (d : Arr K) => d.n = p.n ∧ ∀ j < k, d.v j = 1 / ∏ l ∈ (range p.n).erase j, (p.v j - p.v l)) (Nat.zero_le _)
    ⟨rfl, fun j hj => absurd hj (Nat.not_lt_zero _)⟩ ?_)
  rintro k d _ hk ⟨h1, h2⟩
  rw [Arr.get_ok hk, ok_bind, skipProd_ok hk le_rfl, ok_bind, one_mul, if_neg, Arr.set_ok (by omega)]
  · refine ⟨_, rfl, h1, fun j hj => ?_⟩
    simp only
    split
    · rename_i e; rw [e]
    · exact h2 j (by omega)
  · rw [prod_eq_zero_iff]
    rintro ⟨l, hl, e⟩
    rw [mem_erase, mem_range] at hl
    exact hl.1 (hp l hl.2 k hk (sub_eq_zero.mp e).symm)

theorem denoms_nan {p : Arr K} (hp : ¬ DistinctPts p.n p.v) (junk : Nat → K) : denoms p ⟨p.n, junk⟩ = .error .nan := by
  unfold denoms
  unfold DistinctPts at hp
  push Not at hp
  obtain ⟨i, hi, j, hj, e, hne⟩ := hp
  have hz : ∃ k < p.n, ∏ l ∈ (range p.n).erase k, (p.v k - p.v l) = 0 := ⟨i, hi, prod_eq_zero (i := j) (by simp [hj, Ne.symm hne]) (sub_eq_zero.mpr e)⟩
  classical
  obtain ⟨k, ⟨hk, hkz⟩, hmin⟩ : ∃ k, (k < p.n ∧ ∏ l ∈ (range p.n).erase k, (p.v k - p.v l) = 0) ∧
      ∀ k' < k, ∏ l ∈ (range p.n).erase k', (p.v k' - p.v l) ≠ 0 := by
    refine ⟨Nat.find hz, Nat.find_spec hz, fun k' hk' h => Nat.find_min hz hk' ⟨by have := (Nat.find_spec hz).1; omega, h⟩⟩
  have h1 : Tot (forUp 0 k (fun j (d : Arr K) => do
      let pj ← p.get j
      let denom ← skipProd p p.n j pj 1
      if denom = 0 then throw .nan else d.set j (1 / denom)) ⟨p.n, junk⟩) fun d => d.n = p.n := by
    refine forUp_tot (fun _ (d : Arr K) => d.n = p.n) (Nat.zero_le _) rfl ?_
    rintro q d _ hq h1
    rw [Arr.get_ok (by omega), ok_bind, skipProd_ok (by omega) le_rfl, ok_bind, one_mul, if_neg (hmin q hq), Arr.set_ok (by omega)]
    exact ⟨_, rfl, h1⟩
  obtain ⟨d, e1, hd⟩ := h1
  exact P1.loop_fail hk e1 (by
    rw [Arr.get_ok hk, ok_bind, skipProd_ok hk le_rfl, ok_bind, one_mul, if_pos hkz]; rfl)

end H2.Interp
