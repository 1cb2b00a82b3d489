import Verif.Proof.Tridiag
import Verif.Spec.Tridiag
import Mathlib.Analysis.CStarAlgebra.Matrix

set_option linter.unusedSectionVars false

/-! The similarity transformations of the tridiagonalization (C72). -/

namespace H2.Eig
open Spec Krylov Matrix
open scoped Matrix.Norms.L2Operator
variable {𝕜 : Type} [RCLike 𝕜]

/-- contract of `SIGN1` -/
def IsSign (sgn : 𝕜 → 𝕜) : Prop := ∀ x, ‖sgn x‖ = 1 ∧ sgn x * (‖x‖ : 𝕜) = x

theorem unit_star {s : 𝕜} (h : ‖s‖ = 1) : star s * s = 1 := by
  have := RCLike.conj_mul s
  rw [h] at this
  simpa using this

theorem unit_star' {s : 𝕜} (h : ‖s‖ = 1) : s * star s = 1 := by rw [mul_comm]; exact unit_star h

/-- properties of the reflection vector `v` and the factor `beta` for the vector `x` -/
structure House (n k : Nat) (x v : Nat → 𝕜) (beta alpha : 𝕜) : Prop where
  v0 : ∀ i ≤ k, v i = 0
  real : star beta = beta
  unit : beta * ∑ i ∈ Finset.range n, star (v i) * v i = 2
  refl : ∀ i, k < i → i < n → x i - beta * (∑ a ∈ Finset.range n, star (v a) * x a) * v i = if i = k + 1 then alpha else 0

theorem house_of {n k : Nat} {x v : Nat → 𝕜} {s : 𝕜} {N2 : ℝ} (hk : k + 1 < n) (v0 : ∀ i ≤ k, v i = 0) (v1 : v (k + 1) = 1)
    (hs : ‖s‖ = 1) (hs' : s * (‖x (k + 1)‖ : 𝕜) = x (k + 1)) (hN : N2 = ∑ i ∈ Finset.Ico (k + 1) n, ‖x i‖ ^ 2) (hpos : 0 < N2)
    (hv : ∀ i, k + 1 < i → i < n → v i = x i / (x (k + 1) - -s * (√N2 : 𝕜))) :
    x (k + 1) - -s * (√N2 : 𝕜) ≠ 0 ∧ N2 + ‖x (k + 1)‖ * √N2 ≠ 0 ∧
    House n k x v (((1 / (N2 + ‖x (k + 1)‖ * √N2) : ℝ) : 𝕜) * ((‖x (k + 1) - -s * (√N2 : 𝕜)‖ ^ 2 : ℝ) : 𝕜)) (-s * (√N2 : 𝕜)) := by
  have hNp : 0 < √N2 := Real.sqrt_pos.mpr hpos
  have hNN : √N2 * √N2 = N2 := Real.mul_self_sqrt hpos.le
  obtain ⟨N, hNe⟩ : ∃ N, N = √N2 := ⟨_, rfl⟩
  rw [← hNe] at hNp hNN hv ⊢
  obtain ⟨f, hf⟩ : ∃ f, f = ‖x (k + 1)‖ := ⟨_, rfl⟩
  have hf0 : 0 ≤ f := by rw [hf]; exact norm_nonneg _
  rw [← hf] at hs' ⊢
  have hg : x (k + 1) - -s * (N : 𝕜) = s * ((f + N : ℝ) : 𝕜) := by
    rw [← hs']; push_cast; ring
  rw [hg] at hv ⊢
  have hfN : (0 : ℝ) < f + N := by linarith
  have hs0 : s ≠ 0 := fun h => by rw [h, norm_zero] at hs; exact zero_ne_one hs
  have hg0 : s * ((f + N : ℝ) : 𝕜) ≠ 0 := mul_ne_zero hs0 (by exact_mod_cast hfN.ne')
  have hgn : ‖s * ((f + N : ℝ) : 𝕜)‖ = f + N := by
    rw [norm_mul, hs, one_mul, RCLike.norm_ofReal, abs_of_pos hfN]
  have hden : N2 + f * N = N * (N + f) := by rw [← hNN]; ring
  have hden0 : N2 + f * N ≠ 0 := by rw [hden]; exact (mul_pos hNp (by linarith)).ne'
  have hbeta : ((1 / (N2 + f * N) : ℝ) : 𝕜) * ((‖s * ((f + N : ℝ) : 𝕜)‖ ^ 2 : ℝ) : 𝕜) = (((f + N) / N : ℝ) : 𝕜) := by
    rw [hgn, ← RCLike.ofReal_mul, hden]
    congr 1
    have h1 : N ≠ 0 := hNp.ne'
    have h2 : N + f ≠ 0 := by linarith
    field_simp
    ring
  refine ⟨hg0, hden0, ?_⟩
  rw [hbeta]
  -- sums of squares
  have hsum : ∀ g : Nat → 𝕜, (∀ i ≤ k, g i = 0) → ∑ i ∈ Finset.range n, g i = g (k + 1) + ∑ i ∈ Finset.Ico (k + 2) n, g i := by
    intro g hg
    rw [Finset.range_eq_Ico, ← Finset.sum_Ico_consecutive _ (Nat.zero_le (k + 1)) hk.le, Finset.sum_eq_zero, zero_add,
      Finset.sum_eq_sum_Ico_succ_bot hk]
    intro i hi
    exact hg i (by have := (Finset.mem_Ico.mp hi).2; omega)
  have hxx : ∑ i ∈ Finset.Ico (k + 2) n, ‖x i‖ ^ 2 = N * N - f * f := by
    rw [hNN, hN, Finset.sum_eq_sum_Ico_succ_bot hk, ← hf]; ring
  have hss : ∑ i ∈ Finset.Ico (k + 2) n, star (x i) * x i = ((N * N - f * f : ℝ) : 𝕜) := by
    rw [← hxx, RCLike.ofReal_sum]
    refine Finset.sum_congr rfl fun i _ => ?_
    have := RCLike.conj_mul (x i)
    rw [RCLike.star_def, this]; push_cast; rfl
  have sss := unit_star hs
  have hstar : star (s * ((f + N : ℝ) : 𝕜)) = star s * ((f + N : ℝ) : 𝕜) := by
    rw [star_mul', RCLike.star_def, RCLike.conj_ofReal]
  have hfN' : ((f + N : ℝ) : 𝕜) ≠ 0 := by exact_mod_cast hfN.ne'
  have hN' : ((N : ℝ) : 𝕜) ≠ 0 := by exact_mod_cast hNp.ne'
  have hs0' : star s ≠ 0 := star_ne_zero.mpr hs0
  have t1 : ∑ i ∈ Finset.Ico (k + 2) n, star (v i) * v i = ((N * N - f * f : ℝ) : 𝕜) / (((f + N : ℝ) : 𝕜) * ((f + N : ℝ) : 𝕜)) := by
    rw [← hss, Finset.sum_div]
    refine Finset.sum_congr rfl fun i hi => ?_
    rw [Finset.mem_Ico] at hi
    rw [hv i (by omega) hi.2, star_div₀, hstar, div_mul_div_comm]
    congr 1
    calc star s * ((f + N : ℝ) : 𝕜) * (s * ((f + N : ℝ) : 𝕜)) = (star s * s) * (((f + N : ℝ) : 𝕜) * ((f + N : ℝ) : 𝕜)) := by ring
      _ = _ := by rw [sss, one_mul]
  have t2 : ∑ i ∈ Finset.Ico (k + 2) n, star (v i) * x i = ((N * N - f * f : ℝ) : 𝕜) * s / ((f + N : ℝ) : 𝕜) := by
    rw [← hss, Finset.sum_mul, Finset.sum_div]
    refine Finset.sum_congr rfl fun i hi => ?_
    rw [Finset.mem_Ico] at hi
    rw [hv i (by omega) hi.2, star_div₀, hstar, div_mul_eq_mul_div, div_eq_div_iff (mul_ne_zero hs0' hfN') hfN']
    linear_combination (-(star (x i) * x i * ((f + N : ℝ) : 𝕜))) * sss
  have u1 : (((f + N) / N : ℝ) : 𝕜) * ∑ i ∈ Finset.range n, star (v i) * v i = 2 := by
    rw [hsum _ fun i hi => by rw [v0 i hi]; simp, v1, t1, star_one, one_mul]
    rw [show (1 : 𝕜) = ((1 : ℝ) : 𝕜) by simp, ← RCLike.ofReal_mul, ← RCLike.ofReal_div, ← RCLike.ofReal_add, ← RCLike.ofReal_mul,
      show (2 : 𝕜) = ((2 : ℝ) : 𝕜) from (RCLike.ofReal_ofNat 2).symm]
    congr 1
    have h1 : N ≠ 0 := hNp.ne'
    have h2 : f + N ≠ 0 := hfN.ne'
    field_simp
    ring
  have u2 : (((f + N) / N : ℝ) : 𝕜) * ∑ a ∈ Finset.range n, star (v a) * x a = s * ((f + N : ℝ) : 𝕜) := by
    rw [hsum _ fun i hi => by rw [v0 i hi]; simp, v1, t2, star_one, one_mul, ← hs']
    have e : s * (f : 𝕜) + ((N * N - f * f : ℝ) : 𝕜) * s / ((f + N : ℝ) : 𝕜) = s * ((f + (N * N - f * f) / (f + N) : ℝ) : 𝕜) := by
      push_cast; ring
    rw [e, mul_left_comm, ← RCLike.ofReal_mul]
    congr 2
    have h1 : N ≠ 0 := hNp.ne'
    have h2 : f + N ≠ 0 := hfN.ne'
    field_simp
    ring
  refine ⟨v0, ?_, u1, fun i h1 h2 => ?_⟩
  · rw [RCLike.star_def, RCLike.conj_ofReal]
  · rw [u2]
    split_ifs with h
    · rw [h, v1, ← hg]; ring
    · rw [hv i (by omega) h2, mul_div_cancel₀ _ hg0, sub_self]

/-- the matrix that remains after `k` steps: tridiagonal in the first columns, `a` in the trailing block, whose first row and column are scaled by `D` -/
def tdLow (k : Nat) (D : 𝕜) (w : Nat → 𝕜) (l : Nat → ℝ) (a : Nat → Nat → 𝕜) (i j : Nat) : 𝕜 :=
  if j < k then (if i = j + 1 then w j * (l j : 𝕜) else 0) else if j = k then a i j * D else a i j

/-- see `tdLow` -/
def tdM (k : Nat) (D : 𝕜) (w : Nat → 𝕜) (d l : Nat → ℝ) (a : Nat → Nat → 𝕜) (i j : Nat) : 𝕜 :=
  if i = j then (if i < k then (d i : 𝕜) else a i i) else if j < i then tdLow k D w l a i j else star (tdLow k D w l a j i)

theorem td_herm {n k : Nat} {a a1 a2 : Nat → Nat → 𝕜} {v : Nat → 𝕜} {beta : 𝕜} (v0 : ∀ i ≤ k, v i = 0) (hreal : star beta = beta)
    (ha : ∀ i j, k ≤ i → i < n → k ≤ j → j < n → a i j = star (a j i))
    (h1 : ∀ i j, k < i → i < n → k < j → j < n → a1 i j = a i j - beta * (∑ b ∈ Finset.range n, star (v b) * a b j) * v i)
    (h2 : ∀ i j, k < i → i < n → k < j → j < n → a2 i j = a1 i j - beta * (∑ b ∈ Finset.range n, v b * a1 i b) * star (v j))
    {i j : Nat} (hi : k < i) (hi' : i < n) (hj : k < j) (hj' : j < n) : a2 i j = star (a2 j i) := by
  have g : ∀ i j, k < i → i < n → k < j → j < n → a2 i j = a i j - beta * (∑ b ∈ Finset.range n, star (v b) * a b j) * v i
      - beta * (∑ b ∈ Finset.range n, v b * a i b) * star (v j)
      + beta * beta * (∑ b ∈ Finset.range n, ∑ c ∈ Finset.range n, v b * star (v c) * a c b) * v i * star (v j) := by
    intro i j hi hi' hj hj'
    rw [h2 i j hi hi' hj hj', h1 i j hi hi' hj hj']
    have e : ∑ b ∈ Finset.range n, v b * a1 i b = ∑ b ∈ Finset.range n, v b * a i b
        - beta * (∑ b ∈ Finset.range n, ∑ c ∈ Finset.range n, v b * star (v c) * a c b) * v i := by
      rw [Finset.mul_sum, Finset.sum_mul, ← Finset.sum_sub_distrib]
      refine Finset.sum_congr rfl fun b hb => ?_
      by_cases hbk : b ≤ k
      · rw [v0 b hbk]; simp
      · rw [h1 i b hi hi' (by omega) (Finset.mem_range.mp hb)]
        have e2 : ∑ c ∈ Finset.range n, v b * star (v c) * a c b = v b * ∑ c ∈ Finset.range n, star (v c) * a c b := by
          rw [Finset.mul_sum]
          exact Finset.sum_congr rfl fun c _ => mul_assoc _ _ _
        rw [e2]; ring
    rw [e]; ring
  rw [g i j hi hi' hj hj', g j i hj hj' hi hi']
  have e1 : ∀ j, k < j → j < n → star (∑ b ∈ Finset.range n, v b * a j b) = ∑ b ∈ Finset.range n, star (v b) * a b j := by
    intro j hj hj'
    rw [star_sum]
    refine Finset.sum_congr rfl fun b hb => ?_
    by_cases hbk : b ≤ k
    · rw [v0 b hbk]; simp
    · rw [star_mul', ha b j (by omega) (Finset.mem_range.mp hb) (by omega) hj']
  have e2 : star (∑ b ∈ Finset.range n, ∑ c ∈ Finset.range n, v b * star (v c) * a c b) = ∑ b ∈ Finset.range n, ∑ c ∈ Finset.range n, v b * star (v c) * a c b := by
    rw [star_sum, Finset.sum_comm]
    refine Finset.sum_congr rfl fun b hb => ?_
    rw [star_sum]
    refine Finset.sum_congr rfl fun c hc => ?_
    by_cases hbk : b ≤ k
    · rw [v0 b hbk]; simp
    by_cases hck : c ≤ k
    · rw [v0 c hck]; simp
    rw [star_mul', star_mul', star_star, ← ha b c (by omega) (Finset.mem_range.mp hb) (by omega) (Finset.mem_range.mp hc)]
    ring
  simp only [star_add, star_sub, star_mul', star_star, hreal]
  rw [e2, ← ha i j (by omega) hi' (by omega) hj', e1 j hj hj', ← e1 i hi hi', star_star]
  ring

/-- one step in terms of the entries -/
theorem td_entries {n k : Nat} {D D' alpha nsign : 𝕜} {w w' : Nat → 𝕜} {d d' l l' : Nat → ℝ} {a a1 a2 : Nat → Nat → 𝕜} {v : Nat → 𝕜} {beta : 𝕜}
    (hk : k + 1 < n) (hD : ‖D'‖ = 1) (ha : ∀ i j, k ≤ i → i < n → k ≤ j → j < n → a i j = star (a j i))
    (hh : House n k (fun i => a i k) v beta alpha)
    (h1 : ∀ i j, k < i → i < n → k < j → j < n → a1 i j = a i j - beta * (∑ b ∈ Finset.range n, star (v b) * a b j) * v i)
    (h2 : ∀ i j, k < i → i < n → k < j → j < n → a2 i j = a1 i j - beta * (∑ b ∈ Finset.range n, v b * a1 i b) * star (v j))
    (hd : ∀ i < k, d' i = d i) (hdk : (d' k : 𝕜) = a k k) (hl : ∀ i < k, l' i = l i) (hw : ∀ i < k, w' i = w i)
    (hwk : w' k * (l' k : 𝕜) = star D' * alpha * D) {i j : Nat} (hi : i < n) (hj : j < n) :
    (fun Z : Nat → Nat → 𝕜 => star (if i = k + 1 then D' else 1) * Z i j * (if j = k + 1 then D' else 1) = tdM (k + 1) D' w' d' l' a2 i j)
      fun i j => (fun Y : Nat → Nat → 𝕜 => Y i j - beta * (∑ b ∈ Finset.range n, v b * Y i b) * star (v j))
        fun i j => tdM k D w d l a i j - beta * (∑ b ∈ Finset.range n, star (v b) * tdM k D w d l a b j) * v i := by
  obtain ⟨M, hM⟩ : ∃ M, M = tdM k D w d l a := ⟨_, rfl⟩
  have m1 : ∀ b j, k < b → j < k → M b j = 0 := by
    intro b j hb hj
    rw [hM]; unfold tdM tdLow
    rw [if_neg (by omega), if_pos (by omega), if_pos hj, if_neg (by omega)]
  have m2 : ∀ b, k < b → M b k = a b k * D := by
    intro b hb
    rw [hM]; unfold tdM tdLow
    rw [if_neg (by omega), if_pos hb, if_neg (by omega), if_pos rfl]
  have m3 : ∀ b j, k < b → b < n → k < j → j < n → M b j = a b j := by
    intro b j hb hb' hj hj'
    rw [hM]; unfold tdM tdLow
    by_cases e : b = j
    · rw [if_pos e, if_neg (by omega), e]
    · rw [if_neg e]
      by_cases e2 : j < b
      · rw [if_pos e2, if_neg (by omega), if_neg (by omega)]
      · rw [if_neg e2, if_neg (by omega), if_neg (by omega)]
        exact (ha b j (by omega) hb' (by omega) hj').symm
  have m4 : ∀ i j, i < n → j < n → M i j = star (M j i) := by
    intro i j hi hj
    rw [hM]; unfold tdM
    by_cases e : i = j
    · rw [if_pos e, if_pos e.symm, e]
      split_ifs
      · rw [RCLike.star_def, RCLike.conj_ofReal]
      · exact ha j j (by omega) hj (by omega) hj
    · rw [if_neg e, if_neg (show ¬ j = i from fun h => e h.symm)]
      by_cases e2 : j < i
      · rw [if_pos e2, if_neg (by omega), star_star]
      · rw [if_neg e2, if_pos (by omega)]
  have s1 : ∀ j < k, ∑ b ∈ Finset.range n, star (v b) * M b j = 0 := by
    intro j hj
    refine Finset.sum_eq_zero fun b hb => ?_
    by_cases hbk : b ≤ k
    · rw [hh.v0 b hbk]; simp
    · rw [m1 b j (by omega) hj, mul_zero]
  have s2 : ∑ b ∈ Finset.range n, star (v b) * M b k = (∑ b ∈ Finset.range n, star (v b) * a b k) * D := by
    rw [Finset.sum_mul]
    refine Finset.sum_congr rfl fun b hb => ?_
    by_cases hbk : b ≤ k
    · rw [hh.v0 b hbk]; simp
    · rw [m2 b (by omega), mul_assoc]
  have s3 : ∀ j, k < j → j < n → ∑ b ∈ Finset.range n, star (v b) * M b j = ∑ b ∈ Finset.range n, star (v b) * a b j := by
    intro j hj hj'
    refine Finset.sum_congr rfl fun b hb => ?_
    by_cases hbk : b ≤ k
    · rw [hh.v0 b hbk]; simp
    · rw [m3 b j (by omega) (Finset.mem_range.mp hb) hj hj']
  obtain ⟨Y, hY⟩ : ∃ Y : Nat → Nat → 𝕜, Y = fun i j => M i j - beta * (∑ b ∈ Finset.range n, star (v b) * M b j) * v i := ⟨_, rfl⟩
  have y1 : ∀ i j, i ≤ k → Y i j = M i j := by
    intro i j hi
    rw [hY]
    simp only [hh.v0 i hi, mul_zero, sub_zero]
  have y2 : ∀ i j, j < k → Y i j = M i j := by
    intro i j hj
    rw [hY]
    simp only [s1 j hj, mul_zero, zero_mul, sub_zero]
  have y3 : ∀ i, k < i → i < n → Y i k = if i = k + 1 then alpha * D else 0 := by
    intro i hi hi'
    have := hh.refl i hi hi'
    rw [hY]
    simp only [s2, m2 i hi]
    have e : a i k * D - beta * ((∑ b ∈ Finset.range n, star (v b) * a b k) * D) * v i
        = (a i k - beta * (∑ b ∈ Finset.range n, star (v b) * a b k) * v i) * D := by ring
    rw [e, this]
    split_ifs
    · rfl
    · rw [zero_mul]
  have y4 : ∀ i j, k < i → i < n → k < j → j < n → Y i j = a1 i j := by
    intro i j hi hi' hj hj'
    rw [h1 i j hi hi' hj hj', hY]
    simp only [s3 j hj hj', m3 i j hi hi' hj hj']
  obtain ⟨Z, hZ⟩ : ∃ Z : Nat → Nat → 𝕜, Z = fun i j => Y i j - beta * (∑ b ∈ Finset.range n, v b * Y i b) * star (v j) := ⟨_, rfl⟩
  have z1 : ∀ i j, j ≤ k → Z i j = Y i j := by
    intro i j hj
    rw [hZ]
    simp only [hh.v0 j hj, star_zero, mul_zero, sub_zero]
  have z2 : ∀ i j, k < i → i < n → k < j → j < n → Z i j = a2 i j := by
    intro i j hi hi' hj hj'
    rw [h2 i j hi hi' hj hj', hZ]
    have e : ∑ b ∈ Finset.range n, v b * Y i b = ∑ b ∈ Finset.range n, v b * a1 i b := by
      refine Finset.sum_congr rfl fun b hb => ?_
      by_cases hbk : b ≤ k
      · rw [hh.v0 b hbk]; simp
      · rw [y4 i b hi hi' (by omega) (Finset.mem_range.mp hb)]
    simp only [e, y4 i j hi hi' hj hj']
  have z3 : ∀ i j, i ≤ k → k < j → j < n → Z i j = star (Y j i) := by
    intro i j hi hj hj'
    rw [hZ]
    simp only [y1 i _ hi]
    rw [hY]
    simp only
    have e : ∑ b ∈ Finset.range n, star (star (v b) * M b i) = ∑ b ∈ Finset.range n, v b * M i b := by
      refine Finset.sum_congr rfl fun b hb => ?_
      rw [star_mul', star_star, ← m4 i b (by omega) (Finset.mem_range.mp hb)]
    rw [star_sub, star_mul', star_mul', hh.real, star_sum, ← m4 i j (by omega) hj', e]
  suffices hs : star (if i = k + 1 then D' else 1) * Z i j * (if j = k + 1 then D' else 1) = tdM (k + 1) D' w' d' l' a2 i j by
    rw [hZ, hY, hM] at hs; exact hs
  -- the entries of the new matrix below the diagonal
  have low : ∀ i j, j < i → i < n → star (if i = k + 1 then D' else 1) * Z i j * (if j = k + 1 then D' else 1) = tdLow (k + 1) D' w' l' a2 i j := by
    intro i j hij hi
    unfold tdLow
    by_cases c1 : j < k
    · rw [z1 i j c1.le, y2 i j c1, if_pos (show j < k + 1 by omega), if_neg (show j ≠ k + 1 by omega), mul_one]
      rw [hM]; unfold tdM tdLow
      rw [if_neg (show ¬ i = j by omega), if_pos hij, if_pos c1, hw j c1, hl j c1]
      split_ifs <;> first | omega | simp
    · by_cases c2 : j = k
      · rw [c2, z1 i k (le_refl _), y3 i (by omega) hi, if_pos (show k < k + 1 by omega), if_neg (show k ≠ k + 1 by omega), mul_one]
        split_ifs with h
        · rw [hwk]; ring
        · rw [mul_zero]
      · rw [z2 i j (by omega) hi (by omega) (by omega), if_neg (show ¬ j < k + 1 by omega), if_neg (show i ≠ k + 1 by omega), star_one, one_mul]
        split_ifs
        · rfl
        · rw [mul_one]
  have zh : ∀ i j, i < j → j < n → Z i j = star (Z j i) := by
    intro i j hij hj
    by_cases c1 : i ≤ k
    · by_cases c2 : k < j
      · rw [z3 i j c1 c2 hj, z1 j i c1]
      · rw [z1 i j (by omega), z1 j i c1, y1 i j c1, y1 j i (by omega)]
        exact m4 i j (by omega) hj
    · rw [z2 i j (by omega) (by omega) (by omega) hj, z2 j i (by omega) hj (by omega) (by omega)]
      exact td_herm hh.v0 hh.real ha h1 h2 (by omega) (by omega) (by omega) hj
  unfold tdM
  by_cases c1 : i = j
  · rw [if_pos c1, c1]
    by_cases c2 : j < k
    · rw [if_neg (by omega), z1 j j c2.le, y2 j j c2, if_pos (by omega), hd j c2, hM]
      unfold tdM
      rw [if_pos rfl, if_pos c2]; simp
    · by_cases c3 : j = k
      · rw [c3, if_neg (by omega), z1 k k (le_refl _), y1 k k (le_refl _), if_pos (by omega), hdk, hM]
        unfold tdM
        rw [if_pos rfl, if_neg (by omega)]; simp
      · rw [z2 j j (by omega) hj (by omega) hj, if_neg (show ¬ j < k + 1 by omega)]
        split_ifs with c4
        · rw [mul_right_comm, unit_star hD, one_mul]
        · simp
  · rw [if_neg c1]
    by_cases c2 : j < i
    · rw [if_pos c2]; exact low i j c2 hi
    · rw [if_neg c2, ← low j i (by omega) hj, zh i j (by omega) hj]
      simp only [star_mul', star_star]
      ring

end H2.Eig
