import Verif.Model.FactorChol
import Verif.Spec.FactorChol
import Verif.Proof.FactorUse
import Mathlib.Analysis.Matrix.PosDef
import Mathlib.LinearAlgebra.Matrix.NonsingularInverse

/-! # Cholesky and LDL^T decompositions, as LR decompositions of the self-adjoint matrix -/

set_option linter.unusedSectionVars false

namespace H2.Dense
open Spec

section
variable {K : Type} [Field K] [StarRing K]

/-- A row-by-row loop over a region with rows of different lengths. -/
theorem rowsLoop {x : Mat} {m0 m : Mem K} {F : Nat → Nat → K} (h : MatBecomes x m0 F m) {lo hi lo' : Nat} {hi' : Nat → Nat}
    (hle : lo ≤ hi) (hhi : hi ≤ x.rows) (hle' : ∀ i, lo ≤ i → i < hi → lo' ≤ hi' i) (hhi' : ∀ i, lo ≤ i → i < hi → hi' i ≤ x.cols)
    {new : Nat → Nat → K} {body : Nat → Nat → Mem K → R (Mem K)}
    (hb : ∀ i, lo ≤ i → i < hi → ∀ j, lo' ≤ j → j < hi' i → ∀ m1 G, MatBecomes x m0 G m1 →
      (∀ r q, ¬ (lo ≤ r ∧ lo' ≤ q ∧ q < hi' r ∧ (r < i ∨ r = i ∧ q < j)) → G r q = F r q) →
      body i j m1 = m1.write (x.addr i j) (new i j)) :
    Tot (forUp lo hi (fun i m => forUp lo' (hi' i) (fun j m => body i j m) m) m)
      (MatBecomes x m0 fun i j => if lo ≤ i ∧ i < hi ∧ lo' ≤ j ∧ j < hi' i then new i j else F i j) := by
  refine forUp_tot (fun k m' => MatBecomes x m0 (fun i j => if lo ≤ i ∧ i < k ∧ lo' ≤ j ∧ j < hi' i then new i j else F i j) m') hle
    (becomes_congr h fun i _ j _ => by rw [if_neg (by omega)]) ?_
  intro k m' h1 h2 h3
  refine (lineLoop h3 (show k < x.rows by omega) (hle' k h1 h2) (hhi' k h1 h2) (new := new k) fun j hj1 hj2 m1 G h4 h5 =>
    hb k h1 h2 j hj1 hj2 m1 G h4 fun r q hrq => ?_).mono fun m2 h4 => becomes_congr h4 fun i _ j _ => ?_
  · have hn : ¬ (lo ≤ r ∧ r < k ∧ lo' ≤ q ∧ q < hi' r) := fun h => hrq ⟨h.1, h.2.2.1, h.2.2.2, .inl h.2.1⟩
    rw [h5 r q (fun h => ?_), if_neg hn]
    obtain ⟨rfl, h⟩ := h
    exact hrq ⟨h1, h.1, by omega, .inr ⟨rfl, h.2⟩⟩
  · by_cases e : i = k ∧ lo' ≤ j ∧ j < hi' k
    · obtain ⟨rfl, e⟩ := e
      rw [if_pos ⟨rfl, e⟩, if_pos ⟨h1, by omega, e⟩]
    · rw [if_neg e]
      by_cases e' : lo ≤ i ∧ i < k ∧ lo' ≤ j ∧ j < hi' i
      · rw [if_pos e', if_pos ⟨e'.1, by omega, e'.2.2⟩]
      · rw [if_neg e', if_neg]
        rintro ⟨g1, g2, g3⟩
        rcases Nat.lt_succ_iff_lt_or_eq.mp g2 with g | g
        · exact e' ⟨g1, g, g3⟩
        · exact e ⟨g, g ▸ g3⟩

end

variable {𝕜 : Type} [RCLike 𝕜]

/-! ### the LR decomposition behind the LDL^T decomposition -/

/-- the LR factors (and the remainder) after `i` steps of the LDL^T decomposition -/
def hatD (i : Nat) (F : Nat → Nat → 𝕜) (r c : Nat) : 𝕜 :=
  if c ≤ r then F r c else if r < i then F r r * star (F c r) else star (F c r)

/-- one step of the LDL^T decomposition -/
noncomputable def ldltF (n i : Nat) (F : Nat → Nat → 𝕜) (r c : Nat) : 𝕜 :=
  if i < r ∧ r < n ∧ c = i then F r i / F i i
  else if i < c ∧ c ≤ r ∧ r < n then F r c - F i i * (F r i / F i i) * star (F c i / F i i) else F r c

theorem hatD_step {n i : Nat} {F : Nat → Nat → 𝕜} (hp : F i i ≠ 0) (hreal : star (F i i) = F i i) (hi : i < n) {r c : Nat}
    (hr : r < n) (hc : c < n) : hatD (i + 1) (ldltF n i F) r c = lrF n i (hatD i F) r c := by
  have old : ∀ r c, r ≤ i ∨ c < i → ldltF n i F r c = F r c := by
    intro r c h
    unfold ldltF
    rw [if_neg (by omega), if_neg (by omega)]
  have col : ∀ r, i < r → r < n → ldltF n i F r i = F r i / F i i := by
    intro r h1 h2
    unfold ldltF
    rw [if_pos ⟨h1, h2, rfl⟩]
  have new : ∀ r c, i < c → c ≤ r → r < n → ldltF n i F r c = F r c - F i i * (F r i / F i i) * star (F c i / F i i) := by
    intro r c h1 h2 h3
    unfold ldltF
    rw [if_neg (by omega), if_pos ⟨h1, h2, h3⟩]
  by_cases e : i < r
  · have l1 : lrF n i (hatD i F) r c = if c = i then F r i * (1 / F i i) else if i < c ∧ c < n then
        hatD i F r c - F r i * (1 / F i i) * star (F c i) else hatD i F r c := by
      unfold lrF
      rw [if_pos ⟨e, hr⟩]
      by_cases e1 : c = i
      · subst e1
        rw [if_pos rfl, if_pos rfl]
        unfold hatD
        rw [if_pos (by omega), if_pos (by omega)]
      · rw [if_neg e1, if_neg e1]
        by_cases e2 : i < c ∧ c < n
        · rw [if_pos e2, if_pos e2]
          congr 1
          unfold hatD
          rw [if_pos (show i ≤ r by omega), if_pos (show i ≤ i by omega), if_neg (show ¬ c ≤ i by omega),
            if_neg (show ¬ i < i by omega)]
        · rw [if_neg e2, if_neg e2]
    rw [l1]
    by_cases e1 : c = i
    · subst e1
      rw [if_pos rfl]
      unfold hatD
      rw [if_pos (by omega), col r e hr]
      ring
    · rw [if_neg e1]
      by_cases e2 : i < c
      · rw [if_pos ⟨e2, hc⟩]
        unfold hatD
        by_cases e3 : c ≤ r
        · rw [if_pos e3, if_pos e3, new r c e2 e3 hr, star_div₀, hreal]
          field_simp
        · rw [if_neg e3, if_neg e3, if_neg (by omega), if_neg (by omega), new c r e (by omega) hc, star_sub, star_mul', star_mul',
            star_star, star_div₀, hreal]
          field_simp
      · rw [if_neg (by omega)]
        unfold hatD
        rw [if_pos (by omega), if_pos (by omega), old r c (by omega)]
  · have l1 : lrF n i (hatD i F) r c = hatD i F r c := by unfold lrF; rw [if_neg (by omega)]
    rw [l1]
    unfold hatD
    by_cases e1 : c ≤ r
    · rw [if_pos e1, if_pos e1, old r c (by omega)]
    · rw [if_neg e1, if_neg e1, if_pos (by omega)]
      by_cases e2 : r < i
      · rw [if_pos e2, old r r (by omega), old c r (by omega)]
      · have : r = i := by omega
        subst this
        rw [if_neg e2, old r r (by omega), col c (by omega) hc, star_div₀, hreal]
        field_simp

theorem ldltF_real {n i : Nat} {F : Nat → Nat → 𝕜} (h : ∀ r < n, star (F r r) = F r r) (hi : i < n) :
    ∀ r < n, star (ldltF n i F r r) = ldltF n i F r r := by
  intro r hr
  unfold ldltF
  by_cases e : i < r
  · rw [if_neg (by omega), if_pos (by omega), star_sub, star_mul', star_mul', star_star, h r hr, h i hi]
    ring
  · rw [if_neg (by omega), if_neg (by omega), h r hr]

theorem hatD_zero (A : Nat → Nat → 𝕜) : hatD 0 A = herm A := by
  funext r c
  unfold hatD herm
  by_cases e : c ≤ r
  · rw [if_pos e, if_pos e]
  · rw [if_neg e, if_neg e, if_neg (by omega)]

/-! ### the LR decomposition behind the Cholesky decomposition -/

/-- the LR factors (and the remainder) after `i` steps of the Cholesky decomposition -/
def hatC (i : Nat) (F : Nat → Nat → 𝕜) (r c : Nat) : 𝕜 :=
  if c = r then if r < i then F r r * F r r else F r r
  else if c < r then if c < i then F r c / F c c else F r c
  else if r < i then F r r * star (F c r) else star (F c r)

/-- one step of the Cholesky decomposition, with `q` the new diagonal element -/
noncomputable def cholF (n i : Nat) (q : 𝕜) (F : Nat → Nat → 𝕜) (r c : Nat) : 𝕜 :=
  if r = i ∧ c = i then q
  else if i < r ∧ r < n ∧ c = i then F r i / q
  else if i < c ∧ c ≤ r ∧ r < n then F r c - (F r i / q) * star (F c i / q) else F r c

theorem hatC_step {n i : Nat} {F : Nat → Nat → 𝕜} {q : 𝕜} (hq : q * q = F i i) (hp : q ≠ 0) (hreal : star q = q) (hi : i < n)
    {r c : Nat} (hr : r < n) (hc : c < n) : hatC (i + 1) (cholF n i q F) r c = lrF n i (hatC i F) r c := by
  have old : ∀ r c, (r ≤ i ∨ c < i) → ¬ (r = i ∧ c = i) → cholF n i q F r c = F r c := by
    intro r c h h'
    unfold cholF
    rw [if_neg h', if_neg (by omega), if_neg (by omega)]
  have dia : cholF n i q F i i = q := by unfold cholF; rw [if_pos ⟨rfl, rfl⟩]
  have col : ∀ r, i < r → r < n → cholF n i q F r i = F r i / q := by
    intro r h1 h2
    unfold cholF
    rw [if_neg (by omega), if_pos ⟨h1, h2, rfl⟩]
  have new : ∀ r c, i < c → c ≤ r → r < n → cholF n i q F r c = F r c - (F r i / q) * star (F c i / q) := by
    intro r c h1 h2 h3
    unfold cholF
    rw [if_neg (by omega), if_neg (by omega), if_pos ⟨h1, h2, h3⟩]
  have hFi : F i i ≠ 0 := by rw [← hq]; exact mul_ne_zero hp hp
  by_cases e : i < r
  · have l1 : lrF n i (hatC i F) r c = if c = i then F r i * (1 / F i i) else if i < c ∧ c < n then
        hatC i F r c - F r i * (1 / F i i) * star (F c i) else hatC i F r c := by
      have h1 : hatC i F r i = F r i := by
        unfold hatC; rw [if_neg (by omega), if_pos (by omega), if_neg (by omega)]
      have h2 : hatC i F i i = F i i := by
        unfold hatC; rw [if_pos rfl, if_neg (by omega)]
      unfold lrF
      rw [if_pos ⟨e, hr⟩, h1, h2]
      by_cases e1 : c = i
      · rw [if_pos e1, if_pos e1]
      · rw [if_neg e1, if_neg e1]
        by_cases e2 : i < c ∧ c < n
        · rw [if_pos e2, if_pos e2]
          congr 1
          unfold hatC
          rw [if_neg (show ¬ c = i by omega), if_neg (show ¬ c < i by omega), if_neg (show ¬ i < i by omega)]
        · rw [if_neg e2, if_neg e2]
    rw [l1]
    by_cases e1 : c = i
    · subst e1
      rw [if_pos rfl]
      unfold hatC
      rw [if_neg (by omega), if_pos (by omega), if_pos (by omega), col r e hr, dia, ← hq]
      field_simp
    · rw [if_neg e1]
      by_cases e2 : i < c
      · rw [if_pos ⟨e2, hc⟩, ← hq]
        unfold hatC
        by_cases e3 : c = r
        · subst e3
          rw [if_pos rfl, if_pos rfl, if_neg (by omega), if_neg (by omega), new c c e2 le_rfl hr, star_div₀, hreal]
          field_simp
        · rw [if_neg e3, if_neg e3]
          by_cases e4 : c < r
          · rw [if_pos e4, if_pos e4, if_neg (by omega), if_neg (by omega), new r c e2 (by omega) hr, star_div₀, hreal]
            field_simp
          · rw [if_neg e4, if_neg e4, if_neg (by omega), if_neg (by omega), new c r e (by omega) hc, star_sub, star_mul',
              star_star, star_div₀, hreal]
            field_simp
      · rw [if_neg (by omega)]
        unfold hatC
        rw [if_neg (show ¬ c = r by omega), if_neg (show ¬ c = r by omega), if_pos (show c < r by omega), if_pos (show c < r by omega),
          if_pos (show c < i + 1 by omega), if_pos (show c < i by omega), old r c (by omega) (by omega),
          old c c (by omega) (by omega)]
  · have l1 : lrF n i (hatC i F) r c = hatC i F r c := by unfold lrF; rw [if_neg (by omega)]
    rw [l1]
    unfold hatC
    by_cases e1 : c = r
    · subst e1
      rw [if_pos rfl, if_pos rfl, if_pos (by omega)]
      by_cases e2 : c < i
      · rw [if_pos e2, old c c (by omega) (by omega)]
      · have : c = i := by omega
        subst this
        rw [if_neg e2, dia, hq]
    · rw [if_neg e1, if_neg e1]
      by_cases e3 : c < r
      · rw [if_pos e3, if_pos e3, if_pos (by omega), if_pos (by omega), old r c (by omega) (by omega), old c c (by omega) (by omega)]
      · rw [if_neg e3, if_neg e3, if_pos (by omega)]
        by_cases e2 : r < i
        · rw [if_pos e2, old r r (by omega) (by omega), old c r (by omega) (by omega)]
        · have : r = i := by omega
          subst this
          rw [if_neg e2, dia, col c (by omega) hc, star_div₀, hreal]
          field_simp

theorem cholF_real {n i : Nat} {F : Nat → Nat → 𝕜} {q : 𝕜} (hreal : star q = q) (h : ∀ r < n, star (F r r) = F r r) :
    ∀ r < n, star (cholF n i q F r r) = cholF n i q F r r := by
  intro r hr
  unfold cholF
  by_cases e0 : r = i
  · rw [if_pos ⟨e0, e0⟩, hreal]
  · rw [if_neg (by omega)]
    by_cases e : i < r
    · rw [if_neg (by omega), if_pos (by omega), star_sub, star_mul', star_star, h r hr]
      ring
    · rw [if_neg (by omega), if_neg (by omega), h r hr]

theorem hatC_zero (A : Nat → Nat → 𝕜) : hatC 0 A = herm A := by
  funext r c
  unfold hatC herm
  by_cases e : c = r
  · rw [if_pos e, if_pos (show c ≤ r by omega), if_neg (show ¬ r < 0 by omega), e]
  · rw [if_neg e]
    by_cases e1 : c < r
    · rw [if_pos e1, if_neg (show ¬ c < 0 by omega), if_pos (show c ≤ r by omega)]
    · rw [if_neg e1, if_neg (show ¬ r < 0 by omega), if_neg (show ¬ c ≤ r by omega)]

/-! ### the loops -/

theorem scaleCol_tot {a : Mat} {n i : Nat} {m m' : Mem 𝕜} {F : Nat → Nat → 𝕜} (h : MatBecomes a m F m') (hr : n ≤ a.rows)
    (hc : n ≤ a.cols) (hi : i < n) (alpha : 𝕜) :
    Tot (forUp (i + 1) n (fun j m => do
      let v ← m.read (a.addr j i)
      m.write (a.addr j i) (v * alpha)) m')
      (MatBecomes a m fun r c => if c = i ∧ i + 1 ≤ r ∧ r < n then F r i * alpha else F r c) := by
  refine colLineLoop h (show i < a.cols by omega) (show i + 1 ≤ n by omega) hr (new := fun r => F r i * alpha)
    fun j h1 h2 m1 G h3 h4 => ?_
  rw [becomes_read h3 (show j < a.rows by omega) (show i < a.cols by omega), ok_bind, h4 j i (by omega)]

theorem downdate_tot {a : Mat} {n i : Nat} {m m' : Mem 𝕜} {F : Nat → Nat → 𝕜} (h : MatBecomes a m F m') (hr : n ≤ a.rows)
    (hc : n ≤ a.cols) (hi : i < n) (f : 𝕜 → 𝕜 → 𝕜 → 𝕜) :
    Tot (forUp (i + 1) n (fun j m => forUp (i + 1) (j + 1) (fun k m => do
      let v ← m.read (a.addr j k)
      let l ← m.read (a.addr j i)
      let u ← m.read (a.addr k i)
      m.write (a.addr j k) (f v l u)) m) m')
      (MatBecomes a m fun r c => if i + 1 ≤ r ∧ r < n ∧ i + 1 ≤ c ∧ c < r + 1 then f (F r c) (F r i) (F c i) else F r c) := by
  refine rowsLoop h (hi' := fun j => j + 1) (show i + 1 ≤ n by omega) hr (fun j _ _ => by omega) (fun j _ _ => by omega)
    (new := fun r c => f (F r c) (F r i) (F c i)) fun j h1 h2 k h3 h4 m1 G h5 h6 => ?_
  rw [becomes_read h5 (show j < a.rows by omega) (show k < a.cols by omega), ok_bind,
    becomes_read h5 (show j < a.rows by omega) (show i < a.cols by omega), ok_bind,
    becomes_read h5 (show k < a.rows by omega) (show i < a.cols by omega), ok_bind, h6 j k (by omega), h6 j i (by omega),
    h6 k i (by omega)]

theorem real_of_star {x : 𝕜} (h : star x = x) : ((RCLike.re x : ℝ) : 𝕜) = x := RCLike.conj_eq_iff_re.mp h

theorem ldltStep_tot {a : Mat} {n i : Nat} {m m' : Mem 𝕜} {F : Nat → Nat → 𝕜} (h : MatBecomes a m F m') (hr : n ≤ a.rows)
    (hc : n ≤ a.cols) (hi : i < n) (hreal : star (F i i) = F i i) :
    Tot (ldltStep a n i (RCLike.re (F i i)) m') (MatBecomes a m (ldltF n i F)) := by
  unfold ldltStep
  have e : ((1 / RCLike.re (F i i) : ℝ) : 𝕜) = 1 / F i i := by
    rw [RCLike.ofReal_div, real_of_star hreal, RCLike.ofReal_one]
  refine Tot.bind (scaleCol_tot h hr hc hi _) fun m1 _ h1 => ?_
  refine (downdate_tot h1 hr hc hi fun v l u => v - ((RCLike.re (F i i) : ℝ) : 𝕜) * l * star u).mono fun m2 h2 =>
    becomes_congr h2 fun r _ c _ => ?_
  rw [e, real_of_star hreal]
  unfold ldltF
  by_cases e1 : i < c ∧ c ≤ r ∧ r < n
  · rw [if_pos (show i + 1 ≤ r ∧ r < n ∧ i + 1 ≤ c ∧ c < r + 1 by omega), if_neg (show ¬ (i < r ∧ r < n ∧ c = i) by omega), if_pos e1,
      if_neg (show ¬ (c = i ∧ i + 1 ≤ r ∧ r < n) by omega), if_pos (show i = i ∧ i + 1 ≤ r ∧ r < n by omega),
      if_pos (show i = i ∧ i + 1 ≤ c ∧ c < n by omega), mul_one_div, mul_one_div]
  · rw [if_neg (by omega), if_neg e1]
    by_cases e2 : i < r ∧ r < n ∧ c = i
    · rw [if_pos e2, if_pos (by omega), mul_one_div]
    · rw [if_neg e2, if_neg (by omega)]

theorem cholStep_tot {a : Mat} {n i : Nat} {m m' : Mem 𝕜} {F : Nat → Nat → 𝕜} (h : MatBecomes a m F m') (hr : n ≤ a.rows)
    (hc : n ≤ a.cols) (hi : i < n) (d : ℝ) :
    Tot (cholStep a n i d m') (MatBecomes a m (cholF n i ((√d : ℝ) : 𝕜) F)) := by
  unfold cholStep
  refine Tot.bind (becomes_write h (show i < a.rows by omega) (show i < a.cols by omega) _) fun m0 _ h0 => ?_
  rw [becomes_read h0 (show i < a.rows by omega) (show i < a.cols by omega), ok_bind, fset_same]
  have e : ((RCLike.re (1 / ((√d : ℝ) : 𝕜)) : ℝ) : 𝕜) = 1 / ((√d : ℝ) : 𝕜) := by
    rw [show (1 / ((√d : ℝ) : 𝕜)) = ((1 / √d : ℝ) : 𝕜) by rw [RCLike.ofReal_div, RCLike.ofReal_one], RCLike.ofReal_re]
  simp only
  rw [e]
  refine Tot.bind (scaleCol_tot h0 hr hc hi _) fun m1 _ h1 => ?_
  refine (downdate_tot h1 hr hc hi fun v l u => v - l * star u).mono fun m2 h2 =>
    becomes_congr h2 fun r _ c _ => ?_
  unfold cholF
  by_cases e0 : r = i ∧ c = i
  · rw [if_neg (by omega), if_pos e0, if_neg (by omega), e0.1, e0.2, fset_same]
  · rw [if_neg e0]
    by_cases e1 : i < c ∧ c ≤ r ∧ r < n
    · rw [if_pos (show i + 1 ≤ r ∧ r < n ∧ i + 1 ≤ c ∧ c < r + 1 by omega), if_neg (show ¬ (i < r ∧ r < n ∧ c = i) by omega), if_pos e1,
        if_neg (show ¬ (c = i ∧ i + 1 ≤ r ∧ r < n) by omega), if_pos (show i = i ∧ i + 1 ≤ r ∧ r < n by omega),
        if_pos (show i = i ∧ i + 1 ≤ c ∧ c < n by omega), fset_ne (by omega), fset_ne (by omega), fset_ne (by omega), mul_one_div, mul_one_div]
    · rw [if_neg (by omega), if_neg e1]
      by_cases e2 : i < r ∧ r < n ∧ c = i
      · rw [if_pos e2, if_pos (by omega), fset_ne (by omega), mul_one_div]
      · rw [if_neg e2, if_neg (by omega), fset_ne e0]

/-! ### LDL^T decomposition -/

/-- what the LDL^T decomposition with result `p` leaves behind -/
def LdltPost (A : Nat → Nat → 𝕜) (n p : Nat) (F : Nat → Nat → 𝕜) : Prop :=
  (∀ r < n, star (F r r) = F r r) ∧ LRPost (herm A) n p (hatD (if p = 0 then n else p - 1) F)

theorem ldltBad_iff {d : 𝕜} (h : star d = d) : LdltBad d ↔ d = 0 := by
  unfold LdltBad
  rw [real_of_star h, sub_self, norm_zero]
  constructor
  · rintro (h' | h')
    · norm_num at h'
    · rw [← real_of_star h, h', RCLike.ofReal_zero]
  · rintro rfl
    exact .inr (map_zero _)

theorem hatD_last {i : Nat} {F : Nat → Nat → 𝕜} {r c : Nat} (hr : r < i + 1) (hc : c < i + 1) : hatD (i + 1) F r c = hatD i F r c := by
  unfold hatD
  by_cases e : c ≤ r
  · rw [if_pos e, if_pos e]
  · rw [if_neg e, if_neg e, if_pos (by omega), if_pos (by omega)]

theorem lrInv_congr' {A : Nat → Nat → 𝕜} {n i : Nat} {F G : Nat → Nat → 𝕜} (h : LRInv A n i F) (hi : i ≤ n)
    (hF : ∀ r < n, ∀ c < n, G r c = F r c) : LRInv A n i G := by
  refine ⟨fun j hj => by rw [hF j (by omega) j (by omega)]; exact h.1 j hj, fun r hr c hc => ?_⟩
  rw [h.2 r hr c hc, hF r hr c hc]
  congr 1
  refine Finset.sum_congr rfl fun k hk => ?_
  have := Finset.mem_range.mp hk
  unfold tri
  rw [hF r hr r hr, hF r hr k (by omega), hF k (by omega) k (by omega), hF k (by omega) c hc]

theorem ldltLoop_tot {a : Mat} {A : Nat → Nat → 𝕜} {m : Mem 𝕜} {n : Nat} (hr : n ≤ a.rows) (hc : n ≤ a.cols) (s i : Nat)
    (hn : i + s + 1 = n) (m' : Mem 𝕜) (F : Nat → Nat → 𝕜) (h : MatBecomes a m F m') (hreal : ∀ r < n, star (F r r) = F r r)
    (hU : ∀ r c, r < c → F r c = A r c) (hinv : LRInv (herm A) n i (hatD i F)) :
    Tot (ldltLoop a n s i m') (fun st => ∃ F, MatBecomes a m F st.2 ∧ LdltPost A n st.1 F ∧ ∀ r c, r < c → F r c = A r c) := by
  classical
  have hd : hatD i F i i = F i i := by unfold hatD; rw [if_pos le_rfl]
  induction s generalizing i m' F with
  | zero =>
    unfold ldltLoop
    rw [becomes_read h (show i < a.rows by omega) (show i < a.cols by omega), ok_bind]
    by_cases e : F i i = 0
    · rw [if_pos ((ldltBad_iff (hreal i (by omega))).mpr e)]
      refine Tot.pure ⟨F, h, ⟨hreal, ?_⟩, hU⟩
      simp only
      rw [if_neg (by omega), Nat.add_sub_cancel]
      exact lrPost_fail hinv (by omega) (hd.trans e)
    · rw [if_neg (fun h => e ((ldltBad_iff (hreal i (by omega))).mp h))]
      refine Tot.pure ⟨F, h, ⟨hreal, ?_⟩, hU⟩
      simp only
      rw [if_pos trivial]
      have : n = i + 1 := by omega
      subst this
      rcases lrPost_ok hinv (by rw [hd]; exact e) with g | g
      · exact .inl ⟨rfl, lrInv_congr' g.2 le_rfl fun r hr c hc => hatD_last hr hc⟩
      · exact absurd g.1 (by omega)
  | succ s ih =>
    unfold ldltLoop
    rw [becomes_read h (show i < a.rows by omega) (show i < a.cols by omega), ok_bind]
    by_cases e : F i i = 0
    · rw [if_pos ((ldltBad_iff (hreal i (by omega))).mpr e)]
      refine Tot.pure ⟨F, h, ⟨hreal, ?_⟩, hU⟩
      simp only
      rw [if_neg (by omega), Nat.add_sub_cancel]
      exact lrPost_fail hinv (by omega) (hd.trans e)
    · rw [if_neg (fun h => e ((ldltBad_iff (hreal i (by omega))).mp h))]
      refine Tot.bind (ldltStep_tot h hr hc (by omega) (hreal i (by omega))) fun m2 _ h2 =>
        ih (i + 1) (by omega) m2 _ h2 (ldltF_real hreal (by omega)) (fun r c hrc => ?_) ?_ ?_
      · unfold ldltF; rw [if_neg (by omega), if_neg (by omega)]; exact hU r c hrc
      · exact lrInv_congr' (lrInv_step hinv (by omega) (by rw [hd]; exact e)) (by omega) fun r hr c hc =>
          hatD_step e (hreal i (by omega)) (by omega) hr hc
      · unfold hatD; rw [if_pos le_rfl]

theorem ldltdecomp_tot {a : Mat} {m : Mem 𝕜} (ha : a.Valid m) (hsq : a.rows = a.cols) (h0 : 0 < a.rows) (hlt : a.rows < 2 ^ 32)
    (hreal : ∀ r < a.rows, star (a.val m r r) = a.val m r r) :
    Tot (ldltdecomp a m) (fun st => ∃ F, MatBecomes a m F st.2 ∧ LdltPost (a.val m) a.rows st.1 F ∧
      ∀ r c, r < c → F r c = a.val m r c) := by
  refine Tot.cassert (by simpa using hsq) ?_
  rw [show (a.rows + (2 ^ 32 - 1)) % 2 ^ 32 = a.rows - 1 by omega]
  exact ldltLoop_tot le_rfl (by omega) _ 0 (by omega) m _ (becomes_self ha) hreal (fun _ _ _ => rfl) (by rw [hatD_zero]; exact lrInv_init _ _)

/-- the product of the factors -/
theorem ldltPost_zero {A : Nat → Nat → 𝕜} {n : Nat} {F : Nat → Nat → 𝕜} (h : LdltPost A n 0 F) : (∀ i < n, F i i ≠ 0) ∧
    ∀ r < n, ∀ c < n, ∑ l ∈ Finset.range n, tri true true F r l * F l l * star (tri true true F c l) = herm A r c := by
  obtain ⟨h1, h2⟩ := h
  rw [if_pos rfl] at h2
  obtain ⟨h3, h4⟩ := lrPost_zero h2
  refine ⟨fun i hi => ?_, fun r hr c hc => ?_⟩
  · have := h3 i hi
    unfold hatD at this
    rwa [if_pos le_rfl] at this
  · rw [← h4 r hr c hc]
    refine Finset.sum_congr rfl fun l hl => ?_
    have hl := Finset.mem_range.mp hl
    rw [mul_assoc]
    unfold tri
    simp only [if_true, Bool.false_eq_true, if_false]
    congr 1
    · by_cases e : r = l
      · rw [if_pos e, if_pos e]
      · rw [if_neg e, if_neg e]
        by_cases e' : l < r
        · rw [if_pos e', if_pos e']; unfold hatD; rw [if_pos (by omega)]
        · rw [if_neg e', if_neg e']
    · by_cases e : l = c
      · subst e
        rw [if_pos rfl, if_pos rfl, star_one, mul_one]
        unfold hatD; rw [if_pos le_rfl]
      · rw [if_neg (Ne.symm e), if_neg e]
        by_cases e' : l < c
        · rw [if_pos e', if_pos e']; unfold hatD; rw [if_neg (by omega), if_pos hl]
        · rw [if_neg e', if_neg e', star_zero, mul_zero]

/-! ### Cholesky decomposition -/

/-- what the Cholesky decomposition with result `p` leaves behind -/
def CholPost (A : Nat → Nat → 𝕜) (n p : Nat) (F : Nat → Nat → 𝕜) : Prop :=
  (∀ r < n, star (F r r) = F r r) ∧ ((p = 0 ∧ (∀ j < n, 0 < RCLike.re (F j j)) ∧ LRInv (herm A) n n (hatC n F)) ∨
    (0 < p ∧ p ≤ n ∧ (∀ j < p - 1, 0 < RCLike.re (F j j)) ∧ LRInv (herm A) n (p - 1) (hatC (p - 1) F) ∧
      RCLike.re (F (p - 1) (p - 1)) ≤ 0))

theorem cholBad_iff {d : 𝕜} (h : star d = d) : CholBad d ↔ RCLike.re d ≤ 0 := by
  unfold CholBad
  rw [real_of_star h, sub_self, norm_zero]
  constructor
  · rintro (h' | h')
    · norm_num at h'
    · exact h'
  · exact .inr

theorem cholLoop_tot {a : Mat} {A : Nat → Nat → 𝕜} {m : Mem 𝕜} {n : Nat} (hr : n ≤ a.rows) (hc : n ≤ a.cols) (s i : Nat)
    (hn : i + s + 1 = n) (m' : Mem 𝕜) (F : Nat → Nat → 𝕜) (h : MatBecomes a m F m') (hreal : ∀ r < n, star (F r r) = F r r)
    (hpos : ∀ j < i, 0 < RCLike.re (F j j)) (hU : ∀ r c, r < c → F r c = A r c) (hinv : LRInv (herm A) n i (hatC i F)) :
    Tot (cholLoop a n s i m') (fun st => ∃ F, MatBecomes a m F st.2 ∧ CholPost A n st.1 F ∧ ∀ r c, r < c → F r c = A r c) := by
  have up : ∀ i q (F : Nat → Nat → 𝕜), (∀ r c, r < c → F r c = A r c) → ∀ r c, r < c → cholF n i q F r c = A r c := by
    intro i q F h r c hrc
    unfold cholF; rw [if_neg (by omega), if_neg (by omega), if_neg (by omega)]; exact h r c hrc
  classical
  have hd : ∀ F : Nat → Nat → 𝕜, ∀ i, hatC i F i i = F i i := fun F i => by unfold hatC; rw [if_pos rfl, if_neg (by omega)]
  have sq : ∀ d : ℝ, 0 < d → ((√d : ℝ) : 𝕜) * ((√d : ℝ) : 𝕜) = (d : 𝕜) := fun d hd => by
    rw [← RCLike.ofReal_mul, Real.mul_self_sqrt hd.le]
  have sn : ∀ d : ℝ, 0 < d → ((√d : ℝ) : 𝕜) ≠ 0 := fun d hd => by
    rw [Ne, RCLike.ofReal_eq_zero]; exact (Real.sqrt_pos.mpr hd).ne'
  have step : ∀ i F, i < n → (∀ r < n, star (F r r) = F r r) → (∀ j < i, 0 < RCLike.re (F j j)) → LRInv (herm A) n i (hatC i F) →
      0 < RCLike.re (F i i) → (∀ r < n, star (cholF n i ((√(RCLike.re (F i i)) : ℝ) : 𝕜) F r r) =
        cholF n i ((√(RCLike.re (F i i)) : ℝ) : 𝕜) F r r) ∧
      (∀ j < i + 1, 0 < RCLike.re (cholF n i ((√(RCLike.re (F i i)) : ℝ) : 𝕜) F j j)) ∧
      LRInv (herm A) n (i + 1) (hatC (i + 1) (cholF n i ((√(RCLike.re (F i i)) : ℝ) : 𝕜) F)) := by
    intro i F hi hreal hpos hinv hp
    have hs : star ((√(RCLike.re (F i i)) : ℝ) : 𝕜) = ((√(RCLike.re (F i i)) : ℝ) : 𝕜) := RCLike.conj_ofReal _
    have hq := (sq _ hp).trans (real_of_star (hreal i hi))
    refine ⟨cholF_real hs hreal, fun j hj => ?_, ?_⟩
    · by_cases e : j = i
      · subst e
        unfold cholF
        rw [if_pos ⟨rfl, rfl⟩, RCLike.ofReal_re]
        exact Real.sqrt_pos.mpr hp
      · unfold cholF
        rw [if_neg (by omega), if_neg (by omega), if_neg (by omega)]
        exact hpos j (by omega)
    · refine lrInv_congr' (lrInv_step hinv hi ?_) (by omega) fun r hr c hc => hatC_step hq (sn _ hp) hs hi hr hc
      rw [hd, ← hq]
      exact mul_ne_zero (sn _ hp) (sn _ hp)
  induction s generalizing i m' F with
  | zero =>
    unfold cholLoop
    rw [becomes_read h (show i < a.rows by omega) (show i < a.cols by omega), ok_bind]
    by_cases e : RCLike.re (F i i) ≤ 0
    · rw [if_pos ((cholBad_iff (hreal i (by omega))).mpr e)]
      exact Tot.pure ⟨F, h, ⟨hreal, .inr ⟨by simp only; omega, by simp only; omega, hpos, hinv, e⟩⟩, hU⟩
    · rw [if_neg (fun h => e ((cholBad_iff (hreal i (by omega))).mp h))]
      refine Tot.bind (becomes_write h (show i < a.rows by omega) (show i < a.cols by omega) _) fun m2 _ h2 => ?_
      obtain ⟨g1, g2, g3⟩ := step i F (by omega) hreal hpos hinv (not_le.mp e)
      have : n = i + 1 := by omega
      refine Tot.pure ⟨cholF n i ((√(RCLike.re (F i i)) : ℝ) : 𝕜) F, becomes_congr h2 fun r hr' c hc' => ?_, ⟨g1, .inl ⟨rfl,
        fun j hj => g2 j (by omega), ?_⟩⟩, up _ _ _ hU⟩
      · unfold cholF
        by_cases e0 : r = i ∧ c = i
        · rw [if_pos e0, e0.1, e0.2, fset_same]
        · rw [if_neg e0, fset_ne e0, if_neg (by omega), if_neg (by omega)]
      · have e' := g3
        rw [← this] at e'
        exact e'
  | succ s ih =>
    unfold cholLoop
    rw [becomes_read h (show i < a.rows by omega) (show i < a.cols by omega), ok_bind]
    by_cases e : RCLike.re (F i i) ≤ 0
    · rw [if_pos ((cholBad_iff (hreal i (by omega))).mpr e)]
      exact Tot.pure ⟨F, h, ⟨hreal, .inr ⟨by simp only; omega, by simp only; omega, hpos, hinv, e⟩⟩, hU⟩
    · rw [if_neg (fun h => e ((cholBad_iff (hreal i (by omega))).mp h))]
      obtain ⟨g1, g2, g3⟩ := step i F (by omega) hreal hpos hinv (not_le.mp e)
      exact Tot.bind (cholStep_tot h hr hc (by omega) _) fun m2 _ h2 => ih (i + 1) (by omega) m2 _ h2 g1 g2 (up _ _ _ hU) g3

theorem choldecomp_tot {a : Mat} {m : Mem 𝕜} (ha : a.Valid m) (hsq : a.rows = a.cols) (h0 : 0 < a.rows) (hlt : a.rows < 2 ^ 32)
    (hreal : ∀ r < a.rows, star (a.val m r r) = a.val m r r) :
    Tot (choldecomp a m) (fun st => ∃ F, MatBecomes a m F st.2 ∧ CholPost (a.val m) a.rows st.1 F ∧
      ∀ r c, r < c → F r c = a.val m r c) := by
  refine Tot.cassert (by simpa using hsq) ?_
  rw [show (a.rows + (2 ^ 32 - 1)) % 2 ^ 32 = a.rows - 1 by omega]
  exact cholLoop_tot le_rfl (by omega) _ 0 (by omega) m _ (becomes_self ha) hreal (fun j hj => absurd hj (by omega))
    (fun _ _ _ => rfl) (by rw [hatC_zero]; exact lrInv_init _ _)

/-- the product of the factors, for a leading block -/
theorem chol_product {A : Nat → Nat → 𝕜} {n i k : Nat} {F : Nat → Nat → 𝕜} (h : LRInv (herm A) n i (hatC i F))
    (hpos : ∀ j < i, F j j ≠ 0) (hk : k ≤ i) (hn : k ≤ n) {r c : Nat} (hr : r < k) (hc : c < k)
    (hreal : ∀ r < n, star (F r r) = F r r) :
    ∑ l ∈ Finset.range k, tri true false F r l * star (tri true false F c l) = herm A r c := by
  rw [lrInv_block h (k := k) (by omega) hn hr hc]
  refine Finset.sum_congr rfl fun l hl => ?_
  have hl := Finset.mem_range.mp hl
  have hd := hpos l (by omega)
  have hL : tri true true (hatC i F) r l = tri true false F r l / F l l := by
    unfold tri
    simp only [if_true, Bool.false_eq_true, if_false]
    by_cases e : r = l
    · rw [if_pos e, if_pos e, e, div_self hd]
    · rw [if_neg e, if_neg e]
      by_cases e' : l < r
      · rw [if_pos e', if_pos e']; unfold hatC; rw [if_neg (by omega), if_pos e', if_pos (by omega)]
      · rw [if_neg e', if_neg e', zero_div]
  have hU : tri false false (hatC i F) l c = F l l * star (tri true false F c l) := by
    unfold tri
    simp only [if_true, Bool.false_eq_true, if_false]
    by_cases e : l = c
    · subst e
      rw [if_pos rfl, if_pos rfl, hreal l (by omega)]
      unfold hatC; rw [if_pos rfl, if_pos (by omega)]
    · rw [if_neg e, if_neg (Ne.symm e)]
      by_cases e' : l < c
      · rw [if_pos e', if_pos e']; unfold hatC; rw [if_neg (by omega), if_neg (by omega), if_pos (by omega)]
      · rw [if_neg e', if_neg e', star_zero, mul_zero]
  rw [hL, hU]
  field_simp

open scoped ComplexOrder in
theorem chol_pd {A : Nat → Nat → 𝕜} {n i k : Nat} {F : Nat → Nat → 𝕜} (h : LRInv (herm A) n i (hatC i F))
    (hpos : ∀ j < i, F j j ≠ 0) (hk : k ≤ i) (hn : k ≤ n) (hreal : ∀ r < n, star (F r r) = F r r) : PD (herm A) k := by
  unfold PD
  have e : (Matrix.of fun r c : Fin k => herm A r c) = (Matrix.of fun r c : Fin k => tri true false F r c) *
      (Matrix.of fun r c : Fin k => tri true false F r c).conjTranspose := by
    ext r c
    rw [Matrix.mul_apply, Matrix.of_apply, ← chol_product h hpos hk hn r.2 c.2 hreal, ← Fin.sum_univ_eq_sum_range]
    rfl
  rw [e]
  refine Matrix.PosDef.mul_conjTranspose_self _ ?_
  rw [show (fun v => Matrix.vecMul v (Matrix.of fun r c : Fin k => tri true false F r c)) = _ from rfl]
  refine Matrix.vecMul_injective_iff_isUnit.mpr ?_
  rw [Matrix.isUnit_iff_isUnit_det, Matrix.det_of_isLowerTriangular]
  · rw [isUnit_iff_ne_zero, Finset.prod_ne_zero_iff]
    intro j _
    simp only [Matrix.of_apply, tri, if_true]
    exact hpos j (by omega)
  · intro i j hij
    have : (i : Nat) < j := hij
    simp only [Matrix.of_apply, tri]
    rw [if_neg (by omega)]
    simp only [if_true]
    rw [if_neg (by omega)]

open scoped ComplexOrder in
theorem cholPost_pd {A : Nat → Nat → 𝕜} {n p : Nat} {F : Nat → Nat → 𝕜} (h : CholPost A n p F) : FirstNotPD (herm A) n p := by
  have ne : ∀ {x : 𝕜}, 0 < RCLike.re x → x ≠ 0 := fun h e => by rw [e, map_zero] at h; exact lt_irrefl _ h
  obtain ⟨hreal, ⟨h1, h2, h3⟩ | ⟨h1, h2, h3, h4, h5⟩⟩ := h
  · exact .inl ⟨h1, fun k hk => chol_pd h3 (fun j hj => ne (h2 j hj)) hk hk hreal⟩
  · refine .inr ⟨h1, h2, fun hpd => ?_, fun k hk => chol_pd h4 (fun j hj => ne (h3 j hj)) (by omega) (by omega) hreal⟩
    have hdet := hpd.det_pos
    have hm := lrInv_minors h4 (k := p) (by omega) h2
    unfold minor at hm
    rw [hm] at hdet
    obtain ⟨q, rfl⟩ : ∃ q, p = q + 1 := ⟨p - 1, by omega⟩
    simp only [Nat.add_sub_cancel] at h3 h4 h5 hdet
    rw [Finset.prod_range_succ] at hdet
    have hq : hatC q F q q = F q q := by unfold hatC; rw [if_pos rfl, if_neg (by omega)]
    have hprod : (0 : 𝕜) < ∏ j ∈ Finset.range q, hatC q F j j := by
      refine Finset.prod_induction _ (fun x : 𝕜 => 0 < x) (fun x y hx hy => ?_) one_pos fun j hj => ?_
      · rw [RCLike.pos_iff] at hx hy ⊢
        rw [RCLike.mul_re, RCLike.mul_im, hx.2, hy.2]
        simp only [mul_zero, sub_zero, zero_mul, add_zero, and_true]
        exact mul_pos hx.1 hy.1
      · have hj := Finset.mem_range.mp hj
        unfold hatC
        rw [if_pos rfl, if_pos hj, ← real_of_star (hreal j (by omega)), ← RCLike.ofReal_mul, RCLike.pos_iff, RCLike.ofReal_re,
          RCLike.ofReal_im]
        exact ⟨mul_pos (h3 j hj) (h3 j hj), rfl⟩
    rw [hq, ← real_of_star (hreal q (by omega))] at hdet
    rw [RCLike.pos_iff] at hprod hdet
    rw [RCLike.re_mul_ofReal] at hdet
    have := mul_nonpos_of_nonneg_of_nonpos hprod.1.le h5
    linarith [hdet.1]

end H2.Dense
