import Verif.Proof.QR

/-! # Elementary reflections in memory -/

set_option linter.unusedSectionVars false

namespace H2.QR
open Spec Dense Matrix
variable {𝕜 : Type} [RCLike 𝕜] {n : Nat}

/-- a reflection with the vector `(0, …, 0, 1, V (k + 1), …, V (n - 1))` -/
def hfun (n k : Nat) (V : Nat → 𝕜) (b : 𝕜) (x : Nat → 𝕜) : Nat → 𝕜 := fun i =>
  if k ≤ i ∧ i < n then x i - (x k + ∑ l ∈ Finset.Ico (k + 1) n, star (V l) * x l) * b * (if i = k then 1 else V i) else x i

theorem hfun_refl {V : Nat → Nat → 𝕜} {k : Nat} (hk : k < n) (b : 𝕜) (x : Nat → 𝕜) :
    (fun i : Fin n => hfun n k (fun i => V i k) b x i) = reflector (hvec n V k) b *ᵥ fun i => x i := by
  funext i
  rw [refl_mulVec]
  have hs : ∑ l : Fin n, star (hvec n V k l) * x l = x k + ∑ l ∈ Finset.Ico (k + 1) n, star (V l k) * x l := by
    have e : ∀ l : Fin n, star (hvec n V k l) * x l = (fun l : ℕ => if l < k then 0 else if l = k then x k else star (V l k) * x l) l.1 := by
      intro l
      unfold hvec
      simp only
      by_cases h1 : l.1 < k
      · rw [if_pos h1, if_pos h1]; simp
      · rw [if_neg h1, if_neg h1]
        by_cases h2 : l.1 = k
        · rw [if_pos h2, if_pos h2, h2]; simp
        · rw [if_neg h2, if_neg h2]
    rw [Finset.sum_congr rfl fun l _ => e l, Fin.sum_univ_eq_sum_range (fun l : ℕ => if l < k then 0 else if l = k then x k else star (V l k) * x l) n]
    rw [Finset.range_eq_Ico, ← Finset.sum_Ico_consecutive _ (Nat.zero_le k) hk.le, Finset.sum_eq_zero, zero_add, Finset.sum_eq_sum_Ico_succ_bot hk,
      if_neg (lt_irrefl k), if_pos rfl]
    · congr 1
      refine Finset.sum_congr rfl fun l hl => ?_
      rw [Finset.mem_Ico] at hl
      rw [if_neg (by omega), if_neg (by omega)]
    · intro l hl
      rw [Finset.mem_Ico] at hl
      rw [if_pos (by omega)]
  rw [hs]
  unfold hfun hvec
  by_cases h1 : i.1 < k
  · rw [if_neg (by omega), if_pos h1]; simp
  · rw [if_pos ⟨by omega, i.2⟩, if_neg h1]
    ring

theorem applyRefl_tot {a : Mat} {k : Nat} (hk : k < a.rows) {b : 𝕜} {V : Nat → 𝕜} {xa : Nat → Nat} {N : Nat} (hN : a.rows ≤ N)
    (inj : ∀ i < N, ∀ j < N, xa i = xa j → i = j) {m0 m : Mem 𝕜} {x : Nat → 𝕜} (h : AB xa N m0 x m)
    (hV : ∀ i, k < i → i < a.rows → m0 (a.addr i k) = some (V i)) (hd : ∀ i, k < i → i < a.rows → ∀ j < N, a.addr i k ≠ xa j) :
    Tot (applyRefl a k b xa m) (AB xa N m0 (hfun a.rows k V b x)) := by
  unfold applyRefl
  rw [ab_read h (show k < N by omega), ok_bind]
  rw [sumLoop (t := fun i => star (V i) * x i) (by omega)]
  · rw [ok_bind, ok_bind]
    refine Tot.bind (ab_write inj h (show k < N by omega) _) fun m1 _ h1 => ?_
    obtain ⟨g, hg⟩ : ∃ g, g = (x k + ∑ l ∈ Finset.Ico (k + 1) a.rows, star (V l) * x l) * b := ⟨_, rfl⟩
    rw [← hg] at h1 ⊢
    refine (forUp_tot (fun r (m' : Mem 𝕜) => AB xa N m0 (fun i => if i = k then x k - g else if k < i ∧ i < r then x i - g * V i else x i) m')
      (show k + 1 ≤ a.rows by omega) (ab_congr h1 fun i _ => ?_) ?_).mono fun m' h' => ab_congr h' fun i hi => ?_
    · by_cases e : i = k
      · rw [if_pos e, if_pos e]
      · rw [if_neg e, if_neg e, if_neg (by omega)]
    · intro i m' h2 h3 h4
      rw [ab_read h4 (show i < N by omega), ok_bind, ab_read_other h4 (hV i (by omega) h3) (hd i (by omega) h3), ok_bind]
      refine (ab_write inj h4 (show i < N by omega) _).mono fun m2 h5 => ab_congr h5 fun j _ => ?_
      by_cases e : j = i
      · subst e
        rw [if_pos rfl, if_neg (by omega), if_neg (by omega), if_neg (by omega), if_pos (by omega)]
      · rw [if_neg e]
        by_cases e' : j = k
        · rw [if_pos e', if_pos e']
        · rw [if_neg e', if_neg e']
          by_cases e'' : k < j ∧ j < i
          · rw [if_pos e'', if_pos (by omega)]
          · rw [if_neg e'', if_neg (by omega)]
    · unfold hfun
      rw [← hg]
      by_cases e : i = k
      · rw [if_pos e, if_pos (by omega), if_pos e, e, mul_one]
      · rw [if_neg e]
        by_cases e' : k < i ∧ i < a.rows
        · rw [if_pos e', if_pos (by omega), if_neg e]
        · rw [if_neg e', if_neg (by omega)]
  · intro i h1 h2 s
    rw [ab_read_other h (hV i (by omega) h2) (hd i (by omega) h2), ok_bind, ab_read h (by omega), ok_bind]
    rfl

/-! ### columns -/

theorem col_inj {x : Mat} (hl : x.rows ≤ x.ld) {j : Nat} : ∀ i < x.rows, ∀ i' < x.rows, x.addr i j = x.addr i' j → i = i' :=
  fun i hi i' hi' e => (Mat.addr_inj hl hi hi' e).1

/-- a column of a matrix as a vector -/
theorem ab_col {x : Mat} {m0 m : Mem 𝕜} {F : Nat → Nat → 𝕜} (h : MatBecomes x m0 F m) {j : Nat} (hj : j < x.cols) :
    AB (fun i => x.addr i j) x.rows m (fun i => F i j) m :=
  ⟨fun i hi => by rw [h.1.some hi hj, h.2.1 i hi j hj], fun _ _ => rfl⟩

/-- replacing a column -/
theorem becomes_col {x : Mat} {m0 m m' : Mem 𝕜} {F : Nat → Nat → 𝕜} (h : MatBecomes x m0 F m) {j : Nat} (hj : j < x.cols) {G : Nat → 𝕜}
    (h' : AB (fun i => x.addr i j) x.rows m G m') : MatBecomes x m0 (fun i j' => if j' = j then G i else F i j') m' := by
  have key : ∀ i < x.rows, ∀ j' < x.cols, m' (x.addr i j') = some (if j' = j then G i else F i j') := fun i hi j' hj' => by
    by_cases e : j' = j
    · subst e; rw [if_pos rfl]; exact h'.1 i hi
    · rw [if_neg e, h'.2 _ (fun ⟨i', hi', e'⟩ => e (Mat.addr_inj h.1.1 hi hi' e').2), h.1.some hi hj', h.2.1 i hi j' hj']
  refine ⟨⟨h.1.1, fun i hi j' hj' => by rw [key i hi j' hj']; rfl⟩, fun i hi j' hj' => by simp [Mat.val, key i hi j' hj'], fun c hc => ?_⟩
  rw [h'.2 c (fun ⟨i, hi, e⟩ => hc ⟨i, hi, j, hj, e⟩), h.2.2 c hc]

/-- The reflection is applied to the columns `lo, …, hi - 1` of `x`. -/
theorem reflCols_tot {a x : Mat} {k : Nat} (hk : k < a.rows) (hN : a.rows ≤ x.rows) {b : 𝕜} {V : Nat → 𝕜} {lo hi : Nat} (hle : lo ≤ hi) (hhi : hi ≤ x.cols)
    {m0 m : Mem 𝕜} {X : Nat → Nat → 𝕜} (h : MatBecomes x m0 X m) (hV : ∀ i, k < i → i < a.rows → m (a.addr i k) = some (V i))
    (hd : ∀ i, k < i → i < a.rows → ∀ i' < x.rows, ∀ j', lo ≤ j' → j' < hi → a.addr i k ≠ x.addr i' j') :
    Tot (forUp lo hi (fun j m => applyRefl a k b (fun i => x.addr i j) m) m)
      (MatBecomes x m0 fun i j => if lo ≤ j ∧ j < hi then hfun a.rows k V b (fun i => X i j) i else X i j) := by
  refine (forUp_tot (fun r m' => (∀ i, k < i → i < a.rows → m' (a.addr i k) = some (V i)) ∧
    MatBecomes x m0 (fun i j => if lo ≤ j ∧ j < r then hfun a.rows k V b (fun i => X i j) i else X i j) m') hle
    ⟨hV, becomes_congr h fun i _ j _ => by rw [if_neg (by omega)]⟩ ?_).mono fun m' h' => h'.2
  rintro j m' h1 h2 ⟨h3, h4⟩
  refine (applyRefl_tot (V := V) hk hN (col_inj h.1.1) (ab_col h4 (show j < x.cols by omega)) h3 (fun i i1 i2 i' hi' => hd i i1 i2 i' hi' j h1 h2)).mono fun m2 h5 => ?_
  refine ⟨fun i i1 i2 => ?_, becomes_congr (becomes_col h4 (by omega) h5) fun i _ j' _ => ?_⟩
  · rw [h5.2 _ (fun ⟨i', hi', e⟩ => hd i i1 i2 i' hi' j h1 h2 e)]; exact h3 i i1 i2
  · by_cases e : j' = j
    · subst e
      rw [if_pos rfl, if_pos (by omega)]
      simp only [lt_irrefl, and_false, if_false]
    · rw [if_neg e]
      by_cases e' : lo ≤ j' ∧ j' < j
      · rw [if_pos e', if_pos (by omega)]
      · rw [if_neg e', if_neg (by omega)]

theorem colNorm2_ok {a : Mat} {m0 m : Mem 𝕜} {F : Nat → Nat → 𝕜} (h : MatBecomes a m0 F m) {k j : Nat} (hk : k ≤ a.rows) (hj : j < a.cols) :
    colNorm2 a k j m = .ok (tail2 a.rows F k j) := by
  unfold colNorm2
  rw [sumLoop (K := ℝ) (t := fun i => ‖F i j‖ ^ 2) hk]
  · rw [zero_add]; rfl
  · intro i _ h2 s
    rw [becomes_read h h2 hj, ok_bind]; rfl

/-- `houseStep` on functions -/
noncomputable def houseF (sgn : 𝕜 → 𝕜) (n c k : Nat) (norm2 : ℝ) (W : Nat → Nat → 𝕜) : 𝕜 × (Nat → Nat → 𝕜) :=
  let b : 𝕜 := ((1 / (norm2 + ‖W k k‖ * √norm2) * ((‖W k k‖ + √norm2) * (‖W k k‖ + √norm2)) : ℝ) : 𝕜)
  let V : Nat → 𝕜 := fun i => W i k * (star (sgn (W k k)) / ((‖W k k‖ + √norm2 : ℝ) : 𝕜))
  (b, fun i j => if j = k then (if i < k then W i k else if i = k then -sgn (W k k) * (√norm2 : 𝕜) else V i)
    else if k < j then hfun n k V b (fun i => W i j) i else W i j)

theorem houseStep_tot (sgn : 𝕜 → 𝕜) {a : Mat} {k : Nat} (hk : k < a.rows) (hc : k < a.cols) (norm2 : ℝ) {m0 m : Mem 𝕜} {W : Nat → Nat → 𝕜}
    (h : MatBecomes a m0 W m) :
    Tot (houseStep sgn a k norm2 m) fun p => p.1 = (houseF sgn a.rows a.cols k norm2 W).1 ∧ MatBecomes a m0 (houseF sgn a.rows a.cols k norm2 W).2 p.2 := by
  unfold houseStep
  rw [becomes_read h hk hc, ok_bind]
  obtain ⟨g, hg⟩ : ∃ g, g = star (sgn (W k k)) / ((‖W k k‖ + √norm2 : ℝ) : 𝕜) := ⟨_, rfl⟩
  obtain ⟨b, hb⟩ : ∃ b, b = ((1 / (norm2 + ‖W k k‖ * √norm2) * ((‖W k k‖ + √norm2) * (‖W k k‖ + √norm2)) : ℝ) : 𝕜) := ⟨_, rfl⟩
  simp only
  rw [← hg, ← hb]
  refine Tot.bind (colLineLoop h hc (show k + 1 ≤ a.rows by omega) le_rfl (new := fun i => W i k * g) fun i h1 h2 m1 G h3 h4 => ?_) fun m1 _ h1 => ?_
  · rw [becomes_read h3 h2 hc, ok_bind, h4 i k (by omega)]
  refine Tot.bind (becomes_write h1 hk hc _) fun m2 _ h2 => ?_
  have h3 : MatBecomes a m0 (fun i j => if j = k then (if i < k then W i k else if i = k then -sgn (W k k) * (√norm2 : 𝕜) else W i k * g) else W i j) m2 := by
    refine becomes_congr h2 fun i hi j hj => ?_
    by_cases e : i = k ∧ j = k
    · obtain ⟨rfl, rfl⟩ := e
      rw [fset_same, if_pos rfl, if_neg (lt_irrefl _), if_pos rfl]
    · rw [fset_ne e]
      by_cases e1 : j = k
      · subst e1
        rw [if_pos rfl]
        by_cases e2 : i < j
        · rw [if_neg (by omega), if_pos e2]
        · rw [if_pos (by omega), if_neg e2, if_neg (by omega)]
      · rw [if_neg (by omega), if_neg e1]
  refine Tot.bind (reflCols_tot (V := fun i => W i k * g) hk le_rfl (show k + 1 ≤ a.cols by omega) le_rfl h3 (fun i i1 i2 => ?_) (fun i i1 i2 i' hi' j' j1 j2 e => ?_))
    fun m3 _ h4 => ⟨_, rfl, ?_, becomes_congr h4 fun i hi j hj => ?_⟩
  · rw [h3.1.some i2 hc, h3.2.1 i i2 k hc]
    beta_reduce
    rw [if_pos rfl, if_neg (by omega), if_neg (by omega)]
  · have := (Mat.addr_inj h.1.1 i2 hi' e).2
    omega
  · rw [hb]; rfl
  · unfold houseF
    simp only
    rw [← hg, ← hb]
    by_cases e : j = k
    · rw [if_neg (by omega), if_pos e, if_pos e]
    · rw [if_neg e]
      by_cases e' : k < j
      · rw [if_pos (by omega), if_pos e']
        simp only [if_neg e]
      · rw [if_neg (by omega), if_neg e, if_neg e']

/-- a reflection step keeps the invariant -/
theorem QInv.houseF {c : Nat} {A : Nat → Nat → 𝕜} {err e : ℝ} {k : Nat} {W : Nat → Nat → 𝕜} {t t' : Nat → 𝕜} (h : QInv n c A err k W t)
    (hc : k < c) (hn : k < n) {sgn : 𝕜 → 𝕜} (hs : SignFn e sgn) (he : e ≤ err) (hpos : 0 < tail2 n W k k)
    (ht : ∀ l < k, t' l = t l) (htk : t' k = (houseF sgn n c k (tail2 n W k k) W).1) :
    QInv n c A err (k + 1) (houseF sgn n c k (tail2 n W k k) W).2 t' := by
  refine h.house hc hn hs he rfl hpos ht htk (fun j hj i _ => ?_) (fun i hi => ?_) ?_ (fun i hi hki => ?_) (fun j hj1 hj2 => ?_)
  · simp only [QR.houseF]
    rw [if_neg (by omega), if_neg (by omega)]
  · simp only [QR.houseF]
    rw [if_pos trivial, if_pos hi]
  · simp only [QR.houseF]
    rw [if_pos trivial, if_neg (lt_irrefl _), if_pos trivial]
  · simp only [QR.houseF]
    rw [if_pos trivial, if_neg (by omega), if_neg (by omega)]
  · have hv : hvec n (QR.houseF sgn n c k (tail2 n W k k) W).2 k = hvec n (fun i _ => W i k * (star (sgn (W k k)) / ((‖W k k‖ + √(tail2 n W k k) : ℝ) : 𝕜))) k := by
      refine hvec_congr fun i hi hki => ?_
      simp only [QR.houseF]
      rw [if_pos trivial, if_neg (by omega), if_neg (by omega)]
    rw [hv, htk]
    refine Eq.trans ?_ (hfun_refl (V := fun i _ => W i k * (star (sgn (W k k)) / ((‖W k k‖ + √(tail2 n W k k) : ℝ) : 𝕜))) hn _ (fun i => W i j))
    funext i
    unfold col
    simp only [QR.houseF]
    rw [if_neg (by omega), if_pos hj1]

end H2.QR
