import Verif.Model.Admissible
import Verif.Spec.Admissible
import Verif.Core.Sums

set_option linter.unusedSectionVars false

namespace H2.Adm
open H2.Spec

/-- distance of the intervals in direction `i` -/
noncomputable def gap (t s : CInfo ℝ) (i : Nat) : ℝ := max 0 (max (t.bmin i - s.bmax i) (s.bmin i - t.bmax i))

theorem gap_nonneg (t s : CInfo ℝ) (i : Nat) : 0 ≤ gap t s i := le_max_left _ _

theorem gap_comm (t s : CInfo ℝ) (i : Nat) : gap t s i = gap s t i := by
  unfold gap; rw [max_comm (t.bmin i - s.bmax i)]

theorem gap_le {t s : CInfo ℝ} {z y : ℝ} {i : Nat} (hz : t.bmin i ≤ z ∧ z ≤ t.bmax i)
    (hy : s.bmin i ≤ y ∧ y ≤ s.bmax i) : gap t s i ≤ |z - y| := by
  unfold gap
  refine max_le (abs_nonneg _) (max_le ?_ ?_)
  · exact le_trans (by linarith [hz.1, hy.2]) (le_abs_self _)
  · exact le_trans (by linarith [hz.2, hy.1]) (neg_le_abs _)

theorem gap_attained {t s : CInfo ℝ} {i : Nat} (ht : t.bmin i ≤ t.bmax i) (hs : s.bmin i ≤ s.bmax i) :
    ∃ z y, (t.bmin i ≤ z ∧ z ≤ t.bmax i) ∧ (s.bmin i ≤ y ∧ y ≤ s.bmax i) ∧ |z - y| = gap t s i := by
  by_cases h1 : t.bmax i < s.bmin i
  · refine ⟨t.bmax i, s.bmin i, ⟨ht, le_rfl⟩, ⟨le_rfl, hs⟩, ?_⟩
    unfold gap
    rw [abs_of_neg (by linarith), max_eq_right (b := s.bmin i - t.bmax i) (by linarith),
      max_eq_right (by linarith)]
    ring
  · by_cases h2 : s.bmax i < t.bmin i
    · refine ⟨t.bmin i, s.bmax i, ⟨le_rfl, ht⟩, ⟨hs, le_rfl⟩, ?_⟩
      unfold gap
      rw [abs_of_pos (by linarith), max_eq_left (a := t.bmin i - s.bmax i) (by linarith),
        max_eq_right (by linarith)]
    · push Not at h1 h2
      refine ⟨max (t.bmin i) (s.bmin i), max (t.bmin i) (s.bmin i), ⟨le_max_left _ _, max_le ht h1⟩,
        ⟨le_max_right _ _, max_le h2 hs⟩, ?_⟩
      unfold gap
      rw [sub_self, abs_zero, max_eq_left (max_le (by linarith) (by linarith))]

/-- the norm only depends on the first `n` components and is monotone in their absolute values -/
def Mono (n : Nat) (N : (Nat → ℝ) → ℝ) : Prop := ∀ v w, (∀ i < n, |v i| ≤ |w i|) → N v ≤ N w

theorem norm2_mono (n : Nat) : Mono n (norm2 n) := by
  intro v w h
  exact Real.sqrt_le_sqrt (Finset.sum_le_sum fun i hi => sq_le_sq.mpr (h i (Finset.mem_range.mp hi)))

theorem normMax_le {n : Nat} {v : Nat → ℝ} {r : ℝ} : normMax n v ≤ r ↔ 0 ≤ r ∧ ∀ i < n, |v i| ≤ r := by
  unfold normMax
  rw [Finset.fold_max_le]
  simp

theorem normMax_mono (n : Nat) : Mono n (normMax n) := by
  intro v w h
  obtain ⟨h0, h1⟩ := normMax_le.mp (le_refl (normMax n w))
  exact normMax_le.mpr ⟨h0, fun i hi => le_trans (h i hi) (h1 i hi)⟩

theorem diamLe_iff {n : Nat} {N : (Nat → ℝ) → ℝ} (hN : Mono n N) {t s : CInfo ℝ} {eta : ℝ} (he : 0 ≤ eta)
    (hd : t.dim = n) (hd' : s.dim = n) (ht : BoxOK t) (hs : BoxOK s) :
    DiamLe N eta t s ↔ N (fun i => t.bmax i - t.bmin i) ≤ eta * N (gap t s) := by
  constructor
  · intro h
    have hat : ∀ i, ∃ z y : ℝ, i < n → (t.bmin i ≤ z ∧ z ≤ t.bmax i) ∧ (s.bmin i ≤ y ∧ y ≤ s.bmax i) ∧
        |z - y| = gap t s i := by
      intro i
      by_cases hi : i < n
      · obtain ⟨z, y, h⟩ := gap_attained (ht i (hd ▸ hi)) (hs i (hd' ▸ hi))
        exact ⟨z, y, fun _ => h⟩
      · exact ⟨0, 0, fun h => absurd h hi⟩
    choose z y hzy using hat
    have h1 := h t.bmax t.bmin z y (fun i hi => ⟨ht i hi, le_rfl⟩) (fun i hi => ⟨le_rfl, ht i hi⟩)
      (fun i hi => (hzy i (hd ▸ hi)).1) (fun i hi => (hzy i (hd' ▸ hi)).2.1)
    refine le_trans h1 (mul_le_mul_of_nonneg_left (hN _ _ ?_) he)
    intro i hi
    rw [(hzy i hi).2.2]
    exact le_abs_self _
  · intro h x x' z y hx hx' hz hy
    refine le_trans (hN _ (fun i => t.bmax i - t.bmin i) ?_)
      (le_trans h (mul_le_mul_of_nonneg_left (hN _ _ ?_) he))
    · intro i hi
      have a := hx i (hd ▸ hi); have b := hx' i (hd ▸ hi)
      exact le_trans (abs_le.mpr ⟨by linarith [a.1, b.2], by linarith [a.2, b.1]⟩) (le_abs_self _)
    · intro i hi
      rw [abs_of_nonneg (gap_nonneg t s i)]
      exact gap_le (hz i (hd ▸ hi)) (hy i (hd' ▸ hi))

/-! ### the functions of the code -/

theorem getdiam2_eq (t : CInfo ℝ) : getdiam2 t = norm2 t.dim (fun i => t.bmax i - t.bmin i) := by
  unfold getdiam2 norm2
  rw [forT_sum]
  simp [sqr, pow_two]

theorem getdist2_eq {t s : CInfo ℝ} (h : t.dim = s.dim) (ht : BoxOK t) (hs : BoxOK s) :
    getdist2 t s = .ok (norm2 t.dim (gap t s)) := by
  have hst : (forT 0 t.dim (fun i d =>
    if t.bmax i < s.bmin i then d + sqr (s.bmin i - t.bmax i)
    else if s.bmax i < t.bmin i then d + sqr (t.bmin i - s.bmax i)
    else d) 0) = ∑ i ∈ Finset.range t.dim, gap t s i ^ 2 := by
    refine forT_inv (I := fun k (d : ℝ) => k ≤ t.dim → d = ∑ i ∈ Finset.range k, gap t s i ^ 2)
      (Nat.zero_le _) (by simp) ?_ le_rfl
    intro k d _ hk ih hk'
    have ih := ih (by omega)
    have h1 := ht k (by omega)
    have h2 := hs k (by omega)
    rw [Finset.sum_range_succ, ← ih]
    simp only [gap, sqr]
    split
    · rw [max_eq_right (b := s.bmin k - t.bmax k) (by linarith), max_eq_right (by linarith)]; ring
    · split
      · rw [max_eq_left (a := t.bmin k - s.bmax k) (by linarith), max_eq_right (by linarith)]; ring
      · rw [max_eq_left (max_le (by linarith) (by linarith))]; ring
  simp only [getdist2, cassert, h, decide_true, if_true]
  rw [← h, hst]
  rfl

theorem getdiamMax_eq (t : CInfo ℝ) (ht : BoxOK t) :
    getdiamMax t = normMax t.dim (fun i => t.bmax i - t.bmin i) := by
  unfold getdiamMax
  have : ∀ k ≤ t.dim, forT 0 k (fun i dm => if dm < t.bmax i - t.bmin i then t.bmax i - t.bmin i else dm) 0 =
      normMax k (fun i => t.bmax i - t.bmin i) := by
    intro k
    induction k with
    | zero => intro _; simp [forT_self, normMax]
    | succ k ih =>
      intro hk
      rw [forT_succ (Nat.zero_le _), ih (by omega)]
      simp only [normMax, Finset.range_add_one]
      rw [Finset.fold_insert (by simp)]
      have := ht k (by omega)
      rw [abs_of_nonneg (by linarith)]
      split
      · rw [max_eq_left (by linarith)]
      · rw [max_eq_right (by linarith)]
  exact this _ le_rfl

theorem distMax_step {t s : CInfo ℝ} {k : Nat} (h1 : t.bmin k ≤ t.bmax k) (h2 : s.bmin k ≤ s.bmax k) {F : ℝ}
    (h0 : 0 ≤ F) :
    (if t.bmax k < s.bmin k then (if F < s.bmin k - t.bmax k then s.bmin k - t.bmax k else F)
     else if s.bmax k < t.bmin k then (if F < t.bmin k - s.bmax k then t.bmin k - s.bmax k else F) else F) =
      max (gap t s k) F := by
  unfold gap
  split
  · rw [max_eq_right (b := s.bmin k - t.bmax k) (by linarith), max_eq_right (a := (0:ℝ)) (by linarith)]
    split
    · rw [max_eq_left (by linarith)]
    · rw [max_eq_right (by linarith)]
  · split
    · rw [max_eq_left (a := t.bmin k - s.bmax k) (by linarith), max_eq_right (a := (0:ℝ)) (by linarith)]
      split
      · rw [max_eq_left (by linarith)]
      · rw [max_eq_right (by linarith)]
    · rw [max_eq_left (a := (0:ℝ)) (max_le (by linarith) (by linarith)), max_eq_right h0]

theorem getdistMax_eq {t s : CInfo ℝ} (h : t.dim = s.dim) (ht : BoxOK t) (hs : BoxOK s) :
    getdistMax t s = .ok (normMax t.dim (gap t s)) := by
  have : ∀ k ≤ t.dim, forT 0 k (fun i dm =>
    if t.bmax i < s.bmin i then (if dm < s.bmin i - t.bmax i then s.bmin i - t.bmax i else dm)
    else if s.bmax i < t.bmin i then (if dm < t.bmin i - s.bmax i then t.bmin i - s.bmax i else dm)
    else dm) 0 = normMax k (gap t s) := by
    intro k
    induction k with
    | zero => intro _; simp [forT_self, normMax]
    | succ k ih =>
      intro hk
      rw [forT_succ (Nat.zero_le _), ih (by omega)]
      have h0 : 0 ≤ normMax k (gap t s) := (normMax_le.mp le_rfl).1
      simp only [normMax, Finset.range_add_one] at h0 ⊢
      rw [Finset.fold_insert (by simp), abs_of_nonneg (gap_nonneg t s k)]
      exact distMax_step (ht k (by omega)) (hs k (by omega)) h0
  simp only [getdistMax, cassert, h, decide_true, if_true]
  rw [← h, this _ le_rfl]
  rfl

theorem sqrt_le_iff' {a b eta : ℝ} (hb : 0 ≤ b) (he : 0 ≤ eta) :
    a ≤ eta * eta * b ↔ Real.sqrt a ≤ eta * Real.sqrt b := by
  rw [Real.sqrt_le_left (mul_nonneg he (Real.sqrt_nonneg _)), mul_pow, Real.sq_sqrt hb, pow_two]

theorem admissible2_eq {t s : CInfo ℝ} {eta : ℝ} (he : 0 ≤ eta) (h : t.dim = s.dim) :
    admissible2 eta t s = .ok (decide (norm2 t.dim (fun i => t.bmax i - t.bmin i) ≤ eta * norm2 t.dim (gap t s)) &&
      decide (norm2 s.dim (fun i => s.bmax i - s.bmin i) ≤ eta * norm2 s.dim (gap s t))) := by
  have : ∀ k, forT 0 k (fun i (st : ℝ × ℝ × ℝ) =>
    let a := t.bmax i - t.bmin i
    let dt := st.1 + a * a
    let a := s.bmax i - s.bmin i
    let ds := st.2.1 + a * a
    let a := max3 0 (t.bmin i - s.bmax i) (s.bmin i - t.bmax i)
    (dt, ds, st.2.2 + a * a)) (0, 0, 0) = (∑ i ∈ Finset.range k, (t.bmax i - t.bmin i) ^ 2,
      ∑ i ∈ Finset.range k, (s.bmax i - s.bmin i) ^ 2, ∑ i ∈ Finset.range k, gap t s i ^ 2) := by
    intro k
    induction k with
    | zero => simp [forT_self]
    | succ k ih =>
      rw [forT_succ (Nat.zero_le _), ih]
      simp only [Finset.sum_range_succ, gap, max3, pow_two]
  have hg : gap s t = gap t s := funext fun i => gap_comm s t i
  have hnn : 0 ≤ ∑ i ∈ Finset.range s.dim, gap t s i ^ 2 := Finset.sum_nonneg fun i _ => sq_nonneg _
  unfold admissible2
  rw [if_neg (by omega)]
  simp only [this, h, hg, norm2, bind, Except.bind, pure, Except.pure, sqrt_le_iff' hnn he]

/-! ### triangle inequality for `norm2` -/

theorem norm2_eq_norm (n : Nat) (v : Nat → ℝ) :
    norm2 n v = ‖(WithLp.toLp 2 (fun i : Fin n => v i) : EuclideanSpace ℝ (Fin n))‖ := by
  rw [EuclideanSpace.norm_eq]
  unfold norm2
  rw [Finset.sum_range]
  simp

theorem norm2_add_le (n : Nat) (v w : Nat → ℝ) : norm2 n (fun i => v i + w i) ≤ norm2 n v + norm2 n w := by
  rw [norm2_eq_norm, norm2_eq_norm, norm2_eq_norm]
  exact norm_add_le (WithLp.toLp 2 (fun i : Fin n => v i) : EuclideanSpace ℝ (Fin n))
    (WithLp.toLp 2 (fun i : Fin n => w i))

theorem norm2_half (n : Nat) (v : Nat → ℝ) : norm2 n (fun i => 1 / 2 * v i) = 1 / 2 * norm2 n v := by
  unfold norm2
  have : ∑ i ∈ Finset.range n, (1 / 2 * v i) ^ 2 = (1 / 2) ^ 2 * ∑ i ∈ Finset.range n, v i ^ 2 := by
    rw [Finset.mul_sum]; exact Finset.sum_congr rfl fun i _ => by ring
  rw [this, Real.sqrt_mul (by positivity), Real.sqrt_sq (by norm_num)]

/-- a point is at most half the diameter away from the centre of its box -/
theorem centre_le {t : CInfo ℝ} {z : Nat → ℝ} (hz : InBox t z) :
    norm2 t.dim (fun i => 1 / 2 * (t.bmin i + t.bmax i) - z i) ≤ 1 / 2 * getdiam2 t := by
  rw [getdiam2_eq, ← norm2_half]
  apply norm2_mono
  intro i hi
  have := hz i hi
  exact le_trans (abs_le.mpr ⟨by linarith [this.1, this.2], by linarith [this.1, this.2]⟩) (le_abs_self _)

theorem norm2_sub_comm (n : Nat) (v w : Nat → ℝ) : norm2 n (fun i => v i - w i) = norm2 n (fun i => w i - v i) := by
  unfold norm2
  congr 1
  exact Finset.sum_congr rfl fun i _ => by ring

theorem sphere_dist_le {t s : CInfo ℝ} (h : s.dim = t.dim) {z y : Nat → ℝ} (hz : InBox t z) (hy : InBox s y) :
    norm2 t.dim (fun i => 1 / 2 * ((t.bmin i + t.bmax i) - (s.bmin i + s.bmax i))) -
      1 / 2 * (getdiam2 t + getdiam2 s) ≤ norm2 t.dim (fun i => z i - y i) := by
  have e : (fun i => 1 / 2 * ((t.bmin i + t.bmax i) - (s.bmin i + s.bmax i))) =
      fun i => (1 / 2 * (t.bmin i + t.bmax i) - z i) + ((z i - y i) + (y i - 1 / 2 * (s.bmin i + s.bmax i))) := by
    funext i; ring
  rw [e]
  have h1 := norm2_add_le t.dim (fun i => 1 / 2 * (t.bmin i + t.bmax i) - z i)
    (fun i => (z i - y i) + (y i - 1 / 2 * (s.bmin i + s.bmax i)))
  have h2 := norm2_add_le t.dim (fun i => z i - y i) (fun i => y i - 1 / 2 * (s.bmin i + s.bmax i))
  have h3 := centre_le hz
  have h4 := centre_le hy
  rw [norm2_sub_comm, h] at h4
  linarith

theorem norm2_diam_le {t : CInfo ℝ} {x x' : Nat → ℝ} (hx : InBox t x) (hx' : InBox t x') :
    norm2 t.dim (fun i => x i - x' i) ≤ getdiam2 t := by
  rw [getdiam2_eq]
  apply norm2_mono
  intro i hi
  have a := hx i hi; have b := hx' i hi
  exact le_trans (abs_le.mpr ⟨by linarith [a.1, b.2], by linarith [a.2, b.1]⟩) (le_abs_self _)

theorem admissibleSphere_eq {t s : CInfo ℝ} (eta : ℝ) (h : s.dim = t.dim) :
    admissibleSphere eta t s = .ok (
      decide (getdiam2 t ≤ eta * (norm2 t.dim (fun i => 1 / 2 * ((t.bmin i + t.bmax i) - (s.bmin i + s.bmax i))) -
        1 / 2 * (getdiam2 t + getdiam2 s))) &&
      decide (getdiam2 s ≤ eta * (norm2 t.dim (fun i => 1 / 2 * ((t.bmin i + t.bmax i) - (s.bmin i + s.bmax i))) -
        1 / 2 * (getdiam2 t + getdiam2 s)))) := by
  unfold admissibleSphere
  simp only [cassert, h, decide_true, if_true, forT_sum, norm2, sqr, zero_add, pow_two]
  rfl

end H2.Adm
