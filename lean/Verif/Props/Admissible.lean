import Verif.Proof.Admissible

/-!
# C18: the admissibility conditions are geometrically sound

All statements are about real arithmetic.  `DiamLe norm eta t s` (Spec) says that no two points of the box of `t` are
further apart than `eta` times the distance of any point of `t` to any point of `s`.
-/

namespace H2.Props
open H2.Spec H2.Adm

/-- `admissible_2_cluster` accepts exactly the pairs for which both diameters are at most `eta` times the distance
(Euclidean norm). -/
theorem C18_admissible_2 {eta : ℝ} (he : 0 ≤ eta) {t s : CInfo ℝ} (hd : t.dim = s.dim) (ht : BoxOK t)
    (hs : BoxOK s) :
    ∃ r, admissible2 eta t s = .ok r ∧
      (r = true ↔ DiamLe (norm2 t.dim) eta t s ∧ DiamLe (norm2 t.dim) eta s t) := by
  refine ⟨_, admissible2_eq he hd, ?_⟩
  rw [diamLe_iff (norm2_mono _) he rfl hd.symm ht hs, diamLe_iff (norm2_mono _) he hd.symm rfl hs ht, ← hd]
  simp

/-- The same for `admissible_max_cluster` and the maximum norm. -/
theorem C18_admissible_max {eta : ℝ} (he : 0 ≤ eta) {t s : CInfo ℝ} (hd : t.dim = s.dim) (ht : BoxOK t)
    (hs : BoxOK s) :
    ∃ r, admissibleMax eta t s = .ok r ∧
      (r = true ↔ DiamLe (normMax t.dim) eta t s ∧ DiamLe (normMax t.dim) eta s t) := by
  refine ⟨decide (getdiamMax t ≤ eta * normMax t.dim (gap t s)) &&
    decide (getdiamMax s ≤ eta * normMax t.dim (gap t s)), ?_, ?_⟩
  · simp only [admissibleMax, getdistMax_eq hd ht hs]
    rfl
  · have hg : gap s t = gap t s := funext fun i => gap_comm s t i
    rw [diamLe_iff (normMax_mono _) he rfl hd.symm ht hs, diamLe_iff (normMax_mono _) he hd.symm rfl hs ht,
      getdiamMax_eq t ht, getdiamMax_eq s hs, hg, ← hd]
    simp

/-- `admissible_2_min_cluster` accepts exactly the pairs for which one of the diameters is at most `eta` times the
distance. -/
theorem C18_admissible_2_min {eta : ℝ} (he : 0 ≤ eta) {t s : CInfo ℝ} (hd : t.dim = s.dim) (ht : BoxOK t)
    (hs : BoxOK s) :
    ∃ r, admissible2Min eta t s = .ok r ∧
      (r = true ↔ DiamLe (norm2 t.dim) eta t s ∨ DiamLe (norm2 t.dim) eta s t) := by
  refine ⟨decide (getdiam2 t ≤ eta * norm2 t.dim (gap t s)) ||
    decide (getdiam2 s ≤ eta * norm2 t.dim (gap t s)), ?_, ?_⟩
  · simp only [admissible2Min, getdist2_eq hd ht hs]
    rfl
  · have hg : gap s t = gap t s := funext fun i => gap_comm s t i
    rw [diamLe_iff (norm2_mono _) he rfl hd.symm ht hs, diamLe_iff (norm2_mono _) he hd.symm rfl hs ht,
      getdiam2_eq t, getdiam2_eq s, hg, ← hd]
    simp

/-- `admissible_sphere_cluster` is a sufficient condition: it measures the distance of the circumscribed spheres. -/
theorem C18_admissible_sphere {eta : ℝ} (he : 0 ≤ eta) {t s : CInfo ℝ} (hd : t.dim = s.dim) :
    ∃ r, admissibleSphere eta t s = .ok r ∧
      (r = true → DiamLe (norm2 t.dim) eta t s ∧ DiamLe (norm2 t.dim) eta s t) := by
  refine ⟨_, admissibleSphere_eq eta hd.symm, ?_⟩
  simp only [Bool.and_eq_true, decide_eq_true_eq]
  rintro ⟨h1, h2⟩
  constructor
  · intro x x' z y hx hx' hz hy
    exact le_trans (norm2_diam_le hx hx') (le_trans h1 (mul_le_mul_of_nonneg_left
      (sphere_dist_le hd.symm hz hy) he))
  · intro x x' z y hx hx' hz hy
    rw [norm2_sub_comm t.dim z y]
    refine le_trans ?_ (le_trans h2 (mul_le_mul_of_nonneg_left (sphere_dist_le hd.symm hy hz) he))
    rw [hd]
    exact norm2_diam_le hx hx'

/-- Boxes of different dimensions are rejected by an assertion, except by `admissible_2_cluster`, which has none and
reads behind the end of `cc->bmax` if `cc` has fewer dimensions. -/
theorem C18_dimensions (eta : ℝ) {t s : CInfo ℝ} (hd : t.dim ≠ s.dim) :
    admissibleMax eta t s = .error .assertFail ∧ admissible2Min eta t s = .error .assertFail ∧
    admissibleSphere eta t s = .error .assertFail ∧ (s.dim < t.dim → admissible2 eta t s = .error .ub) := by
  refine ⟨?_, ?_, ?_, ?_⟩
  · simp [admissibleMax, getdistMax, cassert, hd]
  · simp [admissible2Min, getdist2, cassert, hd]
  · simp [admissibleSphere, cassert, Ne.symm hd]
  · intro h; unfold admissible2; rw [if_pos h]; rfl

/-- All conditions are symmetric in the two clusters. -/
theorem C18_symmetric {eta : ℝ} (he : 0 ≤ eta) {t s : CInfo ℝ} (hd : t.dim = s.dim) (ht : BoxOK t) (hs : BoxOK s) :
    admissible2 eta s t = admissible2 eta t s ∧ admissibleMax eta s t = admissibleMax eta t s ∧
    admissible2Min eta s t = admissible2Min eta t s ∧ admissibleSphere eta s t = admissibleSphere eta t s := by
  have hg : gap s t = gap t s := funext fun i => gap_comm s t i
  refine ⟨?_, ?_, ?_, ?_⟩
  · rw [admissible2_eq he hd, admissible2_eq he hd.symm, Bool.and_comm]
  · simp only [admissibleMax, getdistMax_eq hd ht hs, getdistMax_eq hd.symm hs ht, hg, ← hd]
    simp only [bind, Except.bind, pure, Except.pure, Except.ok.injEq]
    rw [Bool.and_comm]
  · simp only [admissible2Min, getdist2_eq hd ht hs, getdist2_eq hd.symm hs ht, hg, ← hd]
    simp only [bind, Except.bind, pure, Except.pure, Except.ok.injEq]
    rw [Bool.or_comm]
  · rw [admissibleSphere_eq eta hd.symm, admissibleSphere_eq eta hd]
    have e : norm2 s.dim (fun i => 1 / 2 * ((s.bmin i + s.bmax i) - (t.bmin i + t.bmax i))) =
        norm2 t.dim (fun i => 1 / 2 * ((t.bmin i + t.bmax i) - (s.bmin i + s.bmax i))) := by
      rw [hd]
      unfold norm2
      congr 1
      exact Finset.sum_congr rfl fun i _ => by ring
    rw [e, Bool.and_comm, add_comm (getdiam2 s)]

theorem norm2_nonneg (n : Nat) (v : Nat → ℝ) : 0 ≤ norm2 n v := Real.sqrt_nonneg _
theorem normMax_nonneg (n : Nat) (v : Nat → ℝ) : 0 ≤ normMax n v := (normMax_le.mp le_rfl).1

theorem diamLe_mono {N : (Nat → ℝ) → ℝ} (hN : ∀ v, 0 ≤ N v) {eta eta' : ℝ} (h : eta ≤ eta') {t s : CInfo ℝ}
    (hd : DiamLe N eta t s) : DiamLe N eta' t s :=
  fun x x' z y hx hx' hz hy => le_trans (hd x x' z y hx hx' hz hy) (mul_le_mul_of_nonneg_right h (hN _))

theorem inBox_sub {t' t : CInfo ℝ} (h : SubBox t' t) {x : Nat → ℝ} (hx : InBox t' x) : InBox t x := fun i hi =>
  ⟨le_trans (h.2 i hi).1 (hx i (h.1 ▸ hi)).1, le_trans (hx i (h.1 ▸ hi)).2 (h.2 i hi).2⟩

theorem diamLe_sub {N : (Nat → ℝ) → ℝ} {eta : ℝ} {t t' s s' : CInfo ℝ} (ht : SubBox t' t) (hs : SubBox s' s)
    (hd : DiamLe N eta t s) : DiamLe N eta t' s' := fun x x' z y hx hx' hz hy =>
  hd x x' z y (inBox_sub ht hx) (inBox_sub ht hx') (inBox_sub ht hz) (inBox_sub hs hy)

/-- A larger `eta` accepts more, and accepted pairs stay accepted if the boxes shrink (so descendants of admissible
clusters are admissible). -/
theorem C18_monotone_inherited {eta eta' : ℝ} (he : 0 ≤ eta) (hee : eta ≤ eta') {t s t' s' : CInfo ℝ}
    (hd : t.dim = s.dim) (ht : BoxOK t) (hs : BoxOK s) (ht' : BoxOK t') (hs' : BoxOK s')
    (hst : SubBox t' t) (hss : SubBox s' s) :
    (admissible2 eta t s = .ok true → admissible2 eta' t' s' = .ok true) ∧
    (admissibleMax eta t s = .ok true → admissibleMax eta' t' s' = .ok true) ∧
    (admissible2Min eta t s = .ok true → admissible2Min eta' t' s' = .ok true) := by
  have hd' : t'.dim = s'.dim := by rw [hst.1, hss.1, hd]
  have key : ∀ {N : (Nat → ℝ) → ℝ}, (∀ v, 0 ≤ N v) → ∀ {a b a' b' : CInfo ℝ}, SubBox a' a → SubBox b' b →
      DiamLe N eta a b → DiamLe N eta' a' b' := fun hN _ _ _ _ h1 h2 h => diamLe_mono hN hee (diamLe_sub h1 h2 h)
  refine ⟨?_, ?_, ?_⟩
  · obtain ⟨r, h1, h2⟩ := C18_admissible_2 he hd ht hs
    obtain ⟨r', h1', h2'⟩ := C18_admissible_2 (le_trans he hee) hd' ht' hs'
    intro h
    rw [h1] at h
    have hr := h2.mp (Except.ok.inj h)
    rw [h1', h2'.mpr ?_]
    rw [hst.1]
    exact ⟨key (norm2_nonneg _) hst hss hr.1, key (norm2_nonneg _) hss hst hr.2⟩
  · obtain ⟨r, h1, h2⟩ := C18_admissible_max he hd ht hs
    obtain ⟨r', h1', h2'⟩ := C18_admissible_max (le_trans he hee) hd' ht' hs'
    intro h
    rw [h1] at h
    have hr := h2.mp (Except.ok.inj h)
    rw [h1', h2'.mpr ?_]
    rw [hst.1]
    exact ⟨key (normMax_nonneg _) hst hss hr.1, key (normMax_nonneg _) hss hst hr.2⟩
  · obtain ⟨r, h1, h2⟩ := C18_admissible_2_min he hd ht hs
    obtain ⟨r', h1', h2'⟩ := C18_admissible_2_min (le_trans he hee) hd' ht' hs'
    intro h
    rw [h1] at h
    have hr := h2.mp (Except.ok.inj h)
    rw [h1', h2'.mpr ?_]
    rw [hst.1]
    exact hr.imp (key (norm2_nonneg _) hst hss) (key (norm2_nonneg _) hss hst)

/-- two unit intervals at distance two -/
noncomputable def ivl (a b : ℝ) : CInfo ℝ := 
  { off := 0, size := 1, dim := 1, bmin := fun _ => a, bmax := fun _ => b, desc := 1, type := 0 }

example : BoxOK (ivl 0 1) ∧ BoxOK (ivl 3 4) ∧ (ivl 0 1).dim = (ivl 3 4).dim ∧ SubBox (ivl 0 (1/2)) (ivl 0 1) := by
  refine ⟨fun i _ => ?_, fun i _ => ?_, rfl, rfl, fun i _ => ⟨?_, ?_⟩⟩ <;> norm_num [ivl]

/-- with `eta = 1` this pair is admissible, with `eta = 1/4` it is not: both outcomes occur -/
example : admissibleMax 1 (ivl 0 1) (ivl 3 4) = .ok true ∧ admissibleMax (1/4) (ivl 0 1) (ivl 3 4) = .ok false := by
  constructor <;>
  · simp only [admissibleMax, getdistMax, getdiamMax, ivl, cassert, forT, loopT, bind, Except.bind, pure, Except.pure]
    norm_num [loopT, Except.bind]

end H2.Props
