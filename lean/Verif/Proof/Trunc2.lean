import Verif.Proof.Trunc

set_option linter.unusedSectionVars false

namespace H2.Svd
open Spec Dense
variable {𝕜 : Type} [RCLike 𝕜]

theorem orth_comp {n k K : Nat} {Q u : Nat → Nat → 𝕜} (hQ : OrthCols n k Q) (hu : OrthCols k K u) : OrthCols n K fun i l => ∑ p ∈ Finset.range k, Q i p * u p l := by
  intro l hl l' hl'
  rw [← vec_inner n (fun i => ∑ p ∈ Finset.range k, Q i p * u p l) (fun i => ∑ p ∈ Finset.range k, Q i p * u p l'), vec_sum n (Finset.range k) (fun p => u p l) (fun p i => Q i p),
    vec_sum n (Finset.range k) (fun p => u p l') (fun p i => Q i p), ← hu l hl l' hl']
  rw [← Fin.sum_univ_eq_sum_range (fun p => u p l • vec n fun i => Q i p), ← Fin.sum_univ_eq_sum_range (fun p => u p l' • vec n fun i => Q i p),
    ← Fin.sum_univ_eq_sum_range (fun p => star (u p l) * u p l'), (orth hQ).inner_sum (fun p => u p l) (fun p => u p l') Finset.univ]
  rfl

theorem orth_le {n k k' : Nat} {Q : Nat → Nat → 𝕜} (hQ : OrthCols n k Q) (h : k' ≤ k) : OrthCols n k' Q := fun l hl l' hl' => hQ l (by omega) l' (by omega)

section
variable {rows cols K : Nat} {M : Nat → Nat → 𝕜} {s : Nat → ℝ} {U V : Nat → Nat → 𝕜}

theorem form_adj (h : SvdForm rows cols K M s U V) : SvdForm cols rows K (fun i j => star (M j i)) s V U := by
  refine ⟨h.orthV, h.orthU, h.nonneg, h.dec, fun i hi j hj => ?_⟩
  rw [h.eq j hj i hi, star_sum]
  refine Finset.sum_congr rfl fun l _ => ?_
  simp only [star_mul', RCLike.star_def, RCLike.conj_ofReal, RCLike.conj_conj]
  ring

theorem form_comp (h : SvdForm rows cols K M s U V) {n : Nat} {Q : Nat → Nat → 𝕜} (hQ : OrthCols n rows Q) {N : Nat → Nat → 𝕜}
    (hN : ∀ i < n, ∀ j < cols, N i j = ∑ p ∈ Finset.range rows, Q i p * M p j) : SvdForm n cols K N s (fun i l => ∑ p ∈ Finset.range rows, Q i p * U p l) V := by
  refine ⟨orth_comp hQ h.orthU, h.orthV, h.nonneg, h.dec, fun i hi j hj => ?_⟩
  rw [hN i hi j hj]
  simp only [Finset.sum_mul]
  rw [Finset.sum_comm]
  refine Finset.sum_congr rfl fun p hp => ?_
  rw [h.eq p (Finset.mem_range.mp hp) j hj, Finset.mul_sum]
  exact Finset.sum_congr rfl fun l _ => by ring

theorem form_congr (h : SvdForm rows cols K M s U V) {N : Nat → Nat → 𝕜} (hN : ∀ i < rows, ∀ j < cols, N i j = M i j) : SvdForm rows cols K N s U V :=
  ⟨h.orthU, h.orthV, h.nonneg, h.dec, fun i hi j hj => (hN i hi j hj).trans (h.eq i hi j hj)⟩

end

/-- the result of a truncation -/
structure CoreRes (tm : Option Trunc.Mode) (eps : ℝ) (rows cols : Nat) (M : Nat → Nat → 𝕜) (r : VRk 𝕜) : Prop where
  ok : RkOk r
  rows_eq : r.A.rows = rows
  cols_eq : r.B.rows = cols
  form : ∃ K s U V, K ≤ min rows cols ∧ SvdForm rows cols K M s U V ∧ r.k ≤ K ∧ Acceptable tm eps K s r.k ∧ (∀ k' < r.k, ¬ Acceptable tm eps K s k') ∧
    ∀ i < rows, ∀ j < cols, rkVal r i j = part (Finset.range r.k) s U V i j

variable {tm : Option Trunc.Mode} {eps : ℝ} {rows cols : Nat} {M : Nat → Nat → 𝕜}

theorem CoreRes.swap {r : VRk 𝕜} (h : CoreRes tm eps rows cols M r) : CoreRes tm eps cols rows (fun i j => star (M j i)) ⟨r.B, r.A, r.k⟩ := by
  obtain ⟨K, s, U, V, h1, h2, h3, h4, h5, h6⟩ := h.form
  refine ⟨⟨h.ok.2, h.ok.1⟩, h.cols_eq, h.rows_eq, K, s, V, U, by omega, form_adj h2, h3, h4, h5, fun i hi j hj => ?_⟩
  have h7 := congrArg star (h6 j hj i hi)
  unfold rkVal part at h7 ⊢
  simp only [star_sum] at h7
  calc _ = ∑ nu ∈ Finset.range r.k, star (r.A.e j nu * star (r.B.e i nu)) := Finset.sum_congr rfl fun l _ => by rw [star_mul', star_star, mul_comm]
    _ = _ := h7
    _ = _ := Finset.sum_congr rfl fun l _ => by
      simp only [star_mul', RCLike.star_def, RCLike.conj_ofReal, RCLike.conj_conj]
      ring

theorem CoreRes.congr {r : VRk 𝕜} {N : Nat → Nat → 𝕜} (h : CoreRes tm eps rows cols M r) (hN : ∀ i < rows, ∀ j < cols, N i j = M i j) : CoreRes tm eps rows cols N r := by
  obtain ⟨K, s, U, V, h1, h2, h3⟩ := h.form
  exact ⟨h.ok, h.rows_eq, h.cols_eq, K, s, U, V, h1, form_congr h2 hN, h3⟩

theorem CoreRes.truncated {r : VRk 𝕜} (he : 0 ≤ eps) (h : CoreRes tm eps rows cols M r) : Truncated tm eps rows cols M r := by
  obtain ⟨K, s, U, V, h1, h2, h3, h4, h5, h6⟩ := h.form
  exact ⟨h.ok, h.rows_eq, h.cols_eq, h3.trans h1, close_part h2 he h3 h4 h6, fun k hk X Y => not_close h2 he (by omega) (h5 k hk) X Y⟩

end H2.Svd

namespace H2.Tr
open Spec Dense Svd
variable {𝕜 : Type} [RCLike 𝕜] {env : TrEnv 𝕜} (tm : Option Trunc.Mode) (eps : ℝ)

/-- singular value decomposition and rank -/
theorem svd_get (he : ExactEnv env) (c : VMat 𝕜) : ∃ sigma u vt, env.svd c = .ok (sigma, u, vt) ∧ sigma.n = min c.rows c.cols ∧ u.rows = c.rows ∧ u.cols = sigma.n ∧
    vt.rows = sigma.n ∧ vt.cols = c.cols ∧ SvdForm c.rows c.cols sigma.n c.e sigma.v u.e (fun j l => star (vt.e l j)) ∧
    Tot (Trunc.findrank tm eps sigma) fun knew => knew ≤ sigma.n ∧ Acceptable tm eps sigma.n sigma.v knew ∧ ∀ k' < knew, ¬ Acceptable tm eps sigma.n sigma.v k' := by
  obtain ⟨sigma, u, vt, h0, h1, h2, h3, h4, h5, h6⟩ := he.svd c
  rw [← h1] at h3 h4 h6
  exact ⟨sigma, u, vt, h0, h1, h2, h3, h4, h5, h6, Trunc.findrank_tot tm eps sigma fun i j hij hj => h6.dec i j hij hj⟩

/-- the represented matrix -/
theorem lowRank_def (k : Nat) (X Y : Nat → Nat → 𝕜) (i j : Nat) : lowRank k X Y i j = ∑ l ∈ Finset.range k, X i l * star (Y j l) := rfl

theorem coreAb_tot (he : ExactEnv env) {a b : VMat 𝕜} (hab : a.cols = b.cols) : Tot (coreAb env tm eps a b) (CoreRes tm eps a.rows b.rows (lowRank a.cols a.e b.e)) := by
  unfold coreAb
  simp only
  refine Tot.bind (HV.addmul_tot (c := VMat.zero a.rows b.rows) (alpha := 1) (by simpa [VMat.ocols, VMat.orows] using hab) (by simp [VMat.zero, VMat.orows]) (by simp [VMat.zero, VMat.ocols])) ?_
  rintro c - ⟨hr, hc, hce⟩
  replace hr : c.rows = a.rows := hr
  replace hc : c.cols = b.rows := hc
  obtain ⟨sigma, u, vt, h0, h1, h2, h3, h4, h5, h6, hk⟩ := svd_get tm eps he c
  rw [h0, ok_bind]
  refine Tot.bind hk ?_
  rintro knew - ⟨h7, h8, h9⟩
  refine Tot.bind (vdiageval_tot true true sigma _ (show _ ≤ sigma.n by simpa [VMat.copySub, VMat.fresh] using h7)) ?_
  rintro A - ⟨hAr, hAc, hAe⟩
  rw [hr, hc] at h6
  refine Tot.pure ⟨⟨hAc, rfl⟩, hAr, rfl, sigma.n, sigma.v, u.e, _, by omega, form_congr h6 fun i hi j hj => ?_, h7, h8, h9, fun i hi j hj => ?_⟩
  · rw [hce i hi j hj]
    unfold VMat.zero VMat.ocols VMat.oe lowRank
    simp
  · unfold rkVal part
    refine Finset.sum_congr rfl fun l hl => ?_
    have hl := Finset.mem_range.mp hl
    replace hl : l < knew := hl
    rw [hAe i hi l hl]
    unfold VMat.copySub VMat.orows VMat.ocols VMat.oe
    simp only [Bool.false_eq_true, if_false, if_true]
    rw [if_pos ⟨by omega, by omega⟩, if_pos ⟨by omega, by omega⟩]

theorem coreQb_tot (he : ExactEnv env) {a b : VMat 𝕜} (hab : a.cols = b.cols) : Tot (coreQb env tm eps a b) (CoreRes tm eps a.rows b.rows (lowRank a.cols a.e b.e)) := by
  unfold coreQb
  simp only
  refine Tot.bind (vqr_tot he.sgn he.tiny a a.cols) ?_
  rintro ⟨W, tau⟩ - ⟨Q, hQ⟩
  have hWr := hQ.rows
  have hWc := hQ.cols
  simp only at hWr hWc ⊢
  rw [HV.sub_tot (by omega) (by omega), ok_bind]
  refine Tot.bind (vtrieval_tot _ b (show min a.rows a.cols ≤ b.cols by omega) hab) ?_
  rintro b' - ⟨hbr, hbc, hbe⟩
  rw [HV.sub_tot (by omega) (by omega), ok_bind]
  obtain ⟨sigma, u, vt, h0, h1, h2, h3, h4, h5, h6, hk⟩ := svd_get tm eps he ⟨b.rows, min a.rows a.cols, fun i j => b'.e (0 + i) (0 + j)⟩
  rw [h0, ok_bind]
  refine Tot.bind hk ?_
  rintro knew - ⟨h7, h8, h9⟩
  simp only at h1 h2 h3 h4 h5 h6 ⊢
  refine Tot.bind (hQ.eval _ (by simp [VMat.copySub, VMat.zero])) ?_
  rintro A - ⟨hAr, hAc, hAe⟩
  refine Tot.bind (vdiageval_tot true true sigma _ (show _ ≤ sigma.n by simpa [VMat.copySub, VMat.fresh] using h7)) ?_
  rintro B - ⟨hBr, hBc, hBe⟩
  have hform := form_comp (form_adj h6) (orth_le hQ.orth (Nat.min_le_left _ _)) (N := lowRank a.cols a.e b.e) fun i hi j hj => by
    unfold lowRank
    rw [Finset.sum_congr rfl fun l hl => by rw [hQ.fac i hi l (Finset.mem_range.mp hl)]]
    simp only [Finset.sum_mul]
    rw [Finset.sum_comm]
    refine Finset.sum_congr rfl fun p hp => ?_
    have hp := Finset.mem_range.mp hp
    rw [Nat.zero_add, Nat.zero_add, hbe j hj p hp, star_sum, Finset.mul_sum]
    refine Finset.sum_congr rfl fun l hl => ?_
    rw [star_mul', star_star, mul_assoc, mul_comm (star (b.e j l))]
    congr 2
    exact tri_congr _ _ (by simp)
  refine Tot.pure ⟨⟨hAc, hBc⟩, hAr, hBr, sigma.n, sigma.v, _, u.e, by omega, hform, h7, h8, h9, fun i hi j hj => ?_⟩
  unfold rkVal part
  refine Finset.sum_congr rfl fun l hl => ?_
  have hl := Finset.mem_range.mp hl
  replace hl : l < knew := hl
  rw [hAe i hi l hl, hBe j hj l hl]
  have e1 : ∑ p ∈ Finset.range a.rows, Q i p * (VMat.copySub true vt (VMat.zero a.rows knew)).e p l = ∑ p ∈ Finset.range (min a.rows a.cols), Q i p * star (vt.e l p) := by
    rw [← Finset.sum_subset (Finset.range_subset_range.mpr (Nat.min_le_left a.rows a.cols))]
    · refine Finset.sum_congr rfl fun p hp => ?_
      have hp := Finset.mem_range.mp hp
      unfold VMat.copySub VMat.orows VMat.ocols VMat.oe
      simp only [if_true]
      rw [if_pos ⟨by omega, by omega⟩]
    · intro p hp hp'
      have hp' : ¬ p < min a.rows a.cols := fun h => hp' (Finset.mem_range.mpr h)
      unfold VMat.copySub VMat.orows VMat.ocols VMat.oe VMat.zero
      simp only [if_true]
      rw [if_neg (by omega), mul_zero]
  have e2 : (VMat.copySub false u (VMat.fresh env.toQrEnv b.rows knew)).e j l = u.e j l := by
    unfold VMat.copySub VMat.orows VMat.ocols VMat.oe
    simp only [Bool.false_eq_true, if_false]
    rw [if_pos ⟨by omega, by omega⟩]
  rw [e1, e2]
  simp only [if_true, star_mul', RCLike.star_def, RCLike.conj_ofReal]
  ring

theorem coreAq_swap {a b : VMat 𝕜} (hab : a.cols = b.cols) : coreAq env tm eps a b = (do let r ← coreQb env tm eps b a; pure ⟨r.B, r.A, r.k⟩) := by
  unfold coreAq coreQb
  simp only [bind_assoc, pure_bind, hab]

theorem coreAq_tot (he : ExactEnv env) {a b : VMat 𝕜} (hab : a.cols = b.cols) : Tot (coreAq env tm eps a b) (CoreRes tm eps a.rows b.rows (lowRank a.cols a.e b.e)) := by
  rw [coreAq_swap tm eps hab]
  refine Tot.bind (coreQb_tot tm eps he hab.symm) fun r _ h => Tot.pure (h.swap.congr fun i _ j _ => ?_)
  unfold lowRank
  rw [star_sum, hab]
  exact Finset.sum_congr rfl fun l _ => by rw [star_mul', star_star, mul_comm]

theorem coreQq_tot (he : ExactEnv env) {a b : VMat 𝕜} (hab : a.cols = b.cols) : Tot (coreQq env tm eps a b) (CoreRes tm eps a.rows b.rows (lowRank a.cols a.e b.e)) := by
  unfold coreQq
  simp only
  refine Tot.bind (vqr_tot he.sgn he.tiny a a.cols) ?_
  rintro ⟨W, atau⟩ - ⟨Q, hQ⟩
  refine Tot.bind (vqr_tot he.sgn he.tiny b a.cols) ?_
  rintro ⟨W', btau⟩ - ⟨Q', hQ'⟩
  have hWr := hQ.rows
  have hWc := hQ.cols
  have hWr' := hQ'.rows
  have hWc' := hQ'.cols
  simp only at hWr hWc hWr' hWc' ⊢
  rw [HV.sub_tot (by omega) (by omega), ok_bind, HV.sub_tot (by omega) (by omega), ok_bind]
  refine Tot.bind (vtriaddmul_tot _ _ rfl) ?_
  rintro c - ⟨hr, hc, hce⟩
  simp only at hr hc hce
  obtain ⟨sigma, u, vt, h0, h1, h2, h3, h4, h5, h6, hk⟩ := svd_get tm eps he c
  rw [h0, ok_bind]
  refine Tot.bind hk ?_
  rintro knew - ⟨h7, h8, h9⟩
  refine Tot.bind (vdiageval_tot true true sigma u (show _ ≤ sigma.n by simp [h3])) ?_
  rintro u' - ⟨hur, huc, hue⟩
  refine Tot.bind (hQ.eval _ (by simp [VMat.copySub, VMat.zero])) ?_
  rintro A - ⟨hAr, hAc, hAe⟩
  refine Tot.bind (hQ'.eval _ (by simp [VMat.copySub, VMat.zero])) ?_
  rintro B - ⟨hBr, hBc, hBe⟩
  rw [hr, hc] at h6
  have hform := form_comp h6 (orth_le hQ.orth (Nat.min_le_right a.cols a.rows)) (N := fun i q => ∑ p ∈ Finset.range (min a.cols a.rows), Q i p * c.e p q) fun i hi j hj => rfl
  have hform' := form_adj (form_comp (form_adj hform) (orth_le hQ'.orth (Nat.min_le_right a.cols b.rows)) (N := fun j i => star (lowRank a.cols a.e b.e i j)) fun j hj i hi => by
    unfold lowRank
    rw [Finset.sum_congr rfl fun l hl => by rw [hQ.fac i hi l (Finset.mem_range.mp hl), hQ'.fac j hj l (by have := Finset.mem_range.mp hl; omega)]]
    simp only [star_sum, star_mul', star_star, Finset.mul_sum, Finset.sum_mul]
    rw [Finset.sum_comm, ← hab, Nat.min_comm b.rows a.cols]
    refine Finset.sum_congr rfl fun p' hp' => ?_
    rw [Finset.sum_comm, Nat.min_comm a.rows a.cols]
    refine Finset.sum_congr rfl fun p hp => ?_
    rw [hce p (Finset.mem_range.mp hp) p' (Finset.mem_range.mp hp'), star_sum, Finset.mul_sum, Finset.mul_sum]
    refine Finset.sum_congr rfl fun l _ => ?_
    have e1 : tri false false (fun i j => W.e (0 + i) (0 + j)) p l = tri false false W.e p l := tri_congr _ _ (by simp)
    have e2 : tri false false (fun i j => W'.e (0 + i) (0 + j)) p' l = tri false false W'.e p' l := tri_congr _ _ (by simp)
    rw [e1, e2]
    simp only [star_mul', star_star]
    ring)
  simp only [star_star] at hform'
  refine Tot.pure ⟨⟨hAc, hBc⟩, hAr, hBr, sigma.n, sigma.v, _, _, by omega, hform', h7, h8, h9, fun i hi j hj => ?_⟩
  unfold rkVal part
  refine Finset.sum_congr rfl fun l hl => ?_
  have hl := Finset.mem_range.mp hl
  replace hl : l < knew := hl
  rw [hAe i hi l hl, hBe j hj l hl]
  have e1 : ∑ p ∈ Finset.range a.rows, Q i p * (VMat.copySub false u' (VMat.zero a.rows knew)).e p l = (∑ p ∈ Finset.range (min a.cols a.rows), Q i p * u.e p l) * (sigma.v l : 𝕜) := by
    rw [Finset.sum_mul, ← Finset.sum_subset (Finset.range_subset_range.mpr (Nat.min_le_right a.cols a.rows))]
    · refine Finset.sum_congr rfl fun p hp => ?_
      have hp := Finset.mem_range.mp hp
      unfold VMat.copySub VMat.orows VMat.ocols VMat.oe
      simp only [Bool.false_eq_true, if_false]
      rw [if_pos ⟨by omega, by omega⟩, hue p (by omega) l (by omega), mul_assoc]
      simp
    · intro p hp hp'
      have hp' : ¬ p < min a.cols a.rows := fun h => hp' (Finset.mem_range.mpr h)
      unfold VMat.copySub VMat.orows VMat.ocols VMat.oe VMat.zero
      simp only [Bool.false_eq_true, if_false]
      rw [if_neg (by omega), mul_zero]
  have e2 : ∑ p ∈ Finset.range b.rows, Q' j p * (VMat.copySub true vt (VMat.zero b.rows knew)).e p l = ∑ p ∈ Finset.range (min a.cols b.rows), Q' j p * star (vt.e l p) := by
    rw [← Finset.sum_subset (Finset.range_subset_range.mpr (Nat.min_le_right a.cols b.rows))]
    · refine Finset.sum_congr rfl fun p hp => ?_
      have hp := Finset.mem_range.mp hp
      unfold VMat.copySub VMat.orows VMat.ocols VMat.oe
      simp only [if_true]
      rw [if_pos ⟨by omega, by omega⟩]
    · intro p hp hp'
      have hp' : ¬ p < min a.cols b.rows := fun h => hp' (Finset.mem_range.mpr h)
      unfold VMat.copySub VMat.orows VMat.ocols VMat.oe VMat.zero
      simp only [if_true]
      rw [if_neg (by omega), mul_zero]
  rw [e1, e2]

theorem core_tot (he : ExactEnv env) {k : Nat} {a b : VMat 𝕜} (hab : a.cols = b.cols) : Tot (core env tm eps k a b) (CoreRes tm eps a.rows b.rows (lowRank a.cols a.e b.e)) := by
  unfold core
  split
  · split
    · exact coreQq_tot tm eps he hab
    · exact coreQb_tot tm eps he hab
  · split
    · exact coreAq_tot tm eps he hab
    · exact coreAb_tot tm eps he hab

theorem trunc_tot (he : ExactEnv env) {r : VRk 𝕜} (hr : RkOk r) : Tot (trunc env tm eps r) (CoreRes tm eps r.A.rows r.B.rows (rkVal r)) := by
  unfold trunc
  refine Tot.cassert (by simpa using hr.1) (Tot.cassert (by simpa using hr.2) ?_)
  refine (core_tot tm eps he (hr.1.trans hr.2.symm)).mono fun r' h => h.congr fun i _ j _ => ?_
  unfold rkVal lowRank
  rw [hr.1]

theorem joined_tot {alpha : Option 𝕜} {rows : Nat} {x y : VMat 𝕜} {kx ky : Nat} (hx : x.rows = rows) (hxc : x.cols = kx) (hy : y.rows = rows) (hyc : y.cols = ky) :
    Tot (joined env alpha rows x kx y ky) fun a => a.rows = rows ∧ a.cols = kx + ky ∧
      ∀ i < rows, ∀ l < kx + ky, a.e i l = if l < kx then x.e i l * alpha.getD 1 else y.e i (l - kx) := by
  unfold joined
  simp only
  rw [HV.sub_tot (by simp [VMat.fresh]) (by simp [VMat.fresh]), ok_bind, HV.copy_tot (by simpa [VMat.orows] using hx) (by simpa [VMat.ocols] using hxc), ok_bind]
  obtain ⟨w, hw⟩ : ∃ w : VMat 𝕜, w = scaled alpha ⟨rows, kx, x.oe false⟩ := ⟨_, rfl⟩
  have h1 : w.rows = rows ∧ w.cols = kx ∧ ∀ i l, w.e i l = x.e i l * alpha.getD 1 := by
    rw [hw]
    unfold scaled
    cases alpha with
    | none => exact ⟨rfl, rfl, fun i l => by simp [VMat.oe]⟩
    | some alpha =>
      simp only
      by_cases e : alpha = 1
      · rw [if_neg (by simpa using e)]
        exact ⟨rfl, rfl, fun i l => by simp [VMat.oe, e]⟩
      · rw [if_pos e]
        exact ⟨rfl, rfl, fun i l => by simp [VMat.scale, VMat.oe]⟩
  obtain ⟨h1, h2, h3⟩ := h1
  simp only at hw ⊢
  rw [← hw, HV.sub_tot (by simp [VMat.fresh, VMat.glue]) (by simp [VMat.fresh, VMat.glue, Nat.add_comm]), ok_bind, HV.copy_tot (by simpa [VMat.orows] using hy) (by simpa [VMat.ocols] using hyc), ok_bind]
  refine Tot.pure ⟨rfl, Nat.add_comm _ _, fun i hi l hl => ?_⟩
  unfold VMat.glue VMat.oe
  simp only [Bool.false_eq_true, if_false]
  by_cases e : l < kx
  · rw [if_neg (by omega), if_pos (by omega), if_pos e, h3]
    simp
  · rw [if_pos (by omega), if_neg e]
    simp

theorem sum_joined {A : Type*} [AddCommMonoid A] (k1 k2 : Nat) (f g : Nat → A) : ∑ l ∈ Finset.range (k1 + k2), (if l < k1 then f l else g (l - k1)) = ∑ l ∈ Finset.range k1, f l + ∑ l ∈ Finset.range k2, g l := by
  rw [Finset.sum_range_add]
  congr 1
  · exact Finset.sum_congr rfl fun l hl => if_pos (Finset.mem_range.mp hl)
  · exact Finset.sum_congr rfl fun l _ => by rw [if_neg (by omega), Nat.add_sub_cancel_left]

theorem addRk_tot (he : ExactEnv env) (alpha : 𝕜) {src trg : VRk 𝕜} (hs : RkOk src) (ht : RkOk trg) (h1 : src.A.rows = trg.A.rows) (h2 : src.B.rows = trg.B.rows) :
    Tot (addRk env tm eps alpha src trg) (CoreRes tm eps trg.A.rows trg.B.rows fun i j => rkVal trg i j + alpha * rkVal src i j) := by
  unfold addRk
  refine Tot.cassert (by simpa using h1) (Tot.cassert (by simpa using h2) ?_)
  refine Tot.bind (joined_tot (env := env) h1 hs.1 rfl ht.1) ?_
  rintro a - ⟨a1, a2, a3⟩
  refine Tot.bind (joined_tot (env := env) h2 hs.2 rfl ht.2) ?_
  rintro b - ⟨b1, b2, b3⟩
  rw [← a1, ← b1]
  refine (core_tot tm eps he (a2.trans b2.symm)).mono fun r h => h.congr fun i hi j hj => ?_
  unfold lowRank rkVal
  rw [a2, add_comm, Finset.mul_sum, ← sum_joined]
  refine Finset.sum_congr rfl fun l hl => ?_
  have hl := Finset.mem_range.mp hl
  rw [a3 i (by omega) l hl, b3 j (by omega) l hl]
  by_cases e : l < src.k
  · rw [if_pos e, if_pos e, if_pos e]
    simp only [Option.getD_some, Option.getD_none, mul_one]
    ring
  · rw [if_neg e, if_neg e, if_neg e]

end H2.Tr
