import Verif.Proof.Coarsen2
import Verif.Proof.Collect3

set_option linter.unusedSectionVars false

namespace H2.HV
open Spec Svd
variable {G 𝕜 : Type} [RCLike 𝕜]

/-! ## Error relations -/

/-- error of a block whose sons have been replaced -/
theorem within_sons {frob : Bool} {t s : CRef G} {m n : Nat} {son son' : Fin m → Fin n → HV G 𝕜} {e : Fin m → Fin n → ℝ} (he : ∀ i j, 0 ≤ e i j)
    (ho : HVOk (super t s m n son)) (ho' : HVOk (super t s m n son')) (hrefs : ∀ i j, (son' i j).rc = (son i j).rc ∧ (son' i j).cc = (son i j).cc)
    (h : ∀ i j, Within frob (e i j) (son i j).rc.cl.size (son i j).cc.cl.size fun p q => hentry (son i j) p q - hentry (son' i j) p q) :
    Within frob (∑ i, ∑ j, e i j) t.cl.size s.cl.size fun p q => hentry (super t s m n son) p q - hentry (super t s m n son') p q := by
  obtain ⟨hm, hn, ⟨Rf, Cf, hRC, hR, hC⟩, hs⟩ := ho
  have key : Within frob (∑ i : Fin m, ∑ j : Fin n, e i j) t.cl.size s.cl.size fun p q =>
      ∑ i : Fin m, ∑ j : Fin n, (hval (son i j) (t.cl.off + p) (s.cl.off + q) - hval (son' i j) (t.cl.off + p) (s.cl.off + q)) := by
    refine within_sum _ (fun i _ => Finset.sum_nonneg fun j _ => he i j) fun i _ => within_sum _ (fun j _ => he i j) fun j _ => ?_
    have b1 := pre_le (fun k => (Rf k).cl.size) i
    have b2 := pre_le (fun k => (Cf k).cl.size) j
    rw [hR.2] at b1
    rw [hC.2] at b2
    have hR1 : (Rf i).cl.off = t.cl.off + pre (fun k => (Rf k).cl.size) i.1 := hR.1 i
    have hC1 : (Cf j).cl.off = s.cl.off + pre (fun k => (Cf k).cl.size) j.1 := hC.1 j
    refine within_window b1 b2 (fun p hp q hq hn => ?_) ?_
    · have hx : ¬ (t.cl.off + p ∈ seg (Rf i) ∧ s.cl.off + q ∈ seg (Cf j)) := fun hx => by
        obtain ⟨hx1, hx2⟩ := hx
        rw [mem_seg] at hx1 hx2
        omega
      rw [hval_out (hs i j) (by rw [(hRC i j).1, (hRC i j).2]; exact hx), hval_out (ho'.2.2.2 i j) (by rw [(hrefs i j).1, (hrefs i j).2, (hRC i j).1, (hRC i j).2]; exact hx), sub_zero]
    · have := h i j
      unfold hentry at this
      rw [(hrefs i j).1, (hrefs i j).2, (hRC i j).1, (hRC i j).2, hR1, hC1] at this
      simpa only [Nat.add_assoc] using this
  refine within_congr (fun p _ q _ => ?_) key
  unfold hentry
  rw [hval_super, hval_super, ← Finset.sum_sub_distrib]
  refine Finset.sum_congr rfl fun i _ => ?_
  rw [← Finset.sum_sub_distrib]
  rfl

theorem hentry_rk {t s : CRef G} {r : VRk 𝕜} {p q : Nat} (hp : p < t.cl.size) (hq : q < s.cl.size) : hentry (rk t s r) p q = rkVal r p q := by
  unfold hentry
  rw [hval_rk]
  show (if t.cl.off + p ∈ seg t ∧ s.cl.off + q ∈ seg s then rkVal r (t.cl.off + p - t.cl.off) (s.cl.off + q - s.cl.off) else 0) = _
  rw [if_pos ⟨mem_seg.mpr ⟨by omega, by omega⟩, mem_seg.mpr ⟨by omega, by omega⟩⟩, Nat.add_sub_cancel_left, Nat.add_sub_cancel_left]

/-- absolute errors -/
theorem errRel_abs {tm : Option Trunc.Mode} {eps : ℝ} {frob : Bool} {e : ℝ} (he0 : 0 ≤ e)
    (hloc : ∀ (rows cols : Nat) (M N : Nat → Nat → 𝕜), CloseTo tm eps rows cols M N → Within frob e rows cols fun i j => M i j - N i j) :
    ErrRel tm eps fun (h h' : HV G 𝕜) => Within frob (e * supers h) h.rc.cl.size h.cc.cl.size fun i j => hentry h i j - hentry h' i j := by
  have hsum : ∀ {m n : Nat} (f : Fin m → Fin n → Nat), e * ((1 + ∑ i, ∑ j, f i j : ℕ) : ℝ) = (∑ i, ∑ j, e * f i j) + e := fun f => by
    push_cast
    rw [mul_add, mul_one, add_comm, Finset.mul_sum]
    simp only [Finset.mul_sum]
  refine ⟨fun h => within_zero fun _ _ _ _ => sub_self _, ?_, ?_⟩
  · intro t s m n son son' ho ho' hrefs h
    have h1 := within_sons (fun i j => mul_nonneg he0 (Nat.cast_nonneg _)) ho ho' hrefs h
    rw [supers, hsum]
    refine within_congr (fun p _ q _ => add_zero _) (within_add (Finset.sum_nonneg fun i _ => Finset.sum_nonneg fun j _ => mul_nonneg he0 (Nat.cast_nonneg _)) he0 h1
      (within_zero (frob := frob) (e := e) (E := fun _ _ => (0 : 𝕜)) fun _ _ _ _ => rfl))
  · intro t s m n son son' r ho ho' hrefs h hc
    have h1 := within_sons (fun i j => mul_nonneg he0 (Nat.cast_nonneg _)) ho ho' hrefs h
    rw [supers, hsum]
    refine within_congr (fun p hp q hq => ?_) (within_add (Finset.sum_nonneg fun i _ => Finset.sum_nonneg fun j _ => mul_nonneg he0 (Nat.cast_nonneg _)) he0 h1 (hloc _ _ _ _ hc))
    rw [hentry_rk (t := t) (s := s) hp hq]
    ring

/-- the Frobenius norm of a subdivided matrix -/
theorem frob_segments {t s : CRef G} {m n : Nat} {Rf : Fin m → CRef G} {Cf : Fin n → CRef G} (hR : Segments t Rf) (hC : Segments s Cf) (F : Nat → Nat → 𝕜) :
    frobSq t.cl.size s.cl.size (fun p q => F (t.cl.off + p) (s.cl.off + q)) =
      ∑ i, ∑ j, frobSq (Rf i).cl.size (Cf j).cl.size fun p q => F ((Rf i).cl.off + p) ((Cf j).cl.off + q) := by
  unfold frobSq vecSq
  rw [sum_segments hC (fun c => ∑ p ∈ Finset.range t.cl.size, ‖F (t.cl.off + p) c‖ ^ 2), Finset.sum_comm (s := (Finset.univ : Finset (Fin m)))]
  refine Finset.sum_congr rfl fun j _ => ?_
  rw [Finset.sum_congr rfl fun q _ => sum_segments hR (fun r => ‖F r ((Cf j).cl.off + q)‖ ^ 2), Finset.sum_comm]

theorem hentry_son {t s : CRef G} {m n : Nat} {son : Fin m → Fin n → HV G 𝕜} (ho : HVOk (super t s m n son)) (i : Fin m) (j : Fin n) {p q : Nat} (hp : p < (son i j).rc.cl.size)
    (hq : q < (son i j).cc.cl.size) : hval (super t s m n son) ((son i j).rc.cl.off + p) ((son i j).cc.cl.off + q) = hentry (son i j) p q :=
  (H2.hval_son ho i j (In.add hp) (In.add hq)).1

/-- Frobenius norms and errors of a subdivided matrix -/
theorem frob_sons {t s : CRef G} {m n : Nat} {son son' : Fin m → Fin n → HV G 𝕜}
    (ho : HVOk (super t s m n son)) (ho' : HVOk (super t s m n son')) (hrefs : ∀ i j, (son' i j).rc = (son i j).rc ∧ (son' i j).cc = (son i j).cc) (c : 𝕜) :
    frobSq t.cl.size s.cl.size (fun p q => hentry (super t s m n son) p q - c * hentry (super t s m n son') p q) =
      ∑ i, ∑ j, frobSq (son i j).rc.cl.size (son i j).cc.cl.size fun p q => hentry (son i j) p q - c * hentry (son' i j) p q := by
  obtain ⟨hm, hn, ⟨Rf, Cf, hRC, hR, hC⟩, hs⟩ := id ho
  refine (frob_segments hR hC fun r c' => hval (super t s m n son) r c' - c * hval (super t s m n son') r c').trans ?_
  refine Finset.sum_congr rfl fun i _ => Finset.sum_congr rfl fun j _ => ?_
  rw [← (hRC i j).1, ← (hRC i j).2]
  refine frobSq_congr fun p hp q hq => ?_
  have h1 := hentry_son ho i j hp hq
  have h2 := hentry_son ho' i j (p := p) (q := q) (by rw [(hrefs i j).1]; exact hp) (by rw [(hrefs i j).2]; exact hq)
  rw [(hrefs i j).1, (hrefs i j).2] at h2
  rw [h1, h2]

/-- relative errors -/
theorem errRel_rel {eps : ℝ} (heps : 0 ≤ eps) : ErrRel (some ⟨true, false⟩) eps fun (h h' : HV G 𝕜) =>
    frobSq h.rc.cl.size h.cc.cl.size (fun i j => hentry h i j - hentry h' i j) ≤ ((1 + eps) ^ nested h - 1) ^ 2 * frobSq h.rc.cl.size h.cc.cl.size (hentry h) := by
  have hg : ∀ k, 0 ≤ (1 + eps) ^ k - 1 := fun k => sub_nonneg.mpr (one_le_pow₀ (by linarith))
  have hmono : ∀ {k l : Nat}, k ≤ l → (1 + eps) ^ k - 1 ≤ (1 + eps) ^ l - 1 := fun h => sub_le_sub_right (pow_le_pow_right₀ (by linarith) h) 1
  have hz : ∀ (rows cols : Nat) (M N : Nat → Nat → 𝕜), (fun i j => M i j - 1 * N i j) = fun i j => M i j - N i j := fun _ _ _ _ => by funext i j; ring
  have hone : ∀ (M N : Nat → Nat → 𝕜), (fun i j => M i j - 0 * N i j) = M := fun _ _ => by funext i j; ring
  have sons : ∀ {t s : CRef G} {m n : Nat} {son son' : Fin m → Fin n → HV G 𝕜}, HVOk (super t s m n son) → HVOk (super t s m n son') →
      (∀ i j, (son' i j).rc = (son i j).rc ∧ (son' i j).cc = (son i j).cc) →
      (∀ i j, frobSq (son i j).rc.cl.size (son i j).cc.cl.size (fun p q => hentry (son i j) p q - hentry (son' i j) p q) ≤
        ((1 + eps) ^ nested (son i j) - 1) ^ 2 * frobSq (son i j).rc.cl.size (son i j).cc.cl.size (hentry (son i j))) →
      ∃ k, nested (super t s m n son) = k + 1 ∧ frobSq t.cl.size s.cl.size (fun p q => hentry (super t s m n son) p q - hentry (super t s m n son') p q) ≤
        ((1 + eps) ^ k - 1) ^ 2 * frobSq t.cl.size s.cl.size (hentry (super t s m n son)) := by
    intro t s m n son son' ho ho' hrefs h
    refine ⟨_, Nat.add_comm 1 _, ?_⟩
    have h1 := frob_sons ho ho' hrefs 1
    have h2 := frob_sons ho ho' hrefs 0
    rw [hone] at h2
    rw [hz t.cl.size s.cl.size] at h1
    rw [h1, h2, Finset.mul_sum]
    refine Finset.sum_le_sum fun i _ => ?_
    rw [Finset.mul_sum]
    refine Finset.sum_le_sum fun j _ => ?_
    rw [hone, hz t.cl.size s.cl.size]
    refine (h i j).trans (mul_le_mul_of_nonneg_right (pow_le_pow_left₀ (hg _) (hmono ?_) 2) (frob_nonneg _ _ _))
    exact (Finset.le_sup (f := fun j => nested (son i j)) (Finset.mem_univ j)).trans (Finset.le_sup (f := fun i => Finset.univ.sup fun j => nested (son i j)) (Finset.mem_univ i))
  refine ⟨fun h => ?_, ?_, ?_⟩
  · have : frobSq h.rc.cl.size h.cc.cl.size (fun i j => hentry h i j - hentry h i j) = 0 := by simp [frobSq, vecSq]
    rw [this]
    exact mul_nonneg (sq_nonneg _) (frob_nonneg _ _ _)
  · intro t s m n son son' ho ho' hrefs h
    obtain ⟨k, hk, h1⟩ := sons ho ho' hrefs h
    rw [hk]
    exact h1.trans (mul_le_mul_of_nonneg_right (pow_le_pow_left₀ (hg _) (hmono (Nat.le_succ k)) 2) (frob_nonneg _ _ _))
  · intro t s m n son son' r ho ho' hrefs h hc
    obtain ⟨k, hk, h1⟩ := sons ho ho' hrefs h
    rw [hk]
    obtain ⟨X, hX⟩ : ∃ X, X = hentry (super t s m n son) := ⟨_, rfl⟩
    obtain ⟨Y, hY⟩ : ∃ Y, Y = hentry (super t s m n son') := ⟨_, rfl⟩
    rw [← hX, ← hY] at h1
    rw [← hY] at hc
    show frobSq t.cl.size s.cl.size (fun i j => hentry (super t s m n son) i j - hentry (rk t s r) i j) ≤ _ * frobSq t.cl.size s.cl.size (hentry (super t s m n son))
    rw [← hX, frobSq_congr (N := fun i j => X i j - rkVal r i j) fun p hp q hq => by beta_reduce; rw [hentry_rk hp hq]]
    replace hc : frobSq t.cl.size s.cl.size (fun i j => Y i j - rkVal r i j) ≤ eps ^ 2 * frobSq t.cl.size s.cl.size Y := hc
    rw [← fvec_norm, ← fvec_norm, ← mul_pow] at h1 hc ⊢
    have k1 := (le_abs_self _).trans (abs_le_of_sq_le_sq h1 (mul_nonneg (hg k) (norm_nonneg _)))
    have k2 := (le_abs_self _).trans (abs_le_of_sq_le_sq hc (mul_nonneg heps (norm_nonneg _)))
    refine pow_le_pow_left₀ (norm_nonneg _) ?_ 2
    have e1 : fvec t.cl.size s.cl.size (fun i j => X i j - rkVal r i j) = fvec t.cl.size s.cl.size (fun i j => X i j - Y i j) + fvec t.cl.size s.cl.size (fun i j => Y i j - rkVal r i j) := by
      have : (fun i j => X i j - rkVal r i j) = fun i j => (X i j - Y i j) + (Y i j - rkVal r i j) := by funext i j; ring
      rw [this]; rfl
    have e2 : fvec t.cl.size s.cl.size Y = fvec t.cl.size s.cl.size X - fvec t.cl.size s.cl.size (fun i j => X i j - Y i j) := by
      have : Y = fun i j => X i j - (X i j - Y i j) := by funext i j; ring
      conv_lhs => rw [this]
      rfl
    have k3 : ‖fvec t.cl.size s.cl.size Y‖ ≤ ‖fvec t.cl.size s.cl.size X‖ + ((1 + eps) ^ k - 1) * ‖fvec t.cl.size s.cl.size X‖ := by
      rw [e2]
      exact (norm_sub_le _ _).trans (by gcongr)
    rw [e1]
    refine (norm_add_le _ _).trans ?_
    have k4 := mul_le_mul_of_nonneg_left k3 heps
    rw [pow_succ]
    nlinarith [k1, k2, k4]

end H2.HV
