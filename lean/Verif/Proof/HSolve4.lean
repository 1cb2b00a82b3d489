import Verif.Proof.HSolve3

/-! Triangular solves with H-matrices on both sides. -/

set_option linter.unusedSectionVars false

namespace H2
open Spec Dense
variable {G K : Type} [Field K] [StarRing K]

namespace HV

theorem _root_.H2.Spec.SameShape.symm : ∀ {a b : HV G K}, SameShape a b → SameShape b a := by
  intro a
  induction a with
  | rk t s x => intro b h; cases b <;> simp only [SameShape] at h ⊢; exact ⟨h.1.symm, h.2.symm⟩
  | full t s x => intro b h; cases b <;> simp only [SameShape] at h ⊢; exact ⟨h.1.symm, h.2.symm⟩
  | super t s m n son ih =>
    intro b h
    cases b with
    | super t' s' m' n' son' =>
      simp only [SameShape] at h ⊢
      obtain ⟨rfl, rfl, rfl, rfl, h⟩ := h
      exact ⟨rfl, rfl, rfl, rfl, fun i j => ih i j (h i j)⟩
    | _ => simp only [SameShape] at h

theorem triSolveH_tot {T : TruncOps K} (hT : Lossless T) {lower unit atrans xt : Bool} : ∀ {shape a x : HV G K}, SameShape shape x →
    HVOk x → HVStd x → HVOk a → HVStd a → SqOk a → a.rc = x.orc xt → (unit = false → ∀ r ∈ seg a.rc, hval a r r ≠ 0) →
    Tot (triSolveH T lower unit atrans xt shape a x) (HSolves lower unit atrans (hval a) (x.orc xt) xt x) := by
  intro shape
  induction shape with
  | full t s f =>
    intro a x hsh ho _ ha _ hs hrc hD
    obtain ⟨f', rfl⟩ := shape_full hsh
    rw [triSolveH]
    refine Tot.cassert (by rw [hs.eq]; exact same_refl _) (Tot.cassert (by rw [← hs.eq, hrc]; exact same_refl _) ?_)
    refine Tot.bind (triSolveHA_tot (lower := lower) (unit := unit) (atrans := atrans) (xtrans := xt) ha hs ?_ hD) ?_
    · unfold HV.rsize
      rw [hrc]
      cases xt
      · exact ho.1
      · exact ho.2
    · rintro w - hw
      rw [hrc] at hw
      exact Tot.pure (solve_full ho hw)
  | rk t s r =>
    intro a x hsh ho _ ha _ hs hrc hD
    obtain ⟨r', rfl⟩ := shape_rk hsh
    rw [triSolveH]
    refine Tot.cassert (by rw [hs.eq]; exact same_refl _) (Tot.cassert (by rw [← hs.eq, hrc]; exact same_refl _) ?_)
    cases xt
    · simp only [Bool.false_eq_true, if_false]
      refine Tot.bind (triSolveHA_tot (lower := lower) (unit := unit) (atrans := atrans) (xtrans := false) ha hs ?_ hD) ?_
      · unfold HV.rsize
        rw [hrc]; exact ho.2.1
      · rintro w - hw
        rw [hrc] at hw
        exact Tot.pure (solve_rk (x' := ⟨w, r'.B, r'.k⟩) ho rfl rfl hw)
    · simp only [if_true]
      refine Tot.bind (triSolveHA_tot (lower := lower) (unit := unit) (atrans := atrans) (xtrans := false) ha hs ?_ hD) ?_
      · unfold HV.rsize
        rw [hrc]; exact ho.2.2
      · rintro w - hw
        rw [hrc] at hw
        exact Tot.pure (solve_rk (x' := ⟨r'.A, w, r'.k⟩) ho rfl rfl hw)
  | super t' s' sm sn ss ih =>
    intro a x hsh ho hst ha ha' hs hrc hD
    cases x with
    | rk => exact hsh.elim
    | full => exact hsh.elim
    | super t s m n xs0 =>
    simp only [SameShape] at hsh
    obtain ⟨rfl, rfl, rfl, rfl, hsh⟩ := hsh
    replace hsh : ∀ i j, SameShape (ss i j) (xs0 i j) := hsh
    obtain ⟨kt, ks⟩ := std_segs ho hst
    obtain ⟨hm, hn, -, hok⟩ := id ho
    obtain ⟨-, em, en, hstd⟩ := id hst
    obtain ⟨d, hd⟩ : ∃ d : HV G K, d = .rk t' t' (VRk.new0 0 0) := ⟨_, rfl⟩
    obtain ⟨u, hu⟩ : ∃ u, u = orc xt (.super t' s' sm sn xs0) := ⟨_, rfl⟩
    obtain ⟨v, hv⟩ : ∃ v, v = occ xt (.super t' s' sm sn xs0) := ⟨_, rfl⟩
    obtain ⟨M, hM⟩ : ∃ M, M = if xt then sn else sm := ⟨_, rfl⟩
    obtain ⟨N, hN⟩ : ∃ N, N = if xt then sm else sn := ⟨_, rfl⟩
    have ku : KSeg u := by
      rw [hu]; unfold HV.orc; cases xt
      · exact kt
      · exact ks
    have eM : M = max 1 u.nsons := by
      rw [hM, hu]; unfold HV.orc; cases xt
      · exact em
      · exact en
    have hM0 : 0 < M := by omega
    have hN0 : 0 < N := by rw [hN]; cases xt <;> assumption
    -- the sons of `x`
    have x0 : ∀ i < M, ∀ k < N, HVOk (og xt d xs0 i k) ∧ HVStd (og xt d xs0 i k) ∧ (og xt d xs0 i k).orc xt = kid u i ∧
        (og xt d xs0 i k).occ xt = kid v k ∧ SameShape (og xt d ss i k) (og xt d xs0 i k) := by
      intro i hi k hk
      rw [hM] at hi; rw [hN] at hk
      rw [hu, hv]
      cases xt
      · replace hi : i < sm := hi
        replace hk : k < sn := hk
        have e1 : og false d xs0 i k = xs0 ⟨i, hi⟩ ⟨k, hk⟩ := sg_fin xs0 ⟨i, hi⟩ ⟨k, hk⟩
        have e2 : og false d ss i k = ss ⟨i, hi⟩ ⟨k, hk⟩ := sg_fin ss ⟨i, hi⟩ ⟨k, hk⟩
        rw [e1, e2]
        obtain ⟨q1, q2, q3⟩ := hstd ⟨i, hi⟩ ⟨k, hk⟩
        exact ⟨hok _ _, q3, q1, q2, hsh _ _⟩
      · replace hi : i < sn := hi
        replace hk : k < sm := hk
        have e1 : og true d xs0 i k = xs0 ⟨k, hk⟩ ⟨i, hi⟩ := sg_fin xs0 ⟨k, hk⟩ ⟨i, hi⟩
        have e2 : og true d ss i k = ss ⟨k, hk⟩ ⟨i, hi⟩ := sg_fin ss ⟨k, hk⟩ ⟨i, hi⟩
        rw [e1, e2]
        obtain ⟨q1, q2, q3⟩ := hstd ⟨k, hk⟩ ⟨i, hi⟩
        exact ⟨hok _ _, q3, q2, q1, hsh _ _⟩
    rw [← hu] at hrc
    rw [triSolveH]
    refine Tot.cassert (by rw [hs.eq]; exact same_refl _) (Tot.cassert (by rw [← hs.eq, hrc, hu]; exact same_refl _) ?_)
    simp only
    rw [getSon_ok hm hn, ok_bind]
    have ediv : (!((xs0 ⟨0, hm⟩ ⟨0, hn⟩).orc xt).same (if xt then s' else t')) = decide (0 < u.nsons) := by
      rw [← kid_same, hu]
      have := hstd ⟨0, hm⟩ ⟨0, hn⟩
      unfold HV.orc
      cases xt
      · simp only [Bool.false_eq_true, if_false]; rw [this.1]; rfl
      · simp only [if_true]; rw [this.2.1]; rfl
    rw [ediv]
    refine Tot.bind (sonsFor_tot ha ha' hs hrc ku ?_) ?_
    · intro t s m n son e
      subst e
      rw [← hrc]
      exact ha'.2.1
    rintro a' - ⟨M', eM', as, rfl, has, hsq, hval'⟩
    obtain rfl : M' = M := by rw [eM', eM]
    simp only
    refine Tot.cassert (decide_eq_true trivial) (Tot.cassert (decide_eq_true hM.symm) ?_)
    obtain ⟨fwd, hf⟩ : ∃ fwd, fwd = (lower != atrans) := ⟨_, rfl⟩
    rw [← hf, ← hN]
    obtain ⟨C, hC⟩ : ∃ C : Fin M' → CRef G, C = fun i => kid u i.1 := ⟨_, rfl⟩
    have hR : Segments u C := by
      rw [hC]
      have := ku
      unfold KSeg at this
      rw [← eM] at this
      exact this
    have eC : ∀ i : Fin M', C i = kid u i.1 := fun i => by rw [hC]
    obtain ⟨Tm, hTm⟩ : ∃ Tm, Tm = op atrans (tri lower unit (hval a)) := ⟨_, rfl⟩
    -- shapes and values
    have Xc_at : ∀ {xs : Fin sm → Fin sn → HV G K} {k : Nat}, k < N → (∀ i < M', ∀ k < N,
        SameShape (og xt d xs0 i k) (og xt d xs i k) ∧ HVOk (og xt d xs i k)) → ∀ {i : Fin M'} {r : Nat}, r ∈ seg (C i) → ∀ q,
        Xc xt d M' k xs r q = ohval xt (og xt d xs i.1 k) r q := by
      intro xs k hk h i r hr q
      unfold Xc
      refine Finset.sum_eq_single i.1 (fun i' hi' hne => ?_) fun hn => absurd (Finset.mem_range.mpr i.2) hn
      have hi'' := Finset.mem_range.mp hi'
      refine ohval_out (h i' hi'' k hk).2 fun h' => hne ?_
      rw [(h i' hi'' k hk).1.orc, (x0 i' hi'' k hk).2.2.1] at h'
      have := seg_unique hR (i := ⟨i', hi''⟩) (j := i) (r := r) (by rw [eC]; exact h'.1) hr
      rw [← this]
    refine Tot.bind (forUp_tot (fun k (xs : Fin sm → Fin sn → HV G K) => (∀ i < M', ∀ k' < N, SameShape (og xt d xs0 i k') (og xt d xs i k') ∧
        HVOk (og xt d xs i k')) ∧ (∀ k' < k, k' < N → ∀ r ∈ seg u, ∀ q, ∑ c ∈ seg u, Tm r c * Xc xt d M' k' xs c q = Xc xt d M' k' xs0 r q) ∧
        ∀ k', k ≤ k' → ∀ i, og xt d xs i k' = og xt d xs0 i k') (Nat.zero_le _) ?_ ?_) ?_
    · refine ⟨fun i hi k hk => ⟨.refl _, (x0 i hi k hk).1⟩, fun k' h => absurd h (by omega), fun _ _ _ => rfl⟩
    · intro k xsA _ hk ⟨g1, g2, g3⟩
      -- block column k
      refine (sweep_tot (I := fun p (xs : Fin sm → Fin sn → HV G K) => (∀ i < M', ∀ k' < N, SameShape (og xt d xs0 i k') (og xt d xs i k') ∧
        HVOk (og xt d xs i k')) ∧ (∀ k', k' ≠ k → ∀ i, og xt d xs i k' = og xt d xsA i k') ∧
        SInv Tm (seg u) (Done fwd u C p) (Xc xt d M' k xs0) (Xc xt d M' k xs)) ?_ ?_).mono ?_
      · refine ⟨g1, fun _ _ _ => rfl, ?_⟩
        rw [done_start hR]
        exact sinv_start fun r _ q => Xc_same (fun i => g3 k le_rfl i) r q
      · intro i hi xs ⟨f1, f2, f3⟩
        obtain ⟨ii, hii⟩ : ∃ ii : Fin M', ii = ⟨i, hi⟩ := ⟨_, rfl⟩
        have eii : ii.1 = i := by rw [hii]
        have hb : (if xt then k else i) < sm ∧ (if xt then i else k) < sn := by
          rw [hM] at hi; rw [hN] at hk
          cases xt
          · exact ⟨hi, hk⟩
          · exact ⟨hk, hi⟩
        rw [dif_pos hb, getSon_ok hi hi, ok_bind, ← hii]
        obtain ⟨y1, y2⟩ := f1 i hi k hk
        obtain ⟨z1, z2, z3, z4, z5⟩ := x0 i hi k hk
        have ess : ss ⟨_, hb.1⟩ ⟨_, hb.2⟩ = og xt d ss i k := by
          unfold og sg; rw [dif_pos hb]
        have hsol : Tot (triSolveH T lower unit atrans xt (ss ⟨_, hb.1⟩ ⟨_, hb.2⟩) (as ii ii) (og xt d xs i k))
            (HSolves lower unit atrans (hval (as ii ii)) ((og xt d xs i k).orc xt) xt (og xt d xs i k)) := by
          obtain ⟨q1, q2, q3, q4⟩ := has ii ii
          refine ih _ _ ?_ y2 (y1.std z2) q1 q2 (hsq ii) ?_ ?_
          · rw [ess]; exact z5.trans y1
          · rw [q3, y1.orc, z3, eii]
          · intro hun r hr
            rw [q3] at hr
            rw [← hval' ii ii r hr r hr]
            refine hD hun r ?_
            rw [hrc]
            exact seg_son hR (i := ii) (by rw [eC]; exact hr)
        have hi' : i < if xt then sn else sm := by rw [← hM]; exact hi
        have hk' : k < if xt then sm else sn := by rw [← hN]; exact hk
        refine Tot.bind (atSon_og (d := d) hi' hk' hsol) ?_
        rintro xs1 - ⟨⟨w1, w2, w3⟩, w4⟩
        rw [getSon_og (d := d) hi' hk', ok_bind]
        obtain ⟨y, hy⟩ : ∃ y, y = og xt d xs1 i k := ⟨_, rfl⟩
        rw [← hy] at w1 w2 w3
        rw [← hy]
        rw [y1.orc, z3] at w3
        have eyr : y.orc xt = kid u i := by rw [w1.orc, y1.orc, z3]
        have eyc : y.occ xt = kid v k := by rw [w1.occ, y1.occ, z4]
        have ystd : HVStd y := w1.std (y1.std z2)
        have s1 : ∀ i < M', ∀ k' < N, SameShape (og xt d xs0 i k') (og xt d xs1 i k') ∧ HVOk (og xt d xs1 i k') := by
          intro i' hi'' k' hk''
          by_cases e : i' = i ∧ k' = k
          · rw [e.1, e.2, ← hy]; exact ⟨y1.trans w1, w2⟩
          · rw [w4 i' k' e]; exact f1 i' hi'' k' hk''
        have c1 : ∀ r q, Xc xt d M' k xs1 r q = if r ∈ seg (C ii) then ohval xt y r q else Xc xt d M' k xs r q := by
          intro r q
          by_cases hr : r ∈ seg (C ii)
          · rw [if_pos hr, Xc_at hk s1 hr, eii, hy]
          · rw [if_neg hr, Xc_change (j := i) hi (fun i' hne => w4 i' k fun e => hne e.1), ← hy,
              ohval_out w2 (fun h => hr (by rw [eyr, ← eii, ← eC] at h; exact h.1)),
              ohval_out y2 (fun h => hr (by rw [y1.orc, z3, ← eii, ← eC] at h; exact h.1)), sub_self, add_zero]
        refine (sweepRest_tot hi (I := fun p (xs : Fin sm → Fin sn → HV G K) => (∀ i < M', ∀ k' < N,
          SameShape (og xt d xs0 i k') (og xt d xs i k') ∧ HVOk (og xt d xs i k')) ∧
          (∀ k', k' ≠ k → ∀ i, og xt d xs i k' = og xt d xsA i k') ∧
          ∀ r q, Xc xt d M' k xs r q = Xc xt d M' k xs1 r q - if r ∈ Done fwd u C p ∧ r ∉ Done fwd u C (bnext fwd i) then
            ∑ c ∈ seg (C ii), Tm r c * ohval xt y c q else 0) ?_ ?_).mono ?_
        · refine ⟨s1, fun k' hne i' => ?_, fun r q => ?_⟩
          · rw [w4 i' k' (fun e => hne e.2), f2 k' hne]
          · rw [if_neg (fun h => h.2 h.1), sub_zero]
        · intro j hj haf xs2 ⟨p1, p2, p3⟩
          obtain ⟨jj, hjj⟩ : ∃ jj : Fin M', jj = ⟨j, hj⟩ := ⟨_, rfl⟩
          have ejj : jj.1 = j := by rw [hjj]
          obtain ⟨y1', y2'⟩ := p1 j hj k hk
          obtain ⟨z1', z2', z3', z4', z5'⟩ := x0 j hj k hk
          have eson : ∃ b, getSon as (if atrans then i else j) (if atrans then j else i) = .ok b ∧ HVOk b ∧ HVStd b ∧
              b.orc atrans = C jj ∧ b.occ atrans = C ii ∧
              ∀ r ∈ seg (C jj), ∀ c ∈ seg (C ii), op atrans (hval a) r c = ohval atrans b r c := by
            rw [eC, eC]
            cases atrans
            · refine ⟨_, getSon_ok hj hi, ?_⟩
              rw [← hii, ← hjj]
              obtain ⟨q1, q2, q3, q4⟩ := has jj ii
              exact ⟨q1, q2, q3, q4, fun r hr c hc => hval' jj ii r hr c hc⟩
            · refine ⟨_, getSon_ok hi hj, ?_⟩
              rw [← hii, ← hjj]
              obtain ⟨q1, q2, q3, q4⟩ := has ii jj
              exact ⟨q1, q2, q4, q3, fun r hr c hc => congrArg star (hval' ii jj c hc r hr)⟩
          obtain ⟨b, eb, hb1, hb2, b1, b2, b3⟩ := eson
          rw [eb, ok_bind]
          have hj' : j < if xt then sn else sm := by rw [← hM]; exact hj
          refine (atSon_og (d := d) (i := j) (k := k) hj' hk' (addmulOp_tot hT xt atrans hb1 hb2 w2 ystd y2' (y1'.std z2') ?_ ?_ ?_)).mono ?_
          · rw [y1'.orc, z3', b1, eC, ejj]
          · rw [y1'.occ, z4', eyc]
          · rw [b2, eyr, eC, eii]
          rintro xs3 ⟨⟨t1, t2, t3⟩, t4⟩
          rw [eyr, ← eii, ← eC] at t3
          refine ⟨fun i' hi'' k' hk'' => ?_, fun k' hne i' => ?_, fun r q => ?_⟩
          · by_cases e : i' = j ∧ k' = k
            · rw [e.1, e.2]; exact ⟨y1'.trans t1, t2⟩
            · rw [t4 i' k' e]; exact p1 i' hi'' k' hk''
          · rw [t4 i' k' (fun e => hne e.2)]; exact p2 k' hne i'
          · rw [Xc_change (j := j) hj (fun i' hne => t4 i' k fun e => hne e.1), t3, p3]
            have nx : ∀ r, r ∈ Done fwd u C (bnext fwd j) ↔ r ∈ Done fwd u C (bprev fwd j) ∨ r ∈ seg (C jj) := by
              intro r
              have := done_next (fwd := fwd) hR jj (r := r)
              rw [ejj] at this; exact this
            by_cases hr : r ∈ seg (C jj)
            · have n1 : r ∉ Done fwd u C (bprev fwd j) := by
                have := done_not (fwd := fwd) hR jj hr
                rw [ejj] at this; exact this
              have n2 : r ∉ Done fwd u C (bnext fwd i) := by
                have := after_not (fwd := fwd) hR ii jj (by rw [eii, ejj]; exact haf) hr
                rw [eii] at this; exact this
              rw [if_neg (fun h => n1 h.1), if_pos ⟨(nx r).mpr (.inr hr), n2⟩, sub_zero, sub_right_comm, sub_self, zero_sub,
                ← sub_eq_add_neg]
              congr 1
              refine Finset.sum_congr rfl fun c hc => ?_
              rw [hTm, op_tri_after hR ii jj (by rw [← hf, eii, ejj]; exact haf) hr hc, b3 r hr c hc]
            · have e1 : (r ∈ Done fwd u C (bnext fwd j) ∧ r ∉ Done fwd u C (bnext fwd i)) ↔
                  (r ∈ Done fwd u C (bprev fwd j) ∧ r ∉ Done fwd u C (bnext fwd i)) := by
                rw [nx]
                exact ⟨fun h => ⟨h.1.resolve_right hr, h.2⟩, fun h => ⟨.inl h.1, h.2⟩⟩
              have e0 : ∑ l ∈ seg (C ii), ohval atrans b r l * ohval xt y l q = 0 := by
                refine Finset.sum_eq_zero fun l _ => ?_
                rw [ohval_out hb1 (fun h => hr (by rw [b1] at h; exact h.1)), zero_mul]
              rw [e0, sub_zero, sub_self, add_zero]
              simp only [e1]
        · rintro xf ⟨p1, p2, p3⟩
          rw [done_end hR] at p3
          refine ⟨p1, p2, ?_⟩
          have nx : ∀ r, r ∈ Done fwd u C (bnext fwd i) ↔ r ∈ Done fwd u C (bprev fwd i) ∨ r ∈ seg (C ii) := by
            intro r
            have := done_next (fwd := fwd) hR ii (r := r)
            rw [eii] at this; exact this
          have nn : ∀ r ∈ seg (C ii), r ∉ Done fwd u C (bprev fwd i) := by
            intro r hr
            have := done_not (fwd := fwd) hR ii hr
            rw [eii] at this; exact this
          have old : ∀ r ∈ Done fwd u C (bnext fwd i), ∀ q, Xc xt d M' k xf r q = Xc xt d M' k xs1 r q := by
            intro r hr q
            rw [p3, if_neg (fun h => h.2 hr), sub_zero]
          refine sinv_step f3 nx nn (fun r hr => seg_son hR hr) ?_ ?_ ?_ ?_
          · intro r hr c hc
            rw [hTm]
            exact op_tri_zero hR ii (by rw [← hf, eii]; exact hr) hc
          · intro r hr q
            rw [old r ((nx r).mpr (.inl hr)), c1, if_neg (fun h => nn r h hr)]
          · intro r hr q
            have hr' : r ∈ seg (kid u i) := by rw [eC, eii] at hr; exact hr
            rw [Xc_at hk f1 hr q, eii, ← w3 r hr' q]
            have eC' : seg (C ii) = seg (kid u i) := by rw [eC, eii]
            rw [eC']
            refine Finset.sum_congr rfl fun c hc => ?_
            have hc' : c ∈ seg (C ii) := by rw [eC']; exact hc
            rw [old c ((nx c).mpr (.inr hc')), c1, if_pos hc', hTm]
            congr 1
            have hr2 : r ∈ seg (kid u ii.1) := by rw [eii]; exact hr'
            have hc2 : c ∈ seg (kid u ii.1) := by rw [eii]; exact hc
            apply optri_congr
            · cases atrans
              · exact hval' ii ii r hr2 c hc2
              · exact congrArg star (hval' ii ii c hc2 r hr2)
            · cases atrans
              · exact hval' ii ii r hr2 r hr2
              · exact congrArg star (hval' ii ii r hr2 r hr2)
          · intro r hr hn q
            rw [p3, if_pos ⟨hr, hn⟩, c1 r, if_neg (fun h => hn ((nx r).mpr (.inr h)))]
            congr 1
            refine Finset.sum_congr rfl fun c hc => ?_
            rw [old c ((nx c).mpr (.inr hc)), c1, if_pos hc]
      · rintro xf ⟨f1, f2, f3⟩
        rw [done_end hR] at f3
        refine ⟨f1, fun k' hk' hkN r hr q => ?_, fun k' hk' i => ?_⟩
        · by_cases e : k' = k
          · rw [e]; exact f3.1 r hr q
          · rw [← g2 k' (by omega) hkN r hr q]
            refine Finset.sum_congr rfl fun c _ => ?_
            rw [Xc_same (fun i => f2 k' e i)]
        · rw [f2 k' (by omega), g3 k' (by omega)]
    · rintro xf - ⟨g1, g2, -⟩
      have gs : ∀ i j, SameShape (xs0 i j) (xf i j) ∧ HVOk (xf i j) := by
        intro i j
        cases xt
        · have := g1 i.1 (by rw [hM]; exact i.2) j.1 (by rw [hN]; exact j.2)
          unfold og at this
          simp only [Bool.false_eq_true, if_false] at this
          rw [sg_fin, sg_fin] at this
          exact this
        · have := g1 j.1 (by rw [hM]; exact j.2) i.1 (by rw [hN]; exact i.2)
          unfold og at this
          simp only [if_true] at this
          rw [sg_fin, sg_fin] at this
          exact this
      refine Tot.pure ⟨⟨rfl, rfl, rfl, rfl, fun i j => (gs i j).1⟩, ?_, fun r hr q => ?_⟩
      · obtain ⟨-, -, ⟨R', C', hrc', hR', hC'⟩, -⟩ := id ho
        refine ⟨hm, hn, ⟨R', C', fun i j => ?_, hR', hC'⟩, fun i j => (gs i j).2⟩
        rw [(gs i j).1.rc, (gs i j).1.cc]; exact hrc' i j
      · rw [← hu] at hr ⊢
        rw [ohval_Xc xt d, ← hM, ← hN, ← Finset.sum_congr rfl (fun k' hk' => g2 k' (Finset.mem_range.mp hk') (Finset.mem_range.mp hk') r hr q)]
        rw [← hTm]
        rw [Finset.sum_congr rfl (fun c _ => by rw [ohval_Xc xt d, ← hM, ← hN, Finset.mul_sum])]
        exact Finset.sum_comm

end HV
end H2
