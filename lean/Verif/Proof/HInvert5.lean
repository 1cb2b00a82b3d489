import Verif.Proof.HInvert4

/-! Inversion of H-matrices -/

set_option linter.unusedSectionVars false

namespace H2.HI
open Matrix Spec Dense HV
variable {G : Type} {𝕜 : Type} [RCLike 𝕜]

theorem sq_same : ∀ {a b : HV G 𝕜}, SameShape a b → SqOk a → SqOk b := by
  intro a
  induction a with
  | rk => intro b _ h; exact h.elim
  | full t s f =>
    intro b h h'
    obtain ⟨g, rfl⟩ := shape_full h
    exact h'
  | super t s m n son ih =>
    intro b h h'
    cases b with
    | rk => exact h.elim
    | full => exact h.elim
    | super t' s' m' n' son' =>
      simp only [SameShape] at h
      obtain ⟨rfl, rfl, rfl, rfl, h⟩ := h
      obtain ⟨e1, e2, h'⟩ := h'
      exact ⟨e1, e2, fun i => ih _ _ (h _ _) (h' i)⟩

theorem lead_same {A : Nat → Nat → 𝕜} {off : Nat} : ∀ {a b : HV G 𝕜}, SameShape a b → LeadRegular A off a → LeadRegular A off b := by
  intro a
  induction a with
  | rk t s r =>
    intro b h h'
    obtain ⟨g, rfl⟩ := shape_rk h
    exact h'
  | full t s f =>
    intro b h h'
    obtain ⟨g, rfl⟩ := shape_full h
    exact h'
  | super t s m n son ih =>
    intro b h h'
    cases b with
    | rk => exact h.elim
    | full => exact h.elim
    | super t' s' m' n' son' =>
      simp only [SameShape] at h
      obtain ⟨rfl, rfl, rfl, rfl, h⟩ := h
      exact fun i j e => ih i j (h i j) (h' i j e)

theorem lead_map {A B : Nat → Nat → 𝕜} {off o n : Nat} (ho : off ≤ o) (hm : ∀ e ≤ n, minor A (o - off + e) ≠ 0 → minor B e ≠ 0) :
    ∀ {c : HV G 𝕜}, HVOk c → o ≤ c.rc.cl.off → c.rc.cl.off + c.rc.cl.size ≤ o + n → LeadRegular A off c → LeadRegular B o c := by
  intro c
  induction c with
  | rk => intro _ _ _ _; trivial
  | full t s f =>
    intro _ h1 h2 h3
    replace h1 : o ≤ t.cl.off := h1
    replace h2 : t.cl.off + t.cl.size ≤ o + n := h2
    replace h3 : minor A (t.cl.off + t.cl.size - off) ≠ 0 := h3
    refine hm (t.cl.off + t.cl.size - o) (by omega) ?_
    rwa [show o - off + (t.cl.off + t.cl.size - o) = t.cl.off + t.cl.size - off by omega]
  | super t s m n' son ih =>
    rintro ⟨_, _, ⟨R, C, h3, hR, hC⟩, hok⟩ h1 h2 h4 i j e
    replace h1 : o ≤ t.cl.off := h1
    replace h2 : t.cl.off + t.cl.size ≤ o + n := h2
    have e1 := segments_off hR i
    have e2 := segments_end hR i
    refine ih i j (hok i j) ?_ ?_ (h4 i j e)
    · rw [(h3 i j).1]; omega
    · rw [(h3 i j).1]; omega

theorem same_nrs {a b : HV G 𝕜} (h : SameShape a b) : a.nrs = b.nrs ∧ a.ncs = b.ncs := by
  cases a <;> cases b <;> first | exact h.elim | exact ⟨rfl, rfl⟩ | skip
  simp only [SameShape] at h
  obtain ⟨-, -, e, e', -⟩ := h
  exact ⟨e, e'⟩

theorem Elim.congr {S P W S' P2 W2 : Nat → Nat → 𝕜} {s b q : Nat} (h : Elim S P W S' s b q) (e1 : blk s b s b P2 = blk s b s b P) (e2 : blk (s + b) q s b W2 = blk (s + b) q s b W)
    (e3 : blk s b (s + b) q W2 = blk s b (s + b) q W) : Elim S P2 W2 S' s b q :=
  ⟨by rw [e1]; exact h.piv, by rw [e1, e2]; exact h.col, by rw [e1, e3]; exact h.row, by rw [e2]; exact h.schur⟩

theorem InvOn.congr {S S' X X' : Nat → Nat → 𝕜} {o q : Nat} (h : InvOn S X o q) (e1 : blk o q o q S' = blk o q o q S) (e2 : blk o q o q X' = blk o q o q X) : InvOn S' X' o q := by
  unfold InvOn at *
  rw [e1, e2, h]

theorem hent_blk {t : CRef G} {sm : Nat} {RN : Nat → CRef G} {pN : Nat → Nat} {d : HV G 𝕜} (g : Grid t sm RN pN) {k : Nat} (hk : k < sm) {xs : Fin sm → Fin sm → HV G 𝕜} (hx : Good d sm RN xs) {r c : Nat}
    (hr : r < (RN k).cl.size) (hc : c < (RN k).cl.size) : hentry (sg d xs k k) r c = Cur d t sm xs (pN k + r) (pN k + c) := by
  rw [cur_at g hx hk hk hr hc]
  unfold hentry
  rw [(hx k hk k hk).2.2.1, (hx k hk k hk).2.2.2, g.off k hk, Nat.add_assoc, Nat.add_assoc]

theorem minor_congr' {A B : Nat → Nat → 𝕜} {n : Nat} (h : ∀ r < n, ∀ c < n, A r c = B r c) : minor A n = minor B n := by
  unfold minor
  congr 1
  ext i j
  exact h i i.2 j j.2

theorem invertH_tot {T : TruncOps 𝕜} (hT : Lossless T) {sgn : 𝕜 → 𝕜} (hsgn : SignFn 0 sgn) (junk junkT : Nat → 𝕜) : ∀ {shape a w : HV G 𝕜}, SameShape shape a → HVOk a → HVStd a → SqOk a →
    SameShape a w → HVOk w → LeadRegular (hentry a) a.rc.cl.off a →
    Tot (invertH T sgn 0 junk junkT shape a w) fun p => (SameShape a p.1 ∧ HVOk p.1) ∧ (SameShape w p.2 ∧ HVOk p.2) ∧ InvOn (hentry a) (hentry p.1) 0 a.rsize := by
  intro shape
  induction shape with
  | rk t s r =>
    intro a w hsh ho _ hs
    obtain ⟨r', rfl⟩ := shape_rk hsh
    exact hs.elim
  | full t s f =>
    intro a w hsh ho _ hs hw how hl
    obtain ⟨f', rfl⟩ := shape_full hsh
    obtain rfl : t = s := hs
    obtain ⟨h1, h2⟩ := ho
    obtain ⟨w', rfl⟩ := shape_full hw
    have eh : ∀ {g : VMat 𝕜}, ∀ i < t.cl.size, ∀ j < t.cl.size, hentry (.full t t g : HV G 𝕜) i j = g.e i j := by
      intro g i hi j hj
      show hval (.full t t g : HV G 𝕜) (t.cl.off + i) (t.cl.off + j) = _
      rw [hval_full, if_pos (by rw [mem_seg, mem_seg]; omega), Nat.add_sub_cancel_left, Nat.add_sub_cancel_left]
    replace hl : minor (hentry (.full t t f' : HV G 𝕜)) (t.cl.off + t.cl.size - t.cl.off) ≠ 0 := hl
    rw [Nat.add_sub_cancel_left, minor_congr' eh] at hl
    unfold invertH
    simp only [HV.rc, HV.cc, HV.nrs, HV.ncs]
    rw [cassert_true (same_refl _)]
    simp only [cassert_true (decide_eq_true trivial), ok_bind]
    refine Tot.bind (denseInv_tot hsgn junk junkT h1 h2 hl) ?_
    rintro f2 - ⟨g1, g2, g3⟩
    refine Tot.pure ⟨⟨⟨rfl, rfl⟩, g1, g2⟩, ⟨⟨rfl, rfl⟩, how⟩, ?_⟩
    refine InvOn.congr g3 ?_ ?_
    · exact blk_congr fun i hi j hj => by rw [Nat.zero_add, Nat.zero_add]; exact eh i hi j hj
    · exact blk_congr fun i hi j hj => by rw [Nat.zero_add, Nat.zero_add]; exact eh i hi j hj
  | super t' s' sm sn ss ih =>
    intro a w hsh ho hst hs hw how hl
    cases a with
    | rk => exact hsh.elim
    | full => exact hsh.elim
    | super t s m n xs0 =>
    cases w with
    | rk => exact hw.elim
    | full => exact hw.elim
    | super tw sw mw nw ws0 =>
    obtain ⟨e1, e2⟩ := same_nrs hw
    simp only [SameShape] at hsh hw
    obtain ⟨rfl, rfl, rfl, rfl, hsh⟩ := hsh
    replace hsh : ∀ i j, SameShape (ss i j) (xs0 i j) := hsh
    obtain ⟨rfl, e, hs⟩ := hs
    subst e
    obtain ⟨rfl, rfl, rfl, rfl, hw⟩ := hw
    replace hw : ∀ i j, SameShape (xs0 i j) (ws0 i j) := hw
    obtain ⟨hm, -, ⟨Rr, C, hRC, hR, hC⟩, hok⟩ := id ho
    obtain ⟨-, -, -, how⟩ := how
    obtain ⟨-, -, -, hstd⟩ := id hst
    have hRC' : Rr = C := by
      funext i
      have := (hs i).eq
      rw [(hRC i _).1, (hRC i _).2] at this
      exact this
    subst hRC'
    obtain ⟨d, hd⟩ : ∃ d : HV G 𝕜, d = .rk t' t' (VRk.new0 0 0) := ⟨_, rfl⟩
    obtain ⟨RN, hRN⟩ : ∃ RN : Nat → CRef G, RN = fun i => if h : i < sm then Rr ⟨i, h⟩ else t' := ⟨_, rfl⟩
    obtain ⟨pN, hpN⟩ : ∃ pN : Nat → Nat, pN = pre fun k => (Rr k).cl.size := ⟨_, rfl⟩
    have rn : ∀ i (h : i < sm), RN i = Rr ⟨i, h⟩ := fun i h => by rw [hRN]; exact dif_pos h
    have g : Grid t' sm RN pN := by
      refine ⟨by rw [hpN, pre_zero], fun i hi => ?_, ?_, fun i hi => ?_⟩
      · rw [rn i hi, hpN]; exact pre_succ (fun k => (Rr k).cl.size) ⟨i, hi⟩
      · rw [hpN, pre_all]; exact hR.2
      · rw [rn i hi, hpN]; exact segments_off hR ⟨i, hi⟩
    have sgd : ∀ {xs : Fin sm → Fin sm → HV G 𝕜} {i j : Nat} (hi : i < sm) (hj : j < sm), sg d xs i j = xs ⟨i, hi⟩ ⟨j, hj⟩ := fun hi hj => sg_fin _ ⟨_, hi⟩ ⟨_, hj⟩
    have ga : Good d sm RN xs0 := fun i hi j hj => by
      rw [sgd hi hj, rn i hi, rn j hj]
      exact ⟨hok _ _, (hstd _ _).2.2, (hRC _ _).1, (hRC _ _).2⟩
    have gw : Good d sm RN ws0 := fun i hi j hj => by
      rw [sgd hi hj, rn i hi, rn j hj]
      exact ⟨how _ _, (hw _ _).std (hstd _ _).2.2, (hw _ _).rc.trans (hRC _ _).1, (hw _ _).cc.trans (hRC _ _).2⟩
    have hA : hentry (.super t' t' sm sm xs0) = Cur d t' sm xs0 := rfl
    replace hl : ∀ (i j : Fin sm), i.1 = j.1 → LeadRegular (Cur d t' sm xs0) t'.cl.off (xs0 i j) := hl
    unfold invertH
    simp only [HV.rc, HV.cc, HV.nrs, HV.ncs]
    rw [cassert_true (same_refl _)]
    simp only [cassert_true (decide_eq_true trivial), ok_bind]
    -- the elimination
    refine Tot.bind (forUp_tot (fun k (st : (Fin sm → Fin sm → HV G 𝕜) × (Fin sm → Fin sm → HV G 𝕜)) => Shapes d sm xs0 st.1 ∧ Shapes d sm ws0 st.2 ∧
      (∀ e ≤ t'.cl.size - pN k, minor (Cur d t' sm xs0) (pN k + e) ≠ 0 → minor (fun r c => Cur d t' sm st.1 (pN k + r) (pN k + c)) e ≠ 0) ∧
      ∃ S : Nat → Nat → Nat → 𝕜, S 0 = Cur d t' sm xs0 ∧ S k = Cur d t' sm st.1 ∧
        ∀ j < k, Elim (S j) (Cur d t' sm st.1) (Cur d t' sm st.2) (S (j + 1)) (pN j) (RN j).cl.size (t'.cl.size - pN (j + 1))) (Nat.zero_le _) ?_ ?_) ?_
    · refine ⟨Shapes.refl ga, Shapes.refl gw, ?_, fun _ => Cur d t' sm xs0, rfl, rfl, fun j hj => absurd hj (by omega)⟩
      rw [g.zero]
      simp only [Nat.zero_add]
      exact fun e _ h => h
    · rintro k ⟨as, ws⟩ - hk ⟨sa, sw, hmin, S, hS0, hSk, hel⟩
      simp only at sa sw hmin hSk hel
      have ga' := sa.good ga
      have gw' := sw.good gw
      rw [dif_pos ⟨hk, hk⟩]
      have hs1 := g.succ k hk
      have hle := g.mono (show k + 1 ≤ sm by omega) le_rfl
      rw [g.last] at hle
      have hrs : (sg d as k k).rsize = (RN k).cl.size := by unfold HV.rsize; rw [(ga' k hk k hk).2.2.1]
      -- the diagonal block
      have hinv : Tot (invertH T sgn 0 junk junkT (ss ⟨k, hk⟩ ⟨k, hk⟩) (sg d as k k) (sg d ws k k)) fun p => (SameShape (sg d as k k) p.1 ∧ HVOk p.1) ∧ (SameShape (sg d ws k k) p.2 ∧ HVOk p.2) ∧
          InvOn (hentry (sg d as k k)) (hentry p.1) 0 (RN k).cl.size := by
        have hx := sa k hk k hk
        have hx' := sw k hk k hk
        rw [sgd hk hk] at hx hx'
        have := ih ⟨k, hk⟩ ⟨k, hk⟩ (a := sg d as k k) (w := sg d ws k k) ((hsh _ _).trans hx.1) hx.2 (hx.1.std (hstd _ _).2.2) (sq_same hx.1 (hs ⟨k, hk⟩))
          (hx.1.symm.trans ((hw _ _).trans hx'.1)) hx'.2 ?_
        · rwa [hrs] at this
        · rw [(ga' k hk k hk).2.2.1]
          refine lead_map (off := t'.cl.off) (A := Cur d t' sm xs0) (n := (RN k).cl.size) (by rw [g.off k hk]; omega) ?_ hx.2 (by rw [(ga' k hk k hk).2.2.1]) (by rw [(ga' k hk k hk).2.2.1])
            (lead_same hx.1 (hl _ _ rfl))
          intro e he h
          rw [g.off k hk, Nat.add_sub_cancel_left] at h
          have := hmin e (by omega) h
          rwa [minor_congr' (B := fun r c => Cur d t' sm as (pN k + r) (pN k + c)) fun r hr c hc => hent_blk g hk ga' (by omega) (by omega)]
      refine (fwd_tot hT g ga' gw' hk hinv).mono ?_
      rintro ⟨as', ws'⟩ ⟨s1, s2, el, n1, n2⟩
      simp only at s1 s2 el n1 n2
      have ga2 := s1.good ga'
      have gw2 := s2.good gw'
      refine ⟨sa.trans s1, sw.trans s2, ?_, fun j => if j ≤ k then S j else Cur d t' sm as', ?_, ?_, ?_⟩
      · intro e he h
        simp only
        rw [hs1]
        refine Elim.minor el he ?_
        refine hmin ((RN k).cl.size + e) (by omega) ?_
        rwa [← Nat.add_assoc, ← hs1]
      · exact (if_pos (Nat.zero_le _)).trans hS0
      · exact if_neg (by omega)
      · intro j hj
        simp only
        by_cases e : j = k
        · subst e
          rw [if_pos le_rfl, if_neg (by omega), hSk]
          exact el
        · have hjk : j < k := by omega
          have hjs : j < sm := by omega
          rw [if_pos (by omega), if_pos (by omega)]
          have hs2 := g.succ j hjs
          refine (hel j hjk).congr ?_ ?_ ?_
          · exact sel_congr g (br := false) (bc := false) hjs fun i' j' h1 h2 h3 h4 r hr c hc => by
              replace h1 : i' = j := h1
              exact cur_same g ga2 ga' h2 h4 (n1 i' j' (by omega)) hr hc
          · rw [← hs2]
            exact sel_congr g (br := true) (bc := false) hjs fun i' j' h1 h2 h3 h4 r hr c hc => by
              replace h3 : j' = j := h3
              exact cur_same g gw2 gw' h2 h4 (n2 i' j' (by omega)) hr hc
          · rw [← hs2]
            exact sel_congr g (br := false) (bc := true) hjs fun i' j' h1 h2 h3 h4 r hr c hc => by
              replace h1 : i' = j := h1
              exact cur_same g gw2 gw' h2 h4 (n2 i' j' (by omega)) hr hc
    rintro ⟨as, ws⟩ - ⟨sa, sw, -, S, hS0, -, hel⟩
    simp only at sa sw hel ⊢
    have ga' := sa.good ga
    have gw' := sw.good gw
    -- the second loop
    refine Tot.bind (forDown_tot (fun k (xs : Fin sm → Fin sm → HV G 𝕜) => Shapes d sm as xs ∧ (∀ i j, i < k ∨ j < k → sg d xs i j = sg d as i j) ∧
      InvOn (S k) (Cur d t' sm xs) (pN k) (t'.cl.size - pN k)) ?_ ?_) ?_
    · refine ⟨Shapes.refl ga', fun _ _ _ => rfl, ?_⟩
      rw [g.last, Nat.sub_self]
      unfold InvOn
      exact Subsingleton.elim _ _
    · rintro k xs hk ⟨s1, n1, hi⟩
      have gx := s1.good ga'
      refine (bwd_tot hT g gx gw' hk).mono ?_
      rintro xs' ⟨s2, m1, m2, e21, e12, e11⟩
      have gx' := s2.good gx
      have hs1 := g.succ k hk
      have hle := g.mono (show k + 1 ≤ sm by omega) le_rfl
      rw [g.last] at hle
      refine ⟨s1.trans s2, fun i j h => by rw [m1 i j h, n1 i j (by omega)], ?_⟩
      have hq : t'.cl.size - pN k = (RN k).cl.size + (t'.cl.size - pN (k + 1)) := by omega
      rw [hq]
      have e22 : blk (pN (k + 1)) (t'.cl.size - pN (k + 1)) (pN (k + 1)) (t'.cl.size - pN (k + 1)) (Cur d t' sm xs') = blk (pN (k + 1)) (t'.cl.size - pN (k + 1)) (pN (k + 1)) (t'.cl.size - pN (k + 1)) (Cur d t' sm xs) :=
        sel_congr g (br := true) (bc := true) hk fun i' j' h1 h2 h3 h4 r hr c hc => cur_same g gx' gx h2 h4 (m2 i' j' h1 h3) hr hc
      have e11' : blk (pN k) (RN k).cl.size (pN k) (RN k).cl.size (Cur d t' sm xs) = blk (pN k) (RN k).cl.size (pN k) (RN k).cl.size (Cur d t' sm as) :=
        sel_congr g (br := false) (bc := false) hk fun i' j' h1 h2 h3 h4 r hr c hc => by
          replace h1 : i' = k := h1
          exact cur_same g gx ga' h2 h4 (n1 i' j' (by omega)) hr hc
      rw [e11'] at e11
      have hi' : InvOn (S (k + 1)) (Cur d t' sm xs') (pN (k + 1)) (t'.cl.size - pN (k + 1)) := hi.congr rfl e22
      rw [hs1] at hi' e21 e12 e11
      have hel' := hel k hk
      rw [hs1] at hel' ⊢
      exact Elim.inv hel' hi' e21 e12 e11
    rintro xs - ⟨s1, -, hi⟩
    have gx := s1.good ga'
    have sx := sa.trans s1
    have shp : ∀ {ys zs : Fin sm → Fin sm → HV G 𝕜}, Good d sm RN ys → Shapes d sm ys zs → (∀ i j, HVOk (ys i j)) →
        SameShape (.super t' t' sm sm ys) (.super t' t' sm sm zs) ∧ HVOk (.super t' t' sm sm zs) := by
      intro ys zs hy h _
      have h' : ∀ i j, SameShape (ys i j) (zs i j) ∧ HVOk (zs i j) := fun i j => by
        have := h i i.2 j j.2
        rwa [sgd i.2 j.2, sgd i.2 j.2] at this
      refine ⟨⟨rfl, rfl, rfl, rfl, fun i j => (h' i j).1⟩, hm, hm, ⟨Rr, Rr, fun i j => ?_, hR, hR⟩, fun i j => (h' i j).2⟩
      have := h.good hy i i.2 j j.2
      rw [sgd i.2 j.2, rn i i.2, rn j j.2] at this
      exact ⟨this.2.2.1, this.2.2.2⟩
    refine Tot.pure ⟨shp ga sx hok, shp gw sw how, ?_⟩
    rw [hS0, g.zero, Nat.sub_zero] at hi
    exact hi

end H2.HI
