import Verif.Proof.HSolve5

/-! LR decomposition of H-matrices. -/

set_option linter.unusedSectionVars false

namespace H2
open Spec Dense
variable {G K : Type} [Field K] [StarRing K]

namespace HV

theorem tri_shift (lower unit : Bool) (A : Nat → Nat → K) (o r c : Nat) :
    tri lower unit (fun r c => A (o + r) (o + c)) r c = tri lower unit A (o + r) (o + c) := by
  unfold tri
  simp only [Nat.add_right_inj, Nat.add_lt_add_iff_left]

/-- where position `off + r` lies relative to block `k` -/
theorem locate {t : CRef G} {m : Nat} {C : Fin m → CRef G} (hR : Segments t C) (k : Fin m) {sz : Fin m → Nat} (hsz : sz = fun k => (C k).cl.size)
    {i : Fin m} {r : Nat} (hr : t.cl.off + r ∈ seg (C i)) : (i.1 < k.1 ↔ r < pre sz k.1) ∧ (k.1 < i.1 ↔ pre sz k.1 + sz k ≤ r) := by
  subst hsz
  have e1 := segments_off hR i
  rw [mem_seg, e1] at hr
  have e2 := pre_succ (fun k => (C k).cl.size) i
  have e3 := pre_succ (fun k => (C k).cl.size) k
  beta_reduce at e2 e3 ⊢
  rcases lt_trichotomy i.1 k.1 with h | h | h
  · have := pre_mono (fun k => (C k).cl.size) (show i.1 + 1 ≤ k.1 by omega)
    constructor <;> constructor <;> intro _ <;> omega
  · have : i = k := Fin.ext h
    subst this
    constructor <;> constructor <;> intro _ <;> omega
  · have := pre_mono (fun k => (C k).cl.size) (show k.1 + 1 ≤ i.1 by omega)
    constructor <;> constructor <;> intro _ <;> omega

theorem lrdecompH_may {T : TruncOps K} (hT : Lossless T) : ∀ {shape a : HV G K}, SameShape shape a → HVOk a → HVStd a → SqOk a →
    DiagSizes a → May (lrdecompH T shape a) (¬ ∃ F, LRInv (hentry a) a.rsize a.rsize F)
      (fun a' => SameShape a a' ∧ HVOk a' ∧ LRInv (hentry a) a.rsize a.rsize (hentry a')) := by
  intro shape
  induction shape with
  | rk t s r =>
    intro a hsh ho _ hs
    obtain ⟨r', rfl⟩ := shape_rk hsh
    exact hs.elim
  | full t s f =>
    intro a hsh ho _ hs hd
    obtain ⟨f', rfl⟩ := shape_full hsh
    obtain rfl : t = s := hs
    obtain ⟨h1, h2⟩ := ho
    rw [lrdecompH]
    refine May.cassert (same_refl _) ?_
    have eh : ∀ {g : VMat K}, ∀ i < t.cl.size, ∀ j < t.cl.size, hentry (.full t t g : HV G K) i j = g.e i j := by
      intro g i hi j hj
      show hval (.full t t g : HV G K) (t.cl.off + i) (t.cl.off + j) = _
      rw [hval_full, if_pos (by rw [mem_seg, mem_seg]; omega), Nat.add_sub_cancel_left, Nat.add_sub_cancel_left]
    refine May.bind (May.mono (denseLr_may (by omega) (by rw [h1]; exact hd.1) (by rw [h1]; exact hd.2)) ?_ (fun _ h => h)) ?_
    · rintro h ⟨F, hF⟩
      refine h ⟨F, ?_⟩
      rw [h1]
      exact lrInv_congr hF le_rfl (fun r hr c hc => (eh r hr c hc).symm) fun _ _ _ _ => rfl
    · rintro w - ⟨w1, w2, w3⟩
      right
      refine Tot.pure ⟨⟨rfl, rfl⟩, ⟨w1.trans h1, w2.trans h2⟩, ?_⟩
      rw [h1] at w3
      exact lrInv_congr w3 le_rfl (fun r hr c hc => eh r hr c hc) fun r hr c hc => eh r hr c hc
  | super t' s' sm sn ss ih =>
    intro a hsh ho hst hs hds
    cases a with
    | rk => exact hsh.elim
    | full => exact hsh.elim
    | super t s m n xs0 =>
    simp only [SameShape] at hsh
    obtain ⟨rfl, rfl, rfl, rfl, hsh⟩ := hsh
    replace hsh : ∀ i j, SameShape (ss i j) (xs0 i j) := hsh
    obtain ⟨rfl, e, hs⟩ := hs
    subst e
    obtain ⟨hm, -, ⟨R, C, hRC, hR, hC⟩, hok⟩ := id ho
    have hRC' : R = C := by
      funext i
      have := (hs i).eq
      rw [(hRC i _).1, (hRC i _).2] at this
      exact this
    subst hRC'
    obtain ⟨-, -, -, hstd⟩ := id hst
    obtain ⟨d, hd⟩ : ∃ d : HV G K, d = .rk t' t' (VRk.new0 0 0) := ⟨_, rfl⟩
    obtain ⟨sz, hsz⟩ : ∃ sz : Fin sm → Nat, sz = fun k => (R k).cl.size := ⟨_, rfl⟩
    have hoff : ∀ i, (R i).cl.off = t'.cl.off + pre sz i.1 := fun i => by rw [hsz]; exact segments_off hR i
    have hend : ∀ i : Fin sm, pre sz i.1 + sz i ≤ t'.cl.size := fun i => by rw [hsz]; exact segments_end hR i
    have hseg : ∀ (i : Fin sm) {l : Nat}, l < sz i → t'.cl.off + (pre sz i.1 + l) ∈ seg (R i) := by
      intro i l hl
      rw [mem_seg, hoff]
      rw [hsz] at hl
      replace hl : l < (R i).cl.size := hl
      omega
    -- the current matrix
    obtain ⟨Cur, hCur⟩ : ∃ Cur : (Fin sm → Fin sm → HV G K) → Nat → Nat → K, Cur = fun xs => hentry (.super t' t' sm sm xs) := ⟨_, rfl⟩
    have gd : ∀ {xs : Fin sm → Fin sm → HV G K} (i j : Fin sm), sg d xs i.1 j.1 = xs i j := fun i j => sg_fin _ i j
    have cur_at : ∀ {xs : Fin sm → Fin sm → HV G K}, (∀ i j, SameShape (xs0 i j) (xs i j) ∧ HVOk (xs i j)) → ∀ {i j : Fin sm} {r c : Nat},
        t'.cl.off + r ∈ seg (R i) → t'.cl.off + c ∈ seg (R j) → Cur xs r c = hval (xs i j) (t'.cl.off + r) (t'.cl.off + c) := by
      intro xs h i j r c hr hc
      rw [hCur]
      exact hval_son (fun i j => by rw [(h i j).1.rc, (h i j).1.cc]; exact hRC i j) (fun i j => (h i j).2) hR hR hr hc
    have hsz0 : HV.rsize (.super t' t' sm sm xs0) = t'.cl.size := rfl
    rw [hsz0, show hentry (.super t' t' sm sm xs0) = Cur xs0 by rw [hCur]]
    rw [lrdecompH]
    refine May.cassert (same_refl _) ?_
    simp only
    refine May.cassert (decide_eq_true trivial) ?_
    refine May.bind (forUp_may (fun k (xs : Fin sm → Fin sm → HV G K) => (∀ i j, SameShape (xs0 i j) (xs i j) ∧ HVOk (xs i j)) ∧
      (∀ i : Fin sm, k ≤ i.1 → DiagSizes (xs i i) ∧ SqOk (xs i i)) ∧
      LRInv (Cur xs0) t'.cl.size (pre sz k) (Cur xs)) (Nat.zero_le _) ?_ ?_) ?_
    · refine ⟨fun i j => ⟨.refl _, hok i j⟩, fun i _ => ⟨hds i i rfl, hs i⟩, ?_⟩
      rw [pre_zero]; exact lrInv_init _ _
    · rintro k xs - hk ⟨g1, g2, g3⟩
      obtain ⟨kk, hkk⟩ : ∃ kk : Fin sm, kk = ⟨k, hk⟩ := ⟨_, rfl⟩
      have ekk : kk.1 = k := by rw [hkk]
      rw [dif_pos ⟨hk, hk⟩, ← hkk]
      have gk : sg d xs k k = xs kk kk := by rw [← ekk]; exact gd kk kk
      -- the diagonal block
      have hb : pre sz k + sz kk ≤ t'.cl.size := by have := hend kk; rw [ekk] at this; exact this
      have exk : ∀ {ys : Fin sm → Fin sm → HV G K}, (∀ i j, SameShape (xs0 i j) (ys i j) ∧ HVOk (ys i j)) →
          (ys kk kk).rsize = sz kk ∧ ∀ r < sz kk, ∀ c < sz kk,
          hentry (ys kk kk) r c = Cur ys (pre sz k + r) (pre sz k + c) := by
        intro ys hys
        have e1 : (ys kk kk).rc = R kk := by rw [(hys kk kk).1.rc]; exact (hRC kk kk).1
        have e2 : (ys kk kk).cc = R kk := by rw [(hys kk kk).1.cc]; exact (hRC kk kk).2
        refine ⟨by unfold HV.rsize; rw [e1, hsz], fun r hr c hc => ?_⟩
        have h1 := hseg kk hr
        have h2 := hseg kk hc
        rw [ekk] at h1 h2
        rw [cur_at hys h1 h2]
        unfold hentry
        rw [e1, e2, hoff, ekk, Nat.add_assoc, Nat.add_assoc]
      obtain ⟨ek1, ek2⟩ := exk g1
      have hdiag : May (lrdecompH T (ss kk kk) (sg d xs k k)) (¬ ∃ F, LRInv (Cur xs0) t'.cl.size t'.cl.size F)
          (fun a' => SameShape (xs kk kk) a' ∧ HVOk a' ∧ LRInv (hentry (xs kk kk)) (sz kk) (sz kk) (hentry a')) := by
        rw [gk]
        have hkst : HVStd (xs kk kk) := (g1 kk kk).1.std (hstd kk kk).2.2
        have := ih kk kk ((hsh kk kk).trans (g1 kk kk).1) (g1 kk kk).2 hkst (g2 kk (by omega)).2 (g2 kk (by omega)).1
        rw [ek1] at this
        refine this.mono ?_ fun _ h => h
        intro hno hF
        obtain ⟨F', hF'⟩ := lr_trailing g3 hb hF
        exact hno ⟨F', lrInv_congr hF' le_rfl ek2 fun _ _ _ _ => rfl⟩
      refine May.bind (atSon_may (d := d) hk hk hdiag) ?_
      rintro xs1 - ⟨⟨d1, d2, d3⟩, d4⟩
      have gk1 : sg d xs1 k k = xs1 kk kk := by rw [← ekk]; exact gd kk kk
      rw [gk1] at d1 d2 d3
      -- shapes
      have st1 : ∀ i j, SameShape (xs0 i j) (xs1 i j) ∧ HVOk (xs1 i j) := by
        intro i j
        by_cases e : i = kk ∧ j = kk
        · rw [e.1, e.2]; exact ⟨(g1 kk kk).1.trans d1, d2⟩
        · have := d4 i.1 j.1 (by rintro ⟨e1, e2⟩; exact e ⟨Fin.ext (by omega), Fin.ext (by omega)⟩)
          rw [gd, gd] at this
          rw [this]; exact g1 i j
      rw [getSon_sg (d := d) hk hk, ok_bind, gk1]
      obtain ⟨y, hy⟩ : ∃ y, y = xs1 kk kk := ⟨_, rfl⟩
      rw [← hy] at d1 d2 d3 ⊢
      have yrc : y.rc = R kk := by rw [d1.rc, (g1 kk kk).1.rc]; exact (hRC kk kk).1
      have ycc : y.cc = R kk := by rw [d1.cc, (g1 kk kk).1.cc]; exact (hRC kk kk).2
      have ystd : HVStd y := d1.std ((g1 kk kk).1.std (hstd kk kk).2.2)
      have ysq : SqOk y := by
        have : ∀ {a b : HV G K}, SameShape a b → SqOk a → SqOk b := by
          intro a
          induction a with
          | rk => intro b _ h; exact h.elim
          | full t s f =>
            intro b h h'
            obtain ⟨g, rfl⟩ := shape_full h
            exact h'
          | super t s m n son ih' =>
            intro b h h'
            cases b with
            | super t' s' m' n' son' =>
              simp only [SameShape] at h
              obtain ⟨rfl, rfl, rfl, rfl, h⟩ := h
              obtain ⟨e1, e2, h'⟩ := h'
              exact ⟨e1, e2, fun i => ih' _ _ (h _ _) (h' i)⟩
            | _ => simp only [SameShape] at h
        exact this d1 (g2 kk (by omega)).2
      have ynz : ∀ r ∈ seg y.rc, hval y r r ≠ 0 := by
        intro r hr
        rw [yrc, mem_seg] at hr
        have := d3.1 (r - (R kk).cl.off) (by rw [hsz]; show _ < (R kk).cl.size; omega)
        unfold hentry at this
        rw [yrc, ycc, show (R kk).cl.off + (r - (R kk).cl.off) = r by omega] at this
        exact this
      -- the sons that are not changed keep their values
      have sgst : ∀ {xs : Fin sm → Fin sm → HV G K} {i j : Nat}, i < sm → j < sm → (∀ i j, SameShape (xs0 i j) (xs i j) ∧ HVOk (xs i j)) →
          HVOk (sg d xs i j) ∧ HVStd (sg d xs i j) ∧ (∃ h : i < sm, (sg d xs i j).rc = R ⟨i, h⟩) ∧ ∃ h : j < sm, (sg d xs i j).cc = R ⟨j, h⟩ := by
        intro xs i j hi hj h
        have := gd (xs := xs) ⟨i, hi⟩ ⟨j, hj⟩
        replace this : sg d xs i j = xs ⟨i, hi⟩ ⟨j, hj⟩ := this
        obtain ⟨h1, h2⟩ := h ⟨i, hi⟩ ⟨j, hj⟩
        rw [this]
        exact ⟨h2, h1.std (hstd _ _).2.2, ⟨hi, by rw [h1.rc]; exact (hRC _ _).1⟩, hj, by rw [h1.cc]; exact (hRC _ _).2⟩
      -- block row k
      refine May.bindT (loopAt_tot (d := d) (xs0 := xs1) (show k + 1 ≤ sm by omega) (fun _ => k) (fun j => j) (fun _ _ _ h => h)
        (P := fun j z => HSolves true true false (hval y) (R kk) false (sg d xs1 k j) z) ?_) ?_
      · intro j j1 j2 xs' hxs'
        have ej : sg d xs' k j = sg d xs1 k j := hxs' k j fun j' _ h e => absurd e.2 (by omega)
        refine atSon_tot (d := d) hk j2 ?_
        rw [ej]
        obtain ⟨q1, q2, ⟨_, q3⟩, _⟩ := sgst (xs := xs1) hk j2 st1
        rw [← hkk] at q3
        have := triSolveH_tot hT (lower := true) (unit := true) (atrans := false) (xt := false) (.refl (sg d xs1 k j)) q1 q2 d2 ystd ysq
          (by rw [yrc]; exact q3.symm) (fun h => absurd h (by simp))
        rw [show (sg d xs1 k j).orc false = R kk from q3] at this
        exact this
      rintro xs2 - ⟨r1, r2⟩
      have st2 : ∀ i j, SameShape (xs0 i j) (xs2 i j) ∧ HVOk (xs2 i j) := by
        intro i j
        by_cases e : i = kk ∧ k < j.1
        · have := r1 j.1 (by omega) j.2
          rw [e.1]
          have h0 := st1 kk j
          rw [← ekk, gd, gd] at this
          exact ⟨h0.1.trans this.1, this.2.1⟩
        · have := r2 i.1 j.1 (by intro j' _ _ h; exact e ⟨Fin.ext (by omega), by omega⟩)
          rw [gd, gd] at this
          rw [this]; exact st1 i j
      -- block column k
      refine May.bindT (loopAt_tot (d := d) (xs0 := xs2) (show k + 1 ≤ sm by omega) (fun i => i) (fun _ => k) (fun _ _ h _ => h)
        (P := fun i z => HSolves false false true (hval y) (R kk) true (sg d xs2 i k) z) ?_) ?_
      · intro i i1 i2 xs' hxs'
        have ej : sg d xs' i k = sg d xs2 i k := hxs' i k fun j' _ h e => absurd e.1 (by omega)
        refine atSon_tot (d := d) i2 hk ?_
        rw [ej]
        obtain ⟨q1, q2, _, _, q3⟩ := sgst (xs := xs2) i2 hk st2
        rw [← hkk] at q3
        have := triSolveH_tot hT (lower := false) (unit := false) (atrans := true) (xt := true) (.refl (sg d xs2 i k)) q1 q2 d2 ystd ysq
          (by rw [yrc]; exact q3.symm) (fun _ => ynz)
        rw [show (sg d xs2 i k).orc true = R kk from q3] at this
        exact this
      rintro xs3 - ⟨c1, c2⟩
      have st3 : ∀ i j, SameShape (xs0 i j) (xs3 i j) ∧ HVOk (xs3 i j) := by
        intro i j
        by_cases e : k < i.1 ∧ j = kk
        · have := c1 i.1 (by omega) i.2
          rw [e.2]
          have h0 := st2 i kk
          rw [← ekk, gd, gd] at this
          exact ⟨h0.1.trans this.1, this.2.1⟩
        · have := c2 i.1 j.1 (by intro j' _ _ h; exact e ⟨by omega, Fin.ext (by omega)⟩)
          rw [gd, gd] at this
          rw [this]; exact st2 i j
      -- the remaining blocks
      refine May.mono (c := False) (.inr (loopAt2_tot (d := d) (xs0 := xs3) (show k + 1 ≤ sm by omega)
        (P := fun i j z => Upd (sg d xs3 i j) z (prod (-1) false (sg d xs3 i k) false (sg d xs3 k j))) ?_)) False.elim ?_
      · intro j j1 j2 i i1 i2 xs' hxs'
        have e1 : sg d xs' i k = sg d xs3 i k := hxs' i k (by omega) (by omega)
        have e2 : sg d xs' k j = sg d xs3 k j := hxs' k j (by omega) (by omega)
        have e3 : sg d xs' i j = sg d xs3 i j := hxs' i j (by omega) (by omega)
        rw [getSon_sg (d := d) i2 hk, ok_bind, getSon_sg (d := d) hk j2, ok_bind, e1, e2]
        refine atSon_tot (d := d) (P := fun z => Upd (sg d xs3 i j) z (prod (-1) false (sg d xs3 i k) false (sg d xs3 k j))) i2 j2 ?_
        rw [e3]
        obtain ⟨a1, a2, ⟨_, a3⟩, _, a4⟩ := sgst (xs := xs3) i2 hk st3
        obtain ⟨b1, b2, ⟨_, b3⟩, _, b4⟩ := sgst (xs := xs3) hk j2 st3
        obtain ⟨z1, z2, ⟨_, z3⟩, _, z4⟩ := sgst (xs := xs3) i2 j2 st3
        exact addmul_tot' hT (-1) false false a1 a2 b1 b2 z1 z2 (z3.trans a3.symm) (z4.trans b4.symm) (a4.trans b3.symm)
      rintro xs4 ⟨u1, u2⟩
      have st4 : ∀ i j, SameShape (xs0 i j) (xs4 i j) ∧ HVOk (xs4 i j) := by
        intro i j
        by_cases e : k < i.1 ∧ k < j.1
        · have := u1 i.1 (by omega) i.2 j.1 (by omega) j.2
          have h0 := st3 i j
          rw [gd, gd] at this
          exact ⟨h0.1.trans this.shape, this.ok⟩
        · have := u2 i.1 j.1 (by omega)
          rw [gd, gd] at this
          rw [this]; exact st3 i j
      -- which sons have changed
      have v4 : ∀ i j : Fin sm, ¬ (k < i.1 ∧ k < j.1) → xs4 i j = xs3 i j := by
        intro i j e
        have := u2 i.1 j.1 (by omega)
        rw [gd, gd] at this; exact this
      have v3 : ∀ i j : Fin sm, ¬ (k < i.1 ∧ j.1 = k) → xs3 i j = xs2 i j := by
        intro i j e
        have := c2 i.1 j.1 (by intro j' _ _ h; exact e ⟨by omega, by omega⟩)
        rw [gd, gd] at this; exact this
      have v2 : ∀ i j : Fin sm, ¬ (i.1 = k ∧ k < j.1) → xs2 i j = xs1 i j := by
        intro i j e
        have := r2 i.1 j.1 (by intro j' _ _ h; exact e ⟨by omega, by omega⟩)
        rw [gd, gd] at this; exact this
      have v1 : ∀ i j : Fin sm, ¬ (i.1 = k ∧ j.1 = k) → xs1 i j = xs i j := by
        intro i j e
        have := d4 i.1 j.1 (by rintro ⟨e1, e2⟩; exact e ⟨e1, e2⟩)
        rw [gd, gd] at this; exact this
      have ykk : xs4 kk kk = y := by
        rw [v4 kk kk (by omega), v3 kk kk (by omega), v2 kk kk (by omega), hy]
      refine ⟨st4, fun i hi => ?_, ?_⟩
      · have e : SameShape (xs0 i i) (xs4 i i) := (st4 i i).1
        obtain ⟨q1, q2⟩ : DiagSizes (xs0 i i) ∧ SqOk (xs0 i i) := ⟨hds i i rfl, hs i⟩
        have : ∀ {a b : HV G K}, SameShape a b → DiagSizes a → SqOk a → DiagSizes b ∧ SqOk b := by
          intro a
          induction a with
          | rk => intro b _ _ h; exact h.elim
          | full t s f =>
            intro b h h' h''
            obtain ⟨g, rfl⟩ := shape_full h
            exact ⟨h', h''⟩
          | super t s m n son ih' =>
            intro b h h' h''
            cases b with
            | super t' s' m' n' son' =>
              simp only [SameShape] at h
              obtain ⟨rfl, rfl, rfl, rfl, h⟩ := h
              obtain ⟨e1, e2, h''⟩ := h''
              subst e2
              refine ⟨fun i j hij => ?_, e1, rfl, fun i => (ih' _ _ (h _ _) (h' i i rfl) (h'' i)).2⟩
              obtain rfl : i = j := Fin.ext hij
              exact (ih' _ _ (h _ _) (h' i i rfl) (h'' i)).1
            | _ => simp only [SameShape] at h
        exact this e q1 q2
      · have eb : pre sz (k + 1) = pre sz k + sz kk := by
          have := pre_succ sz kk
          rw [ekk] at this; exact this
        rw [eb]
        have cover : ∀ {r : Nat}, r < t'.cl.size → ∃ i, t'.cl.off + r ∈ seg (R i) ∧ (i.1 < k ↔ r < pre sz k) ∧
            (k < i.1 ↔ pre sz k + sz kk ≤ r) := by
          intro r hr
          obtain ⟨i, hi⟩ := seg_mem_some hR (r := t'.cl.off + r) (by rw [mem_seg]; omega)
          have := locate hR kk hsz hi
          rw [ekk] at this
          exact ⟨i, hi, this⟩
        have blk : ∀ {l : Nat}, l < sz kk → t'.cl.off + (pre sz k + l) ∈ seg (R kk) := by
          intro l hl
          have := hseg kk hl
          rw [ekk] at this; exact this
        have soff : ∀ f : Nat → K, ∑ l ∈ seg (R kk), f l = ∑ l ∈ Finset.range (sz kk), f (t'.cl.off + (pre sz k + l)) := by
          intro f
          rw [sum_seg, hoff, ekk, hsz]
          exact Finset.sum_congr rfl fun l _ => by rw [Nat.add_assoc]
        -- the diagonal block in terms of the new matrix
        have ytri : ∀ {lower unit : Bool} {r c : Nat}, r < sz kk → c < sz kk →
            tri lower unit (hval y) (t'.cl.off + (pre sz k + r)) (t'.cl.off + (pre sz k + c)) =
              tri lower unit (Cur xs4) (pre sz k + r) (pre sz k + c) := by
          intro lower unit r c hr hc
          rw [← tri_shift]
          apply tri_congr
          · rw [cur_at st4 (blk hr) (blk hc), ykk]
          · rw [cur_at st4 (blk hr) (blk hr), ykk]
        refine lrInv_blockstep g3 hb ?_ ?_ ?_ ?_ ?_ ?_
        · intro r hr c hc hrc
          obtain ⟨i, hi, i1, i2⟩ := cover hr
          obtain ⟨j, hj, j1, j2⟩ := cover hc
          rw [cur_at st4 hi hj, cur_at g1 hi hj, v4 i j (by omega), v3 i j (by omega), v2 i j (by omega), v1 i j (by omega)]
        · intro l hl
          rw [cur_at st4 (blk hl) (blk hl), ykk]
          exact ynz _ (by rw [yrc]; exact blk hl)
        · intro r hr c hc
          have := d3.2 r hr c hc
          rw [if_neg (by omega), add_zero, ek2 r hr c hc] at this
          rw [this]
          refine Finset.sum_congr rfl fun l hl => ?_
          have hl := Finset.mem_range.mp hl
          obtain ⟨-, ek4⟩ := exk st4
          rw [ykk] at ek4
          have t1 : tri true true (hentry y) r l = tri true true (Cur xs4) (pre sz k + r) (pre sz k + l) := by
            rw [← tri_shift]; exact tri_congr (ek4 r hr l hl) (ek4 r hr r hr)
          have t2 : tri false false (hentry y) l c = tri false false (Cur xs4) (pre sz k + l) (pre sz k + c) := by
            rw [← tri_shift]; exact tri_congr (ek4 l hl c hc) (ek4 l hl l hl)
          rw [t1, t2]
        · intro r hr c hc hcb
          obtain ⟨j, hj, j1, j2⟩ := cover hc
          have hkj : k < j.1 := j2.mpr hcb
          obtain ⟨-, -, q⟩ := r1 j.1 (by omega) j.2
          have q := q _ (blk hr) (t'.cl.off + c)
          have e2 : sg d xs1 k j.1 = xs kk j := by
            rw [← ekk, gd, v1 kk j (by omega)]
          have e3 : sg d xs2 k j.1 = xs4 kk j := by
            rw [← ekk, gd, v4 kk j (by omega), v3 kk j (by omega)]
          rw [e2, e3, soff] at q
          rw [cur_at g1 (blk hr) hj]
          refine Eq.trans ?_ q
          refine Finset.sum_congr rfl fun l hl => ?_
          have hl := Finset.mem_range.mp hl
          show _ = tri true true (hval y) _ _ * hval (xs4 kk j) _ _
          rw [ytri hr hl, cur_at st4 (blk hl) hj]
        · intro r hr hrb c hc
          obtain ⟨i, hi, i1, i2⟩ := cover hr
          have hki : k < i.1 := i2.mpr hrb
          obtain ⟨-, -, q⟩ := c1 i.1 (by omega) i.2
          have q := q _ (blk hc) (t'.cl.off + r)
          have e2 : sg d xs2 i.1 k = xs i kk := by
            rw [← ekk, gd, v2 i kk (by omega), v1 i kk (by omega)]
          have e3 : sg d xs3 i.1 k = xs4 i kk := by
            rw [← ekk, gd, v4 i kk (by omega)]
          rw [e2, e3, soff] at q
          have q' := congrArg star q
          rw [star_sum] at q'
          rw [cur_at g1 hi (blk hc)]
          refine Eq.trans ?_ (q'.trans (star_star _))
          refine Finset.sum_congr rfl fun l hl => ?_
          have hl := Finset.mem_range.mp hl
          show _ = star (star (tri false false (hval y) _ _) * star (hval (xs4 i kk) _ _))
          rw [star_mul', star_star, star_star, ytri hl hc, cur_at st4 hi (blk hl), mul_comm]
        · intro r hr hrb c hc hcb
          obtain ⟨i, hi, i1, i2⟩ := cover hr
          obtain ⟨j, hj, j1, j2⟩ := cover hc
          have hki : k < i.1 := i2.mpr hrb
          have hkj : k < j.1 := j2.mpr hcb
          have q := (u1 i.1 (by omega) i.2 j.1 (by omega) j.2).val (t'.cl.off + r) (t'.cl.off + c)
          have e1 : sg d xs3 i.1 k = xs4 i kk := by rw [← ekk, gd, v4 i kk (by omega)]
          have e2 : sg d xs3 k j.1 = xs4 kk j := by rw [← ekk, gd, v4 kk j (by omega)]
          rw [e1, e2, gd, gd, v3 i j (by omega), v2 i j (by omega), v1 i j (by omega)] at q
          rw [cur_at st4 hi hj, cur_at g1 hi hj, q]
          unfold prod
          have e5 : (xs4 i kk).occ false = R kk := by
            show (xs4 i kk).cc = _
            rw [(st4 i kk).1.cc]; exact (hRC i kk).2
          rw [e5, soff, neg_one_mul, ← sub_eq_add_neg]
          congr 1
          refine Finset.sum_congr rfl fun l hl => ?_
          have hl := Finset.mem_range.mp hl
          rw [cur_at st4 hi (blk hl), cur_at st4 (blk hl) hj]
          rfl
    · rintro xs - ⟨g1, -, g3⟩
      right
      have ep : pre sz sm = t'.cl.size := by rw [pre_all, hsz]; exact hR.2
      rw [ep] at g3
      have e6 : hentry (.super t' t' sm sm xs) = Cur xs := by rw [hCur]
      rw [← e6] at g3
      refine Tot.pure ⟨⟨rfl, rfl, rfl, rfl, fun i j => (g1 i j).1⟩, ?_, g3⟩
      refine ⟨hm, hm, ⟨R, R, fun i j => ?_, hR, hR⟩, fun i j => (g1 i j).2⟩
      rw [(g1 i j).1.rc, (g1 i j).1.cc]; exact hRC i j

end HV
end H2
