import Verif.Proof.HMul2
import Verif.Spec.HMul

/-! Multiplication of H-matrices by triangular H-matrices. -/

set_option linter.unusedSectionVars false

namespace H2
open Spec Dense
variable {G K : Type} [Field K] [StarRing K]

namespace HV

theorem addmulOp1_tot {T : TruncOps K} (hT : Lossless T) (xt atrans : Bool) {a xi xj : HV G K} (ha : HVOk a) (ha' : HVStd a)
    (hi : HVOk xi) (hi' : HVStd xi) (hj : HVOk xj) (hj' : HVStd xj) (h1 : xj.orc xt = a.orc atrans) (h2 : xj.occ xt = xi.occ xt)
    (h3 : a.occ atrans = xi.orc xt) :
    Tot (if xt then addmul T 1 false (!atrans) xi a xj else addmul T 1 atrans false a xi xj) (fun z => SameShape xj z ∧
      HVOk z ∧ ∀ r q, ohval xt z r q = ohval xt xj r q + ∑ l ∈ seg (xi.orc xt), ohval atrans a r l * ohval xt xi l q) := by
  cases xt
  · rw [if_neg (by simp)]
    refine (addmul_tot' hT 1 atrans false ha ha' hi hi' hj hj' h1 h2 h3).mono ?_
    intro z hz
    refine ⟨hz.shape, hz.ok, fun r q => ?_⟩
    show hval z r q = hval xj r q + _
    rw [hz.val, ← h3]
    unfold prod
    rw [one_mul]
  · rw [if_pos rfl]
    refine (addmul_tot' hT 1 false (!atrans) hi hi' ha ha' hj hj' h2 (by rw [occ_not]; exact h1)
      (by rw [orc_not]; exact h3.symm)).mono ?_
    intro z hz
    refine ⟨hz.shape, hz.ok, fun r q => ?_⟩
    show star (hval z q r) = star (hval xj q r) + _
    rw [hz.val, star_add]
    unfold prod
    rw [one_mul, star_sum]
    congr 1
    refine Finset.sum_congr rfl fun l _ => ?_
    rw [star_mul', star_ohval_not, mul_comm]
    rfl

theorem sonsFor_kind {a a' : HV G K} {div : Bool} (h : sonsFor a div = .ok a') : a' = a ∨ ∃ t s f, a = .full t s f := by
  cases a with
  | full t s f => exact .inr ⟨t, s, f, rfl⟩
  | rk => exact .inl (Except.ok.inj h).symm
  | super => exact .inl (Except.ok.inj h).symm

theorem split_full {t s : CRef G} {f : VMat K} {u : CRef G} (hseg : KSeg u) (hs : t = u) (hs' : s = u) (ho : HVOk (.full t s f : HV G K))
    {t' s' : CRef G} {M N : Nat} {as : Fin M → Fin N → HV G K}
    (h : sonsFor (.full t s f) (decide (0 < u.nsons)) = .ok (.super t' s' M N as)) : ∀ i j, ∃ t s w, as i j = .full t s w := by
  obtain rfl : u = t := hs.symm
  obtain rfl : s = u := hs'
  have hd : decide (0 < s.nsons) = true ∨ s.nsons = 0 := by
    by_cases h : 0 < s.nsons
    · exact .inl (decide_eq_true h)
    · exact .inr (by omega)
  obtain ⟨a', e, m, n, rfl, rfl, son, rfl, h'⟩ := splitAm_tot hseg hseg hd hd ho.1 ho.2
  have e' : (HV.super s s (max 1 s.nsons) (max 1 s.nsons) son : HV G K) = .super t' s' M N as := Except.ok.inj (e.symm.trans h)
  cases e'
  intro i j
  obtain ⟨w, e, -⟩ := h' i j
  exact ⟨_, _, w, e⟩

theorem checked_eq {lower atrans xt : Bool} {a : HV G K} {t s : CRef G} {sm sn M : Nat} {ss : Fin sm → Fin sn → HV G K}
    (hM : M = if xt then sn else sm) (hdiv : ∀ t s m n son, a = .super t s m n son → m = M)
    (hrm : lower = true → atrans = false → xt = true → RowsMatch a (.super t s sm sn ss)) : checkedSons lower atrans xt a sm sn = M := by
  unfold checkedSons
  cases a with
  | rk => rw [hM]
  | full => rw [hM]
  | super at' as am an as =>
    have h0 := hdiv _ _ _ _ _ rfl
    cases xt
    · rw [hM]; rfl
    · simp only [if_true] at hM ⊢
      by_cases hl : (lower && !atrans) = true
      · rw [if_pos hl]
        simp only [Bool.and_eq_true, Bool.not_eq_true'] at hl
        have := hrm hl.1 hl.2 rfl
        unfold RowsMatch at this
        rw [this.1, h0]
      · rw [if_neg hl, hM]

/-- `x'` has the structure of `x` and is the product of the triangular matrix and `x`. -/
def HMuls (lower unit atrans : Bool) (A : Nat → Nat → K) (t : CRef G) (xt : Bool) (x x' : HV G K) : Prop :=
  SameShape x x' ∧ HVOk x' ∧ ∀ r ∈ seg t, ∀ q, ohval xt x' r q = ∑ c ∈ seg t, op atrans (tri lower unit A) r c * ohval xt x c q

theorem triMulH_tot {T : TruncOps K} (hT : Lossless T) {lower unit atrans xt : Bool} : ∀ {shape a x : HV G K}, SameShape shape x →
    HVOk x → HVStd x → HVOk a → HVStd a → SqOk a → a.rc = x.orc xt →
    (lower = true → atrans = false → xt = true → RowsMatch a shape) →
    Tot (triMulH T lower unit atrans xt shape a x) (HMuls lower unit atrans (hval a) (x.orc xt) xt x) := by
  intro shape
  induction shape with
  | full t s f =>
    intro a x hsh ho _ ha _ hs hrc _
    obtain ⟨f', rfl⟩ := shape_full hsh
    rw [triMulH]
    refine Tot.cassert (by rw [hs.eq]; exact same_refl _) (Tot.cassert (by rw [← hs.eq, hrc]; exact same_refl _) ?_)
    refine Tot.bind (triMulHA_tot (lower := lower) (unit := unit) (atrans := atrans) (xtrans := xt) ha hs ?_) ?_
    · unfold HV.rsize
      rw [hrc]
      cases xt
      · exact ho.1
      · exact ho.2
    · rintro w - hw
      rw [hrc] at hw
      have ho' : HVOk (.full t s w : HV G K) := ⟨hw.1.symm.trans ho.1, hw.2.1.symm.trans ho.2⟩
      have := solve_full (f := w) (f' := f') ho' hw
      exact Tot.pure ⟨⟨rfl, rfl⟩, ho', fun r hr q => (this.2.2 r hr q).symm⟩
  | rk t s r =>
    intro a x hsh ho _ ha _ hs hrc _
    obtain ⟨r', rfl⟩ := shape_rk hsh
    rw [triMulH]
    refine Tot.cassert (by rw [hs.eq]; exact same_refl _) (Tot.cassert (by rw [← hs.eq, hrc]; exact same_refl _) ?_)
    cases xt
    · simp only [Bool.false_eq_true, if_false]
      refine Tot.bind (triMulHA_tot (lower := lower) (unit := unit) (atrans := atrans) (xtrans := false) ha hs ?_) ?_
      · unfold HV.rsize
        rw [hrc]; exact ho.2.1
      · rintro w - hw
        rw [hrc] at hw
        have ho' : HVOk (.rk t s ⟨w, r'.B, r'.k⟩ : HV G K) := by
          obtain ⟨⟨o1, o2⟩, o3, o4⟩ := ho
          exact ⟨⟨hw.2.1.symm.trans o1, o2⟩, hw.1.symm.trans o3, o4⟩
        have := solve_rk (x := ⟨w, r'.B, r'.k⟩) (x' := r') (xt := false) ho' rfl rfl hw
        exact Tot.pure ⟨⟨rfl, rfl⟩, ho', fun r hr q => (this.2.2 r hr q).symm⟩
    · simp only [if_true]
      refine Tot.bind (triMulHA_tot (lower := lower) (unit := unit) (atrans := atrans) (xtrans := false) ha hs ?_) ?_
      · unfold HV.rsize
        rw [hrc]; exact ho.2.2
      · rintro w - hw
        rw [hrc] at hw
        have ho' : HVOk (.rk t s ⟨r'.A, w, r'.k⟩ : HV G K) := by
          obtain ⟨⟨o1, o2⟩, o3, o4⟩ := ho
          exact ⟨⟨o1, hw.2.1.symm.trans o2⟩, o3, hw.1.symm.trans o4⟩
        have := solve_rk (x := ⟨r'.A, w, r'.k⟩) (x' := r') (xt := true) ho' rfl rfl hw
        exact Tot.pure ⟨⟨rfl, rfl⟩, ho', fun r hr q => (this.2.2 r hr q).symm⟩
  | super t' s' sm sn ss ih =>
    intro a x hsh ho hst ha ha' hs hrc hrm
    cases x with
    | rk => exact hsh.elim
    | full => exact hsh.elim
    | super t s m n xs0 =>
    simp only [SameShape] at hsh
    obtain ⟨rfl, rfl, rfl, rfl, hsh⟩ := hsh
    replace hsh : ∀ i j, SameShape (ss i j) (xs0 i j) := hsh
    obtain ⟨kt, ks⟩ := std_segs ho hst
    obtain ⟨hm, hn, -, hok⟩ := id ho
    obtain ⟨-, em, en, hstd⟩ := id hst
    obtain ⟨d, hd⟩ : ∃ d : HV G K, d = .rk t' t' (VRk.new0 0 0) := ⟨_, rfl⟩
    obtain ⟨u, hu⟩ : ∃ u, u = orc xt (.super t' s' sm sn xs0) := ⟨_, rfl⟩
    obtain ⟨v, hv⟩ : ∃ v, v = occ xt (.super t' s' sm sn xs0) := ⟨_, rfl⟩
    obtain ⟨M, hM⟩ : ∃ M, M = if xt then sn else sm := ⟨_, rfl⟩
    obtain ⟨N, hN⟩ : ∃ N, N = if xt then sm else sn := ⟨_, rfl⟩
    have ku : KSeg u := by
      rw [hu]; unfold HV.orc; cases xt
      · exact kt
      · exact ks
    have eM : M = max 1 u.nsons := by
      rw [hM, hu]; unfold HV.orc; cases xt
      · exact em
      · exact en
    have hM0 : 0 < M := by omega
    have hN0 : 0 < N := by rw [hN]; cases xt <;> assumption
    -- the sons of `x`
    have x0 : ∀ i < M, ∀ k < N, HVOk (og xt d xs0 i k) ∧ HVStd (og xt d xs0 i k) ∧ (og xt d xs0 i k).orc xt = kid u i ∧
        (og xt d xs0 i k).occ xt = kid v k ∧ SameShape (og xt d ss i k) (og xt d xs0 i k) := by
      intro i hi k hk
      rw [hM] at hi; rw [hN] at hk
      rw [hu, hv]
      cases xt
      · replace hi : i < sm := hi
        replace hk : k < sn := hk
        have e1 : og false d xs0 i k = xs0 ⟨i, hi⟩ ⟨k, hk⟩ := sg_fin xs0 ⟨i, hi⟩ ⟨k, hk⟩
        have e2 : og false d ss i k = ss ⟨i, hi⟩ ⟨k, hk⟩ := sg_fin ss ⟨i, hi⟩ ⟨k, hk⟩
        rw [e1, e2]
        obtain ⟨q1, q2, q3⟩ := hstd ⟨i, hi⟩ ⟨k, hk⟩
        exact ⟨hok _ _, q3, q1, q2, hsh _ _⟩
      · replace hi : i < sn := hi
        replace hk : k < sm := hk
        have e1 : og true d xs0 i k = xs0 ⟨k, hk⟩ ⟨i, hi⟩ := sg_fin xs0 ⟨k, hk⟩ ⟨i, hi⟩
        have e2 : og true d ss i k = ss ⟨k, hk⟩ ⟨i, hi⟩ := sg_fin ss ⟨k, hk⟩ ⟨i, hi⟩
        rw [e1, e2]
        obtain ⟨q1, q2, q3⟩ := hstd ⟨k, hk⟩ ⟨i, hi⟩
        exact ⟨hok _ _, q3, q2, q1, hsh _ _⟩
    rw [← hu] at hrc
    rw [triMulH]
    refine Tot.cassert (by rw [hs.eq]; exact same_refl _) (Tot.cassert (by rw [← hs.eq, hrc, hu]; exact same_refl _) ?_)
    simp only
    rw [getSon_ok hm hn, ok_bind]
    have ediv : (!((xs0 ⟨0, hm⟩ ⟨0, hn⟩).orc xt).same (if xt then s' else t')) = decide (0 < u.nsons) := by
      rw [← kid_same, hu]
      have := hstd ⟨0, hm⟩ ⟨0, hn⟩
      unfold HV.orc
      cases xt
      · simp only [Bool.false_eq_true, if_false]; rw [this.1]; rfl
      · simp only [if_true]; rw [this.2.1]; rfl
    rw [ediv]
    have hdiv : ∀ t s m n son, a = .super t s m n son → m = max 1 u.nsons := by
      intro t s m n son e
      subst e
      rw [← hrc]
      exact ha'.2.1
    refine Tot.bind (sonsFor_tot ha ha' hs hrc ku hdiv) ?_
    rintro a' esf ⟨M', eM', as, rfl, has, hsq, hval'⟩
    obtain rfl : M' = M := by rw [eM', eM]
    simp only
    refine Tot.cassert (decide_eq_true trivial) (Tot.cassert (decide_eq_true (checked_eq (t := t') (s := s') (ss := ss) hM (fun t s m n son e => (hdiv t s m n son e).trans eM.symm) hrm)) ?_)
    obtain ⟨fwd, hf⟩ : ∃ fwd, fwd = (lower != atrans) := ⟨_, rfl⟩
    rw [← hf, ← hN]
    obtain ⟨C, hC⟩ : ∃ C : Fin M' → CRef G, C = fun i => kid u i.1 := ⟨_, rfl⟩
    have hR : Segments u C := by
      rw [hC]
      have := ku
      unfold KSeg at this
      rw [← eM] at this
      exact this
    have eC : ∀ i : Fin M', C i = kid u i.1 := fun i => by rw [hC]
    obtain ⟨Tm, hTm⟩ : ∃ Tm, Tm = op atrans (tri lower unit (hval a)) := ⟨_, rfl⟩
    -- shapes and values
    have Xc_at : ∀ {xs : Fin sm → Fin sn → HV G K} {k : Nat}, k < N → (∀ i < M', ∀ k < N,
        SameShape (og xt d xs0 i k) (og xt d xs i k) ∧ HVOk (og xt d xs i k)) → ∀ {i : Fin M'} {r : Nat}, r ∈ seg (C i) → ∀ q,
        Xc xt d M' k xs r q = ohval xt (og xt d xs i.1 k) r q := by
      intro xs k hk h i r hr q
      unfold Xc
      refine Finset.sum_eq_single i.1 (fun i' hi' hne => ?_) fun hn => absurd (Finset.mem_range.mpr i.2) hn
      have hi'' := Finset.mem_range.mp hi'
      refine ohval_out (h i' hi'' k hk).2 fun h' => hne ?_
      rw [(h i' hi'' k hk).1.orc, (x0 i' hi'' k hk).2.2.1] at h'
      have := seg_unique hR (i := ⟨i', hi''⟩) (j := i) (r := r) (by rw [eC]; exact h'.1) hr
      rw [← this]
    -- the assertion for the sons
    have hrm' : lower = true → atrans = false → xt = true → ∀ (i k : Nat) (hi : i < M') (h1 : k < sm) (h2 : i < sn),
        RowsMatch (as ⟨i, hi⟩ ⟨i, hi⟩) (ss ⟨k, h1⟩ ⟨i, h2⟩) := by
      intro e1 e2 e3 i k hi h1 h2
      rcases sonsFor_kind esf with e | ⟨t, s, f, e⟩
      · have := hrm e1 e2 e3
        rw [← e] at this
        unfold RowsMatch at this
        exact this.2 ⟨k, h1⟩ ⟨i, h2⟩ ⟨hi, hi⟩
      · subst e
        obtain ⟨t1, s1, w, e⟩ := split_full ku hrc (hs.eq.symm.trans hrc) ha esf ⟨i, hi⟩ ⟨i, hi⟩
        rw [e]
        unfold RowsMatch
        trivial
    refine Tot.bind (forUp_tot (fun k (xs : Fin sm → Fin sn → HV G K) => (∀ i < M', ∀ k' < N, SameShape (og xt d xs0 i k') (og xt d xs i k') ∧
        HVOk (og xt d xs i k')) ∧ (∀ k' < k, k' < N → ∀ r ∈ seg u, ∀ q, Xc xt d M' k' xs r q = ∑ c ∈ seg u, Tm r c * Xc xt d M' k' xs0 c q) ∧
        ∀ k', k ≤ k' → ∀ i, og xt d xs i k' = og xt d xs0 i k') (Nat.zero_le _) ?_ ?_) ?_
    · refine ⟨fun i hi k hk => ⟨.refl _, (x0 i hi k hk).1⟩, fun k' h => absurd h (by omega), fun _ _ _ => rfl⟩
    · intro k xsA _ hk ⟨g1, g2, g3⟩
      -- block column k
      refine (sweep_tot (I := fun p (xs : Fin sm → Fin sn → HV G K) => (∀ i < M', ∀ k' < N, SameShape (og xt d xs0 i k') (og xt d xs i k') ∧
        HVOk (og xt d xs i k')) ∧ (∀ k', k' ≠ k → ∀ i, og xt d xs i k' = og xt d xsA i k') ∧
        EInv Tm (seg u) (Done (!fwd) u C p) (Xc xt d M' k xs0) (Xc xt d M' k xs)) ?_ ?_).mono ?_
      · refine ⟨g1, fun _ _ _ => rfl, ?_⟩
        rw [done_start hR]
        exact einv_start fun r _ q => Xc_same (fun i => g3 k le_rfl i) r q
      · intro i hi xs ⟨f1, f2, f3⟩
        obtain ⟨ii, hii⟩ : ∃ ii : Fin M', ii = ⟨i, hi⟩ := ⟨_, rfl⟩
        have eii : ii.1 = i := by rw [hii]
        have hb : (if xt then k else i) < sm ∧ (if xt then i else k) < sn := by
          rw [hM] at hi; rw [hN] at hk
          cases xt
          · exact ⟨hi, hk⟩
          · exact ⟨hk, hi⟩
        have hi' : i < if xt then sn else sm := by rw [← hM]; exact hi
        have hk' : k < if xt then sm else sn := by rw [← hN]; exact hk
        rw [dif_pos hb, getSon_og (d := d) hi' hk', ok_bind]
        obtain ⟨y1, y2⟩ := f1 i hi k hk
        obtain ⟨z1, z2, z3, z4, z5⟩ := x0 i hi k hk
        obtain ⟨y, hy⟩ : ∃ y, y = og xt d xs i k := ⟨_, rfl⟩
        rw [← hy] at y1 y2
        rw [← hy]
        have eyr : y.orc xt = kid u i := by rw [y1.orc, z3]
        have eyc : y.occ xt = kid v k := by rw [y1.occ, z4]
        have ystd : HVStd y := y1.std z2
        have yv : ∀ r ∈ seg (C ii), ∀ q, ohval xt y r q = Xc xt d M' k xs r q := by
          intro r hr q
          rw [Xc_at hk f1 hr, eii, hy]
        refine Tot.bind (sweepRest_tot hi (I := fun p (xs' : Fin sm → Fin sn → HV G K) => (∀ i < M', ∀ k' < N,
          SameShape (og xt d xs0 i k') (og xt d xs' i k') ∧ HVOk (og xt d xs' i k')) ∧
          (∀ k', k' ≠ k → ∀ i, og xt d xs' i k' = og xt d xsA i k') ∧ og xt d xs' i k = y ∧
          ∀ r q, Xc xt d M' k xs' r q = Xc xt d M' k xs r q + if r ∈ Done fwd u C p ∧ r ∉ Done fwd u C (bnext fwd i) then
            ∑ c ∈ seg (C ii), Tm r c * ohval xt y c q else 0) ?_ ?_) ?_
        · refine ⟨f1, f2, hy.symm, fun r q => ?_⟩
          rw [if_neg (fun h => h.2 h.1), add_zero]
        · intro j hj haf xs2 ⟨p1, p2, p5, p3⟩
          obtain ⟨jj, hjj⟩ : ∃ jj : Fin M', jj = ⟨j, hj⟩ := ⟨_, rfl⟩
          have ejj : jj.1 = j := by rw [hjj]
          have hij : i ≠ j := by
            intro e
            unfold after at haf
            rw [e] at haf
            cases fwd <;> simp at haf
          obtain ⟨y1', y2'⟩ := p1 j hj k hk
          obtain ⟨z1', z2', z3', z4', z5'⟩ := x0 j hj k hk
          have eson : ∃ b, getSon as (if atrans then i else j) (if atrans then j else i) = .ok b ∧ HVOk b ∧ HVStd b ∧
              b.orc atrans = C jj ∧ b.occ atrans = C ii ∧
              ∀ r ∈ seg (C jj), ∀ c ∈ seg (C ii), op atrans (hval a) r c = ohval atrans b r c := by
            rw [eC, eC]
            cases atrans
            · refine ⟨_, getSon_ok hj hi, ?_⟩
              rw [← hii, ← hjj]
              obtain ⟨q1, q2, q3, q4⟩ := has jj ii
              exact ⟨q1, q2, q3, q4, fun r hr c hc => hval' jj ii r hr c hc⟩
            · refine ⟨_, getSon_ok hi hj, ?_⟩
              rw [← hii, ← hjj]
              obtain ⟨q1, q2, q3, q4⟩ := has ii jj
              exact ⟨q1, q2, q4, q3, fun r hr c hc => congrArg star (hval' ii jj c hc r hr)⟩
          obtain ⟨b, eb, hb1, hb2, b1, b2, b3⟩ := eson
          rw [eb, ok_bind]
          have hj' : j < if xt then sn else sm := by rw [← hM]; exact hj
          refine (atSon_og (d := d) (i := j) (k := k) hj' hk' (addmulOp1_tot hT xt atrans hb1 hb2 y2 ystd y2' (y1'.std z2') ?_ ?_ ?_)).mono ?_
          · rw [y1'.orc, z3', b1, eC, ejj]
          · rw [y1'.occ, z4', eyc]
          · rw [b2, eyr, eC, eii]
          rintro xs3 ⟨⟨t1, t2, t3⟩, t4⟩
          rw [eyr, ← eii, ← eC] at t3
          refine ⟨fun i' hi'' k' hk'' => ?_, fun k' hne i' => ?_, ?_, fun r q => ?_⟩
          · by_cases e : i' = j ∧ k' = k
            · rw [e.1, e.2]; exact ⟨y1'.trans t1, t2⟩
            · rw [t4 i' k' e]; exact p1 i' hi'' k' hk''
          · rw [t4 i' k' (fun e => hne e.2)]; exact p2 k' hne i'
          · rw [t4 i k (fun e => hij e.1)]; exact p5
          · rw [Xc_change (j := j) hj (fun i' hne => t4 i' k fun e => hne e.1), t3, p3]
            have nx : ∀ r, r ∈ Done fwd u C (bnext fwd j) ↔ r ∈ Done fwd u C (bprev fwd j) ∨ r ∈ seg (C jj) := by
              intro r
              have := done_next (fwd := fwd) hR jj (r := r)
              rw [ejj] at this; exact this
            by_cases hr : r ∈ seg (C jj)
            · have n1 : r ∉ Done fwd u C (bprev fwd j) := by
                have := done_not (fwd := fwd) hR jj hr
                rw [ejj] at this; exact this
              have n2 : r ∉ Done fwd u C (bnext fwd i) := by
                have := after_not (fwd := fwd) hR ii jj (by rw [eii, ejj]; exact haf) hr
                rw [eii] at this; exact this
              rw [if_neg (fun h => n1 h.1), if_pos ⟨(nx r).mpr (.inr hr), n2⟩, add_zero, add_sub_cancel_left]
              congr 1
              refine Finset.sum_congr rfl fun c hc => ?_
              rw [hTm, op_tri_after hR ii jj (by rw [← hf, eii, ejj]; exact haf) hr hc, b3 r hr c hc]
            · have e1 : (r ∈ Done fwd u C (bnext fwd j) ∧ r ∉ Done fwd u C (bnext fwd i)) ↔
                  (r ∈ Done fwd u C (bprev fwd j) ∧ r ∉ Done fwd u C (bnext fwd i)) := by
                rw [nx]
                exact ⟨fun h => ⟨h.1.resolve_right hr, h.2⟩, fun h => ⟨.inl h.1, h.2⟩⟩
              have e0 : ∑ l ∈ seg (C ii), ohval atrans b r l * ohval xt y l q = 0 := by
                refine Finset.sum_eq_zero fun l _ => ?_
                rw [ohval_out hb1 (fun h => hr (by rw [b1] at h; exact h.1)), zero_mul]
              rw [e0, add_zero, sub_self, add_zero]
              simp only [e1]
        · rintro xs1 - ⟨p1, p2, p5, p3⟩
          rw [done_end hR] at p3
          rw [getSon_ok hi hi, ok_bind, ← hii]
          have ess : ss ⟨_, hb.1⟩ ⟨_, hb.2⟩ = og xt d ss i k := by
            unfold og sg; rw [dif_pos hb]
          have hsol : Tot (triMulH T lower unit atrans xt (ss ⟨_, hb.1⟩ ⟨_, hb.2⟩) (as ii ii) (og xt d xs1 i k))
              (HMuls lower unit atrans (hval (as ii ii)) ((og xt d xs1 i k).orc xt) xt (og xt d xs1 i k)) := by
            obtain ⟨q1, q2, q3, q4⟩ := has ii ii
            rw [p5]
            refine ih _ _ ?_ y2 ystd q1 q2 (hsq ii) ?_ ?_
            · rw [ess]; exact z5.trans y1
            · rw [q3, eyr, eii]
            · intro e1 e2 e3
              subst e3
              rw [hii]
              exact hrm' e1 e2 rfl i k hi _ _
          refine (atSon_og (d := d) hi' hk' hsol).mono ?_
          rintro xf ⟨⟨w1, w2, w3⟩, w4⟩
          rw [p5] at w1 w3
          rw [eyr] at w3
          have s1 : ∀ i < M', ∀ k' < N, SameShape (og xt d xs0 i k') (og xt d xf i k') ∧ HVOk (og xt d xf i k') := by
            intro i' hi'' k' hk''
            by_cases e : i' = i ∧ k' = k
            · rw [e.1, e.2]; exact ⟨y1.trans w1, w2⟩
            · rw [w4 i' k' e]; exact p1 i' hi'' k' hk''
          have c1 : ∀ r q, Xc xt d M' k xf r q = if r ∈ seg (C ii) then ohval xt (og xt d xf i k) r q else Xc xt d M' k xs1 r q := by
            intro r q
            by_cases hr : r ∈ seg (C ii)
            · rw [if_pos hr, Xc_at hk s1 hr, eii]
            · rw [if_neg hr, Xc_change (j := i) hi (fun i' hne => w4 i' k fun e => hne e.1), p5,
                ohval_out w2 (fun h => hr (by rw [w1.orc, eyr, ← eii, ← eC] at h; exact h.1)),
                ohval_out y2 (fun h => hr (by rw [eyr, ← eii, ← eC] at h; exact h.1)), sub_self, add_zero]
          refine ⟨s1, fun k' hne i' => by rw [w4 i' k' (fun e => hne e.2)]; exact p2 k' hne i', ?_⟩
          have nx : ∀ r, r ∈ Done (!fwd) u C (bnext (!fwd) i) ↔ r ∈ Done (!fwd) u C (bprev (!fwd) i) ∨ r ∈ seg (C ii) := by
            intro r
            have := done_next (fwd := !fwd) hR ii (r := r)
            rw [eii] at this; exact this
          have nn : ∀ r ∈ seg (C ii), r ∉ Done (!fwd) u C (bprev (!fwd) i) := by
            intro r hr
            have := done_not (fwd := !fwd) hR ii hr
            rw [eii] at this; exact this
          have ble : bnext fwd i ≤ M' := by unfold bnext; cases fwd <;> simp <;> omega
          have dsub : ∀ r ∈ Done (!fwd) u C (bprev (!fwd) i), r ∈ seg u := by
            intro r hr
            rw [bprev_not] at hr
            exact done_sub hR _ ble hr
          have cmp : ∀ r ∈ seg u, (r ∈ Done (!fwd) u C (bprev (!fwd) i) ↔ r ∉ Done fwd u C (bnext fwd i)) := by
            intro r hr
            rw [bprev_not]
            exact done_compl hR fwd ble hr
          have old : ∀ r ∈ seg u, r ∉ Done (!fwd) u C (bprev (!fwd) i) → ∀ q, Xc xt d M' k xs1 r q = Xc xt d M' k xs r q := by
            intro r h0 hr q
            rw [p3, if_neg (fun h => hr ((cmp r h0).mpr h.2)), add_zero]
          refine einv_step f3 nx nn (fun r hr => seg_son hR hr) ?_ ?_ ?_ ?_
          · intro r hr c hc
            rw [hTm]
            rw [hf, ← eii] at hc
            exact op_tri_zero' hR ii hr hc
          · intro r hr q
            rw [c1, if_neg (fun h => nn r h hr), p3, if_pos ⟨dsub r hr, (cmp r (dsub r hr)).mp hr⟩]
            congr 1
            exact Finset.sum_congr rfl fun c hc => by rw [yv c hc]
          · intro r hr q
            have hr' : r ∈ seg (kid u i) := by rw [eC, eii] at hr; exact hr
            have eC' : seg (C ii) = seg (kid u i) := by rw [eC, eii]
            rw [c1, if_pos hr, w3 r hr' q, eC']
            refine Finset.sum_congr rfl fun c hc => ?_
            have hc' : c ∈ seg (C ii) := by rw [eC']; exact hc
            rw [yv c hc', hTm]
            congr 1
            have hr2 : r ∈ seg (kid u ii.1) := by rw [eii]; exact hr'
            have hc2 : c ∈ seg (kid u ii.1) := by rw [eii]; exact hc
            apply optri_congr
            · cases atrans
              · exact (hval' ii ii r hr2 c hc2).symm
              · exact (congrArg star (hval' ii ii c hc2 r hr2)).symm
            · cases atrans
              · exact (hval' ii ii r hr2 r hr2).symm
              · exact (congrArg star (hval' ii ii r hr2 r hr2)).symm
          · intro r hr hn q
            rw [c1, if_neg (fun h => hn ((nx r).mpr (.inr h))), old r hr (fun h => hn ((nx r).mpr (.inl h)))]
      · rintro xf ⟨f1, f2, f3⟩
        rw [done_end hR] at f3
        refine ⟨f1, fun k' hk' hkN r hr q => ?_, fun k' hk' i => ?_⟩
        · by_cases e : k' = k
          · rw [e]; exact f3.1 r hr q
          · rw [← g2 k' (by omega) hkN r hr q]
            rw [Xc_same (fun i => f2 k' e i)]
        · rw [f2 k' (by omega), g3 k' (by omega)]
    · rintro xf - ⟨g1, g2, -⟩
      have gs : ∀ i j, SameShape (xs0 i j) (xf i j) ∧ HVOk (xf i j) := by
        intro i j
        cases xt
        · have := g1 i.1 (by rw [hM]; exact i.2) j.1 (by rw [hN]; exact j.2)
          unfold og at this
          simp only [Bool.false_eq_true, if_false] at this
          rw [sg_fin, sg_fin] at this
          exact this
        · have := g1 j.1 (by rw [hM]; exact j.2) i.1 (by rw [hN]; exact i.2)
          unfold og at this
          simp only [if_true] at this
          rw [sg_fin, sg_fin] at this
          exact this
      refine Tot.pure ⟨⟨rfl, rfl, rfl, rfl, fun i j => (gs i j).1⟩, ?_, fun r hr q => ?_⟩
      · obtain ⟨-, -, ⟨R', C', hrc', hR', hC'⟩, -⟩ := id ho
        refine ⟨hm, hn, ⟨R', C', fun i j => ?_, hR', hC'⟩, fun i j => (gs i j).2⟩
        rw [(gs i j).1.rc, (gs i j).1.cc]; exact hrc' i j
      · rw [← hu] at hr ⊢
        rw [ohval_Xc xt d, ← hM, ← hN, Finset.sum_congr rfl (fun k' hk' => g2 k' (Finset.mem_range.mp hk') (Finset.mem_range.mp hk') r hr q)]
        rw [← hTm]
        have e9 : ∀ c, Tm r c * ohval xt (super t' s' sm sn xs0) c q = ∑ k ∈ Finset.range N, Tm r c * Xc xt d M' k xs0 c q := by
          intro c
          rw [ohval_Xc xt d, ← hM, ← hN, Finset.mul_sum]
        rw [Finset.sum_comm]
        exact (Finset.sum_congr rfl fun c _ => e9 c).symm

end HV
end H2
