import Verif.Proof.HChol2

/-! The lower triangular part of products of H-matrices (C65): subdivided matrices. -/

set_option linter.unusedSectionVars false

namespace H2
open Spec Dense
variable {G K : Type} [Field K] [StarRing K]

theorem May.tot {α : Type _} {x : R α} {c : Prop} {P : α → Prop} (h : May x c P) (hc : ¬ c) : Tot x P := by
  rcases h with ⟨-, h⟩ | h
  · exact absurd h hc
  · exact h

theorem Tot.may {α : Type _} {x : R α} {c : Prop} {P : α → Prop} (h : Tot x P) : May x c P := .inr h

theorem forUp_head {σ : Type _} {body : Nat → σ → R σ} {lo hi : Nat} {s : σ} (h : lo < hi) :
    forUp lo hi body s = body lo s >>= fun s => forUp (lo + 1) hi body s := by
  unfold forUp
  obtain ⟨n, hn⟩ : ∃ n, hi - lo = n + 1 := ⟨hi - lo - 1, by omega⟩
  rw [hn, show hi - (lo + 1) = n by omega]
  rfl

namespace HV

theorem atSon_flat {m n : Nat} {zs : Fin m → Fin n → HV G K} (i : Fin m) (j : Fin n) (f : HV G K → R (HV G K)) :
    atSon zs i.1 j.1 f = atFlat zs (i.1 + j.1 * m) f := by
  rw [atFlat_eq]
  unfold atSon
  rw [dif_pos ⟨i.2, j.2⟩]

theorem loopSon {m n : Nat} (i : Fin m) (j : Fin n) (f : Nat → HV G K → R (HV G K)) {M : Nat} (zs : Fin m → Fin n → HV G K) :
    forUp 0 M (fun k zs => atSon zs i.1 j.1 (f k)) zs = (do let v ← forUp 0 M f (zs i j); pure (setSon zs i j v)) := by
  rw [← loopFlat]
  congr 1
  funext k zs
  exact atSon_flat i j _

theorem loopSon_may {m n : Nat} {i : Fin m} {j : Fin n} {f : Nat → HV G K → R (HV G K)} {M : Nat} {zs : Fin m → Fin n → HV G K}
    {c : Prop} {P : HV G K → Prop} (h : May (forUp 0 M f (zs i j)) c P) :
    May (forUp 0 M (fun k zs => atSon zs i.1 j.1 (f k)) zs) c (fun zs' => P (zs' i j) ∧
      ∀ i' j', ¬ (i' = i ∧ j' = j) → zs' i' j' = zs i' j') := by
  rw [loopSon]
  refine May.bind h ?_
  rintro v - hv
  refine .inr (Tot.pure ⟨by rw [setSon_same]; exact hv, fun i' j' hn => setSon_ne hn⟩)

theorem lowerLoops_may {m M : Nat} {off : Nat → Nat → Nat → HV G K → R (HV G K)} {diag : Nat → Nat → HV G K → R (HV G K)}
    {P : Fin m → Fin m → HV G K → Prop} {c : Prop} (zs : Fin m → Fin m → HV G K)
    (h : ∀ i j : Fin m, j.1 < i.1 → May (forUp 0 M (fun k => off i.1 j.1 k) (zs i j)) c (P i j))
    (hd : ∀ i : Fin m, May (forUp 0 M (fun k => diag i.1 k) (zs i i)) c (P i i)) :
    May (lowerLoops off diag m M zs) c (fun zs' => (∀ i j : Fin m, j.1 ≤ i.1 → P i j (zs' i j)) ∧
      ∀ i j : Fin m, i.1 < j.1 → zs' i j = zs i j) := by
  unfold lowerLoops
  refine (forUp_may (fun k (zs' : Fin m → Fin m → HV G K) => (∀ i j : Fin m, j.1 ≤ i.1 → i.1 < k → P i j (zs' i j)) ∧
      ∀ i j : Fin m, i.1 < j.1 ∨ k ≤ i.1 → zs' i j = zs i j) (Nat.zero_le _) ?_ ?_).mono id ?_
  · exact ⟨fun i j _ h => absurd h (Nat.not_lt_zero _), fun i j _ => rfl⟩
  · rintro i s1 - hi ⟨g1, g2⟩
    refine May.bind (Q := fun (zs' : Fin m → Fin m → HV G K) => (∀ j : Fin m, j.1 < i → P ⟨i, hi⟩ j (zs' ⟨i, hi⟩ j)) ∧
        ∀ i' j : Fin m, i'.1 ≠ i ∨ i ≤ j.1 → zs' i' j = s1 i' j) ?_ ?_
    · refine (forUp_may (fun l (zs' : Fin m → Fin m → HV G K) => (∀ j : Fin m, j.1 < l → P ⟨i, hi⟩ j (zs' ⟨i, hi⟩ j)) ∧
        ∀ i' j : Fin m, i'.1 ≠ i ∨ l ≤ j.1 → zs' i' j = s1 i' j) (Nat.zero_le _) ?_ ?_)
      · exact ⟨fun j h => absurd h (Nat.not_lt_zero _), fun _ _ _ => rfl⟩
      · rintro j s2 - hj ⟨k1, k2⟩
        have hj' : j < m := by omega
        have hh := h ⟨i, hi⟩ ⟨j, hj'⟩ hj
        rw [← g2 ⟨i, hi⟩ ⟨j, hj'⟩ (.inr le_rfl), ← k2 ⟨i, hi⟩ ⟨j, hj'⟩ (.inr le_rfl)] at hh
        refine (loopSon_may (i := (⟨i, hi⟩ : Fin m)) (j := (⟨j, hj'⟩ : Fin m)) hh).mono id ?_
        rintro s3 ⟨l1, l2⟩
        refine ⟨fun j' hj'' => ?_, fun i' j' hn => ?_⟩
        · by_cases e : j' = ⟨j, hj'⟩
          · rw [e]; exact l1
          · rw [l2 _ _ (fun h => e h.2)]
            refine k1 j' ?_
            have : j'.1 ≠ j := fun h => e (Fin.ext h)
            omega
        · rw [l2 i' j' ?_]
          · exact k2 i' j' (by omega)
          · rintro ⟨e1, e2⟩
            have e1 := congrArg Fin.val e1
            have e2 := congrArg Fin.val e2
            simp only at e1 e2
            omega
    · rintro s2 - ⟨k1, k2⟩
      have hh := hd ⟨i, hi⟩
      rw [← g2 ⟨i, hi⟩ ⟨i, hi⟩ (.inr le_rfl), ← k2 ⟨i, hi⟩ ⟨i, hi⟩ (.inr le_rfl)] at hh
      refine (loopSon_may (i := (⟨i, hi⟩ : Fin m)) (j := (⟨i, hi⟩ : Fin m)) hh).mono id ?_
      rintro s3 ⟨l1, l2⟩
      refine ⟨fun i' j' h1 h2 => ?_, fun i' j' hn => ?_⟩
      · by_cases e : i' = ⟨i, hi⟩
        · subst e
          by_cases e' : j' = ⟨i, hi⟩
          · subst e'; exact l1
          · rw [l2 _ _ (fun h => e' h.2)]
            refine k1 j' ?_
            have : j'.1 ≠ i := fun h => e' (Fin.ext h)
            simp only at h1
            omega
        · have e' : i'.1 ≠ i := fun h => e (Fin.ext h)
          rw [l2 _ _ (fun h => e h.1), k2 _ _ (.inl e')]
          exact g1 i' j' h1 (by omega)
      · rw [l2 i' j' ?_, k2 i' j' ?_]
        · exact g2 i' j' (by omega)
        · omega
        · rintro ⟨e1, e2⟩
          have e1 := congrArg Fin.val e1
          have e2 := congrArg Fin.val e2
          simp only at e1 e2
          omega
  · rintro zs' ⟨g1, g2⟩
    exact ⟨fun i j hij => g1 i j hij i.2, fun i j hij => g2 i j (.inl hij)⟩

/-- the sons of a dense block, put back -/
theorem unsplit_low {x : VMat K} {t : CRef G} (ht : KSeg t) {a b : Bool} (ha : a = true ∨ t.nsons = 0)
    (hb : b = true ∨ t.nsons = 0) (h1 : x.rows = t.cl.size) (h2 : x.cols = t.cl.size)
    {son son' : Fin (max 1 t.nsons) → Fin (max 1 t.nsons) → HV G K} {D : Fin (max 1 t.nsons) → Fin (max 1 t.nsons) → Nat → Nat → K}
    (hson : ∀ i j, ∃ w, son i j = .full (kid t i.1) (kid t j.1) w ∧ HVOk (son i j) ∧ ∀ r c, hval (son i j) r c =
          if r ∈ seg (kid t i.1) ∧ c ∈ seg (kid t j.1) then hval (.full t t x) r c else 0)
    (hD : ∀ i j, UpdLow (son i j) (son' i j) (D i j)) :
    UpdLow (.full t t x) (.full t t (unsplitAm a b t t son' x)) (fun r c => ∑ i, ∑ j, D i j r c) := by
  refine ((unsplit_upd (x := x) (t := t) (s := t) (son := son') (D := fun i j r c => hval (son' i j) r c -
    (if r ∈ seg (kid t i.1) ∧ c ∈ seg (kid t j.1) then hval (.full t t x) r c else 0)) ht ht ha hb h1 h2 ?_ ?_).low).congr ?_
  · intro i j
    obtain ⟨w, e, ho, -⟩ := hson i j
    have := (hD i j).shape
    rw [e] at this
    obtain ⟨w', e'⟩ := shape_full this
    exact ⟨w', e', (hD i j).ok⟩
  · intro i j r c; ring
  · intro r c hrc
    refine Finset.sum_congr rfl fun i _ => Finset.sum_congr rfl fun j _ => ?_
    obtain ⟨w, e, ho, hv⟩ := hson i j
    rw [(hD i j).val r c hrc, hv r c]; ring

theorem kid_ne {t : CRef G} {i j : Nat} (hi : i < t.nsons) (hj : j < t.nsons) (h : i ≠ j) : (kid t i).same (kid t j) = false := by
  unfold kid CRef.same
  rw [dif_pos hi, dif_pos hj]
  simp [CRef.son, h]

theorem sqOk_shape {a : HV G K} : ∀ {b : HV G K}, SameShape a b → SqOk a → SqOk b := by
  induction a with
  | rk => intro b _ h; exact h.elim
  | full t s f =>
    intro b h h''
    obtain ⟨g, rfl⟩ := shape_full h
    exact h''
  | super t s m n son ih' =>
    intro b h h''
    cases b with
    | super t' s' m' n' son' =>
      simp only [SameShape] at h
      obtain ⟨rfl, rfl, rfl, rfl, h⟩ := h
      obtain ⟨e1, e2, h''⟩ := h''
      subst e2
      exact ⟨e1, rfl, fun i => ih' _ _ (h _ _) (h'' i)⟩
    | _ => simp only [SameShape] at h

/-- a loop of updates -/
theorem updLoop {M : Nat} {f : Nat → HV G K → R (HV G K)} {z : HV G K} (D : Fin M → Nat → Nat → K) (hz : HVOk z)
    (h : ∀ (k : Fin M) z1, SameShape z z1 → HVOk z1 → Tot (f k.1 z1) (fun z' => Upd z1 z' (D k))) :
    Tot (forUp 0 M f z) (fun z' => Upd z z' (fun r c => ∑ k, D k r c)) := by
  refine Tot.mono (forUp_inv (lo := 0) (hi := M) (s := z) (body := f)
    (fun k z' => Upd z z' (fun r c => pre (fun k => D k r c) k)) (Nat.zero_le _) ?_ ?_) ?_
  · exact (Upd.refl hz).congr fun r c => by rw [pre_zero]
  · intro k z' _ hk g
    show Tot _ _
    refine (h ⟨k, hk⟩ z' g.shape g.ok).mono fun z'' hz'' => ?_
    refine (g.trans hz'').congr fun r c => ?_
    exact (pre_succ (fun k => D k r c) ⟨k, hk⟩).symm
  · intro z' g
    exact g.congr fun r c => by rw [pre_all]

theorem updLowLoop {M : Nat} {f : Nat → HV G K → R (HV G K)} {z : HV G K} {b : Prop} (D : Fin M → Nat → Nat → K) (hz : HVOk z)
    (h : ∀ (k : Fin M) z1, SameShape z z1 → HVOk z1 → May (f k.1 z1) b (fun z' => UpdLow z1 z' (D k))) :
    May (forUp 0 M f z) b (fun z' => UpdLow z z' (fun r c => ∑ k, D k r c)) := by
  refine (forUp_may (c := b) (s := z)
    (fun k z' => UpdLow z z' (fun r c => pre (fun k => D k r c) k)) (Nat.zero_le _) ?_ ?_).mono id ?_
  · exact (UpdLow.refl hz).congr fun r c _ => by rw [pre_zero]
  · intro k z' _ hk g
    refine (h ⟨k, hk⟩ z' g.shape g.ok).mono id fun z'' hz'' => ?_
    refine (g.trans hz'').congr fun r c _ => ?_
    exact (pre_succ (fun k => D k r c) ⟨k, hk⟩).symm
  · intro z' g
    exact g.congr fun r c _ => by rw [pre_all]

theorem addmul_assert {T : TruncOps K} {alpha : K} {xt yt : Bool} {x y z : HV G K} (c1 : z.rc.same (x.orc xt) = true)
    (c2 : z.cc.same (y.occ yt) = false) : addmul T alpha xt yt x y z = .error .assertFail := by
  cases x with
  | full a b f => rw [addmul, cassert_true (by exact c1), ok_bind, c2]; rfl
  | rk a b f => rw [addmul, cassert_true (by exact c1), ok_bind, c2]; rfl
  | super a b m n f => unfold addmul; rw [cassert_true (by exact c1), ok_bind, c2]; rfl

/-- The off-diagonal loop in the defective case `xt = true`, `yt = false`, at least two middle sons. -/
theorem defectLoop {T : TruncOps K} {alpha : K} {t : CRef G} {i j ym yn M : Nat} (hym : 2 ≤ ym) (hM : 2 ≤ M) (hn : yn = max 1 t.nsons)
    (hj : j < t.nsons) (ht : 2 ≤ t.nsons) {ys : Fin ym → Fin yn → HV G K} {X : Nat → R (HV G K)} {x0 x1 : HV G K} {z : HV G K}
    (hx0 : X 0 = .ok x0) (hx1 : X 1 = .ok x1) (hr0 : z.rc = x0.orc true) (hr1 : z.rc = x1.orc true)
    (hzc : z.cc = kid t j) (hyc : ∀ p q, (ys p q).cc = kid t q.1)
    (call : j = 0 → ∀ y0, getFlat ys 0 = .ok y0 → Tot (addmul T alpha true false x0 y0 z) (fun z' => SameShape z z')) :
    forUp 0 M (fun k z1 => do
      let xik ← X k
      let ykj ← getFlat ys (j + k * ym)
      addmul T alpha true false xik ykj z1) z = .error .assertFail := by
  have fails : ∀ (q : Nat) (x1 z1 : HV G K), q / ym ≠ j → q / ym < t.nsons → z1.rc = x1.orc true → z1.cc = kid t j →
      (do
      let ykj ← getFlat ys q
      addmul T alpha true false x1 ykj z1) = .error .assertFail := by
    intro q x1 z1 hq hq' hr hc
    unfold getFlat
    rw [dif_pos ⟨Nat.mod_lt _ (by omega), by omega⟩, ok_bind]
    refine addmul_assert (by rw [hr]; exact same_refl _) ?_
    rw [hc]
    show (kid t j).same (HV.cc _) = false
    rw [hyc]
    exact kid_ne hj hq' (Ne.symm hq)
  rw [forUp_head (by omega)]
  by_cases hj0 : j = 0
  · subst hj0
    have yflat : ∃ y0, getFlat ys 0 = .ok y0 := by
      unfold getFlat
      have e3 : 0 % ym < ym ∧ 0 / ym < yn := ⟨Nat.mod_lt _ (by omega), by rw [Nat.zero_div]; omega⟩
      rw [dif_pos e3]
      exact ⟨_, rfl⟩
    obtain ⟨y0, hy0⟩ := yflat
    beta_reduce
    rw [hx0, ok_bind, Nat.zero_mul, hy0, ok_bind]
    obtain ⟨z1, e1, hz1⟩ := call rfl y0 hy0
    rw [e1, ok_bind, forUp_head (by omega)]
    beta_reduce
    rw [hx1, ok_bind]
    have e : (0 + (0 + 1) * ym) / ym = 1 := by rw [Nat.zero_add, Nat.zero_add, Nat.one_mul, Nat.div_self (by omega)]
    rw [fails _ x1 z1 (by rw [e]; omega) (by rw [e]; omega) (by rw [hz1.rc, hr1]) (by rw [hz1.cc, hzc])]
    rfl
  · beta_reduce
    rw [hx0, ok_bind]
    have hdiv : (j + 0 * ym) / ym < j := by
      rw [Nat.zero_mul, Nat.add_zero]; exact Nat.div_lt_self (by omega) hym
    rw [fails _ x0 z (by omega) (by omega) hr0 hzc]
    rfl

set_option maxHeartbeats 1600000 in
/-- Either the result is correct, or an assertion fails and the flags are those of the defective case. -/
theorem addmulLower_may {T : TruncOps K} (hT : Lossless T) (alpha : K) (xt yt : Bool) : ∀ {x y z : HV G K},
    HVOk x → HVStd x → HVOk y → HVStd y → HVOk z → HVStd z → SqOk z → z.rc = x.orc xt → z.cc = y.occ yt → x.occ xt = y.orc yt →
    May (addmulLower T alpha xt yt x y z) (xt = true ∧ yt = false) (fun z' => UpdLow z z' (prod alpha xt x yt y)) := by
  intro x
  induction x with
  | full xr xc xf =>
    intro y z hx _ hy _ hz _ hs h1 h2 h3
    rw [addmulLower]
    exact (Tot.cassert (by rw [hs.eq]; exact same_refl _) (addmulLowerXf_tot hT alpha xt yt hx hy hz hs h1 h2 h3)).may
  | rk xr xc x =>
    intro y z hx _ hy _ hz _ hs h1 h2 h3
    cases y with
    | full yr yc yf =>
      rw [addmulLower]
      exact (Tot.cassert (by rw [hs.eq]; exact same_refl _) (addmulLowerYf_tot hT alpha xt yt hx hy hz hs h1 h2 h3)).may
    | rk yr yc y =>
      rw [addmulLower]
      exact (Tot.cassert (by rw [hs.eq]; exact same_refl _) (addmulLowerXr_tot hT alpha xt yt hx hy hz hs h1 h2 h3)).may
      intro _ _ _ h; cases h
    | super yr yc ym yn ys =>
      rw [addmulLower]
      exact (Tot.cassert (by rw [hs.eq]; exact same_refl _) (addmulLowerXr_tot hT alpha xt yt hx hy hz hs h1 h2 h3)).may
      intro _ _ _ h; cases h
  | super xr xc xm xn xs ih =>
    intro y z hx hxs hy hys hz hzs hsq h1 h2 h3
    cases y with
    | full yr yc yf =>
      rw [addmulLower]
      exact (Tot.cassert (by rw [hsq.eq]; exact same_refl _) (addmulLowerYf_tot hT alpha xt yt hx hy hz hsq h1 h2 h3)).may
    | rk yr yc y =>
      rw [addmulLower]
      exact (Tot.cassert (by rw [hsq.eq]; exact same_refl _) (addmulLowerYr_tot hT alpha xt yt hx hy hz hsq h1 h2 h3)).may
    | super yr yc ym yn ys =>
      rw [addmulLower]
      refine May.cassert (by rw [hsq.eq]; exact same_refl _) ?_
      obtain ⟨kx1, kx2⟩ := std_segs hx hxs
      obtain ⟨ky1, ky2⟩ := std_segs hy hys
      obtain ⟨hxm, hxn, -, hxo⟩ := hx
      obtain ⟨hym, hyn, -, hyo⟩ := hy
      obtain ⟨-, xe1, xe2, xk⟩ := hxs
      obtain ⟨-, ye1, ye2, yk⟩ := hys
      -- clusters and sons with respect to the transposition flags
      obtain ⟨t, ht⟩ : ∃ t, t = orc xt (.super xr xc xm xn xs) := ⟨_, rfl⟩
      obtain ⟨u, hu⟩ : ∃ u, u = occ xt (.super xr xc xm xn xs) := ⟨_, rfl⟩
      obtain ⟨d, hd⟩ : ∃ d : HV G K, d = .full xr xr (.zero 0 0) := ⟨_, rfl⟩
      rw [← ht] at h1
      have hs : t = occ yt (.super yr yc ym yn ys) := by rw [← h2, ← h1, hsq.eq]
      have h2' : z.cc = t := by rw [hs, h2]
      have h3' : u = orc yt (.super yr yc ym yn ys) := by rw [hu, h3]
      have kt : KSeg t := by rw [ht]; cases xt; exacts [kx1, kx2]
      have ku : KSeg u := by rw [hu]; cases xt; exacts [kx2, kx1]
      have em : (if xt then xn else xm) = max 1 t.nsons := by rw [ht]; cases xt; exacts [xe1, xe2]
      have eu : (if xt then xm else xn) = max 1 u.nsons := by rw [hu]; cases xt; exacts [xe2, xe1]
      have eu' : (if yt then yn else ym) = max 1 u.nsons := by rw [h3']; cases yt; exacts [ye1, ye2]
      have en : (if yt then ym else yn) = max 1 t.nsons := by rw [hs]; cases yt; exacts [ye2, ye1]
      obtain ⟨X, hX⟩ := opSons xt xs (.full xr xr (.zero 0 0)) (max 1 t.nsons) (max 1 u.nsons)
      obtain ⟨Y, hY⟩ := opSons yt ys (.full xr xr (.zero 0 0)) (max 1 u.nsons) (max 1 t.nsons)
      have bx : ∀ (i : Fin (max 1 t.nsons)) (j : Fin (max 1 u.nsons)),
          (if xt then j.1 else i.1) < xm ∧ (if xt then i.1 else j.1) < xn := by
        intro i j; have := i.2; have := j.2; cases xt <;> simp at em eu ⊢ <;> omega
      have bY : ∀ (j : Fin (max 1 u.nsons)) (k : Fin (max 1 t.nsons)),
          (if yt then k.1 else j.1) < ym ∧ (if yt then j.1 else k.1) < yn := by
        intro j k; have := j.2; have := k.2; cases yt <;> simp at en eu' ⊢ <;> omega
      have sX : ∀ i j, HVOk (X i j) ∧ HVStd (X i j) ∧ (X i j).orc xt = kid t i.1 ∧ (X i j).occ xt = kid u j.1 := by
        intro i j
        rw [hX i j (bx i j)]
        refine ⟨hxo _ _, (xk _ _).2.2, ?_, ?_⟩
        · have : kid t i.1 = kid (orc xt (.super xr xc xm xn xs)) i.1 := congrArg (fun t => kid t i.1) ht
          rw [this]; unfold orc; rw [(xk _ _).1, (xk _ _).2.1]; cases xt <;> rfl
        · have : kid u j.1 = kid (occ xt (.super xr xc xm xn xs)) j.1 := congrArg (fun t => kid t j.1) hu
          rw [this]; unfold occ; rw [(xk _ _).1, (xk _ _).2.1]; cases xt <;> rfl
      have sY : ∀ j k, HVOk (Y j k) ∧ HVStd (Y j k) ∧ (Y j k).orc yt = kid u j.1 ∧ (Y j k).occ yt = kid t k.1 := by
        intro j k
        rw [hY j k (bY j k)]
        refine ⟨hyo _ _, (yk _ _).2.2, ?_, ?_⟩
        · have : kid u j.1 = kid (orc yt (.super yr yc ym yn ys)) j.1 := congrArg (fun t => kid t j.1) h3'
          rw [this]; unfold orc; rw [(yk _ _).1, (yk _ _).2.1]; cases yt <;> rfl
        · have : kid t k.1 = kid (occ yt (.super yr yc ym yn ys)) k.1 := congrArg (fun t => kid t k.1) hs
          rw [this]; unfold occ; rw [(yk _ _).1, (yk _ _).2.1]; cases yt <;> rfl
      obtain ⟨D, hDef⟩ : ∃ D : Fin (max 1 t.nsons) → Fin (max 1 t.nsons) → Nat → Nat → K,
        D = fun i j r c => ∑ k, prod alpha xt (X i k) yt (Y k j) r c := ⟨_, rfl⟩
      have total : ∀ r c, (∑ i, ∑ j, D i j r c) = prod alpha xt (.super xr xc xm xn xs) yt (.super yr yc ym yn ys) r c := by
        intro r c
        have bp := block_prod (p := max 1 t.nsons) (q := max 1 t.nsons) ku
          (X := fun i j r l => ohval xt (X i j) r l) (Y := fun j k l c => ohval yt (Y j k) l c)
          (fun i j r l hl => ohval_out (sX i j).1 (fun h => hl (by rw [← (sX i j).2.2.2]; exact h.2)))
          (fun j k l c hl => ohval_out (sY j k).1 (fun h => hl (by rw [← (sY j k).2.2.1]; exact h.1))) r c
        have ex : ∀ r l, (∑ i, ∑ j, ohval xt (X i j) r l) = ohval xt (.super xr xc xm xn xs) r l := by
          intro r l
          rw [ohval_super]
          cases xt with
          | false =>
            simp only [Bool.false_eq_true, if_false] at em eu
            subst em eu
            exact Finset.sum_congr rfl fun i _ => Finset.sum_congr rfl fun j _ => by rw [hX i j (bx i j)]; rfl
          | true =>
            simp only [if_true] at em eu
            subst em eu
            rw [Finset.sum_comm]
            exact Finset.sum_congr rfl fun i _ => Finset.sum_congr rfl fun j _ => by rw [hX j i (bx j i)]; rfl
        have ey : ∀ l c, (∑ j, ∑ k, ohval yt (Y j k) l c) = ohval yt (.super yr yc ym yn ys) l c := by
          intro l c
          rw [ohval_super]
          cases yt with
          | false =>
            simp only [Bool.false_eq_true, if_false] at en eu'
            subst en eu'
            exact Finset.sum_congr rfl fun i _ => Finset.sum_congr rfl fun j _ => by rw [hY i j (bY i j)]; rfl
          | true =>
            simp only [if_true] at en eu'
            subst en eu'
            rw [Finset.sum_comm]
            exact Finset.sum_congr rfl fun i _ => Finset.sum_congr rfl fun j _ => by rw [hY j i (bY j i)]; rfl
        simp only [ex, ey] at bp
        show _ = alpha * ∑ l ∈ seg (occ xt (.super xr xc xm xn xs)), _
        rw [← hu, ← bp, Finset.mul_sum]
        refine Finset.sum_congr rfl fun i _ => ?_
        rw [Finset.mul_sum]
        refine Finset.sum_congr rfl fun k _ => ?_
        rw [Finset.mul_sum, hDef]
        refine Finset.sum_congr rfl fun j _ => ?_
        unfold prod
        rw [(sX i j).2.2.2]
      have xget : ∀ (i : Fin (max 1 t.nsons)) (k : Fin (max 1 u.nsons)),
          getSon xs (if xt then k.1 else i.1) (if xt then i.1 else k.1) = .ok (X i k) := by
        intro i k
        rw [hX i k (bx i k)]
        unfold getSon; rw [dif_pos (bx i k)]
      have yget : ∀ (k : Fin (max 1 u.nsons)) (j : Fin (max 1 t.nsons)),
          getSon ys (if yt then j.1 else k.1) (if yt then k.1 else j.1) = .ok (Y k j) := by
        intro k j
        rw [hY k j (bY k j)]
        unfold getSon; rw [dif_pos (bY k j)]
      -- the loops
      have loops : ∀ {m n : Nat} (zs : Fin m → Fin n → HV G K) (_ : m = max 1 t.nsons) (_ : n = max 1 t.nsons),
          (∀ i j, HVOk (zs i j) ∧ HVStd (zs i j) ∧ (zs i j).rc = kid t i.1 ∧ (zs i j).cc = kid t j.1) →
          (∀ i j, i.1 = j.1 → SqOk (zs i j)) →
          May (do
            cassert (decide (m = n))
            cassert (decide ((if xt then xn else xm) = m))
            cassert (decide ((if xt then xm else xn) = (if yt then yn else ym)))
            cassert (decide ((if yt then ym else yn) = n))
            lowerLoops
              (fun i j k z1 => do
                let xik ← getSon xs (if xt then k else i) (if xt then i else k)
                let ykj ← (if xt && !yt then getFlat ys (j + k * ym) else getSon ys (if yt then j else k) (if yt then k else j))
                addmul T alpha xt yt xik ykj z1)
              (fun i k z1 =>
                if hx : (if xt then k else i) < xm ∧ (if xt then i else k) < xn then do
                  let yki ← getSon ys (if yt then i else k) (if yt then k else i)
                  addmulLower T alpha xt yt (xs ⟨_, hx.1⟩ ⟨_, hx.2⟩) yki z1
                else .error .ub)
              m (if xt then xm else xn) zs) (xt = true ∧ yt = false)
            (fun zs' => ∀ i j (hi : i.1 < max 1 t.nsons) (hj : j.1 < max 1 t.nsons),
              UpdLow (zs i j) (zs' i j) (D ⟨i.1, hi⟩ ⟨j.1, hj⟩)) := by
        intro m n zs e1 e2 hzo hzq
        subst e1 e2
        refine May.cassert (by simp) (May.cassert (by simp only [decide_eq_true_eq]; exact em)
          (May.cassert (by simp only [decide_eq_true_eq]; rw [eu, eu']) (May.cassert (by simp only [decide_eq_true_eq]; exact en) ?_)))
        rw [eu]
        refine (lowerLoops_may (P := fun i j v => UpdLow (zs i j) v (D i j)) zs ?_ ?_).mono id ?_
        · intro i j hij
          obtain ⟨o1, o2, o3, o4⟩ := hzo i j
          -- one call
          have call : ∀ (k : Fin (max 1 u.nsons)) (z1 : HV G K), SameShape (zs i j) z1 → HVOk z1 →
              Tot (addmul T alpha xt yt (X i k) (Y k j) z1) (fun z' => Upd z1 z' (prod alpha xt (X i k) yt (Y k j))) := by
            intro k z1 hsh ho
            obtain ⟨p1, p2, p3, p4⟩ := sX i k
            obtain ⟨q1, q2, q3, q4⟩ := sY k j
            exact addmul_tot' hT alpha xt yt p1 p2 q1 q2 ho (hsh.std o2) (by rw [hsh.rc, o3, p3]) (by rw [hsh.cc, o4, q4])
              (by rw [p4, q3])
          by_cases hbad : xt = true ∧ yt = false ∧ 2 ≤ u.nsons
          · left
            refine ⟨?_, hbad.1, hbad.2.1⟩
            obtain ⟨rfl, rfl, hun⟩ := hbad
            have x0 := xget i ⟨0, by omega⟩
            have x1 := xget i ⟨1, by omega⟩
            have := i.2
            refine defectLoop (t := t) (ys := ys) (z := zs i j) (i := i.1) (j := j.1) (X := fun k => getSon xs (if true = true then k else i.1)
              (if true = true then i.1 else k)) (M := max 1 u.nsons) (x0 := X i ⟨0, by omega⟩) (x1 := X i ⟨1, by omega⟩)
              ?_ (by omega) en (by omega) (by omega) x0 x1 ?_ ?_ o4 ?_ ?_
            · have : ym = _ := eu'
              omega
            · rw [o3, (sX _ _).2.2.1]
            · rw [o3, (sX _ _).2.2.1]
            · intro p q
              rw [(yk p q).2.1]
              exact congrArg (fun t => kid t q.1) hs.symm
            · intro hj0 y0 hy0
              have y1 := yget ⟨0, by omega⟩ j
              have : y0 = Y ⟨0, by omega⟩ j := by
                refine Except.ok.inj (hy0.symm.trans (Eq.trans ?_ y1))
                simp only [Bool.false_eq_true, if_false, hj0]
                unfold getFlat getSon
                rw [dif_pos ⟨Nat.mod_lt _ hym, by rw [Nat.zero_div]; exact hyn⟩, dif_pos ⟨hym, hyn⟩]
                simp only [Nat.zero_mod, Nat.zero_div]
              rw [this]
              exact (call _ _ (.refl _) o1).mono fun z' h => h.shape
          · right
            have := updLoop (M := max 1 u.nsons) (z := zs i j) (f := fun k z1 => do
                let xik ← getSon xs (if xt then k else i.1) (if xt then i.1 else k)
                let ykj ← (if xt && !yt then getFlat ys (j.1 + k * ym) else getSon ys (if yt then j.1 else k) (if yt then k else j.1))
                addmul T alpha xt yt xik ykj z1) (fun k r c => prod alpha xt (X i k) yt (Y k j) r c) o1 ?_
            · refine this.mono fun z' hz' => hz'.low.congr fun r c _ => ?_
              rw [hDef]
            · intro k z1 hsh ho
              have x0 := xget i k
              have y0 := yget k j
              beta_reduce
              rw [x0, ok_bind]
              have y1 : (if xt && !yt then getFlat ys (j.1 + k.1 * ym) else getSon ys (if yt then j.1 else k.1) (if yt then k.1 else j.1)) =
                  .ok (Y k j) := by
                by_cases hb : (xt && !yt) = true
                · rw [if_pos hb]
                  have hb' : xt = true ∧ yt = false := by cases xt <;> cases yt <;> simp_all
                  obtain ⟨rfl, rfl⟩ := hb'
                  have e1 : ym = 1 := by
                    have : ym = _ := eu'
                    have : ¬ 2 ≤ u.nsons := fun h => hbad ⟨rfl, rfl, h⟩
                    omega
                  have ek : k.1 = 0 := by have := k.2; have : ym = _ := eu'; omega
                  rw [← y0]
                  simp only [Bool.false_eq_true, if_false, ek]
                  unfold getFlat getSon
                  have e3 : (j.1 + 0 * ym) % ym = 0 := by rw [e1]; omega
                  have e4 : (j.1 + 0 * ym) / ym = j.1 := by rw [e1]; omega
                  simp only [e3, e4]
                · rw [if_neg hb, y0]
              rw [y1, ok_bind]
              exact call k z1 hsh ho
        · intro i
          obtain ⟨o1, o2, o3, o4⟩ := hzo i i
          have := updLowLoop (M := max 1 u.nsons) (z := zs i i) (b := xt = true ∧ yt = false) (f := fun k z1 =>
                if hx : (if xt then k else i.1) < xm ∧ (if xt then i.1 else k) < xn then do
                  let yki ← getSon ys (if yt then i.1 else k) (if yt then k else i.1)
                  addmulLower T alpha xt yt (xs ⟨_, hx.1⟩ ⟨_, hx.2⟩) yki z1
                else .error .ub) (fun k r c => prod alpha xt (X i k) yt (Y k i) r c) o1 ?_
          · refine this.mono id fun z' hz' => hz'.congr fun r c _ => ?_
            rw [hDef]
          · intro k z1 hsh ho
            have y0 := yget k i
            have b1 := bx i k
            beta_reduce
            rw [dif_pos b1, y0, ok_bind]
            have e1 := hX i k b1
            obtain ⟨p1, p2, p3, p4⟩ := sX i k
            obtain ⟨q1, q2, q3, q4⟩ := sY k i
            rw [e1] at p1 p2 p3 p4 ⊢
            exact ih _ _ p1 p2 q1 q2 ho (hsh.std o2) (sqOk_shape hsh (hzq i i rfl)) (by rw [hsh.rc, o3, p3])
              (by rw [hsh.cc, o4, q4]) (by rw [p4, q3])
        · rintro zs' ⟨g1, g2⟩ i j hi hj
          by_cases hij : j.1 ≤ i.1
          · exact g1 i j hij
          · rw [g2 i j (by omega)]
            refine (UpdLow.refl (hzo i j).1).congr fun r c hrc => ?_
            rw [hDef]
            symm
            refine Finset.sum_eq_zero fun k _ => prod_out (sX _ k).1 (sY k _).1 ?_
            rw [(sX _ k).2.2.1, (sY k _).2.2.2]
            rintro ⟨k1, k2⟩
            have := seg_order kt (i := i) (j := j) (by omega) k1 k2
            omega
      cases z with
      | rk zt zs' zr => exact hsq.elim
      | super zt zs zm zn zson =>
        obtain ⟨rfl, rfl⟩ : zt = t ∧ zs = t := ⟨h1, h2'⟩
        obtain ⟨-, rfl, rfl, hkid⟩ := hzs
        obtain ⟨-, e, hsq'⟩ := id hsq
        refine May.bind (loops zson rfl rfl (fun i j => ⟨hz.2.2.2 i j, (hkid i j).2.2, (hkid i j).1, (hkid i j).2.1⟩) ?_) ?_
        · intro i j hij
          obtain rfl : i = j := Fin.ext hij
          exact hsq' i
        · rintro zs' - hu'
          refine .inr (Tot.pure ?_)
          exact (UpdLow.super hz (D := D) fun i j => hu' i j i.2 j.2).congr fun r c _ => total r c
      | full zt zs zf =>
        obtain ⟨rfl, rfl⟩ : zt = t ∧ zs = t := ⟨h1, h2'⟩
        simp only
        have q0 := bx ⟨0, by omega⟩ ⟨0, by omega⟩
        have q1 := bY ⟨0, by omega⟩ ⟨0, by omega⟩
        have gx : getSon xs 0 0 = .ok (xs ⟨0, hxm⟩ ⟨0, hxn⟩) := by unfold getSon; rw [dif_pos ⟨hxm, hxn⟩]
        have gy : getSon ys 0 0 = .ok (ys ⟨0, hym⟩ ⟨0, hyn⟩) := by unfold getSon; rw [dif_pos ⟨hym, hyn⟩]
        rw [gx, ok_bind, gy, ok_bind]
        have hrd : (!((xs ⟨0, hxm⟩ ⟨0, hxn⟩).orc xt).same (if xt then xc else xr)) = decide (0 < zs.nsons) := by
          rw [show ((xs ⟨0, hxm⟩ ⟨0, hxn⟩).orc xt) = kid zs 0 by
            rw [ht]; unfold orc; rw [(xk _ _).1, (xk _ _).2.1]; cases xt <;> rfl,
            show (if xt then xc else xr) = zs from ht.symm]
          exact kid_same
        have hcd : (!((ys ⟨0, hym⟩ ⟨0, hyn⟩).occ yt).same (if yt then yr else yc)) = decide (0 < zs.nsons) := by
          rw [show ((ys ⟨0, hym⟩ ⟨0, hyn⟩).occ yt) = kid zs 0 by
            rw [hs]; unfold occ; rw [(yk _ _).1, (yk _ _).2.1]; cases yt <;> rfl,
            show (if yt then yr else yc) = zs from hs.symm]
          exact kid_same
        rw [hrd, hcd]
        have hda : decide (0 < zs.nsons) = true ∨ zs.nsons = 0 := by rw [decide_eq_true_eq]; omega
        refine May.bindT (splitAm_tot kt kt hda hda hz.1 hz.2) ?_
        rintro h - ⟨m', n', em', en', sson, rfl, hzz⟩
        subst em' en'
        dsimp only
        refine May.bind (loops sson rfl rfl (fun i j => ?_) ?_) ?_
        · obtain ⟨w, e, ho, -⟩ := hzz i j
          exact ⟨ho, by rw [e]; trivial, by rw [e]; rfl, by rw [e]; rfl⟩
        · intro i j hij
          obtain ⟨w, e, ho, -⟩ := hzz i j
          rw [e]
          show kid zs i.1 = kid zs j.1
          rw [hij]
        · rintro zs' - hu'
          refine .inr (Tot.pure ?_)
          exact (unsplit_low (D := D) kt hda hda hz.1 hz.2 hzz fun i j => hu' i j i.2 j.2).congr fun r c _ => total r c

end HV
end H2
