import Verif.Proof.LocalWeights

set_option linter.unusedSectionVars false

namespace H2.TB
open Spec Svd
variable {G 𝕜 : Type} [RCLike 𝕜]

theorem adds_update {cb : CBV G 𝕜} {A : OpArr G 𝕜} {rp : List Nat} {nd nd' : OpNode G 𝕜} {g : (Nat → 𝕜) → ℝ} (h1 : A rp = some nd) (h2 : DNode cb nd) (h3 : DNode cb nd')
    (h4 : ∀ x, en cb.k nd'.krow nd'.C.e x = en cb.k nd.krow nd.C.e x + g x) :
    Adds A (fun p => if p = rp then some nd' else A p) (fun p x => if p = rp then g x else 0) := by
  intro p
  by_cases hp : p = rp
  · subst hp
    refine ⟨fun h => (by rw [h1] at h; cases h), fun nd0 h => ?_⟩
    rw [h1] at h
    obtain rfl := Option.some.inj h
    refine ⟨nd', if_pos rfl, h3.1.trans h2.1.symm, h3.2.1.trans h2.2.1.symm, h3.2.2.2.trans h2.2.2.2.symm, fun _ => h3.2.2.1, fun x => ?_⟩
    beta_reduce
    rw [h2.2.2.2, h4, if_pos rfl]
  · refine ⟨fun h => by beta_reduce; rw [if_neg hp]; exact h, fun nd0 h => ⟨nd0, by beta_reduce; rw [if_neg hp]; exact h, rfl, rfl, rfl, id, fun x => by beta_reduce; rw [if_neg hp, add_zero]⟩⟩

theorem localWeights2_tot {env : LWEnv 𝕜} (he : ExactEnv env.toTrEnv) {tm : Option CMode} (hn : ExactNorm env tm) {rbwn cbwn : OpArr G 𝕜} {rb cb : BRef G 𝕜} {S : VMat 𝕜} {rp cp : List Nat}
    {st : LWSt G 𝕜} (hS1 : S.rows = rb.cb.k) (hS2 : S.cols = cb.cb.k) {rn cn rl cl : OpNode G 𝕜} (h1 : rbwn rp = some rn) (h1' : WNode rb.cb rn) (h2 : cbwn cp = some cn) (h2' : WNode cb.cb cn)
    (h3 : st.rw rp = some rl) (h3' : DNode rb.cb rl) (h4 : st.cw cp = some cl) (h4' : DNode cb.cb cl) :
    Tot (localWeights2 env tm rbwn cbwn rb cb S rp cp st) fun st' =>
      Adds st.rw st'.rw (fun p x => if p = rp then blockScale tm rb.cb cb.cb S ^ 2 * vecSq cb.cb.t.cl.size
        (fun j => ∑ b ∈ Finset.range cb.cb.k, vbasis cb.cb (cb.cb.t.cl.off + j) b * ∑ a ∈ Finset.range rb.cb.k, star (S.e a b) * x a) else 0) ∧
      Adds st.cw st'.cw (fun p x => if p = cp then blockScale tm rb.cb cb.cb S ^ 2 * vecSq rb.cb.t.cl.size
        (fun i => ∑ a ∈ Finset.range rb.cb.k, vbasis rb.cb (rb.cb.t.cl.off + i) a * ∑ b ∈ Finset.range cb.cb.k, S.e a b * x b) else 0) := by
  unfold localWeights2
  rw [h3, h4, h1, h2]
  show Tot (do
    cassert (rl.t.same rb.cb.t)
    cassert (cl.t.same cb.cb.t)
    let alpha ← blockAlpha env tm (some rn) (some cn) S rb.cb.k cb.cb.k
    let rlw ← addWeight env.toQrEnv alpha true rl (some cn) S cb.cb.k rb.cb.k
    let clw ← addWeight env.toQrEnv alpha false cl (some rn) S rb.cb.k cb.cb.k
    pure (⟨fun p => if p = rp then some rlw else st.rw p, fun p => if p = cp then some clw else st.cw p⟩ : LWSt G 𝕜)) _
  refine Tot.cassert (by rw [h3'.1]; simp [CRef.same]) ?_
  refine Tot.cassert (by rw [h4'.1]; simp [CRef.same]) ?_
  refine Tot.bind (blockAlpha_tot hn h1' h2' hS1 hS2) ?_
  rintro alpha - rfl
  refine Tot.bind (addWeight_tot he h3' h2'.1 h2'.2.1 (by simpa [VMat.orows] using hS2) (by simpa [VMat.ocols] using hS1)) ?_
  rintro r - ⟨a1, a2⟩
  refine Tot.bind (addWeight_tot he h4' h1'.1 h1'.2.1 (by simpa [VMat.orows] using hS1) (by simpa [VMat.ocols] using hS2)) ?_
  rintro c - ⟨b1, b2⟩
  refine Tot.pure ⟨adds_update h3 h3' a1 fun x => ?_, adds_update h4 h4' b1 fun x => ?_⟩
  · rw [a2, h2'.2.2]; rfl
  · rw [b2, h1'.2.2]; rfl

/-- a loop in which each step adds contributions -/
theorem fold_adds {n : Nat} {body : Fin n → LWSt G 𝕜 → R (LWSt G 𝕜)} {f g : Fin n → List Nat → (Nat → 𝕜) → ℝ} {st : LWSt G 𝕜}
    (h : ∀ i (st1 : LWSt G 𝕜) F F', Adds st.rw st1.rw F → Adds st.cw st1.cw F' → Tot (body i st1) (fun st2 => Adds st1.rw st2.rw (f i) ∧ Adds st1.cw st2.cw (g i))) :
    Tot (foldFinM n body st) fun st2 => Adds st.rw st2.rw (fun p x => ∑ i, f i p x) ∧ Adds st.cw st2.cw (fun p x => ∑ i, g i p x) := by
  induction n with
  | zero => exact ⟨st, rfl, Adds.refl fun p x => by simp, Adds.refl fun p x => by simp⟩
  | succ n ih =>
    rw [foldFinM_succ]
    refine Tot.bind (ih (f := fun i => f i.castSucc) (g := fun i => g i.castSucc) fun i st1 F F' h1 h2 => h i.castSucc st1 F F' h1 h2) ?_
    rintro st1 - ⟨a1, a2⟩
    refine (h (Fin.last n) st1 _ _ a1 a2).mono ?_
    rintro st2 ⟨b1, b2⟩
    exact ⟨(a1.trans b1).congr fun p x => by rw [Fin.sum_univ_castSucc], (a2.trans b2).congr fun p x => by rw [Fin.sum_univ_castSucc]⟩

theorem hasD_path {cb : CBV G 𝕜} {A B : OpArr G 𝕜} {f : List Nat → (Nat → 𝕜) → ℝ} {rp : List Nat} (h : HasD cb fun p => A (rp ++ p)) (ha : Adds A B f) : HasD cb fun p => B (rp ++ p) :=
  h.adds (f := fun p => f (rp ++ p)) fun p => ha (rp ++ p)

theorem hasD_son {cb : CBV G 𝕜} {A : OpArr G 𝕜} {rp : List Nat} (h : HasD cb fun p => A (rp ++ p)) (i : Fin cb.sons) : HasD (cb.son i) fun p => A (rp ++ [i.1] ++ p) := by
  have := h.son i
  simpa using this

theorem hasW_son {cb : CBV G 𝕜} {A : OpArr G 𝕜} {rp : List Nat} (h : HasW cb fun p => A (rp ++ p)) (i : Fin cb.sons) : HasW (cb.son i) fun p => A (rp ++ [i.1] ++ p) := by
  have := h.son i
  simpa using this

theorem full_son {cb : CBV G 𝕜} (h : CBVFull cb) (i : Fin cb.sons) : CBVFull (cb.son i) := by cases cb; exact (h.2 i).2
theorem full_sons {cb : CBV G 𝕜} (h : CBVFull cb) : cb.sons = cb.t.nsons := by cases cb; exact h.1

/-- the cyclic diagonals contain every pair exactly once -/
theorem sum_cyclic {n m : Nat} (hn : 0 < n) (F : Fin n → Fin m → ℝ) : ∑ k : Fin n, ∑ j : Fin m, F ⟨(k.1 + j.1) % n, Nat.mod_lt _ hn⟩ j = ∑ i, ∑ j, F i j := by
  rw [Finset.sum_comm, Finset.sum_comm (f := F)]
  refine Finset.sum_congr rfl fun j _ => ?_
  have : NeZero n := ⟨hn.ne'⟩
  let e : Fin n → Fin n := fun k => ⟨(k.1 + j.1) % n, Nat.mod_lt _ hn⟩
  have hinj : Function.Injective e := by
    intro a b hab
    have h1 : (a.1 + j.1) % n = (b.1 + j.1) % n := congrArg Fin.val hab
    have h2 : a.1 ≡ b.1 [MOD n] := Nat.ModEq.add_right_cancel' j.1 h1
    exact Fin.ext (Nat.ModEq.eq_of_lt_of_lt h2 a.2 b.2)
  exact Fintype.sum_bijective e (Finite.injective_iff_bijective.mp hinj) _ _ fun k => rfl

/-- what is known about a basis and its path -/
structure Side (A W : OpArr G 𝕜) (r0 : List Nat) (b : BRef G 𝕜) (rp : List Nat) : Prop where
  full : CBVFull b.cb
  dims : HasD b.cb fun p => A (rp ++ p)
  wts : HasW b.cb fun p => W (rp ++ p)
  path : b.path = r0 ++ rp

theorem Side.son {A W : OpArr G 𝕜} {r0 : List Nat} {b : BRef G 𝕜} {rp : List Nat} (h : Side A W r0 b rp) (i : Fin b.cb.sons) : Side A W r0 (b.son i) (rp ++ [i.1]) :=
  ⟨full_son h.full i, hasD_son h.dims i, hasW_son h.wts i, by show b.path ++ [i.1] = _; rw [h.path, List.append_assoc]⟩

theorem Side.adds {A B W : OpArr G 𝕜} {r0 : List Nat} {b : BRef G 𝕜} {rp : List Nat} {f : List Nat → (Nat → 𝕜) → ℝ} (h : Side A W r0 b rp) (ha : Adds A B f) : Side B W r0 b rp :=
  ⟨h.full, hasD_path h.dims ha, h.wts, h.path⟩

theorem same_self (b : BRef G 𝕜) : b.same b = true := by simp [BRef.same]
theorem same_son (b : BRef G 𝕜) (i : Fin b.cb.sons) : b.same (b.son i) = false := by simp [BRef.same, BRef.son]

theorem iterWeights_tot {env : LWEnv 𝕜} (he : ExactEnv env.toTrEnv) {tm : Option CMode} (hn : ExactNorm env tm) {rbwn cbwn : OpArr G 𝕜} {r0 c0 : List Nat} : ∀ {h : H2V G 𝕜},
    H2VOk h → H2VTiles h → ∀ {rp cp : List Nat} {st : LWSt G 𝕜}, Side st.rw rbwn r0 h.rb rp → Side st.cw cbwn c0 h.cb cp →
    Tot (H2V.iterWeights env tm rbwn cbwn h rp cp st) fun st' => Adds st.rw st'.rw (fun p => rowSum tm h (r0 ++ p)) ∧ Adds st.cw st'.cw (fun p => colSum tm h (c0 ++ p)) := by
  intro h
  induction h with
  | zero rb cb => exact fun _ _ rp cp st _ _ => ⟨st, rfl, Adds.refl fun p x => rfl, Adds.refl fun p x => rfl⟩
  | full rb cb f => exact fun _ _ rp cp st _ _ => ⟨st, rfl, Adds.refl fun p x => rfl, Adds.refl fun p x => rfl⟩
  | uni rb cb S =>
    intro ho _ rp cp st hr hc
    obtain ⟨rn, a1, a1'⟩ := hr.wts.root
    obtain ⟨cn, a2, a2'⟩ := hc.wts.root
    obtain ⟨rl, a3, a3'⟩ := hr.dims.root
    obtain ⟨cl, a4, a4'⟩ := hc.dims.root
    rw [List.append_nil] at a1 a2 a3 a4
    refine (localWeights2_tot he hn ho.1 ho.2 a1 a1' a2 a2' a3 a3' a4 a4').mono ?_
    rintro st' ⟨b1, b2⟩
    have hp : ∀ {r0 rp q p : List Nat}, q = r0 ++ rp → ((q = r0 ++ p) ↔ p = rp) := fun h => by
      rw [h]; exact ⟨fun h => (List.append_cancel_left h).symm, fun h => by rw [h]⟩
    refine ⟨b1.congr fun p x => ?_, b2.congr fun p x => ?_⟩
    · unfold rowSum
      have e := hp (p := p) (show rb.path = r0 ++ rp from hr.path)
      by_cases h : p = rp
      · rw [if_pos h, if_pos (e.mpr h)]
      · rw [if_neg h, if_neg (fun h' => h (e.mp h'))]
    · unfold colSum
      have e := hp (p := p) (show cb.path = c0 ++ cp from hc.path)
      by_cases h : p = cp
      · rw [if_pos h, if_pos (e.mpr h)]
      · rw [if_neg h, if_neg (fun h' => h (e.mp h'))]
  | super rb cb rsons csons son ih =>
    intro ho hs rp cp st hr hc
    obtain ⟨hr0, hc0, ⟨Rr, Cc, hRC, hR, hC⟩, hok⟩ := ho
    obtain ⟨hs1, hs2, hs3⟩ := hs
    replace hr : Side st.rw rbwn r0 rb rp := hr
    replace hc : Side st.cw cbwn c0 cb cp := hc
    unfold H2V.iterWeights
    rw [dif_pos ⟨hr0, hc0⟩]
    have step : ∀ i j rp' cp' (st1 : LWSt G 𝕜), Side st1.rw rbwn r0 (Rr i) rp' → Side st1.cw cbwn c0 (Cc j) cp' →
        Tot (H2V.iterWeights env tm rbwn cbwn (son i j) rp' cp' st1) fun st2 => Adds st1.rw st2.rw (fun p => rowSum tm (son i j) (r0 ++ p)) ∧ Adds st1.cw st2.cw (fun p => colSum tm (son i j) (c0 ++ p)) := by
      intro i j rp' cp' st1 h1 h2
      refine ih i j (hok i j) (hs3 i j) ?_ ?_
      · rw [(hRC i j).1]; exact h1
      · rw [(hRC i j).2]; exact h2
    rw [(hRC ⟨0, hr0⟩ ⟨0, hc0⟩).1, (hRC ⟨0, hr0⟩ ⟨0, hc0⟩).2]
    have rs : (Rr ⟨0, hr0⟩ = rb ∧ rsons = 1 ∧ rb.same (Rr ⟨0, hr0⟩) = true) ∨ (rb.same (Rr ⟨0, hr0⟩) = false ∧ rsons = rb.cb.sons ∧ ∀ i st1 F, Adds st.rw st1 F → Side st1 rbwn r0 (Rr i) (rp ++ [i.1])) := by
      rcases hR with hR | ⟨e, hR⟩
      · refine .inl ⟨hR _, hs1 ⟨0, hr0⟩ ⟨0, hc0⟩ ((hRC _ _).1.trans (hR _)), by rw [hR]; exact same_self _⟩
      · refine .inr ⟨by rw [hR]; exact same_son _ _, e, fun i st1 F ha => ?_⟩
        rw [hR]
        exact (hr.adds ha).son (Fin.cast e i)
    have cs : (Cc ⟨0, hc0⟩ = cb ∧ csons = 1 ∧ cb.same (Cc ⟨0, hc0⟩) = true) ∨ (cb.same (Cc ⟨0, hc0⟩) = false ∧ csons = cb.cb.sons ∧ ∀ j st1 F, Adds st.cw st1 F → Side st1 cbwn c0 (Cc j) (cp ++ [j.1])) := by
      rcases hC with hC | ⟨e, hC⟩
      · refine .inl ⟨hC _, hs2 ⟨0, hr0⟩ ⟨0, hc0⟩ ((hRC _ _).2.trans (hC _)), by rw [hC]; exact same_self _⟩
      · refine .inr ⟨by rw [hC]; exact same_son _ _, e, fun i st1 F ha => ?_⟩
        rw [hC]
        exact (hc.adds ha).son (Fin.cast e i)
    rcases rs with ⟨r1, r2, r3⟩ | ⟨r1, r2, r3⟩
    · rw [if_pos r3]
      subst r2
      rcases cs with ⟨c1, c2, c3⟩ | ⟨c1, c2, c3⟩
      · rw [if_pos c3]
        subst c2
        refine (step ⟨0, hr0⟩ ⟨0, hc0⟩ rp cp st (by rw [r1]; exact hr) (by rw [c1]; exact hc)).mono ?_
        rintro st' ⟨b1, b2⟩
        refine ⟨b1.congr fun p x => ?_, b2.congr fun p x => ?_⟩
        · simp [rowSum]
        · simp [colSum]
      · rw [if_neg (by rw [c1]; simp), if_neg (by rw [c2, full_sons hc.full]; omega)]
        refine Tot.cassert (by rw [decide_eq_true_eq, c2, full_sons hc.full]) ?_
        refine (fold_adds (f := fun j p => rowSum tm (son ⟨0, hr0⟩ j) (r0 ++ p)) (g := fun j p => colSum tm (son ⟨0, hr0⟩ j) (c0 ++ p)) fun j st1 F F' a1 a2 =>
          step ⟨0, hr0⟩ j rp (cp ++ [j.1]) st1 (by rw [r1]; exact hr.adds a1) (c3 j _ _ a2)).mono ?_
        rintro st' ⟨b1, b2⟩
        refine ⟨b1.congr fun p x => ?_, b2.congr fun p x => ?_⟩
        · simp [rowSum]
        · simp [colSum]
    · rw [if_neg (by rw [r1]; simp)]
      rcases cs with ⟨c1, c2, c3⟩ | ⟨c1, c2, c3⟩
      · rw [if_pos c3]
        subst c2
        rw [if_neg (by rw [r2, full_sons hr.full]; omega)]
        refine Tot.cassert (by rw [decide_eq_true_eq, r2, full_sons hr.full]) ?_
        refine (fold_adds (f := fun i p => rowSum tm (son i ⟨0, hc0⟩) (r0 ++ p)) (g := fun i p => colSum tm (son i ⟨0, hc0⟩) (c0 ++ p)) fun i st1 F F' a1 a2 =>
          step i ⟨0, hc0⟩ (rp ++ [i.1]) cp st1 (r3 i _ _ a1) (by rw [c1]; exact hc.adds a2)).mono ?_
        rintro st' ⟨b1, b2⟩
        refine ⟨b1.congr fun p x => ?_, b2.congr fun p x => ?_⟩
        · simp [rowSum]
        · simp [colSum]
      · rw [if_neg (by rw [c1]; simp), if_neg (by have := full_sons hc.full; have := full_sons hr.full; omega)]
        split
        · refine Tot.cassert (by rw [decide_eq_true_eq, c2, full_sons hc.full]) ?_
          refine (fold_adds (f := fun k p x => ∑ j : Fin csons, rowSum tm (son ⟨(k.1 + j.1) % rsons, Nat.mod_lt _ hr0⟩ j) (r0 ++ p) x)
            (g := fun k p x => ∑ j : Fin csons, colSum tm (son ⟨(k.1 + j.1) % rsons, Nat.mod_lt _ hr0⟩ j) (c0 ++ p) x) fun k st1 F F' a1 a2 => ?_).mono ?_
          · exact fold_adds (f := fun j p => rowSum tm (son ⟨(k.1 + j.1) % rsons, Nat.mod_lt _ hr0⟩ j) (r0 ++ p)) (g := fun j p => colSum tm (son ⟨(k.1 + j.1) % rsons, Nat.mod_lt _ hr0⟩ j) (c0 ++ p))
              fun j st2 F1 F1' b1 b2 => step ⟨(k.1 + j.1) % rsons, Nat.mod_lt _ hr0⟩ j (rp ++ [(k.1 + j.1) % rsons]) (cp ++ [j.1]) st2 (r3 _ _ _ (a1.trans b1)) (c3 j _ _ (a2.trans b2))
          · rintro st' ⟨b1, b2⟩
            refine ⟨b1.congr fun p x => ?_, b2.congr fun p x => ?_⟩
            · rw [sum_cyclic hr0 fun i j => rowSum tm (son i j) (r0 ++ p) x]; rfl
            · rw [sum_cyclic hr0 fun i j => colSum tm (son i j) (c0 ++ p) x]; rfl
        · refine Tot.cassert (by rw [decide_eq_true_eq, r2, full_sons hr.full]) ?_
          refine (fold_adds (f := fun k p x => ∑ i : Fin rsons, rowSum tm (son i ⟨(k.1 + i.1) % csons, Nat.mod_lt _ hc0⟩) (r0 ++ p) x)
            (g := fun k p x => ∑ i : Fin rsons, colSum tm (son i ⟨(k.1 + i.1) % csons, Nat.mod_lt _ hc0⟩) (c0 ++ p) x) fun k st1 F F' a1 a2 => ?_).mono ?_
          · exact fold_adds (f := fun i p => rowSum tm (son i ⟨(k.1 + i.1) % csons, Nat.mod_lt _ hc0⟩) (r0 ++ p)) (g := fun i p => colSum tm (son i ⟨(k.1 + i.1) % csons, Nat.mod_lt _ hc0⟩) (c0 ++ p))
              fun i st2 F1 F1' b1 b2 => step i ⟨(k.1 + i.1) % csons, Nat.mod_lt _ hc0⟩ (rp ++ [i.1]) (cp ++ [(k.1 + i.1) % csons]) st2 (r3 i _ _ (a1.trans b1)) (c3 ⟨_, _⟩ _ _ (a2.trans b2))
          · rintro st' ⟨b1, b2⟩
            refine ⟨b1.congr fun p x => ?_, b2.congr fun p x => ?_⟩
            · rw [sum_cyclic hc0 fun j i => rowSum tm (son i j) (r0 ++ p) x, Finset.sum_comm]; rfl
            · rw [sum_cyclic hc0 fun j i => colSum tm (son i j) (c0 ++ p) x, Finset.sum_comm]; rfl

end H2.TB
