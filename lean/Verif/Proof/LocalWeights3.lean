import Verif.Proof.LocalWeights2

set_option linter.unusedSectionVars false

namespace H2.TB
open Spec Svd
variable {G 𝕜 : Type} [RCLike 𝕜]

theorem en_gramForm (k p : Nat) (C : Nat → Nat → 𝕜) (x : Nat → 𝕜) :
    ((en k p C x : ℝ) : 𝕜) = ∑ b ∈ Finset.range k, ∑ a ∈ Finset.range k, star (x a) * (∑ i ∈ Finset.range p, star (C i a) * C i b) * x b := by
  have h1 : ((en k p C x : ℝ) : 𝕜) = ∑ i ∈ Finset.range p, star (matVec k C x i) * matVec k C x i := by
    unfold en vecSq
    push_cast
    refine Finset.sum_congr rfl fun i _ => ?_
    rw [RCLike.star_def, RCLike.conj_mul]
  rw [h1]
  unfold matVec
  simp only [star_sum, Finset.sum_mul, Finset.mul_sum]
  rw [Finset.sum_comm]
  refine Finset.sum_congr rfl fun b _ => ?_
  rw [Finset.sum_comm]
  refine Finset.sum_congr rfl fun a _ => Finset.sum_congr rfl fun i _ => ?_
  rw [star_mul']
  ring

theorem en_of_gram {k p q : Nat} {C V : Nat → Nat → 𝕜} (h : ∀ a < k, ∀ b < k, ∑ i ∈ Finset.range p, star (C i a) * C i b = ∑ i ∈ Finset.range q, star (V i a) * V i b) (x : Nat → 𝕜) :
    en k p C x = en k q V x := by
  have : ((en k p C x : ℝ) : 𝕜) = ((en k q V x : ℝ) : 𝕜) := by
    rw [en_gramForm, en_gramForm]
    refine Finset.sum_congr rfl fun b hb => Finset.sum_congr rfl fun a ha => ?_
    rw [h a (Finset.mem_range.mp ha) b (Finset.mem_range.mp hb)]
  exact_mod_cast this

theorem hasW_of : ∀ {cb : CBV G 𝕜} {co : COp G 𝕜}, Weights cb co → HasW cb co.nodeAt := by
  intro cb
  induction cb with
  | mk t k kt kb V E n son ih =>
    intro co h
    cases co with
    | mk ct kr kc C m cson =>
    have hg := h.gram
    obtain ⟨h1, h2, h3, -, -, -, e, h5⟩ := h
    subst e
    refine ⟨⟨_, rfl, h1, h3, fun x => en_of_gram hg x⟩, fun i => ?_⟩
    have := ih i (h5 i)
    rw [show (fun p => COp.nodeAt (.mk ct kr kc C m cson) (i.1 :: p)) = (cson i).nodeAt from funext fun p => by
      show (if h : i.1 < m then COp.nodeAt (cson ⟨i.1, h⟩) p else none) = _
      rw [dif_pos i.2]]
    exact this

theorem hasD_of : ∀ {co : COp G 𝕜} {cb : CBV G 𝕜}, OpFull co cb → HasD cb co.nodeAt := by
  intro co
  induction co with
  | mk ct kr kc C m cson ih =>
    intro cb h
    cases cb with
    | mk t k kt kb V E n son =>
    obtain ⟨h1, h2, h3, h4, e, h5⟩ := h
    replace e : m = n := e
    subst e
    refine ⟨⟨_, rfl, h1, h2, h3, h4⟩, fun i => ?_⟩
    have := ih i (h5 i)
    rw [show (fun p => COp.nodeAt (.mk ct kr kc C m cson) (i.1 :: p)) = (cson i).nodeAt from funext fun p => by
      show (if h : i.1 < m then COp.nodeAt (cson ⟨i.1, h⟩) p else none) = _
      rw [dif_pos i.2]]
    exact this

theorem enumCheck_tot : ∀ {co : COp G 𝕜} {cb : CBV G 𝕜}, OpFull co cb → CBVFull cb → Tot (COp.enumCheck co cb.t) fun _ => True := by
  intro co
  induction co with
  | mk ct kr kc C m cson ih =>
    intro cb h hf
    cases cb with
    | mk t k kt kb V E n son =>
    obtain ⟨h1, -, -, -, e, h5⟩ := h
    replace e : m = n := e
    subst e
    replace h1 : ct = t := h1
    subst h1
    obtain ⟨e2, hf⟩ := hf
    unfold COp.enumCheck
    refine Tot.cassert (by simp [CRef.same]; rfl) ?_
    split
    · refine Tot.cassert (by rw [decide_eq_true_eq]; exact e2.symm) ?_
      refine Tot.bind (P := fun _ => True) ?_ fun _ _ _ => Tot.pure trivial
      refine (seqFin_tot (P := fun _ _ => True) fun i => ?_).mono fun _ _ => trivial
      have hi : i.1 < (CBV.mk ct k kt kb V E m son).t.nsons := lt_of_lt_of_eq i.2 e2
      rw [dif_pos hi]
      have := ih i (h5 i) (hf i).2
      replace this : Tot ((cson i).enumCheck (son i).t) fun _ => True := this
      rw [(hf i).1] at this
      exact this
    · exact Tot.pure trivial

theorem enumerate_tot {co : COp G 𝕜} {cb : CBV G 𝕜} (h : OpFull co cb) (hf : CBVFull cb) : Tot (COp.enumerate cb.t (some co)) fun A => A = co.nodeAt := by
  unfold COp.enumerate
  show Tot (do COp.enumCheck co cb.t; pure co.nodeAt) _
  exact Tot.bind (enumCheck_tot h hf) fun _ _ _ => Tot.pure rfl

theorem contrib_fill {f : List Nat → (Nat → 𝕜) → ℝ} : ∀ {co : COp G 𝕜} {b : BRef G 𝕜} {A : OpArr G 𝕜}, OpFull co b.cb → Adds co.nodeAt A (fun p => f (b.path ++ p)) → Contrib f b co (co.fill A) := by
  intro co
  induction co with
  | mk ct kr kc C m cson ih =>
    intro b A h ha
    obtain ⟨h1, h2, h3, h4, e, h5⟩ := h
    obtain ⟨nd, a1, a2, a3, a4, a5, a6⟩ := (ha []).2 _ rfl
    unfold COp.fill
    rw [a1]
    refine ⟨a2, a3.trans h2, a5 h3, a4.trans h4, fun x => ?_, show m = m from rfl, fun i hi => ?_⟩
    · have := a6 x
      replace this : en C.cols nd.krow nd.C.e x = en C.cols kr C.e x + f (b.path ++ []) x := this
      rw [h4, List.append_nil] at this
      exact this
    · show Contrib f (b.son ⟨i, hi⟩) (cson i) ((cson i).fill fun p => A (i.1 :: p))
      refine ih i (b := b.son ⟨i, hi⟩) (h5 i) fun p => ?_
      have := ha (i.1 :: p)
      beta_reduce
      beta_reduce at this
      rw [show COp.nodeAt (.mk ct kr kc C m cson) (i.1 :: p) = (cson i).nodeAt p from by
        show (if h : i.1 < m then COp.nodeAt (cson ⟨i.1, h⟩) p else none) = _
        rw [dif_pos i.2]] at this
      rw [show (b.son ⟨i, hi⟩).path ++ p = b.path ++ i.1 :: p by show (b.path ++ [i.1]) ++ p = _; simp]
      exact this

theorem localweights_tot {env : LWEnv 𝕜} (he : ExactEnv env.toTrEnv) {tm : Option CMode} (hn : ExactNorm env tm) {h : H2V G 𝕜} (ha : LWArgs h) {rbw cbw rw cw : COp G 𝕜}
    (h1 : Weights h.rb.cb rbw) (h1' : OpFull rbw h.rb.cb) (h2 : Weights h.cb.cb cbw) (h2' : OpFull cbw h.cb.cb) (h3 : OpFull rw h.rb.cb) (h4 : OpFull cw h.cb.cb) :
    Tot (H2V.localweights env h (some rbw) (some cbw) tm (some rw) (some cw)) fun r => Contrib (rowSum tm h) h.rb rw r.1 ∧ Contrib (colSum tm h) h.cb cw r.2 := by
  unfold H2V.localweights
  refine Tot.bind (enumerate_tot h1' ha.rfull) ?_
  rintro _ - rfl
  refine Tot.bind (enumerate_tot h2' ha.cfull) ?_
  rintro _ - rfl
  refine Tot.bind (enumerate_tot h3 ha.rfull) ?_
  rintro _ - rfl
  refine Tot.bind (enumerate_tot h4 ha.cfull) ?_
  rintro _ - rfl
  refine Tot.bind (iterWeights_tot he hn (r0 := h.rb.path) (c0 := h.cb.path) ha.ok ha.single (rp := []) (cp := []) (st := ⟨rw.nodeAt, cw.nodeAt⟩)
    ⟨ha.rfull, hasD_of h3, hasW_of h1, (List.append_nil _).symm⟩ ⟨ha.cfull, hasD_of h4, hasW_of h2, (List.append_nil _).symm⟩) ?_
  rintro st - ⟨b1, b2⟩
  exact ⟨_, rfl, contrib_fill h3 b1, contrib_fill h4 b2⟩

/-! ### accumulation -/

theorem Tot.both {α : Type} {e : R α} {P Q : α → Prop} (h1 : Tot e P) (h2 : Tot e Q) : Tot e fun a => P a ∧ Q a := by
  obtain ⟨a, e1, p⟩ := h1
  obtain ⟨b, e2, q⟩ := h2
  obtain rfl := Except.ok.inj (e1.symm.trans e2)
  exact ⟨a, e1, p, q⟩

theorem accumSon_tot {env : TrEnv 𝕜} (he : ExactEnv env) {zeta : ℝ} {C : VMat 𝕜} {kr k : Nat} {son : CBV G 𝕜} {lson : COp G 𝕜} (h1 : C.rows = kr) (h2 : C.cols = k) (h3 : OpFull lson son)
    (h4 : son.E.rows = son.k) (h5 : son.E.cols = k) :
    Tot (CBV.accumSon env.toQrEnv zeta C kr son lson) fun r => OpFull r son ∧ r = .mk lson.t r.krow r.kcol r.C lson.sons lson.son ∧
      ∀ x, en son.k r.krow r.C.e x = en son.k lson.krow lson.C.e x + zeta ^ 2 * en k kr C.e (adjE son.E son.k x) := by
  unfold CBV.accumSon
  cases lson with
  | mk lt lkr lkc lC m lls =>
  obtain ⟨g1, g2, g3, g4, g5⟩ := h3
  refine Tot.cassert (by rw [decide_eq_true_eq]; exact g2) ?_
  have a1 := truncInherit_tot he (zeta := zeta) (W := C) (E := son.E) h2 h4 h5
  unfold truncInherit at a1
  have a2 := HV.addmul_tot (a := C) (b := son.E) (at' := false) (bt := true) (c := VMat.zero C.rows son.k) (alpha := (zeta : 𝕜)) (by simp [VMat.ocols, VMat.orows, h2, h5]) (by simp [VMat.zero, VMat.orows])
    (by simp [VMat.zero, VMat.ocols, h4])
  rw [h1] at a1 a2
  refine Tot.bind (Tot.both a1 a2) ?_
  rintro W1 - ⟨⟨b1, b2⟩, b3, -⟩
  replace b3 : W1.rows = kr := b3
  refine Tot.bind (stack2_tot (a := lC) (arows := lkr) g3 g4 b3 b1) ?_
  rintro X - ⟨c1, c2, c3⟩
  refine Tot.bind (weight_en he X) ?_
  rintro C' - ⟨d1, d2⟩
  refine Tot.pure ⟨⟨g1, rfl, rfl, d1.trans c2, g5⟩, rfl, fun x => ?_⟩
  rw [c2] at d2
  show en son.k C'.rows C'.e x = en son.k lkr lC.e x + _
  rw [d2, c1, en_stack c3, ← b2 x, b3]

theorem accum_tot {env : TrEnv 𝕜} (he : ExactEnv env) {zeta : ℝ} : ∀ {cb : CBV G 𝕜}, CBVOk cb → CBVFull cb → ∀ {co : COp G 𝕜}, OpFull co cb →
    Tot (CBV.accum env.toQrEnv zeta cb co) fun r => OpFull r cb ∧ r.krow = co.krow ∧ r.C = co.C ∧ Accumulated zeta cb co r := by
  intro cb
  induction cb with
  | mk t k kt kb V E n son ih =>
    intro ho hf co h
    cases co with
    | mk ct kr kc C m cson =>
    obtain ⟨h1, h2, h3, h4, e, h5⟩ := h
    replace e : m = n := e
    subst e
    replace h2 : kc = k := h2
    replace h4 : C.cols = k := h4
    obtain ⟨e2, hf⟩ := hf
    unfold CBV.accum
    refine Tot.cassert (by rw [decide_eq_true_eq]; exact .inr e2) ?_
    refine Tot.cassert (by rw [decide_eq_true_eq]; exact h2) ?_
    by_cases hm : m = 0
    · subst hm
      rw [if_pos rfl, if_neg (by rw [← e2]; omega)]
      exact Tot.pure ⟨⟨h1, h2, h3, h4, rfl, h5⟩, rfl, rfl, rfl, rfl, fun i => i.elim0⟩
    · rw [if_neg hm]
      refine Tot.cassert (by simp) ?_
      refine Tot.bind (seqFin_tot (P := fun i (r : COp G 𝕜) => OpFull r (son i) ∧ r = .mk (cson i).t r.krow r.kcol r.C (cson i).sons (cson i).son ∧
        ∀ x, en (son i).k r.krow r.C.e x = en (son i).k (cson i).krow (cson i).C.e x + zeta ^ 2 * en k kr C.e (adjE (son i).E (son i).k x)) fun i => ?_) ?_
      · rw [dif_pos i.2]
        exact accumSon_tot he h3 h4 (h5 i) (ho.2.2 i).1 (ho.2.2 i).2.1
      · intro s _ hs
        refine Tot.bind (seqFin_tot fun i => ih i (ho.2.2 i).2.2 (hf i).2 (hs i).1) ?_
        intro s' _ hs'
        refine Tot.pure ⟨⟨h1, h2, h3, h4, rfl, fun i => (hs' i).1⟩, rfl, rfl, rfl, rfl, fun i => ⟨fun x => ?_, ?_⟩⟩
        · have := (hs i).2.2 x
          rw [← (hs' i).2.1, ← (hs' i).2.2.1] at this
          exact this
        · have a1 := (hs' i).2.2.2
          have a2 := (hs i).2.1
          show Accumulated zeta (son i) (cson i) (s' i)
          rw [a2] at a1
          cases hq : cson i with
          | mk qt qr qc qC qm qs =>
            rw [hq] at a1
            cases hq' : son i
            cases hq'' : s' i
            rw [hq', hq''] at a1
            exact a1

theorem accumulate_tot {env : TrEnv 𝕜} (he : ExactEnv env) {cb : CBV G 𝕜} (ho : CBVOk cb) (hf : CBVFull cb) {tm : Option CMode} {co : COp G 𝕜} (h : OpFull co cb) :
    Tot (CBV.accumulate env.toQrEnv cb tm co) fun r => OpFull r cb ∧ r.krow = co.krow ∧ r.C = co.C ∧ Accumulated (CMode.age tm) cb co r := by
  unfold CBV.accumulate
  exact Tot.bind (enumCheck_tot h hf) fun _ _ _ => accum_tot he ho hf h

/-! ### weights of the bases -/

theorem ofBasis_tree (junk : Nat → 𝕜) : ∀ cb : CBV G 𝕜, OpTree (COp.ofBasis junk cb) cb := by
  intro cb
  induction cb with
  | mk t k kt kb V E n son ih => exact ⟨rfl, fun i => ih i⟩

theorem ofBasis_full (junk : Nat → 𝕜) : ∀ cb : CBV G 𝕜, OpFull (COp.ofBasis junk cb) cb := by
  intro cb
  induction cb with
  | mk t k kt kb V E n son ih => exact ⟨rfl, rfl, rfl, rfl, rfl, fun i => ih i⟩

theorem weight_clusters {q : QrEnv 𝕜} : ∀ {cb : CBV G 𝕜} {co r : COp G 𝕜}, OpClusters co cb → CBV.weight q cb co = .ok r → OpClusters r cb := by
  intro cb
  induction cb with
  | mk t k kt kb V E n son ih =>
    intro co r h hr
    cases co with
    | mk ct kr kc C m cson =>
    obtain ⟨h1, e, h2⟩ := h
    subst e
    unfold CBV.weight at hr
    rw [cassert_true (by simp), ok_bind] at hr
    split at hr
    · rw [bind_ok] at hr
      obtain ⟨s, hs, hr⟩ := hr
      rw [bind_ok] at hr
      obtain ⟨X, -, hr⟩ := hr
      rw [bind_ok] at hr
      obtain ⟨Y, -, hr⟩ := hr
      rw [← Except.ok.inj hr]
      refine ⟨h1, rfl, fun i => ih i (h2 i) ?_⟩
      have := seqFin_ok.mp hs i
      rwa [dif_pos i.2] at this
    · rw [bind_ok] at hr
      obtain ⟨X, -, hr⟩ := hr
      rw [bind_ok] at hr
      obtain ⟨Y, -, hr⟩ := hr
      rw [← Except.ok.inj hr]
      exact ⟨h1, rfl, h2⟩

theorem opFull_of : ∀ {cb : CBV G 𝕜} {co : COp G 𝕜}, OpClusters co cb → Weights cb co → OpFull co cb := by
  intro cb
  induction cb with
  | mk t k kt kb V E n son ih =>
    intro co h w
    cases co with
    | mk ct kr kc C m cson =>
    obtain ⟨h1, e, h2⟩ := h
    subst e
    obtain ⟨w1, w2, w3, -, -, -, e, w5⟩ := w
    exact ⟨h1, w2, w1, w3, rfl, fun i => ih i (h2 i) (w5 i)⟩

theorem ofBasis_clusters (junk : Nat → 𝕜) : ∀ cb : CBV G 𝕜, OpClusters (COp.ofBasis junk cb) cb := by
  intro cb
  induction cb with
  | mk t k kt kb V E n son ih => exact ⟨rfl, rfl, fun i => ih i⟩

theorem basisWeight_tot {env : TrEnv 𝕜} (he : ExactEnv env) {cb : CBV G 𝕜} (ho : CBVOk cb) :
    Tot (CBV.basisWeight env.toQrEnv false cb) fun w => ∃ z, w = some z ∧ Weights cb z ∧ OpFull z cb := by
  unfold CBV.basisWeight
  rw [if_neg (by simp)]
  obtain ⟨z, e, p⟩ := weight_tot he.sgn he.tiny.ge ho (ofBasis_tree env.toQrEnv.junk cb)
  rw [e, ok_bind]
  have w := p.w (by rw [he.tiny, max_self])
  exact Tot.pure ⟨z, rfl, w, opFull_of (weight_clusters (ofBasis_clusters _ cb) e) w⟩

theorem opFull_contrib {f : List Nat → (Nat → 𝕜) → ℝ} : ∀ {co : COp G 𝕜} {b : BRef G 𝕜} {r : COp G 𝕜}, OpFull co b.cb → Contrib f b co r → OpFull r b.cb := by
  intro co
  induction co with
  | mk ct kr kc C m cson ih =>
    intro b r h hc
    cases r with
    | mk rt rkr rkc rC rm rson =>
    obtain ⟨h1, h2, h3, h4, e, h5⟩ := h
    obtain ⟨a1, a2, a3, a4, -, e', a6⟩ := hc
    replace e' : rm = m := e'
    subst e'
    exact ⟨a1.trans h1, a2, a3, a4, e, fun i => ih i (b := b.son (Fin.cast e i)) (h5 i) (a6 i (lt_of_lt_of_eq i.2 e))⟩

theorem totalweights_tot {env : LWEnv 𝕜} (he : ExactEnv env.toTrEnv) {tm : Option CMode} (hn : ExactNorm env tm) {h : H2V G 𝕜} (ha : LWArgs h) (hsame : h.rb.same h.cb = true → h.cb.cb = h.rb.cb)
    {rw cw : COp G 𝕜} (h3 : OpFull rw h.rb.cb) (h4 : OpFull cw h.cb.cb) :
    Tot (H2V.totalweights env h false false tm rw cw) fun r => ∃ rl cl, Contrib (rowSum tm h) h.rb rw rl ∧ Contrib (colSum tm h) h.cb cw cl ∧
      OpFull r.1 h.rb.cb ∧ OpFull r.2 h.cb.cb ∧
      (r.1.krow = rl.krow ∧ r.1.C = rl.C ∧ Accumulated (CMode.age tm) h.rb.cb rl r.1) ∧ r.2.krow = cl.krow ∧ r.2.C = cl.C ∧ Accumulated (CMode.age tm) h.cb.cb cl r.2 := by
  unfold H2V.totalweights
  refine Tot.bind (basisWeight_tot he ha.rok) ?_
  rintro rbw - ⟨rbw, rfl, w1, w2⟩
  refine Tot.bind (P := fun w => ∃ z, w = some z ∧ Weights h.cb.cb z ∧ OpFull z h.cb.cb) ?_ ?_
  · unfold H2V.colWeight
    rw [if_neg (by simp)]
    split
    · next hs => rw [hsame hs]; exact Tot.pure ⟨rbw, rfl, w1, w2⟩
    · exact basisWeight_tot he ha.cok
  · rintro cbw - ⟨cbw, rfl, w3, w4⟩
    refine Tot.bind (localweights_tot he hn ha w1 w2 w3 w4 h3 h4) ?_
    rintro ⟨rl, cl⟩ - ⟨c1, c2⟩
    refine Tot.bind (accumulate_tot he ha.rok ha.rfull (opFull_contrib h3 c1)) ?_
    rintro r1 - ⟨d1, d2, d3, d4⟩
    refine Tot.bind (accumulate_tot he ha.cok ha.cfull (opFull_contrib h4 c2)) ?_
    rintro r2 - ⟨e1, e2, e3, e4⟩
    exact Tot.pure ⟨rl, cl, c1, c2, d1, e1, ⟨d2, d3, d4⟩, e2, e3, e4⟩

open Classical in
theorem inherits_of {za : ℝ} {un : Prop} [Decidable un] : ∀ {cb : CBV G 𝕜} {old new : COp G 𝕜}, OpFull new cb → Accumulated za cb old new → Inherits un za cb (some new) := by
  intro cb
  induction cb with
  | mk t k kt kb V E n son ih =>
    intro old new h ha
    cases old with
    | mk ot okr okc oC om oson =>
    cases new with
    | mk nt nkr nkc nC nm nson =>
    obtain ⟨g1, g2, g3, g4, e0, g5⟩ := h
    obtain ⟨e, e', h2⟩ := ha
    subst e'
    intro i
    have hs : opSon (some (COp.mk nt nkr nkc nC n nson)) i.1 = some (nson i) := by
      show (if h : i.1 < n then some (nson ⟨i.1, h⟩) else none) = _
      rw [dif_pos i.2]
    rw [hs]
    refine ⟨fun x => ?_, ih i (g5 i) (h2 i).2⟩
    have a1 := (h2 i).1 x
    have a2 : (nson i).C.rows = (nson i).krow := by
      have := g5 i
      cases hq : nson i
      rw [hq] at this
      exact this.2.2.1
    show za ^ 2 * vecSq nC.rows _ ≤ vecSq (nson i).C.rows _
    rw [a2, g3]
    replace a1 : vecSq (nson i).krow (matVec (son i).k (nson i).C.e x) = _ + _ := a1
    rw [a1]
    exact le_add_of_nonneg_left (vecSq_nonneg _ _)

end H2.TB
