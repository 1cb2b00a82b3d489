import Verif.Proof.Kernel2
import Verif.Proof.Collect2
import Verif.Proof.ClusterBasis4
import Verif.Proof.Ortho3

/-! Cluster bases and H²-matrices for kernel functions. -/

set_option linter.unusedSectionVars false

namespace H2.Kern
open Spec
variable {𝕜 : Type} [RCLike 𝕜]

theorem transform_ok {km : KM 𝕜} (hd : 0 < km.dim) (t : Cluster ℝ) : km.transform t = .ok (knot km t) := by
  unfold KM.transform
  rw [if_pos hd]
  congr 1
  funext d j
  unfold knot
  ring

theorem knot_inj {km : KM 𝕜} (hn : Nodes km) {t : Cluster ℝ} (ht : NonFlat km t) : ∀ e < km.dim, ∀ i < km.m, ∀ j < km.m, knot km t e i = knot km t e j → i = j := by
  intro e he i hi j hj h
  rcases ht with ht | ht
  · omega
  · refine hn i hi j hj ?_
    unfold knot at h
    have h1 : (t.info.bmax e - t.info.bmin e) / 2 ≠ 0 := by
      have := ht e he
      intro h0
      apply this
      linarith
    exact mul_left_cancel₀ h1 (by linarith)

theorem div_zero_iff {q a : Nat} (hq : 0 < q) : a / q = 0 ↔ a < q := by rw [Nat.div_eq_zero_iff]; omega

theorem fillV_tot {km : KM 𝕜} {idx : Arr Nat} (hm : 0 < km.m) (hd : 0 < km.dim) (hn : Nodes km) {t : CRef ℝ} (ht : KCluster km t.cl) (hi : IdxOk idx t km.points) {V : VMat 𝕜}
    (h1 : V.rows = t.cl.size) (h2 : V.cols = km.m ^ km.dim) :
    Tot (km.fillV idx t.cl V) fun V' => V'.rows = t.cl.size ∧ V'.cols = km.m ^ km.dim ∧ ∀ i < t.cl.size, ∀ a < km.m ^ km.dim, V'.e i a = (lag km t.cl a (km.x (idx.v (t.cl.off + i))) : 𝕜) := by
  unfold KM.fillV
  refine Tot.cassert (decide_eq_true ht.1) ?_
  rw [transform_ok hd, ok_bind]
  refine Tot.mono (fill_loop (fun V => V) (fun W => W.rows = V.rows ∧ W.cols = V.cols) (P := fun i a b => a = i ∧ b < km.m ^ km.dim) (s := V)
    (f := fun a b => (lag km t.cl b (km.x (idx.v (t.cl.off + a))) : 𝕜)) ⟨rfl, rfl⟩ ?_) ?_
  · rintro i hi' W ⟨w1, w2⟩
    have e1 : idx.get (t.cl.off + i) = .ok (idx.v (t.cl.off + i)) := if_pos (by have := hi.1; omega)
    have e2 : km.point (idx.v (t.cl.off + i)) = .ok fun d => km.x (idx.v (t.cl.off + i)) d := if_pos (hi.2 _ (In.add hi'))
    rw [e1, ok_bind, e2, ok_bind]
    refine Tot.mono (fillV1_tot hm km.dim (knot_inj hn ht.2) (by rw [w1, h1]; exact hi') (by rw [w2, h2]; omega)) fun W' h => ⟨⟨h.1.trans w1, h.2.1.trans w2⟩, h.congr (fun a b => ?_) fun a b hb => ?_⟩
    · rw [div_zero_iff (Nat.pow_pos hm)]
    · rw [one_mul, hb.1]
      rfl
  · rintro V' ⟨⟨v1, v2⟩, -, -, h, -⟩
    exact ⟨v1.trans h1, v2.trans h2, fun i hi a ha => h i a ⟨i, hi, rfl, ha⟩⟩

theorem fillE_tot {km : KM 𝕜} (hm : 0 < km.m) (hd : 0 < km.dim) (hn : Nodes km) {s f : Cluster ℝ} (hs : s.info.dim = km.dim) (hf : KCluster km f) {E : VMat 𝕜}
    (h1 : E.rows = km.m ^ km.dim) (h2 : E.cols = km.m ^ km.dim) :
    Tot (km.fillE s f E) fun E' => E'.rows = km.m ^ km.dim ∧ E'.cols = km.m ^ km.dim ∧ ∀ a < km.m ^ km.dim, ∀ b < km.m ^ km.dim, E'.e a b = (lag km f b (fun d => knot km s d (digit km.m a d)) : 𝕜) := by
  unfold KM.fillE
  refine Tot.cassert (decide_eq_true hs) (Tot.cassert (decide_eq_true hf.1) ?_)
  rw [transform_ok hd, ok_bind, transform_ok hd, ok_bind]
  refine Tot.mono (fillE1_tot hm km.dim (knot_inj hn hf.2) (by rw [h1]; omega) (by rw [h2]; omega)) fun E' h => ⟨h.1.trans h1, h.2.1.trans h2, fun a ha b hb => ?_⟩
  rw [h.2.2.1 a b ⟨(div_zero_iff (Nat.pow_pos hm)).mpr ha, (div_zero_iff (Nat.pow_pos hm)).mpr hb⟩]
  beta_reduce
  rw [one_mul]
  rfl

theorem fillS_tot {km : KM 𝕜} {junk : Nat → ℝ} (hm : 0 < km.m) (hd : 0 < km.dim) {t s : Cluster ℝ} (ht : t.info.dim = km.dim) (hs : s.info.dim = km.dim) {S : VMat 𝕜}
    (h1 : S.rows = km.m ^ km.dim) (h2 : S.cols = km.m ^ km.dim) :
    Tot (km.fillS junk t s S) fun S' => S'.rows = km.m ^ km.dim ∧ S'.cols = km.m ^ km.dim ∧ ∀ a < km.m ^ km.dim, ∀ b < km.m ^ km.dim, S'.e a b = km.kernel (knots km t a) (knots km s b) := by
  unfold KM.fillS
  refine Tot.cassert (decide_eq_true ht) (Tot.cassert (decide_eq_true hs) ?_)
  rw [transform_ok hd, ok_bind, transform_ok hd, ok_bind]
  have h0 : Inv km (km.m ^ km.dim) (km.m ^ km.dim) km.dim junk junk (⟨km.dim, junk⟩, ⟨km.dim, junk⟩, S) := ⟨rfl, rfl, fun _ _ _ => rfl, fun _ _ _ => rfl, h1, h2⟩
  have fin : ∀ {st' : St 𝕜}, Inv km (km.m ^ km.dim) (km.m ^ km.dim) km.dim junk junk st' ∧
      Fill S st'.2.2 (fun a b => a / km.m ^ km.dim = 0 ∧ b / km.m ^ km.dim = 0) (fun a b => km.kernel (fun e => pt (knot km t) km.m a km.dim junk e) (fun e => pt (knot km s) km.m b km.dim junk e)) →
      st'.2.2.rows = km.m ^ km.dim ∧ st'.2.2.cols = km.m ^ km.dim ∧ ∀ a < km.m ^ km.dim, ∀ b < km.m ^ km.dim, st'.2.2.e a b = km.kernel (knots km t a) (knots km s b) := by
    rintro st' ⟨-, h⟩
    refine ⟨h.1.trans h1, h.2.1.trans h2, fun a ha b hb => ?_⟩
    rw [h.2.2.1 a b ⟨(div_zero_iff (Nat.pow_pos hm)).mpr ha, (div_zero_iff (Nat.pow_pos hm)).mpr hb⟩]
    beta_reduce
    have e : ∀ (t : Cluster ℝ) (a : Nat), (fun e : Fin km.dim => pt (knot km t) km.m a km.dim junk e) = knots km t a := by
      intro t a
      funext e
      exact if_pos e.2
    rw [e, e]
  by_cases h3 : 2 ≤ km.dim
  · rw [if_pos h3]
    refine Tot.bind (fillS2_tot hm km.dim hd (Nat.le_refl _) 0 0 junk junk _ h0 (by omega) (by omega)) fun st _ h => Tot.pure (fin h)
  · rw [if_neg h3]
    have e : km.dim = 0 + 1 := by omega
    have h4 := fillS1_tot (km := km) (rxi := knot km t) (cxi := knot km s) (r := km.m ^ km.dim) (c := km.m ^ km.dim) hm 0 hd
    rw [← e] at h4
    refine Tot.bind (h4 0 0 junk junk _ h0 (by omega) (by omega)) fun st _ h => Tot.pure (fin h)

theorem index_ok {idx : Arr Nat} {t : CRef ℝ} {N : Nat} (h : IdxOk idx t N) {i : Nat} (hi : i < t.cl.size) : KM.index (some (idx, t.cl.off)) i = .ok (idx.v (t.cl.off + i)) :=
  if_pos (by have := h.1; omega)

/-- general form, also for null pointers -/
theorem fillN_gen {km : KM 𝕜} {ridx cidx : Option (Arr Nat × Nat)} {N : VMat 𝕜} {ri ci : Nat → Nat} (hr : ∀ i < N.rows, KM.index ridx i = .ok (ri i) ∧ ri i < km.points)
    (hc : ∀ j < N.cols, KM.index cidx j = .ok (ci j) ∧ ci j < km.points) (hr' : ridx = none → N.rows ≤ km.points) (hc' : cidx = none → N.cols ≤ km.points) :
    Tot (km.fillN ridx cidx N) fun N' => N'.rows = N.rows ∧ N'.cols = N.cols ∧ ∀ i < N.rows, ∀ j < N.cols, N'.e i j = kval km (ri i) (ci j) := by
  unfold KM.fillN
  refine Tot.cassert ?_ (Tot.cassert ?_ ?_)
  · cases ridx with
    | none => simpa using hr' rfl
    | some => rfl
  · cases cidx with
    | none => simpa using hc' rfl
    | some => rfl
  refine Tot.mono (fill_loop (fun V => V) (fun W => W.rows = N.rows ∧ W.cols = N.cols) (P := fun j a b => a < N.rows ∧ b = j) (s := N)
    (f := fun a b => kval km (ri a) (ci b)) ⟨rfl, rfl⟩ ?_) ?_
  · rintro j hj W ⟨w1, w2⟩
    rw [(hc j hj).1, ok_bind]
    refine Tot.mono (fill_loop (fun V => V) (fun W => W.rows = N.rows ∧ W.cols = N.cols) (P := fun i a b => a = i ∧ b = j) (s := W)
      (f := fun a b => kval km (ri a) (ci b)) ⟨w1, w2⟩ ?_) ?_
    · rintro i hi W' ⟨w1', w2'⟩
      rw [w1] at hi
      have e2 : ∀ {q}, q < km.points → km.point q = .ok fun d => km.x q d := fun h => if_pos h
      rw [(hr i hi).1, ok_bind, e2 (hr i hi).2, ok_bind, e2 (hc j hj).2, ok_bind]
      refine Tot.mono (put_ok (by omega) (by omega) _) fun W2 h => ⟨⟨h.1.trans w1', h.2.1.trans w2'⟩, h.congr (fun _ _ => Iff.rfl) fun a b hb => ?_⟩
      rw [hb.1, hb.2]
      rfl
    · rintro W' ⟨h1, h2⟩
      refine ⟨h1, h2.congr (fun a b => ?_) fun _ _ _ => rfl⟩
      rw [← w1]
      exact ⟨fun h => ⟨a, h.1, rfl, h.2⟩, fun ⟨i, h1, h2, h3⟩ => ⟨by omega, h3⟩⟩
  · rintro V' ⟨⟨v1, v2⟩, -, -, h, -⟩
    exact ⟨v1, v2, fun i hi j hj => h i j ⟨j, hj, hi, rfl⟩⟩

/-! ### interpolation is exact for polynomials -/

theorem interp_exact {km : KM 𝕜} (hn : Nodes km) {t : Cluster ℝ} (ht : NonFlat km t) {f : (Fin km.dim → ℝ) → 𝕜} (hf : SepPoly km.m f) (x : Nat → ℝ) :
    ∑ a ∈ Finset.range (km.m ^ km.dim), (lag km t a x : 𝕜) * f (knots km t a) = f fun d => x d := by
  have h := tensor (𝕜 := 𝕜) (m := km.m) (xi := knot km t) (f := fun x => f fun d => x d) km.dim (knot_inj hn ht) (fun e he x => ?_) x
  · rw [← h]
    refine Finset.sum_congr rfl fun a _ => ?_
    congr 2
    funext d
    exact (if_pos d.2).symm
  · obtain ⟨p, h1, h2⟩ := hf ⟨e, he⟩ fun d => x d
    refine ⟨p, h1, fun s => ?_⟩
    rw [← h2 s]
    congr 1
    funext d
    by_cases h3 : d = ⟨e, he⟩
    · subst h3; rw [Function.update_self, Function.update_self]
    · rw [Function.update_of_ne h3, Function.update_of_ne (fun h => h3 (Fin.ext h))]

theorem lag_poly (km : KM 𝕜) (hm : 0 < km.m) (t : Cluster ℝ) (b : Nat) : SepPoly km.m fun x : Fin km.dim → ℝ => ((∏ d : Fin km.dim, lag1 km.m (knot km t d) (digit km.m b d) (x d) : ℝ) : 𝕜) := by
  intro d x
  obtain ⟨p, h1, h2⟩ := lag1_poly (𝕜 := 𝕜) km.m (knot km t d) (i := digit km.m b d) (Nat.mod_lt _ hm)
  refine ⟨Polynomial.C ((∏ e ∈ Finset.univ.erase d, lag1 km.m (knot km t e) (digit km.m b e) (x e) : ℝ) : 𝕜) * p, ?_, fun s => ?_⟩
  · refine lt_of_le_of_lt (Polynomial.degree_mul_le _ _) (lt_of_le_of_lt (add_le_add Polynomial.degree_C_le le_rfl) ?_)
    rw [zero_add]; exact h1
  · beta_reduce
    rw [Polynomial.eval_mul, Polynomial.eval_C, ← h2, ← RCLike.ofReal_mul, ← Finset.prod_erase_mul _ _ (Finset.mem_univ d), Function.update_self]
    congr 2
    refine Finset.prod_congr rfl fun e he => ?_
    rw [Function.update_of_ne (Finset.ne_of_mem_erase he)]

theorem lag_nested {km : KM 𝕜} (hm : 0 < km.m) (hn : Nodes km) {s : Cluster ℝ} (hs : NonFlat km s) (t : Cluster ℝ) (b : Nat) (x : Nat → ℝ) :
    ∑ a ∈ Finset.range (km.m ^ km.dim), (lag km s a x : 𝕜) * (lag km t b (fun d => knot km s d (digit km.m a d)) : 𝕜) = (lag km t b x : 𝕜) := by
  have h := interp_exact hn hs (lag_poly km hm t b) x
  have e : ∀ x : Nat → ℝ, lag km t b x = ∏ d : Fin km.dim, lag1 km.m (knot km t d) (digit km.m b d) (x d) := fun x => by
    unfold lag
    rw [Finset.prod_range]
  rw [e x, ← h]
  refine Finset.sum_congr rfl fun a _ => ?_
  rw [e fun d => knot km s d (digit km.m a d)]
  rfl

theorem cover {t : CRef ℝ} {n : Nat} {R : Fin n → CRef ℝ} (h : Segments t R) {r : Nat} (hr : In t r) : ∃ i, In (R i) r := by
  unfold In at hr
  obtain ⟨j, hj⟩ := CBas.pos_in_son h (p := r - t.cl.off) (by omega)
  rw [Nat.add_sub_cancel' hr.1] at hj
  exact ⟨j, hj⟩

/-! ### cluster bases -/

theorem setE_t (cb : CBV ℝ 𝕜) (E : VMat 𝕜) : (cb.setE E).t = cb.t ∧ (cb.setE E).k = cb.k ∧ (cb.setE E).E = E := by cases cb; exact ⟨rfl, rfl, rfl⟩
theorem setE_vbasis (cb : CBV ℝ 𝕜) (E : VMat 𝕜) (r l : Nat) : vbasis (cb.setE E) r l = vbasis cb r l := by cases cb; rfl
theorem setE_ok {cb : CBV ℝ 𝕜} {E : VMat 𝕜} (h : CBVOk cb) : CBVOk (cb.setE E) := by cases cb; exact h
theorem setE_interp {km : KM 𝕜} {idx : Arr Nat} {cb : CBV ℝ 𝕜} {E : VMat 𝕜} (h : Interpolates km idx cb) : Interpolates km idx (cb.setE E) := by cases cb; exact h
theorem setE_tree {cb cb' : CBV ℝ 𝕜} {E : VMat 𝕜} (h : KSameTree cb cb') : KSameTree cb (cb'.setE E) := by cases cb; cases cb'; exact h
theorem interp_k {km : KM 𝕜} {idx : Arr Nat} {cb : CBV ℝ 𝕜} (h : Interpolates km idx cb) : cb.k = km.m ^ km.dim ∧ ∀ r, In cb.t r → ∀ a < cb.k, vbasis cb r a = (lag km cb.t.cl a (km.x (idx.v r)) : 𝕜) := by
  cases cb; exact ⟨h.1, h.2.1⟩
theorem kbasis_t {km : KM 𝕜} {cb : CBV ℝ 𝕜} (h : KBasis km cb) : KCluster km cb.t.cl := by cases cb; exact h.1
theorem sameTree_t {cb cb' : CBV ℝ 𝕜} (h : KSameTree cb cb') : cb'.t = cb.t := by cases cb; cases cb'; exact h.1
theorem resize_dims (junk : Nat → 𝕜) (a : VMat 𝕜) (r c : Nat) : (a.resize junk r c).rows = r ∧ (a.resize junk r c).cols = c := by
  unfold VMat.resize
  split
  · exact ⟨rfl, rfl⟩
  · push Not at *; rename_i h; exact ⟨h.1.symm, h.2.symm⟩

theorem fillBasis_tot {km : KM 𝕜} {idx : Arr Nat} {junk : Nat → 𝕜} (hm : 0 < km.m) (hd : 0 < km.dim) (hn : Nodes km) : ∀ {cb : CBV ℝ 𝕜}, KParts cb → KBasis km cb → IdxOk idx cb.t km.points →
    Tot (km.fillBasisRec idx junk (km.m ^ km.dim) cb) fun cb' => KSameTree cb cb' ∧ CBVOk cb' ∧ Interpolates km idx cb' ∧ VCounts cb' ∧ cb'.E.rows = km.m ^ km.dim ∧ cb'.E.cols = cb.E.cols := by
  intro cb
  induction cb with
  | mk t k kt kb V E n son ih =>
    intro hp hk hi
    replace hi : IdxOk idx t km.points := hi
    unfold KM.fillBasisRec
    have hson : ∀ i, IdxOk idx (son i).t km.points := fun i => CBas.IdxOk.son hi (hp.1 (by have := i.2; omega)) i
    refine Tot.bind (seqFin_tot fun i => ih i (hp.2 i) (hk.2 i) (hson i)) fun s _ hs => ?_
    by_cases h0 : 0 < n
    · rw [if_pos h0]
      refine Tot.bind (seqFin_tot (P := fun i cb' => ∃ E', cb' = (s i).setE E' ∧ E'.rows = km.m ^ km.dim ∧ E'.cols = km.m ^ km.dim ∧
          ∀ a < km.m ^ km.dim, ∀ b < km.m ^ km.dim, E'.e a b = (lag km t.cl b (fun d => knot km (s i).t.cl d (digit km.m a d)) : 𝕜)) fun i => ?_) fun s' _ hs' => ?_
      · obtain ⟨a1, a2, a3, -⟩ := hs i
        refine Tot.bind (fillE_tot hm hd hn (s := (s i).t.cl) (f := t.cl) ?_ hk.1 ((resize_dims _ _ _ _).1.trans (interp_k a3).1) (resize_dims _ _ _ _).2) fun E' _ h => Tot.pure ⟨E', rfl, h⟩
        rw [sameTree_t a1]
        exact (kbasis_t (hk.2 i)).1
      · choose E' e1 e2 e3 e4 using hs'
        have et : ∀ i, (s' i).t = (son i).t := fun i => by rw [e1 i, (setE_t _ _).1, sameTree_t (hs i).1]
        have ek : ∀ i, (s' i).k = km.m ^ km.dim := fun i => by rw [e1 i, (setE_t _ _).2.1, (interp_k (hs i).2.2.1).1]
        have eE : ∀ i, (s' i).E = E' i := fun i => by rw [e1 i, (setE_t _ _).2.2]
        refine Tot.pure ⟨⟨rfl, rfl, fun i => ?_⟩, ⟨fun h => absurd h (by omega), fun _ => ?_, fun i => ⟨?_, ?_, ?_⟩⟩, ⟨rfl, ?_, fun i => ?_⟩, counts_coeff (fun i => by rw [e1 i]; exact setE_counts (hs i).2.2.2.1) _ _, (resize_dims _ _ _ _).1, (resize_dims _ _ _ _).2⟩
        · rw [e1 i]; exact setE_tree (hs i).1
        · have : (fun i => (s' i).t) = fun i => (son i).t := funext et
          rw [this]; exact hp.1 h0
        · rw [eE, e2, ek]
        · rw [eE, e3]
        · rw [e1 i]; exact setE_ok (hs i).2.1
        · intro r hr b hb
          unfold vbasis
          rw [if_neg (by omega)]
          have sg : Segments t (fun i => (son i).t) := hp.1 h0
          obtain ⟨i, hir⟩ := cover sg hr
          rw [Finset.sum_eq_single i]
          · rw [ek i, ← lag_nested hm hn (kbasis_t (hk.2 i)).2 t.cl b (km.x (idx.v r))]
            refine Finset.sum_congr rfl fun a ha => ?_
            rw [Finset.mem_range] at ha
            have q := interp_k (hs i).2.2.1
            rw [e1 i, setE_vbasis, (setE_t _ _).2.2, e4 i a ha b hb, q.2 r (by rw [sameTree_t (hs i).1]; exact hir) a (by rw [q.1]; exact ha), sameTree_t (hs i).1]
          · intro j _ hj
            refine Finset.sum_eq_zero fun a _ => ?_
            rw [vbasis_zero, zero_mul]
            · rw [e1 j]; exact setE_ok (hs j).2.1
            · rw [et]
              exact fun h => hj (CBas.In.unique sg h hir)
          · intro h; exact absurd (Finset.mem_univ i) h
        · rw [e1 i]; exact setE_interp (hs i).2.2.1
    · rw [if_neg h0]
      obtain rfl : n = 0 := by omega
      refine Tot.bind (fillV_tot hm hd hn hk.1 hi (resize_dims _ _ _ _).1 (resize_dims _ _ _ _).2) fun V' _ hV => ?_
      refine Tot.pure ⟨⟨rfl, rfl, fun i => i.elim0⟩, ⟨fun _ => ⟨hV.1, hV.2.1⟩, fun h => absurd h (by omega), fun i => i.elim0⟩, ⟨rfl, ?_, fun i => i.elim0⟩, counts_coeff (fun i => i.elim0) _ _, (resize_dims _ _ _ _).1, (resize_dims _ _ _ _).2⟩
      intro r hr a ha
      unfold vbasis
      rw [if_pos rfl, if_pos hr]
      have hr' := hr
      unfold In at hr'
      rw [hV.2.2 (r - t.cl.off) (by omega) a ha, Nat.add_sub_cancel' hr'.1]

/-- a flat box -/
theorem fillV_nan {km : KM 𝕜} {idx : Arr Nat} (hm : 2 ≤ km.m) {t : CRef ℝ} (hi : IdxOk idx t km.points) (ht : t.cl.info.dim = km.dim) (hsz : 0 < t.cl.size)
    {d : Nat} (hd : d < km.dim) (hf : t.cl.info.bmin d = t.cl.info.bmax d) (V : VMat 𝕜) : km.fillV idx t.cl V = .error .nan := by
  have key : ∀ (D : Nat), d < D → ∀ (xx : Nat → ℝ) (j0 : Nat) (al : 𝕜) (V : VMat 𝕜), KM.fillV1 km (knot km t.cl) 0 xx D j0 al V = .error .nan := by
    intro D
    induction D with
    | zero => intro h; omega
    | succ D ih =>
      intro hD xx j0 al V
      unfold KM.fillV1
      rw [show forUp 0 km.m = fun body s => loopN body (km.m - 0) 0 s from rfl]
      simp only []
      obtain ⟨q, hq⟩ : ∃ q, km.m - 0 = q + 1 := ⟨km.m - 1, by omega⟩
      rw [hq, loopN]
      have h1 : (KM.lagrange km.m (knot km t.cl D) 0 (xx D) >>= fun l => KM.fillV1 km (knot km t.cl) 0 xx D (0 + j0 * km.m) (al * (l : 𝕜)) V) = .error .nan := by
        by_cases hDd : D = d
        · subst hDd
          rw [lagrange_nan (i := 0) (j := 1) (by omega) (by omega) (by omega)]
          · rfl
          · unfold knot; rw [hf]; ring
        · cases hl : KM.lagrange km.m (knot km t.cl D) 0 (xx D) with
          | error e =>
            unfold KM.lagrange Krylov.cdiv at hl
            simp only [] at hl
            split at hl
            · rw [← Except.error.inj hl]; rfl
            · cases hl
          | ok l => rw [ok_bind]; exact ih (by omega) _ _ _ _
      rw [h1]; rfl
  unfold KM.fillV
  rw [cassert_true (decide_eq_true ht), ok_bind, transform_ok (by omega), ok_bind]
  rw [show forUp 0 t.cl.size = fun body s => loopN body (t.cl.size - 0) 0 s from rfl]
  simp only []
  obtain ⟨q, hq⟩ : ∃ q, t.cl.size - 0 = q + 1 := ⟨t.cl.size - 1, by omega⟩
  rw [hq, loopN]
  have e1 : idx.get (t.cl.off + 0) = .ok (idx.v (t.cl.off + 0)) := if_pos (by have := hi.1; omega)
  have e2 : km.point (idx.v (t.cl.off + 0)) = .ok fun d => km.x (idx.v (t.cl.off + 0)) d := if_pos (hi.2 _ (In.add hsz))
  rw [e1, ok_bind, e2, ok_bind, key km.dim hd]
  rfl

/-! ### H²-matrices -/

theorem fillH2_tot {km : KM 𝕜} {ridx cidx : Arr Nat} {junk : Nat → ℝ} (hm : 0 < km.m) (hd : 0 < km.dim) : ∀ {h : H2V ℝ 𝕜}, H2VOk h → NoZero h →
    CBVOk h.rb.cb ∧ IdxOk ridx h.rb.cb.t km.points → CBVOk h.cb.cb ∧ IdxOk cidx h.cb.cb.t km.points → KBasis km h.rb.cb → KBasis km h.cb.cb →
    Interpolates km ridx h.rb.cb → Interpolates km cidx h.cb.cb → Tot (km.fillH2 ridx cidx junk h) fun h' => SameForm h h' ∧ H2VOk h' ∧ KEntries km ridx cidx h' := by
  intro h
  induction h with
  | zero rb cb => intro _ h; exact h.elim
  | uni rb cb S =>
    intro ho _ h1 h2 h3 h4 h5 h6
    unfold KM.fillH2
    have q1 := interp_k h5
    have q2 := interp_k h6
    refine Tot.bind (fillS_tot hm hd (kbasis_t h3).1 (kbasis_t h4).1 (ho.1.trans q1.1) (ho.2.trans q2.1)) fun S' _ h => Tot.pure ⟨⟨S', rfl⟩, ⟨h.1.trans q1.1.symm, h.2.1.trans q2.1.symm⟩, ?_⟩
    intro r c hr hc
    unfold h2vplace kinterp
    replace q1 : rb.cb.k = km.m ^ km.dim ∧ ∀ r, In rb.cb.t r → ∀ a < rb.cb.k, vbasis rb.cb r a = (lag km rb.cb.t.cl a (km.x (ridx.v r)) : 𝕜) := q1
    replace q2 : cb.cb.k = km.m ^ km.dim ∧ ∀ r, In cb.cb.t r → ∀ a < cb.cb.k, vbasis cb.cb r a = (lag km cb.cb.t.cl a (km.x (cidx.v r)) : 𝕜) := q2
    rw [q1.1, q2.1]
    refine Finset.sum_congr rfl fun a ha => Finset.sum_congr rfl fun b hb => ?_
    rw [Finset.mem_range] at ha hb
    rw [q1.2 r hr a (by rw [q1.1]; exact ha), q2.2 c hc b (by rw [q2.1]; exact hb), h.2.2 a ha b hb]
    congr 1
    exact RCLike.conj_ofReal _
  | full rb cb f =>
    intro ho _ h1 h2 h3 h4 h5 h6
    unfold KM.fillH2
    refine Tot.bind (fillN_gen (ri := fun i => ridx.v (rb.cb.t.cl.off + i)) (ci := fun j => cidx.v (cb.cb.t.cl.off + j)) (fun i hi => ?_) (fun j hj => ?_) (fun H => by cases H) (fun H => by cases H)) fun f' _ h =>
      Tot.pure ⟨⟨f', rfl⟩, ⟨h.1.trans ho.1, h.2.1.trans ho.2⟩, ?_⟩
    · rw [ho.1] at hi
      exact ⟨index_ok h1.2 hi, h1.2.2 _ (In.add hi)⟩
    · rw [ho.2] at hj
      exact ⟨index_ok h2.2 hj, h2.2.2 _ (In.add hj)⟩
    · intro r c hr hc
      unfold h2vplace
      rw [if_pos ⟨hr, hc⟩]
      unfold In at hr hc
      have o1 : f.rows = rb.cb.t.cl.size := ho.1
      have o2 : f.cols = cb.cb.t.cl.size := ho.2
      rw [h.2.2 _ (by omega) _ (by omega), Nat.add_sub_cancel' hr.1, Nat.add_sub_cancel' hc.1]
  | super rb cb m n son ih =>
    intro ho hz h1 h2 h3 h4 h5 h6
    have ho' := ho
    obtain ⟨hm', hn', ⟨Rf, Cf, hRC, hR, hC⟩, hs⟩ := ho
    unfold KM.fillH2
    have kson : ∀ (cb : CBV ℝ 𝕜), KBasis km cb → ∀ i, KBasis km (cb.son i) := fun cb h i => by cases cb; exact h.2 i
    have ison : ∀ {idx : Arr Nat} (cb : CBV ℝ 𝕜), Interpolates km idx cb → ∀ i, Interpolates km idx (cb.son i) := fun cb h i => by cases cb; exact h.2.2 i
    have r1 : ∀ i, (CBVOk (Rf i).cb ∧ IdxOk ridx (Rf i).cb.t km.points) ∧ KBasis km (Rf i).cb ∧ Interpolates km ridx (Rf i).cb := fun i =>
      ⟨hR.inherit (P := fun cb => CBVOk cb ∧ IdxOk ridx cb.t km.points) idxOk_son h1 i, hR.inherit (P := KBasis km) kson h3 i, hR.inherit (P := Interpolates km ridx) ison h5 i⟩
    have r2 : ∀ i, (CBVOk (Cf i).cb ∧ IdxOk cidx (Cf i).cb.t km.points) ∧ KBasis km (Cf i).cb ∧ Interpolates km cidx (Cf i).cb := fun i =>
      ⟨hC.inherit (P := fun cb => CBVOk cb ∧ IdxOk cidx cb.t km.points) idxOk_son h2 i, hC.inherit (P := KBasis km) kson h4 i, hC.inherit (P := Interpolates km cidx) ison h6 i⟩
    refine Tot.bind (seqFin_tot (P := fun j f => ∀ i, SameForm (son i j) (f i) ∧ H2VOk (f i) ∧ KEntries km ridx cidx (f i)) fun j => seqFin_tot (P := fun i f => SameForm (son i j) f ∧ H2VOk f ∧ KEntries km ridx cidx f) fun i => ?_) fun s _ h => ?_
    · have a1 := r1 i
      have a2 := r2 j
      rw [← (hRC i j).1] at a1
      rw [← (hRC i j).2] at a2
      exact ih i j (hs i j) (hz i j) a1.1 a2.1 a1.2.1 a2.2.1 a1.2.2 a2.2.2
    · refine Tot.pure ⟨⟨_, rfl, fun i j => (h j i).1⟩, ⟨hm', hn', ⟨Rf, Cf, fun i j => ?_, hR, hC⟩, fun i j => (h j i).2.1⟩, fun i j => (h j i).2.2⟩
      have := sameForm_refs (h j i).1
      rw [this.1, this.2]
      exact hRC i j

theorem kentries_exact {km : KM 𝕜} {ridx cidx : Arr Nat} (hn : Nodes km) (hp : PolyKernel km) : ∀ {h : H2V ℝ 𝕜}, H2VOk h → H2VTiles h → CBVOk h.rb.cb → CBVOk h.cb.cb → KBasis km h.rb.cb → KBasis km h.cb.cb →
    KEntries km ridx cidx h → ∀ r c, In h.rb.cb.t r → In h.cb.cb.t c → h2vplace h r c = kval km (ridx.v r) (cidx.v c) := by
  intro h
  induction h with
  | zero rb cb => intro _ _ _ _ _ _ h; exact h.elim
  | uni rb cb S =>
    intro _ _ _ _ h3 h4 h r c hr hc
    rw [h r c hr hc]
    unfold kinterp kval
    have e1 : ∀ a, ∑ b ∈ Finset.range (km.m ^ km.dim), (lag km rb.cb.t.cl a (km.x (ridx.v r)) : 𝕜) * km.kernel (knots km rb.cb.t.cl a) (knots km cb.cb.t.cl b) * (lag km cb.cb.t.cl b (km.x (cidx.v c)) : 𝕜) =
        (lag km rb.cb.t.cl a (km.x (ridx.v r)) : 𝕜) * km.kernel (knots km rb.cb.t.cl a) (fun d => km.x (cidx.v c) d) := by
      intro a
      rw [← interp_exact hn (kbasis_t h4).2 (hp.2 (knots km rb.cb.t.cl a)) (km.x (cidx.v c)), Finset.mul_sum]
      exact Finset.sum_congr rfl fun b _ => by
        show _ = _ * ((lag km cb.cb.t.cl b (km.x (cidx.v c)) : 𝕜) * km.kernel (knots km rb.cb.t.cl a) (knots km cb.cb.t.cl b))
        ring
    rw [Finset.sum_congr rfl fun a _ => e1 a]
    exact interp_exact hn (kbasis_t h3).2 (hp.1 fun d => km.x (cidx.v c) d) (km.x (ridx.v r))
  | full rb cb f =>
    intro _ _ _ _ _ _ h r c hr hc
    exact h r c hr hc
  | super rb cb m n son ih =>
    intro ho ht h1 h2 h3 h4 h r c hr hc
    have ho' := ho
    have ht' := ht
    obtain ⟨hm', hn', ⟨Rf, Cf, hRC, hR, hC⟩, hs⟩ := ho
    obtain ⟨t1, t2, t3⟩ := ht
    have sR := hR.segments hm' h1 fun i e => t1 i ⟨0, hn'⟩ ((hRC _ _).1.trans e)
    have sC := hC.segments hn' h2 fun j e => t2 ⟨0, hm'⟩ j ((hRC _ _).2.trans e)
    obtain ⟨i, hi⟩ := cover sR hr
    obtain ⟨j, hj⟩ := cover sC hc
    have kson : ∀ (cb : CBV ℝ 𝕜), KBasis km cb → ∀ i, KBasis km (cb.son i) := fun cb h i => by cases cb; exact h.2 i
    have hi' : In (son i j).rb.cb.t r := by rw [(hRC i j).1]; exact hi
    have hj' : In (son i j).cb.cb.t c := by rw [(hRC i j).2]; exact hj
    rw [h2vplace_son ho' ht' h1 h2 i j hi' hj']
    refine ih i j (hs i j) (t3 i j) ?_ ?_ ?_ ?_ (h i j) r c hi' hj'
    · rw [(hRC i j).1]; exact hR.inherit (P := CBVOk) (fun cb h i => h.son i) h1 i
    · rw [(hRC i j).2]; exact hC.inherit (P := CBVOk) (fun cb h i => h.son i) h2 j
    · rw [(hRC i j).1]; exact hR.inherit (P := KBasis km) kson h3 i
    · rw [(hRC i j).2]; exact hC.inherit (P := KBasis km) kson h4 j

end H2.Kern
