import Verif.Proof.TruncBasis6
import Verif.Spec.LocalWeights

set_option linter.unusedSectionVars false

namespace H2.TB
open Spec Svd
variable {G 𝕜 : Type} [RCLike 𝕜]

/-- `A S B^*` -/
def trip (k1 k2 : Nat) (A S B : Nat → Nat → 𝕜) (i j : Nat) : 𝕜 := ∑ a ∈ Finset.range k1, ∑ b ∈ Finset.range k2, A i a * S a b * star (B j b)

theorem trip_matVec (k1 k2 q : Nat) (A S B : Nat → Nat → 𝕜) (x : Nat → 𝕜) :
    matVec q (trip k1 k2 A S B) x = matVec k1 A (fun a => ∑ b ∈ Finset.range k2, S a b * ∑ j ∈ Finset.range q, star (B j b) * x j) := by
  funext i
  unfold matVec trip
  simp only [Finset.sum_mul, Finset.mul_sum]
  rw [Finset.sum_comm]
  refine Finset.sum_congr rfl fun a _ => ?_
  rw [Finset.sum_comm]
  refine Finset.sum_congr rfl fun b _ => Finset.sum_congr rfl fun j _ => by ring

theorem trip_star (k1 k2 : Nat) (A S B : Nat → Nat → 𝕜) (i j : Nat) : star (trip k1 k2 A S B j i) = trip k2 k1 B (fun b a => star (S a b)) A i j := by
  unfold trip
  rw [star_sum]
  simp only [star_sum]
  rw [Finset.sum_comm]
  refine Finset.sum_congr rfl fun b _ => Finset.sum_congr rfl fun a _ => ?_
  rw [star_mul', star_mul', star_star]
  ring

theorem normOf_left {frob : Bool} {p p' q : Nat} {M N : Nat → Nat → 𝕜} (h : ∀ x, vecSq p (matVec q M x) = vecSq p' (matVec q N x)) : normOf frob p q M = normOf frob p' q N := by
  unfold normOf
  split
  · congr 1
    unfold frobSq
    refine Finset.sum_congr rfl fun j hj => ?_
    have := h fun l => if l = j then 1 else 0
    rwa [matVec_unit M (Finset.mem_range.mp hj), matVec_unit N (Finset.mem_range.mp hj)] at this
  · congr 1
    ext c
    simp only [Set.mem_setOf_eq, SpecBound, h]

theorem normOf_adj {frob : Bool} {p q : Nat} {M : Nat → Nat → 𝕜} : normOf frob p q M = normOf frob q p (fun i j => star (M j i)) := by
  unfold normOf
  split
  · congr 1
    unfold frobSq vecSq
    rw [Finset.sum_comm]
    simp only [norm_star]
  · congr 1
    ext c
    exact ⟨fun h => ⟨h.1, spec_adj (sq_nonneg c) h.2⟩, fun h => ⟨h.1, spec_adj' (sq_nonneg c) h.2⟩⟩

theorem normOf_congr {frob : Bool} {p q : Nat} {M N : Nat → Nat → 𝕜} (h : ∀ i < p, ∀ j < q, M i j = N i j) : normOf frob p q M = normOf frob p q N := by
  refine normOf_left fun x => vecSq_congr fun i hi => ?_
  unfold matVec
  exact Finset.sum_congr rfl fun j hj => by rw [h i hi j (Finset.mem_range.mp hj)]

theorem normOf_trip {frob : Bool} {p p' q q' k1 k2 : Nat} {A A' S B B' : Nat → Nat → 𝕜} (hA : ∀ x, en k1 p A x = en k1 p' A' x) (hB : ∀ x, en k2 q B x = en k2 q' B' x) :
    normOf frob p q (trip k1 k2 A S B) = normOf frob p' q' (trip k1 k2 A' S B') := by
  rw [normOf_left (N := trip k1 k2 A' S B) (p' := p') fun x => by rw [trip_matVec, trip_matVec]; exact hA _, normOf_adj,
    normOf_adj (p := p')]
  simp only [trip_star]
  exact normOf_left fun x => by rw [trip_matVec, trip_matVec]; exact hB _

/-- the matrix of the basis of a cluster -/
def vb (cb : CBV G 𝕜) (i a : Nat) : 𝕜 := vbasis cb (cb.t.cl.off + i) a

/-- the entry of the array is a weight for the basis -/
def WNode (cb : CBV G 𝕜) (nd : OpNode G 𝕜) : Prop := nd.C.rows = nd.krow ∧ nd.C.cols = cb.k ∧ ∀ x, en cb.k nd.krow nd.C.e x = en cb.k cb.t.cl.size (vb cb) x

theorem frob_normOf (M : VMat 𝕜) : CBV.frob M = normOf true M.rows M.cols M.e := rfl

theorem fastBlock_tot {rb cb : CBV G 𝕜} {rw cw : OpNode G 𝕜} {S : VMat 𝕜} (hr : WNode rb rw) (hc : WNode cb cw) (h1 : S.rows = rb.k) (h2 : S.cols = cb.k) :
    Tot (fastBlock (some rw) (some cw) S rb.k cb.k) fun M => M.rows = rw.krow ∧ M.cols = cw.krow ∧ ∀ i < M.rows, ∀ j < M.cols, M.e i j = trip rb.k cb.k rw.C.e S.e cw.C.e i j := by
  unfold fastBlock
  refine Tot.bind (HV.addmul_tot (by simp [VMat.ocols, VMat.orows, hr.2.1, h1]) (by simp [VMat.zero, VMat.orows, hr.1]) (by simp [VMat.zero, VMat.ocols, h2])) ?_
  rintro ur - ⟨a1, a2, a3⟩
  replace a1 : ur.rows = rw.krow := a1
  replace a2 : ur.cols = cb.k := a2
  refine (HV.addmul_tot (by simp [VMat.ocols, VMat.orows, hc.2.1, a2]) (by simp [VMat.zero, VMat.orows, a1]) (by simp [VMat.zero, VMat.ocols, hc.1])).mono ?_
  rintro M ⟨b1, b2, b3⟩
  replace b1 : M.rows = rw.krow := b1
  replace b2 : M.cols = cw.krow := b2
  refine ⟨b1, b2, fun i hi j hj => ?_⟩
  rw [b3 i (by rw [b1] at hi; exact hi) j (by rw [b2] at hj; exact hj)]
  simp only [VMat.zero, VMat.ocols, VMat.oe, Bool.false_eq_true, if_false, if_true, one_mul, zero_add, a2]
  unfold trip
  rw [Finset.sum_comm]
  refine Finset.sum_congr rfl fun b hb => ?_
  rw [a3 i (by rw [b1] at hi; exact hi) b (Finset.mem_range.mp hb)]
  simp only [VMat.zero, VMat.ocols, VMat.oe, Bool.false_eq_true, if_false, one_mul, zero_add, hr.2.1]
  rw [Finset.sum_mul]

theorem blockAlpha_tot {env : LWEnv 𝕜} {tm : Option CMode} (hn : ExactNorm env tm) {rb cb : CBV G 𝕜} {rw cw : OpNode G 𝕜} {S : VMat 𝕜} (hr : WNode rb rw) (hc : WNode cb cw)
    (h1 : S.rows = rb.k) (h2 : S.cols = cb.k) :
    Tot (blockAlpha env tm (some rw) (some cw) S rb.k cb.k) fun a => a = blockScale tm rb cb S := by
  unfold blockAlpha blockScale
  cases tm with
  | none => exact Tot.pure rfl
  | some m =>
    simp only
    by_cases hb : m.blocks = true
    · rw [if_pos hb]
      refine Tot.bind (fastBlock_tot hr hc h1 h2) ?_
      rintro M - ⟨a1, a2, a3⟩
      refine Tot.pure ?_
      have key : (if m.mode.frobenius = true then CBV.frob M else env.norm2 M) = normOf m.mode.frobenius rb.t.cl.size cb.t.cl.size (blockMat rb cb S) := by
        have : (if m.mode.frobenius = true then CBV.frob M else env.norm2 M) = normOf m.mode.frobenius M.rows M.cols M.e := by
          by_cases hf : m.mode.frobenius = true
          · rw [if_pos hf, hf]; rfl
          · rw [if_neg hf, hn m rfl hb (by simpa using hf), show m.mode.frobenius = false by simpa using hf]
        rw [this, normOf_congr a3, a1, a2, normOf_trip hr.2.2 hc.2.2]
        rfl
      rw [key]
      by_cases h0 : 0 < normOf m.mode.frobenius rb.t.cl.size cb.t.cl.size (blockMat rb cb S)
      · rw [if_pos h0, if_pos ⟨hb, h0⟩]
      · rw [if_neg h0, if_neg (fun h => h0 h.2)]
    · rw [if_neg hb, if_neg (fun h => hb h.1)]
      exact Tot.pure rfl

/-- the entry of the array has the dimensions of the basis -/
def DNode (cb : CBV G 𝕜) (nd : OpNode G 𝕜) : Prop := nd.t = cb.t ∧ nd.kcol = cb.k ∧ nd.C.rows = nd.krow ∧ nd.C.cols = cb.k

theorem lowerBlock_tot {alpha : ℝ} {tr : Bool} {bw : OpNode G 𝕜} {S : VMat 𝕜} {k1 k : Nat} (h1 : bw.C.rows = bw.krow) (h2 : bw.C.cols = k1) (h3 : S.orows tr = k1) (h4 : S.ocols tr = k) :
    Tot (lowerBlock alpha tr (some bw) S k1 k) fun W => W.rows = bw.krow ∧ W.cols = k ∧
      ∀ x, en k W.rows W.e x = alpha ^ 2 * en k1 bw.krow bw.C.e (fun b => ∑ a ∈ Finset.range k, S.oe tr b a * x a) := by
  unfold lowerBlock
  refine (HV.addmul_tot (by rw [h3]; simpa [VMat.ocols] using h2) (by simp [VMat.zero, VMat.orows, h1]) (by simp [VMat.zero, h4])).mono ?_
  rintro Y ⟨a1, a2, a3⟩
  refine ⟨a1, a2, fun x => ?_⟩
  rw [show Y.rows = bw.krow from a1]
  unfold en vecSq
  rw [Finset.mul_sum]
  refine Finset.sum_congr rfl fun i hi => ?_
  have : matVec k Y.e x i = (alpha : 𝕜) * matVec k1 bw.C.e (fun b => ∑ a ∈ Finset.range k, S.oe tr b a * x a) i := by
    unfold matVec
    rw [Finset.mul_sum]
    simp only [Finset.mul_sum]
    rw [Finset.sum_comm]
    refine Finset.sum_congr rfl fun a ha => ?_
    rw [a3 i (Finset.mem_range.mp hi) a (Finset.mem_range.mp ha)]
    simp only [VMat.zero, VMat.ocols, Bool.false_eq_true, if_false, zero_add, h2]
    rw [Finset.mul_sum, Finset.sum_mul]
    refine Finset.sum_congr rfl fun b _ => ?_
    simp only [VMat.oe, Bool.false_eq_true, if_false]
    ring
  rw [this, norm_mul, mul_pow, RCLike.norm_ofReal, sq_abs]

theorem addWeight_tot {env : TrEnv 𝕜} (he : ExactEnv env) {alpha : ℝ} {tr : Bool} {lw bw : OpNode G 𝕜} {S : VMat 𝕜} {k1 : Nat} {cb : CBV G 𝕜} (hl : DNode cb lw)
    (h1 : bw.C.rows = bw.krow) (h2 : bw.C.cols = k1) (h3 : S.orows tr = k1) (h4 : S.ocols tr = cb.k) :
    Tot (addWeight env.toQrEnv alpha tr lw (some bw) S k1 cb.k) fun nd => DNode cb nd ∧ ∀ x, en cb.k nd.krow nd.C.e x = en cb.k lw.krow lw.C.e x +
      alpha ^ 2 * en k1 bw.krow bw.C.e (fun b => ∑ a ∈ Finset.range cb.k, S.oe tr b a * x a) := by
  unfold addWeight
  refine Tot.bind (lowerBlock_tot h1 h2 h3 h4) ?_
  rintro W1 - ⟨a1, a2, a3⟩
  refine Tot.bind (P := fun (W : VMat 𝕜) => W.cols = cb.k ∧ ∀ x, en cb.k W.rows W.e x = en cb.k lw.krow lw.C.e x + en cb.k W1.rows W1.e x) ?_ ?_
  · split
    · next hk =>
      refine Tot.cassert (by simpa using hl.2.1) ?_
      refine (stack2_tot hl.2.2.1 hl.2.2.2 rfl a2).mono ?_
      rintro X ⟨b1, b2, b3⟩
      refine ⟨b2, fun x => ?_⟩
      rw [b1]
      exact en_stack b3 x
    · next hk =>
      refine Tot.pure ⟨a2, fun x => ?_⟩
      have : lw.krow = 0 := by omega
      rw [this, show en cb.k 0 lw.C.e x = 0 by unfold en vecSq; simp, zero_add]
  · rintro W - ⟨b1, b2⟩
    refine Tot.bind (weight_en he W) ?_
    rintro C - ⟨c1, c2⟩
    refine Tot.pure ⟨⟨hl.1, rfl, rfl, c1.trans b1⟩, fun x => ?_⟩
    rw [b1] at c2
    show en cb.k C.rows C.e x = _
    rw [c2, b2, a3]

/-- the array `A'` is the array `A` with the contributions `f` added -/
def Adds (A A' : OpArr G 𝕜) (f : List Nat → (Nat → 𝕜) → ℝ) : Prop :=
  ∀ p, (A p = none → A' p = none) ∧ ∀ nd, A p = some nd → ∃ nd', A' p = some nd' ∧ nd'.t = nd.t ∧ nd'.kcol = nd.kcol ∧ nd'.C.cols = nd.C.cols ∧
    (nd.C.rows = nd.krow → nd'.C.rows = nd'.krow) ∧ ∀ x, en nd.C.cols nd'.krow nd'.C.e x = en nd.C.cols nd.krow nd.C.e x + f p x

theorem Adds.refl {A : OpArr G 𝕜} {f : List Nat → (Nat → 𝕜) → ℝ} (h : ∀ p x, f p x = 0) : Adds A A f :=
  fun p => ⟨id, fun nd hn => ⟨nd, hn, rfl, rfl, rfl, id, fun x => by rw [h, add_zero]⟩⟩

theorem Adds.trans {A B C : OpArr G 𝕜} {f g : List Nat → (Nat → 𝕜) → ℝ} (h1 : Adds A B f) (h2 : Adds B C g) : Adds A C (fun p x => f p x + g p x) := by
  refine fun p => ⟨fun hn => (h2 p).1 ((h1 p).1 hn), fun nd hn => ?_⟩
  obtain ⟨nd1, a1, a2, a3, a4, a5, a6⟩ := (h1 p).2 nd hn
  obtain ⟨nd2, b1, b2, b3, b4, b5, b6⟩ := (h2 p).2 nd1 a1
  refine ⟨nd2, b1, b2.trans a2, b3.trans a3, b4.trans a4, fun h => b5 (a5 h), fun x => ?_⟩
  rw [a4] at b6
  rw [b6, a6, add_assoc]

theorem Adds.congr {A B : OpArr G 𝕜} {f g : List Nat → (Nat → 𝕜) → ℝ} (h1 : Adds A B f) (h : ∀ p x, f p x = g p x) : Adds A B g := by
  rwa [show g = f from funext fun p => funext fun x => (h p x).symm]

/-- the array has entries for all clusters of the basis -/
def HasD : CBV G 𝕜 → OpArr G 𝕜 → Prop
  | .mk t k kt kb V E n son, A => (∃ nd, A [] = some nd ∧ DNode (.mk t k kt kb V E n son) nd) ∧ ∀ i : Fin n, HasD (son i) (fun p => A (i.1 :: p))

/-- the array contains weights for all clusters of the basis -/
def HasW : CBV G 𝕜 → OpArr G 𝕜 → Prop
  | .mk t k kt kb V E n son, A => (∃ nd, A [] = some nd ∧ WNode (.mk t k kt kb V E n son) nd) ∧ ∀ i : Fin n, HasW (son i) (fun p => A (i.1 :: p))

theorem HasD.root {cb : CBV G 𝕜} {A : OpArr G 𝕜} (h : HasD cb A) : ∃ nd, A [] = some nd ∧ DNode cb nd := by cases cb; exact h.1
theorem HasW.root {cb : CBV G 𝕜} {A : OpArr G 𝕜} (h : HasW cb A) : ∃ nd, A [] = some nd ∧ WNode cb nd := by cases cb; exact h.1
theorem HasD.son {cb : CBV G 𝕜} {A : OpArr G 𝕜} (h : HasD cb A) (i : Fin cb.sons) : HasD (cb.son i) (fun p => A (i.1 :: p)) := by cases cb; exact h.2 i
theorem HasW.son {cb : CBV G 𝕜} {A : OpArr G 𝕜} (h : HasW cb A) (i : Fin cb.sons) : HasW (cb.son i) (fun p => A (i.1 :: p)) := by cases cb; exact h.2 i

theorem HasD.adds : ∀ {cb : CBV G 𝕜} {A B : OpArr G 𝕜} {f : List Nat → (Nat → 𝕜) → ℝ}, HasD cb A → Adds A B f → HasD cb B := by
  intro cb
  induction cb with
  | mk t k kt kb V E n son ih =>
    intro A B f h ha
    obtain ⟨⟨nd, h1, h2⟩, h3⟩ := h
    obtain ⟨nd', a1, a2, a3, a4, a5, -⟩ := (ha []).2 nd h1
    exact ⟨⟨nd', a1, a2.trans h2.1, a3.trans h2.2.1, a5 h2.2.2.1, a4.trans h2.2.2.2⟩, fun i => ih i (h3 i) (f := fun p => f (i.1 :: p)) fun p => ha (i.1 :: p)⟩

end H2.TB
