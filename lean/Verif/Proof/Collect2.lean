import Verif.Proof.Collect
import Verif.Proof.Harith
import Verif.Proof.BlockLower

/-! Best approximation, construction from dense matrices. -/

set_option linter.unusedSectionVars false

namespace H2
open Spec
variable {G 𝕜 : Type} [RCLike 𝕜]

/-- properties of bases that are inherited by sons -/
theorem _root_.H2.Spec.SonRefs.inherit {b : BRef G 𝕜} {n : Nat} {f : Fin n → BRef G 𝕜} (h : SonRefs b f) {P : CBV G 𝕜 → Prop} (hP : ∀ cb, P cb → ∀ i, P (cb.son i)) (hb : P b.cb) (i : Fin n) : P (f i).cb := by
  rcases h with h | ⟨e, h⟩
  · rw [h i]; exact hb
  · rw [h i]; exact hP _ hb _

theorem idxOk_son {idx : Arr Nat} {N : Nat} (cb : CBV G 𝕜) (h : CBVOk cb ∧ IdxOk idx cb.t N) (i : Fin cb.sons) : CBVOk (cb.son i) ∧ IdxOk idx (cb.son i).t N := by
  obtain ⟨h1, h2⟩ := h
  refine ⟨h1.son i, ?_⟩
  cases cb with
  | mk t k kt kb V E n son =>
    have hi : i.1 < n := i.2
    exact CBas.IdxOk.son h2 (h1.2.1 (by omega)) i

theorem ortho_son (cb : CBV G 𝕜) (h : CBVOk cb ∧ Orthonormal cb) (i : Fin cb.sons) : CBVOk (cb.son i) ∧ Orthonormal (cb.son i) := by
  refine ⟨h.1.son i, ?_⟩
  cases cb; exact h.2.2 i

theorem _root_.H2.Spec.SonRefs.segments {b : BRef G 𝕜} {n : Nat} {f : Fin n → BRef G 𝕜} (h : SonRefs b f) (hn : 0 < n) (ho : CBVOk b.cb) (ht : ∀ i, f i = b → n = 1) : Segments b.cb.t fun i => (f i).cb.t := by
  rcases h with h | ⟨e, h⟩
  · have h1 : n = 1 := ht ⟨0, hn⟩ (h _)
    subst h1
    have : (fun i => (f i).cb.t) = fun _ => b.cb.t := by funext i; rw [h i]
    rw [this]
    exact HMat.segments_self _
  · subst e
    have : (fun i => (f i).cb.t) = fun i => (b.cb.son i).t := by funext i; rw [h i]; rfl
    rw [this]
    obtain ⟨x, hx⟩ : ∃ x, x = b.cb := ⟨_, rfl⟩
    have hn' : 0 < b.cb.sons := hn
    rw [← hx] at ho hn' ⊢
    cases x
    exact ho.2.1 hn'

/-! ### represented matrices vanish outside their block -/

theorem h2vplace_out : ∀ {h : H2V G 𝕜}, H2VOk h → H2VTiles h → CBVOk h.rb.cb → CBVOk h.cb.cb → ∀ {r c : Nat}, ¬ (In h.rb.cb.t r ∧ In h.cb.cb.t c) → h2vplace h r c = 0 := by
  intro h
  induction h with
  | zero rb cb => intro _ _ _ _ r c _; rfl
  | uni rb cb S =>
    intro _ _ h1 h2 r c hn
    replace h1 : CBVOk rb.cb := h1
    replace h2 : CBVOk cb.cb := h2
    unfold h2vplace
    refine Finset.sum_eq_zero fun a _ => Finset.sum_eq_zero fun b _ => ?_
    by_cases hr : In rb.cb.t r
    · rw [vbasis_zero h2 b (fun hc => hn ⟨hr, hc⟩), star_zero, mul_zero]
    · rw [vbasis_zero h1 a hr, zero_mul, zero_mul]
  | full rb cb f =>
    intro _ _ _ _ r c hn
    exact if_neg hn
  | super rb cb m n son ih =>
    rintro ⟨hm, hn, ⟨Rf, Cf, hRC, hR, hC⟩, hs⟩ ⟨t1, t2, t3⟩ h1 h2 r c hout
    unfold h2vplace
    refine Finset.sum_eq_zero fun i _ => Finset.sum_eq_zero fun j _ => ?_
    have sR := hR.segments hm h1 fun i e => t1 i ⟨0, hn⟩ ((hRC _ _).1.trans e)
    have sC := hC.segments hn h2 fun j e => t2 ⟨0, hm⟩ j ((hRC _ _).2.trans e)
    refine ih i j (hs i j) (t3 i j) ?_ ?_ ?_
    · rw [(hRC i j).1]; exact hR.inherit (P := CBVOk) (fun cb h i => h.son i) h1 i
    · rw [(hRC i j).2]; exact hC.inherit (P := CBVOk) (fun cb h i => h.son i) h2 j
    · rw [(hRC i j).1, (hRC i j).2]
      exact fun h => hout ⟨In.son sR h.1, In.son sC h.2⟩

theorem h2vplace_son {rb cb : BRef G 𝕜} {m n : Nat} {son : Fin m → Fin n → H2V G 𝕜} (ho : H2VOk (.super rb cb m n son)) (ht : H2VTiles (.super rb cb m n son)) (h1 : CBVOk rb.cb) (h2 : CBVOk cb.cb)
    (i : Fin m) (j : Fin n) {r c : Nat} (hr : In (son i j).rb.cb.t r) (hc : In (son i j).cb.cb.t c) : h2vplace (.super rb cb m n son) r c = h2vplace (son i j) r c := by
  obtain ⟨hm, hn, ⟨Rf, Cf, hRC, hR, hC⟩, hs⟩ := ho
  obtain ⟨t1, t2, t3⟩ := ht
  have sR := hR.segments hm h1 fun i e => t1 i ⟨0, hn⟩ ((hRC _ _).1.trans e)
  have sC := hC.segments hn h2 fun j e => t2 ⟨0, hm⟩ j ((hRC _ _).2.trans e)
  have bR : ∀ i j, CBVOk (son i j).rb.cb := fun i j => by rw [(hRC i j).1]; exact hR.inherit (P := CBVOk) (fun cb h i => h.son i) h1 i
  have bC : ∀ i j, CBVOk (son i j).cb.cb := fun i j => by rw [(hRC i j).2]; exact hC.inherit (P := CBVOk) (fun cb h i => h.son i) h2 j
  rw [(hRC i j).1] at hr
  rw [(hRC i j).2] at hc
  rw [h2vplace, Finset.sum_eq_single i, Finset.sum_eq_single j]
  · intro j' _ hj
    refine h2vplace_out (hs i j') (t3 i j') (bR _ _) (bC _ _) fun h => hj ?_
    rw [(hRC i j').2] at h
    exact CBas.In.unique sC h.2 hc
  · exact fun h => absurd (Finset.mem_univ _) h
  · intro i' _ hi
    refine Finset.sum_eq_zero fun j' _ => h2vplace_out (hs i' j') (t3 i' j') (bR _ _) (bC _ _) fun h => hi ?_
    rw [(hRC i' j').1] at h
    exact CBas.In.unique sR h.1 hr
  · exact fun h => absurd (Finset.mem_univ _) h

theorem errSq_super {A : Nat → Nat → 𝕜} {rb cb : BRef G 𝕜} {m n : Nat} {son : Fin m → Fin n → H2V G 𝕜} (ho : H2VOk (.super rb cb m n son)) (ht : H2VTiles (.super rb cb m n son)) (h1 : CBVOk rb.cb) (h2 : CBVOk cb.cb) :
    errSq A (.super rb cb m n son) = ∑ i, ∑ j, errSq A (son i j) := by
  have ho' := ho
  have ht' := ht
  obtain ⟨hm, hn, ⟨Rf, Cf, hRC, hR, hC⟩, hs⟩ := ho
  obtain ⟨t1, t2, t3⟩ := ht
  have sR := hR.segments hm h1 fun i e => t1 i ⟨0, hn⟩ ((hRC _ _).1.trans e)
  have sC := hC.segments hn h2 fun j e => t2 ⟨0, hm⟩ j ((hRC _ _).2.trans e)
  generalize hF : (fun r c => ‖A r c - h2vplace (.super rb cb m n son) r c‖ ^ 2) = F
  have e1 : errSq A (.super rb cb m n son) = ∑ i ∈ Finset.range rb.cb.t.cl.size, (fun r => ∑ j ∈ Finset.range cb.cb.t.cl.size, F r (cb.cb.t.cl.off + j)) (rb.cb.t.cl.off + i) := by
    rw [← hF]; rfl
  rw [e1, sum_segments sR (fun r => ∑ j ∈ Finset.range cb.cb.t.cl.size, F r (cb.cb.t.cl.off + j))]
  beta_reduce
  refine Finset.sum_congr rfl fun i _ => ?_
  rw [Finset.sum_congr rfl fun r _ => sum_segments sC (F ((Rf i).cb.t.cl.off + r)), Finset.sum_comm]
  refine Finset.sum_congr rfl fun j _ => ?_
  unfold errSq
  rw [(hRC i j).1, (hRC i j).2]
  refine Finset.sum_congr rfl fun r hr => Finset.sum_congr rfl fun c hc => ?_
  rw [← hF]
  show ‖_ - h2vplace (.super rb cb m n son) _ _‖ ^ 2 = _
  rw [h2vplace_son ho' ht' h1 h2 i j]
  · rw [(hRC i j).1]; exact In.add (Finset.mem_range.mp hr)
  · rw [(hRC i j).2]; exact In.add (Finset.mem_range.mp hc)

theorem sameForm_refs {h h' : H2V G 𝕜} (h1 : SameForm h h') : h'.rb = h.rb ∧ h'.cb = h.cb := by
  cases h with
  | zero rb cb => rw [show h' = _ from h1]; exact ⟨rfl, rfl⟩
  | uni rb cb S => obtain ⟨S', rfl⟩ := h1; exact ⟨rfl, rfl⟩
  | full rb cb S => obtain ⟨S', rfl⟩ := h1; exact ⟨rfl, rfl⟩
  | super rb cb m n son => obtain ⟨S', rfl, -⟩ := h1; exact ⟨rfl, rfl⟩

theorem sameForm_tiles : ∀ {h h' : H2V G 𝕜}, SameForm h h' → H2VTiles h → H2VTiles h' := by
  intro h
  induction h with
  | zero rb cb => intro h' h1 _; rw [show h' = _ from h1]; trivial
  | uni rb cb S => intro h' h1 _; obtain ⟨S', rfl⟩ := h1; trivial
  | full rb cb S => intro h' h1 _; obtain ⟨S', rfl⟩ := h1; trivial
  | super rb cb m n son ih =>
    intro h' h1 h2
    obtain ⟨S', rfl, h3⟩ := h1
    exact ⟨fun i j e => h2.1 i j (by rw [← (sameForm_refs (h3 i j)).1]; exact e), fun i j e => h2.2.1 i j (by rw [← (sameForm_refs (h3 i j)).2]; exact e), fun i j => ih i j (h3 i j) (h2.2.2 i j)⟩

theorem errSq_nonneg (A : Nat → Nat → 𝕜) (h : H2V G 𝕜) : 0 ≤ errSq A h := Finset.sum_nonneg fun _ _ => Finset.sum_nonneg fun _ _ => by positivity

theorem errSq_zero {A : Nat → Nat → 𝕜} {h : H2V G 𝕜} : errSq A h = 0 ↔ ∀ r c, In h.rb.cb.t r → In h.cb.cb.t c → h2vplace h r c = A r c := by
  unfold errSq
  rw [Finset.sum_eq_zero_iff_of_nonneg fun _ _ => Finset.sum_nonneg fun _ _ => by positivity]
  constructor
  · intro h1 r c hr hc
    have h2 := h1 (r - h.rb.cb.t.cl.off) (Finset.mem_range.mpr (by unfold In at hr; omega))
    rw [Finset.sum_eq_zero_iff_of_nonneg fun _ _ => by positivity] at h2
    have h3 := h2 (c - h.cb.cb.t.cl.off) (Finset.mem_range.mpr (by unfold In at hc; omega))
    rw [show h.rb.cb.t.cl.off + (r - h.rb.cb.t.cl.off) = r by unfold In at hr; omega, show h.cb.cb.t.cl.off + (c - h.cb.cb.t.cl.off) = c by unfold In at hc; omega] at h3
    have h4 : A r c - h2vplace h r c = 0 := by simpa using h3
    exact (sub_eq_zero.mp h4).symm
  · intro h1 i hi
    refine Finset.sum_eq_zero fun j hj => ?_
    rw [h1 _ _ (In.add (Finset.mem_range.mp hi)) (In.add (Finset.mem_range.mp hj)), sub_self]
    simp

theorem projection_best {A : Nat → Nat → 𝕜} : ∀ {h : H2V G 𝕜}, H2VOk h → H2VTiles h → CBVOk h.rb.cb → CBVOk h.cb.cb → Orthonormal h.rb.cb → Orthonormal h.cb.cb → ProjectionOf A h →
    ∀ {h' : H2V G 𝕜}, SameForm h h' → H2VOk h' → errSq A h ≤ errSq A h' := by
  intro h
  induction h with
  | zero rb cb =>
    intro _ _ _ _ _ _ hp h' hf _
    rw [show h' = _ from hf]
  | uni rb cb S =>
    intro _ _ h1 h2 h3 h4 hp h' hf _
    obtain ⟨S', rfl⟩ := hf
    refine best_frob (B := fun i j => A (rb.cb.t.cl.off + i) (cb.cb.t.cl.off + j)) (V := fun i a => vbasis rb.cb (rb.cb.t.cl.off + i) a) (W := fun j b => vbasis cb.cb (cb.cb.t.cl.off + j) b) (S := S.e) (X := S'.e)
      (orthonormal_top h3) (orthonormal_top h4) hp.2.2
  | full rb cb f =>
    intro ho _ _ _ _ _ hp h' hf _
    have : errSq A (.full rb cb f) = 0 := errSq_zero.mpr fun r c hr hc => by
      replace hr : In rb.cb.t r := hr
      replace hc : In cb.cb.t c := hc
      unfold h2vplace
      rw [if_pos ⟨hr, hc⟩, hp.2.2 _ (by unfold In at hr; omega) _ (by unfold In at hc; omega)]
      congr 1 <;> unfold In at * <;> omega
    rw [this]
    exact errSq_nonneg _ _
  | super rb cb m n son ih =>
    intro ho ht h1 h2 h3 h4 hp h' hf ho'
    have ht' := sameForm_tiles hf ht
    obtain ⟨son', rfl, hf⟩ := hf
    rw [errSq_super ho ht h1 h2, errSq_super ho' ht' h1 h2]
    obtain ⟨hm, hn, ⟨Rf, Cf, hRC, hR, hC⟩, hs⟩ := ho
    refine Finset.sum_le_sum fun i _ => Finset.sum_le_sum fun j _ => ?_
    have k1 := hR.inherit (P := fun cb => CBVOk cb ∧ Orthonormal cb) ortho_son ⟨h1, h3⟩ i
    have k2 := hC.inherit (P := fun cb => CBVOk cb ∧ Orthonormal cb) ortho_son ⟨h2, h4⟩ j
    rw [← (hRC i j).1] at k1
    rw [← (hRC i j).2] at k2
    exact ih i j (hs i j) (ht.2.2 i j) k1.1 k2.1 k1.2 k2.2 (hp i j) (hf i j) (ho'.2.2.2 i j)

theorem projectDense_tot {ridx cidx : Arr Nat} {junk : Nat → 𝕜} {a : VMat 𝕜} : ∀ {h : H2V G 𝕜}, H2VOk h → NoZero h → CBVOk h.rb.cb ∧ IdxOk ridx h.rb.cb.t a.rows → CBVOk h.cb.cb ∧ IdxOk cidx h.cb.cb.t a.cols →
    Tot (H2V.projectDense ridx cidx junk a h) fun h' => ProjectionOf (fun r c => a.e (ridx.v r) (cidx.v c)) h' ∧ SameForm h h' := by
  intro h
  induction h with
  | zero rb cb => intro _ h _ _; exact h.elim
  | uni rb cb S =>
    intro ho _ h1 h2
    unfold H2V.projectDense
    refine Tot.bind (collectDense_tot h1.1 h1.2 h2.1 h2.2 ho.1 ho.2) ?_
    rintro S' - ⟨s1, s2, s3⟩
    exact Tot.pure ⟨⟨s1, s2, s3⟩, S', rfl⟩
  | full rb cb f =>
    intro ho _ h1 h2
    unfold H2V.projectDense
    refine Tot.cassert (by simpa using ho.1) (Tot.cassert (by simpa using ho.2) ?_)
    refine Tot.bind (gather_tot h1.2 h2.2 ho.1 ho.2) ?_
    rintro f' - ⟨s1, s2, s3⟩
    exact Tot.pure ⟨⟨s1, s2, s3⟩, f', rfl⟩
  | super rb cb m n son ih =>
    intro ho hz h1 h2
    obtain ⟨hm, hn, ⟨Rf, Cf, hRC, hR, hC⟩, hs⟩ := ho
    unfold H2V.projectDense
    refine Tot.bind (seqFin_tot (P := fun j (s : Fin m → H2V G 𝕜) => ∀ i, ProjectionOf (fun r c => a.e (ridx.v r) (cidx.v c)) (s i) ∧ SameForm (son i j) (s i)) fun j => ?_) fun s _ hs => Tot.pure ?_
    · refine seqFin_tot (P := fun i s => ProjectionOf (fun r c => a.e (ridx.v r) (cidx.v c)) s ∧ SameForm (son i j) s) fun i => ?_
      have k1 := hR.inherit (P := fun cb => CBVOk cb ∧ IdxOk ridx cb.t a.rows) idxOk_son h1 i
      have k2 := hC.inherit (P := fun cb => CBVOk cb ∧ IdxOk cidx cb.t a.cols) idxOk_son h2 j
      rw [← (hRC i j).1] at k1
      rw [← (hRC i j).2] at k2
      exact ih i j (hs i j) (hz i j) k1 k2
    · exact ⟨fun i j => (hs j i).1, _, rfl, fun i j => (hs j i).2⟩

/-! ### construction from a block tree -/

theorem fullBasis_sons {cb : CBV G 𝕜} (h : FullBasis cb) : cb.sons = cb.t.nsons := by cases cb; exact h.1.choose
theorem fullBasis_son {cb : CBV G 𝕜} (h : FullBasis cb) (i : Fin cb.sons) (h1 : i.1 < cb.t.nsons) : (cb.son i).t = cb.t.son ⟨i, h1⟩ ∧ FullBasis (cb.son i) := by
  cases cb
  obtain ⟨⟨e, h2⟩, h3⟩ := h
  exact ⟨h2 i, h3 i⟩

theorem cref_same_self (t : CRef G) : t.same t = true := by simp [CRef.same]
theorem cref_same_son (t : CRef G) (i : Fin t.nsons) : (t.son i).same t = false := by simp [CRef.same, CRef.son]

/-- everything that is needed of a basis in the construction -/
def BuildOk (idx : Arr Nat) (N : Nat) (t : CRef G) (b : BRef G 𝕜) : Prop := b.cb.t = t ∧ CBVOk b.cb ∧ IdxOk idx t N ∧ FullBasis b.cb

theorem BuildOk.son {idx : Arr Nat} {N : Nat} {t : CRef G} {b : BRef G 𝕜} (h : BuildOk idx N t b) (i : Fin t.nsons) : ∃ e : i.1 < b.cb.sons, BuildOk idx N (t.son i) (b.son ⟨i, e⟩) := by
  obtain ⟨h1, h2, h3, h4⟩ := h
  subst h1
  have e : i.1 < b.cb.sons := by rw [fullBasis_sons h4]; exact i.2
  obtain ⟨q1, q2⟩ := fullBasis_son h4 ⟨i, e⟩ i.2
  obtain ⟨k1, k2⟩ := idxOk_son b.cb ⟨h2, h3⟩ ⟨i, e⟩
  refine ⟨e, q1, k1, ?_, q2⟩
  rw [q1] at k2
  exact k2

theorem sonAt_ok {b : BRef G 𝕜} {i : Nat} (h : i < b.cb.sons) : b.sonAt i = .ok (b.son ⟨i, h⟩) := dif_pos h

theorem BuildOk.refs {idx : Arr Nat} {N : Nat} {t : CRef G} {b : BRef G 𝕜} (h : BuildOk idx N t b) : ∃ F : Fin t.nsons → BRef G 𝕜, SonRefs b F ∧ (∀ i : Fin t.nsons, b.sonAt i = .ok (F i) ∧ BuildOk idx N (t.son i) (F i) ∧ F i ≠ b) := by
  choose e he using fun i => h.son i
  refine ⟨fun i => b.son ⟨i, e i⟩, .inr ⟨?_, fun i => rfl⟩, fun i => ⟨sonAt_ok (e i), he i, bref_son_ne _ _⟩⟩
  rw [fullBasis_sons h.2.2.2, h.1]

theorem buildDense_tot {ridx cidx : Arr Nat} {junk : Nat → 𝕜} {a : VMat 𝕜} {rc cc : CRef G} {b : Block G} (hb : BlockTree rc cc b) : ∀ {rb cb : BRef G 𝕜}, BuildOk ridx a.rows rc rb → BuildOk cidx a.cols cc cb →
    Tot (H2V.buildDense ridx cidx junk a b rb cb) fun h => h.rb = rb ∧ h.cb = cb ∧ H2VOk h ∧ H2VTiles h ∧ FormOf b h ∧ ProjectionOf (fun r c => a.e (ridx.v r) (cidx.v c)) h := by
  have gen : ∀ {rc cc : CRef G} {adm : Bool} {d m n : Nat} {son : Fin m → Fin n → Block G} (hm : 0 < m) (hn : 0 < n) {rb cb : BRef G 𝕜} (_ : rb.cb.t = rc) (_ : cb.cb.t = cc)
      {Rf : Fin m → BRef G 𝕜} {Cf : Fin n → BRef G 𝕜} (_ : SonRefs rb Rf) (_ : SonRefs cb Cf) (_ : ∀ i, Rf i = rb → m = 1) (_ : ∀ j, Cf j = cb → n = 1)
      (_ : ∀ i : Fin m, (if (son ⟨0, hm⟩ ⟨0, hn⟩).rc.same rc then pure rb else rb.sonAt i) = Except.ok (Rf i)) (_ : ∀ j : Fin n, (if (son ⟨0, hm⟩ ⟨0, hn⟩).cc.same cc then pure cb else cb.sonAt j) = Except.ok (Cf j))
      (_ : ∀ i j, Tot (H2V.buildDense ridx cidx junk a (son i j) (Rf i) (Cf j)) fun h => h.rb = Rf i ∧ h.cb = Cf j ∧ H2VOk h ∧ H2VTiles h ∧ FormOf (son i j) h ∧ ProjectionOf (fun r c => a.e (ridx.v r) (cidx.v c)) h),
      Tot (H2V.buildDense ridx cidx junk a (.mk rc cc adm d m n son) rb cb) fun h => h.rb = rb ∧ h.cb = cb ∧ H2VOk h ∧ H2VTiles h ∧ FormOf (.mk rc cc adm d m n son) h ∧ ProjectionOf (fun r c => a.e (ridx.v r) (cidx.v c)) h := by
    intro rc cc adm d m n son hm hn rb cb ht ht' Rf Cf hR hC tR tC eR eC ih
    unfold H2V.buildDense
    rw [dif_pos ⟨hm, hn⟩]
    refine Tot.bind (seqFin_tot (P := fun j (s : Fin m → H2V G 𝕜) => ∀ i, (s i).rb = Rf i ∧ (s i).cb = Cf j ∧ H2VOk (s i) ∧ H2VTiles (s i) ∧ FormOf (son i j) (s i) ∧ ProjectionOf (fun r c => a.e (ridx.v r) (cidx.v c)) (s i)) fun j => ?_) fun s _ hs => Tot.pure ?_
    · rw [eC j, ok_bind]
      refine seqFin_tot (P := fun i (s : H2V G 𝕜) => s.rb = Rf i ∧ s.cb = Cf j ∧ H2VOk s ∧ H2VTiles s ∧ FormOf (son i j) s ∧ ProjectionOf (fun r c => a.e (ridx.v r) (cidx.v c)) s) fun i => ?_
      rw [eR i, ok_bind]
      exact ih i j
    · refine ⟨rfl, rfl, ⟨hm, hn, ⟨Rf, Cf, fun i j => ⟨(hs j i).1, (hs j i).2.1⟩, hR, hC⟩, fun i j => (hs j i).2.2.1⟩,
        ⟨fun i j e => tR i ((hs j i).1.symm.trans e), fun i j e => tC j ((hs j i).2.1.symm.trans e), fun i j => (hs j i).2.2.2.1⟩, ⟨ht, ht', ?_⟩, fun i j => (hs j i).2.2.2.2.2⟩
      rw [if_pos ⟨hm, hn⟩]
      exact ⟨_, rfl, fun i j => (hs j i).2.2.2.2.1⟩
  induction hb with
  | @leaf rc cc adm d son =>
    intro rb cb hr hc
    obtain ⟨r1, r2, r3, r4⟩ := hr
    obtain ⟨c1, c2, c3, c4⟩ := hc
    subst r1; subst c1
    unfold H2V.buildDense
    rw [dif_neg (fun h => absurd h.1 (Nat.lt_irrefl 0))]
    cases adm with
    | true =>
      rw [if_pos rfl]
      refine Tot.bind (collectDense_tot r2 r3 c2 c3 rfl rfl) ?_
      rintro S - ⟨s1, s2, s3⟩
      refine Tot.pure ⟨rfl, rfl, ⟨s1, s2⟩, trivial, ⟨rfl, rfl, ?_⟩, ⟨s1, s2, s3⟩⟩
      rw [if_neg (fun h => absurd h.1 (Nat.lt_irrefl 0)), if_pos rfl]
      exact ⟨S, rfl⟩
    | false =>
      rw [if_neg (by simp)]
      refine Tot.bind (gather_tot r3 c3 rfl rfl) ?_
      rintro f - ⟨s1, s2, s3⟩
      refine Tot.pure ⟨rfl, rfl, ⟨s1, s2⟩, trivial, ⟨rfl, rfl, ?_⟩, ⟨s1, s2, s3⟩⟩
      rw [if_neg (fun h => absurd h.1 (Nat.lt_irrefl 0)), if_neg (by simp)]
      exact ⟨f, rfl⟩
  | @both rc cc adm d son hm hn hs ih =>
    intro rb cb hr hc
    obtain ⟨Rf, R1, R2⟩ := hr.refs
    obtain ⟨Cf, C1, C2⟩ := hc.refs
    have e0 := blockTree_refs (hs ⟨0, hm⟩ ⟨0, hn⟩)
    refine gen hm hn hr.1 hc.1 R1 C1 (fun i e => absurd e (R2 i).2.2) (fun i e => absurd e (C2 i).2.2) (fun i => ?_) (fun j => ?_) fun i j => ih i j (R2 i).2.1 (C2 j).2.1
    · rw [e0.1, cref_same_son, if_neg (by simp)]; exact (R2 i).1
    · rw [e0.2, cref_same_son, if_neg (by simp)]; exact (C2 j).1
  | @rows rc cc adm d son hm hs ih =>
    intro rb cb hr hc
    obtain ⟨Rf, R1, R2⟩ := hr.refs
    have e0 := blockTree_refs (hs ⟨0, hm⟩ 0)
    refine gen hm Nat.one_pos hr.1 hc.1 R1 (Cf := fun _ => cb) (.inl fun _ => rfl) (fun i e => absurd e (R2 i).2.2) (fun _ _ => rfl) (fun i => ?_) (fun j => ?_) fun i j => ih i j (R2 i).2.1 hc
    · rw [show (⟨0, Nat.one_pos⟩ : Fin 1) = 0 from rfl, e0.1, cref_same_son, if_neg (by simp)]; exact (R2 i).1
    · rw [show (⟨0, Nat.one_pos⟩ : Fin 1) = 0 from rfl, e0.2, cref_same_self, if_pos rfl]; rfl
  | @cols rc cc adm d son hn hs ih =>
    intro rb cb hr hc
    obtain ⟨Cf, C1, C2⟩ := hc.refs
    have e0 := blockTree_refs (hs 0 ⟨0, hn⟩)
    refine gen Nat.one_pos hn hr.1 hc.1 (Rf := fun _ => rb) (.inl fun _ => rfl) C1 (fun _ _ => rfl) (fun i e => absurd e (C2 i).2.2) (fun i => ?_) (fun j => ?_) fun i j => ih i j hr (C2 j).2.1
    · rw [show (⟨0, Nat.one_pos⟩ : Fin 1) = 0 from rfl, e0.1, cref_same_self, if_pos rfl]; rfl
    · rw [show (⟨0, Nat.one_pos⟩ : Fin 1) = 0 from rfl, e0.2, cref_same_son, if_neg (by simp)]; exact (C2 j).1

end H2
