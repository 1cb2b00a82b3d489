import Verif.Proof.Collect2

/-! Projection of H-matrices. -/

set_option linter.unusedSectionVars false

namespace H2
open Spec
variable {G 𝕜 : Type} [RCLike 𝕜]

theorem in_seg {t : CRef G} {r : Nat} : In t r ↔ r ∈ seg t := by rw [mem_seg]; rfl

/-- in the block of a son -/
theorem hval_son {t s : CRef G} {m n : Nat} {son : Fin m → Fin n → HV G 𝕜} (ho : HVOk (.super t s m n son)) (i : Fin m) (j : Fin n) {r c : Nat}
    (hr : In (son i j).rc r) (hc : In (son i j).cc c) : hval (.super t s m n son) r c = hval (son i j) r c ∧ In t r ∧ In s c := by
  obtain ⟨-, -, ⟨Rf, Cf, hRC, hR, hC⟩, hs⟩ := ho
  rw [(hRC i j).1] at hr
  rw [(hRC i j).2] at hc
  refine ⟨?_, In.son hR hr, In.son hC hc⟩
  rw [hval_super, Finset.sum_eq_single i, Finset.sum_eq_single j]
  · intro j' _ hj
    refine hval_out (hs i j') fun h => hj ?_
    rw [(hRC i j').2] at h
    exact CBas.In.unique hC (in_seg.mpr h.2) hc
  · exact fun h => absurd (Finset.mem_univ _) h
  · intro i' _ hi
    refine Finset.sum_eq_zero fun j' _ => hval_out (hs i' j') fun h => hi ?_
    rw [(hRC i' j').1] at h
    exact CBas.In.unique hR (in_seg.mpr h.1) hr
  · exact fun h => absurd (Finset.mem_univ _) h

/-- the coupling matrix of a low-rank matrix -/
theorem coupling_rk {rb cb : CBV G 𝕜} {A : Nat → Nat → 𝕜} {x : VRk 𝕜} (hA : ∀ r c, In rb.t r → In cb.t c → A r c = rkVal x (r - rb.t.cl.off) (c - cb.t.cl.off)) (a b : Nat) :
    coupling rb cb A a b = ∑ nu ∈ Finset.range x.k, (∑ r ∈ Finset.range rb.t.cl.size, star (vbasis rb (rb.t.cl.off + r) a) * x.A.e r nu) *
      star (∑ r ∈ Finset.range cb.t.cl.size, star (vbasis cb (cb.t.cl.off + r) b) * x.B.e r nu) := by
  unfold coupling
  have h1 : ∀ i ∈ Finset.range rb.t.cl.size, ∀ j ∈ Finset.range cb.t.cl.size, star (vbasis rb (rb.t.cl.off + i) a) * A (rb.t.cl.off + i) (cb.t.cl.off + j) * vbasis cb (cb.t.cl.off + j) b =
      ∑ nu ∈ Finset.range x.k, (star (vbasis rb (rb.t.cl.off + i) a) * x.A.e i nu) * (vbasis cb (cb.t.cl.off + j) b * star (x.B.e j nu)) := by
    intro i hi j hj
    rw [hA _ _ (In.add (Finset.mem_range.mp hi)) (In.add (Finset.mem_range.mp hj)), Nat.add_sub_cancel_left, Nat.add_sub_cancel_left]
    unfold rkVal
    rw [Finset.mul_sum, Finset.sum_mul]
    exact Finset.sum_congr rfl fun nu _ => by ring
  rw [Finset.sum_congr rfl fun i hi => Finset.sum_congr rfl fun j hj => h1 i hi j hj]
  rw [Finset.sum_congr rfl fun i _ => Finset.sum_comm, Finset.sum_comm]
  refine Finset.sum_congr rfl fun nu _ => ?_
  rw [star_sum, Finset.sum_mul_sum]
  exact Finset.sum_congr rfl fun i _ => Finset.sum_congr rfl fun j _ => by rw [star_mul', star_star]

/-- everything that is needed of a basis for compressing low-rank matrices -/
def CompOk (cb : CBV G 𝕜) : Prop := CBVOk cb ∧ VCounts cb ∧ CBVSons cb
theorem compOk_son (cb : CBV G 𝕜) (h : CompOk cb) (i : Fin cb.sons) : CompOk (cb.son i) := ⟨h.1.son i, h.2.1.son i, h.2.2.son i⟩

theorem branch_le {cb : CBV G 𝕜} (h : VCounts cb) : cb.k ≤ cb.kbranch := by rw [h.branch]; exact vBranch_k cb

/-- both factors are compressed, and the product is added to `S` -/
theorem rkStep {junk : Nat → 𝕜} {x : VRk 𝕜} (hx : RkOk x) {rb cb : CBV G 𝕜} (hr : CompOk rb) (hc : CompOk cb) (h1 : x.A.rows = rb.t.cl.size) (h2 : x.B.rows = cb.t.cl.size)
    {A : Nat → Nat → 𝕜} (hA : ∀ r c, In rb.t r → In cb.t c → A r c = rkVal x (r - rb.t.cl.off) (c - cb.t.cl.off)) :
    ∃ At Bt Ac Bc, CBV.compress rb x.A ⟨rb.kbranch, x.k, fun i j => junk (i + j)⟩ = .ok At ∧ CBV.compress cb x.B ⟨cb.kbranch, x.k, fun i j => junk (i + j)⟩ = .ok Bt ∧
      At.sub rb.k 0 x.k 0 = .ok Ac ∧ Bt.sub cb.k 0 x.k 0 = .ok Bc ∧
      Tot (VMat.addmul 1 false Ac true Bc (VMat.zero rb.k cb.k)) fun S => S.rows = rb.k ∧ S.cols = cb.k ∧ ∀ a < rb.k, ∀ b < cb.k, S.e a b = coupling rb cb A a b := by
  obtain ⟨At, e1, a1, a2, a3⟩ := compress_tot (Xp := x.A) (Xt := ⟨rb.kbranch, x.k, fun i j => junk (i + j)⟩) hr.1 hr.2.1 hr.2.2 h1 le_rfl hx.1
  obtain ⟨Bt, e2, b1, b2, b3⟩ := compress_tot (Xp := x.B) (Xt := ⟨cb.kbranch, x.k, fun i j => junk (i + j)⟩) hc.1 hc.2.1 hc.2.2 h2 le_rfl hx.2
  replace a1 : At.rows = rb.kbranch := a1
  replace a2 : At.cols = x.k := a2
  replace b1 : Bt.rows = cb.kbranch := b1
  replace b2 : Bt.cols = x.k := b2
  have hkr := branch_le hr.2.1
  have hkc := branch_le hc.2.1
  refine ⟨At, Bt, _, _, e1, e2, HV.sub_tot (by omega) (by omega), HV.sub_tot (by omega) (by omega), ?_⟩
  refine Tot.mono (HV.addmul_tot (alpha := 1) (c := VMat.zero rb.k cb.k) rfl rfl rfl) ?_
  rintro Y ⟨y1, y2, y3⟩
  refine ⟨y1, y2, fun a ha b hb => ?_⟩
  rw [y3 a ha b hb, coupling_rk hA]
  simp only [VMat.zero, VMat.ocols, VMat.oe, Bool.false_eq_true, if_false, if_true, one_mul, zero_add]
  refine Finset.sum_congr rfl fun nu hnu => ?_
  rw [a3 a ha nu (Finset.mem_range.mp hnu), b3 b hb nu (Finset.mem_range.mp hnu)]

theorem projectH_tot {junk : Nat → 𝕜} : ∀ {h2 : H2V G 𝕜} {h : HV G 𝕜} {A : Nat → Nat → 𝕜}, H2VOk h2 → HVOk h → HMatch h2 h → CompOk h2.rb.cb → CompOk h2.cb.cb →
    (∀ r c, In h2.rb.cb.t r → In h2.cb.cb.t c → A r c = hval h r c) → Tot (H2V.projectH junk h2 h) fun h' => ProjectionOf A h' ∧ SameForm h2 h' := by
  intro h2
  induction h2 with
  | zero rb cb => intro h A _ _ hm _ _ _; exact hm.elim
  | uni rb cb S =>
    intro h A ho hv hm h1 h2 hA
    obtain ⟨x, rfl⟩ := hm
    obtain ⟨At, Bt, Ac, Bc, e1, e2, e3, e4, h5⟩ := rkStep (junk := junk) hv.1 h1 h2 hv.2.1 hv.2.2 (A := A) (fun r c hr hc => by
      rw [hA r c hr hc, hval_rk, if_pos ⟨in_seg.mp hr, in_seg.mp hc⟩]; rfl)
    unfold H2V.projectH
    replace e1 : CBV.compress rb.cb x.A ⟨rb.cb.kbranch, x.k, fun i j => junk (i + j)⟩ = .ok At := e1
    replace e2 : CBV.compress cb.cb x.B ⟨cb.cb.kbranch, x.k, fun i j => junk (i + j)⟩ = .ok Bt := e2
    simp only []
    rw [e1, ok_bind, show At.sub rb.cb.k 0 x.k 0 = .ok Ac from e3, ok_bind, e2, ok_bind, show Bt.sub cb.cb.k 0 x.k 0 = .ok Bc from e4, ok_bind, ho.1, ho.2]
    refine Tot.bind h5 ?_
    rintro S' - ⟨s1, s2, s3⟩
    exact Tot.pure ⟨⟨s1, s2, s3⟩, S', rfl⟩
  | full rb cb f =>
    intro h A ho hv hm h1 h2 hA
    obtain ⟨hf, rfl⟩ := hm
    unfold H2V.projectH
    simp only []
    have hv1 : hf.rows = rb.cb.t.cl.size := hv.1
    have hv2 : hf.cols = cb.cb.t.cl.size := hv.2
    rw [HV.copy_tot (show hf.orows false = f.rows by rw [ho.1, ← hv1]; rfl) (show hf.ocols false = f.cols by rw [ho.2, ← hv2]; rfl), ok_bind]
    refine Tot.pure ⟨⟨ho.1, ho.2, fun i hi j hj => ?_⟩, _, rfl⟩
    show hf.e i j = _
    replace hA : ∀ r c, In rb.cb.t r → In cb.cb.t c → A r c = hval (HV.full rb.cb.t cb.cb.t hf) r c := hA
    rw [hA _ _ (In.add hi) (In.add hj), hval_full, if_pos ⟨in_seg.mp (In.add hi), in_seg.mp (In.add hj)⟩, Nat.add_sub_cancel_left, Nat.add_sub_cancel_left]
  | super rb cb m n son ih =>
    intro h A ho hv hm h1 h2 hA
    obtain ⟨hson, rfl, hm⟩ := hm
    obtain ⟨hm0, hn0, ⟨Rf, Cf, hRC, hR, hC⟩, hs⟩ := ho
    unfold H2V.projectH
    simp only []
    have hrefs : ∀ {x : H2V G 𝕜} {y : HV G 𝕜}, HMatch x y → y.rc = x.rb.cb.t ∧ y.cc = x.cb.cb.t := by
      intro x y hxy
      cases x with
      | zero => exact hxy.elim
      | uni => obtain ⟨z, rfl⟩ := hxy; exact ⟨rfl, rfl⟩
      | full => obtain ⟨z, rfl⟩ := hxy; exact ⟨rfl, rfl⟩
      | super => obtain ⟨z, rfl, -⟩ := hxy; exact ⟨rfl, rfl⟩
    refine Tot.bind (seqFin_tot (P := fun j (s : Fin m → H2V G 𝕜) => ∀ i, ProjectionOf A (s i) ∧ SameForm (son i j) (s i)) fun j => ?_) fun s _ hs => Tot.pure ?_
    · refine seqFin_tot (P := fun i s => ProjectionOf A s ∧ SameForm (son i j) s) fun i => ?_
      have q1 : (i.1 + j.1 * m) % m = i.1 := by rw [Nat.add_mul_mod_self_right, Nat.mod_eq_of_lt i.2]
      have q2 : (i.1 + j.1 * m) / m = j.1 := by rw [Nat.add_mul_div_right _ _ hm0, Nat.div_eq_of_lt i.2, Nat.zero_add]
      rw [dif_pos ⟨by rw [q1]; exact i.2, by rw [q2]; exact j.2⟩]
      have q3 : hson ⟨(i.1 + j.1 * m) % m, by rw [q1]; exact i.2⟩ ⟨(i.1 + j.1 * m) / m, by rw [q2]; exact j.2⟩ = hson i j := by
        congr 1 <;> exact Fin.ext (by assumption)
      rw [q3]
      have k1 := hR.inherit compOk_son h1 i
      have k2 := hC.inherit compOk_son h2 j
      rw [← (hRC i j).1] at k1
      rw [← (hRC i j).2] at k2
      refine ih i j (hs i j) (hv.2.2.2 i j) (hm i j) k1 k2 fun r c hr hc => ?_
      obtain ⟨g1, g2⟩ := hrefs (hm i j)
      obtain ⟨f1, f2, f3⟩ := hval_son hv i j (by rw [g1]; exact hr) (by rw [g2]; exact hc)
      rw [hA r c f2 f3, f1]
    · exact ⟨fun i j => (hs j i).1, _, rfl, fun i j => (hs j i).2⟩

/-! ### construction from an H-matrix -/

/-- everything that is needed of a basis -/
def HBuildOk (t : CRef G) (b : BRef G 𝕜) : Prop := b.cb.t = t ∧ CompOk b.cb ∧ FullBasis b.cb

theorem HBuildOk.refs {t : CRef G} {b : BRef G 𝕜} (h : HBuildOk t b) : ∃ F : Fin t.nsons → BRef G 𝕜, SonRefs b F ∧ (∀ i : Fin t.nsons, b.sonAt i = .ok (F i) ∧ HBuildOk (t.son i) (F i) ∧ F i ≠ b) := by
  obtain ⟨h1, h2, h4⟩ := h
  subst h1
  have e : ∀ i : Fin b.cb.t.nsons, i.1 < b.cb.sons := fun i => by rw [fullBasis_sons h4]; exact i.2
  refine ⟨fun i => b.son ⟨i, e i⟩, .inr ⟨?_, fun i => rfl⟩, fun i => ⟨sonAt_ok (e i), ?_, bref_son_ne _ _⟩⟩
  · rw [fullBasis_sons h4]
  · obtain ⟨q1, q2⟩ := fullBasis_son h4 ⟨i, e i⟩ i.2
    exact ⟨q1, compOk_son _ h2 ⟨i, e i⟩, q2⟩

theorem buildH_tot {junk : Nat → 𝕜} : ∀ {h : HV G 𝕜}, HVOk h → HVSons h → ∀ {rb cb : BRef G 𝕜} {A : Nat → Nat → 𝕜}, HBuildOk h.rc rb → HBuildOk h.cc cb →
    (∀ r c, In h.rc r → In h.cc c → A r c = hval h r c) →
    Tot (H2V.buildH junk h rb cb) fun h' => h'.rb = rb ∧ h'.cb = cb ∧ H2VOk h' ∧ H2VTiles h' ∧ HBuilt h h' ∧ ProjectionOf A h' := by
  intro h
  induction h with
  | rk rc cc x =>
    intro hv _ rb cb A hr hc hA
    obtain ⟨r1, r2, r3⟩ := hr
    obtain ⟨c1, c2, c3⟩ := hc
    replace r1 : rb.cb.t = rc := r1
    replace c1 : cb.cb.t = cc := c1
    subst r1; subst c1
    have hA' : ∀ r c, In rb.cb.t r → In cb.cb.t c → A r c = rkVal x (r - rb.cb.t.cl.off) (c - cb.cb.t.cl.off) := fun r c hr hc => by
      rw [hA r c hr hc, hval_rk, if_pos ⟨in_seg.mp hr, in_seg.mp hc⟩]
    unfold H2V.buildH
    refine Tot.cassert (cref_same_self _) (Tot.cassert (cref_same_self _) ?_)
    by_cases hk : x.k = 0
    · rw [if_neg (by rw [hv.1.1, hk]; simp)]
      refine Tot.pure ⟨rfl, rfl, trivial, trivial, ⟨rfl, rfl, ?_⟩, fun r c hr hc => ?_⟩
      · rw [if_pos hk]; rfl
      · rw [hA' r c hr hc]; unfold rkVal; rw [hk]; simp
    · rw [if_pos (by rw [hv.1.1]; omega)]
      obtain ⟨At, Bt, Ac, Bc, e1, e2, e3, e4, h5⟩ := rkStep (junk := junk) hv.1 r2 c2 hv.2.1 hv.2.2 hA'
      unfold addRkUniform
      rw [cassert_true (by simp [hv.1.1, hv.1.2]), ok_bind]
      simp only []
      rw [hv.1.1, e1, ok_bind, e2, ok_bind, e3, ok_bind, e4, ok_bind]
      refine Tot.bind h5 ?_
      rintro S - ⟨s1, s2, s3⟩
      refine Tot.pure ⟨rfl, rfl, ⟨s1, s2⟩, trivial, ⟨rfl, rfl, ?_⟩, ⟨s1, s2, s3⟩⟩
      rw [if_neg hk]
      exact ⟨S, rfl⟩
  | full rc cc f =>
    intro hv _ rb cb A hr hc hA
    obtain ⟨r1, r2, r3⟩ := hr
    obtain ⟨c1, c2, c3⟩ := hc
    replace r1 : rb.cb.t = rc := r1
    replace c1 : cb.cb.t = cc := c1
    subst r1; subst c1
    unfold H2V.buildH
    refine Tot.cassert (cref_same_self _) (Tot.cassert (cref_same_self _) ?_)
    rw [HV.copy_tot (show f.orows false = _ from hv.1) (show f.ocols false = _ from hv.2), ok_bind]
    refine Tot.pure ⟨rfl, rfl, ⟨rfl, rfl⟩, trivial, ⟨rfl, rfl, _, rfl⟩, ⟨rfl, rfl, fun i hi j hj => ?_⟩⟩
    show f.e i j = _
    replace hA : ∀ r c, In rb.cb.t r → In cb.cb.t c → A r c = hval (HV.full rb.cb.t cb.cb.t f) r c := hA
    rw [hA _ _ (In.add hi) (In.add hj), hval_full, if_pos ⟨in_seg.mp (In.add hi), in_seg.mp (In.add hj)⟩, Nat.add_sub_cancel_left, Nat.add_sub_cancel_left]
  | super rc cc m n son ih =>
    intro hv hs rb cb A hr hc hA
    have r1 : rb.cb.t = rc := hr.1
    have c1 : cb.cb.t = cc := hc.1
    replace hr : HBuildOk rc rb := hr
    replace hc : HBuildOk cc cb := hc
    obtain ⟨hm, hn, hrows, hcols, hss⟩ := hs
    have kR : ∃ Rf : Fin m → BRef G 𝕜, SonRefs rb Rf ∧ (∀ i, Rf i = rb → m = 1) ∧ ∀ i, (∀ j, HBuildOk (son i j).rc (Rf i)) ∧ ∀ j, (if (son i j).rc.same rb.cb.t then pure rb else rb.sonAt i) = Except.ok (Rf i) := by
      rcases hrows with ⟨g1, g2⟩ | ⟨e, g1⟩
      · refine ⟨fun _ => rb, .inl fun _ => rfl, fun _ _ => g2, fun i => ⟨fun j => by rw [g1]; exact hr, fun j => ?_⟩⟩
        rw [g1, r1, cref_same_self, if_pos rfl]; rfl
      · subst e
        obtain ⟨Rf, R1, R2⟩ := hr.refs
        refine ⟨Rf, R1, fun i e => absurd e (R2 i).2.2, fun i => ⟨fun j => by rw [g1]; exact (R2 i).2.1, fun j => ?_⟩⟩
        rw [g1, r1, cref_same_son, if_neg (by simp)]; exact (R2 i).1
    have kC : ∃ Cf : Fin n → BRef G 𝕜, SonRefs cb Cf ∧ (∀ j, Cf j = cb → n = 1) ∧ ∀ j, (∀ i, HBuildOk (son i j).cc (Cf j)) ∧ ∀ i, (if (son i j).cc.same cb.cb.t then pure cb else cb.sonAt j) = Except.ok (Cf j) := by
      rcases hcols with ⟨g1, g2⟩ | ⟨e, g1⟩
      · refine ⟨fun _ => cb, .inl fun _ => rfl, fun _ _ => g2, fun j => ⟨fun i => by rw [g1]; exact hc, fun i => ?_⟩⟩
        rw [g1, c1, cref_same_self, if_pos rfl]; rfl
      · subst e
        obtain ⟨Cf, C1, C2⟩ := hc.refs
        refine ⟨Cf, C1, fun i e => absurd e (C2 i).2.2, fun j => ⟨fun i => by rw [g1]; exact (C2 j).2.1, fun i => ?_⟩⟩
        rw [g1, c1, cref_same_son, if_neg (by simp)]; exact (C2 j).1
    obtain ⟨Rf, R1, R2, R3⟩ := kR
    obtain ⟨Cf, C1, C2, C3⟩ := kC
    unfold H2V.buildH
    refine Tot.cassert (by rw [r1]; exact cref_same_self _) (Tot.cassert (by rw [c1]; exact cref_same_self _) ?_)
    refine Tot.bind (seqFin_tot (P := fun j (s : Fin m → H2V G 𝕜) => ∀ i, (s i).rb = Rf i ∧ (s i).cb = Cf j ∧ H2VOk (s i) ∧ H2VTiles (s i) ∧ HBuilt (son i j) (s i) ∧ ProjectionOf A (s i)) fun j => ?_) fun s _ hs => Tot.pure ?_
    · rw [dif_pos hm, (C3 j).2 ⟨0, hm⟩, ok_bind]
      refine seqFin_tot (P := fun i (s : H2V G 𝕜) => s.rb = Rf i ∧ s.cb = Cf j ∧ H2VOk s ∧ H2VTiles s ∧ HBuilt (son i j) s ∧ ProjectionOf A s) fun i => ?_
      rw [dif_pos hn, (R3 i).2 ⟨0, hn⟩, ok_bind]
      refine ih i j (hv.2.2.2 i j) (hss i j) ((R3 i).1 j) ((C3 j).1 i) fun r c hr hc => ?_
      obtain ⟨f1, f2, f3⟩ := hval_son hv i j hr hc
      rw [hA r c f2 f3, f1]
    · exact ⟨rfl, rfl, ⟨hm, hn, ⟨Rf, Cf, fun i j => ⟨(hs j i).1, (hs j i).2.1⟩, R1, C1⟩, fun i j => (hs j i).2.2.1⟩,
        ⟨fun i j e => R2 i ((hs j i).1.symm.trans e), fun i j e => C2 j ((hs j i).2.1.symm.trans e), fun i j => (hs j i).2.2.2.1⟩,
        ⟨r1, c1, _, rfl, fun i j => (hs j i).2.2.2.2.1⟩, fun i j => (hs j i).2.2.2.2.2⟩

end H2
