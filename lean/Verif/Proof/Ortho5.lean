import Verif.Proof.Ortho4

set_option linter.unusedSectionVars false

namespace H2
open Spec Dense Matrix
variable {G 𝕜 : Type} [RCLike 𝕜]

/-! ### products of bases -/

theorem _root_.H2.Spec.VCounts.branch {cb : CBV G 𝕜} (h : VCounts cb) : cb.kbranch = vBranch cb := by cases cb; exact h.2.1
theorem vBranch_k (cb : CBV G 𝕜) : cb.k ≤ vBranch cb := by
  cases cb
  unfold vBranch
  exact Nat.le_add_right _ _

theorem vglue_e (X Y : VMat 𝕜) (r c i j : Nat) : (X.glue r c Y).e i j = if (r ≤ i ∧ i < r + Y.rows) ∧ c ≤ j ∧ j < c + Y.cols then Y.e (i - r) (j - c) else X.e i j := by
  unfold VMat.glue
  by_cases h : (r ≤ i ∧ i < r + Y.rows) ∧ c ≤ j ∧ j < c + Y.cols
  · rw [if_pos h]; exact if_pos ⟨h.1.1, h.1.2, h.2.1, h.2.2⟩
  · rw [if_neg h]; exact if_neg fun h' => h ⟨⟨h'.1, h'.2.1⟩, h'.2.2.1, h'.2.2.2⟩

theorem compress_tot : ∀ {cb : CBV G 𝕜}, CBVOk cb → VCounts cb → CBVSons cb → ∀ {Xp Xt : VMat 𝕜}, Xp.rows = cb.t.cl.size → cb.kbranch ≤ Xt.rows → Xp.cols = Xt.cols →
    Tot (CBV.compress cb Xp Xt) fun X => X.rows = Xt.rows ∧ X.cols = Xt.cols ∧
      ∀ a < cb.k, ∀ l < Xt.cols, X.e a l = ∑ r ∈ Finset.range cb.t.cl.size, star (vbasis cb (cb.t.cl.off + r) a) * Xp.e r l := by
  intro cb
  induction cb with
  | mk t k kt kb V E n son ih =>
    intro ho hc hs Xp Xt h1 h2 h3
    replace h1 : Xp.rows = t.cl.size := h1
    replace h2 : kb ≤ Xt.rows := h2
    have hkb : kb = k + (if n = 0 then t.cl.size else Finset.univ.sup fun i => vBranch (son i)) := by
      have := hc.2.1
      unfold vBranch at this
      exact this
    unfold CBV.compress
    refine Tot.cassert (by rw [decide_eq_true_eq]; omega) (Tot.cassert (by rw [decide_eq_true_eq]; omega) ?_)
    rw [vsub_ok (by omega) (by omega), ok_bind]
    simp only
    obtain ⟨X0, hX0⟩ : ∃ X0, X0 = Xt.glue 0 0 (VMat.zero k Xt.cols) := ⟨_, rfl⟩
    rw [← hX0]
    have hr0 : X0.rows = Xt.rows := by rw [hX0]; rfl
    have hc0 : X0.cols = Xt.cols := by rw [hX0]; rfl
    have he0 : ∀ a < k, ∀ l < Xt.cols, X0.e a l = 0 := fun a ha l hl => by
      rw [hX0, vglue_e, if_pos ⟨⟨Nat.zero_le _, by simpa [VMat.zero] using ha⟩, Nat.zero_le _, by simpa [VMat.zero] using hl⟩]; rfl
    by_cases hn : 0 < n
    · rw [if_pos hn]
      rw [if_neg (by omega)] at hkb
      have hseg := ho.2.1 hn
      obtain ⟨en, hes⟩ := hs.1 hn
      have hsz : ∀ i : Fin n, (t.son (Fin.cast en i)).cl.size = (son i).t.cl.size := fun i => by rw [hes]
      refine Tot.bind (foldFinM_tot (fun s (st : VMat 𝕜 × Nat) => st.1.rows = Xt.rows ∧ st.1.cols = Xt.cols ∧ st.2 = pre (fun i => (son i).t.cl.size) s ∧
        ∀ a < k, ∀ l < Xt.cols, st.1.e a l = pre (fun i => ∑ r ∈ Finset.range (son i).t.cl.size, star (vbasis (.mk t k kt kb V E n son) ((son i).t.cl.off + r) a) *
          Xp.e (ofs (fun i => (son i).t.cl.size) i + r) l) s) ⟨hr0, hc0, by rw [pre_zero], fun a ha l hl => by rw [pre_zero, he0 a ha l hl]⟩ ?_) ?_
      · rintro i ⟨X, off⟩ ⟨g1, g2, g3, g4⟩
        simp only at g1 g2 g3 g4 ⊢
        rw [dif_pos (show i.1 < t.nsons by rw [← en]; exact i.2)]
        have hsz' : (t.son ⟨i.1, by rw [← en]; exact i.2⟩).cl.size = (son i).t.cl.size := hsz i
        rw [hsz']
        have hle : pre (fun i => (son i).t.cl.size) i.1 + (son i).t.cl.size ≤ t.cl.size := by
          rw [← hseg.2]; exact pre_le (fun i => (son i).t.cl.size) i
        rw [vsub_ok (by omega) (by omega), ok_bind]
        have hbr : k + (son i).kbranch ≤ Xt.rows := by
          rw [(hc.2.2 i).branch]
          have : vBranch (son i) ≤ Finset.univ.sup fun i => vBranch (son i) := Finset.le_sup (f := fun i => vBranch (son i)) (Finset.mem_univ i)
          omega
        have hkk : (son i).k ≤ (son i).kbranch := by rw [(hc.2.2 i).branch]; exact vBranch_k _
        rw [vsub_ok (by omega) (by omega), ok_bind]
        refine Tot.bind (ih i (ho.2.2 i).2.2 (hc.2.2 i) (hs.2 i) rfl le_rfl (show Xp.cols = X.cols by omega)) fun Y _ hY => ?_
        obtain ⟨y1, y2, y3⟩ := hY
        simp only at y1 y2 y3 ⊢
        have hgr : (X.glue k 0 Y).rows = X.rows := rfl
        rw [vsub_ok (by omega) (by omega), ok_bind, vsub_ok (by omega) (by omega), ok_bind]
        have heg : (X.glue k 0 Y).cols = X.cols := rfl
        rw [heg]
        refine Tot.bind (HV.addmul_tot (c := ⟨k, X.cols, fun i j => (X.glue k 0 Y).e (0 + i) (0 + j)⟩) (alpha := 1)
          (show VMat.ocols true (son i).E = VMat.orows false ⟨(son i).k, X.cols, fun i j => (X.glue k 0 Y).e (k + i) (0 + j)⟩ by simp [VMat.ocols, VMat.orows, (ho.2.2 i).1])
          (show k = VMat.orows true (son i).E by simp [VMat.orows, (ho.2.2 i).2.1]) (show X.cols = VMat.ocols false ⟨(son i).k, X.cols, fun i j => (X.glue k 0 Y).e (k + i) (0 + j)⟩ by simp [VMat.ocols]))
          fun Z _ hZ => Tot.pure ?_
        obtain ⟨z1, z2, z3⟩ := hZ
        simp only at z1 z2 z3 ⊢
        refine ⟨g1, g2, by rw [g3, pre_succ (fun i => (son i).t.cl.size)], fun a ha l hl => ?_⟩
        rw [vglue_e, if_pos ⟨⟨Nat.zero_le _, by omega⟩, Nat.zero_le _, by omega⟩, Nat.sub_zero, Nat.sub_zero, z3 a ha l (by omega), pre_succ]
        have e1 : (X.glue k 0 Y).e (0 + a) (0 + l) = X.e a l := by
          rw [Nat.zero_add, Nat.zero_add, vglue_e, if_neg (by omega)]
        rw [e1, g4 a ha l hl]
        congr 1
        simp only [VMat.ocols, VMat.oe, Bool.false_eq_true, if_false, if_true, one_mul]
        rw [(ho.2.2 i).1]
        rw [Finset.sum_congr rfl fun nu hnu => by
          have hnu := Finset.mem_range.mp hnu
          rw [Nat.zero_add, vglue_e, if_pos ⟨⟨Nat.le_add_right _ _, by omega⟩, Nat.zero_le _, by omega⟩, Nat.add_sub_cancel_left, Nat.sub_zero, y3 nu hnu l (by omega), Finset.mul_sum]]
        rw [Finset.sum_comm]
        refine Finset.sum_congr rfl fun r hr => ?_
        rw [vbasis_son ho i (In.add (Finset.mem_range.mp hr)) a, star_sum, Finset.sum_mul]
        refine Finset.sum_congr rfl fun nu _ => ?_
        rw [star_mul', Nat.zero_add, g3, ofs_eq]
        ring
      · rintro ⟨X, off⟩ - ⟨g1, g2, g3, g4⟩
        simp only at g1 g2 g3 g4 ⊢
        refine Tot.cassert (by rw [decide_eq_true_eq, g3, pre_all, hseg.2]) (Tot.pure ⟨g1, g2, fun a ha l hl => ?_⟩)
        rw [g4 a ha l hl, pre_all]
        show _ = ∑ r ∈ Finset.range t.cl.size, (fun r => star (vbasis (.mk t k kt kb V E n son) (t.cl.off + r) a) * Xp.e r l) r
        rw [← hseg.2, sum_concat (fun i => (son i).t.cl.size)]
        refine Finset.sum_congr rfl fun i _ => Finset.sum_congr rfl fun r _ => ?_
        have := hseg.1 i
        rw [this, Nat.add_assoc]
        rfl
    · have hn0 : n = 0 := by omega
      subst hn0
      rw [if_neg (by omega)]
      obtain ⟨hv1, hv2⟩ := ho.1 rfl
      rw [vsub_ok (by omega) (by omega), ok_bind]
      refine Tot.bind (HV.addmul_tot (c := ⟨k, X0.cols, fun i j => X0.e (0 + i) (0 + j)⟩) (alpha := 1) (show VMat.ocols true V = VMat.orows false Xp by simp [VMat.ocols, VMat.orows, hv1, h1])
          (show k = VMat.orows true V by simp [VMat.orows, hv2]) (show X0.cols = VMat.ocols false Xp by simp [VMat.ocols, hc0, h3])) fun Z _ hZ => Tot.pure ?_
      obtain ⟨z1, z2, z3⟩ := hZ
      simp only at z1 z2 z3 ⊢
      refine ⟨hr0, hc0, fun a ha l hl => ?_⟩
      replace ha : a < k := ha
      rw [vglue_e, if_pos ⟨⟨Nat.zero_le _, by omega⟩, Nat.zero_le _, by omega⟩, Nat.sub_zero, Nat.sub_zero, z3 a ha l (by omega), Nat.zero_add, Nat.zero_add, he0 a ha l hl]
      simp only [VMat.ocols, VMat.oe, Bool.false_eq_true, if_false, if_true, one_mul, zero_add]
      rw [hv1]
      refine Finset.sum_congr rfl fun r hr => ?_
      rw [vbasis_leaf, show (CBV.mk t k kt kb V E 0 son).t = t from rfl, if_pos (show In t (t.cl.off + r) from In.add (Finset.mem_range.mp hr)), Nat.add_sub_cancel_left]

theorem _root_.H2.Spec.CBVOk.son {cb : CBV G 𝕜} (h : CBVOk cb) (i : Fin cb.sons) : CBVOk (cb.son i) := by cases cb; exact (h.2.2 i).2.2
theorem _root_.H2.Spec.CBVOk.erows {cb : CBV G 𝕜} (h : CBVOk cb) (i : Fin cb.sons) : (cb.son i).E.rows = (cb.son i).k := by cases cb; exact (h.2.2 i).1
theorem _root_.H2.Spec.CBVOk.ecols {cb : CBV G 𝕜} (h : CBVOk cb) (i : Fin cb.sons) : (cb.son i).E.cols = cb.k := by cases cb; exact (h.2.2 i).2.1
theorem _root_.H2.Spec.VCounts.son {cb : CBV G 𝕜} (h : VCounts cb) (i : Fin cb.sons) : VCounts (cb.son i) := by cases cb; exact h.2.2 i
theorem _root_.H2.Spec.CBVSons.son {cb : CBV G 𝕜} (h : CBVSons cb) (i : Fin cb.sons) : CBVSons (cb.son i) := by cases cb; exact h.2 i

theorem cross_leaf_left {cb cb' : CBV G 𝕜} (ho : CBVOk cb) (h : cb.sons = 0) (a b : Nat) : cross cb cb' a b =
    ∑ r ∈ Finset.range cb.t.cl.size, star (cb.V.e r a) * vbasis cb' (cb.t.cl.off + r) b := by
  unfold cross
  refine Finset.sum_congr rfl fun r hr => ?_
  cases cb with
  | mk t k kt kb V E n son =>
    replace h : n = 0 := h
    subst h
    rw [vbasis_leaf, show (CBV.mk t k kt kb V E 0 son).t = t from rfl, if_pos (show In t (t.cl.off + r) from In.add (Finset.mem_range.mp hr)), Nat.add_sub_cancel_left]
    rfl

theorem cross_leaf_right {cb cb' : CBV G 𝕜} (h : cb'.sons = 0) (ht : cb'.t = cb.t) (a b : Nat) : cross cb cb' a b =
    ∑ r ∈ Finset.range cb.t.cl.size, star (vbasis cb (cb.t.cl.off + r) a) * cb'.V.e r b := by
  unfold cross
  refine Finset.sum_congr rfl fun r hr => ?_
  cases cb' with
  | mk t k kt kb V E n son =>
    replace h : n = 0 := h
    subst h
    rw [vbasis_leaf, ← ht, show (CBV.mk t k kt kb V E 0 son).t = t from rfl, if_pos (In.add (by have := Finset.mem_range.mp hr; rw [← ht] at this; exact this)), Nat.add_sub_cancel_left]
    rfl

theorem _root_.H2.Spec.CBVOk.V {cb : CBV G 𝕜} (h : CBVOk cb) (h0 : cb.sons = 0) : cb.V.rows = cb.t.cl.size ∧ cb.V.cols = cb.k := by cases cb; exact h.1 h0

theorem _root_.H2.Spec.ProdTree.t {cb cb' : CBV G 𝕜} {pr : COp G 𝕜} (h : ProdTree cb cb' pr) : cb.t = pr.t ∧ cb'.t = pr.t := by
  cases pr
  unfold ProdTree at h
  exact ⟨h.1, h.2.1⟩

theorem _root_.H2.Spec.Products.dims {cb cb' : CBV G 𝕜} {pr : COp G 𝕜} (h : Products cb cb' pr) : pr.C.rows = cb.k ∧ pr.C.cols = cb'.k ∧ ∀ a < cb.k, ∀ b < cb'.k, pr.C.e a b = cross cb cb' a b := by
  cases pr
  unfold Products at h
  exact ⟨h.2.2.1, h.2.2.2.1, h.2.2.2.2.1⟩

/-- the product of two bases with sons -/
theorem cross_sons {cb cb' : CBV G 𝕜} (hn : 0 < cb.sons) (e : cb'.sons = cb.sons) (ho : CBVOk cb) (ho' : CBVOk cb') (ht : ∀ i, (cb'.son (Fin.cast e.symm i)).t = (cb.son i).t) (a b : Nat) :
    cross cb cb' a b = ∑ i, ∑ nu ∈ Finset.range (cb.son i).k, ∑ mu ∈ Finset.range (cb'.son (Fin.cast e.symm i)).k,
      star ((cb.son i).E.e nu a) * cross (cb.son i) (cb'.son (Fin.cast e.symm i)) nu mu * (cb'.son (Fin.cast e.symm i)).E.e mu b := by
  cases cb with
  | mk t k kt kb V E n son =>
    cases cb' with
    | mk t' k' kt' kb' V' E' n' son' =>
      replace e : n' = n := e
      subst e
      exact cross_node hn ho ho' ht a b

theorem basisproduct_tot {junk : Nat → 𝕜} : ∀ {cb : CBV G 𝕜}, CBVOk cb → VCounts cb → CBVSons cb → ∀ {cb' : CBV G 𝕜}, CBVOk cb' → VCounts cb' → CBVSons cb' →
    ∀ {pr : COp G 𝕜}, ProdTree cb cb' pr → Tot (CBV.basisproduct junk cb cb' pr) (Products cb cb') := by
  intro cb
  induction cb with
  | mk t1 k1 kt1 kb1 V1 E1 n1 son1 ih =>
    intro ho hc hs cb' ho' hc' hs' pr hp
    obtain ⟨cb, hcb⟩ : ∃ cb, cb = CBV.mk t1 k1 kt1 kb1 V1 E1 n1 son1 := ⟨_, rfl⟩
    cases pr with
    | mk t kr kc C0 n son =>
      unfold ProdTree at hp
      obtain ⟨p1, p2, p3, p4, p5⟩ := hp
      replace p1 : t1 = t := p1
      subst p1
      unfold CBV.basisproduct
      refine Tot.cassert (by simp [CRef.same]) (Tot.cassert (by simp [CRef.same, p2]) ?_)
      by_cases hn : 0 < n
      · rw [if_pos hn]
        obtain ⟨e1, e2⟩ := p4 hn
        replace e1 : n1 = n := e1
        subst e1
        refine Tot.cassert (by simp) (Tot.cassert (by simpa using e2) ?_)
        have hpt : ∀ i : Fin n1, ProdTree (son1 i) (cb'.son (Fin.cast e2.symm i)) (son i) := fun i => by
          obtain ⟨h, h', h3⟩ := p5 i
          exact h3
        refine Tot.bind (seqFin_tot (P := fun i : Fin n1 => Products (son1 i) (cb'.son (Fin.cast e2.symm i))) fun i => ?_) fun r _ hr => ?_
        · rw [dif_pos ⟨by rw [e2]; exact i.2, i.2⟩]
          exact ih i (ho.2.2 i).2.2 (hc.2.2 i) (hs.2 i) (ho'.son _) (hc'.son _) (hs'.son _) (hpt i)
        refine Tot.bind (foldFinM_tot (fun s (C : VMat 𝕜) => C.rows = k1 ∧ C.cols = cb'.k ∧ ∀ a < k1, ∀ b < cb'.k, C.e a b = pre (fun i : Fin n1 => ∑ nu ∈ Finset.range (son1 i).k,
          ∑ mu ∈ Finset.range (cb'.son (Fin.cast e2.symm i)).k, star ((son1 i).E.e nu a) * cross (son1 i) (cb'.son (Fin.cast e2.symm i)) nu mu * (cb'.son (Fin.cast e2.symm i)).E.e mu b) s)
          ⟨rfl, rfl, fun a _ b _ => by rw [pre_zero]; rfl⟩ ?_) fun C _ hC => Tot.pure ?_
        · rintro i C ⟨c1, c2, c3⟩
          rw [dif_pos (show i.1 < cb'.sons by rw [e2]; exact i.2)]
          obtain ⟨d1, d2, d3⟩ := (hr i).dims
          have f1 := ho'.erows (Fin.cast e2.symm i)
          have f2 := ho'.ecols (Fin.cast e2.symm i)
          have es : cb'.son ⟨i.1, by rw [e2]; exact i.2⟩ = cb'.son (Fin.cast e2.symm i) := rfl
          rw [es]
          refine Tot.bind (HV.addmul_tot (show VMat.ocols false (r i).C = VMat.orows false (cb'.son (Fin.cast e2.symm i)).E by simp [VMat.ocols, VMat.orows, d2, f1])
            (show (son1 i).k = VMat.orows false (r i).C by simp [VMat.orows, d1]) (show cb'.k = VMat.ocols false (cb'.son (Fin.cast e2.symm i)).E by simp [VMat.ocols, f2])) fun X _ hX => ?_
          obtain ⟨x1, x2, x3⟩ := hX
          replace x1 : X.rows = (son1 i).k := x1
          replace x2 : X.cols = cb'.k := x2
          refine Tot.mono (HV.addmul_tot (c := C) (alpha := 1) (show VMat.ocols true (son1 i).E = VMat.orows false X by simp [VMat.ocols, VMat.orows, x1, (ho.2.2 i).1])
            (show C.rows = VMat.orows true (son1 i).E by simp [VMat.orows, c1, (ho.2.2 i).2.1]) (show C.cols = VMat.ocols false X by simp [VMat.ocols, c2, x2])) ?_
          rintro Z ⟨z1, z2, z3⟩
          refine ⟨z1.trans c1, z2.trans c2, fun a ha b hb => ?_⟩
          rw [z3 a (by omega) b (by omega), c3 a ha b hb, pre_succ]
          congr 1
          simp only [VMat.ocols, VMat.oe, Bool.false_eq_true, if_false, if_true, one_mul]
          rw [(ho.2.2 i).1]
          refine Finset.sum_congr rfl fun nu hnu => ?_
          have hnu := Finset.mem_range.mp hnu
          rw [x3 nu hnu b hb]
          simp only [VMat.zero, VMat.ocols, VMat.oe, Bool.false_eq_true, if_false, one_mul, zero_add]
          rw [Finset.mul_sum, d2]
          refine Finset.sum_congr rfl fun mu hmu => ?_
          rw [d3 nu hnu mu (Finset.mem_range.mp hmu)]
          ring
        · obtain ⟨c1, c2, c3⟩ := hC
          unfold Products
          refine ⟨rfl, rfl, c1, c2, fun a ha b hb => ?_, fun i => ⟨i.2, by rw [e2]; exact i.2, hr i⟩⟩
          rw [c3 a ha b hb, pre_all]
          exact (cross_sons (cb := CBV.mk t1 k1 kt1 kb1 V1 E1 n1 son1) hn e2 ho ho' (fun i => by
            have := (hpt i).t
            exact this.2.trans this.1.symm) a b).symm
      · have hn0 : n = 0 := by omega
        subst hn0
        rw [if_neg (by omega)]
        have hsz : cb'.t.cl.size = t1.cl.size := by rw [p2]
        by_cases h1 : n1 = 0
        · rw [if_pos h1]
          have v1 := ho.V h1
          replace v1 : V1.rows = t1.cl.size ∧ V1.cols = k1 := v1
          by_cases h2 : cb'.sons = 0
          · rw [if_pos h2]
            have v2 := ho'.V h2
            refine Tot.bind (HV.addmul_tot (show VMat.ocols true V1 = VMat.orows false cb'.V by simp [VMat.ocols, VMat.orows, v1.1, v2.1, hsz])
              (show k1 = VMat.orows true V1 by simp [VMat.orows, v1.2]) (show cb'.k = VMat.ocols false cb'.V by simp [VMat.ocols, v2.2])) fun C _ hC => Tot.pure ?_
            obtain ⟨c1, c2, c3⟩ := hC
            unfold Products
            refine ⟨rfl, rfl, c1, c2, fun a ha b hb => ?_, fun i => i.elim0⟩
            rw [c3 a ha b hb, cross_leaf_right (cb := CBV.mk t1 k1 kt1 kb1 V1 E1 n1 son1) h2 p2]
            simp only [VMat.zero, VMat.ocols, VMat.oe, Bool.false_eq_true, if_false, if_true, one_mul, zero_add]
            rw [v1.1]
            refine Finset.sum_congr rfl fun r hr => ?_
            subst h1
            rw [vbasis_leaf, show (CBV.mk t1 k1 kt1 kb1 V1 E1 0 son1).t = t1 from rfl, if_pos (show In t1 (t1.cl.off + r) from In.add (Finset.mem_range.mp hr)), Nat.add_sub_cancel_left]
          · rw [if_neg h2]
            refine Tot.bind (compress_tot ho' hc' hs' (by rw [v1.1, hsz]) le_rfl v1.2) fun X _ hX => ?_
            obtain ⟨x1, x2, x3⟩ := hX
            simp only at x1 x2 x3
            have hkk : cb'.k ≤ cb'.kbranch := by rw [hc'.branch]; exact vBranch_k _
            rw [vsub_ok (by omega) (by omega), ok_bind, HV.copy_tot (by simp [VMat.orows]) (by simp [VMat.ocols]), ok_bind]
            refine Tot.pure ?_
            unfold Products
            refine ⟨rfl, rfl, rfl, rfl, fun a ha b hb => ?_, fun i => i.elim0⟩
            simp only [COp.C, VMat.oe, if_true, Nat.zero_add]
            rw [x3 b hb a ha, cross_leaf_left ho h1, star_sum, p2]
            refine Finset.sum_congr rfl fun r _ => ?_
            rw [star_mul', star_star, mul_comm]
            rfl
        · rw [if_neg h1]
          have h2 : cb'.sons = 0 := (p3 rfl).resolve_left h1
          have v2 := ho'.V h2
          refine Tot.cassert (by simpa using h2) ?_
          refine Tot.bind (compress_tot ho hc hs (by rw [v2.1, hsz]; rfl) le_rfl v2.2) fun X _ hX => ?_
          obtain ⟨x1, x2, x3⟩ := hX
          simp only at x1 x2 x3
          replace x1 : X.rows = kb1 := x1
          have hkk : k1 ≤ kb1 := by
            have h7 := hc.branch
            have h8 := vBranch_k (CBV.mk t1 k1 kt1 kb1 V1 E1 n1 son1)
            rw [← h7] at h8
            exact h8
          rw [vsub_ok (by omega) (by omega), ok_bind, HV.copy_tot (by simp [VMat.orows]) (by simp [VMat.ocols]), ok_bind]
          refine Tot.pure ?_
          unfold Products
          refine ⟨rfl, rfl, rfl, rfl, fun a ha b hb => ?_, fun i => i.elim0⟩
          simp only [COp.C, VMat.oe, Bool.false_eq_true, if_false, Nat.zero_add]
          rw [x3 a ha b hb, cross_leaf_right (cb := CBV.mk t1 k1 kt1 kb1 V1 E1 n1 son1) h2 p2]

end H2
