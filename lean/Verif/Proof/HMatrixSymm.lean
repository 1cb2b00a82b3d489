import Verif.Proof.HMatrix

set_option linter.unusedSectionVars false

namespace H2
open Spec Dense
section
variable {K : Type} [Field K] [StarRing K]

theorem incr_vadd {y : Vec} {m : Mem K} (hy : y.Valid m) {j : Nat} (hj : j < y.dim) (t : K) :
    Tot (incr m (y.addr j) t) (VAdd y m fun p => if p = j then t else 0) := by
  obtain ⟨z, ez, er⟩ := Mem.read_some (hy j hj)
  unfold incr
  rw [er, ok_bind, Mem.write_ok ez]
  refine Tot.pure ⟨fun i hi => ?_, fun i hi => ?_, fun c hc => ?_⟩
  · by_cases e : y.addr i = y.addr j
    · rw [e, Mem.upd_same]; rfl
    · rw [Mem.upd_ne e]; exact hy i hi
  · simp only
    by_cases e : i = j
    · subst e
      rw [if_pos rfl]
      unfold Vec.val; rw [Mem.upd_same, ez]; rfl
    · have : y.addr i ≠ y.addr j := by simp only [Vec.addr]; omega
      rw [if_neg e, add_zero]
      unfold Vec.val; rw [Mem.upd_ne this]
  · rw [Mem.upd_ne]
    rintro rfl; exact hc (Vec.cell_addr hj)

theorem forUp_vadd {lo hi : Nat} {body : Nat → Mem K → R (Mem K)} {y : Vec} {m0 : Mem K} (d : Nat → Nat → K)
    (hle : lo ≤ hi) (hy : y.Valid m0)
    (hb : ∀ k, lo ≤ k → k < hi → ∀ m, Frame y.Cell m0 m → y.Valid m → Tot (body k m) (VAdd y m (d k))) :
    Tot (forUp lo hi body m0) (VAdd y m0 fun p => ∑ k ∈ Finset.Ico lo hi, d k p) := by
  refine forUp_tot (fun r (m : Mem K) => VAdd y m0 (fun p => ∑ k ∈ Finset.Ico lo r, d k p) m) hle
    ((VAdd.refl hy).congr fun i _ => by simp) ?_
  intro k m h1 h2 ih
  refine (hb k h1 h2 m ih.2.2 ih.1).mono fun m' h' => (ih.trans h').congr fun p _ => ?_
  rw [Finset.sum_Ico_succ_top h1]

theorem symm_sum {n p : Nat} (hp : p < n) (A : Nat → Nat → K) (x : Nat → K) (alpha : K) :
    ∑ j ∈ Finset.Ico 0 n, ((if p = j then alpha * A j j * x j else 0) + ∑ i ∈ Finset.Ico (j + 1) n,
      ((if p = i then alpha * A i j * x j else 0) + if p = j then alpha * star (A i j) * x i else 0)) =
    alpha * ∑ c ∈ Finset.range n, lowerSymm A p c * x c := by
  have e1 : ∀ j ∈ Finset.Ico 0 n, ((if p = j then alpha * A j j * x j else 0) + ∑ i ∈ Finset.Ico (j + 1) n,
      ((if p = i then alpha * A i j * x j else 0) + if p = j then alpha * star (A i j) * x i else 0)) =
      (if j = p then alpha * A p p * x p + ∑ i ∈ Finset.Ico (p + 1) n, alpha * star (A i p) * x i else 0) +
        if j < p then alpha * A p j * x j else 0 := by
    intro j hj
    rw [Finset.sum_add_distrib, Finset.sum_ite_eq (Finset.Ico (j + 1) n) p]
    by_cases h : p = j
    · subst h
      simp
    · have h' : ¬ j = p := fun e => h e.symm
      simp only [h, h', if_false, Finset.sum_const_zero, add_zero, zero_add, Finset.mem_Ico]
      refine if_congr ?_ rfl rfl
      omega
  rw [Finset.sum_congr rfl e1, Finset.sum_add_distrib, Finset.sum_ite_eq' (Finset.Ico 0 n) p,
    if_pos (by rw [Finset.mem_Ico]; omega), Finset.range_eq_Ico, ← Finset.sum_Ico_consecutive _ (Nat.zero_le p) hp.le,
    ← Finset.sum_Ico_consecutive (fun c => lowerSymm A p c * x c) (Nat.zero_le p) hp.le,
    Finset.sum_eq_sum_Ico_succ_bot hp (f := fun c => lowerSymm A p c * x c)]
  have z : ∑ j ∈ Finset.Ico p n, (if j < p then alpha * A p j * x j else 0) = 0 :=
    Finset.sum_eq_zero fun j hj => by rw [Finset.mem_Ico] at hj; rw [if_neg (by omega)]
  have u : ∑ j ∈ Finset.Ico 0 p, (if j < p then alpha * A p j * x j else 0) =
      alpha * ∑ j ∈ Finset.Ico 0 p, lowerSymm A p j * x j := by
    rw [Finset.mul_sum]
    refine Finset.sum_congr rfl fun j hj => ?_
    rw [Finset.mem_Ico] at hj
    rw [if_pos hj.2, lowerSymm, if_pos (by omega), mul_assoc]
  have v : ∑ i ∈ Finset.Ico (p + 1) n, alpha * star (A i p) * x i =
      alpha * ∑ i ∈ Finset.Ico (p + 1) n, lowerSymm A p i * x i := by
    rw [Finset.mul_sum]
    refine Finset.sum_congr rfl fun j hj => ?_
    rw [Finset.mem_Ico] at hj
    rw [lowerSymm, if_neg (by omega), mul_assoc]
  rw [z, u, v, lowerSymm, if_pos le_rfl]
  ring

theorem pre_tail {n : Nat} (f : Fin n → Nat) (j : Fin n) {k : Nat} (h : j.1 + 1 ≤ k) :
    pre f (j.1 + 1) + pre (fun i => if j.1 < i.1 then f i else 0) k = pre f k := by
  unfold pre
  rw [← Finset.sum_add_distrib]
  refine Finset.sum_congr rfl fun i _ => ?_
  simp only
  by_cases h1 : i.1 < j.1 + 1
  · rw [if_pos h1, if_pos (by omega), if_neg (by omega : ¬ j.1 < i.1), if_pos (by omega)]; simp
  · rw [if_neg h1, if_pos (by omega : j.1 < i.1), zero_add]
end

namespace HMat
variable {G : Type} {K : Type} [Field K] [StarRing K]

theorem symmDense_tot {f : Mat} {n : Nat} {x1 y1 : Vec} {m : Mem K} (hf : f.Valid m) (hr : f.rows = n) (hc : f.cols = n)
    (hx : x1.Valid m) (hy : y1.Valid m) (hxd : x1.dim = n) (hyd : y1.dim = n) (hfy : Disj f.Cell y1.Cell)
    (hxy : Disj x1.Cell y1.Cell) (alpha : K) :
    Tot (symmDense alpha f n x1 y1 m) (VAdd y1 m fun p => alpha *
      ∑ c ∈ Finset.range n, lowerSymm (f.val m) p c * x1.val m c) := by
  have rdF : ∀ {m' : Mem K}, Frame y1.Cell m m' → ∀ {i j}, i < n → j < n → m'.read (f.addr i j) = .ok (f.val m i j) := by
    intro m' hfr i j hi hj
    obtain ⟨z, ez, er⟩ := Mem.read_some ((Rk.frame_valid hfr hfy hf).2 i (by omega) j (by omega))
    rw [er, ← Rk.frame_val hfr hfy (by omega) (by omega)]
    unfold Mat.val; rw [ez]; rfl
  have rdX : ∀ {m' : Mem K}, Frame y1.Cell m m' → ∀ {i}, i < n → m'.read (x1.addr i) = .ok (x1.val m i) := by
    intro m' hfr i hi
    obtain ⟨z, ez, er⟩ := Mem.read_some (Rk.frame_vvalid hfr hxy hx i (by omega))
    rw [er, ← Rk.frame_vval hfr hxy (by omega)]
    unfold Vec.val; rw [ez]; rfl
  unfold symmDense
  refine (forUp_vadd (fun j p => (if p = j then alpha * f.val m j j * x1.val m j else 0) +
    ∑ i ∈ Finset.Ico (j + 1) n, ((if p = i then alpha * f.val m i j * x1.val m j else 0) +
      if p = j then alpha * star (f.val m i j) * x1.val m i else 0)) (Nat.zero_le _) hy ?_).mono
      fun m' h' => h'.congr fun p hp => symm_sum (hyd ▸ hp) (f.val m) (x1.val m) alpha
  intro j _ hj m1 hf1 hy1
  rw [rdF hf1 hj hj, ok_bind, rdX hf1 hj, ok_bind]
  refine Tot.bind (incr_vadd hy1 (by omega) _) fun m2 _ h2 => ?_
  refine (forUp_vadd (fun i p => (if p = i then alpha * f.val m i j * x1.val m j else 0) +
      if p = j then alpha * star (f.val m i j) * x1.val m i else 0) hj h2.1 ?_).mono fun m' h' => h2.trans h'
  intro i _ hi m3 hf3 hy3
  have fr3 : Frame y1.Cell m m3 := fun c hc => ((hf3 c hc).trans (h2.2.2 c hc)).trans (hf1 c hc)
  rw [rdF fr3 hi hj, ok_bind, rdX fr3 hj, ok_bind]
  refine Tot.bind (incr_vadd hy3 (by omega) _) fun m4 _ h4 => ?_
  have fr4 : Frame y1.Cell m m4 := fun c hc => (h4.2.2 c hc).trans (fr3 c hc)
  rw [rdF fr4 hi hj, ok_bind, rdX fr4 hi, ok_bind]
  exact (incr_vadd h4.1 (by omega) _).mono fun m5 h5 => h4.trans h5

/-- `y += alpha (H + H^*) x` restricted to positions `a, …, a + n - 1` -/
noncomputable def offSum (m : Mem K) (h : HMat G) (a n : Nat) (alpha : K) (x : Nat → K) (p : Nat) : K :=
  alpha * ∑ c ∈ Finset.range n, place m h (a + p) (a + c) * x c +
  alpha * ∑ c ∈ Finset.range n, star (place m h (a + c) (a + p)) * x c

theorem offSum_congr {m m' : Mem K} {h : HMat G} {a n : Nat} {alpha : K} {x x' : Nat → K}
    (hp : ∀ r c, place m' h r c = place m h r c) (hx : ∀ i < n, x' i = x i) (p : Nat) :
    offSum m' h a n alpha x' p = offSum m h a n alpha x p := by
  unfold offSum
  congr 2
  · refine Finset.sum_congr rfl fun c hc => ?_
    rw [hp, hx c (Finset.mem_range.mp hc)]
  · refine Finset.sum_congr rfl fun c hc => ?_
    rw [hp, hx c (Finset.mem_range.mp hc)]

theorem offdiag_tot (alpha : K) : ∀ {h : HMat G} {roff coff a : Nat} {xp yp : Vec} {m : Mem K}, HOk h → HValid m h →
    xp.Valid m → yp.Valid m → Disj (HCell h) yp.Cell → Disj xp.Cell yp.Cell → xp.dim = yp.dim →
    h.rc.cl.off = a + roff → h.cc.cl.off = a + coff → roff + h.rsize ≤ yp.dim → coff + h.csize ≤ yp.dim →
    Tot (addevalsymmOffdiag alpha h roff coff xp yp m) (VAdd yp m (offSum m h a yp.dim alpha (xp.val m))) := by
  intro h
  -- one block: evaluate, then evaluate the adjoint
  have leaf : ∀ (h : HMat G) (ev evt : Vec → Vec → Mem K → R (Mem K)) (roff coff a : Nat) (xp yp : Vec) (m : Mem K),
      HOk h → HValid m h → xp.Valid m → yp.Valid m → Disj (HCell h) yp.Cell → Disj xp.Cell yp.Cell → xp.dim = yp.dim →
      h.rc.cl.off = a + roff → h.cc.cl.off = a + coff → roff + h.rsize ≤ yp.dim → coff + h.csize ≤ yp.dim →
      (∀ x y m', x.dim = h.csize → y.dim = h.rsize → ev x y m' = fastaddeval alpha h x y m') →
      (∀ x y m', x.dim = h.rsize → y.dim = h.csize → evt x y m' = fastaddevaltrans alpha h x y m') →
      Tot (do
        let x1 ← Dense.initSubVec xp h.csize coff
        let y1 ← Dense.initSubVec yp h.rsize roff
        let m ← ev x1 y1 m
        let x1 ← Dense.initSubVec xp h.rsize roff
        let y1 ← Dense.initSubVec yp h.csize coff
        evt x1 y1 m) (VAdd yp m (offSum m h a yp.dim alpha (xp.val m))) := by
    intro h ev evt roff coff a xp yp m ho hv hx hy hd hxy hdim hr hc hrn hcn e1 e2
    obtain ⟨x1, ex1⟩ : ∃ x1, initSubVec xp h.csize coff = .ok x1 := ⟨_, initSubVec_ok.mpr ⟨by omega, rfl⟩⟩
    obtain ⟨y1, ey1⟩ : ∃ y1, initSubVec yp h.rsize roff = .ok y1 := ⟨_, initSubVec_ok.mpr ⟨by omega, rfl⟩⟩
    obtain ⟨x2, ex2⟩ : ∃ x2, initSubVec xp h.rsize roff = .ok x2 := ⟨_, initSubVec_ok.mpr ⟨by omega, rfl⟩⟩
    obtain ⟨y2, ey2⟩ : ∃ y2, initSubVec yp h.csize coff = .ok y2 := ⟨_, initSubVec_ok.mpr ⟨by omega, rfl⟩⟩
    rw [ex1, ok_bind, ey1, ok_bind, e1 _ _ _ (sub_dim ex1) (sub_dim ey1)]
    refine Tot.bind (fastaddeval_tot alpha ho hv (sub_valid ex1 hx) (sub_valid ey1 hy)
      (fun c h1 h2 => hd c h1 (sub_cell ey1 h2)) (fun c h1 h2 => hxy c (sub_cell ex1 h1) (sub_cell ey1 h2))
      (sub_dim ex1) (sub_dim ey1)) fun m1 _ h1 => ?_
    have g1 := h1.sub ey1 hy
    obtain ⟨hv1, hp1⟩ := place_frame g1.2.2 ho hv hd
    rw [ex2, ok_bind, ey2, ok_bind, e2 _ _ _ (sub_dim ex2) (sub_dim ey2)]
    refine (fastaddevaltrans_tot alpha ho hv1 (sub_valid ex2 (Rk.frame_vvalid g1.2.2 hxy hx)) (sub_valid ey2 g1.1)
      (fun c h1 h2 => hd c h1 (sub_cell ey2 h2)) (fun c h1 h2 => hxy c (sub_cell ex2 h1) (sub_cell ey2 h2))
      (sub_dim ex2) (sub_dim ey2)).mono fun m2 h2 => ?_
    refine (g1.trans (h2.sub ey2 g1.1)).congr fun p hp => ?_
    unfold offSum
    congr 1
    · rw [← son_sum ho hr hc hcn alpha (xp.val m) p]
      refine if_congr Iff.rfl ?_ rfl
      congr 1
      refine Finset.sum_congr rfl fun c hc => ?_
      rw [sub_val ex1]
    · rw [← son_sum_trans ho hr hc hrn alpha (xp.val m) p]
      refine if_congr Iff.rfl ?_ rfl
      congr 1
      refine Finset.sum_congr rfl fun c hc => ?_
      rw [Finset.mem_range] at hc
      rw [sub_val ex2, hp1, Rk.frame_vval g1.2.2 hxy (by omega)]
  induction h with
  | rk t s d r =>
    intro roff coff a xp yp m ho hv hx hy hd hxy hdim hr hc hrn hcn
    simp only [addevalsymmOffdiag]
    refine leaf (.rk t s d r) (fun x y m => Rk.addeval alpha r x y m) (fun x y m => Rk.addevaltrans alpha r x y m)
      roff coff a xp yp m ho hv hx hy hd hxy hdim hr hc hrn hcn (fun x y m' h1 h2 => ?_) (fun x y m' h1 h2 => ?_)
    · have h1 : x.dim = s.cl.size := h1
      have h2 : y.dim = t.cl.size := h2
      simp only [fastaddeval, h1, h2, decide_true]
      rfl
    · have h1 : x.dim = t.cl.size := h1
      have h2 : y.dim = s.cl.size := h2
      simp only [fastaddevaltrans, h1, h2, decide_true]
      rfl
  | full t s d f =>
    intro roff coff a xp yp m ho hv hx hy hd hxy hdim hr hc hrn hcn
    simp only [addevalsymmOffdiag]
    refine leaf (.full t s d f) (fun x y m => Dense.addeval alpha f x y m) (fun x y m => Dense.addevaltrans alpha f x y m)
      roff coff a xp yp m ho hv hx hy hd hxy hdim hr hc hrn hcn (fun x y m' h1 h2 => ?_) (fun x y m' h1 h2 => ?_)
    · have h1 : x.dim = s.cl.size := h1
      have h2 : y.dim = t.cl.size := h2
      simp only [fastaddeval, h1, h2, decide_true]
      rfl
    · have h1 : x.dim = t.cl.size := h1
      have h2 : y.dim = s.cl.size := h2
      simp only [fastaddevaltrans, h1, h2, decide_true]
      rfl
  | super t s d rs cs son ih =>
    rintro roff coff a xp yp m ⟨h0, h0', ⟨R, C, hrc, hR, hC⟩, hs⟩ hv hx hy hd hxy hdim hr hc hrn hcn
    have hsz := fun i j => HOk.son_sizes (t := t) (s := s) (d := d) hrc i j
    have hr : t.cl.off = a + roff := hr
    have hc : s.cl.off = a + coff := hc
    have hrn : roff + t.cl.size ≤ yp.dim := hrn
    have hcn : coff + s.cl.size ≤ yp.dim := hcn
    simp only [addevalsymmOffdiag]
    refine Tot.bind (vloop (y := yp) (m0 := m) (o0 := coff)
      (fun j p => ∑ i, offSum m (son i j) a yp.dim alpha (xp.val m) p)
      (fun j => (C j).cl.size) hy fun j m1 hf1 hy1 => ?_) fun st _ hst => ?_
    · rw [dif_pos h0]
      obtain ⟨b1, b2⟩ := Segments.bounds hC j
      refine Tot.bind (vloop (y := yp) (m0 := m1) (o0 := roff)
        (fun i p => offSum m (son i j) a yp.dim alpha (xp.val m) p)
        (fun i => (R i).cl.size) hy1 fun i m2 hf2 hy2 => ?_) fun st _ hst => ?_
      · obtain ⟨a1, a2⟩ := Segments.bounds hR i
        have hf : Frame yp.Cell m m2 := fun c hc => (hf2 c hc).trans (hf1 c hc)
        have dS : Disj (HCell (son i j)) yp.Cell := fun c hc => hd c ⟨i, j, hc⟩
        obtain ⟨hv2, hp2⟩ := place_frame hf (hs i j) (hv i j) dS
        refine Tot.bind (ih i j (a := a) (hs i j) hv2 (Rk.frame_vvalid hf hxy hx) hy2 dS hxy hdim
          (by rw [(hrc i j).1, a1]; omega) (by rw [(hrc i j).2, b1]; omega) (by rw [(hsz i j).1]; omega)
          (by rw [(hsz i j).2]; omega)) fun m3 _ h3 => ?_
        refine Tot.pure ⟨h3.congr fun p _ => offSum_congr hp2 (fun c hc => Rk.frame_vval hf hxy (by omega)) p, ?_⟩
        simp only
        rw [(hsz i _).1]
      · obtain ⟨m2, o⟩ := st
        obtain ⟨g1, g2⟩ := hst
        simp only at g1 g2
        refine Tot.cassert (by simp only [g2, hR.2, decide_true]) ?_
        refine Tot.pure ⟨g1, ?_⟩
        simp only
        rw [(hsz _ j).2]
    · obtain ⟨m2, o⟩ := st
      obtain ⟨g1, g2⟩ := hst
      simp only at g1 g2
      refine Tot.cassert (by simp only [g2, hC.2, decide_true]) ?_
      refine Tot.pure (g1.congr fun p _ => ?_)
      simp only [offSum, place_super, star_sum, Finset.sum_mul, Finset.sum_add_distrib, ← Finset.mul_sum]
      congr 2
      · rw [Finset.sum_comm (s := Finset.range yp.dim)]
        refine Finset.sum_congr rfl fun j _ => ?_
        rw [Finset.sum_comm (s := Finset.range yp.dim)]
      · rw [Finset.sum_comm (s := Finset.range yp.dim)]
        refine Finset.sum_congr rfl fun j _ => ?_
        rw [Finset.sum_comm (s := Finset.range yp.dim)]

/-- `y += alpha S x` with the self-adjoint matrix given by the lower triangle -/
noncomputable def symSum (m : Mem K) (h : HMat G) (a n : Nat) (alpha : K) (x : Nat → K) (p : Nat) : K :=
  alpha * ∑ c ∈ Finset.range n, lowerSymm (place m h) (a + p) (a + c) * x c

theorem symSum_congr {m m' : Mem K} {h : HMat G} {a n : Nat} {alpha : K} {x x' : Nat → K}
    (hp : ∀ r c, place m' h r c = place m h r c) (hx : ∀ i < n, x' i = x i) (p : Nat) :
    symSum m' h a n alpha x' p = symSum m h a n alpha x p := by
  unfold symSum
  congr 1
  refine Finset.sum_congr rfl fun c hc => ?_
  simp only [lowerSymm, hp]
  rw [hx c (Finset.mem_range.mp hc)]

theorem diag_tot (alpha : K) : ∀ {h : HMat G} {off a : Nat} {xp yp : Vec} {m : Mem K}, HOk h → SymmOk h → HValid m h →
    xp.Valid m → yp.Valid m → Disj (HCell h) yp.Cell → Disj xp.Cell yp.Cell → xp.dim = yp.dim →
    h.rc.cl.off = a + off → off + h.rsize ≤ yp.dim →
    Tot (addevalsymmDiag alpha h off xp yp m) (VAdd yp m (symSum m h a yp.dim alpha (xp.val m))) := by
  intro h
  induction h with
  | rk t s d r => intro _ _ _ _ _ _ h; exact absurd h (by simp [SymmOk])
  | full t s d f =>
    rintro off a xp yp m ⟨h1, h2⟩ (rfl : t = s) hv hx hy hd hxy hdim hr hrn
    have hr : t.cl.off = a + off := hr
    have hrn : off + t.cl.size ≤ yp.dim := hrn
    simp only [addevalsymmDiag]
    refine Tot.cassert (by simp [CRef.same]) (Tot.cassert (by simp [h1]) (Tot.cassert (by simp [h2]) ?_))
    obtain ⟨x1, ex⟩ : ∃ x1, initSubVec xp t.cl.size off = .ok x1 := ⟨_, initSubVec_ok.mpr ⟨by omega, rfl⟩⟩
    obtain ⟨y1, ey⟩ : ∃ y1, initSubVec yp t.cl.size off = .ok y1 := ⟨_, initSubVec_ok.mpr ⟨by omega, rfl⟩⟩
    rw [ex, ok_bind, ey, ok_bind]
    refine (symmDense_tot (K := K) hv h1 h2 (sub_valid ex hx) (sub_valid ey hy) (sub_dim ex) (sub_dim ey)
      (fun c h1 h2 => hd c h1 (sub_cell ey h2)) (fun c h1 h2 => hxy c (sub_cell ex h1) (sub_cell ey h2)) alpha).mono
      fun m' h' => (h'.sub ey hy).congr fun p hp => ?_
    unfold symSum
    have zero : ∀ i j, ¬ (off ≤ i ∧ i < off + t.cl.size ∧ off ≤ j ∧ j < off + t.cl.size) →
        place m (HMat.full t t d f) (a + i) (a + j) = 0 := by
      intro i j hn
      rw [place_full', if_neg (by omega)]
    by_cases hi : off ≤ p ∧ p < off + t.cl.size
    · rw [if_pos hi]
      congr 1
      rw [sum_segment (o := off) (s := t.cl.size) hrn]
      · refine Finset.sum_congr rfl fun c hc => ?_
        rw [Finset.mem_range] at hc
        rw [sub_val ex]
        congr 1
        unfold lowerSymm
        rw [show a + p = t.cl.off + (p - off) by omega, show a + (off + c) = t.cl.off + c by omega,
          place_full (by omega) hc, place_full hc (by omega)]
        refine if_congr ?_ rfl rfl
        omega
      · intro c _ hcn
        simp only [lowerSymm]
        rw [zero p c (by omega), zero c p (by omega)]
        simp
    · rw [if_neg hi, Finset.sum_eq_zero, mul_zero]
      intro c _
      simp only [lowerSymm]
      rw [zero p c (by omega), zero c p (by omega)]
      simp
  | super t s d rs cs son ih =>
    rintro off a xp yp m ⟨h0, h0', ⟨R, C, hrc, hR, hC⟩, hs⟩ ⟨rfl, e, hn, hson, hsym⟩ hv hx hy hd hxy hdim hr hrn
    subst e
    simp only [Fin.cast_eq_self] at hson hsym
    have hsz := fun i j => HOk.son_sizes (t := t) (s := t) (d := d) hrc i j
    have hr : t.cl.off = a + off := hr
    have hrn : off + t.cl.size ≤ yp.dim := hrn
    -- diagonal blocks have equal row and column clusters
    have hRC : ∀ i, C i = R i := by
      intro i
      have h := hsym i
      rw [← (hrc i i).1, ← (hrc i i).2]
      cases hh : son i i with
      | rk => rw [hh] at h; exact absurd h (by simp [SymmOk])
      | full => rw [hh] at h; exact Eq.symm h
      | super => rw [hh] at h; exact Eq.symm h.1
    simp only [addevalsymmDiag, dite_true, Fin.cast_eq_self]
    refine Tot.cassert (by simp [CRef.same]) ?_
    refine Tot.bind (vloop (y := yp) (m0 := m) (o0 := off)
      (fun j p => ∑ i, if i = j then symSum m (son j j) a yp.dim alpha (xp.val m) p
        else if j.1 < i.1 then offSum m (son i j) a yp.dim alpha (xp.val m) p else 0)
      (fun j => (R j).cl.size) hy fun j m1 hf1 hy1 => ?_) fun st _ hst => ?_
    · obtain ⟨b1, b2⟩ := Segments.bounds hR j
      have dS : Disj (HCell (son j j)) yp.Cell := fun c hc => hd c ⟨j, j, hc⟩
      obtain ⟨hv1, hp1⟩ := place_frame hf1 (hs j j) (hv j j) dS
      refine Tot.bind (ih j j (a := a) (hs j j) (hsym j) hv1 (Rk.frame_vvalid hf1 hxy hx) hy1 dS hxy hdim
        (by rw [(hrc j j).1, b1]; omega) (by rw [(hsz j j).1]; omega)) fun m2 _ h2 => ?_
      rw [dif_pos (hn ▸ j.2)]
      have hjs : (t.son ⟨j.1, hn ▸ j.2⟩).cl.size = (R j).cl.size := by
        rw [← hson ⟨j.1, hn ▸ j.2⟩ j.2, (hrc j j).1]
      rw [hjs]
      refine Tot.bind (vloop (y := yp) (m0 := m2) (o0 := off + pre (fun k => (R k).cl.size) j.1 + (R j).cl.size)
        (fun i p => if j.1 < i.1 then offSum m (son i j) a yp.dim alpha (xp.val m) p else 0)
        (fun i => if j.1 < i.1 then (R i).cl.size else 0) h2.1 fun i m3 hf3 hy3 => ?_) fun st _ hst => ?_
      · by_cases hij : j.1 < i.1
        · simp only [if_pos hij]
          obtain ⟨a1, a2⟩ := Segments.bounds hR i
          have ho : off + pre (fun k => (R k).cl.size) j.1 + (R j).cl.size +
              pre (fun k => if j.1 < k.1 then (R k).cl.size else 0) i.1 = off + pre (fun k => (R k).cl.size) i.1 := by
            have e1 := pre_tail (fun k => (R k).cl.size) j (k := i.1) (by omega)
            have e2 := pre_succ (fun k => (R k).cl.size) j
            omega
          rw [ho]
          have hf : Frame yp.Cell m m3 := fun c hc => ((hf3 c hc).trans (h2.2.2 c hc)).trans (hf1 c hc)
          have dS' : Disj (HCell (son i j)) yp.Cell := fun c hc => hd c ⟨i, j, hc⟩
          obtain ⟨hv3, hp3⟩ := place_frame hf (hs i j) (hv i j) dS'
          refine Tot.bind (offdiag_tot alpha (a := a) (hs i j) hv3 (Rk.frame_vvalid hf hxy hx) hy3 dS' hxy hdim
            (by rw [(hrc i j).1, a1]; omega) (by rw [(hrc i j).2, hRC, b1]; omega) (by rw [(hsz i j).1]; omega)
            (by rw [(hsz i j).2, hRC]; omega)) fun m4 _ h4 => ?_
          refine Tot.pure ⟨h4.congr fun p _ => offSum_congr hp3 (fun c hc => Rk.frame_vval hf hxy (by omega)) p, ?_⟩
          simp only
          rw [(hsz i _).1]
        · simp only [if_neg hij]
          exact Tot.pure ⟨VAdd.refl hy3, rfl⟩
      · obtain ⟨m3, o⟩ := st
        obtain ⟨g1, g2⟩ := hst
        simp only at g1 g2
        have htot : o = off + t.cl.size := by
          have e1 := pre_tail (fun k => (R k).cl.size) j (k := rs) j.2
          have e2 := pre_succ (fun k => (R k).cl.size) j
          rw [pre_all, pre_all, hR.2] at e1
          omega
        refine Tot.cassert (by simp only [htot, decide_true]) ?_
        refine Tot.pure ⟨(h2.trans g1).congr fun p _ => ?_, ?_⟩
        · rw [symSum_congr hp1 (fun c hc => Rk.frame_vval hf1 hxy (by omega))]
          have e : ∀ i : Fin rs, (if i = j then symSum m (son j j) a yp.dim alpha (xp.val m) p
              else if j.1 < i.1 then offSum m (son i j) a yp.dim alpha (xp.val m) p else 0) =
              (if i = j then symSum m (son j j) a yp.dim alpha (xp.val m) p else 0) +
                if j.1 < i.1 then offSum m (son i j) a yp.dim alpha (xp.val m) p else 0 := by
            intro i
            by_cases h : i = j
            · subst h; simp
            · simp [h]
          rw [Finset.sum_congr rfl fun i _ => e i, Finset.sum_add_distrib, Finset.sum_ite_eq' Finset.univ j]
          simp
        · simp only
          rw [(hsz _ j).2, hRC]
    · obtain ⟨m2, o⟩ := st
      obtain ⟨g1, g2⟩ := hst
      simp only at g1 g2
      refine Tot.cassert (by simp only [g2, hR.2, decide_true]) ?_
      refine Tot.pure (g1.congr fun p _ => ?_)
      -- the lower triangle of the block matrix
      have low : ∀ P Q, lowerSymm (place m (HMat.super t t d rs rs son)) P Q =
          ∑ j, ∑ i, lowerSymm (place m (son i j)) P Q := by
        intro P Q
        unfold lowerSymm
        by_cases hPQ : Q ≤ P
        · simp only [if_pos hPQ, place_super]
        · simp only [if_neg hPQ, place_super, star_sum]
      have sep : ∀ i j : Fin rs, j.1 < i.1 → pre (fun k => (R k).cl.size) j.1 + (R j).cl.size ≤
          pre (fun k => (R k).cl.size) i.1 := by
        intro i j hij
        have e1 := pre_tail (fun k => (R k).cl.size) j (k := i.1) (by omega)
        have e2 := pre_succ (fun k => (R k).cl.size) j
        omega
      have term : ∀ i j P Q, lowerSymm (place m (son i j)) P Q = if i = j then lowerSymm (place m (son j j)) P Q
          else if j.1 < i.1 then place m (son i j) P Q + star (place m (son i j) Q P) else 0 := by
        intro i j P Q
        have bR := Segments.bounds hR i
        have bC := Segments.bounds hR j
        have z : ∀ P Q, ¬ ((R i).cl.off ≤ P ∧ P < (R i).cl.off + (R i).cl.size ∧
            (R j).cl.off ≤ Q ∧ Q < (R j).cl.off + (R j).cl.size) → place m (son i j) P Q = 0 := by
          intro P Q hn
          refine place_zero (hs i j) ?_
          rw [(hrc i j).1, (hrc i j).2, hRC]; exact hn
        by_cases h : i = j
        · subst h; simp
        · rw [if_neg h]
          have hne : i.1 ≠ j.1 := fun e => h (Fin.ext e)
          by_cases hij : j.1 < i.1
          · have := sep i j hij
            rw [if_pos hij]
            unfold lowerSymm
            by_cases hPQ : Q ≤ P
            · rw [if_pos hPQ, z Q P (by omega), star_zero, add_zero]
            · rw [if_neg hPQ, z P Q (by omega), zero_add]
          · have := sep j i (by omega)
            rw [if_neg hij]
            unfold lowerSymm
            by_cases hPQ : Q ≤ P
            · rw [if_pos hPQ, z P Q (by omega)]
            · rw [if_neg hPQ, z Q P (by omega), star_zero]
      simp only [symSum, offSum, low]
      simp only [Finset.sum_mul, Finset.mul_sum]
      rw [Finset.sum_comm (s := Finset.range yp.dim)]
      refine Finset.sum_congr rfl fun j _ => ?_
      rw [Finset.sum_comm (s := Finset.range yp.dim)]
      refine Finset.sum_congr rfl fun i _ => ?_
      rw [Finset.sum_congr rfl fun c _ => congrArg (fun z => alpha * (z * xp.val m c)) (term i j (a + p) (a + c))]
      by_cases h : i = j
      · simp only [if_pos h]
      · simp only [if_neg h]
        by_cases h' : j.1 < i.1
        · simp only [if_pos h', add_mul, mul_add, Finset.sum_add_distrib]
        · simp only [if_neg h', zero_mul, mul_zero, Finset.sum_const_zero]

theorem addevalsymm_tot {h : HMat G} {idx : Arr Nat} {px py : Nat} {junk : Nat → K} {x y : Vec} {m : Mem K}
    (ho : HOk h) (hs : SymmOk h) (hv : HValid m h) (hr : IsPerm idx h.rc.cl.off h.rsize)
    (hx : x.Valid m) (hy : y.Valid m) (hxd : x.dim = h.rsize) (hyd : y.dim = h.rsize) (hfx : Fresh m px x.dim)
    (hfy : Fresh (m.alloc px x.dim junk) py y.dim) (alpha : K) :
    Tot (addevalsymm idx px py junk alpha h x y m) fun m' => y.Valid m' ∧ Frame y.Cell m m' ∧
      ∀ i < h.rsize, y.val m' (idx.v (h.rc.cl.off + i)) = y.val m (idx.v (h.rc.cl.off + i)) + alpha *
        ∑ j ∈ Finset.range h.rsize, lowerSymm (place m h) (h.rc.cl.off + i) (h.rc.cl.off + j) *
          x.val m (idx.v (h.rc.cl.off + j)) := by
  have hrc : h.cc = h.rc := by
    cases h with
    | rk => exact absurd hs (by simp [SymmOk])
    | full => exact Eq.symm hs
    | super => exact Eq.symm hs.1
  have hcs : h.csize = h.rsize := by unfold csize rsize; rw [hrc]
  unfold addevalsymm
  refine Tot.cassert (by simp [CRef.same, hrc]) (Tot.cassert (by simpa [hcs] using hxd)
    (Tot.cassert (by simpa using hyd) ?_))
  have inv : ∀ a < y.dim, ∃ i < y.dim, idx.v (h.rc.cl.off + i) = a := fun a ha => (hyd ▸ hr).surj ha
  choose! inv hinv1 hinv2 using inv
  have hinv : ∀ i < y.dim, inv (idx.v (h.rc.cl.off + i)) = i := by
    intro i hi
    have hlt : idx.v (h.rc.cl.off + i) < y.dim := by rw [hyd]; exact hr.2.1 i (by omega)
    exact hr.2.2 _ (by rw [← hyd]; exact hinv1 _ hlt) i (by omega) (hinv2 _ hlt)
  refine (permuted_tot (g := fun u i => alpha * ∑ j ∈ Finset.range h.rsize,
    lowerSymm (place m h) (h.rc.cl.off + i) (h.rc.cl.off + j) * u j) (hxd ▸ hr) (hyd ▸ hr) hx hy hfx hfy ?_ ?_
    (F := fun a => y.val m a + alpha * ∑ j ∈ Finset.range h.rsize,
      lowerSymm (place m h) (h.rc.cl.off + inv a) (h.rc.cl.off + j) * x.val m (idx.v (h.rc.cl.off + j))) ?_).mono ?_
  · intro u u' hu i
    congr 1
    refine Finset.sum_congr rfl fun j hj => ?_
    rw [Finset.mem_range] at hj
    rw [hu j (by omega)]
  · intro xp yp m1 hold hxp hyp hd hxpd hypd
    obtain ⟨hv1, hp1⟩ := place_old ho hv fun c hc => (hold c hc).1
    unfold fastaddevalsymm
    refine Tot.cassert (by simp [CRef.same, hrc]) ?_
    refine (diag_tot alpha (a := h.rc.cl.off) ho hs hv1 hxp hyp (fun c hc => (hold c (valid_cells hv c hc)).2) hd
      (by omega) rfl (by omega)).mono fun m' h' => h'.congr fun i hi => ?_
    rw [symSum_congr hp1 (fun _ _ => rfl)]
    unfold symSum
    rw [show yp.dim = h.rsize by omega]
  · intro i hi
    simp only
    rw [hinv i hi]
  · intro m' h'
    refine ⟨h'.1, h'.2.2, fun i hi => ?_⟩
    have e := h'.2.1 _ (by rw [hyd]; exact hr.2.1 i hi : idx.v (h.rc.cl.off + i) < y.dim)
    simp only at e
    rw [e, hinv i (by omega)]

end HMat
end H2
