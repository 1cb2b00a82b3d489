import Verif.Proof.HSolve

/-! Triangular solves with H-matrices and dense right-hand sides. -/

set_option linter.unusedSectionVars false

namespace H2
open Spec Dense
variable {G K : Type} [Field K] [StarRing K]

namespace HV

/-! ### dense leaves -/

theorem load_a {a x : VMat K} {i j : Nat} (hi : i < a.rows) (hj : j < a.cols) :
    loadMem a x (i + j * a.rows) = some (a.e i j) := by
  have h1 : i + j * a.rows < a.rows * a.cols := by
    have : (j + 1) * a.rows ≤ a.cols * a.rows := Nat.mul_le_mul_right _ hj
    rw [Nat.add_mul, Nat.one_mul, Nat.mul_comm a.cols] at this
    omega
  unfold loadMem
  rw [if_pos h1, Nat.add_mul_mod_self_right, Nat.mod_eq_of_lt hi, Nat.add_mul_div_right _ _ (by omega), Nat.div_eq_of_lt hi,
    Nat.zero_add]

theorem load_x {a x : VMat K} {i j : Nat} (hi : i < x.rows) (hj : j < x.cols) :
    loadMem a x (a.rows * a.cols + (i + j * x.rows)) = some (x.e i j) := by
  have h1 : i + j * x.rows < x.rows * x.cols := by
    have : (j + 1) * x.rows ≤ x.cols * x.rows := Nat.mul_le_mul_right _ hj
    rw [Nat.add_mul, Nat.one_mul, Nat.mul_comm x.cols] at this
    omega
  unfold loadMem
  rw [if_neg (by omega), if_pos (by omega), Nat.add_sub_cancel_left, Nat.add_mul_mod_self_right, Nat.mod_eq_of_lt hi,
    Nat.add_mul_div_right _ _ (by omega), Nat.div_eq_of_lt hi, Nat.zero_add]

theorem load_valid_a {a x : VMat K} : (⟨0, a.rows, a.rows, a.cols⟩ : Mat).Valid (loadMem a x) ∧
    ∀ i < a.rows, ∀ j < a.cols, (⟨0, a.rows, a.rows, a.cols⟩ : Mat).val (loadMem a x) i j = a.e i j := by
  have e : ∀ i < a.rows, ∀ j < a.cols, loadMem a x ((⟨0, a.rows, a.rows, a.cols⟩ : Mat).addr i j) = some (a.e i j) := by
    intro i hi j hj
    unfold Mat.addr
    rw [Nat.zero_add]
    exact load_a hi hj
  refine ⟨⟨le_rfl, fun i hi j hj => by rw [e i hi j hj]; rfl⟩, fun i hi j hj => ?_⟩
  unfold Mat.val
  rw [e i hi j hj]; rfl

theorem load_valid_x {a x : VMat K} : (⟨a.rows * a.cols, x.rows, x.rows, x.cols⟩ : Mat).Valid (loadMem a x) ∧
    ∀ i < x.rows, ∀ j < x.cols, (⟨a.rows * a.cols, x.rows, x.rows, x.cols⟩ : Mat).val (loadMem a x) i j = x.e i j := by
  have e : ∀ i < x.rows, ∀ j < x.cols,
      loadMem a x ((⟨a.rows * a.cols, x.rows, x.rows, x.cols⟩ : Mat).addr i j) = some (x.e i j) := by
    intro i hi j hj
    unfold Mat.addr
    exact load_x hi hj
  refine ⟨⟨le_rfl, fun i hi j hj => by rw [e i hi j hj]; rfl⟩, fun i hi j hj => ?_⟩
  unfold Mat.val
  rw [e i hi j hj]; rfl

theorem load_disj {a x : VMat K} : Disj (⟨0, a.rows, a.rows, a.cols⟩ : Mat).Cell (⟨a.rows * a.cols, x.rows, x.rows, x.cols⟩ : Mat).Cell := by
  rintro c ⟨i, hi, j, hj, e⟩ ⟨i', _, j', _, e'⟩
  unfold Mat.addr at e e'
  replace hi : i < a.rows := hi
  replace hj : j < a.cols := hj
  replace e : c = 0 + (i + j * a.rows) := e
  replace e' : c = a.rows * a.cols + (i' + j' * x.rows) := e'
  have : (j + 1) * a.rows ≤ a.cols * a.rows := Nat.mul_le_mul_right _ hj
  rw [Nat.add_mul, Nat.one_mul, Nat.mul_comm a.cols] at this
  omega

theorem tri_congr {lower unit : Bool} {A B : Nat → Nat → K} {i j : Nat} (h : A i j = B i j) (h' : A i i = B i i) :
    tri lower unit A i j = tri lower unit B i j := by
  unfold tri; rw [h, h']

theorem optri_congr {lower unit trans : Bool} {A B : Nat → Nat → K} {i j : Nat} (h : op trans A i j = op trans B i j)
    (h' : op trans A i i = op trans B i i) : op trans (tri lower unit A) i j = op trans (tri lower unit B) i j := by
  rw [op_tri, op_tri, h, h']

theorem denseSolve_tot {lower unit atrans xtrans : Bool} {a x : VMat K} (hsq : a.rows = a.cols) (hx : x.orows xtrans = a.rows)
    (hD : unit = false → ∀ j < a.rows, a.e j j ≠ 0) :
    Tot (denseSolve lower unit atrans a xtrans x) (fun x' => x'.rows = x.rows ∧ x'.cols = x.cols ∧
      ∀ i < a.rows, ∀ q < x.ocols xtrans, ∑ j ∈ Finset.range a.rows, op atrans (tri lower unit a.e) i j * x'.oe xtrans j q =
        x.oe xtrans i q) := by
  unfold denseSolve
  obtain ⟨va, ea⟩ := load_valid_a (a := a) (x := x)
  obtain ⟨vx, ex⟩ := load_valid_x (a := a) (x := x)
  have hmin : min a.rows a.cols = a.rows := by omega
  have hor : opRows xtrans (⟨a.rows * a.cols, x.rows, x.rows, x.cols⟩ : Mat) = x.orows xtrans := rfl
  refine Tot.bind (trisolve_tot va vx load_disj lower unit atrans xtrans (by rw [hor]; show min a.rows a.cols ≤ _; omega) ?_) ?_
  · intro hu j hj
    replace hj : j < min a.rows a.cols := hj
    rw [ea j (by omega) j (by omega)]
    exact hD hu j (by omega)
  rintro m' - ⟨X, h1, h2, -⟩
  refine Tot.pure ⟨rfl, rfl, fun i hi q hq => ?_⟩
  have h2' := h2 i (by show i < min a.rows a.cols; omega) q
  replace h2' : ∑ j ∈ Finset.range (min a.rows a.cols), _ = _ := h2'
  rw [hmin] at h2'
  have eX : ∀ j < x.orows xtrans, op xtrans X j q = VMat.oe xtrans ⟨x.rows, x.cols, (⟨a.rows * a.cols, x.rows, x.rows, x.cols⟩ : Mat).val m'⟩ j q := by
    intro j hj
    cases xtrans
    · exact (h1.2.1 j hj q hq).symm
    · exact congrArg star (h1.2.1 q hq j hj).symm
  have e0 : op xtrans ((⟨a.rows * a.cols, x.rows, x.rows, x.cols⟩ : Mat).val (loadMem a x)) i q = x.oe xtrans i q := by
    cases xtrans
    · exact ex i (by unfold VMat.orows at hx; simp at hx; omega) q hq
    · exact congrArg star (ex q hq i (by unfold VMat.orows at hx; simp at hx; omega))
  rw [← e0, ← h2']
  refine Finset.sum_congr rfl fun j hj => ?_
  have hj' := Finset.mem_range.mp hj
  rw [eX j (by omega)]
  congr 1
  apply optri_congr
  · cases atrans
    · exact (ea i hi j (by omega)).symm
    · exact congrArg star (ea j hj' i (by omega)).symm
  · cases atrans
    · exact (ea i hi i (by omega)).symm
    · exact congrArg star (ea i hi i (by omega)).symm

/-! ### blocks -/

theorem _root_.H2.Spec.SqOk.eq {h : HV G K} (hs : SqOk h) : h.rc = h.cc := by
  cases h with
  | rk => exact hs.elim
  | full t s f => exact hs
  | super t s m n son => exact hs.1

theorem hval_son {t s : CRef G} {m n : Nat} {son : Fin m → Fin n → HV G K} {R : Fin m → CRef G} {C : Fin n → CRef G}
    (hRC : ∀ i j, (son i j).rc = R i ∧ (son i j).cc = C j) (hok : ∀ i j, HVOk (son i j)) (hR : Segments t R) (hC : Segments s C)
    {i : Fin m} {j : Fin n} {r c : Nat} (hr : r ∈ seg (R i)) (hc : c ∈ seg (C j)) :
    hval (.super t s m n son) r c = hval (son i j) r c := by
  rw [hval_super, Finset.sum_eq_single i, Finset.sum_eq_single j]
  · intro j' _ hj
    refine hval_out (hok i j') fun h => hj ?_
    rw [(hRC i j').2] at h
    exact seg_unique hC h.2 hc
  · intro h; exact absurd (Finset.mem_univ _) h
  · intro i' _ hi
    refine Finset.sum_eq_zero fun j' _ => hval_out (hok i' j') fun h => hi ?_
    rw [(hRC i' j').1] at h
    exact seg_unique hR h.1 hr
  · intro h; exact absurd (Finset.mem_univ _) h

/-- `x'` solves the triangular system with the right-hand side `x`. -/
def TSolves (lower unit atrans : Bool) (A : Nat → Nat → K) (t : CRef G) (xtrans : Bool) (x x' : VMat K) : Prop :=
  x'.rows = x.rows ∧ x'.cols = x.cols ∧ ∀ r ∈ seg t, ∀ q,
    ∑ c ∈ seg t, op atrans (tri lower unit A) r c * oat xtrans t.cl.off x' c q = oat xtrans t.cl.off x r q

theorem getSon_ok {m n : Nat} {son : Fin m → Fin n → HV G K} {i j : Nat} (hi : i < m) (hj : j < n) :
    getSon son i j = .ok (son ⟨i, hi⟩ ⟨j, hj⟩) := by
  unfold getSon; rw [dif_pos ⟨hi, hj⟩]

/-- replacing a window -/
theorem oat_put {trans : Bool} {ro off size : Nat} {b w w' : VMat K} (hs : off + size ≤ b.orows trans)
    (hw1 : w.orows trans = size) (hw2 : w.ocols trans = b.ocols trans) (hw3 : ∀ i j, w.oe trans i j = b.oe trans (off + i) j)
    (hr : w'.rows = w.rows) (hc : w'.cols = w.cols) (r k : Nat) :
    oat trans ro (oglue trans b off w') r k =
      if ro + off ≤ r ∧ r < ro + off + size then oat trans (ro + off) w' r k else oat trans ro b r k := by
  have hw1' : w'.orows trans = size := by unfold VMat.orows at *; rw [hr, hc]; exact hw1
  rw [oat_glue (D := fun r k => oat trans (ro + off) w' r k - oat trans (ro + off) w r k) hs hw1 hw2 hw3 hr hc
    (fun r k => by ring) (fun r k h => by
      unfold oat
      rw [if_neg (fun h' => h (by rw [hw1'] at h'; exact h'.1)), if_neg (fun h' => h (by rw [hw1] at h'; exact h'.1)), sub_zero])]
  by_cases h : ro + off ≤ r ∧ r < ro + off + size
  · rw [if_pos h, oat_sub hw1 hs hw2 hw3 h]; ring
  · rw [if_neg h]
    unfold oat
    rw [if_neg (c := (ro + off ≤ r ∧ r < ro + off + w'.orows trans) ∧ k < w'.ocols trans)
        (fun h' => h (by rw [hw1'] at h'; exact h'.1)),
      if_neg (c := (ro + off ≤ r ∧ r < ro + off + w.orows trans) ∧ k < w.ocols trans)
        (fun h' => h (by rw [hw1] at h'; exact h'.1)), sub_zero, add_zero]

theorem triSolveHA_tot {lower unit atrans xtrans : Bool} : ∀ {a : HV G K} {x : VMat K}, HVOk a → SqOk a →
    x.orows xtrans = a.rsize → (unit = false → ∀ r ∈ seg a.rc, hval a r r ≠ 0) →
    Tot (triSolveHA lower unit atrans xtrans a x) (TSolves lower unit atrans (hval a) a.rc xtrans x) := by
  intro a
  induction a with
  | rk t s r => intro x _ hs; exact hs.elim
  | full t s f =>
    intro x ho hs hx hD
    obtain rfl : t = s := hs
    unfold triSolveHA
    refine Tot.cassert (same_refl t) (Tot.cassert (decide_eq_true (show t.cl.size = _ from hx.symm)) ?_)
    obtain ⟨h1, h2⟩ := ho
    have eh : ∀ i < t.cl.size, ∀ j < t.cl.size, hval (.full t t f) (t.cl.off + i) (t.cl.off + j) = f.e i j := by
      intro i hi j hj
      rw [hval_full, if_pos (by rw [mem_seg, mem_seg]; omega), Nat.add_sub_cancel_left, Nat.add_sub_cancel_left]
    refine (denseSolve_tot (by omega) (by rw [h1]; exact hx) ?_).mono ?_
    · intro hu j hj
      rw [← eh j (by omega) j (by omega)]
      exact hD hu _ (by rw [mem_seg]; show t.cl.off ≤ _ ∧ _ < t.cl.off + t.cl.size; omega)
    · rintro x' ⟨g1, g2, g3⟩
      refine ⟨g1, g2, fun r hr q => ?_⟩
      have er : x'.orows xtrans = t.cl.size := by unfold VMat.orows at *; rw [g1, g2]; exact hx
      have ec : x'.ocols xtrans = x.ocols xtrans := by unfold VMat.ocols; rw [g1, g2]
      have hx' : x.orows xtrans = t.cl.size := hx
      replace hr := mem_seg.mp hr
      show ∑ c ∈ seg t, _ = _
      rw [sum_seg]
      unfold oat
      replace hr : t.cl.off ≤ r ∧ r < t.cl.off + t.cl.size := hr
      show ∑ i ∈ Finset.range t.cl.size, op atrans (tri lower unit (hval (.full t t f))) r (t.cl.off + i) *
        (if (t.cl.off ≤ t.cl.off + i ∧ t.cl.off + i < t.cl.off + x'.orows xtrans) ∧ q < x'.ocols xtrans then
          x'.oe xtrans (t.cl.off + i - t.cl.off) q else 0) =
        if (t.cl.off ≤ r ∧ r < t.cl.off + x.orows xtrans) ∧ q < x.ocols xtrans then x.oe xtrans (r - t.cl.off) q else 0
      rw [er, ec, hx']
      by_cases hq : q < x.ocols xtrans
      · rw [if_pos ⟨hr, hq⟩, ← g3 (r - t.cl.off) (by omega) q hq, h1]
        refine Finset.sum_congr rfl fun j hj => ?_
        have hj' := Finset.mem_range.mp hj
        rw [if_pos ⟨⟨by omega, by omega⟩, hq⟩, Nat.add_sub_cancel_left]
        congr 1
        obtain ⟨i, rfl⟩ : ∃ i, r = t.cl.off + i := ⟨r - t.cl.off, by omega⟩
        rw [op_tri, op_tri, Nat.add_sub_cancel_left]
        simp only [Nat.add_right_inj, Nat.add_lt_add_iff_left]
        have e1 : op atrans (hval (.full t t f)) (t.cl.off + i) (t.cl.off + i) = op atrans f.e i i := by
          unfold op; rw [eh i (by omega) i (by omega)]
        have e2 : op atrans (hval (.full t t f)) (t.cl.off + i) (t.cl.off + j) = op atrans f.e i j := by
          unfold op; rw [eh i (by omega) j (by omega), eh j (by omega) i (by omega)]
        rw [e1, e2]
      · rw [if_neg (fun h => hq h.2)]
        exact Finset.sum_eq_zero fun j _ => by rw [if_neg (fun h => hq h.2), mul_zero]
  | super t s m n son ih =>
    intro x ho hs hx hD
    obtain ⟨rfl, e, hs⟩ := hs
    subst e
    obtain ⟨hm, -, ⟨R, C, hRC, hR, hC⟩, hok⟩ := ho
    have hRC' : C = R := by
      funext i
      have := (hs i).eq
      rw [(hRC i _).1, (hRC i _).2] at this
      exact this.symm
    subst hRC'
    obtain ⟨A, hA⟩ : ∃ A, A = hval (HV.super t t m m son) := ⟨_, rfl⟩
    have hAs : ∀ {i j : Fin m} {r c : Nat}, r ∈ seg (C i) → c ∈ seg (C j) → A r c = hval (son i j) r c := by
      intro i j r c hr hc
      rw [hA]; exact hval_son hRC hok hR hC hr hc
    obtain ⟨T, hT⟩ : ∃ T, T = op atrans (tri lower unit A) := ⟨_, rfl⟩
    replace hx : x.orows xtrans = t.cl.size := hx
    have hsz : ∀ i j, (son i j).rsize = (C i).cl.size := fun i j => by unfold HV.rsize; rw [(hRC i j).1]
    obtain ⟨sz, hszd⟩ : ∃ sz : Fin m → Nat, sz = fun k => (C k).cl.size := ⟨_, rfl⟩
    have hoff : ∀ i, (C i).cl.off = t.cl.off + pre sz i.1 := fun i => by rw [hszd]; exact segments_off hR i
    have hend : ∀ i, (C i).cl.off + (C i).cl.size ≤ t.cl.off + t.cl.size := fun i => by
      have := segments_end hR i
      have e := segments_off hR i
      omega
    obtain ⟨fwd, hf⟩ : ∃ fwd, fwd = (lower != atrans) := ⟨_, rfl⟩
    unfold triSolveHA
    refine Tot.cassert (same_refl t) (Tot.cassert (decide_eq_true hx.symm) (Tot.cassert (decide_eq_true rfl) ?_))
    simp only
    rw [← hf]
    -- the outer loop
    refine Tot.bind (sweep_tot (I := fun p (st : VMat K × Nat) => st.1.rows = x.rows ∧ st.1.cols = x.cols ∧ st.2 = pre sz p ∧
      SInv T (seg t) (Done fwd t C p) (oat xtrans t.cl.off x) (oat xtrans t.cl.off st.1)) ?_ ?_) ?_
    · refine ⟨rfl, rfl, ?_, ?_⟩
      · unfold bstart
        cases fwd
        · show t.cl.size = _
          rw [if_neg (by simp), pre_all, hszd, hR.2]
        · show 0 = _
          rw [if_pos rfl, pre_zero]
      · rw [done_start hR]; exact sinv_start fun _ _ _ => rfl
    · rintro i hi ⟨xs, roff⟩ ⟨g1, g2, g3, g4⟩
      replace g1 : xs.rows = _ := g1
      replace g2 : xs.cols = _ := g2
      replace g3 : roff = _ := g3
      replace g4 : SInv T (seg t) (Done fwd t C (bprev fwd i)) (oat xtrans t.cl.off x) (oat xtrans t.cl.off xs) := g4
      subst g3
      have exr : xs.orows xtrans = t.cl.size := by unfold VMat.orows at *; rw [g1, g2]; exact hx
      obtain ⟨ii, hii⟩ : ∃ ii : Fin m, ii = ⟨i, hi⟩ := ⟨_, rfl⟩
      have eii : ii.1 = i := by rw [hii]
      have o1 : t.cl.off + pre sz i = (C ii).cl.off := by rw [hoff ii, eii]
      have l1 : pre sz i + (C ii).cl.size ≤ xs.orows xtrans := by have := hend ii; rw [exr]; omega
      rw [dif_pos ⟨hi, hi⟩, getSon_ok hi hm, ok_bind]
      beta_reduce
      rw [hsz]
      have eoff : offAt fwd (pre sz (bprev fwd i)) ((C ii).cl.size) = .ok (pre sz i) := by
        have := offAt_ok (fwd := fwd) sz ii
        rw [eii] at this
        rw [← this]; rw [hszd]
      rw [← hii, eoff, ok_bind]
      refine Tot.bind (osub_tot l1) ?_
      rintro w - ⟨w1, w2, w3⟩
      have hD' : unit = false → ∀ r ∈ seg (son ii ii).rc, hval (son ii ii) r r ≠ 0 := by
        intro hu r hr
        rw [(hRC ii ii).1] at hr
        rw [← hAs hr hr, hA]
        exact hD hu r (seg_son hR hr)
      refine Tot.bind (ih ii ii (hok ii ii) (hs ii) (by rw [w1, hsz]) hD') ?_
      rintro w' - ⟨k1, k2, k3⟩
      rw [(hRC ii ii).1] at k3
      have w1' : w'.orows xtrans = (C ii).cl.size := by unfold VMat.orows at *; rw [k1, k2]; exact w1
      have w2' : w'.ocols xtrans = xs.ocols xtrans := by unfold VMat.ocols at *; rw [k1, k2]; exact w2
      obtain ⟨xA, hxA⟩ : ∃ xA, xA = oglue xtrans xs (pre sz i) w' := ⟨_, rfl⟩
      have a1 : xA.rows = x.rows := by rw [hxA, oglue_rows.1, g1]
      have a2 : xA.cols = x.cols := by rw [hxA, oglue_rows.2, g2]
      have a3 : ∀ r q, oat xtrans t.cl.off xA r q = if r ∈ seg (C ii) then oat xtrans (C ii).cl.off w' r q
          else oat xtrans t.cl.off xs r q := by
        intro r q
        rw [hxA, oat_put l1 w1 w2 w3 k1 k2, o1]
        by_cases h : r ∈ seg (C ii)
        · rw [if_pos h]; exact if_pos (mem_seg.mp h)
        · rw [if_neg h]; exact if_neg (fun h' => h (mem_seg.mpr h'))
      rw [← hxA]
      have enx : offNext fwd (pre sz i) (C ii).cl.size = pre sz (bnext fwd i) := by
        have := offNext_eq (fwd := fwd) sz ii
        rw [eii] at this
        rw [← this]; rw [hszd]
      rw [enx]
      -- the inner loop
      refine Tot.bind (sweepRest_tot hi (I := fun p (st : VMat K × Nat) => st.1.rows = x.rows ∧ st.1.cols = x.cols ∧
        st.2 = pre sz p ∧ ∀ r q, oat xtrans t.cl.off st.1 r q = oat xtrans t.cl.off xA r q -
          if r ∈ Done fwd t C p ∧ r ∉ Done fwd t C (bnext fwd i) then
            ∑ c ∈ seg (C ii), T r c * oat xtrans t.cl.off xA c q else 0) ?_ ?_) ?_
      · refine ⟨a1, a2, rfl, fun r q => ?_⟩
        rw [if_neg (fun h => h.2 h.1), sub_zero]
      · rintro j hj haf ⟨xs', roff2⟩ ⟨p1, p2, p3, p4⟩
        replace p1 : xs'.rows = _ := p1
        replace p2 : xs'.cols = _ := p2
        replace p3 : roff2 = _ := p3
        subst p3
        replace p4 : ∀ r q, oat xtrans t.cl.off xs' r q = _ := p4
        obtain ⟨jj, hjj⟩ : ∃ jj : Fin m, jj = ⟨j, hj⟩ := ⟨_, rfl⟩
        have ejj : jj.1 = j := by rw [hjj]
        have exr' : xs'.orows xtrans = t.cl.size := by unfold VMat.orows at *; rw [p1, p2]; exact hx
        have exc' : xs'.ocols xtrans = xs.ocols xtrans := by unfold VMat.ocols at *; rw [p1, p2, g1, g2]
        have o2 : t.cl.off + pre sz j = (C jj).cl.off := by rw [hoff jj, ejj]
        have l2 : pre sz j + (C jj).cl.size ≤ xs'.orows xtrans := by have := hend jj; rw [exr']; omega
        rw [getSon_ok hj hm, ok_bind]
        beta_reduce
        rw [hsz]
        have eoff : offAt fwd (pre sz (bprev fwd j)) ((C jj).cl.size) = .ok (pre sz j) := by
          have := offAt_ok (fwd := fwd) sz jj
          rw [ejj] at this
          rw [← this]; rw [hszd]
        rw [← hjj, eoff, ok_bind]
        refine Tot.bind (osub_tot l2) ?_
        rintro v - ⟨v1, v2, v3⟩
        have eson : ∃ b, getSon son (if atrans then i else j) (if atrans then j else i) = .ok b ∧ HVOk b ∧
            b.orc atrans = C jj ∧ b.occ atrans = C ii ∧ ∀ r ∈ seg (C jj), ∀ c ∈ seg (C ii), op atrans A r c = ohval atrans b r c := by
          cases atrans
          · refine ⟨_, getSon_ok hj hi, ?_⟩
            rw [← hii, ← hjj]
            refine ⟨hok jj ii, (hRC jj ii).1, (hRC jj ii).2, fun r hr c hc => ?_⟩
            exact hAs hr hc
          · refine ⟨_, getSon_ok hi hj, ?_⟩
            rw [← hii, ← hjj]
            refine ⟨hok ii jj, (hRC ii jj).2, (hRC ii jj).1, fun r hr c hc => ?_⟩
            exact congrArg star (hAs hc hr)
        obtain ⟨b, eb, hb, b1, b2, b3⟩ := eson
        rw [eb, ok_bind]
        refine Tot.bind (addmulHAA_tot (-1) atrans xtrans xtrans hb (by rw [b2]; exact w1') (by rw [w2', v2, exc'])
          (by rw [b1]; exact v1)) ?_
        rintro v' - ⟨q1, q2, q3⟩
        rw [b1, b2] at q3
        have enx' : offNext fwd (pre sz j) (C jj).cl.size = pre sz (bnext fwd j) := by
          have := offNext_eq (fwd := fwd) sz jj
          rw [ejj] at this
          rw [← this]; rw [hszd]
        rw [enx']
        refine Tot.pure ⟨by rw [oglue_rows.1]; exact p1, by rw [oglue_rows.2]; exact p2, rfl, fun r q => ?_⟩
        show oat xtrans t.cl.off (oglue xtrans xs' (pre sz j) v') r q = _
        have h0 : ∀ r k, ¬ (t.cl.off + pre sz j ≤ r ∧ r < t.cl.off + pre sz j + (C jj).cl.size) →
            -1 * ∑ l ∈ seg (C ii), ohval atrans b r l * oat xtrans (C ii).cl.off w' l k = 0 := by
          intro r k h
          rw [Finset.sum_eq_zero, mul_zero]
          intro l _
          rw [ohval_out hb (fun h' => h (by rw [o2]; rw [b1] at h'; exact mem_seg.mp h'.1)), zero_mul]
        rw [oat_glue (D := fun r k => -1 * ∑ l ∈ seg (C ii), ohval atrans b r l * oat xtrans (C ii).cl.off w' l k)
          l2 v1 v2 v3 q1 q2 (fun r k => by rw [o2]; exact q3 r k) h0, p4]
        have nx : ∀ r, r ∈ Done fwd t C (bnext fwd j) ↔ r ∈ Done fwd t C (bprev fwd j) ∨ r ∈ seg (C jj) := by
          intro r
          have := done_next (fwd := fwd) hR jj (r := r)
          rw [ejj] at this; exact this
        by_cases hr : r ∈ seg (C jj)
        · have n1 : r ∉ Done fwd t C (bprev fwd j) := by
            have := done_not (fwd := fwd) hR jj hr
            rw [ejj] at this; exact this
          have n2 : r ∉ Done fwd t C (bnext fwd i) := by
            have := after_not (fwd := fwd) hR ii jj (by rw [eii, ejj]; exact haf) hr
            rw [eii] at this; exact this
          rw [if_neg (fun h => n1 h.1), if_pos ⟨(nx r).mpr (.inr hr), n2⟩, sub_zero, neg_one_mul, ← sub_eq_add_neg]
          congr 1
          refine Finset.sum_congr rfl fun c hc => ?_
          rw [a3, if_pos hc, hT, op_tri_after hR ii jj (by rw [← hf, eii, ejj]; exact haf) hr hc, b3 r hr c hc]
        · have e1 : (r ∈ Done fwd t C (bnext fwd j) ∧ r ∉ Done fwd t C (bnext fwd i)) ↔
              (r ∈ Done fwd t C (bprev fwd j) ∧ r ∉ Done fwd t C (bnext fwd i)) := by
            rw [nx]
            exact ⟨fun h => ⟨h.1.resolve_right hr, h.2⟩, fun h => ⟨.inl h.1, h.2⟩⟩
          rw [h0 r q (fun h => hr (by rw [mem_seg, ← o2]; exact h)), add_zero]
          simp only [e1]
      · rintro ⟨xf, ro2⟩ - ⟨p1, p2, p3, p4⟩
        replace p1 : xf.rows = _ := p1
        replace p2 : xf.cols = _ := p2
        replace p3 : ro2 = _ := p3
        replace p4 : ∀ r q, oat xtrans t.cl.off xf r q = _ := p4
        rw [done_end hR] at p4
        refine Tot.cassert (decide_eq_true ?_) (Tot.pure ⟨p1, p2, rfl, ?_⟩)
        · show ro2 = _
          rw [p3]
          unfold bend
          cases fwd
          · rw [if_neg (by simp), if_neg (by simp), pre_zero]
          · rw [if_pos rfl, if_pos rfl, pre_all, hszd, hR.2]
        · show SInv T (seg t) (Done fwd t C (bnext fwd i)) (oat xtrans t.cl.off x) (oat xtrans t.cl.off xf)
          have nx : ∀ r, r ∈ Done fwd t C (bnext fwd i) ↔ r ∈ Done fwd t C (bprev fwd i) ∨ r ∈ seg (C ii) := by
            intro r
            have := done_next (fwd := fwd) hR ii (r := r)
            rw [eii] at this; exact this
          have nn : ∀ r ∈ seg (C ii), r ∉ Done fwd t C (bprev fwd i) := by
            intro r hr
            have := done_not (fwd := fwd) hR ii hr
            rw [eii] at this; exact this
          have old : ∀ r ∈ Done fwd t C (bnext fwd i), ∀ q, oat xtrans t.cl.off xf r q = oat xtrans t.cl.off xA r q := by
            intro r hr q
            rw [p4, if_neg (fun h => h.2 hr), sub_zero]
          refine sinv_step g4 nx nn (fun r hr => seg_son hR hr) ?_ ?_ ?_ ?_
          · intro r hr c hc
            rw [hT]
            exact op_tri_zero hR ii (by rw [← hf, eii]; exact hr) hc
          · intro r hr q
            rw [old r ((nx r).mpr (.inl hr)), a3, if_neg (fun h => nn r h hr)]
          · intro r hr q
            have e1 : oat xtrans t.cl.off xs r q = oat xtrans (C ii).cl.off w r q := by
              rw [← o1]
              exact (oat_sub w1 l1 w2 w3 (by rw [o1]; exact mem_seg.mp hr) q).symm
            rw [e1, ← k3 r hr q]
            refine Finset.sum_congr rfl fun c hc => ?_
            rw [old c ((nx c).mpr (.inr hc)), a3, if_pos hc, hT]
            congr 1
            apply optri_congr
            · cases atrans
              · exact hAs hr hc
              · exact congrArg star (hAs hc hr)
            · cases atrans
              · exact hAs hr hr
              · exact congrArg star (hAs hr hr)
          · intro r hr hn q
            rw [p4, if_pos ⟨hr, hn⟩, a3 r, if_neg (fun h => hn ((nx r).mpr (.inr h)))]
            congr 1
            refine Finset.sum_congr rfl fun c hc => ?_
            rw [old c ((nx c).mpr (.inr hc))]
    · rintro ⟨xf, ro⟩ - ⟨g1, g2, g3, g4⟩
      replace g1 : xf.rows = _ := g1
      replace g2 : xf.cols = _ := g2
      replace g3 : ro = _ := g3
      replace g4 : SInv T (seg t) (Done fwd t C (bend fwd m)) (oat xtrans t.cl.off x) (oat xtrans t.cl.off xf) := g4
      rw [done_end hR] at g4
      refine Tot.cassert (decide_eq_true ?_) (Tot.pure ⟨g1, g2, ?_⟩)
      · show ro = _
        rw [g3]
        unfold bend
        cases fwd
        · rw [if_neg (by simp), if_neg (by simp), pre_zero]
        · rw [if_pos rfl, if_pos rfl, pre_all, hszd, hR.2]
      · rw [hT, hA] at g4
        exact g4.1

end HV
end H2
