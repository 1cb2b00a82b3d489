import Verif.Spec.Harith
import Verif.Proof.HMatrix2
import Mathlib.Algebra.Star.BigOperators
import Mathlib.Algebra.BigOperators.Intervals
import Mathlib.Tactic.Ring

set_option linter.unusedSectionVars false

namespace H2
open Spec

/-! ### segments -/

/-- the positions of a cluster -/
def seg {G : Type _} (t : CRef G) : Finset Nat := Finset.Ico t.cl.off (t.cl.off + t.cl.size)

theorem mem_seg {G : Type _} {t : CRef G} {r : Nat} : r ∈ seg t ↔ t.cl.off ≤ r ∧ r < t.cl.off + t.cl.size :=
  Finset.mem_Ico

theorem sum_seg {G M : Type _} [AddCommMonoid M] (t : CRef G) (f : Nat → M) :
    ∑ l ∈ seg t, f l = ∑ l ∈ Finset.range t.cl.size, f (t.cl.off + l) := by
  unfold seg
  rw [Finset.sum_Ico_eq_sum_range]
  congr 2
  omega

theorem pre_mono {n : Nat} (f : Fin n → Nat) {a b : Nat} (h : a ≤ b) : pre f a ≤ pre f b := by
  unfold pre
  refine Finset.sum_le_sum fun k _ => ?_
  by_cases h1 : k.1 < a
  · rw [if_pos h1, if_pos (by omega)]
  · rw [if_neg h1]; exact Nat.zero_le _

theorem segments_off {G : Type _} {t : CRef G} {n : Nat} {R : Fin n → CRef G} (h : Segments t R) (i : Fin n) :
    (R i).cl.off = t.cl.off + pre (fun k => (R k).cl.size) i.1 := h.1 i

theorem segments_end {G : Type _} {t : CRef G} {n : Nat} {R : Fin n → CRef G} (h : Segments t R) (i : Fin n) :
    pre (fun k => (R k).cl.size) i.1 + (R i).cl.size ≤ t.cl.size := by
  have := pre_le (fun k => (R k).cl.size) i
  rw [h.2] at this
  exact this

theorem seg_son {G : Type _} {t : CRef G} {n : Nat} {R : Fin n → CRef G} (h : Segments t R) {i : Fin n} {r : Nat}
    (hr : r ∈ seg (R i)) : r ∈ seg t := by
  rw [mem_seg] at *
  have := segments_off h i
  have := segments_end h i
  omega

theorem seg_unique {G : Type _} {t : CRef G} {n : Nat} {R : Fin n → CRef G} (h : Segments t R) {i j : Fin n} {r : Nat}
    (hi : r ∈ seg (R i)) (hj : r ∈ seg (R j)) : i = j := by
  have key : ∀ {i j : Fin n}, i.1 < j.1 → r ∈ seg (R i) → r ∈ seg (R j) → False := by
    intro i j hij h1 h2
    rw [mem_seg] at h1 h2
    have e1 := segments_off h i
    have e2 := segments_off h j
    have e3 := pre_succ (fun k => (R k).cl.size) i
    have e4 := pre_mono (fun k => (R k).cl.size) (show i.1 + 1 ≤ j.1 from hij)
    omega
  rcases Nat.lt_trichotomy i.1 j.1 with h1 | h1 | h1
  · exact (key h1 hi hj).elim
  · exact Fin.ext h1
  · exact (key h1 hj hi).elim

theorem sum_hsegs {G M : Type _} [AddCommMonoid M] {t : CRef G} {n : Nat} {R : Fin n → CRef G} (h : Segments t R)
    (f : Nat → M) : ∑ l ∈ seg t, f l = ∑ i, ∑ l ∈ seg (R i), f l := by
  have key : ∀ k, k ≤ n → ∑ l ∈ Finset.Ico t.cl.off (t.cl.off + pre (fun k => (R k).cl.size) k), f l =
      pre (fun i => ∑ l ∈ seg (R i), f l) k := by
    intro k
    induction k with
    | zero => intro _; simp [pre_zero]
    | succ k ih =>
      intro hk
      have e := pre_succ (fun k => (R k).cl.size) ⟨k, hk⟩
      have e' := pre_succ (fun i => ∑ l ∈ seg (R i), f l) ⟨k, hk⟩
      simp only at e e'
      rw [e', e, ← ih (by omega)]
      have := segments_off h ⟨k, hk⟩
      simp only at this
      rw [seg, this, ← Nat.add_assoc]
      rw [Finset.sum_Ico_consecutive] <;> omega
  have := key n (le_refl _)
  rw [pre_all, pre_all, h.2] at this
  exact this

theorem sum_pick_seg {G M : Type _} [AddCommMonoid M] {t : CRef G} {n : Nat} {R : Fin n → CRef G} (h : Segments t R)
    (r : Nat) (a : M) : (∑ i, if r ∈ seg (R i) then a else 0) = if r ∈ seg t then a else 0 := by
  have := sum_hsegs h (fun l => if l = r then a else 0)
  simp only [Finset.sum_ite_eq'] at this
  exact this.symm

variable {G K : Type} [Field K] [StarRing K]

/-! ### values -/

theorem hval_rk (t s : CRef G) (x : VRk K) (r c : Nat) : hval (.rk t s x) r c =
    if r ∈ seg t ∧ c ∈ seg s then rkVal x (r - t.cl.off) (c - s.cl.off) else 0 := by
  rw [hval]
  simp only [mem_seg]

theorem hval_full (t s : CRef G) (x : VMat K) (r c : Nat) : hval (.full t s x) r c =
    if r ∈ seg t ∧ c ∈ seg s then x.e (r - t.cl.off) (c - s.cl.off) else 0 := by
  rw [hval]
  simp only [mem_seg]

theorem hval_super (t s : CRef G) {m n : Nat} (son : Fin m → Fin n → HV G K) (r c : Nat) :
    hval (.super t s m n son) r c = ∑ i, ∑ j, hval (son i j) r c := by rw [hval]

theorem hval_out : ∀ {h : HV G K}, HVOk h → ∀ {r c : Nat}, (r ∈ seg h.rc ∧ c ∈ seg h.cc → False) → hval h r c = 0 := by
  intro h
  induction h with
  | rk t s x => intro _ r c hn; rw [hval_rk]; exact if_neg hn
  | full t s x => intro _ r c hn; rw [hval_full]; exact if_neg hn
  | super t s m n son ih =>
    rintro ⟨_, _, ⟨R, C, hrc, hR, hC⟩, hs⟩ r c hn
    rw [hval_super]
    refine Finset.sum_eq_zero fun i _ => Finset.sum_eq_zero fun j _ => ?_
    refine ih i j (hs i j) fun hm => hn ?_
    rw [(hrc i j).1, (hrc i j).2] at hm
    exact ⟨seg_son hR hm.1, seg_son hC hm.2⟩

/-- the represented matrix or its adjoint -/
def ohval (trans : Bool) (h : HV G K) (r c : Nat) : K := if trans then star (hval h c r) else hval h r c

theorem ohval_out {trans : Bool} {h : HV G K} (ho : HVOk h) {r c : Nat}
    (hn : r ∈ seg (h.orc trans) ∧ c ∈ seg (h.occ trans) → False) : ohval trans h r c = 0 := by
  unfold ohval HV.orc HV.occ at *
  cases trans
  · exact hval_out ho hn
  · rw [if_pos rfl, hval_out ho (fun h => hn ⟨h.2, h.1⟩), star_zero]

theorem hentry_ohval (trans : Bool) (h : HV G K) (i j : Nat) :
    ohentry trans h i j = ohval trans h ((h.orc trans).cl.off + i) ((h.occ trans).cl.off + j) := by
  unfold ohentry ohval hentry HV.orc HV.occ
  cases trans <;> rfl

/-! ### dense matrices -/

namespace HV

theorem sub_tot {a : VMat K} {rows roff cols coff : Nat} (h1 : roff + rows ≤ a.rows) (h2 : coff + cols ≤ a.cols) :
    a.sub rows roff cols coff = .ok ⟨rows, cols, fun i j => a.e (roff + i) (coff + j)⟩ := by
  unfold VMat.sub
  rw [cassert_true (by simpa using h1), ok_bind, cassert_true (by simpa using h2), ok_bind]
  rfl

theorem copy_tot {atrans : Bool} {a : VMat K} {rows cols : Nat} (h1 : a.orows atrans = rows)
    (h2 : a.ocols atrans = cols) : a.copy atrans rows cols = .ok ⟨rows, cols, a.oe atrans⟩ := by
  unfold VMat.copy
  rw [cassert_true (by simpa using h1), ok_bind, cassert_true (by simpa using h2), ok_bind]
  rfl

theorem add_tot {alpha : K} {atrans : Bool} {a b : VMat K} (h1 : a.orows atrans = b.rows) (h2 : a.ocols atrans = b.cols) :
    Tot (VMat.add alpha atrans a b) (fun c => c.rows = b.rows ∧ c.cols = b.cols ∧
      ∀ i < b.rows, ∀ j < b.cols, c.e i j = b.e i j + alpha * a.oe atrans i j) := by
  unfold VMat.add
  rw [cassert_true (by simpa using h1.le), ok_bind, cassert_true (by simpa using h2.le), ok_bind]
  refine Tot.pure ⟨rfl, rfl, fun i hi j hj => ?_⟩
  simp only
  rw [if_pos ⟨by omega, by omega⟩]

theorem addmul_tot {alpha : K} {at' bt : Bool} {a b c : VMat K} (h1 : a.ocols at' = b.orows bt)
    (h2 : c.rows = a.orows at') (h3 : c.cols = b.ocols bt) :
    Tot (VMat.addmul alpha at' a bt b c) (fun c' => c'.rows = c.rows ∧ c'.cols = c.cols ∧
      ∀ i < c.rows, ∀ j < c.cols, c'.e i j = c.e i j +
        alpha * ∑ l ∈ Finset.range (a.ocols at'), a.oe at' i l * b.oe bt l j) := by
  unfold VMat.addmul
  by_cases h0 : a.rows = 0 ∨ a.cols = 0 ∨ b.rows = 0 ∨ b.cols = 0
  · rw [if_pos h0]
    refine Tot.pure ⟨rfl, rfl, fun i hi j hj => ?_⟩
    have : a.ocols at' = 0 := by
      unfold VMat.orows VMat.ocols at *
      cases at' <;> cases bt <;> simp at * <;> omega
    rw [this]; simp
  · rw [if_neg h0, cassert_true (by simpa using h2.ge), ok_bind, cassert_true (by simpa using h3.ge), ok_bind,
      cassert_true (by simpa using h1), ok_bind]
    refine Tot.pure ⟨rfl, rfl, fun i hi j hj => ?_⟩
    simp only
    rw [if_pos ⟨by omega, by omega⟩]

/-- `c += alpha op(a) op(b)` with `c` stored as it is or as its adjoint -/
theorem oaddmul_tot {alpha : K} {at' bt ct : Bool} {a b c : VMat K} (h1 : a.ocols at' = b.orows bt)
    (h2 : c.orows ct = a.orows at') (h3 : c.ocols ct = b.ocols bt) :
    Tot (if ct then VMat.addmul (star alpha) (!bt) b (!at') a c else VMat.addmul alpha at' a bt b c)
      (fun c' => c'.rows = c.rows ∧ c'.cols = c.cols ∧
      ∀ i < c.orows ct, ∀ j < c.ocols ct, c'.oe ct i j = c.oe ct i j +
        alpha * ∑ l ∈ Finset.range (a.ocols at'), a.oe at' i l * b.oe bt l j) := by
  have hf : ∀ (x : VMat K) (t : Bool), x.orows (!t) = x.ocols t ∧ x.ocols (!t) = x.orows t := by
    intro x t; cases t <;> exact ⟨rfl, rfl⟩
  cases ct with
  | false => exact addmul_tot h1 h2 h3
  | true =>
    rw [if_pos rfl]
    refine Tot.mono (addmul_tot (by rw [(hf b bt).2, (hf a at').1, h1]) (by rw [(hf b bt).1, ← h3]; rfl)
      (by rw [(hf a at').2, ← h2]; rfl)) ?_
    rintro c' ⟨e1, e2, e3⟩
    refine ⟨e1, e2, fun i hi j hj => ?_⟩
    have hi' : i < c.cols := hi
    have hj' : j < c.rows := hj
    unfold VMat.oe at *
    simp only [if_true]
    rw [e3 j hj' i hi', star_add, star_mul', star_star, star_sum, (hf b bt).2, h1]
    congr 2
    refine Finset.sum_congr rfl fun l _ => ?_
    rw [star_mul']
    cases bt <;> cases at' <;> simp [mul_comm]

end HV

/-! ### loops over block rows or columns -/

theorem addloop {σ : Type} {n : Nat} {f : Fin n → σ × Nat → R (σ × Nat)} (I : σ → Prop) (Gv : σ → Nat → Nat → K)
    (D : Fin n → Nat → Nat → K) (sz : Fin n → Nat)
    (h : ∀ i s, I s → Tot (f i (s, pre sz i.1)) (fun st => I st.1 ∧ st.2 = pre sz (i.1 + 1) ∧
      ∀ r c, Gv st.1 r c = Gv s r c + D i r c)) {s0 : σ} (hI : I s0) :
    Tot (foldFinM n f (s0, 0)) (fun st => I st.1 ∧ st.2 = ∑ i, sz i ∧ ∀ r c, Gv st.1 r c = Gv s0 r c + ∑ i, D i r c) := by
  refine Tot.mono (foldFinM_tot (P := fun k (st : σ × Nat) => I st.1 ∧ st.2 = pre sz k ∧
    ∀ r c, Gv st.1 r c = Gv s0 r c + pre (fun i => D i r c) k) ?_ ?_) ?_
  · exact ⟨hI, (pre_zero _).symm, fun r c => by rw [pre_zero, add_zero]⟩
  · rintro i ⟨s, o⟩ ⟨h1, h2, h3⟩
    replace h2 : o = _ := h2
    subst h2
    refine Tot.mono (h i s h1) ?_
    rintro ⟨s', o'⟩ ⟨g1, g2, g3⟩
    refine ⟨g1, g2, fun r c => ?_⟩
    rw [g3, h3, pre_succ, add_assoc]
  · rintro ⟨s, o⟩ ⟨h1, h2, h3⟩
    refine ⟨h1, by rw [← pre_all]; exact h2, fun r c => ?_⟩
    rw [← pre_all]; exact h3 r c

/-- the entries of a dense matrix whose rows belong to the positions from `ro` on -/
def oat (trans : Bool) (ro : Nat) (b : VMat K) (r k : Nat) : K :=
  if (ro ≤ r ∧ r < ro + b.orows trans) ∧ k < b.ocols trans then b.oe trans (r - ro) k else 0

namespace HV

theorem osub_tot {trans : Bool} {b : VMat K} {size off : Nat} (h : off + size ≤ b.orows trans) :
    Tot (osub trans b size off) (fun w => w.orows trans = size ∧ w.ocols trans = b.ocols trans ∧
      ∀ i j, w.oe trans i j = b.oe trans (off + i) j) := by
  unfold osub
  cases trans with
  | true =>
    rw [if_pos rfl, sub_tot (by omega) (by exact h)]
    refine ⟨_, rfl, rfl, rfl, fun i j => ?_⟩
    simp [VMat.oe]
  | false =>
    rw [if_neg (by simp), sub_tot (by exact h) (by omega)]
    refine ⟨_, rfl, rfl, rfl, fun i j => ?_⟩
    simp [VMat.oe]

theorem oglue_rows {trans : Bool} {b w : VMat K} {off : Nat} : (oglue trans b off w).rows = b.rows ∧
    (oglue trans b off w).cols = b.cols := by
  unfold oglue; cases trans <;> exact ⟨rfl, rfl⟩

theorem oglue_oe {trans : Bool} {b w : VMat K} {off : Nat} (i j : Nat) (hw : w.ocols trans = b.ocols trans)
    (hj : j < b.ocols trans) : (oglue trans b off w).oe trans i j =
      if off ≤ i ∧ i < off + w.orows trans then w.oe trans (i - off) j else b.oe trans i j := by
  unfold oglue VMat.glue VMat.oe VMat.orows VMat.ocols at *
  cases trans with
  | true =>
    simp only [if_true] at *
    by_cases h : off ≤ i ∧ i < off + w.cols
    · rw [if_pos h, if_pos ⟨by omega, by omega, h.1, h.2⟩, Nat.sub_zero]
    · rw [if_neg h, if_neg (fun h' => h ⟨h'.2.2.1, h'.2.2.2⟩)]
  | false =>
    simp only [Bool.false_eq_true, if_false] at *
    by_cases h : off ≤ i ∧ i < off + w.rows
    · rw [if_pos h, if_pos ⟨h.1, h.2, by omega, by omega⟩, Nat.sub_zero]
    · rw [if_neg h, if_neg (fun h' => h ⟨h'.1, h'.2.1⟩)]

/-- a window that is changed by adding `D` -/
theorem oat_glue {trans : Bool} {ro off size : Nat} {b w w' : VMat K} {D : Nat → Nat → K}
    (hs : off + size ≤ b.orows trans)
    (hw1 : w.orows trans = size) (hw2 : w.ocols trans = b.ocols trans) (hw3 : ∀ i j, w.oe trans i j = b.oe trans (off + i) j)
    (hr : w'.rows = w.rows) (hc : w'.cols = w.cols)
    (hD : ∀ r k, oat trans (ro + off) w' r k = oat trans (ro + off) w r k + D r k)
    (hD0 : ∀ r k, ¬ (ro + off ≤ r ∧ r < ro + off + size) → D r k = 0) (r k : Nat) :
    oat trans ro (oglue trans b off w') r k = oat trans ro b r k + D r k := by
  have hw1' : w'.orows trans = size := by unfold VMat.orows at *; rw [hr, hc]; exact hw1
  have hw2' : w'.ocols trans = b.ocols trans := by unfold VMat.ocols at *; rw [hr, hc]; exact hw2
  have ho : (oglue trans b off w').orows trans = b.orows trans := by
    unfold VMat.orows; rw [oglue_rows.1, oglue_rows.2]
  have hoc : (oglue trans b off w').ocols trans = b.ocols trans := by
    unfold VMat.ocols; rw [oglue_rows.1, oglue_rows.2]
  have hDk : ∀ r, ¬ k < b.ocols trans → D r k = 0 := by
    intro r hk
    have := hD r k
    unfold oat at this
    rw [if_neg (by rw [hw2']; exact fun h => hk h.2), if_neg (by rw [hw2]; exact fun h => hk h.2), zero_add] at this
    exact this.symm
  unfold oat
  rw [ho, hoc]
  by_cases hin : (ro ≤ r ∧ r < ro + b.orows trans) ∧ k < b.ocols trans
  · rw [if_pos hin, if_pos hin, oglue_oe _ _ hw2' hin.2, hw1']
    by_cases hwin : off ≤ r - ro ∧ r - ro < off + size
    · rw [if_pos hwin]
      have := hD r k
      unfold oat at this
      rw [if_pos (by rw [hw1', hw2']; exact ⟨by omega, hin.2⟩), if_pos (by rw [hw1, hw2]; exact ⟨by omega, hin.2⟩),
        hw3] at this
      rw [Nat.sub_sub, this]
      congr 2
      omega
    · rw [if_neg hwin, hD0 r k (by omega), add_zero]
  · rw [if_neg hin, if_neg hin, zero_add]
    by_cases hk : k < b.ocols trans
    · exact (hD0 r k (by intro h; exact hin ⟨by omega, hk⟩)).symm
    · exact (hDk r hk).symm

/-- from local to global numbering -/
theorem oat_of_local {alpha : K} {bt ct : Bool} {t s : CRef G} {F : Nat → Nat → K} {H : Nat → Nat → K} {b c c' : VMat K}
    (hb : b.orows bt = s.cl.size) (hbc : b.ocols bt = c.ocols ct) (hc : c.orows ct = t.cl.size)
    (hr : c'.rows = c.rows) (hcc : c'.cols = c.cols)
    (hl : ∀ i < t.cl.size, ∀ k < c.ocols ct, c'.oe ct i k = c.oe ct i k +
      alpha * ∑ l ∈ Finset.range s.cl.size, F i l * b.oe bt l k)
    (hF : ∀ r, ∀ c ∈ seg s, H r c = if r ∈ seg t then F (r - t.cl.off) (c - s.cl.off) else 0) (r k : Nat) :
    oat ct t.cl.off c' r k = oat ct t.cl.off c r k + alpha * ∑ l ∈ seg s, H r l * oat bt s.cl.off b l k := by
  have hc' : c'.orows ct = t.cl.size := by unfold VMat.orows at *; rw [hr, hcc]; exact hc
  have hcols : c'.ocols ct = c.ocols ct := by unfold VMat.ocols at *; rw [hr, hcc]
  unfold oat
  rw [hc, hc', hcols, hb, hbc]
  by_cases hin : (t.cl.off ≤ r ∧ r < t.cl.off + t.cl.size) ∧ k < c.ocols ct
  · rw [if_pos hin, if_pos hin, hl _ (by omega) k hin.2, sum_seg]
    congr 2
    refine Finset.sum_congr rfl fun l hl => ?_
    rw [Finset.mem_range] at hl
    rw [hF r _ (by rw [mem_seg]; omega), if_pos (by rw [mem_seg]; exact hin.1), if_pos ⟨by omega, hin.2⟩,
      Nat.add_sub_cancel_left]
  · rw [if_neg hin, if_neg hin, zero_add]
    symm
    rw [Finset.sum_eq_zero, mul_zero]
    intro l hl
    by_cases hr : r ∈ seg t
    · rw [if_neg (fun h => hin ⟨mem_seg.1 hr, h.2⟩), mul_zero]
    · rw [hF r l hl, if_neg hr, zero_mul]

theorem addmulRkAm_tot {alpha : K} {xt yt zt : Bool} {x : VRk K} {y z : VMat K} (hx : RkOk x)
    (h1 : z.orows zt = if xt then x.B.rows else x.A.rows) (h2 : z.ocols zt = y.ocols yt)
    (h3 : y.orows yt = if xt then x.A.rows else x.B.rows) :
    Tot (addmulRkAm alpha xt x yt y zt z) (fun z' => z'.rows = z.rows ∧ z'.cols = z.cols ∧
      ∀ i < z.orows zt, ∀ k < z.ocols zt, z'.oe zt i k = z.oe zt i k +
        alpha * ∑ l ∈ Finset.range (y.orows yt), (if xt then star (rkVal x l i) else rkVal x i l) * y.oe yt l k) := by
  have main : ∀ (P Q : VMat K), P.cols = x.k → Q.cols = x.k → z.orows zt = P.rows → y.orows yt = Q.rows →
      Tot (VMat.addmul 1 true Q yt y (.zero x.k (y.ocols yt)) >>= fun ay =>
        if zt then VMat.addmul (star alpha) true ay true P z else VMat.addmul alpha false P false ay z)
      (fun z' => z'.rows = z.rows ∧ z'.cols = z.cols ∧ ∀ i < z.orows zt, ∀ k < z.ocols zt, z'.oe zt i k = z.oe zt i k +
        alpha * ∑ l ∈ Finset.range (y.orows yt), (∑ nu ∈ Finset.range x.k, P.e i nu * star (Q.e l nu)) * y.oe yt l k) := by
    intro P Q hP hQ hz hy
    refine Tot.bind (P := fun ay => ay.rows = x.k ∧ ay.cols = y.ocols yt ∧ ∀ nu < x.k, ∀ k < y.ocols yt,
      ay.e nu k = ∑ l ∈ Finset.range (y.orows yt), star (Q.e l nu) * y.oe yt l k) ?_ ?_
    · refine Tot.mono (addmul_tot (by rw [hy]; rfl) (by show x.k = _; rw [← hQ]; rfl) rfl) ?_
      rintro ay ⟨e1, e2, e3⟩
      refine ⟨e1, e2, fun nu hnu k hk => ?_⟩
      rw [e3 nu hnu k hk]
      simp [VMat.zero, VMat.oe, VMat.ocols, hy]
    · rintro ay - ⟨e1, e2, e3⟩
      refine Tot.mono (oaddmul_tot (at' := false) (bt := false) (ct := zt) (by show P.cols = ay.rows; rw [hP, e1])
        (by rw [hz]; rfl) (by rw [h2]; exact e2.symm)) ?_
      rintro z' ⟨f1, f2, f3⟩
      refine ⟨f1, f2, fun i hi k hk => ?_⟩
      rw [f3 i hi k hk]
      congr 2
      have : ∀ nu ∈ Finset.range (P.ocols false), P.oe false i nu * ay.oe false nu k =
          ∑ l ∈ Finset.range (y.orows yt), P.e i nu * star (Q.e l nu) * y.oe yt l k := by
        intro nu hnu
        have hnu' : nu < x.k := by rw [Finset.mem_range] at hnu; rw [← hP]; exact hnu
        show P.e i nu * ay.e nu k = _
        rw [e3 nu hnu' k (by rw [← h2]; exact hk), Finset.mul_sum]
        refine Finset.sum_congr rfl fun l _ => by rw [mul_assoc]
      rw [Finset.sum_congr rfl this, Finset.sum_comm]
      show ∑ l ∈ _, ∑ nu ∈ Finset.range P.cols, _ = _
      rw [hP]
      refine Finset.sum_congr rfl fun l _ => by rw [Finset.sum_mul]
  unfold addmulRkAm
  rw [cassert_true (by simp [hx.1, hx.2]), ok_bind, hx.1]
  cases xt with
  | true =>
    simp only [if_true] at *
    rw [cassert_true (by simpa using h1), ok_bind, cassert_true (by simpa using h2), ok_bind,
      cassert_true (by simpa using h3), ok_bind]
    refine Tot.mono (main x.B x.A hx.2 hx.1 h1 h3) ?_
    rintro z' ⟨e1, e2, e3⟩
    refine ⟨e1, e2, fun i hi k hk => ?_⟩
    rw [e3 i hi k hk]
    congr 2
    refine Finset.sum_congr rfl fun l _ => ?_
    congr 1
    rw [rkVal, star_sum]
    refine Finset.sum_congr rfl fun nu _ => ?_
    rw [star_mul', star_star, mul_comm]
  | false =>
    simp only [Bool.false_eq_true, if_false] at *
    rw [cassert_true (by simpa using h1), ok_bind, cassert_true (by simpa using h2), ok_bind,
      cassert_true (by simpa using h3), ok_bind]
    exact main x.A x.B hx.1 hx.2 h1 h3

end HV
end H2
