import Verif.Proof.Rk
import Verif.Spec.HMatrix

set_option linter.unusedSectionVars false

namespace H2
open Spec Dense

/-! ### sums over `Fin` -/

/-- prefix sums -/
def pre {M : Type _} [AddCommMonoid M] {n : Nat} (f : Fin n → M) (k : Nat) : M := ∑ i : Fin n, if i.1 < k then f i else 0

theorem pre_succ {M : Type _} [AddCommMonoid M] {n : Nat} (f : Fin n → M) (k : Fin n) :
    pre f (k.1 + 1) = pre f k.1 + f k := by
  unfold pre
  have : ∀ i : Fin n, (if i.1 < k.1 + 1 then f i else 0) = (if i.1 < k.1 then f i else 0) + if i = k then f k else 0 := by
    intro i
    by_cases h : i = k
    · subst h; simp
    · have : i.1 ≠ k.1 := fun e => h (Fin.ext e)
      by_cases h1 : i.1 < k.1
      · rw [if_pos (by omega), if_pos h1, if_neg h, add_zero]
      · rw [if_neg (by omega), if_neg h1, if_neg h, add_zero]
  rw [Finset.sum_congr rfl fun i _ => this i, Finset.sum_add_distrib, Finset.sum_ite_eq' Finset.univ k]
  simp

theorem pre_zero {M : Type _} [AddCommMonoid M] {n : Nat} (f : Fin n → M) : pre f 0 = 0 := by simp [pre]
theorem pre_all {M : Type _} [AddCommMonoid M] {n : Nat} (f : Fin n → M) : pre f n = ∑ i, f i := by
  unfold pre; exact Finset.sum_congr rfl fun i _ => if_pos i.2

theorem pre_le {n : Nat} (f : Fin n → Nat) (i : Fin n) : pre f i.1 + f i ≤ ∑ k, f k := by
  rw [← pre_succ, ← pre_all]
  unfold pre
  refine Finset.sum_le_sum fun k _ => ?_
  by_cases h : k.1 < i.1 + 1
  · rw [if_pos h, if_pos k.2]
  · rw [if_neg h]; exact Nat.zero_le _

/-- a sum whose terms vanish outside a segment -/
theorem sum_segment {M : Type _} [AddCommMonoid M] {f : Nat → M} {o s n : Nat} (hle : o + s ≤ n)
    (h0 : ∀ c < n, ¬ (o ≤ c ∧ c < o + s) → f c = 0) :
    ∑ c ∈ Finset.range n, f c = ∑ c ∈ Finset.range s, f (o + c) := by
  rw [Finset.range_eq_Ico (a := s), Finset.sum_Ico_add f 0 s o]
  simp only [Nat.zero_add]
  rw [Nat.add_comm s o]
  refine (Finset.sum_subset ?_ ?_).symm
  · intro c hc; rw [Finset.mem_Ico] at hc; rw [Finset.mem_range]; omega
  · intro c hc hn
    rw [Finset.mem_range] at hc
    rw [Finset.mem_Ico] at hn
    exact h0 c hc fun h => hn (by omega)

theorem sum_flatMap_fin {M : Type _} [AddCommMonoid M] {α : Type _} {n : Nat} (g : Fin n → List α) (f : α → M) :
    (((List.finRange n).flatMap g).map f).sum = ∑ i, ((g i).map f).sum := by
  rw [Fin.sum_univ_def, List.map_flatMap]
  induction (List.finRange n) with
  | nil => rfl
  | cons a l ih => simp [List.flatMap_cons, List.sum_append, ih]

/-! ### adding to a vector -/

section
variable {K : Type _} [Field K] [StarRing K]

/-- `y += g` and nothing else -/
def VAdd (y : Vec) (m : Mem K) (g : Nat → K) (m' : Mem K) : Prop := VecBecomes y m (fun i => y.val m i + g i) m'

theorem VAdd.congr {y : Vec} {m m' : Mem K} {g g' : Nat → K} (h : VAdd y m g m') (e : ∀ i < y.dim, g i = g' i) :
    VAdd y m g' m' := ⟨h.1, fun i hi => by have := h.2.1 i hi; simp only at this ⊢; rw [this, e i hi], h.2.2⟩

theorem VAdd.refl {y : Vec} {m : Mem K} (hy : y.Valid m) : VAdd y m (fun _ => 0) m :=
  ⟨hy, fun i _ => (add_zero _).symm, fun _ _ => rfl⟩

theorem VAdd.trans {y : Vec} {m m' m'' : Mem K} {g g' : Nat → K} (h : VAdd y m g m') (h' : VAdd y m' g' m'') :
    VAdd y m (fun i => g i + g' i) m'' :=
  ⟨h'.1, fun i hi => by
    have e := h'.2.1 i hi; have e' := h.2.1 i hi; simp only at e e' ⊢; rw [e, e', add_assoc], fun c hc => (h'.2.2 c hc).trans (h.2.2 c hc)⟩

theorem sub_cell {y y1 : Vec} {dim off : Nat} (h : initSubVec y dim off = .ok y1) {c : Nat} (hc : y1.Cell c) :
    y.Cell c := by
  obtain ⟨h1, rfl⟩ := initSubVec_ok.mp h
  obtain ⟨i, hi, rfl⟩ := hc
  refine ⟨off + i, ?_, ?_⟩
  · have : i < dim := hi; omega
  · simp only [Vec.addr]; omega

theorem sub_valid {y y1 : Vec} {dim off : Nat} {m : Mem K} (h : initSubVec y dim off = .ok y1) (hy : y.Valid m) :
    y1.Valid m := by
  obtain ⟨h1, rfl⟩ := initSubVec_ok.mp h
  intro i hi
  have hi : i < dim := hi
  have := hy (off + i) (by omega)
  rwa [show y.addr (off + i) = (Vec.mk (y.base + off) dim).addr i by simp only [Vec.addr]; omega] at this

theorem sub_val {y y1 : Vec} {dim off : Nat} {m : Mem K} (h : initSubVec y dim off = .ok y1) (i : Nat) :
    y1.val m i = y.val m (off + i) := by
  obtain ⟨h1, rfl⟩ := initSubVec_ok.mp h
  simp only [Vec.val, Vec.addr, Nat.add_assoc]

theorem sub_dim {y y1 : Vec} {dim off : Nat} (h : initSubVec y dim off = .ok y1) : y1.dim = dim := by
  obtain ⟨h1, rfl⟩ := initSubVec_ok.mp h; rfl

theorem VAdd.sub {y y1 : Vec} {dim off : Nat} {m m' : Mem K} {g : Nat → K} (h : initSubVec y dim off = .ok y1)
    (hy : y.Valid m) (ha : VAdd y1 m g m') :
    VAdd y m (fun i => if off ≤ i ∧ i < off + dim then g (i - off) else 0) m' := by
  have hs := initSubVec_ok.mp h
  have key : ∀ i < y.dim, ¬ (off ≤ i ∧ i < off + dim) → m' (y.addr i) = m (y.addr i) := by
    intro i hi hn
    refine ha.2.2 _ ?_
    rw [hs.2]
    rintro ⟨k, hk, e⟩
    have hk : k < dim := hk
    simp only [Vec.addr] at e
    omega
  refine ⟨fun i hi => ?_, fun i hi => ?_, fun c hc => ha.2.2 c fun h' => hc (sub_cell h h')⟩
  · by_cases hn : off ≤ i ∧ i < off + dim
    · have := ha.1 (i - off) (by rw [sub_dim h]; omega)
      rw [hs.2] at this
      rwa [show (Vec.mk (y.base + off) dim).addr (i - off) = y.addr i by simp only [Vec.addr]; omega] at this
    · rw [key i hi hn]; exact hy i hi
  · by_cases hn : off ≤ i ∧ i < off + dim
    · have := ha.2.1 (i - off) (by rw [sub_dim h]; omega)
      simp only at this ⊢
      rw [sub_val h, sub_val h, show off + (i - off) = i by omega] at this
      rw [if_pos hn, this]
    · simp only
      rw [if_neg hn, add_zero]
      unfold Vec.val
      rw [key i hi hn]

/-- a loop over sons that adds `d i` in round `i` and advances an offset by `sz i` -/
theorem vloop {n : Nat} {f : Fin n → Mem K × Nat → R (Mem K × Nat)} {y : Vec} {m0 : Mem K} {o0 : Nat}
    (d : Fin n → Nat → K) (sz : Fin n → Nat) (hy : y.Valid m0)
    (h : ∀ (i : Fin n) (m : Mem K), Frame y.Cell m0 m → y.Valid m →
      Tot (f i (m, o0 + pre sz i.1)) fun st => VAdd y m (d i) st.1 ∧ st.2 = o0 + pre sz i.1 + sz i) :
    Tot (foldFinM n f (m0, o0)) fun st => VAdd y m0 (fun r => ∑ i, d i r) st.1 ∧ st.2 = o0 + ∑ i, sz i := by
  refine (foldFinM_tot (fun k (st : Mem K × Nat) => VAdd y m0 (fun r => pre (fun i => d i r) k) st.1 ∧
    st.2 = o0 + pre sz k) ⟨(VAdd.refl hy).congr fun i _ => (pre_zero _).symm, by simp [pre_zero]⟩ ?_).mono ?_
  · rintro i ⟨m, o⟩ ⟨h1, rfl⟩
    refine (h i m h1.2.2 h1.1).mono ?_
    rintro ⟨m', o'⟩ ⟨h2, rfl⟩
    exact ⟨(h1.trans h2).congr fun r _ => (pre_succ _ _).symm, by rw [pre_succ, add_assoc]⟩
  · rintro ⟨m', o'⟩ ⟨h1, h2⟩
    exact ⟨h1.congr fun r _ => pre_all _, by rw [h2, pre_all]⟩

end

/-! ### H-matrices -/
namespace HMat
variable {G : Type _} {K : Type _} [Field K] [StarRing K]

theorem place_super {m : Mem K} {t s : CRef G} {d rs cs : Nat} {son : Fin rs → Fin cs → HMat G} (r c : Nat) :
    place m (.super t s d rs cs son) r c = ∑ j, ∑ i, place m (son i j) r c := by
  unfold place
  rw [hleaves, sum_flatMap_fin]
  exact Finset.sum_congr rfl fun j _ => sum_flatMap_fin _ _

theorem Segments.bounds {t : CRef G} {n : Nat} {R : Fin n → CRef G} (h : Segments t R) (i : Fin n) :
    (R i).cl.off = t.cl.off + pre (fun k => (R k).cl.size) i.1 ∧
    pre (fun k => (R k).cl.size) i.1 + (R i).cl.size ≤ t.cl.size :=
  ⟨h.1 i, h.2 ▸ pre_le (fun k => (R k).cl.size) i⟩

/-- the matrix vanishes outside its clusters -/
theorem place_zero {m : Mem K} : ∀ {h : HMat G}, HOk h → ∀ {r c : Nat},
    ¬ (h.rc.cl.off ≤ r ∧ r < h.rc.cl.off + h.rc.cl.size ∧ h.cc.cl.off ≤ c ∧ c < h.cc.cl.off + h.cc.cl.size) →
    place m h r c = 0 := by
  intro h
  induction h with
  | rk t s d r => intro _ r c hn; simp only [place, hleaves, List.map_cons, List.map_nil]; rw [if_neg hn]; simp
  | full t s d f => intro _ r c hn; simp only [place, hleaves, List.map_cons, List.map_nil]; rw [if_neg hn]; simp
  | super t s d rs cs son ih =>
    rintro ⟨_, _, ⟨R, C, hrc, hR, hC⟩, hs⟩ r c hn
    rw [place_super]
    refine Finset.sum_eq_zero fun j _ => Finset.sum_eq_zero fun i _ => ih i j (hs i j) fun h => hn ?_
    rw [(hrc i j).1, (hrc i j).2] at h
    obtain ⟨a1, a2⟩ := Segments.bounds hR i
    obtain ⟨b1, b2⟩ := Segments.bounds hC j
    simp only [rc, cc]
    omega

theorem HOk.son_sizes {t s : CRef G} {d rs cs : Nat} {son : Fin rs → Fin cs → HMat G} {R : Fin rs → CRef G}
    {C : Fin cs → CRef G} (h : ∀ i j, (son i j).rc = R i ∧ (son i j).cc = C j) (i : Fin rs) (j : Fin cs) :
    (son i j).rsize = (R i).cl.size ∧ (son i j).csize = (C j).cl.size := by
  unfold rsize csize; rw [(h i j).1, (h i j).2]; exact ⟨rfl, rfl⟩

theorem place_rk' {m : Mem K} {t s : CRef G} {d : Nat} {r : Rk} (i j : Nat) :
    place m (.rk t s d r) i j = if t.cl.off ≤ i ∧ i < t.cl.off + t.cl.size ∧ s.cl.off ≤ j ∧ j < s.cl.off + s.cl.size
      then r.val m (i - t.cl.off) (j - s.cl.off) else 0 := by
  simp only [place, hleaves, List.map_cons, List.map_nil, leafVal]
  exact add_zero _

theorem place_full' {m : Mem K} {t s : CRef G} {d : Nat} {f : Mat} (i j : Nat) :
    place m (.full t s d f) i j = if t.cl.off ≤ i ∧ i < t.cl.off + t.cl.size ∧ s.cl.off ≤ j ∧ j < s.cl.off + s.cl.size
      then f.val m (i - t.cl.off) (j - s.cl.off) else 0 := by
  simp only [place, hleaves, List.map_cons, List.map_nil, leafVal]
  exact add_zero _

/-- unchanged leaves represent the same matrix -/
theorem place_frame {S : Nat → Prop} {m m' : Mem K} (hf : Frame S m m') : ∀ {h : HMat G}, HOk h → HValid m h →
    Disj (HCell h) S → HValid m' h ∧ ∀ r c, place m' h r c = place m h r c := by
  intro h
  induction h with
  | rk t s d r =>
    rintro ⟨h1, h2⟩ hv hd
    have hv : r.Valid m := hv
    have dA : Disj r.A.Cell S := fun c h => hd c (Or.inl h)
    have dB : Disj r.B.Cell S := fun c h => hd c (Or.inr h)
    refine ⟨⟨Rk.frame_valid hf dA hv.A, Rk.frame_valid hf dB hv.B, hv.disj, hv.colsA, hv.colsB⟩, fun i j => ?_⟩
    rw [place_rk', place_rk']
    by_cases hc : t.cl.off ≤ i ∧ i < t.cl.off + t.cl.size ∧ s.cl.off ≤ j ∧ j < s.cl.off + s.cl.size
    · rw [if_pos hc, if_pos hc]
      unfold Rk.val
      refine Finset.sum_congr rfl fun nu hnu => ?_
      rw [Finset.mem_range] at hnu
      have := hv.colsA; have := hv.colsB
      rw [Rk.frame_val hf dA (by omega) (by omega), Rk.frame_val hf dB (by omega) (by omega)]
    · rw [if_neg hc, if_neg hc]
  | full t s d f =>
    rintro ⟨h1, h2⟩ hv hd
    refine ⟨Rk.frame_valid hf hd hv, fun i j => ?_⟩
    rw [place_full', place_full']
    by_cases hc : t.cl.off ≤ i ∧ i < t.cl.off + t.cl.size ∧ s.cl.off ≤ j ∧ j < s.cl.off + s.cl.size
    · rw [if_pos hc, if_pos hc]
      exact Rk.frame_val hf hd (by omega) (by omega)
    · rw [if_neg hc, if_neg hc]
  | super t s d rs cs son ih =>
    rintro ⟨_, _, _, hs⟩ hv hd
    have := fun i j => ih i j (hs i j) (hv i j) fun c hc => hd c ⟨i, j, hc⟩
    refine ⟨fun i j => (this i j).1, fun r c => ?_⟩
    rw [place_super, place_super]
    exact Finset.sum_congr rfl fun j _ => Finset.sum_congr rfl fun i _ => (this i j).2 r c

theorem place_rk {m : Mem K} {t s : CRef G} {d : Nat} {r : Rk} {i j : Nat} (hi : i < t.cl.size) (hj : j < s.cl.size) :
    place m (.rk t s d r) (t.cl.off + i) (s.cl.off + j) = r.val m i j := by
  rw [place_rk', if_pos (by omega), Nat.add_sub_cancel_left, Nat.add_sub_cancel_left]

theorem place_full {m : Mem K} {t s : CRef G} {d : Nat} {f : Mat} {i j : Nat} (hi : i < t.cl.size) (hj : j < s.cl.size) :
    place m (.full t s d f) (t.cl.off + i) (s.cl.off + j) = f.val m i j := by
  rw [place_full', if_pos (by omega), Nat.add_sub_cancel_left, Nat.add_sub_cancel_left]

/-- the contribution of one son to `y += alpha H x`, restricted to its segments or not -/
theorem son_sum {m : Mem K} {h : HMat G} (ho : HOk h) {a b ro co : Nat} (hr : h.rc.cl.off = a + ro)
    (hc : h.cc.cl.off = b + co) {n : Nat} (hn : co + h.csize ≤ n) (alpha : K) (x : Nat → K) (i : Nat) :
    (if ro ≤ i ∧ i < ro + h.rsize then
      alpha * ∑ c ∈ Finset.range h.csize, place m h (h.rc.cl.off + (i - ro)) (h.cc.cl.off + c) * x (co + c) else 0) =
    alpha * ∑ c ∈ Finset.range n, place m h (a + i) (b + c) * x c := by
  by_cases hi : ro ≤ i ∧ i < ro + h.rsize
  · rw [if_pos hi, hr, hc, show a + ro + (i - ro) = a + i by omega,
      sum_segment hn (f := fun c => place m h (a + i) (b + c) * x c)]
    · simp only [Nat.add_assoc]
    · intro c _ hcn
      rw [place_zero ho, zero_mul]
      have : h.csize = h.cc.cl.size := rfl
      omega
  · rw [if_neg hi, Finset.sum_eq_zero, mul_zero]
    intro c _
    rw [place_zero ho, zero_mul]
    have : h.rsize = h.rc.cl.size := rfl
    omega

theorem son_sum_trans {m : Mem K} {h : HMat G} (ho : HOk h) {a b ro co : Nat} (hr : h.rc.cl.off = a + ro)
    (hc : h.cc.cl.off = b + co) {n : Nat} (hn : ro + h.rsize ≤ n) (alpha : K) (x : Nat → K) (j : Nat) :
    (if co ≤ j ∧ j < co + h.csize then
      alpha * ∑ c ∈ Finset.range h.rsize, star (place m h (h.rc.cl.off + c) (h.cc.cl.off + (j - co))) * x (ro + c)
      else 0) =
    alpha * ∑ c ∈ Finset.range n, star (place m h (a + c) (b + j)) * x c := by
  by_cases hj : co ≤ j ∧ j < co + h.csize
  · rw [if_pos hj, hr, hc, show b + co + (j - co) = b + j by omega,
      sum_segment hn (f := fun c => star (place m h (a + c) (b + j)) * x c)]
    · simp only [Nat.add_assoc]
    · intro c _ hcn
      rw [place_zero ho, star_zero, zero_mul]
      have : h.rsize = h.rc.cl.size := rfl
      omega
  · rw [if_neg hj, Finset.sum_eq_zero, mul_zero]
    intro c _
    rw [place_zero ho, star_zero, zero_mul]
    have : h.csize = h.cc.cl.size := rfl
    omega

theorem fastaddeval_tot (alpha : K) : ∀ {h : HMat G} {x y : Vec} {m : Mem K}, HOk h → HValid m h → x.Valid m →
    y.Valid m → Disj (HCell h) y.Cell → Disj x.Cell y.Cell → x.dim = h.csize → y.dim = h.rsize →
    Tot (fastaddeval alpha h x y m) (VAdd y m fun i => alpha *
      ∑ j ∈ Finset.range h.csize, place m h (h.rc.cl.off + i) (h.cc.cl.off + j) * x.val m j) := by
  intro h
  induction h with
  | rk t s d r =>
    rintro x y m ⟨h1, h2⟩ hv hx hy hd hxy hxd hyd
    have hxd : x.dim = s.cl.size := hxd
    have hyd : y.dim = t.cl.size := hyd
    simp only [fastaddeval]
    refine Tot.cassert (by simpa using hxd) (Tot.cassert (by simpa using hyd) ?_)
    refine (Rk.mvm_tot (trans := false) hv hx hy hd hxy (by simpa [Rk.rows, h1] using hyd)
      (by simpa [Rk.cols, h2] using hxd) alpha).mono fun m' h' => VAdd.congr (g := _) h' fun i hi => ?_
    congr 1
    simp only [Rk.cols, op, Bool.false_eq_true, if_false, h2]
    refine Finset.sum_congr rfl fun j hj => ?_
    have hj : j < s.cl.size := Finset.mem_range.mp hj
    simp only [rc, cc]
    rw [place_rk (by omega) hj]
  | full t s d f =>
    rintro x y m ⟨h1, h2⟩ hv hx hy hd hxy hxd hyd
    have hxd : x.dim = s.cl.size := hxd
    have hyd : y.dim = t.cl.size := hyd
    simp only [fastaddeval]
    refine Tot.cassert (by simpa using hxd) (Tot.cassert (by simpa using hyd) ?_)
    simp only [Dense.mvm, Bool.false_eq_true, if_false]
    refine (addeval_tot hv hx hy hd hxy (by omega) (by omega) alpha).mono fun m' h' => ?_
    refine ⟨h'.1, fun i hi => ?_, h'.2.2⟩
    have e := h'.2.1 i hi
    simp only at e ⊢
    rw [e, if_pos (show i < f.rows by omega)]
    congr 2
    rw [h2]
    refine Finset.sum_congr rfl fun j hj => ?_
    have hj : j < s.cl.size := Finset.mem_range.mp hj
    simp only [rc, cc]
    rw [place_full (by omega) hj]
  | super t s d rs cs son ih =>
    rintro x y m ⟨h0, h0', ⟨R, C, hrc, hR, hC⟩, hs⟩ hv hx hy hd hxy hxd hyd
    have hxd : x.dim = s.cl.size := hxd
    have hyd : y.dim = t.cl.size := hyd
    have hsz := fun i j => HOk.son_sizes (t := t) (s := s) (d := d) hrc i j
    simp only [fastaddeval]
    refine Tot.cassert (by simpa using hxd) (Tot.cassert (by simpa using hyd) ?_)
    refine Tot.bind (vloop (y := y) (m0 := m) (o0 := 0)
      (fun j r => ∑ i, alpha * ∑ c ∈ Finset.range s.cl.size,
        place m (son i j) (t.cl.off + r) (s.cl.off + c) * x.val m c)
      (fun j => (C j).cl.size) hy fun j m1 hf1 hy1 => ?_) fun st _ hst => ?_
    · rw [dif_pos h0]
      simp only [Nat.zero_add]
      obtain ⟨b1, b2⟩ := Segments.bounds hC j
      obtain ⟨x1, ex⟩ : ∃ x1, initSubVec x (C j).cl.size (pre (fun j => (C j).cl.size) j.1) = .ok x1 :=
        ⟨_, initSubVec_ok.mpr ⟨by omega, rfl⟩⟩
      rw [(hsz ⟨0, h0⟩ j).2, ex, ok_bind]
      refine Tot.bind (vloop (y := y) (m0 := m1) (o0 := 0)
        (fun i r => alpha * ∑ c ∈ Finset.range s.cl.size,
          place m (son i j) (t.cl.off + r) (s.cl.off + c) * x.val m c)
        (fun i => (R i).cl.size) hy1 fun i m2 hf2 hy2 => ?_) fun st _ hst => ?_
      · simp only [Nat.zero_add]
        obtain ⟨a1, a2⟩ := Segments.bounds hR i
        obtain ⟨y1, ey⟩ : ∃ y1, initSubVec y (R i).cl.size (pre (fun j => (R j).cl.size) i.1) = .ok y1 :=
          ⟨_, initSubVec_ok.mpr ⟨by omega, rfl⟩⟩
        rw [(hsz i _).1, ey, ok_bind]
        have hf : Frame y.Cell m m2 := fun c hc => (hf2 c hc).trans (hf1 c hc)
        have dS : Disj (HCell (son i j)) y.Cell := fun c hc => hd c ⟨i, j, hc⟩
        obtain ⟨hv2, hp2⟩ := place_frame hf (hs i j) (hv i j) dS
        refine Tot.bind (ih i j (x := x1) (y := y1) (m := m2) (hs i j) hv2
          (sub_valid ex (Rk.frame_vvalid hf hxy hx)) (sub_valid ey hy2)
          (fun c h1 h2 => dS c h1 (sub_cell ey h2))
          (fun c h1 h2 => hxy c (sub_cell ex h1) (sub_cell ey h2))
          (by rw [sub_dim ex, (hsz i j).2]) (by rw [sub_dim ey, (hsz i j).1])) fun m3 _ h3 => ?_
        refine Tot.pure ⟨(h3.sub ey hy2).congr fun r hr => ?_, rfl⟩
        have := son_sum (m := m) (hs i j) (a := t.cl.off) (b := s.cl.off)
          (ro := pre (fun k => (R k).cl.size) i.1) (co := pre (fun k => (C k).cl.size) j.1)
          (by rw [(hrc i j).1, a1]) (by rw [(hrc i j).2, b1]) (n := s.cl.size) (by rw [(hsz i j).2]; exact b2)
          alpha (x.val m) r
        rw [← this, (hsz i j).1]
        refine if_congr Iff.rfl ?_ rfl
        congr 1
        refine Finset.sum_congr rfl fun c hc => ?_
        rw [Finset.mem_range, (hsz i j).2] at hc
        rw [hp2, sub_val ex, Rk.frame_vval hf hxy (by omega)]
      · obtain ⟨m2, o⟩ := st
        obtain ⟨g1, g2⟩ := hst
        simp only [Nat.zero_add] at g1 g2
        refine Tot.cassert (by simp only [g2, hR.2, decide_true]) ?_
        exact Tot.pure ⟨g1, rfl⟩
    · obtain ⟨m2, o⟩ := st
      obtain ⟨g1, g2⟩ := hst
      simp only [Nat.zero_add] at g1 g2
      refine Tot.cassert (by simp only [g2, hC.2, decide_true]) ?_
      refine Tot.pure (g1.congr fun r hr => ?_)
      simp only [csize, rc, cc, place_super, Finset.sum_mul, ← Finset.mul_sum]
      congr 1
      rw [Finset.sum_comm (s := Finset.range s.cl.size)]
      refine Finset.sum_congr rfl fun j _ => ?_
      rw [Finset.sum_comm (s := Finset.range s.cl.size)]

theorem fastaddevaltrans_tot (alpha : K) : ∀ {h : HMat G} {x y : Vec} {m : Mem K}, HOk h → HValid m h → x.Valid m →
    y.Valid m → Disj (HCell h) y.Cell → Disj x.Cell y.Cell → x.dim = h.rsize → y.dim = h.csize →
    Tot (fastaddevaltrans alpha h x y m) (VAdd y m fun j => alpha *
      ∑ i ∈ Finset.range h.rsize, star (place m h (h.rc.cl.off + i) (h.cc.cl.off + j)) * x.val m i) := by
  intro h
  induction h with
  | rk t s d r =>
    rintro x y m ⟨h1, h2⟩ hv hx hy hd hxy hxd hyd
    have hxd : x.dim = t.cl.size := hxd
    have hyd : y.dim = s.cl.size := hyd
    simp only [fastaddevaltrans]
    refine Tot.cassert (by simpa using hxd) (Tot.cassert (by simpa using hyd) ?_)
    refine (Rk.mvm_tot (trans := true) hv hx hy hd hxy (by simpa [Rk.rows, h2] using hyd)
      (by simpa [Rk.cols, h1] using hxd) alpha).mono fun m' h' => VAdd.congr (g := _) h' fun i hi => ?_
    congr 1
    simp only [Rk.cols, op, if_true, h1]
    refine Finset.sum_congr rfl fun j hj => ?_
    have hj : j < t.cl.size := Finset.mem_range.mp hj
    simp only [rc, cc]
    rw [place_rk hj (by omega)]
  | full t s d f =>
    rintro x y m ⟨h1, h2⟩ hv hx hy hd hxy hxd hyd
    have hxd : x.dim = t.cl.size := hxd
    have hyd : y.dim = s.cl.size := hyd
    simp only [fastaddevaltrans]
    refine Tot.cassert (by simpa using hxd) (Tot.cassert (by simpa using hyd) ?_)
    simp only [Dense.mvm, if_true]
    refine (addevaltrans_tot hv hx hy hd hxy (by omega) (by omega) alpha).mono fun m' h' => ?_
    refine ⟨h'.1, fun i hi => ?_, h'.2.2⟩
    have e := h'.2.1 i hi
    simp only at e ⊢
    rw [e, if_pos (show i < f.cols by omega)]
    congr 2
    rw [h1]
    refine Finset.sum_congr rfl fun j hj => ?_
    have hj : j < t.cl.size := Finset.mem_range.mp hj
    simp only [rc, cc]
    rw [place_full hj (by omega)]
  | super t s d rs cs son ih =>
    rintro x y m ⟨h0, h0', ⟨R, C, hrc, hR, hC⟩, hs⟩ hv hx hy hd hxy hxd hyd
    have hxd : x.dim = t.cl.size := hxd
    have hyd : y.dim = s.cl.size := hyd
    have hsz := fun i j => HOk.son_sizes (t := t) (s := s) (d := d) hrc i j
    simp only [fastaddevaltrans]
    refine Tot.cassert (by simpa using hxd) (Tot.cassert (by simpa using hyd) ?_)
    refine Tot.bind (vloop (y := y) (m0 := m) (o0 := 0)
      (fun j r => ∑ i, alpha * ∑ c ∈ Finset.range t.cl.size,
        star (place m (son i j) (t.cl.off + c) (s.cl.off + r)) * x.val m c)
      (fun j => (C j).cl.size) hy fun j m1 hf1 hy1 => ?_) fun st _ hst => ?_
    · rw [dif_pos h0]
      simp only [Nat.zero_add]
      obtain ⟨b1, b2⟩ := Segments.bounds hC j
      obtain ⟨y1, ey⟩ : ∃ y1, initSubVec y (C j).cl.size (pre (fun j => (C j).cl.size) j.1) = .ok y1 :=
        ⟨_, initSubVec_ok.mpr ⟨by omega, rfl⟩⟩
      rw [(hsz ⟨0, h0⟩ j).2, ey, ok_bind]
      refine Tot.bind (vloop (y := y) (m0 := m1) (o0 := 0)
        (fun i r => alpha * ∑ c ∈ Finset.range t.cl.size,
          star (place m (son i j) (t.cl.off + c) (s.cl.off + r)) * x.val m c)
        (fun i => (R i).cl.size) hy1 fun i m2 hf2 hy2 => ?_) fun st _ hst => ?_
      · simp only [Nat.zero_add]
        obtain ⟨a1, a2⟩ := Segments.bounds hR i
        obtain ⟨x1, ex⟩ : ∃ x1, initSubVec x (R i).cl.size (pre (fun j => (R j).cl.size) i.1) = .ok x1 :=
          ⟨_, initSubVec_ok.mpr ⟨by omega, rfl⟩⟩
        rw [(hsz i _).1, ex, ok_bind]
        have hf : Frame y.Cell m m2 := fun c hc => (hf2 c hc).trans (hf1 c hc)
        have dS : Disj (HCell (son i j)) y.Cell := fun c hc => hd c ⟨i, j, hc⟩
        obtain ⟨hv2, hp2⟩ := place_frame hf (hs i j) (hv i j) dS
        refine Tot.bind (ih i j (x := x1) (y := y1) (m := m2) (hs i j) hv2
          (sub_valid ex (Rk.frame_vvalid hf hxy hx)) (sub_valid ey hy2)
          (fun c h1 h2 => dS c h1 (sub_cell ey h2))
          (fun c h1 h2 => hxy c (sub_cell ex h1) (sub_cell ey h2))
          (by rw [sub_dim ex, (hsz i j).1]) (by rw [sub_dim ey, (hsz i j).2])) fun m3 _ h3 => ?_
        refine Tot.pure ⟨(h3.sub ey hy2).congr fun r hr => ?_, rfl⟩
        have := son_sum_trans (m := m) (hs i j) (a := t.cl.off) (b := s.cl.off)
          (ro := pre (fun k => (R k).cl.size) i.1) (co := pre (fun k => (C k).cl.size) j.1)
          (by rw [(hrc i j).1, a1]) (by rw [(hrc i j).2, b1]) (n := t.cl.size) (by rw [(hsz i j).1]; exact a2)
          alpha (x.val m) r
        rw [← this, (hsz i j).2]
        refine if_congr Iff.rfl ?_ rfl
        congr 1
        refine Finset.sum_congr rfl fun c hc => ?_
        rw [Finset.mem_range, (hsz i j).1] at hc
        rw [hp2, sub_val ex, Rk.frame_vval hf hxy (by omega)]
      · obtain ⟨m2, o⟩ := st
        obtain ⟨g1, g2⟩ := hst
        simp only [Nat.zero_add] at g1 g2
        refine Tot.cassert (by simp only [g2, hR.2, decide_true]) ?_
        exact Tot.pure ⟨g1, rfl⟩
    · obtain ⟨m2, o⟩ := st
      obtain ⟨g1, g2⟩ := hst
      simp only [Nat.zero_add] at g1 g2
      refine Tot.cassert (by simp only [g2, hC.2, decide_true]) ?_
      refine Tot.pure (g1.congr fun r hr => ?_)
      simp only [rsize, rc, cc, place_super, star_sum, Finset.sum_mul, ← Finset.mul_sum]
      congr 1
      rw [Finset.sum_comm (s := Finset.range t.cl.size)]
      refine Finset.sum_congr rfl fun j _ => ?_
      rw [Finset.sum_comm (s := Finset.range t.cl.size)]

theorem _root_.H2.Spec.IsPerm.surj {idx : Arr Nat} {off n : Nat} (h : IsPerm idx off n) {a : Nat} (ha : a < n) :
    ∃ i < n, idx.v (off + i) = a := by
  let f : Fin n → Fin n := fun i => ⟨idx.v (off + i.1), h.2.1 i.1 i.2⟩
  have hinj : Function.Injective f := fun i j e => Fin.ext (h.2.2 i.1 i.2 j.1 j.2 (Fin.mk.inj e))
  obtain ⟨i, hi⟩ := (Finite.injective_iff_surjective.mp hinj) ⟨a, ha⟩
  exact ⟨i.1, i.2, congrArg Fin.val hi⟩

theorem gather_tot {idx : Arr Nat} {t : CRef G} {v vp : Vec} {m : Mem K} (hp : IsPerm idx t.cl.off vp.dim)
    (hd : v.dim = vp.dim) (hv : v.Valid m) (hvp : vp.Valid m) (hdis : Disj v.Cell vp.Cell) :
    Tot (gather idx t v vp m) (VecBecomes vp m fun i => v.val m (idx.v (t.cl.off + i))) := by
  unfold gather
  refine (forUp_tot (fun k (m' : Mem K) => vp.Valid m' ∧ (∀ i < k, vp.val m' i = v.val m (idx.v (t.cl.off + i))) ∧
    Frame vp.Cell m m') (Nat.zero_le _) ⟨hvp, fun i hi => absurd hi (Nat.not_lt_zero _), fun _ _ => rfl⟩ ?_).mono
    fun m' h => h
  rintro k m1 - hk ⟨h1, h2, h3⟩
  have hlt := hp.2.1 k hk
  rw [Arr.get_ok (by have := hp.1; omega), ok_bind]
  refine Tot.cassert (by simpa [hd] using hlt) ?_
  have hvk : v.Valid m1 := Rk.frame_vvalid h3 hdis hv
  obtain ⟨x, ex, er⟩ := Mem.read_some (hvk _ (hd ▸ hlt))
  obtain ⟨z, ez, -⟩ := Mem.read_some (h1 k hk)
  rw [er, ok_bind, Mem.write_ok ez]
  have hx : x = v.val m (idx.v (t.cl.off + k)) := by
    rw [← Rk.frame_vval h3 hdis (hd ▸ hlt)]; unfold Vec.val; rw [ex]; rfl
  refine Tot.pure ⟨fun i hi => ?_, fun i hi => ?_, fun c hc => ?_⟩
  · by_cases e : vp.addr i = vp.addr k
    · rw [e, Mem.upd_same]; rfl
    · rw [Mem.upd_ne e]; exact h1 i hi
  · by_cases e : i = k
    · subst e; unfold Vec.val; rw [Mem.upd_same, hx]; rfl
    · have : vp.addr i ≠ vp.addr k := by simp only [Vec.addr]; omega
      rw [← h2 i (by omega)]
      unfold Vec.val; rw [Mem.upd_ne this]
  · rw [Mem.upd_ne]
    · exact h3 c hc
    · rintro rfl; exact hc (Vec.cell_addr hk)

theorem scatter_tot {idx : Arr Nat} {t : CRef G} {v vp : Vec} {m : Mem K} (hp : IsPerm idx t.cl.off vp.dim)
    (hd : v.dim = vp.dim) (hv : v.Valid m) (hvp : vp.Valid m) (hdis : Disj vp.Cell v.Cell) :
    Tot (scatter idx t v vp m) fun m' => v.Valid m' ∧
      (∀ i < vp.dim, v.val m' (idx.v (t.cl.off + i)) = vp.val m i) ∧ Frame v.Cell m m' := by
  unfold scatter
  refine (forUp_tot (fun k (m' : Mem K) => v.Valid m' ∧ (∀ i < k, v.val m' (idx.v (t.cl.off + i)) = vp.val m i) ∧
    Frame v.Cell m m') (Nat.zero_le _) ⟨hv, fun i hi => absurd hi (Nat.not_lt_zero _), fun _ _ => rfl⟩ ?_).mono
    fun m' h => h
  rintro k m1 - hk ⟨h1, h2, h3⟩
  have hlt := hp.2.1 k hk
  rw [Arr.get_ok (by have := hp.1; omega), ok_bind]
  refine Tot.cassert (by simpa [hd] using hlt) ?_
  have hvk : vp.Valid m1 := Rk.frame_vvalid h3 hdis hvp
  obtain ⟨x, ex, er⟩ := Mem.read_some (hvk _ hk)
  obtain ⟨z, ez, -⟩ := Mem.read_some (h1 _ (hd ▸ hlt))
  rw [er, ok_bind, Mem.write_ok ez]
  have hx : x = vp.val m k := by
    rw [← Rk.frame_vval h3 hdis hk]; unfold Vec.val; rw [ex]; rfl
  refine Tot.pure ⟨fun i hi => ?_, fun i hi => ?_, fun c hc => ?_⟩
  · by_cases e : v.addr i = v.addr (idx.v (t.cl.off + k))
    · rw [e, Mem.upd_same]; rfl
    · rw [Mem.upd_ne e]; exact h1 i hi
  · by_cases e : i = k
    · subst e; unfold Vec.val; rw [Mem.upd_same, hx]; rfl
    · have : v.addr (idx.v (t.cl.off + i)) ≠ v.addr (idx.v (t.cl.off + k)) := by
        simp only [Vec.addr]
        intro h
        exact e (hp.2.2 i (by omega) k hk (by omega))
      rw [← h2 i (by omega)]
      unfold Vec.val; rw [Mem.upd_ne this]
  · rw [Mem.upd_ne]
    · exact h3 c hc
    · rintro rfl; exact hc (Vec.cell_addr (hd ▸ hlt))

theorem alloc_old {m : Mem K} {p n : Nat} {junk : Nat → K} (hf : Fresh m p n) {c : Nat} (h : (m c).isSome) :
    m.alloc p n junk c = m c := by
  refine Rk.alloc_of_not fun hc => ?_
  rw [hf c hc.1 hc.2] at h; exact absurd h (by simp)

theorem alloc_vvalid {m : Mem K} {p n : Nat} {junk : Nat → K} : (Vec.mk p n).Valid (m.alloc p n junk) := by
  intro i hi
  have hi : i < n := hi
  have : p ≤ (Vec.mk p n).addr i ∧ (Vec.mk p n).addr i < p + n := by simp only [Vec.addr]; omega
  simp only [Mem.alloc]
  rw [if_pos this]; rfl

theorem vcell_iff {p n c : Nat} : (Vec.mk p n).Cell c ↔ p ≤ c ∧ c < p + n := by
  constructor
  · rintro ⟨i, hi, rfl⟩
    have hi : i < n := hi
    simp only [Vec.addr]; omega
  · rintro ⟨h1, h2⟩
    exact ⟨c - p, by show c - p < n; omega, by simp only [Vec.addr]; omega⟩

theorem permuted_tot {xi yi : Arr Nat} {xt yt : CRef G} {px py : Nat} {junk : Nat → K}
    {fast : Vec → Vec → Mem K → R (Mem K)} {x y : Vec} {m : Mem K} (hxp : IsPerm xi xt.cl.off x.dim)
    (hyp : IsPerm yi yt.cl.off y.dim) (hx : x.Valid m) (hy : y.Valid m) (hfx : Fresh m px x.dim)
    (hfy : Fresh (m.alloc px x.dim junk) py y.dim) {g : (Nat → K) → Nat → K}
    (hg : ∀ u u' : Nat → K, (∀ i < x.dim, u i = u' i) → ∀ i, g u i = g u' i)
    (hfast : ∀ (xp yp : Vec) (m1 : Mem K), (∀ c, (m c).isSome → m1 c = m c ∧ ¬ yp.Cell c) → xp.Valid m1 → yp.Valid m1 →
      Disj xp.Cell yp.Cell → xp.dim = x.dim → yp.dim = y.dim → Tot (fast xp yp m1) (VAdd yp m1 (g (xp.val m1))))
    {F : Nat → K} (hF : ∀ i < y.dim, F (yi.v (yt.cl.off + i)) =
      y.val m (yi.v (yt.cl.off + i)) + g (fun j => x.val m (xi.v (xt.cl.off + j))) i) :
    Tot (permuted xi yi xt yt px py junk fast x y m) (VecBecomes y m F) := by
  have cellSome : ∀ {v : Vec} {m : Mem K} {c : Nat}, v.Valid m → v.Cell c → (m c).isSome := by
    rintro v m c hv ⟨i, hi, rfl⟩; exact hv i hi
  unfold permuted
  simp only [newVec]
  set xp : Vec := ⟨px, x.dim⟩ with exp
  set yp : Vec := ⟨py, y.dim⟩ with eyp
  set m1 := m.alloc px x.dim junk with em1
  have old1 : ∀ c, (m c).isSome → m1 c = m c := fun c h => alloc_old hfx h
  have xpN : ∀ c, (m c).isSome → ¬ xp.Cell c := by
    intro c h hc
    rw [vcell_iff] at hc
    rw [hfx c hc.1 hc.2] at h; exact absurd h (by simp)
  have val1 : ∀ i < x.dim, x.val m1 i = x.val m i := fun i hi => by
    unfold Vec.val; rw [old1 _ (hx i hi)]
  refine Tot.bind (gather_tot (v := x) (vp := xp) (m := m1) hxp rfl (fun i hi => by rw [old1 _ (hx i hi)]; exact hx i hi)
    alloc_vvalid fun c hc => xpN c (cellSome hx hc)) fun m2 _ h2 => ?_
  have ypN1 : ∀ c, (m1 c).isSome → ¬ yp.Cell c := by
    intro c h hc
    rw [vcell_iff] at hc
    rw [hfy c hc.1 hc.2] at h; exact absurd h (by simp)
  have xp1 : ∀ c, xp.Cell c → (m1 c).isSome := fun c hc => cellSome alloc_vvalid hc
  have dxy : Disj xp.Cell yp.Cell := fun c hc => ypN1 c (xp1 c hc)
  have ypN : ∀ c, (m c).isSome → ¬ yp.Cell c := fun c h => ypN1 c (by rw [old1 c h]; exact h)
  have old2 : ∀ c, (m c).isSome → m2 c = m c := fun c h => by rw [h2.2.2 c (xpN c h), old1 c h]
  have fr2 : Fresh m2 py y.dim := by
    intro c h1 h3
    have hc : yp.Cell c := vcell_iff.mpr ⟨h1, h3⟩
    rw [h2.2.2 c fun h => dxy c h hc]; exact hfy c h1 h3
  set m3 := m2.alloc py y.dim junk with em3
  have old3 : ∀ c, (m2 c).isSome → m3 c = m2 c := fun c h => alloc_old fr2 h
  have oldm3 : ∀ c, (m c).isSome → m3 c = m c := fun c h => by rw [old3 c (by rw [old2 c h]; exact h), old2 c h]
  have valy : ∀ i < y.dim, y.val m3 i = y.val m i := fun i hi => by unfold Vec.val; rw [oldm3 _ (hy i hi)]
  refine Tot.bind (gather_tot (v := y) (vp := yp) (m := m3) hyp rfl
    (fun i hi => by rw [oldm3 _ (hy i hi)]; exact hy i hi) alloc_vvalid fun c hc => ypN c (cellSome hy hc))
    fun m4 _ h4 => ?_
  have old4 : ∀ c, (m c).isSome → m4 c = m c := fun c h => by rw [h4.2.2 c (ypN c h), oldm3 c h]
  have xp4 : ∀ i < x.dim, m4 (xp.addr i) = m2 (xp.addr i) := by
    intro i hi
    have hc : xp.Cell (xp.addr i) := Vec.cell_addr hi
    rw [h4.2.2 _ (dxy _ hc), old3 _ (h2.1 i hi)]
  refine Tot.bind (hfast xp yp m4 (fun c h => ⟨old4 c h, ypN c h⟩)
    (fun i hi => by rw [xp4 i hi]; exact h2.1 i hi) h4.1 dxy rfl rfl) fun m5 _ h5 => ?_
  have old5 : ∀ c, (m c).isSome → m5 c = m c := fun c h => by rw [h5.2.2 c (ypN c h), old4 c h]
  refine Tot.bind (scatter_tot (v := y) (vp := yp) (m := m5) hyp rfl
    (fun i hi => by rw [old5 _ (hy i hi)]; exact hy i hi) h5.1 fun c hc h => ypN c (cellSome hy h) hc) fun m6 _ h6 => ?_
  have nf : ∀ c, (m c).isSome → delVec xp (delVec yp m6) c = m6 c := by
    intro c h
    have a := xpN c h; have b := ypN c h
    rw [vcell_iff] at a b
    simp only [delVec, Mem.free]
    rw [if_neg a, if_neg b]
  refine Tot.pure ⟨fun i hi => ?_, fun a ha => ?_, fun c hc => ?_⟩
  · rw [nf _ (hy i hi)]; exact h6.1 i hi
  · obtain ⟨i, hi, rfl⟩ := hyp.surj ha
    have : y.val (delVec xp (delVec yp m6)) (yi.v (yt.cl.off + i)) = y.val m6 (yi.v (yt.cl.off + i)) := by
      unfold Vec.val; rw [nf _ (hy _ ha)]
    have e5 := h5.2.1 i hi
    have e4 := h4.2.1 i hi
    simp only at e5 e4
    rw [this, h6.2.1 i hi, e5, e4, hF i hi, valy _ ha]
    congr 1
    refine hg _ _ (fun j hj => ?_) i
    have e2 := h2.2.1 j hj
    simp only at e2
    rw [val1 _ (hxp.2.1 j hj)] at e2
    rw [← e2]
    unfold Vec.val; rw [xp4 j hj]
  · by_cases h : (m c).isSome
    · rw [nf c h, h6.2.2 c hc, old5 c h]
    · have hn : m c = none := by simpa using h
      rw [hn]
      simp only [delVec, Mem.free]
      by_cases h1 : px ≤ c ∧ c < px + x.dim
      · rw [if_pos h1]
      · rw [if_neg h1]
        by_cases h2' : py ≤ c ∧ c < py + y.dim
        · rw [if_pos h2']
        · rw [if_neg h2', h6.2.2 c hc, h5.2.2 c fun h => h2' (vcell_iff.mp h), h4.2.2 c fun h => h2' (vcell_iff.mp h),
            em3, Rk.alloc_of_not h2', h2.2.2 c fun h => h1 (vcell_iff.mp h), em1, Rk.alloc_of_not h1, hn]

theorem hleaves_sub : ∀ {h : HMat G}, HOk h → ∀ l ∈ hleaves h,
    h.rc.cl.off ≤ l.rc.cl.off ∧ l.rc.cl.off + l.rc.cl.size ≤ h.rc.cl.off + h.rc.cl.size ∧
    h.cc.cl.off ≤ l.cc.cl.off ∧ l.cc.cl.off + l.cc.cl.size ≤ h.cc.cl.off + h.cc.cl.size := by
  intro h
  induction h with
  | rk t s d r => intro _ l hl; rw [hleaves, List.mem_singleton] at hl; subst hl; exact ⟨le_rfl, le_rfl, le_rfl, le_rfl⟩
  | full t s d f => intro _ l hl; rw [hleaves, List.mem_singleton] at hl; subst hl; exact ⟨le_rfl, le_rfl, le_rfl, le_rfl⟩
  | super t s d rs cs son ih =>
    rintro ⟨_, _, ⟨R, C, hrc, hR, hC⟩, hs⟩ l hl
    rw [hleaves] at hl
    simp only [List.mem_flatMap, List.mem_finRange, true_and] at hl
    obtain ⟨j, i, hl⟩ := hl
    have := ih i j (hs i j) l hl
    rw [(hrc i j).1, (hrc i j).2] at this
    obtain ⟨a1, a2⟩ := Segments.bounds hR i
    obtain ⟨b1, b2⟩ := Segments.bounds hC j
    show t.cl.off ≤ _ ∧ _ ≤ t.cl.off + t.cl.size ∧ s.cl.off ≤ _ ∧ _ ≤ s.cl.off + s.cl.size
    omega

/-- a sum with one possibly non-zero term -/
theorem sum_pick {M : Type _} [AddCommMonoid M] {f : Nat → M} {P : Nat → Prop} [DecidablePred P] {n o i : Nat}
    (hP : ∀ k < n, P k ↔ o + k = i) :
    (∑ k ∈ Finset.range n, if P k then f k else 0) = if o ≤ i ∧ i < o + n then f (i - o) else 0 := by
  by_cases h : o ≤ i ∧ i < o + n
  · rw [if_pos h, Finset.sum_eq_single (i - o)]
    · rw [if_pos ((hP _ (by omega)).mpr (by omega))]
    · intro k hk hne
      rw [Finset.mem_range] at hk
      rw [if_neg fun hp => hne (by have := (hP k hk).mp hp; omega)]
    · intro hn; rw [Finset.mem_range] at hn; omega
  · rw [if_neg h, Finset.sum_eq_zero]
    intro k hk
    rw [Finset.mem_range] at hk
    rw [if_neg fun hp => h (by have := (hP k hk).mp hp; omega)]

theorem dense_place {h : HMat G} (ho : HOk h) {ridx cidx : Arr Nat} (hr : IsPerm ridx h.rc.cl.off h.rsize)
    (hc : IsPerm cidx h.cc.cl.off h.csize) (m : Mem K) {i j : Nat} (hi : i < h.rsize) (hj : j < h.csize) :
    dense ridx.v cidx.v m h (ridx.v (h.rc.cl.off + i)) (cidx.v (h.cc.cl.off + j)) =
      place m h (h.rc.cl.off + i) (h.cc.cl.off + j) := by
  unfold dense place
  refine congrArg List.sum (List.map_congr_left fun l hl => ?_)
  have hsub := hleaves_sub ho l hl
  have er : h.rsize = h.rc.cl.size := rfl
  have ec : h.csize = h.cc.cl.size := rfl
  have inner : ∀ k < l.rc.cl.size, (∑ j' ∈ Finset.range l.cc.cl.size,
      if ridx.v (l.rc.cl.off + k) = ridx.v (h.rc.cl.off + i) ∧ cidx.v (l.cc.cl.off + j') = cidx.v (h.cc.cl.off + j)
        then leafVal m l k j' else 0) =
      if ridx.v (l.rc.cl.off + k) = ridx.v (h.rc.cl.off + i) then
        (if l.cc.cl.off ≤ h.cc.cl.off + j ∧ h.cc.cl.off + j < l.cc.cl.off + l.cc.cl.size then
          leafVal m l k (h.cc.cl.off + j - l.cc.cl.off) else 0) else 0 := by
    intro k hk
    by_cases hp : ridx.v (l.rc.cl.off + k) = ridx.v (h.rc.cl.off + i)
    · simp only [hp, true_and, if_true]
      refine sum_pick (f := fun j' => leafVal m l k j') fun j' hj' => ⟨fun e => ?_, fun e => by rw [e]⟩
      have := hc.2.2 (l.cc.cl.off + j' - h.cc.cl.off) (by omega) j hj
        (by rw [show h.cc.cl.off + (l.cc.cl.off + j' - h.cc.cl.off) = l.cc.cl.off + j' by omega]; exact e)
      omega
    · simp only [hp, false_and, if_false, Finset.sum_const_zero]
  rw [Finset.sum_congr rfl fun k hk => inner k (Finset.mem_range.mp hk)]
  rw [sum_pick (o := l.rc.cl.off) (i := h.rc.cl.off + i) (f := fun k =>
    if l.cc.cl.off ≤ h.cc.cl.off + j ∧ h.cc.cl.off + j < l.cc.cl.off + l.cc.cl.size then
          leafVal m l k (h.cc.cl.off + j - l.cc.cl.off) else 0)]
  · rw [← ite_and]
    exact if_congr and_assoc rfl rfl
  · intro k hk
    refine ⟨fun e => ?_, fun e => by rw [e]⟩
    have := hr.2.2 (l.rc.cl.off + k - h.rc.cl.off) (by omega) i hi
      (by rw [show h.rc.cl.off + (l.rc.cl.off + k - h.rc.cl.off) = l.rc.cl.off + k by omega]; exact e)
    omega

/-- summing over all indices in the order of the index array -/
theorem sum_perm {M : Type _} [AddCommMonoid M] {idx : Arr Nat} {off n : Nat} (h : IsPerm idx off n) (f : Nat → M) :
    ∑ b ∈ Finset.range n, f b = ∑ j ∈ Finset.range n, f (idx.v (off + j)) := by
  refine (Finset.sum_bij (fun j _ => idx.v (off + j)) ?_ ?_ ?_ fun _ _ => rfl).symm
  · intro j hj; rw [Finset.mem_range] at *; exact h.2.1 j hj
  · intro j hj k hk e; rw [Finset.mem_range] at *; exact h.2.2 j hj k hk e
  · intro b hb; rw [Finset.mem_range] at hb
    obtain ⟨i, hi, e⟩ := h.surj hb
    exact ⟨i, Finset.mem_range.mpr hi, e⟩

theorem valid_cells {m : Mem K} : ∀ {h : HMat G}, HValid m h → ∀ c, HCell h c → (m c).isSome := by
  intro h
  induction h with
  | rk t s d r =>
    rintro (hv : r.Valid m) c (⟨i, hi, j, hj, rfl⟩ | ⟨i, hi, j, hj, rfl⟩)
    · exact hv.A.2 i hi j hj
    · exact hv.B.2 i hi j hj
  | full t s d f => rintro (hv : f.Valid m) c ⟨i, hi, j, hj, rfl⟩; exact hv.2 i hi j hj
  | super t s d rs cs son ih => rintro hv c ⟨i, j, hc⟩; exact ih i j (hv i j) c hc

/-- cells in use keep their value: the matrix is the same -/
theorem place_old {m m1 : Mem K} {h : HMat G} (ho : HOk h) (hv : HValid m h) (hold : ∀ c, (m c).isSome → m1 c = m c) :
    HValid m1 h ∧ ∀ r c, place m1 h r c = place m h r c :=
  place_frame (S := fun c => ¬ (m c).isSome) (fun c hc => hold c (not_not.mp hc)) ho hv
    fun c hc hn => hn (valid_cells hv c hc)

theorem addeval_tot {h : HMat G} {ridx cidx : Arr Nat} {px py : Nat} {junk : Nat → K} {x y : Vec} {m : Mem K}
    (ho : HOk h) (hv : HValid m h) (hr : IsPerm ridx h.rc.cl.off h.rsize) (hc : IsPerm cidx h.cc.cl.off h.csize)
    (hx : x.Valid m) (hy : y.Valid m) (hxd : x.dim = h.csize) (hyd : y.dim = h.rsize) (hfx : Fresh m px x.dim)
    (hfy : Fresh (m.alloc px x.dim junk) py y.dim) (alpha : K) :
    Tot (addeval ridx cidx px py junk alpha h x y m) (VecBecomes y m fun a => y.val m a + alpha *
      ∑ b ∈ Finset.range h.csize, dense ridx.v cidx.v m h a b * x.val m b) := by
  unfold addeval
  refine Tot.cassert (by simpa using hxd) (Tot.cassert (by simpa using hyd) ?_)
  refine permuted_tot (g := fun u i => alpha * ∑ j ∈ Finset.range h.csize,
    place m h (h.rc.cl.off + i) (h.cc.cl.off + j) * u j) (hxd ▸ hc) (hyd ▸ hr) hx hy hfx hfy ?_ ?_ ?_
  · intro u u' hu i
    congr 1
    refine Finset.sum_congr rfl fun j hj => ?_
    rw [Finset.mem_range] at hj
    rw [hu j (by omega)]
  · intro xp yp m1 hold hxp hyp hd hxpd hypd
    obtain ⟨hv1, hp1⟩ := place_old ho hv fun c hc => (hold c hc).1
    refine (fastaddeval_tot alpha ho hv1 hxp hyp (fun c hc => (hold c (valid_cells hv c hc)).2) hd (by omega)
      (by omega)).mono fun m' h' => h'.congr fun i hi => ?_
    simp only [hp1]
  · intro i hi
    rw [sum_perm hc]
    congr 2
    refine Finset.sum_congr rfl fun j hj => ?_
    rw [Finset.mem_range] at hj
    rw [dense_place ho hr hc m (hyd ▸ hi) hj]

theorem addevaltrans_tot {h : HMat G} {ridx cidx : Arr Nat} {px py : Nat} {junk : Nat → K} {x y : Vec} {m : Mem K}
    (ho : HOk h) (hv : HValid m h) (hr : IsPerm ridx h.rc.cl.off h.rsize) (hc : IsPerm cidx h.cc.cl.off h.csize)
    (hx : x.Valid m) (hy : y.Valid m) (hxd : x.dim = h.rsize) (hyd : y.dim = h.csize) (hfx : Fresh m px x.dim)
    (hfy : Fresh (m.alloc px x.dim junk) py y.dim) (alpha : K) :
    Tot (addevaltrans ridx cidx px py junk alpha h x y m) (VecBecomes y m fun b => y.val m b + alpha *
      ∑ a ∈ Finset.range h.rsize, star (dense ridx.v cidx.v m h a b) * x.val m a) := by
  unfold addevaltrans
  refine Tot.cassert (by simpa using hxd) (Tot.cassert (by simpa using hyd) ?_)
  refine permuted_tot (g := fun u i => alpha * ∑ j ∈ Finset.range h.rsize,
    star (place m h (h.rc.cl.off + j) (h.cc.cl.off + i)) * u j) (hxd ▸ hr) (hyd ▸ hc) hx hy hfx hfy ?_ ?_ ?_
  · intro u u' hu i
    congr 1
    refine Finset.sum_congr rfl fun j hj => ?_
    rw [Finset.mem_range] at hj
    rw [hu j (by omega)]
  · intro xp yp m1 hold hxp hyp hd hxpd hypd
    obtain ⟨hv1, hp1⟩ := place_old ho hv fun c hc => (hold c hc).1
    refine (fastaddevaltrans_tot alpha ho hv1 hxp hyp (fun c hc => (hold c (valid_cells hv c hc)).2) hd (by omega)
      (by omega)).mono fun m' h' => h'.congr fun i hi => ?_
    simp only [hp1]
  · intro i hi
    rw [sum_perm hr]
    congr 2
    refine Finset.sum_congr rfl fun j hj => ?_
    rw [Finset.mem_range] at hj
    rw [dense_place ho hr hc m hj (hyd ▸ hi)]

end HMat
end H2
