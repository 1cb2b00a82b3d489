import Verif.Proof.HMatrix2
import Verif.Spec.ClusterBasis
import Mathlib.Tactic.Ring

set_option linter.unusedSectionVars false

namespace H2
open Spec Dense

/-! ### segments -/

theorem ofs_eq {n : Nat} (sz : Fin n → Nat) (i : Fin n) : ofs sz i = pre sz i.1 := rfl

theorem sum_concat {M : Type _} [AddCommMonoid M] : ∀ {n : Nat} (sz : Fin n → Nat) (g : Nat → M),
    ∑ c ∈ Finset.range (∑ i, sz i), g c = ∑ j, ∑ i ∈ Finset.range (sz j), g (ofs sz j + i) := by
  intro n
  induction n with
  | zero => intro sz g; simp
  | succ n ih =>
    intro sz g
    rw [Fin.sum_univ_castSucc, Fin.sum_univ_castSucc, Finset.sum_range_add, ih (fun i => sz i.castSucc)]
    congr 1
    · refine Finset.sum_congr rfl fun j _ => Finset.sum_congr rfl fun i _ => ?_
      congr 2
      unfold ofs
      rw [Fin.sum_univ_castSucc]
      simp only [Fin.val_castSucc, Fin.val_last]
      rw [if_neg (by have := j.2; omega), add_zero]
    · refine Finset.sum_congr rfl fun i _ => ?_
      congr 2
      unfold ofs
      rw [Fin.sum_univ_castSucc]
      simp

theorem sum_segments {G : Type _} {M : Type _} [AddCommMonoid M] {t : CRef G} {n : Nat} {R : Fin n → CRef G}
    (h : Segments t R) (f : Nat → M) : ∑ i ∈ Finset.range t.cl.size, f (t.cl.off + i) =
      ∑ j, ∑ i ∈ Finset.range (R j).cl.size, f ((R j).cl.off + i) := by
  rw [← h.2, sum_concat (fun j => (R j).cl.size)]
  refine Finset.sum_congr rfl fun j _ => Finset.sum_congr rfl fun i _ => ?_
  rw [h.1 j, ← Nat.add_assoc]; rfl

theorem In.son {G : Type _} {t : CRef G} {n : Nat} {R : Fin n → CRef G} (h : Segments t R) {i : Fin n} {r : Nat}
    (hr : In (R i) r) : In t r := by
  obtain ⟨h1, h2⟩ := HMat.Segments.bounds h i
  unfold In at *; omega

theorem In.add {G : Type _} {t : CRef G} {i : Nat} (hi : i < t.cl.size) : In t (t.cl.off + i) := by unfold In; omega

/-! ### sub-vectors -/
section
variable {K : Type _} [Field K] [StarRing K]

theorem sub_keep {y y1 : Vec} {dim off : Nat} {m m' : Mem K} (h : initSubVec y dim off = .ok y1)
    (hf : Frame y1.Cell m m') {i : Nat} (hn : ¬ (off ≤ i ∧ i < off + dim)) : y.val m' i = y.val m i := by
  obtain ⟨h1, rfl⟩ := initSubVec_ok.mp h
  unfold Vec.val
  rw [hf]
  rintro ⟨k, hk, e⟩
  have hk : k < dim := hk
  simp only [Vec.addr] at e
  omega

theorem sub_revalid {y y1 : Vec} {dim off : Nat} {m m' : Mem K} (h : initSubVec y dim off = .ok y1) (hy : y.Valid m)
    (hv : y1.Valid m') (hf : Frame y1.Cell m m') : y.Valid m' := by
  intro i hi
  by_cases hc : y1.Cell (y.addr i)
  · obtain ⟨k, hk, e⟩ := hc
    rw [e]; exact hv k hk
  · rw [hf _ hc]; exact hy i hi

theorem sub_frame {y y1 : Vec} {dim off : Nat} {m m' : Mem K} (h : initSubVec y dim off = .ok y1)
    (hf : Frame y1.Cell m m') : Frame y.Cell m m' := fun c hc => hf c fun h' => hc (sub_cell h h')

theorem sub_disj {y y1 y2 : Vec} {d1 o1 d2 o2 : Nat} (h1 : initSubVec y d1 o1 = .ok y1)
    (h2 : initSubVec y d2 o2 = .ok y2) (hd : o1 + d1 ≤ o2 ∨ o2 + d2 ≤ o1) : Disj y1.Cell y2.Cell := by
  obtain ⟨e1, rfl⟩ := initSubVec_ok.mp h1
  obtain ⟨e2, rfl⟩ := initSubVec_ok.mp h2
  rintro c ⟨i, hi, rfl⟩ ⟨j, hj, e⟩
  simp only [Vec.addr] at *
  omega

theorem _root_.H2.Spec.Frame.trans {S : Nat → Prop} {m m' m'' : Mem K} (h : Frame S m m') (h' : Frame S m' m'') : Frame S m m'' :=
  fun c hc => (h' c hc).trans (h c hc)
theorem _root_.H2.Spec.Frame.mono {S T : Nat → Prop} {m m' : Mem K} (h : Frame S m m') (hs : ∀ c, S c → T c) : Frame T m m' :=
  fun c hc => h c fun h' => hc (hs c h')
end

namespace VSt
variable {K : Type _} [Field K] [StarRing K]

theorem openSub_eq {src v : Vec} {dim off : Nat} (h : initSubVec src dim off = .ok v) (s : VSt K) :
    openSub src dim off s = .ok (v, ⟨s.mem, s.act + 1⟩) := by
  unfold openSub; rw [h]; rfl

theorem uninit_eq (m : Mem K) (a : Nat) : uninit (K := K) ⟨m, a + 1⟩ = .ok ⟨m, a⟩ := by
  unfold uninit; rw [cassert_true (by simp), ok_bind]; rfl

theorem run_tot {f : Mem K → R (Mem K)} {s : VSt K} {P : Mem K → Prop} (h : Tot (f s.mem) P) :
    Tot (run f s) fun s' => s'.act = s.act ∧ P s'.mem := by
  unfold run
  refine Tot.bind h fun m _ hm => Tot.pure ⟨rfl, hm⟩
end VSt

namespace CBas
open VSt
variable {G : Type _} {K : Type _} [Field K] [StarRing K]

theorem basis_zero {m : Mem K} : ∀ {cb : CBas G}, CbOk cb → ∀ {r : Nat} (l : Nat), ¬ In cb.t r → basis m cb r l = 0 := by
  intro cb
  induction cb with
  | mk t k kt kb V E n son ih =>
    rintro ⟨h1, h2, h3⟩ r l hn
    have hn : ¬ In t r := hn
    unfold basis
    by_cases h0 : n = 0
    · rw [if_pos h0, if_neg hn]
    · rw [if_neg h0]
      refine Finset.sum_eq_zero fun i _ => Finset.sum_eq_zero fun nu _ => ?_
      rw [ih i (h3 i).2.2 nu fun h => hn (In.son (h2 (by omega)).1 h), zero_mul]

theorem basis_leaf {m : Mem K} {t : CRef G} {k kt kb : Nat} {V E : Mat} {son : Fin 0 → CBas G} {i : Nat} (l : Nat)
    (hi : i < t.cl.size) : basis m (.mk t k kt kb V E 0 son) (t.cl.off + i) l = V.val m i l := by
  rw [basis, if_pos rfl, if_pos (In.add hi)]
  congr 1; omega

theorem basis_node {m : Mem K} {t : CRef G} {k kt kb : Nat} {V E : Mat} {n : Nat} {son : Fin n → CBas G} (h : 0 < n)
    (r l : Nat) : basis m (.mk t k kt kb V E n son) r l =
      ∑ i, ∑ nu ∈ Finset.range (son i).k, basis m (son i) r nu * (son i).E.val m nu l := by
  rw [basis, if_neg (by omega)]

/-- in the rows of a son only this son contributes -/
theorem basis_son {m : Mem K} {t : CRef G} {k kt kb : Nat} {V E : Mat} {n : Nat} {son : Fin n → CBas G}
    (ho : CbOk (.mk t k kt kb V E n son)) (j : Fin n) {r : Nat} (hr : In (son j).t r) (l : Nat) :
    basis m (.mk t k kt kb V E n son) r l = ∑ nu ∈ Finset.range (son j).k, basis m (son j) r nu * (son j).E.val m nu l := by
  have hn : 0 < n := Nat.lt_of_le_of_lt (Nat.zero_le _) j.2
  rw [basis_node hn, Finset.sum_eq_single j]
  · intro i _ hi
    refine Finset.sum_eq_zero fun nu _ => ?_
    rw [basis_zero (ho.2.2 i).2.2, zero_mul]
    intro h'
    obtain ⟨a1, a2⟩ := HMat.Segments.bounds (ho.2.1 hn).1 i
    obtain ⟨b1, b2⟩ := HMat.Segments.bounds (ho.2.1 hn).1 j
    unfold In at h' hr
    have hne : i.1 ≠ j.1 := fun e => hi (Fin.ext e)
    have mono : ∀ a b : Fin n, a.1 < b.1 → pre (fun k => (son k).t.cl.size) a.1 + (son a).t.cl.size ≤
        pre (fun k => (son k).t.cl.size) b.1 := by
      intro a b hab
      rw [← pre_succ]
      unfold pre
      refine Finset.sum_le_sum fun c _ => ?_
      by_cases hc : c.1 < a.1 + 1
      · rw [if_pos hc, if_pos (by omega)]
      · rw [if_neg hc]; exact Nat.zero_le _
    rcases Nat.lt_or_gt_of_ne hne with hlt | hlt
    · have := mono i j hlt; omega
    · have := mono j i hlt; omega
  · intro h; exact absurd (Finset.mem_univ _) h

theorem frame_basis {S : Nat → Prop} {m m' : Mem K} (hf : Frame S m m') : ∀ {cb : CBas G}, CbOk cb → CbValid m cb →
    Disj (CbCell cb) S → CbValid m' cb ∧ ∀ r l, l < cb.k → basis m' cb r l = basis m cb r l := by
  intro cb
  induction cb with
  | mk t k kt kb V E n son ih =>
    rintro ⟨h1, h2, h3⟩ ⟨v1, v2⟩ hd
    have ih' := fun i => ih i (h3 i).2.2 (v2 i).2 fun c hc => hd c (.inr ⟨i, .inr hc⟩)
    have hE : ∀ i, Disj (son i).E.Cell S := fun i c hc => hd c (.inr ⟨i, .inl hc⟩)
    refine ⟨⟨fun h0 => Rk.frame_valid hf (fun c hc => hd c (.inl ⟨h0, hc⟩)) (v1 h0), fun i =>
      ⟨Rk.frame_valid hf (hE i) (v2 i).1, (ih' i).1⟩⟩, fun r l hl => ?_⟩
    unfold basis
    by_cases h0 : n = 0
    · rw [if_pos h0, if_pos h0]
      by_cases hr : In t r
      · rw [if_pos hr, if_pos hr]
        obtain ⟨e1, e2, _⟩ := h1 h0
        refine Rk.frame_val hf (fun c hc => hd c (.inl ⟨h0, hc⟩)) ?_ ?_
        · unfold In at hr; omega
        · have : l < k := hl; omega
      · rw [if_neg hr, if_neg hr]
    · rw [if_neg h0, if_neg h0]
      refine Finset.sum_congr rfl fun i _ => Finset.sum_congr rfl fun nu hnu => ?_
      rw [Finset.mem_range] at hnu
      have : l < k := hl
      rw [(ih' i).2 r nu hnu, Rk.frame_val hf (hE i) (by rw [(h3 i).1]; exact hnu) (by rw [(h3 i).2.1]; exact hl)]

theorem isCoeffs_y {m : Mem K} : ∀ {cb : CBas G}, CbOk cb → ∀ {X X' Y Y' : Nat → K}, (∀ r, In cb.t r → X' r = X r) →
    (∀ q < cb.ktree, Y' q = Y q) → IsCoeffs m cb X Y → IsCoeffs m cb X' Y' := by
  intro cb
  induction cb with
  | mk t k kt kb V E n son ih =>
    rintro ⟨h1, h2, h3⟩ X X' Y Y' hX hY ⟨c1, c2, c3⟩
    have hX : ∀ r, In t r → X' r = X r := hX
    have hY : ∀ q < kt, Y' q = Y q := hY
    have hk : k ≤ kt := by
      by_cases h0 : n = 0
      · have := h1 h0; omega
      · have := h2 (by omega); omega
    refine ⟨fun l hl => ?_, fun h0 i hi => ?_, fun i => ?_⟩
    · rw [hY l (by omega), c1 l hl]
      exact Finset.sum_congr rfl fun i hi => by rw [hX _ (In.add (Finset.mem_range.mp hi))]
    · have := h1 h0
      rw [hY _ (by omega), c2 h0 i hi, hX _ (In.add hi)]
    · have hn : 0 < n := Nat.lt_of_le_of_lt (Nat.zero_le _) i.2
      obtain ⟨g1, g2⟩ := h2 hn
      refine ih i (h3 i).2.2 (fun r hr => hX r (In.son g1 hr)) (fun q hq => ?_) (c3 i)
      have := pre_le (fun i => (son i).ktree) i
      rw [← ofs_eq] at this
      exact hY _ (by omega)

theorem isCoeffs_frame {S : Nat → Prop} {m m' : Mem K} (hf : Frame S m m') : ∀ {cb : CBas G}, CbOk cb → CbValid m cb →
    Disj (CbCell cb) S → ∀ {X Y : Nat → K}, IsCoeffs m' cb X Y ↔ IsCoeffs m cb X Y := by
  intro cb
  induction cb with
  | mk t k kt kb V E n son ih =>
    intro ho hv hd X Y
    have hb := (frame_basis hf ho hv hd).2
    obtain ⟨h1, h2, h3⟩ := ho
    unfold IsCoeffs
    refine and_congr (forall_congr' fun l => forall_congr' fun hl => ?_) (and_congr Iff.rfl (forall_congr' fun i =>
      ih i (h3 i).2.2 (hv.2 i).2 fun c hc => hd c (.inr ⟨i, .inr hc⟩)))
    have : ∑ i ∈ Finset.range t.cl.size, star (basis m' (.mk t k kt kb V E n son) (t.cl.off + i) l) * X (t.cl.off + i) =
        ∑ i ∈ Finset.range t.cl.size, star (basis m (.mk t k kt kb V E n son) (t.cl.off + i) l) * X (t.cl.off + i) :=
      Finset.sum_congr rfl fun i _ => by rw [hb _ l hl]
    rw [this]

theorem pick_tot {idx : Arr Nat} {t : CRef G} {x xp : Vec} {m : Mem K} (hi : IdxOk idx t x.dim) (hx : x.Valid m)
    (hp : xp.Valid m) (hd : Disj x.Cell xp.Cell) (hdim : xp.dim = t.cl.size) :
    Tot (pick idx t x xp m) (VecBecomes xp m (fun i => x.val m (idx.v (t.cl.off + i)))) := by
  unfold pick
  refine (vecLoop hp (n := t.cl.size) (G := fun i => x.val m (idx.v (t.cl.off + i))) (by omega)
    fun i hlt m' hm h => ?_).mono fun m' h => vbecomes_congr h fun i hlt => if_pos (by omega)
  have hip := hi.2 _ (In.add hlt)
  rw [Arr.get_ok (by have := hi.1; omega), ok_bind, vread_other hx hd (show i ≤ xp.dim by omega) hm hip, ok_bind,
    Mem.write_ok h]

theorem segs_le {n : Nat} (sz : Fin n → Nat) (i : Fin n) : ofs sz i + sz i ≤ ∑ k, sz k := pre_le sz i

theorem IdxOk.son {idx : Arr Nat} {t : CRef G} {n N : Nat} {R : Fin n → CRef G} (h : IdxOk idx t N) (hs : Segments t R)
    (i : Fin n) : IdxOk idx (R i) N := by
  obtain ⟨a1, a2⟩ := HMat.Segments.bounds hs i
  exact ⟨by have := h.1; omega, fun r hr => h.2 r (In.son hs hr)⟩

theorem ofs_mono {n : Nat} (sz : Fin n → Nat) {a b : Fin n} (hab : a.1 < b.1) : ofs sz a + sz a ≤ ofs sz b := by
  rw [ofs_eq, ofs_eq, ← pre_succ]
  unfold pre
  refine Finset.sum_le_sum fun c _ => ?_
  by_cases hc : c.1 < a.1 + 1
  · rw [if_pos hc, if_pos (by omega)]
  · rw [if_neg hc]; exact Nat.zero_le _

theorem k_le_ktree {cb : CBas G} (h : CbOk cb) : cb.k ≤ cb.ktree := by
  cases cb with
  | mk t k kt kb V E n son =>
    obtain ⟨h1, h2, _⟩ := h
    show k ≤ kt
    by_cases h0 : n = 0
    · have := h1 h0; omega
    · have := h2 (by omega); omega

theorem isCoeffs_head {m : Mem K} {cb : CBas G} {X Y : Nat → K} (h : IsCoeffs m cb X Y) {l : Nat} (hl : l < cb.k) :
    Y l = ∑ i ∈ Finset.range cb.t.cl.size, star (basis m cb (cb.t.cl.off + i) l) * X (cb.t.cl.off + i) := by
  cases cb with
  | mk t k kt kb V E n son => exact h.1 l hl

/-- what the forward transformation achieves -/
def FwdPost (s : VSt K) (cb : CBas G) (X : Nat → K) (xt : Vec) (s' : VSt K) : Prop :=
  s'.act = s.act ∧ xt.Valid s'.mem ∧ Frame xt.Cell s.mem s'.mem ∧ IsCoeffs s.mem cb X (xt.val s'.mem)

theorem coeff_node {m : Mem K} {t : CRef G} {k kt kb : Nat} {V E : Mat} {n : Nat} {son : Fin n → CBas G}
    (ho : CbOk (.mk t k kt kb V E n son)) (hn : 0 < n) {X Y : Nat → K} {l : Nat}
    (hc : ∀ i, IsCoeffs m (son i) X (fun q => Y (k + ofs (fun i => (son i).ktree) i + q))) :
    ∑ i, ∑ nu ∈ Finset.range (son i).k, star ((son i).E.val m nu l) * Y (k + ofs (fun i => (son i).ktree) i + nu) =
    ∑ i ∈ Finset.range t.cl.size, star (basis m (.mk t k kt kb V E n son) (t.cl.off + i) l) * X (t.cl.off + i) := by
  rw [sum_segments (ho.2.1 hn).1 (fun r => star (basis m (.mk t k kt kb V E n son) r l) * X r)]
  refine Finset.sum_congr rfl fun j _ => ?_
  have : ∀ nu ∈ Finset.range (son j).k, star ((son j).E.val m nu l) * Y (k + ofs (fun i => (son i).ktree) j + nu) =
      ∑ i ∈ Finset.range (son j).t.cl.size, star ((son j).E.val m nu l) *
        (star (basis m (son j) ((son j).t.cl.off + i) nu) * X ((son j).t.cl.off + i)) := by
    intro nu hnu
    have := isCoeffs_head (hc j) (Finset.mem_range.mp hnu)
    rw [this, Finset.mul_sum]
  rw [Finset.sum_congr rfl this, Finset.sum_comm]
  refine Finset.sum_congr rfl fun i hi => ?_
  rw [basis_son ho j (In.add (Finset.mem_range.mp hi)), star_sum, Finset.sum_mul]
  refine Finset.sum_congr rfl fun nu _ => ?_
  rw [star_mul']; ring

theorem forward_tot {idx : Arr Nat} : ∀ {cb : CBas G} {x xt : Vec} {s : VSt K}, CbOk cb → CbValid s.mem cb →
    Disj (CbCell cb) xt.Cell → x.Valid s.mem → Disj x.Cell xt.Cell → xt.Valid s.mem → xt.dim = cb.ktree →
    IdxOk idx cb.t x.dim →
    Tot (forward idx cb x xt s) (FwdPost s cb (fun r => x.val s.mem (idx.v r)) xt) := by
  intro cb
  induction cb with
  | mk t k kt kb V E n son ih =>
    rintro x xt ⟨m, a⟩ ho hv hd hx hxt hxv hdim hidx
    replace hdim : xt.dim = kt := hdim
    replace hidx : IdxOk idx t x.dim := hidx
    have hk : k ≤ kt := k_le_ktree ho
    simp only at hv hx hxv ⊢
    obtain ⟨xc, exc⟩ : ∃ xc, initSubVec xt k 0 = .ok xc := ⟨_, initSubVec_ok.mpr ⟨by omega, rfl⟩⟩
    unfold forward
    refine Tot.cassert (by simpa using hdim) ?_
    rw [openSub_eq exc, ok_bind]
    simp only
    refine Tot.bind (run_tot (clearVec_tot (sub_valid exc hxv))) fun s1 _ h1 => ?_
    obtain ⟨m1, a1⟩ := s1
    obtain ⟨ha1, hc1⟩ := h1
    simp only at ha1 hc1
    subst ha1
    have hf1 : Frame xt.Cell m m1 := sub_frame exc hc1.2.2
    have hv1 : xt.Valid m1 := sub_revalid exc hxv hc1.1 hc1.2.2
    have hz1 : ∀ l < k, xt.val m1 l = 0 := fun l hl => by
      have := hc1.2.1 l (by rw [sub_dim exc]; exact hl)
      rw [sub_val exc] at this; simpa using this
    obtain ⟨o1, o2, o3⟩ := ho
    by_cases h0 : n = 0
    · subst h0
      obtain ⟨e1, e2, e3⟩ := o1 rfl
      rw [if_neg (lt_irrefl _)]
      obtain ⟨xp, exp⟩ : ∃ xp, initSubVec xt t.cl.size k = .ok xp := ⟨_, initSubVec_ok.mpr ⟨by omega, rfl⟩⟩
      refine Tot.bind (P := fun (s' : VSt K) => s'.act = a + 1 ∧ xt.Valid s'.mem ∧ Frame xt.Cell m s'.mem ∧
        IsCoeffs m (.mk t k kt kb V E 0 son) (fun r => x.val m (idx.v r)) (xt.val s'.mem)) ?_ ?_
      · rw [openSub_eq exp, ok_bind]
        simp only
        have hx1 : x.Valid m1 := Rk.frame_vvalid hf1 hxt hx
        have dxp : Disj x.Cell xp.Cell := fun c h1 h2 => hxt c h1 (sub_cell exp h2)
        refine Tot.bind (run_tot (pick_tot hidx hx1 (sub_valid exp hv1) dxp (sub_dim exp))) fun s2 _ h2 => ?_
        obtain ⟨m2, a2⟩ := s2
        obtain ⟨ha2, hc2⟩ := h2
        simp only at ha2 hc2
        subst ha2
        have hf2 : Frame xt.Cell m m2 := hf1.trans (sub_frame exp hc2.2.2)
        have hv2 : xt.Valid m2 := sub_revalid exp hv1 hc2.1 hc2.2.2
        have dV : Disj V.Cell xt.Cell := fun c hc => hd c (.inl ⟨rfl, hc⟩)
        refine Tot.bind (run_tot (addevaltrans_tot (Rk.frame_valid hf2 dV (hv.1 rfl)) (sub_valid exp hv2)
          (sub_valid exc hv2) (fun c h1 h2 => dV c h1 (sub_cell exc h2)) (sub_disj exp exc (.inr (by omega)))
          (by rw [sub_dim exp]; omega) (by rw [sub_dim exc]; omega) 1)) fun s3 _ h3 => ?_
        obtain ⟨m3, a3⟩ := s3
        obtain ⟨ha3, hc3⟩ := h3
        simp only at ha3 hc3
        subst ha3
        rw [uninit_eq]
        refine ⟨_, rfl, rfl, sub_revalid exc hv2 hc3.1 hc3.2.2, hf2.trans (sub_frame exc hc3.2.2), ?_, ?_, fun i => i.elim0⟩
        · intro l hl
          have := hc3.2.1 l (by rw [sub_dim exc]; exact hl)
          simp only at this ⊢
          rw [sub_val exc, sub_val exc, zero_add, if_pos (by omega), one_mul] at this
          rw [this, sub_keep exp hc2.2.2 (by omega), hz1 l hl, zero_add, e1]
          refine Finset.sum_congr rfl fun i hi => ?_
          have hi' := Finset.mem_range.mp hi
          rw [basis_leaf _ hi', Rk.frame_val hf2 dV (by omega) (by omega)]
          have := hc2.2.1 i (by rw [sub_dim exp]; exact hi')
          simp only at this
          rw [this]
          rw [Rk.frame_vval hf1 hxt (hidx.2 _ (In.add hi'))]
        · intro _ i hi
          have := hc2.2.1 i (by rw [sub_dim exp]; exact hi)
          simp only at this ⊢
          rw [sub_keep exc hc3.2.2 (by omega), ← sub_val exp, this,
            Rk.frame_vval hf1 hxt (hidx.2 _ (In.add hi))]
      · rintro ⟨m2, a2⟩ - ⟨ha, p1, p2, p3⟩
        simp only at ha p1 p2 p3
        subst ha
        rw [uninit_eq]
        exact ⟨_, rfl, rfl, p1, p2, p3⟩
    · have hn : 0 < n := by omega
      obtain ⟨g1, g2⟩ := o2 hn
      rw [if_pos hn]
      refine Tot.bind (P := fun (s' : VSt K) => s'.act = a + 1 ∧ xt.Valid s'.mem ∧ Frame xt.Cell m s'.mem ∧
        IsCoeffs m (.mk t k kt kb V E n son) (fun r => x.val m (idx.v r)) (xt.val s'.mem)) ?_ ?_
      · refine Tot.bind (foldFinM_tot (fun j (st : VSt K × Nat) => st.1.act = a + 1 ∧
          st.2 = k + pre (fun i => (son i).ktree) j ∧ xt.Valid st.1.mem ∧ Frame xt.Cell m st.1.mem ∧
          (∀ l < k, xt.val st.1.mem l = pre (fun i => ∑ nu ∈ Finset.range (son i).k, star ((son i).E.val m nu l) *
            xt.val st.1.mem (k + ofs (fun i => (son i).ktree) i + nu)) j) ∧
          ∀ i : Fin n, i.1 < j → IsCoeffs m (son i) (fun r => x.val m (idx.v r))
            (fun q => xt.val st.1.mem (k + ofs (fun i => (son i).ktree) i + q))) ?_ ?_) ?_
        · exact ⟨rfl, by simp [pre_zero], hv1, hf1, fun l hl => by rw [pre_zero, hz1 l hl],
            fun i hi => absurd hi (Nat.not_lt_zero _)⟩
        · rintro i ⟨⟨m2, a2⟩, o⟩ ⟨ha2, rfl, hv2, hf2, hq2, hc2⟩
          simp only at ha2 hv2 hf2 hq2 hc2
          subst ha2
          have hle := segs_le (fun i => (son i).ktree) i
          rw [← ofs_eq]
          obtain ⟨x1, ex1⟩ : ∃ x1, initSubVec xt (son i).ktree (k + ofs (fun i => (son i).ktree) i) = .ok x1 :=
            ⟨_, initSubVec_ok.mpr ⟨by omega, rfl⟩⟩
          simp only
          rw [openSub_eq ex1, ok_bind]
          simp only
          have dS : Disj (CbCell (son i)) xt.Cell := fun c hc => hd c (.inr ⟨i, .inr hc⟩)
          have dE : Disj (son i).E.Cell xt.Cell := fun c hc => hd c (.inr ⟨i, .inl hc⟩)
          obtain ⟨hvS, _⟩ := frame_basis hf2 (o3 i).2.2 (hv.2 i).2 dS
          refine Tot.bind (ih i (x := x) (xt := x1) (s := ⟨m2, a + 1 + 1⟩) (o3 i).2.2 hvS
            (fun c h1 h2 => dS c h1 (sub_cell ex1 h2)) (Rk.frame_vvalid hf2 hxt hx)
            (fun c h1 h2 => hxt c h1 (sub_cell ex1 h2)) (sub_valid ex1 hv2) (sub_dim ex1) (IdxOk.son hidx g1 i))
            fun s3 _ h3 => ?_
          obtain ⟨m3, a3⟩ := s3
          obtain ⟨ha3, hv3, hf3, hc3⟩ := h3
          simp only at ha3 hv3 hf3 hc3
          subst ha3
          have hf3' : Frame xt.Cell m m3 := hf2.trans (sub_frame ex1 hf3)
          have hv3' : xt.Valid m3 := sub_revalid ex1 hv2 hv3 hf3
          have hki := k_le_ktree (o3 i).2.2
          refine Tot.bind (run_tot (addevaltrans_tot (Rk.frame_valid hf3' dE (hv.2 i).1) hv3
            (sub_valid exc hv3') (fun c h1 h2 => dE c h1 (sub_cell exc h2)) (sub_disj ex1 exc (.inr (by omega)))
            (by rw [sub_dim ex1, (o3 i).1]; exact hki) (by rw [sub_dim exc, (o3 i).2.1]) 1)) fun s4 _ h4 => ?_
          obtain ⟨m4, a4⟩ := s4
          obtain ⟨ha4, hc4⟩ := h4
          simp only at ha4 hc4
          subst ha4
          rw [uninit_eq, ok_bind]
          have keep : ∀ j : Fin n, j.1 < i.1 + 1 → ∀ q < (son j).ktree,
              xt.val m4 (k + ofs (fun i => (son i).ktree) j + q) =
              if j = i then xt.val m3 (k + ofs (fun i => (son i).ktree) j + q)
              else xt.val m2 (k + ofs (fun i => (son i).ktree) j + q) := by
            intro j hj q hq
            rw [sub_keep exc hc4.2.2 (by omega)]
            by_cases e : j = i
            · rw [if_pos e]
            · rw [if_neg e]
              have : j.1 < i.1 := by have : j.1 ≠ i.1 := fun h => e (Fin.ext h); omega
              have := ofs_mono (fun i => (son i).ktree) this
              rw [sub_keep ex1 hf3 (by omega)]
          refine Tot.pure ⟨rfl, ?_, sub_revalid exc hv3' hc4.1 hc4.2.2, hf3'.trans (sub_frame exc hc4.2.2), ?_, ?_⟩
          · simp only
            rw [pre_succ, ofs_eq, Nat.add_assoc]
          · intro l hl
            have := hc4.2.1 l (by rw [sub_dim exc]; exact hl)
            simp only at this ⊢
            rw [sub_val exc, sub_val exc, zero_add, if_pos (by rw [(o3 i).2.1]; exact hl), one_mul] at this
            rw [this, sub_keep ex1 hf3 (by omega), hq2 l hl, pre_succ]
            congr 1
            · unfold pre
              refine Finset.sum_congr rfl fun j _ => ?_
              by_cases hj : j.1 < i.1
              · rw [if_pos hj, if_pos hj]
                refine Finset.sum_congr rfl fun nu hnu => ?_
                have hnu := Finset.mem_range.mp hnu
                have := k_le_ktree (o3 j).2.2
                rw [keep j (by omega) nu (by omega), if_neg (fun e => by rw [e] at hj; omega)]
              · rw [if_neg hj, if_neg hj]
            · rw [(o3 i).1]
              refine Finset.sum_congr rfl fun nu hnu => ?_
              have hnu := Finset.mem_range.mp hnu
              rw [keep i (by omega) nu (by omega), if_pos rfl,
                Rk.frame_val hf3' dE (by rw [(o3 i).1]; exact hnu) (by rw [(o3 i).2.1]; exact hl), sub_val ex1]
          · intro j hj
            simp only at hj ⊢
            by_cases e : j = i
            · subst e
              refine isCoeffs_y (o3 j).2.2 (fun r hr => ?_) (fun q hq => ?_)
                ((isCoeffs_frame hf2 (o3 j).2.2 (hv.2 j).2 dS).mp hc3)
              · exact (Rk.frame_vval hf2 hxt (hidx.2 _ (In.son g1 hr))).symm
              · rw [keep j (by omega) q hq, if_pos rfl, sub_val ex1]
            · refine isCoeffs_y (o3 j).2.2 (fun r hr => rfl) (fun q hq => ?_)
                (hc2 j (by have : j.1 ≠ i.1 := fun h => e (Fin.ext h); omega))
              rw [keep j (by omega) q hq, if_neg e]
        · rintro ⟨⟨m2, a2⟩, o⟩ - ⟨ha2, ho2, hv2, hf2, hq2, hc2⟩
          simp only at ha2 ho2 hv2 hf2 hq2 hc2 ⊢
          refine Tot.cassert (by rw [ho2, pre_all]; simp [g2]) ?_
          refine Tot.pure ⟨ha2, hv2, hf2, fun l hl => ?_, fun h => absurd h h0, fun i => hc2 i i.2⟩
          rw [hq2 l hl, pre_all]
          exact coeff_node ⟨o1, o2, o3⟩ hn fun i => hc2 i i.2
      · rintro ⟨m2, a2⟩ - ⟨ha, p1, p2, p3⟩
        simp only at ha p1 p2 p3
        subst ha
        rw [uninit_eq]
        exact ⟨_, rfl, rfl, p1, p2, p3⟩

end CBas
end H2
