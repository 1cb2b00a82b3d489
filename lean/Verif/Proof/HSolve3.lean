import Verif.Proof.HSolve2

/-! Triangular solves with H-matrices on both sides. -/

set_option linter.unusedSectionVars false

namespace H2
open Spec Dense
variable {G K : Type} [Field K] [StarRing K]

namespace HV

/-! ### access to the sons -/

/-- `son[i + j * rsons]` or a default -/
def sg (d : HV G K) {m n : Nat} (xs : Fin m → Fin n → HV G K) (i j : Nat) : HV G K :=
  if h : i < m ∧ j < n then xs ⟨i, h.1⟩ ⟨j, h.2⟩ else d
/-- the son in block row `i` and block column `k` of `op(x)` -/
def og (xt : Bool) (d : HV G K) {m n : Nat} (xs : Fin m → Fin n → HV G K) (i k : Nat) : HV G K :=
  sg d xs (if xt then k else i) (if xt then i else k)

theorem sg_fin {d : HV G K} {m n : Nat} (xs : Fin m → Fin n → HV G K) (i : Fin m) (j : Fin n) : sg d xs i.1 j.1 = xs i j := by
  unfold sg; rw [dif_pos ⟨i.2, j.2⟩]

theorem getSon_sg {d : HV G K} {m n : Nat} {xs : Fin m → Fin n → HV G K} {i j : Nat} (hi : i < m) (hj : j < n) :
    getSon xs i j = .ok (sg d xs i j) := by
  unfold getSon sg; rw [dif_pos ⟨hi, hj⟩, dif_pos ⟨hi, hj⟩]

theorem atSon_tot {d : HV G K} {m n : Nat} {xs : Fin m → Fin n → HV G K} {i j : Nat} (hi : i < m) (hj : j < n)
    {f : HV G K → R (HV G K)} {P : HV G K → Prop} (h : Tot (f (sg d xs i j)) P) :
    Tot (atSon xs i j f) (fun xs' => P (sg d xs' i j) ∧ ∀ i' j', ¬ (i' = i ∧ j' = j) → sg d xs' i' j' = sg d xs i' j') := by
  unfold atSon
  rw [dif_pos ⟨hi, hj⟩]
  have e : sg d xs i j = xs ⟨i, hi⟩ ⟨j, hj⟩ := by unfold sg; rw [dif_pos ⟨hi, hj⟩]
  rw [e] at h
  refine Tot.bind h fun v _ hv => Tot.pure ⟨?_, fun i' j' hn => ?_⟩
  · unfold sg
    rw [dif_pos ⟨hi, hj⟩, setSon_same]
    exact hv
  · unfold sg
    by_cases h' : i' < m ∧ j' < n
    · rw [dif_pos h', dif_pos h', setSon_ne]
      rintro ⟨e1, e2⟩
      exact hn ⟨congrArg Fin.val e1, congrArg Fin.val e2⟩
    · rw [dif_neg h', dif_neg h']

theorem atSon_og {xt : Bool} {d : HV G K} {m n : Nat} {xs : Fin m → Fin n → HV G K} {i k : Nat}
    (hi : i < if xt then n else m) (hk : k < if xt then m else n) {f : HV G K → R (HV G K)} {P : HV G K → Prop}
    (h : Tot (f (og xt d xs i k)) P) :
    Tot (atSon xs (if xt then k else i) (if xt then i else k) f) (fun xs' => P (og xt d xs' i k) ∧
      ∀ i' k', ¬ (i' = i ∧ k' = k) → og xt d xs' i' k' = og xt d xs i' k') := by
  cases xt
  · exact atSon_tot hi hk h
  · refine (atSon_tot hk hi h).mono ?_
    rintro xs' ⟨h1, h2⟩
    exact ⟨h1, fun i' k' hn => h2 k' i' fun e => hn ⟨e.2, e.1⟩⟩

theorem getSon_og {xt : Bool} {d : HV G K} {m n : Nat} {xs : Fin m → Fin n → HV G K} {i k : Nat}
    (hi : i < if xt then n else m) (hk : k < if xt then m else n) :
    getSon xs (if xt then k else i) (if xt then i else k) = .ok (og xt d xs i k) := by
  cases xt
  · exact getSon_sg hi hk
  · exact getSon_sg hk hi

/-- block column `k` of `op(x)` -/
def Xc (xt : Bool) (d : HV G K) {m n : Nat} (M k : Nat) (xs : Fin m → Fin n → HV G K) (r q : Nat) : K :=
  ∑ i ∈ Finset.range M, ohval xt (og xt d xs i k) r q

theorem ohval_Xc (xt : Bool) (d : HV G K) (t s : CRef G) {m n : Nat} (xs : Fin m → Fin n → HV G K) (r q : Nat) :
    ohval xt (.super t s m n xs) r q =
      ∑ k ∈ Finset.range (if xt then m else n), Xc xt d (if xt then n else m) k xs r q := by
  rw [ohval_super]
  unfold Xc og
  cases xt
  · simp only [Bool.false_eq_true, if_false]
    rw [Finset.sum_comm, Finset.sum_range]
    refine Finset.sum_congr rfl fun k _ => ?_
    rw [Finset.sum_range]
    exact Finset.sum_congr rfl fun i _ => by rw [sg_fin]
  · simp only [if_true]
    rw [Finset.sum_range]
    refine Finset.sum_congr rfl fun k _ => ?_
    rw [Finset.sum_range]
    exact Finset.sum_congr rfl fun i _ => by rw [sg_fin]

theorem Xc_change {xt : Bool} {d : HV G K} {m n M k : Nat} {xs xs' : Fin m → Fin n → HV G K} {j : Nat} (hj : j < M)
    (h : ∀ i, i ≠ j → og xt d xs' i k = og xt d xs i k) (r q : Nat) : Xc xt d M k xs' r q = Xc xt d M k xs r q +
      (ohval xt (og xt d xs' j k) r q - ohval xt (og xt d xs j k) r q) := by
  unfold Xc
  rw [← sub_eq_iff_eq_add', ← Finset.sum_sub_distrib, Finset.sum_eq_single j]
  · intro i _ hi
    rw [h i hi, sub_self]
  · intro hn; exact absurd (Finset.mem_range.mpr hj) hn

theorem Xc_same {xt : Bool} {d : HV G K} {m n M k : Nat} {xs xs' : Fin m → Fin n → HV G K}
    (h : ∀ i, og xt d xs' i k = og xt d xs i k) (r q : Nat) : Xc xt d M k xs' r q = Xc xt d M k xs r q := by
  unfold Xc
  exact Finset.sum_congr rfl fun i _ => by rw [h]

theorem _root_.H2.Spec.SameShape.orc {a b : HV G K} (h : SameShape a b) (xt : Bool) : b.orc xt = a.orc xt := by
  unfold HV.orc; rw [h.rc, h.cc]
theorem _root_.H2.Spec.SameShape.occ {a b : HV G K} (h : SameShape a b) (xt : Bool) : b.occ xt = a.occ xt := by
  unfold HV.occ; rw [h.rc, h.cc]

/-- the updates of the right-hand side -/
theorem addmulOp_tot {T : TruncOps K} (hT : Lossless T) (xt atrans : Bool) {a xi xj : HV G K} (ha : HVOk a) (ha' : HVStd a)
    (hi : HVOk xi) (hi' : HVStd xi) (hj : HVOk xj) (hj' : HVStd xj) (h1 : xj.orc xt = a.orc atrans) (h2 : xj.occ xt = xi.occ xt)
    (h3 : a.occ atrans = xi.orc xt) :
    Tot (if xt then addmul T (-1) false (!atrans) xi a xj else addmul T (-1) atrans false a xi xj) (fun z => SameShape xj z ∧
      HVOk z ∧ ∀ r q, ohval xt z r q = ohval xt xj r q - ∑ l ∈ seg (xi.orc xt), ohval atrans a r l * ohval xt xi l q) := by
  cases xt
  · rw [if_neg (by simp)]
    refine (addmul_tot' hT (-1) atrans false ha ha' hi hi' hj hj' h1 h2 h3).mono ?_
    intro z hz
    refine ⟨hz.shape, hz.ok, fun r q => ?_⟩
    show hval z r q = hval xj r q - _
    rw [hz.val, ← h3]
    unfold prod
    rw [neg_one_mul, ← sub_eq_add_neg]
  · rw [if_pos rfl]
    refine (addmul_tot' hT (-1) false (!atrans) hi hi' ha ha' hj hj' h2 (by rw [occ_not]; exact h1)
      (by rw [orc_not]; exact h3.symm)).mono ?_
    intro z hz
    refine ⟨hz.shape, hz.ok, fun r q => ?_⟩
    show star (hval z q r) = star (hval xj q r) - _
    rw [hz.val, star_add]
    unfold prod
    rw [neg_one_mul, star_neg, ← sub_eq_add_neg, star_sum]
    congr 1
    refine Finset.sum_congr rfl fun l _ => ?_
    rw [star_mul', star_ohval_not, mul_comm]
    rfl

/-- `a` split like its diagonal or as it is -/
theorem sonsFor_tot {a : HV G K} {u : CRef G} (ha : HVOk a) (ha' : HVStd a) (hs : SqOk a) (hu : a.rc = u) (hseg : KSeg u)
    (hdiv : ∀ t s m n son, a = .super t s m n son → m = max 1 u.nsons) :
    Tot (sonsFor a (decide (0 < u.nsons))) (fun a' => ∃ M, M = max 1 u.nsons ∧ ∃ as : Fin M → Fin M → HV G K,
      a' = .super u u M M as ∧ (∀ i j, HVOk (as i j) ∧ HVStd (as i j) ∧ (as i j).rc = kid u i.1 ∧ (as i j).cc = kid u j.1) ∧
      (∀ i, SqOk (as i i)) ∧ ∀ i j, ∀ r ∈ seg (kid u i.1), ∀ c ∈ seg (kid u j.1), hval a r c = hval (as i j) r c) := by
  cases a with
  | rk t s r => exact hs.elim
  | full t s f =>
    obtain rfl : t = s := hs
    obtain rfl : t = u := hu
    have hd : decide (0 < t.nsons) = true ∨ t.nsons = 0 := by
      by_cases h : 0 < t.nsons
      · exact .inl (decide_eq_true h)
      · exact .inr (by omega)
    refine (splitAm_tot hseg hseg hd hd ha.1 ha.2).mono ?_
    rintro a' ⟨m, n, rfl, rfl, son, rfl, h⟩
    refine ⟨_, rfl, son, rfl, fun i j => ?_, fun i => ?_, fun i j r hr c hc => ?_⟩
    · obtain ⟨w, e, h1, -⟩ := h i j
      refine ⟨h1, ?_, ?_, ?_⟩
      · rw [e]; exact trivial
      · rw [e]; rfl
      · rw [e]; rfl
    · obtain ⟨w, e, -⟩ := h i i
      rw [e]; exact rfl
    · obtain ⟨w, e, -, h2⟩ := h i j
      rw [h2, if_pos ⟨hr, hc⟩]
  | super t s m n son =>
    obtain rfl : t = u := hu
    obtain ⟨rfl, e, hs⟩ := hs
    subst e
    have hm := hdiv _ _ _ _ _ rfl
    refine Tot.pure ⟨m, hm, son, rfl, fun i j => ?_, hs, fun i j r hr c hc => ?_⟩
    · exact ⟨ha.2.2.2 i j, (ha'.2.2.2 i j).2.2, (ha'.2.2.2 i j).1, (ha'.2.2.2 i j).2.1⟩
    · obtain ⟨-, -, ⟨R, C, hRC, hR, hC⟩, hok⟩ := ha
      refine hval_son hRC hok hR hC ?_ ?_
      · rw [← (hRC i j).1, (ha'.2.2.2 i j).1]; exact hr
      · rw [← (hRC i j).2, (ha'.2.2.2 i j).2.1]; exact hc

/-- `x'` has the structure of `x` and solves the triangular system with the right-hand side `x`. -/
def HSolves (lower unit atrans : Bool) (A : Nat → Nat → K) (t : CRef G) (xt : Bool) (x x' : HV G K) : Prop :=
  SameShape x x' ∧ HVOk x' ∧ ∀ r ∈ seg t, ∀ q,
    ∑ c ∈ seg t, op atrans (tri lower unit A) r c * ohval xt x' c q = ohval xt x r q

theorem solve_full {lower unit atrans xt : Bool} {A : Nat → Nat → K} {t s : CRef G} {f f' : VMat K}
    (ho : HVOk (.full t s f : HV G K)) (h : TSolves lower unit atrans A (orc xt (.full t s f : HV G K)) xt f f') :
    HSolves lower unit atrans A (orc xt (.full t s f : HV G K)) xt (.full t s f : HV G K) (.full t s f') := by
  obtain ⟨h1, h2, h3⟩ := h
  have hok : HVOk (.full t s f' : HV G K) := ⟨h1.trans ho.1, h2.trans ho.2⟩
  refine ⟨⟨rfl, rfl⟩, hok, fun r hr q => ?_⟩
  by_cases hq : q ∈ seg (occ xt (.full t s f : HV G K))
  · have e : ∀ {g : VMat K}, HVOk (.full t s g : HV G K) → ∀ c ∈ seg (orc xt (.full t s f : HV G K)), ohval xt (.full t s g : HV G K) c q =
        oat xt (orc xt (.full t s f : HV G K)).cl.off g c (q - (occ xt (.full t s f : HV G K)).cl.off) := by
      intro g hg c hc
      rw [ohval_full (f := g) xt hc hq]
      unfold oat
      refine (if_pos ?_).symm
      rw [mem_seg] at hc hq
      have e1 : g.orows xt = (orc xt (.full t s f : HV G K)).cl.size := by
        unfold VMat.orows HV.orc; cases xt
        · exact hg.1
        · exact hg.2
      have e2 : g.ocols xt = (occ xt (.full t s f : HV G K)).cl.size := by
        unfold VMat.ocols HV.occ; cases xt
        · exact hg.2
        · exact hg.1
      rw [e1, e2]
      exact ⟨hc, by omega⟩
    rw [e ho r hr, ← h3 r hr]
    exact Finset.sum_congr rfl fun c hc => by rw [e hok c hc]
  · rw [ohval_out ho (fun h => hq h.2), Finset.sum_eq_zero]
    intro c _
    rw [ohval_out hok (fun h => hq h.2), mul_zero]

theorem solve_rk {lower unit atrans xt : Bool} {A : Nat → Nat → K} {t s : CRef G} {x x' : VRk K}
    (ho : HVOk (.rk t s x : HV G K)) (hk : x'.k = x.k)
    (hother : (if xt then x'.A else x'.B) = if xt then x.A else x.B)
    (h : TSolves lower unit atrans A (orc xt (.rk t s x : HV G K)) false (if xt then x.B else x.A) (if xt then x'.B else x'.A)) :
    HSolves lower unit atrans A (orc xt (.rk t s x : HV G K)) xt (.rk t s x : HV G K) (.rk t s x') := by
  obtain ⟨h1, h2, h3⟩ := h
  obtain ⟨⟨o1, o2⟩, o3, o4⟩ := ho
  have hok' : RkOk x' ∧ x'.A.rows = t.cl.size ∧ x'.B.rows = s.cl.size := by
    unfold RkOk
    cases xt
    · replace hother : x'.B = x.B := hother
      replace h1 : x'.A.rows = x.A.rows := h1
      replace h2 : x'.A.cols = x.A.cols := h2
      rw [hother, h1, h2, hk]; exact ⟨⟨o1, o2⟩, o3, o4⟩
    · replace hother : x'.A = x.A := hother
      replace h1 : x'.B.rows = x.B.rows := h1
      replace h2 : x'.B.cols = x.B.cols := h2
      rw [hother, h1, h2, hk]; exact ⟨⟨o1, o2⟩, o3, o4⟩
  have ho : HVOk (.rk t s x : HV G K) := ⟨⟨o1, o2⟩, o3, o4⟩
  have hok : HVOk (.rk t s x' : HV G K) := hok'
  refine ⟨⟨rfl, rfl⟩, hok, fun r hr q => ?_⟩
  by_cases hq : q ∈ seg (occ xt (.rk t s x : HV G K))
  · obtain ⟨F, hF⟩ : ∃ F, F = (if xt then x.B else x.A) := ⟨_, rfl⟩
    obtain ⟨F', hF'⟩ : ∃ F', F' = (if xt then x'.B else x'.A) := ⟨_, rfl⟩
    obtain ⟨u, hu⟩ : ∃ u, u = orc xt (.rk t s x : HV G K) := ⟨_, rfl⟩
    rw [← hF, ← hF'] at h1 h2 h3
    rw [← hu] at h3 hr ⊢
    have d1 : F.rows = u.cl.size := by
      rw [hF, hu]; cases xt
      · exact o3
      · exact o4
    have d2 : F.cols = x.k := by
      rw [hF]; cases xt
      · exact o1
      · exact o2
    have e0 : ∀ {g : VMat K}, g.rows = u.cl.size → g.cols = x.k → ∀ c ∈ seg u, ∀ nu < x.k,
        g.e (c - u.cl.off) nu = oat false u.cl.off g c nu := by
      intro g g1 g2 c hc nu hnu
      unfold oat
      refine (if_pos ?_).symm
      rw [mem_seg] at hc
      show (_ ∧ _ < _ + g.rows) ∧ _ < g.cols
      rw [g1, g2]; exact ⟨hc, hnu⟩
    have e : ∀ c ∈ seg u, ohval xt (.rk t s x : HV G K) c q = ∑ nu ∈ Finset.range x.k, oat false u.cl.off F c nu *
        star ((if xt then x.A else x.B).e (q - (occ xt (.rk t s x : HV G K)).cl.off) nu) := by
      intro c hc
      rw [ohval_rk (x := x) xt (by rw [hu] at hc; exact hc) hq]
      refine Finset.sum_congr rfl fun nu hnu => ?_
      rw [← e0 d1 d2 c hc nu (Finset.mem_range.mp hnu), hF, hu]
    have e' : ∀ c ∈ seg u, ohval xt (.rk t s x' : HV G K) c q = ∑ nu ∈ Finset.range x.k, oat false u.cl.off F' c nu *
        star ((if xt then x.A else x.B).e (q - (occ xt (.rk t s x : HV G K)).cl.off) nu) := by
      intro c hc
      rw [ohval_rk (x := x') xt (by rw [hu] at hc; exact hc) hq, hk, hother]
      refine Finset.sum_congr rfl fun nu hnu => ?_
      rw [← e0 (h1.trans d1) (h2.trans d2) c hc nu (Finset.mem_range.mp hnu), hF', hu]
      rfl
    rw [e r hr, Finset.sum_congr rfl (fun c hc => by rw [e' c hc, Finset.mul_sum])]
    refine Finset.sum_comm.trans ?_
    refine Finset.sum_congr rfl fun nu _ => ?_
    rw [← h3 r hr nu, Finset.sum_mul]
    exact Finset.sum_congr rfl fun c _ => (mul_assoc _ _ _).symm
  · rw [ohval_out ho (fun h => hq h.2), Finset.sum_eq_zero]
    intro c _
    rw [ohval_out hok (fun h => hq h.2), mul_zero]

end HV
end H2
