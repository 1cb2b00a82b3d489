import Verif.Spec.Project
import Verif.Proof.Ortho5

set_option linter.unusedSectionVars false

namespace H2
open Spec Dense Matrix
variable {G 𝕜 : Type} [RCLike 𝕜]

theorem bref_same_self (b : BRef G 𝕜) : b.same b = true := by simp [BRef.same]
theorem bref_same_ne {b b' : BRef G 𝕜} (h : b.tree ≠ b'.tree) : b.same b' = false := by simp [BRef.same, h]

theorem _root_.H2.Spec.OpDims.top {cb cb' : CBV G 𝕜} {x : COp G 𝕜} (h : OpDims cb cb' x) :
    cb'.t = cb.t ∧ x.krow = cb'.k ∧ x.kcol = cb.k ∧ x.C.rows = cb'.k ∧ x.C.cols = cb.k ∧ cb'.sons = cb.sons ∧ x.sons = cb.sons := by
  cases cb; cases cb'; cases x
  obtain ⟨h1, h2, h3, h4, h5, e, e', -⟩ := h
  exact ⟨h1, h2, h3, h4, h5, e, by show _ = _; exact e'.symm.trans e⟩

theorem _root_.H2.Spec.OpDims.son {cb cb' : CBV G 𝕜} {x : COp G 𝕜} (h : OpDims cb cb' x) (i : Fin cb.sons) (h1 : i.1 < cb'.sons) (h2 : i.1 < x.sons) :
    OpDims (cb.son i) (cb'.son ⟨i, h1⟩) (x.son ⟨i, h2⟩) := by
  cases cb; cases cb'; cases x
  obtain ⟨-, -, -, -, -, e, e', h⟩ := h
  exact h ⟨i, h1⟩

theorem _root_.H2.Spec.OpTree.top {cb : CBV G 𝕜} {x : COp G 𝕜} (h : OpTree x cb) : x.sons = cb.sons := by
  cases cb; cases x
  obtain ⟨e, -⟩ := h
  exact e.symm

theorem _root_.H2.Spec.OpTree.son {cb : CBV G 𝕜} {x : COp G 𝕜} (h : OpTree x cb) (i : Fin cb.sons) (h2 : i.1 < x.sons) : OpTree (x.son ⟨i, h2⟩) (cb.son i) := by
  cases cb; cases x
  obtain ⟨e, h⟩ := h
  exact h i

theorem _root_.H2.Spec.Changes.son {cb cb' : CBV G 𝕜} {x : COp G 𝕜} (h : Changes cb cb' x) (i : Fin cb.sons) (h1 : i.1 < cb'.sons) (h2 : i.1 < x.sons) :
    Changes (cb.son i) (cb'.son ⟨i, h1⟩) (x.son ⟨i, h2⟩) := by
  cases cb; cases cb'; cases x
  obtain ⟨-, -, -, -, -, e, e', h⟩ := h
  exact h ⟨i, h1⟩

theorem _root_.H2.Spec.Changes.basis {cb cb' : CBV G 𝕜} {x : COp G 𝕜} (h : Changes cb cb' x) :
    ∀ r, ∀ l < cb.k, vbasis cb r l = ∑ nu ∈ Finset.range cb'.k, vbasis cb' r nu * x.C.e nu l := by
  cases cb; cases cb'; cases x
  exact h.2.2.2.2.1

theorem _root_.H2.Spec.BChange.t {b b' : BRef G 𝕜} {o : Option (COp G 𝕜)} (h : BChange b b' o) : b'.cb.t = b.cb.t := by
  rcases h with ⟨rfl, -⟩ | ⟨-, x, -, h⟩
  · rfl
  · exact h.top.1

theorem _root_.H2.Spec.BChange.son {b b' : BRef G 𝕜} {o : Option (COp G 𝕜)} (h : BChange b b' o) (i : Fin b.cb.sons) :
    ∃ h1 : i.1 < b'.cb.sons, BChange (b.son i) (b'.son ⟨i, h1⟩) (opSon o i) ∧ COp.sonAt o i = .ok (opSon o i) := by
  rcases h with ⟨rfl, h⟩ | ⟨ht, x, rfl, h⟩
  · refine ⟨i.2, .inl ⟨rfl, fun x hx => ?_⟩, ?_⟩
    · cases o with
      | none => cases hx
      | some y =>
        have h1 := (h y rfl).top
        have hx : (if h : i.1 < y.sons then some (y.son ⟨i, h⟩) else none) = some x := hx
        rw [dif_pos (by rw [h1]; exact i.2)] at hx
        rw [← Option.some.inj hx]
        exact (h y rfl).son i _
    · cases o with
      | none => rfl
      | some y =>
        have h1 := (h y rfl).top
        simp only [COp.sonAt, opSon]
        rw [dif_pos (by rw [h1]; exact i.2), dif_pos (by rw [h1]; exact i.2)]
  · obtain ⟨-, -, -, -, -, h1, h2⟩ := h.top
    refine ⟨by rw [h1]; exact i.2, .inr ⟨ht, x.son ⟨i, by rw [h2]; exact i.2⟩, ?_, h.son i _ _⟩, ?_⟩
    · simp only [opSon]
      rw [dif_pos (by rw [h2]; exact i.2)]
    · simp only [COp.sonAt, opSon]
      rw [dif_pos (by rw [h2]; exact i.2), dif_pos (by rw [h2]; exact i.2)]

theorem chg_same {b : BRef G 𝕜} {o : Option (COp G 𝕜)} (i j : Nat) : chg b b o i j = if i = j then 1 else 0 := by
  unfold chg; rw [if_pos rfl]
theorem chg_ne {b b' : BRef G 𝕜} {x : COp G 𝕜} (h : b.tree ≠ b'.tree) (i j : Nat) : chg b b' (some x) i j = x.C.e i j := by
  unfold chg; rw [if_neg h]

theorem sum_delta_left {n a : Nat} (ha : a < n) (f : Nat → 𝕜) : ∑ i ∈ Finset.range n, (if a = i then (1 : 𝕜) else 0) * f i = f a := by
  rw [Finset.sum_eq_single a]
  · rw [if_pos rfl, one_mul]
  · intro b _ h; rw [if_neg (Ne.symm h), zero_mul]
  · exact fun h => absurd (Finset.mem_range.mpr ha) h

theorem sum_delta_right {n a : Nat} (ha : a < n) (f : Nat → 𝕜) : ∑ i ∈ Finset.range n, f i * star (if a = i then (1 : 𝕜) else 0) = f a := by
  rw [Finset.sum_eq_single a]
  · rw [if_pos rfl, star_one, mul_one]
  · intro b _ h; rw [if_neg (Ne.symm h), star_zero, mul_zero]
  · exact fun h => absurd (Finset.mem_range.mpr ha) h

/-- the coupling matrix in other bases -/
def newS (rb cb : BRef G 𝕜) (S : VMat 𝕜) (ro co : Option (COp G 𝕜)) (rb' cb' : BRef G 𝕜) (a b : Nat) : 𝕜 :=
  ∑ i ∈ Finset.range rb.cb.k, ∑ j ∈ Finset.range cb.cb.k, chg rb rb' ro a i * S.e i j * star (chg cb cb' co b j)

theorem newS_left {rb cb : BRef G 𝕜} {S : VMat 𝕜} {ro co : Option (COp G 𝕜)} {cb' : BRef G 𝕜} {a b : Nat} (ha : a < rb.cb.k) :
    newS rb cb S ro co rb cb' a b = ∑ j ∈ Finset.range cb.cb.k, S.e a j * star (chg cb cb' co b j) := by
  unfold newS
  rw [Finset.sum_congr rfl fun i _ => by rw [Finset.sum_congr rfl fun j _ => by rw [chg_same, mul_assoc], ← Finset.mul_sum]]
  exact sum_delta_left ha _

theorem newS_right {rb cb : BRef G 𝕜} {S : VMat 𝕜} {ro co : Option (COp G 𝕜)} {rb' : BRef G 𝕜} {a b : Nat} (hb : b < cb.cb.k) :
    newS rb cb S ro co rb' cb a b = ∑ i ∈ Finset.range rb.cb.k, chg rb rb' ro a i * S.e i b := by
  unfold newS
  refine Finset.sum_congr rfl fun i _ => ?_
  rw [Finset.sum_congr rfl fun j _ => by rw [chg_same]]
  exact sum_delta_right hb fun j => chg rb rb' ro a i * S.e i j

/-- the products computed in the general case -/
theorem twoProducts {A S C Z : VMat 𝕜} {n k l n' : Nat} (hA : A.rows = n) (hA' : A.cols = k) (hS : S.rows = k) (hS' : S.cols = l) (hC : C.rows = n') (hC' : C.cols = l)
    (hZ : Z.rows = n) (hZ' : Z.cols = n') :
    Tot (do let X ← VMat.addmul 1 false A false S (VMat.zero n l); VMat.addmul 1 false X true C Z) fun Y => Y.rows = n ∧ Y.cols = n' ∧
      ∀ a < n, ∀ b < n', Y.e a b = Z.e a b + ∑ i ∈ Finset.range k, ∑ j ∈ Finset.range l, A.e a i * S.e i j * star (C.e b j) := by
  refine Tot.bind (HV.addmul_tot (show VMat.ocols false A = VMat.orows false S by simp [VMat.ocols, VMat.orows, hA', hS])
    (show n = VMat.orows false A by simp [VMat.orows, hA]) (show l = VMat.ocols false S by simp [VMat.ocols, hS'])) fun X _ hX => ?_
  obtain ⟨x1, x2, x3⟩ := hX
  replace x1 : X.rows = n := x1
  replace x2 : X.cols = l := x2
  refine Tot.mono (HV.addmul_tot (c := Z) (alpha := 1) (show VMat.ocols false X = VMat.orows true C by simp [VMat.ocols, VMat.orows, x2, hC'])
    (show Z.rows = VMat.orows false X by simp [VMat.orows, x1, hZ]) (show Z.cols = VMat.ocols true C by simp [VMat.ocols, hZ', hC])) ?_
  rintro Y ⟨y1, y2, y3⟩
  refine ⟨y1.trans hZ, y2.trans hZ', fun a ha b hb => ?_⟩
  rw [y3 a (by omega) b (by omega)]
  congr 1
  simp only [VMat.ocols, VMat.oe, Bool.false_eq_true, if_false, if_true, one_mul]
  rw [x2, Finset.sum_comm]
  refine Finset.sum_congr rfl fun j hj => ?_
  rw [x3 a ha j (Finset.mem_range.mp hj)]
  simp only [VMat.zero, VMat.ocols, VMat.oe, Bool.false_eq_true, if_false, one_mul, zero_add]
  rw [hA', Finset.sum_mul]

theorem addProjected_tot {rb cb : BRef G 𝕜} {S : VMat 𝕜} {ro co : Option (COp G 𝕜)} {rb' cb' : BRef G 𝕜} {S' : VMat 𝕜} (hr : BChange rb rb' ro) (hc : BChange cb cb' co)
    (h1 : S.rows = rb.cb.k) (h2 : S.cols = cb.cb.k) (h3 : S'.rows = rb'.cb.k) (h4 : S'.cols = cb'.cb.k) :
    Tot (addProjected rb cb S ro co rb' cb' S') fun Y => Y.rows = rb'.cb.k ∧ Y.cols = cb'.cb.k ∧ ∀ a < rb'.cb.k, ∀ b < cb'.cb.k, Y.e a b = S'.e a b + newS rb cb S ro co rb' cb' a b := by
  unfold addProjected
  rcases hr with ⟨rfl, -⟩ | ⟨hrt, xr, rfl, hrd⟩
  · rw [if_pos (bref_same_self _)]
    rcases hc with ⟨rfl, -⟩ | ⟨hct, xc, rfl, hcd⟩
    · rw [if_pos (bref_same_self _)]
      refine Tot.mono (HV.add_tot (alpha := 1) (b := S') (show S.orows false = S'.rows by simp [VMat.orows, h1, h3]) (show S.ocols false = S'.cols by simp [VMat.ocols, h2, h4])) ?_
      rintro Y ⟨y1, y2, y3⟩
      refine ⟨y1.trans h3, y2.trans h4, fun a ha b hb => ?_⟩
      rw [y3 a (by omega) b (by omega), newS_left ha, one_mul]
      congr 1
      rw [Finset.sum_congr rfl fun j _ => by rw [chg_same]]
      rw [sum_delta_right hb (fun j => S.e a j)]
      simp [VMat.oe]
    · rw [if_neg (by rw [bref_same_ne hct]; simp)]
      obtain ⟨-, d1, d2, d3, d4, -, -⟩ := hcd.top
      simp only [COp.deref, ok_bind]
      refine Tot.cassert (by simpa using d1) (Tot.cassert (by simpa using d2) ?_)
      refine Tot.mono (HV.addmul_tot (c := S') (alpha := 1) (show VMat.ocols false S = VMat.orows true xc.C by simp [VMat.ocols, VMat.orows, h2, d4])
        (show S'.rows = VMat.orows false S by simp [VMat.orows, h1, h3]) (show S'.cols = VMat.ocols true xc.C by simp [VMat.ocols, h4, d3])) ?_
      rintro Y ⟨y1, y2, y3⟩
      refine ⟨y1.trans h3, y2.trans h4, fun a ha b hb => ?_⟩
      rw [y3 a (by omega) b (by omega), newS_left ha, one_mul]
      congr 1
      simp only [VMat.ocols, VMat.oe, Bool.false_eq_true, if_false, if_true]
      rw [h2]
      exact Finset.sum_congr rfl fun j _ => by rw [chg_ne hct]
  · rw [if_neg (by rw [bref_same_ne hrt]; simp)]
    obtain ⟨-, d1, d2, d3, d4, -, -⟩ := hrd.top
    rcases hc with ⟨rfl, -⟩ | ⟨hct, xc, rfl, hcd⟩
    · rw [if_pos (bref_same_self _)]
      simp only [COp.deref, ok_bind]
      refine Tot.cassert (by simpa using d1) (Tot.cassert (by simpa using d2) ?_)
      refine Tot.mono (HV.addmul_tot (c := S') (alpha := 1) (show VMat.ocols false xr.C = VMat.orows false S by simp [VMat.ocols, VMat.orows, h1, d4])
        (show S'.rows = VMat.orows false xr.C by simp [VMat.orows, h3, d3]) (show S'.cols = VMat.ocols false S by simp [VMat.ocols, h4, h2])) ?_
      rintro Y ⟨y1, y2, y3⟩
      refine ⟨y1.trans h3, y2.trans h4, fun a ha b hb => ?_⟩
      rw [y3 a (by omega) b (by omega), newS_right hb, one_mul]
      congr 1
      simp only [VMat.ocols, VMat.oe, Bool.false_eq_true, if_false]
      rw [d4]
      exact Finset.sum_congr rfl fun j _ => by rw [chg_ne hrt]
    · rw [if_neg (by rw [bref_same_ne hct]; simp)]
      obtain ⟨-, g1, g2, g3, g4, -, -⟩ := hcd.top
      simp only [COp.deref, ok_bind]
      refine Tot.cassert (by simpa using d1) (Tot.cassert (by simpa using d2) (Tot.cassert (by simpa using g1) (Tot.cassert (by simpa using g2) ?_)))
      refine Tot.mono (twoProducts d3 d4 h1 h2 g3 g4 h3 h4) ?_
      rintro Y ⟨y1, y2, y3⟩
      refine ⟨y1, y2, fun a ha b hb => ?_⟩
      rw [y3 a ha b hb]
      congr 1
      unfold newS
      exact Finset.sum_congr rfl fun i _ => Finset.sum_congr rfl fun j _ => by rw [chg_ne hrt, chg_ne hct]

theorem projectInplace_tot {rb cb : BRef G 𝕜} {S : VMat 𝕜} {ro co : Option (COp G 𝕜)} {rb' cb' : BRef G 𝕜} (hr : BChange rb rb' ro) (hc : BChange cb cb' co)
    (h1 : S.rows = rb.cb.k) (h2 : S.cols = cb.cb.k) :
    Tot (projectInplace rb cb S rb' ro cb' co) fun u => u.1 = rb' ∧ u.2.1 = cb' ∧ u.2.2.rows = rb'.cb.k ∧ u.2.2.cols = cb'.cb.k ∧
      ∀ a < rb'.cb.k, ∀ b < cb'.cb.k, u.2.2.e a b = newS rb cb S ro co rb' cb' a b := by
  unfold projectInplace
  rcases hr with ⟨rfl, -⟩ | ⟨hrt, xr, rfl, hrd⟩
  · rw [if_pos (bref_same_self _)]
    rcases hc with ⟨rfl, -⟩ | ⟨hct, xc, rfl, hcd⟩
    · rw [if_pos (bref_same_self _)]
      refine Tot.pure ⟨rfl, rfl, h1, h2, fun a ha b hb => ?_⟩
      rw [newS_left ha]
      rw [Finset.sum_congr rfl fun j _ => by rw [chg_same]]
      rw [sum_delta_right hb (fun j => S.e a j)]
    · rw [if_neg (by rw [bref_same_ne hct]; simp)]
      obtain ⟨-, d1, d2, d3, d4, -, -⟩ := hcd.top
      refine Tot.cassert rfl ?_
      simp only [COp.deref, ok_bind]
      refine Tot.cassert (by simpa using d1) (Tot.cassert (by simpa using d2) ?_)
      refine Tot.bind (HV.addmul_tot (c := VMat.zero rb'.cb.k cb'.cb.k) (alpha := 1) (show VMat.ocols false S = VMat.orows true xc.C by simp [VMat.ocols, VMat.orows, h2, d4])
        (show rb'.cb.k = VMat.orows false S by simp [VMat.orows, h1]) (show cb'.cb.k = VMat.ocols true xc.C by simp [VMat.ocols, d3])) ?_
      rintro Y - ⟨y1, y2, y3⟩
      rw [HV.copy_tot (show VMat.orows false Y = Y.rows by simp [VMat.orows]) (show VMat.ocols false Y = Y.cols by simp [VMat.ocols]), ok_bind]
      refine Tot.pure ⟨rfl, rfl, y1, y2, fun a ha b hb => ?_⟩
      show Y.e a b = _
      rw [y3 a ha b hb, newS_left ha, one_mul]
      simp only [VMat.zero, VMat.ocols, VMat.oe, Bool.false_eq_true, if_false, if_true, zero_add]
      rw [h2]
      exact Finset.sum_congr rfl fun j _ => by rw [chg_ne hct]
  · rw [if_neg (by rw [bref_same_ne hrt]; simp)]
    obtain ⟨-, d1, d2, d3, d4, -, -⟩ := hrd.top
    refine Tot.cassert rfl ?_
    simp only [COp.deref, ok_bind]
    refine Tot.cassert (by simpa using d1) (Tot.cassert (by simpa using d2) ?_)
    rcases hc with ⟨rfl, -⟩ | ⟨hct, xc, rfl, hcd⟩
    · rw [if_pos (bref_same_self _)]
      refine Tot.bind (HV.addmul_tot (c := VMat.zero rb'.cb.k cb'.cb.k) (alpha := 1) (show VMat.ocols false xr.C = VMat.orows false S by simp [VMat.ocols, VMat.orows, h1, d4])
        (show rb'.cb.k = VMat.orows false xr.C by simp [VMat.orows, d3]) (show cb'.cb.k = VMat.ocols false S by simp [VMat.ocols, h2])) ?_
      rintro Y - ⟨y1, y2, y3⟩
      rw [HV.copy_tot (show VMat.orows false Y = Y.rows by simp [VMat.orows]) (show VMat.ocols false Y = Y.cols by simp [VMat.ocols]), ok_bind]
      refine Tot.pure ⟨rfl, rfl, y1, y2, fun a ha b hb => ?_⟩
      show Y.e a b = _
      rw [y3 a ha b hb, newS_right hb, one_mul]
      simp only [VMat.zero, VMat.ocols, VMat.oe, Bool.false_eq_true, if_false, zero_add]
      rw [d4]
      exact Finset.sum_congr rfl fun j _ => by rw [chg_ne hrt]
    · rw [if_neg (by rw [bref_same_ne hct]; simp)]
      obtain ⟨-, g1, g2, g3, g4, -, -⟩ := hcd.top
      refine Tot.cassert rfl ?_
      simp only [ok_bind]
      refine Tot.cassert (by simpa using g1) (Tot.cassert (by simpa using g2) ?_)
      have h5 := twoProducts (Z := VMat.zero rb'.cb.k cb'.cb.k) d3 d4 h1 h2 g3 g4 rfl rfl
      obtain ⟨Y, e, y1, y2, y3⟩ := h5
      cases e1 : VMat.addmul 1 false xr.C false S (VMat.zero rb'.cb.k cb.cb.k) with
      | error x => rw [e1] at e; cases e
      | ok X =>
        rw [e1, ok_bind] at e
        rw [ok_bind, e, ok_bind]
        refine Tot.pure ⟨rfl, rfl, y1, y2, fun a ha b hb => ?_⟩
        show Y.e a b = _
        rw [y3 a ha b hb]
        unfold newS
        rw [show (VMat.zero rb'.cb.k cb'.cb.k : VMat 𝕜).e a b = 0 from rfl, zero_add]
        exact Finset.sum_congr rfl fun i _ => Finset.sum_congr rfl fun j _ => by rw [chg_ne hrt, chg_ne hct]

theorem bref_son_ne (b : BRef G 𝕜) (i : Fin b.cb.sons) : b.son i ≠ b := fun h => by
  have := congrArg (fun x => x.path.length) h
  simp [BRef.son] at this
theorem bref_son_same (b : BRef G 𝕜) (i : Fin b.cb.sons) : (b.son i).same b = false := by
  simp [BRef.same, BRef.son]

/-- how the new basis of a son is found -/
theorem sonStep {b b' : BRef G 𝕜} {o : Option (COp G 𝕜)} (h : BChange b b' o) {n : Nat} {Rf : Fin n → BRef G 𝕜} (hR : SonRefs b Rf) :
    ∃ N : Fin n → BRef G 𝕜 × Option (COp G 𝕜), ∀ i, BChange (Rf i) (N i).1 (N i).2 ∧ (Rf i = b → N i = (b', o)) ∧
      (Rf i ≠ b → ∃ h : i.1 < b'.cb.sons, N i = (b'.son ⟨i, h⟩, opSon o i)) ∧
      (if (Rf i).same b then pure (b', o) else do let b1 ← b'.sonAt i; let o1 ← COp.sonAt o i; pure (b1, o1) : R (BRef G 𝕜 × Option (COp G 𝕜))) = .ok (N i) := by
  rcases hR with hR | ⟨e, hR⟩
  · refine ⟨fun _ => (b', o), fun i => ⟨by rw [hR]; exact h, fun _ => rfl, fun h => absurd (hR i) h, ?_⟩⟩
    rw [hR, if_pos (bref_same_self _)]; rfl
  · subst e
    choose h1 h2 h3 using fun i => h.son i
    refine ⟨fun i => (b'.son ⟨i, h1 i⟩, opSon o i), fun i => ⟨by rw [hR]; exact h2 i, fun h => absurd ((hR i).symm.trans h) (bref_son_ne b _), fun _ => ⟨h1 i, rfl⟩, ?_⟩⟩
    rw [hR, if_neg (by rw [show Fin.cast rfl i = i from rfl, bref_son_same]; simp)]
    unfold BRef.sonAt
    rw [dif_pos (h1 i), ok_bind, h3 i, ok_bind]
    rfl

theorem buildProjected_tot : ∀ {h : H2V G 𝕜}, H2VOk h → ∀ {rb cb : BRef G 𝕜} {ro co : Option (COp G 𝕜)}, BChange h.rb rb ro → BChange h.cb cb co →
    Tot (H2V.buildProjected h rb ro cb co) (ProjectedTo h rb ro cb co) := by
  intro h
  induction h with
  | zero hrb hcb =>
    intro _ rb cb ro co _ _
    exact Tot.pure rfl
  | uni hrb hcb S =>
    intro ho rb cb ro co hr hc
    unfold H2V.buildProjected
    refine Tot.bind (addProjected_tot hr hc ho.1 ho.2 rfl rfl) ?_
    rintro Y - ⟨y1, y2, y3⟩
    refine Tot.pure ⟨Y, rfl, y1, y2, fun a ha b hb => ?_⟩
    rw [y3 a ha b hb, show (VMat.zero rb.cb.k cb.cb.k : VMat 𝕜).e a b = 0 from rfl, zero_add]
    rfl
  | full hrb hcb f =>
    intro ho rb cb ro co hr hc
    unfold H2V.buildProjected
    have h1 : rb.cb.t = hrb.cb.t := hr.t
    have h2 : cb.cb.t = hcb.cb.t := hc.t
    rw [HV.copy_tot (show f.orows false = rb.cb.t.cl.size by rw [h1]; simpa [VMat.orows] using ho.1) (show f.ocols false = cb.cb.t.cl.size by rw [h2]; simpa [VMat.ocols] using ho.2), ok_bind]
    refine Tot.pure ⟨_, rfl, ?_, ?_, fun i _ j _ => by simp [VMat.oe]⟩
    · rw [h1]; exact ho.1.symm
    · rw [h2]; exact ho.2.symm
  | super hrb hcb rsons csons son ih =>
    intro ho rb cb ro co hr hc
    obtain ⟨h1, h2, ⟨R, C, hRC, hR, hC⟩, hson⟩ := ho
    replace hr : BChange hrb rb ro := hr
    replace hc : BChange hcb cb co := hc
    obtain ⟨NR, hNR⟩ := sonStep hr hR
    obtain ⟨NC, hNC⟩ := sonStep hc hC
    unfold H2V.buildProjected
    refine Tot.bind (seqFin_tot (P := fun j (s : Fin rsons → H2V G 𝕜) => ∀ i, ProjectedTo (son i j) (NR i).1 (NR i).2 (NC j).1 (NC j).2 (s i)) fun j => ?_) fun s _ hs => Tot.pure ?_
    · rw [dif_pos h1, (hRC ⟨0, h1⟩ j).2, (hNC j).2.2.2, ok_bind]
      refine seqFin_tot (P := fun i => ProjectedTo (son i j) (NR i).1 (NR i).2 (NC j).1 (NC j).2) fun i => ?_
      rw [dif_pos h2, (hRC i ⟨0, h2⟩).1, (hNR i).2.2.2, ok_bind]
      exact ih i j (hson i j) (by rw [(hRC i j).1]; exact (hNR i).1) (by rw [(hRC i j).2]; exact (hNC j).1)
    · refine ⟨_, rfl, NR, NC, fun i j => ?_, fun i j => hs j i⟩
      rw [(hRC i j).1, (hRC i j).2]
      exact ⟨(hNR i).2.1, (hNR i).2.2.1, (hNC j).2.1, (hNC j).2.2.1⟩

/-! ### the represented matrix -/

theorem _root_.H2.Spec.SpansOld.sum {b b' : BRef G 𝕜} {o : Option (COp G 𝕜)} (h : SpansOld b b' o) (r : Nat) {i : Nat} (hi : i < b.cb.k) :
    ∑ a ∈ Finset.range b'.cb.k, vbasis b'.cb r a * chg b b' o a i = vbasis b.cb r i := by
  rcases h with rfl | ⟨x, rfl, ht, h⟩
  · rw [Finset.sum_eq_single i]
    · rw [chg_same, if_pos rfl, mul_one]
    · intro a _ ha; rw [chg_same, if_neg ha, mul_zero]
    · exact fun h => absurd (Finset.mem_range.mpr hi) h
  · rw [h.basis r i hi]
    exact Finset.sum_congr rfl fun a _ => by rw [chg_ne ht]

theorem _root_.H2.Spec.SpansOld.son {b b' : BRef G 𝕜} {o : Option (COp G 𝕜)} (h : SpansOld b b' o) (i : Fin b.cb.sons) (h1 : i.1 < b'.cb.sons) :
    SpansOld (b.son i) (b'.son ⟨i, h1⟩) (opSon o i) := by
  rcases h with rfl | ⟨x, rfl, ht, h⟩
  · exact .inl rfl
  · have h2 : i.1 < x.sons := by
      have h3 := h
      obtain ⟨cb0, hcb0⟩ : ∃ c, c = b.cb := ⟨_, rfl⟩
      obtain ⟨cb1, hcb1⟩ : ∃ c, c = b'.cb := ⟨_, rfl⟩
      rw [← hcb0, ← hcb1] at h3
      rw [← hcb1] at h1
      cases cb0; cases cb1; cases x
      obtain ⟨-, -, -, -, -, e, e', -⟩ := h3
      have h1 : i.1 < _ := h1
      show i.1 < _
      exact lt_of_lt_of_eq h1 e'
    refine .inr ⟨x.son ⟨i, h2⟩, ?_, ht, h.son i h1 h2⟩
    simp only [opSon]
    rw [dif_pos h2]

theorem uni_place {rb cb rb' cb' : BRef G 𝕜} {S S' : VMat 𝕜} {ro co : Option (COp G 𝕜)} (hr : SpansOld rb rb' ro) (hc : SpansOld cb cb' co)
    (h : ∀ a < rb'.cb.k, ∀ b < cb'.cb.k, S'.e a b = newS rb cb S ro co rb' cb' a b) (r c : Nat) :
    h2vplace (.uni rb' cb' S') r c = h2vplace (.uni rb cb S) r c := by
  unfold h2vplace
  have h1 : ∀ a ∈ Finset.range rb'.cb.k, ∀ b ∈ Finset.range cb'.cb.k, vbasis rb'.cb r a * S'.e a b * star (vbasis cb'.cb c b) =
      ∑ i ∈ Finset.range rb.cb.k, ∑ j ∈ Finset.range cb.cb.k, (vbasis rb'.cb r a * chg rb rb' ro a i) * S.e i j * star (vbasis cb'.cb c b * chg cb cb' co b j) := by
    intro a ha b hb
    rw [h a (Finset.mem_range.mp ha) b (Finset.mem_range.mp hb)]
    unfold newS
    rw [Finset.mul_sum, Finset.sum_mul]
    refine Finset.sum_congr rfl fun i _ => ?_
    rw [Finset.mul_sum, Finset.sum_mul]
    refine Finset.sum_congr rfl fun j _ => ?_
    rw [star_mul']
    ring
  rw [Finset.sum_congr rfl fun a ha => Finset.sum_congr rfl fun b hb => h1 a ha b hb]
  rw [Finset.sum_congr rfl fun a _ => Finset.sum_comm]
  rw [Finset.sum_comm]
  refine Finset.sum_congr rfl fun i hi => ?_
  rw [Finset.sum_congr rfl fun a _ => Finset.sum_comm]
  rw [Finset.sum_comm]
  refine Finset.sum_congr rfl fun j hj => ?_
  rw [← hr.sum r (Finset.mem_range.mp hi), ← hc.sum c (Finset.mem_range.mp hj), star_sum, Finset.sum_mul, Finset.sum_mul]
  refine Finset.sum_congr rfl fun a _ => ?_
  rw [Finset.mul_sum]

theorem projected_place : ∀ {h : H2V G 𝕜}, H2VOk h → ∀ {rb cb : BRef G 𝕜} {ro co : Option (COp G 𝕜)}, rb.cb.t = h.rb.cb.t → cb.cb.t = h.cb.cb.t → BChange h.rb rb ro → BChange h.cb cb co → SpansOld h.rb rb ro → SpansOld h.cb cb co →
    ∀ {h' : H2V G 𝕜}, ProjectedTo h rb ro cb co h' → ∀ r c, h2vplace h' r c = h2vplace h r c := by
  intro h
  induction h with
  | zero hrb hcb =>
    intro _ rb cb ro co _ _ _ _ _ _ h' hp r c
    rw [show h' = _ from hp]
    rfl
  | uni hrb hcb S =>
    intro ho rb cb ro co _ _ _ _ hr hc h' hp r c
    obtain ⟨S', rfl, -, -, h1⟩ := hp
    exact uni_place hr hc h1 r c
  | full hrb hcb f =>
    intro ho rb cb ro co h1 h2 _ _ hr hc h' hp r c
    obtain ⟨f', rfl, -, -, h3⟩ := hp
    unfold h2vplace
    simp only [H2V.rb, H2V.cb] at h1 h2
    rw [h1, h2]
    by_cases hin : In hrb.cb.t r ∧ In hcb.cb.t c
    · rw [if_pos hin, if_pos hin]
      obtain ⟨⟨i1, i2⟩, i3, i4⟩ := hin
      exact h3 _ (by rw [ho.1]; omega) _ (by rw [ho.2]; omega)
    · rw [if_neg hin, if_neg hin]
  | super hrb hcb rsons csons son ih =>
    intro ho rb cb ro co ht1 ht2 hbr hbc hr hc h' hp r c
    obtain ⟨h1, h2, ⟨R, C, hRC, hR, hC⟩, hson⟩ := ho
    obtain ⟨son', rfl, NR, NC, hN, hs⟩ := hp
    unfold h2vplace
    have key : ∀ {b b' : BRef G 𝕜} {o : Option (COp G 𝕜)} {n : Nat} {R : Fin n → BRef G 𝕜}, BChange b b' o → SpansOld b b' o → SonRefs b R → ∀ (i : Fin n) (N : BRef G 𝕜 × Option (COp G 𝕜)),
        (R i = b → N = (b', o)) → (R i ≠ b → ∃ h : i.1 < b'.cb.sons, N = (b'.son ⟨i, h⟩, opSon o i)) → BChange (R i) N.1 N.2 ∧ SpansOld (R i) N.1 N.2 := by
      intro b b' o n R hb hsp hR i N n1 n2
      rcases hR with hR | ⟨e, hR⟩
      · rw [n1 (hR i), hR i]; exact ⟨hb, hsp⟩
      · subst e
        obtain ⟨h3, rfl⟩ := n2 (by rw [hR]; exact bref_son_ne b _)
        rw [hR]
        obtain ⟨h4, h5, -⟩ := hb.son i
        exact ⟨h5, hsp.son i h4⟩
    refine Finset.sum_congr rfl fun i _ => Finset.sum_congr rfl fun j _ => ?_
    obtain ⟨n1, n2, n3, n4⟩ := hN i j
    rw [(hRC i j).1] at n1 n2
    rw [(hRC i j).2] at n3 n4
    obtain ⟨k1, k2⟩ := key hbr hr hR i (NR i) n1 n2
    obtain ⟨k3, k4⟩ := key hbc hc hC j (NC j) n3 n4
    rw [← (hRC i j).1] at k1 k2
    rw [← (hRC i j).2] at k3 k4
    exact ih i j (hson i j) k1.t k3.t k1 k3 k2 k4 (hs i j) r c

/-- the projected matrix is consistent -/
theorem projected_ok : ∀ {h : H2V G 𝕜}, H2VOk h → ∀ {rb cb : BRef G 𝕜} {ro co : Option (COp G 𝕜)}, BChange h.rb rb ro → BChange h.cb cb co →
    ∀ {h' : H2V G 𝕜}, ProjectedTo h rb ro cb co h' → H2VOk h' ∧ h'.rb = rb ∧ h'.cb = cb := by
  intro h
  induction h with
  | zero hrb hcb =>
    intro _ rb cb ro co _ _ h' hp
    rw [show h' = _ from hp]
    exact ⟨trivial, rfl, rfl⟩
  | uni hrb hcb S =>
    intro ho rb cb ro co hr hc h' hp
    obtain ⟨S', rfl, h1, h2, -⟩ := hp
    exact ⟨⟨h1, h2⟩, rfl, rfl⟩
  | full hrb hcb f =>
    intro ho rb cb ro co hr hc h' hp
    obtain ⟨f', rfl, h1, h2, -⟩ := hp
    have e1 : rb.cb.t = hrb.cb.t := hr.t
    have e2 : cb.cb.t = hcb.cb.t := hc.t
    exact ⟨⟨by rw [e1, h1]; exact ho.1, by rw [e2, h2]; exact ho.2⟩, rfl, rfl⟩
  | super hrb hcb rsons csons son ih =>
    intro ho rb cb ro co hbr hbc h' hp
    obtain ⟨h1, h2, ⟨R, C, hRC, hR, hC⟩, hson⟩ := ho
    obtain ⟨son', rfl, NR, NC, hN, hs⟩ := hp
    have key : ∀ {b b' : BRef G 𝕜} {o : Option (COp G 𝕜)} {n : Nat} {R : Fin n → BRef G 𝕜}, BChange b b' o → SonRefs b R → ∀ (N : Fin n → BRef G 𝕜 × Option (COp G 𝕜)),
        (∀ i, (R i = b → N i = (b', o)) ∧ (R i ≠ b → ∃ h : i.1 < b'.cb.sons, N i = (b'.son ⟨i, h⟩, opSon o i))) →
        (∀ i, BChange (R i) (N i).1 (N i).2) ∧ SonRefs b' fun i => (N i).1 := by
      intro b b' o n R hb hR N n1
      rcases hR with hR | ⟨e, hR⟩
      · exact ⟨fun i => by rw [(n1 i).1 (hR i), hR i]; exact hb, .inl fun i => by show (N i).1 = b'; rw [(n1 i).1 (hR i)]⟩
      · have h3 : ∀ i, ∃ h : i.1 < b'.cb.sons, N i = (b'.son ⟨i, h⟩, opSon o i) := fun i => (n1 i).2 (by rw [hR]; exact bref_son_ne b _)
        refine ⟨fun i => ?_, .inr ⟨?_, fun i => ?_⟩⟩
        · obtain ⟨h4, h5, -⟩ := hb.son (Fin.cast e i)
          obtain ⟨h6, h7⟩ := h3 i
          rw [h7, hR i]
          exact h5
        · rcases hb with ⟨rfl, -⟩ | ⟨-, x, -, h⟩
          · exact e
          · rw [h.top.2.2.2.2.2.1]; exact e
        · obtain ⟨h6, h7⟩ := h3 i
          show (N i).1 = _
          rw [h7]
          rfl
    obtain ⟨kr1, kr2⟩ := key hbr hR NR fun i => by
      obtain ⟨n1, n2, -, -⟩ := hN i ⟨0, h2⟩
      rw [(hRC i ⟨0, h2⟩).1] at n1 n2
      exact ⟨n1, n2⟩
    obtain ⟨kc1, kc2⟩ := key hbc hC NC fun j => by
      obtain ⟨-, -, n3, n4⟩ := hN ⟨0, h1⟩ j
      rw [(hRC ⟨0, h1⟩ j).2] at n3 n4
      exact ⟨n3, n4⟩
    have hall : ∀ i j, H2VOk (son' i j) ∧ (son' i j).rb = (NR i).1 ∧ (son' i j).cb = (NC j).1 := fun i j =>
      ih i j (hson i j) (by rw [(hRC i j).1]; exact kr1 i) (by rw [(hRC i j).2]; exact kc1 j) (hs i j)
    exact ⟨⟨h1, h2, ⟨fun i => (NR i).1, fun j => (NC j).1, fun i j => (hall i j).2, kr2, kc2⟩, fun i j => (hall i j).1⟩, rfl, rfl⟩

end H2
