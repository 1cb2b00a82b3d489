import Verif.Proof.ClusterBasis5
import Mathlib.Algebra.Star.BigOperators

set_option linter.unusedSectionVars false

namespace H2
open Spec Dense

namespace CBas
open VSt
variable {G : Type _} {K : Type _}

/-! ### adjointness -/

theorem adjoint [Field K] [StarRing K] {m : Mem K} : ∀ {cb : CBas G}, CbOk cb → ∀ {X Y Z : Nat → K}, IsCoeffs m cb X Y →
    ∑ q ∈ Finset.range cb.ktree, star (Y q) * Z q =
      ∑ i ∈ Finset.range cb.size, star (X (cb.t.cl.off + i)) * synth m cb Z (cb.t.cl.off + i) := by
  intro cb
  induction cb with
  | mk t k kt kb V E n son ih =>
    rintro ho X Y Z ⟨c1, c2, c3⟩
    obtain ⟨o1, o2, o3⟩ := ho
    show ∑ q ∈ Finset.range kt, _ = ∑ i ∈ Finset.range t.cl.size, star (X (t.cl.off + i)) *
      synth m (.mk t k kt kb V E n son) Z (t.cl.off + i)
    have head : ∑ q ∈ Finset.range k, star (Y q) * Z q = ∑ i ∈ Finset.range t.cl.size, star (X (t.cl.off + i)) *
        ∑ l ∈ Finset.range k, basis m (.mk t k kt kb V E n son) (t.cl.off + i) l * Z l := by
      have : ∀ q ∈ Finset.range k, star (Y q) * Z q = ∑ i ∈ Finset.range t.cl.size, star (X (t.cl.off + i)) *
          (basis m (.mk t k kt kb V E n son) (t.cl.off + i) q * Z q) := by
        intro q hq
        rw [c1 q (Finset.mem_range.mp hq), star_sum, Finset.sum_mul]
        refine Finset.sum_congr rfl fun i _ => ?_
        rw [star_mul, star_star, mul_assoc]
      rw [Finset.sum_congr rfl this, Finset.sum_comm]
      exact Finset.sum_congr rfl fun i _ => by rw [Finset.mul_sum]
    have rhs : ∀ i ∈ Finset.range t.cl.size, star (X (t.cl.off + i)) * synth m (.mk t k kt kb V E n son) Z (t.cl.off + i) =
        star (X (t.cl.off + i)) * ∑ l ∈ Finset.range k, basis m (.mk t k kt kb V E n son) (t.cl.off + i) l * Z l +
        star (X (t.cl.off + i)) * ((if n = 0 then Z (k + i) else 0) +
          ∑ j, synth m (son j) (fun q => Z (k + ofs (fun i => (son i).ktree) j + q)) (t.cl.off + i)) := by
      intro i hi
      rw [synth, if_pos (In.add (Finset.mem_range.mp hi)), Nat.add_sub_cancel_left]
      ring
    rw [Finset.sum_congr rfl rhs, Finset.sum_add_distrib, ← head]
    by_cases h0 : n = 0
    · subst h0
      rw [(o1 rfl).2.2, Finset.sum_range_add]
      congr 1
      refine Finset.sum_congr rfl fun i hi => ?_
      rw [if_pos rfl, c2 rfl i (Finset.mem_range.mp hi)]
      simp
    · have hn : 0 < n := by omega
      obtain ⟨g1, g2⟩ := o2 hn
      rw [g2, Finset.sum_range_add, sum_concat (fun i => (son i).ktree)]
      congr 1
      have e := sum_segments g1 (fun r => star (X r) * ((if n = 0 then Z (k + (r - t.cl.off)) else 0) +
        ∑ j, synth m (son j) (fun q => Z (k + ofs (fun i => (son i).ktree) j + q)) r))
      simp only [Nat.add_sub_cancel_left] at e
      rw [e]
      refine Finset.sum_congr rfl fun j _ => ?_
      have := ih j (o3 j).2.2 (Z := fun q => Z (k + ofs (fun i => (son i).ktree) j + q)) (c3 j)
      simp only [Nat.add_assoc] at this ⊢
      rw [this]
      refine Finset.sum_congr rfl fun i hi => ?_
      have hin := In.add (Finset.mem_range.mp hi)
      congr 1
      rw [if_neg h0, zero_add, Finset.sum_eq_single j]
      · intro j' _ hj
        exact synth_out fun h => hj (In.unique g1 h hin)
      · intro h; exact absurd (Finset.mem_univ _) h

/-! ### layout -/

theorem range_concat : ∀ {n : Nat} (sz : Fin n → Nat) (o : Nat),
    (List.finRange n).flatMap (fun i => List.range' (o + ofs sz i) (sz i)) = List.range' o (∑ i, sz i) := by
  intro n
  induction n with
  | zero => intro sz o; simp
  | succ n ih =>
    intro sz o
    rw [Fin.sum_univ_succ, List.finRange_succ, List.flatMap_cons, List.flatMap_map, ← List.range'_append_1]
    congr 1
    · simp [ofs]
    · rw [← ih (fun i => sz i.succ)]
      refine List.flatMap_congr fun i _ => ?_
      congr 1
      unfold ofs
      rw [Fin.sum_univ_succ]
      simp only [Fin.val_zero, Fin.val_succ, Nat.zero_lt_succ, if_true, Nat.add_lt_add_iff_right]
      omega

/-- the segments of the clusters partition the coefficient vector -/
theorem segs_range : ∀ {cb : CBas G}, CbLay cb → ∀ o,
    (segs cb o).flatMap (fun s => List.range' s.1 s.2) = List.range' o cb.ktree := by
  intro cb
  induction cb with
  | mk t k kt kb V E n son ih =>
    rintro ⟨o1, o2, o3⟩ o
    show _ = List.range' o kt
    rw [segs, List.flatMap_cons, List.flatMap_append, List.flatMap_assoc]
    simp only [ih _ (o3 _)]
    rw [range_concat]
    by_cases h0 : n = 0
    · subst h0
      rw [o1 rfl]
      simp [List.range'_append_1]
    · rw [if_neg h0, (o2 (by omega)).2, List.range'_append_1 .. |>.symm]
      simp

theorem lay_of_ok : ∀ {cb : CBas G}, CbOk cb → CbLay cb := by
  intro cb
  induction cb with
  | mk t k kt kb V E n son ih =>
    rintro ⟨h1, h2, h3⟩
    exact ⟨fun h => (h1 h).2.2, h2, fun i => ih i (h3 i).2.2⟩

/-! ### update -/

theorem foldFin_max {n : Nat} (f : Fin n → Nat) :
    foldFin n (fun i a => if a < f i then f i else a) 0 = Finset.univ.sup f := by
  have H := foldFin_inv (n := n) (f := fun i a => if a < f i then f i else a) (s := 0)
    (fun j a => ∀ c, a ≤ c ↔ ∀ i : Fin n, i.1 < j → f i ≤ c) (fun c => by simp) (fun i a h c => by
      constructor
      · intro hc i' hi'
        by_cases e : i' = i
        · subst e; split at hc <;> omega
        · have : i'.1 ≠ i.1 := fun h => e (Fin.ext h)
          refine (h c).mp ?_ i' (by omega)
          split at hc <;> omega
      · intro hc
        have h1 := (h c).mpr fun i' hi' => hc i' (by omega)
        have h2 := hc i (by omega)
        split <;> omega)
  refine eq_of_forall_ge_iff fun c => ?_
  rw [H c, Finset.sup_le_iff]
  exact ⟨fun h i _ => h i i.2, fun h i _ => h i (Finset.mem_univ _)⟩

theorem updateTree_ok : ∀ (cb : CBas G), SameTree cb (updateTree cb) ∧ CountsOk (updateTree cb) ∧
    (updateTree cb).ktree = coeffCount cb ∧ (updateTree cb).kbranch = branchCount cb ∧
    coeffCount (updateTree cb) = coeffCount cb ∧ branchCount (updateTree cb) = branchCount cb := by
  intro cb
  induction cb with
  | mk t k kt kb V E n son ih =>
    have hs := fun i => (ih i).1
    have hc := fun i => (ih i).2.1
    have hk := fun i => (ih i).2.2.1
    have hb := fun i => (ih i).2.2.2.1
    have hk' := fun i => (ih i).2.2.2.2.1
    have hb' := fun i => (ih i).2.2.2.2.2
    simp only [updateTree, update]
    by_cases h0 : n = 0
    · subst h0
      rw [if_pos rfl]
      refine ⟨?_, ?_, ?_, ?_, ?_, ?_⟩
      · exact ⟨rfl, rfl, rfl, rfl, rfl, fun i => i.elim0⟩
      · refine ⟨?_, ?_, fun i => i.elim0⟩
        · rw [coeffCount, if_pos rfl]; omega
        · rw [branchCount, if_pos rfl]; omega
      · rw [coeffCount, if_pos rfl]; show _ + _ = _; omega
      · rw [branchCount, if_pos rfl]; show _ + _ = _; omega
      · simp [coeffCount]
      · simp [branchCount]
    · rw [if_neg h0, foldFin_sum, foldFin_max, zero_add]
      have e1 : ∑ i, (updateTree (son i)).ktree = ∑ i, coeffCount (son i) := Finset.sum_congr rfl fun i _ => hk i
      have e2 : (Finset.univ.sup fun i => (updateTree (son i)).kbranch) = Finset.univ.sup fun i => branchCount (son i) :=
        Finset.sup_congr rfl fun i _ => hb i
      have e3 : ∑ i, coeffCount (updateTree (son i)) = ∑ i, coeffCount (son i) := Finset.sum_congr rfl fun i _ => hk' i
      have e4 : (Finset.univ.sup fun i => branchCount (updateTree (son i))) = Finset.univ.sup fun i => branchCount (son i) :=
        Finset.sup_congr rfl fun i _ => hb' i
      refine ⟨?_, ?_, ?_, ?_, ?_, ?_⟩
      · exact ⟨rfl, rfl, rfl, rfl, rfl, fun i => hs i⟩
      · refine ⟨?_, ?_, hc⟩
        · rw [coeffCount, if_neg h0, e1, e3]; omega
        · rw [branchCount, if_neg h0, e2, e4]; omega
      · rw [coeffCount, if_neg h0]; show _ + _ = _; rw [e1]; omega
      · rw [branchCount, if_neg h0]; show _ + _ = _; rw [e2]; omega
      · rw [coeffCount, coeffCount, if_neg h0, if_neg h0, e3]
      · rw [branchCount, branchCount, if_neg h0, if_neg h0, e4]

end CBas
end H2
