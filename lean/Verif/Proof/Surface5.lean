import Verif.Proof.Surface4

set_option linter.unusedSectionVars false

/-! Consequences: disjoint unions, oriented surfaces. -/

namespace H2.Surf
open Spec

theorem union_sum {T1 T2 : Nat} {G G1 G2 : Nat → Nat → Nat} (h1 : ∀ i < T1, ∀ k < 3, G i k = G1 i k) (h2 : ∀ i < T2, ∀ k < 3, G (T1 + i) k = G2 i k) :
    ∑ i ∈ Finset.range (T1 + T2), ∑ k ∈ Finset.range 3, G i k =
      ∑ i ∈ Finset.range T1, ∑ k ∈ Finset.range 3, G1 i k + ∑ i ∈ Finset.range T2, ∑ k ∈ Finset.range 3, G2 i k := by
  rw [Finset.sum_range_add]
  refine congrArg₂ (· + ·) ?_ ?_
  · exact Finset.sum_congr rfl fun i hi => Finset.sum_congr rfl fun k hk => h1 i (Finset.mem_range.mp hi) k (Finset.mem_range.mp hk)
  · exact Finset.sum_congr rfl fun i hi => Finset.sum_congr rfl fun k hk => h2 i (Finset.mem_range.mp hi) k (Finset.mem_range.mp hk)

theorem sum2_zero {T : Nat} {G : Nat → Nat → Nat} (h : ∀ i < T, ∀ k < 3, G i k = 0) : ∑ i ∈ Finset.range T, ∑ k ∈ Finset.range 3, G i k = 0 :=
  Finset.sum_eq_zero fun i hi => Finset.sum_eq_zero fun k hk => h i (Finset.mem_range.mp hi) k (Finset.mem_range.mp hk)

variable {m1 m2 r : Surf}

theorem fwd1 (hu : DisjointUnion m1 m2 r) (h1 : SurfOk m1) {i k : Nat} (hi : i < m1.triangles) (hk : k < 3) :
    (Forward r i k ↔ Forward m1 i k) ∧ (Backward r i k ↔ Backward m1 i k) := by
  have a : (k + 1) % 3 < 3 := Nat.mod_lt _ (by norm_num)
  have b : (k + 2) % 3 < 3 := Nat.mod_lt _ (by norm_num)
  unfold Forward Backward
  rw [hu.edge1 i hi k hk, hu.end1 _ (h1.edges i hi k hk) 0 (by norm_num), hu.end1 _ (h1.edges i hi k hk) 1 (by norm_num), hu.corner1 i hi _ a, hu.corner1 i hi _ b]
  exact ⟨Iff.rfl, Iff.rfl⟩

theorem fwd2 (hu : DisjointUnion m1 m2 r) (h2 : SurfOk m2) {i k : Nat} (hi : i < m2.triangles) (hk : k < 3) :
    (Forward r (m1.triangles + i) k ↔ Forward m2 i k) ∧ (Backward r (m1.triangles + i) k ↔ Backward m2 i k) := by
  have a : (k + 1) % 3 < 3 := Nat.mod_lt _ (by norm_num)
  have b : (k + 2) % 3 < 3 := Nat.mod_lt _ (by norm_num)
  unfold Forward Backward
  rw [hu.edge2 i hi k hk, hu.end2 _ (h2.edges i hi k hk) 0 (by norm_num), hu.end2 _ (h2.edges i hi k hk) 1 (by norm_num), hu.corner2 i hi _ a, hu.corner2 i hi _ b,
    Nat.add_left_cancel_iff, Nat.add_left_cancel_iff, Nat.add_left_cancel_iff, Nat.add_left_cancel_iff]
  exact ⟨Iff.rfl, Iff.rfl⟩

theorem union_ok (hu : DisjointUnion m1 m2 r) (h1 : SurfOk m1) (h2 : SurfOk m2) (hr : SurfSized r) : SurfOk r := by
  have split : ∀ {T1 T2 i : Nat}, i < T1 + T2 → i < T1 ∨ ∃ j < T2, i = T1 + j := fun {T1 T2 i} h => by
    rcases Nat.lt_or_ge i T1 with hh | hh
    · exact .inl hh
    · exact .inr ⟨i - T1, by omega, by omega⟩
  refine ⟨hr, fun f hf k hk => ?_, fun i hi k hk => ?_, fun i hi k hk => ?_, fun i hi k hk => ?_⟩
  · rw [hu.vertices]
    rw [hu.edges] at hf
    rcases split hf with hh | ⟨g, hg, rfl⟩
    · rw [hu.end1 f hh k hk]; have := h1.ends f hh k hk; omega
    · rw [hu.end2 g hg k hk]; have := h2.ends g hg k hk; omega
  · rw [hu.vertices]
    rw [hu.triangles] at hi
    rcases split hi with hh | ⟨g, hg, rfl⟩
    · rw [hu.corner1 i hh k hk]; have := h1.corners i hh k hk; omega
    · rw [hu.corner2 g hg k hk]; have := h2.corners g hg k hk; omega
  · rw [hu.edges]
    rw [hu.triangles] at hi
    rcases split hi with hh | ⟨g, hg, rfl⟩
    · rw [hu.edge1 i hh k hk]; have := h1.edges i hh k hk; omega
    · rw [hu.edge2 g hg k hk]; have := h2.edges g hg k hk; omega
  · rw [hu.triangles] at hi
    rcases split hi with hh | ⟨g, hg, rfl⟩
    · rw [(fwd1 hu h1 hh hk).1, (fwd1 hu h1 hh hk).2]; exact h1.match' i hh k hk
    · rw [(fwd2 hu h2 hg hk).1, (fwd2 hu h2 hg hk).2]; exact h2.match' g hg k hk

/-- counting in both parts -/
theorem union_counts (hu : DisjointUnion m1 m2 r) (h1 : SurfOk m1) (h2 : SurfOk m2) :
    (∀ f < m1.edges, occurs r f = occurs m1 f ∧ forwards r f = forwards m1 f ∧ backwards r f = backwards m1 f) ∧
    ∀ f < m2.edges, occurs r (m1.edges + f) = occurs m2 f ∧ forwards r (m1.edges + f) = forwards m2 f ∧ backwards r (m1.edges + f) = backwards m2 f := by
  constructor
  · intro f hf
    unfold occurs forwards backwards
    rw [hu.triangles]
    refine ⟨?_, ?_, ?_⟩
    · rw [union_sum (G1 := fun i k => if sedge m1 i k = f then 1 else 0) (G2 := fun _ _ => 0) (fun i hi k hk => by rw [hu.edge1 i hi k hk]) (fun i hi k hk => by
        rw [hu.edge2 i hi k hk, if_neg (by omega)]), sum2_zero (G := fun _ _ => 0) (fun _ _ _ _ => rfl), add_zero]
    · classical
      rw [union_sum (G1 := fun i k => if sedge m1 i k = f ∧ Forward m1 i k then 1 else 0) (G2 := fun _ _ => 0) (fun i hi k hk => by
        rw [hu.edge1 i hi k hk]; exact if_congr (and_congr_right fun _ => (fwd1 hu h1 hi hk).1) rfl rfl) (fun i hi k hk => by
        rw [hu.edge2 i hi k hk, if_neg (fun x => by have := x.1; omega)]), sum2_zero (G := fun _ _ => 0) (fun _ _ _ _ => rfl), add_zero]
    · classical
      rw [union_sum (G1 := fun i k => if sedge m1 i k = f ∧ Backward m1 i k then 1 else 0) (G2 := fun _ _ => 0) (fun i hi k hk => by
        rw [hu.edge1 i hi k hk]; exact if_congr (and_congr_right fun _ => (fwd1 hu h1 hi hk).2) rfl rfl) (fun i hi k hk => by
        rw [hu.edge2 i hi k hk, if_neg (fun x => by have := x.1; omega)]), sum2_zero (G := fun _ _ => 0) (fun _ _ _ _ => rfl), add_zero]
  · intro f hf
    unfold occurs forwards backwards
    rw [hu.triangles]
    refine ⟨?_, ?_, ?_⟩
    · rw [union_sum (G1 := fun _ _ => 0) (G2 := fun i k => if sedge m2 i k = f then 1 else 0) (fun i hi k hk => by
        rw [hu.edge1 i hi k hk, if_neg (fun x => by have := h1.edges i hi k hk; omega)]) (fun i hi k hk => by
        rw [hu.edge2 i hi k hk]; exact if_congr Nat.add_left_cancel_iff rfl rfl), sum2_zero (G := fun _ _ => 0) (fun _ _ _ _ => rfl), zero_add]
    · classical
      rw [union_sum (G1 := fun _ _ => 0) (G2 := fun i k => if sedge m2 i k = f ∧ Forward m2 i k then 1 else 0) (fun i hi k hk => by
        rw [hu.edge1 i hi k hk, if_neg (fun x => by have := h1.edges i hi k hk; have := x.1; omega)]) (fun i hi k hk => by
        rw [hu.edge2 i hi k hk]; exact if_congr (and_congr Nat.add_left_cancel_iff (fwd2 hu h2 hi hk).1) rfl rfl), sum2_zero (G := fun _ _ => 0) (fun _ _ _ _ => rfl), zero_add]
    · classical
      rw [union_sum (G1 := fun _ _ => 0) (G2 := fun i k => if sedge m2 i k = f ∧ Backward m2 i k then 1 else 0) (fun i hi k hk => by
        rw [hu.edge1 i hi k hk, if_neg (fun x => by have := h1.edges i hi k hk; have := x.1; omega)]) (fun i hi k hk => by
        rw [hu.edge2 i hi k hk]; exact if_congr (and_congr Nat.add_left_cancel_iff (fwd2 hu h2 hi hk).2) rfl rfl), sum2_zero (G := fun _ _ => 0) (fun _ _ _ _ => rfl), zero_add]

theorem union_all {E1 E2 : Nat} {P P1 P2 : Nat → Prop} (h1 : ∀ f < E1, P f ↔ P1 f) (h2 : ∀ f < E2, P (E1 + f) ↔ P2 f) :
    (∀ f < E1 + E2, P f) ↔ (∀ f < E1, P1 f) ∧ ∀ f < E2, P2 f := by
  constructor
  · exact fun h => ⟨fun f hf => (h1 f hf).mp (h f (by omega)), fun f hf => (h2 f hf).mp (h _ (by omega))⟩
  · rintro ⟨a, b⟩ f hf
    rcases Nat.lt_or_ge f E1 with hh | hh
    · exact (h1 f hh).mpr (a f hh)
    · obtain ⟨g, rfl⟩ : ∃ g, f = E1 + g := ⟨f - E1, by omega⟩
      exact (h2 g (by omega)).mpr (b g (by omega))

theorem union_closed (hu : DisjointUnion m1 m2 r) (h1 : SurfOk m1) (h2 : SurfOk m2) :
    (Closed r ↔ Closed m1 ∧ Closed m2) ∧ (ClosedOriented r ↔ ClosedOriented m1 ∧ ClosedOriented m2) := by
  obtain ⟨c1, c2⟩ := union_counts hu h1 h2
  unfold Closed ClosedOriented
  rw [hu.edges]
  exact ⟨union_all (fun f hf => by rw [(c1 f hf).1]) (fun f hf => by rw [(c2 f hf).1]),
    union_all (fun f hf => by rw [(c1 f hf).2.1, (c1 f hf).2.2]) (fun f hf => by rw [(c2 f hf).2.1, (c2 f hf).2.2])⟩

theorem height_pos {m : Surf} {i : Nat} (h : crossTri m i ≠ 0) : 0 < height m i := by
  obtain ⟨a, b, c⟩ := cross_ne h
  unfold height
  have e : spt m (corner m i 2) - spt m (corner m i 0) - (spt m (corner m i 1) - spt m (corner m i 0)) = spt m (corner m i 2) - spt m (corner m i 1) := by abel
  rw [e] at c
  exact div_pos (len3_pos h) (lt_min (len3_pos a) (lt_min (len3_pos b) (len3_pos c)))

end H2.Surf
