import Verif.Proof.SurfRefine

set_option linter.unusedSectionVars false

/-! Red refinement: consistency, counting, geometry. -/

namespace H2.Surf
open Spec

variable {m r : Surf}

theorem quad {T i : Nat} (h : i < 4 * T) : ∃ i' < T, ∃ q < 4, i = 4 * i' + q := ⟨i / 4, by omega, i % 4, by omega, by omega⟩

theorem mod1 (k : Nat) : (k + 1) % 3 < 3 := Nat.mod_lt _ (by norm_num)
theorem mod2 (k : Nat) : (k + 2) % 3 < 3 := Nat.mod_lt _ (by norm_num)

theorem fb_excl (hm : SurfOk m) (hp : Proper m) {i k : Nat} (hi : i < m.triangles) (hk : k < 3) : Backward m i k ↔ ¬ Forward m i k := by
  obtain ⟨_, c2, _, _⟩ := two_edges hm hp hi hk
  constructor
  · exact fun hb hf => c2 (hf.1.symm.trans hb.1)
  · exact fun h => (hm.match' i hi k hk).resolve_left h

theorem half_fwd (hm : SurfOk m) (hp : Proper m) {i k : Nat} (hi : i < m.triangles) (hk : k < 3) (h : Forward m i k) :
    half m (sedge m i k) (corner m i ((k + 2) % 3)) = 2 * sedge m i k + 1 ∧ half m (sedge m i k) (corner m i ((k + 1) % 3)) = 2 * sedge m i k := by
  obtain ⟨_, c2, _, _⟩ := two_edges hm hp hi hk
  unfold half
  rw [if_pos h.2, if_neg (fun x => c2 (x.symm.trans h.2))]
  exact ⟨rfl, rfl⟩

theorem half_bwd (hm : SurfOk m) (hp : Proper m) {i k : Nat} (hi : i < m.triangles) (hk : k < 3) (h : Backward m i k) :
    half m (sedge m i k) (corner m i ((k + 2) % 3)) = 2 * sedge m i k ∧ half m (sedge m i k) (corner m i ((k + 1) % 3)) = 2 * sedge m i k + 1 := by
  obtain ⟨_, c2, _, _⟩ := two_edges hm hp hi hk
  unfold half
  rw [if_pos h.2, if_neg (fun x => c2 (h.2.symm.trans x))]
  exact ⟨rfl, rfl⟩

/-- side of a corner triangle on edge `j` -/
theorem slot0 (hm : SurfOk m) (hp : Proper m) (hr : RedRefined m r) {i j : Nat} (hi : i < m.triangles) (hj : j < 3) :
    (Forward r (4 * i + j) 0 ↔ Forward m i j) ∧ (Backward r (4 * i + j) 0 ↔ Backward m i j) := by
  have flt := hm.edges i hi j hj
  have clt := hm.corners i hi _ (mod2 j)
  obtain ⟨_, t1, t2⟩ := hr.cornerTri i hi j hj
  obtain ⟨s0, _, _⟩ := hr.cornerEdge i hi j hj
  have ex := fb_excl hm hp hi hj
  unfold Forward Backward
  rw [s0, show (0 + 1) % 3 = 1 from rfl, show (0 + 2) % 3 = 2 from rfl, t1, t2]
  by_cases h : Forward m i j
  · rw [(half_fwd hm hp hi hj h).1, (hr.half1 _ flt).1, (hr.half1 _ flt).2]
    refine ⟨⟨fun _ => h, fun _ => ⟨rfl, h.2⟩⟩, ⟨fun x => absurd x.1 (by omega), fun x => absurd h (ex.mp x)⟩⟩
  · have hb := ex.mpr h
    rw [(half_bwd hm hp hi hj hb).1, (hr.half0 _ flt).1, (hr.half0 _ flt).2]
    refine ⟨⟨fun x => absurd x.2 (by omega), fun x => absurd x h⟩, ⟨fun _ => hb, fun _ => ⟨hb.1, rfl⟩⟩⟩

/-- side of a corner triangle on edge `j+1` -/
theorem slot1 (hm : SurfOk m) (hp : Proper m) (hr : RedRefined m r) {i j : Nat} (hi : i < m.triangles) (hj : j < 3) :
    (Forward r (4 * i + j) 1 ↔ Forward m i ((j + 1) % 3)) ∧ (Backward r (4 * i + j) 1 ↔ Backward m i ((j + 1) % 3)) := by
  have hk := mod1 j
  have flt := hm.edges i hi _ hk
  have clt := hm.corners i hi _ (mod2 j)
  obtain ⟨t0, _, t2⟩ := hr.cornerTri i hi j hj
  obtain ⟨_, s1, _⟩ := hr.cornerEdge i hi j hj
  have ex := fb_excl hm hp hi hk
  have ek : ((j + 1) % 3 + 1) % 3 = (j + 2) % 3 := by omega
  have ea : ∀ a b, Forward r a b = (sendp r (sedge r a b) 0 = corner r a ((b + 1) % 3) ∧ sendp r (sedge r a b) 1 = corner r a ((b + 2) % 3)) := fun _ _ => rfl
  have eb : ∀ a b, Backward r a b = (sendp r (sedge r a b) 0 = corner r a ((b + 2) % 3) ∧ sendp r (sedge r a b) 1 = corner r a ((b + 1) % 3)) := fun _ _ => rfl
  rw [ea, eb, s1, show (1 + 1) % 3 = 2 from rfl, show (1 + 2) % 3 = 0 from rfl, t0, t2]
  by_cases h : Forward m i ((j + 1) % 3)
  · have hh := (half_fwd hm hp hi hk h).2
    have h1 := h.1
    rw [ek] at hh h1
    rw [hh, (hr.half0 _ flt).1, (hr.half0 _ flt).2]
    refine ⟨⟨fun _ => h, fun _ => ⟨h1, rfl⟩⟩, ⟨fun x => absurd x.2 (by omega), fun x => absurd h (ex.mp x)⟩⟩
  · have hb := ex.mpr h
    have hh := (half_bwd hm hp hi hk hb).2
    have h2 := hb.2
    rw [ek] at hh h2
    rw [hh, (hr.half1 _ flt).1, (hr.half1 _ flt).2]
    refine ⟨⟨fun x => absurd x.1 (by omega), fun x => absurd x h⟩, ⟨fun _ => hb, fun _ => ⟨rfl, h2⟩⟩⟩

theorem slot2 (hr : RedRefined m r) {i j : Nat} (hi : i < m.triangles) (hj : j < 3) : Forward r (4 * i + j) 2 := by
  obtain ⟨t0, t1, _⟩ := hr.cornerTri i hi j hj
  obtain ⟨_, _, s2⟩ := hr.cornerEdge i hi j hj
  obtain ⟨e0, e1⟩ := hr.inner i hi j hj
  unfold Forward
  rw [s2, e0, e1, show (2 + 1) % 3 = 0 from rfl, show (2 + 2) % 3 = 1 from rfl, t0, t1]
  exact ⟨rfl, rfl⟩

theorem slot3 (hr : RedRefined m r) {i k : Nat} (hi : i < m.triangles) (hk : k < 3) : Backward r (4 * i + 3) k := by
  have t1 := (hr.midTri i hi _ (mod1 k)).1
  have t2 := (hr.midTri i hi _ (mod2 k)).1
  have s := (hr.midTri i hi k hk).2
  obtain ⟨e0, e1⟩ := hr.inner i hi k hk
  unfold Backward
  rw [s, e0, e1, t1, t2, show ((k + 1) % 3 + 2) % 3 = k by omega, show ((k + 2) % 3 + 2) % 3 = (k + 1) % 3 by omega]
  exact ⟨rfl, rfl⟩

theorem half_lt (m : Surf) (f c : Nat) : half m f c = 2 * f ∨ half m f c = 2 * f + 1 := by
  unfold half
  split_ifs
  · exact .inr rfl
  · exact .inl rfl

theorem edges_ne (hm : SurfOk m) (hp : Proper m) {i j : Nat} (hi : i < m.triangles) (hj : j < 3) : sedge m i j ≠ sedge m i ((j + 1) % 3) := by
  obtain ⟨c1, c2, c3, c4, c5⟩ := two_edges hm hp hi hj
  intro h
  rw [h] at c4
  rcases c4 with ⟨x, y⟩ | ⟨x, y⟩ <;> rcases c5 with ⟨z, w⟩ | ⟨z, w⟩
  · exact c2 (x.symm.trans z)
  · exact c1 (z.symm.trans x)
  · exact c1 (w.symm.trans y)
  · exact c3 (x.symm.trans z)

theorem red_ok (hm : SurfOk m) (hp : Proper m) (hr : RedRefined m r) (hs : SurfSized r) : SurfOk r ∧ Proper r := by
  have three : ∀ {P : Nat → Prop}, P 0 → P 1 → P 2 → ∀ k < 3, P k := fun {P} a b c k hk => by
    obtain rfl | rfl | rfl : k = 0 ∨ k = 1 ∨ k = 2 := by omega
    · exact a
    · exact b
    · exact c
  constructor
  · refine ⟨hs, fun f hf k hk => ?_, fun i hi => ?_, fun i hi => ?_, fun i hi => ?_⟩
    · rw [hr.edges] at hf
      rw [hr.vertices]
      rcases Nat.lt_or_ge f (2 * m.edges) with hh | hh
      · obtain ⟨g, rfl | rfl⟩ : ∃ g, f = 2 * g ∨ f = 2 * g + 1 := ⟨f / 2, by omega⟩
        · have a := hr.half0 g (by omega)
          have b := hm.ends g (by omega) 0 (by norm_num)
          obtain rfl | rfl : k = 0 ∨ k = 1 := by omega
          · rw [a.1]; omega
          · rw [a.2]; omega
        · have a := hr.half1 g (by omega)
          have b := hm.ends g (by omega) 1 (by norm_num)
          obtain rfl | rfl : k = 0 ∨ k = 1 := by omega
          · rw [a.1]; omega
          · rw [a.2]; omega
      · obtain ⟨i, hi, j, hj, rfl⟩ : ∃ i < m.triangles, ∃ j < 3, f = 2 * m.edges + (3 * i + j) := ⟨(f - 2 * m.edges) / 3, by omega, (f - 2 * m.edges) % 3, by omega, by omega⟩
        have a := hr.inner i hi j hj
        have b := hm.edges i hi j hj
        have c := hm.edges i hi _ (mod1 j)
        obtain rfl | rfl : k = 0 ∨ k = 1 := by omega
        · rw [a.1]; omega
        · rw [a.2]; omega
    · rw [hr.triangles] at hi
      rw [hr.vertices]
      obtain ⟨i, hi', q, hq, rfl⟩ := quad hi
      rcases Nat.lt_or_ge q 3 with hh | hh
      · obtain ⟨t0, t1, t2⟩ := hr.cornerTri i hi' q hh
        have b := hm.edges i hi' q hh
        have c := hm.edges i hi' _ (mod1 q)
        have d := hm.corners i hi' _ (mod2 q)
        exact three (by omega) (by omega) (by omega)
      · obtain rfl : q = 3 := by omega
        intro k hk
        rw [(hr.midTri i hi' k hk).1]
        have := hm.edges i hi' _ (mod2 k)
        omega
    · rw [hr.triangles] at hi
      rw [hr.edges]
      obtain ⟨i, hi', q, hq, rfl⟩ := quad hi
      rcases Nat.lt_or_ge q 3 with hh | hh
      · obtain ⟨t0, t1, t2⟩ := hr.cornerEdge i hi' q hh
        have b := hm.edges i hi' q hh
        have c := hm.edges i hi' _ (mod1 q)
        have h1 := half_lt m (sedge m i q) (corner m i ((q + 2) % 3))
        have h2 := half_lt m (sedge m i ((q + 1) % 3)) (corner m i ((q + 2) % 3))
        exact three (by omega) (by omega) (by omega)
      · obtain rfl : q = 3 := by omega
        intro k hk
        rw [(hr.midTri i hi' k hk).2]
        omega
    · rw [hr.triangles] at hi
      obtain ⟨i, hi', q, hq, rfl⟩ := quad hi
      rcases Nat.lt_or_ge q 3 with hh | hh
      · refine three ?_ ?_ (.inl (slot2 hr hi' hh))
        · rw [(slot0 hm hp hr hi' hh).1, (slot0 hm hp hr hi' hh).2]; exact hm.match' i hi' q hh
        · rw [(slot1 hm hp hr hi' hh).1, (slot1 hm hp hr hi' hh).2]; exact hm.match' i hi' _ (mod1 q)
      · obtain rfl : q = 3 := by omega
        exact fun k hk => .inr (slot3 hr hi' hk)
  · intro i hi
    rw [hr.triangles] at hi
    obtain ⟨i, hi', q, hq, rfl⟩ := quad hi
    rcases Nat.lt_or_ge q 3 with hh | hh
    · obtain ⟨t0, t1, t2⟩ := hr.cornerTri i hi' q hh
      have ne := edges_ne hm hp hi' hh
      have d := hm.corners i hi' _ (mod2 q)
      omega
    · obtain rfl : q = 3 := by omega
      have a0 := (hr.midTri i hi' 0 (by norm_num)).1
      have a1 := (hr.midTri i hi' 1 (by norm_num)).1
      have a2 := (hr.midTri i hi' 2 (by norm_num)).1
      have n0 := edges_ne hm hp hi' (j := 0) (by norm_num)
      have n1 := edges_ne hm hp hi' (j := 1) (by norm_num)
      have n2 := edges_ne hm hp hi' (j := 2) (by norm_num)
      norm_num at a0 a1 a2 n0 n1 n2
      omega

/-! ## Counting -/

theorem sum_quad (G : Nat → Nat → Nat) (T : Nat) : ∑ i ∈ Finset.range (4 * T), ∑ k ∈ Finset.range 3, G i k =
    ∑ i ∈ Finset.range T, ((G (4 * i) 0 + G (4 * i) 1 + G (4 * i) 2) + (G (4 * i + 1) 0 + G (4 * i + 1) 1 + G (4 * i + 1) 2) +
      (G (4 * i + 2) 0 + G (4 * i + 2) 1 + G (4 * i + 2) 2) + (G (4 * i + 3) 0 + G (4 * i + 3) 1 + G (4 * i + 3) 2)) := by
  induction T with
  | zero => rfl
  | succ T ih =>
    rw [show 4 * (T + 1) = 4 * T + 1 + 1 + 1 + 1 by omega, Finset.sum_range_succ, Finset.sum_range_succ, Finset.sum_range_succ, Finset.sum_range_succ, ih, Finset.sum_range_succ]
    simp only [Finset.sum_range_succ, Finset.sum_range_zero, zero_add]
    ring

open Classical in
/-- passages of the halves of edges -/
theorem red_count_half (hm : SurfOk m) (hp : Proper m) (hr : RedRefined m r) (Qr Qm : Nat → Nat → Prop)
    (h0 : ∀ i < m.triangles, ∀ j < 3, Qr (4 * i + j) 0 ↔ Qm i j) (h1 : ∀ i < m.triangles, ∀ j < 3, Qr (4 * i + j) 1 ↔ Qm i ((j + 1) % 3)) {f h : Nat} (hf : f < m.edges) (hh : h < 2) :
    (∑ i ∈ Finset.range r.triangles, ∑ k ∈ Finset.range 3, if sedge r i k = 2 * f + h ∧ Qr i k then 1 else 0) =
      ∑ i ∈ Finset.range m.triangles, ∑ k ∈ Finset.range 3, if sedge m i k = f ∧ Qm i k then 1 else 0 := by
  rw [hr.triangles, sum_quad]
  refine Finset.sum_congr rfl fun i hi => ?_
  rw [Finset.mem_range] at hi
  have z : ∀ a b, (∃ n, sedge r a b = 2 * m.edges + n) → (if sedge r a b = 2 * f + h ∧ Qr a b then 1 else 0) = 0 := fun a b ⟨n, hn⟩ => if_neg fun x => by have := x.1; omega
  have pair : ∀ k < 3, (if sedge r (4 * i + k) 0 = 2 * f + h ∧ Qr (4 * i + k) 0 then 1 else 0) + (if sedge r (4 * i + (k + 2) % 3) 1 = 2 * f + h ∧ Qr (4 * i + (k + 2) % 3) 1 then 1 else 0) =
      if sedge m i k = f ∧ Qm i k then 1 else 0 := by
    intro k hk
    have q0 := h0 i hi k hk
    have q1 := h1 i hi _ (mod2 k)
    have e0 := (hr.cornerEdge i hi k hk).1
    have e1 := (hr.cornerEdge i hi _ (mod2 k)).2.1
    rw [show ((k + 2) % 3 + 1) % 3 = k by omega] at q1 e1
    rw [show ((k + 2) % 3 + 2) % 3 = (k + 1) % 3 by omega] at e1
    rw [e0, e1]
    by_cases hQ : Qm i k
    · simp only [q0.mpr hQ, q1.mpr hQ, hQ, and_true]
      rcases hm.match' i hi k hk with hF | hB
      · rw [(half_fwd hm hp hi hk hF).1, (half_fwd hm hp hi hk hF).2]
        split_ifs <;> omega
      · rw [(half_bwd hm hp hi hk hB).1, (half_bwd hm hp hi hk hB).2]
        split_ifs <;> omega
    · rw [if_neg (fun x => hQ (q0.mp x.2)), if_neg (fun x => hQ (q1.mp x.2)), if_neg (fun x => hQ x.2)]
  have p0 := pair 0 (by norm_num)
  have p1 := pair 1 (by norm_num)
  have p2 := pair 2 (by norm_num)
  norm_num at p0 p1 p2
  rw [z (4 * i) 2 ⟨_, (hr.cornerEdge i hi 0 (by norm_num)).2.2⟩, z _ 2 ⟨_, (hr.cornerEdge i hi 1 (by norm_num)).2.2⟩, z _ 2 ⟨_, (hr.cornerEdge i hi 2 (by norm_num)).2.2⟩,
    z _ 0 ⟨_, (hr.midTri i hi 0 (by norm_num)).2⟩, z _ 1 ⟨_, (hr.midTri i hi 1 (by norm_num)).2⟩, z _ 2 ⟨_, (hr.midTri i hi 2 (by norm_num)).2⟩]
  simp only [Finset.sum_range_succ, Finset.sum_range_zero, zero_add]
  rw [← p0, ← p1, ← p2]
  ring

open Classical in
/-- passages of the new edges -/
theorem red_count_inner (hm : SurfOk m) (hr : RedRefined m r) (Qr : Nat → Nat → Prop) {i j : Nat} (hi : i < m.triangles) (hj : j < 3) :
    (∑ i' ∈ Finset.range r.triangles, ∑ k ∈ Finset.range 3, if sedge r i' k = 2 * m.edges + (3 * i + j) ∧ Qr i' k then 1 else 0) =
      (if Qr (4 * i + j) 2 then 1 else 0) + if Qr (4 * i + 3) j then 1 else 0 := by
  rw [hr.triangles, sum_quad]
  have zh : ∀ a, a < m.triangles → ∀ q < 3, sedge r (4 * a + q) 0 < 2 * m.edges ∧ sedge r (4 * a + q) 1 < 2 * m.edges := by
    intro a ha q hq
    obtain ⟨s0, s1, _⟩ := hr.cornerEdge a ha q hq
    have b := hm.edges a ha q hq
    have c := hm.edges a ha _ (mod1 q)
    have g1 := half_lt m (sedge m a q) (corner m a ((q + 2) % 3))
    have g2 := half_lt m (sedge m a ((q + 1) % 3)) (corner m a ((q + 2) % 3))
    omega
  have zz : ∀ a b, sedge r a b < 2 * m.edges → (if sedge r a b = 2 * m.edges + (3 * i + j) ∧ Qr a b then 1 else 0) = 0 := fun a b h => if_neg fun x => by have := x.1; omega
  have ze : ∀ a b n, sedge r a b = 2 * m.edges + n → n ≠ 3 * i + j → (if sedge r a b = 2 * m.edges + (3 * i + j) ∧ Qr a b then 1 else 0) = 0 :=
    fun a b n hn h => if_neg fun x => by have := x.1; omega
  have zp : ∀ a b n, sedge r a b = 2 * m.edges + n → n = 3 * i + j → (if sedge r a b = 2 * m.edges + (3 * i + j) ∧ Qr a b then 1 else 0) = if Qr a b then 1 else 0 :=
    fun a b n hn h => if_congr ⟨fun x => x.2, fun x => ⟨by rw [hn, h], x⟩⟩ rfl rfl
  rw [Finset.sum_eq_single i]
  · have c0 := (hr.cornerEdge i hi 0 (by norm_num)).2.2
    have c1 := (hr.cornerEdge i hi 1 (by norm_num)).2.2
    have c2 := (hr.cornerEdge i hi 2 (by norm_num)).2.2
    have d0 := (hr.midTri i hi 0 (by norm_num)).2
    have d1 := (hr.midTri i hi 1 (by norm_num)).2
    have d2 := (hr.midTri i hi 2 (by norm_num)).2
    have y0 := zh i hi 0 (by norm_num)
    have y1 := zh i hi 1 (by norm_num)
    have y2 := zh i hi 2 (by norm_num)
    rw [Nat.add_zero] at y0 c0
    rw [zz _ _ y0.1, zz _ _ y0.2, zz _ _ y1.1, zz _ _ y1.2, zz _ _ y2.1, zz _ _ y2.2]
    obtain rfl | rfl | rfl : j = 0 ∨ j = 1 ∨ j = 2 := by omega
    · rw [zp _ _ _ c0 (by omega), ze _ _ _ c1 (by omega), ze _ _ _ c2 (by omega), zp _ _ _ d0 (by omega), ze _ _ _ d1 (by omega), ze _ _ _ d2 (by omega)]
      simp only [Nat.add_zero, Nat.zero_add]
    · rw [ze _ _ _ c0 (by omega), zp _ _ _ c1 (by omega), ze _ _ _ c2 (by omega), ze _ _ _ d0 (by omega), zp _ _ _ d1 (by omega), ze _ _ _ d2 (by omega)]
      simp only [Nat.add_zero, Nat.zero_add]
    · rw [ze _ _ _ c0 (by omega), ze _ _ _ c1 (by omega), zp _ _ _ c2 (by omega), ze _ _ _ d0 (by omega), ze _ _ _ d1 (by omega), zp _ _ _ d2 (by omega)]
      simp only [Nat.add_zero, Nat.zero_add]
  · intro a ha hne
    rw [Finset.mem_range] at ha
    have c0 := (hr.cornerEdge a ha 0 (by norm_num)).2.2
    have c1 := (hr.cornerEdge a ha 1 (by norm_num)).2.2
    have c2 := (hr.cornerEdge a ha 2 (by norm_num)).2.2
    have d0 := (hr.midTri a ha 0 (by norm_num)).2
    have d1 := (hr.midTri a ha 1 (by norm_num)).2
    have d2 := (hr.midTri a ha 2 (by norm_num)).2
    have y0 := zh a ha 0 (by norm_num)
    have y1 := zh a ha 1 (by norm_num)
    have y2 := zh a ha 2 (by norm_num)
    rw [Nat.add_zero] at y0 c0
    rw [zz _ _ y0.1, zz _ _ y0.2, zz _ _ y1.1, zz _ _ y1.2, zz _ _ y2.1, zz _ _ y2.2, ze _ _ _ c0 (by omega), ze _ _ _ c1 (by omega), ze _ _ _ c2 (by omega),
      ze _ _ _ d0 (by omega), ze _ _ _ d1 (by omega), ze _ _ _ d2 (by omega)]
    rfl
  · exact fun h => absurd (Finset.mem_range.mpr hi) h

theorem red_counts (hm : SurfOk m) (hp : Proper m) (hr : RedRefined m r) (hs : SurfSized r) :
    (∀ f < m.edges, ∀ h < 2, occurs r (2 * f + h) = occurs m f ∧ forwards r (2 * f + h) = forwards m f ∧ backwards r (2 * f + h) = backwards m f) ∧
    ∀ i < m.triangles, ∀ j < 3, occurs r (2 * m.edges + (3 * i + j)) = 2 ∧ forwards r (2 * m.edges + (3 * i + j)) = 1 ∧ backwards r (2 * m.edges + (3 * i + j)) = 1 := by
  obtain ⟨ok, pr⟩ := red_ok hm hp hr hs
  constructor
  · intro f hf h hh
    have a := red_count_half hm hp hr (Forward r) (Forward m) (fun i hi j hj => (slot0 hm hp hr hi hj).1) (fun i hi j hj => (slot1 hm hp hr hi hj).1) hf hh
    have b := red_count_half hm hp hr (Backward r) (Backward m) (fun i hi j hj => (slot0 hm hp hr hi hj).2) (fun i hi j hj => (slot1 hm hp hr hi hj).2) hf hh
    refine ⟨?_, a, b⟩
    rw [(signed_sum ok pr _).2, (signed_sum hm hp _).2]
    exact congrArg₂ (· + ·) a b
  · intro i hi j hj
    have hi4 : 4 * i + j < r.triangles := by rw [hr.triangles]; omega
    have hi3 : 4 * i + 3 < r.triangles := by rw [hr.triangles]; omega
    have n2 : ¬ Backward r (4 * i + j) 2 := fun x => (fb_excl ok pr hi4 (by norm_num)).mp x (slot2 hr hi hj)
    have n3 : ¬ Forward r (4 * i + 3) j := (fb_excl ok pr hi3 hj).mp (slot3 hr hi hj)
    have a := red_count_inner hm hr (Forward r) hi hj
    have b := red_count_inner hm hr (Backward r) hi hj
    rw [if_pos (slot2 hr hi hj), if_neg n3] at a
    rw [if_neg n2, if_pos (slot3 hr hi hj)] at b
    refine ⟨?_, a, b⟩
    rw [(signed_sum ok pr _).2]
    exact congrArg₂ (· + ·) a b

theorem red_all (hr : RedRefined m r) {P Q : Nat → Prop} (h1 : ∀ f < m.edges, ∀ h < 2, P (2 * f + h) ↔ Q f) (h2 : ∀ i < m.triangles, ∀ j < 3, P (2 * m.edges + (3 * i + j))) :
    (∀ f < r.edges, P f) ↔ ∀ f < m.edges, Q f := by
  rw [hr.edges]
  constructor
  · exact fun h f hf => (h1 f hf 0 (by norm_num)).mp (h _ (by omega))
  · intro h f hf
    rcases Nat.lt_or_ge f (2 * m.edges) with hh | hh
    · have := (h1 (f / 2) (by omega) (f % 2) (by omega)).mpr (h _ (by omega))
      rwa [show 2 * (f / 2) + f % 2 = f by omega] at this
    · have := h2 ((f - 2 * m.edges) / 3) (by omega) ((f - 2 * m.edges) % 3) (by omega)
      rwa [show 2 * m.edges + (3 * ((f - 2 * m.edges) / 3) + (f - 2 * m.edges) % 3) = f by omega] at this

theorem red_closed (hm : SurfOk m) (hp : Proper m) (hr : RedRefined m r) (hs : SurfSized r) :
    (Closed r ↔ Closed m) ∧ (ClosedOriented r ↔ ClosedOriented m) := by
  obtain ⟨a, b⟩ := red_counts hm hp hr hs
  exact ⟨red_all hr (fun f hf h hh => by rw [(a f hf h hh).1]) (fun i hi j hj => (b i hi j hj).1),
    red_all hr (fun f hf h hh => by rw [(a f hf h hh).2.1, (a f hf h hh).2.2]) (fun i hi j hj => (b i hi j hj).2)⟩

/-! ## Geometry -/

theorem mid_pt (hm : SurfOk m) (hr : RedRefined m r) {i k : Nat} (hi : i < m.triangles) (hk : k < 3) :
    spt r (m.vertices + sedge m i k) = (1 / 2 : ℝ) • (spt m (corner m i ((k + 1) % 3)) + spt m (corner m i ((k + 2) % 3))) := by
  rw [hr.mids _ (hm.edges i hi k hk)]
  rcases hm.match' i hi k hk with h | h
  · rw [h.1, h.2]
  · rw [h.1, h.2, add_comm]

theorem cross_cyc (a b c : Fin 3 → ℝ) : crossProduct (b - a) (c - a) = crossProduct (c - b) (a - b) := by
  rw [cross_apply, cross_apply]
  ext k
  fin_cases k <;> simp <;> ring

theorem cross_corner (a b c : Fin 3 → ℝ) : crossProduct ((1 / 2 : ℝ) • (b + c) - (1 / 2 : ℝ) • (c + a)) (c - (1 / 2 : ℝ) • (c + a)) = (1 / 4 : ℝ) • crossProduct (b - a) (c - a) := by
  rw [cross_apply, cross_apply]
  ext k
  fin_cases k <;> simp <;> ring

theorem cross_mid (a b c : Fin 3 → ℝ) : crossProduct ((1 / 2 : ℝ) • (b + c) - (1 / 2 : ℝ) • (a + b)) ((1 / 2 : ℝ) • (c + a) - (1 / 2 : ℝ) • (a + b)) =
    (1 / 4 : ℝ) • crossProduct (b - a) (c - a) := by
  rw [cross_apply, cross_apply]
  ext k
  fin_cases k <;> simp <;> ring

theorem red_cross (hm : SurfOk m) (hr : RedRefined m r) {i q : Nat} (hi : i < m.triangles) (hq : q < 4) : crossTri r (4 * i + q) = (1 / 4 : ℝ) • crossTri m i := by
  have M0 := mid_pt hm hr hi (k := 0) (by norm_num)
  have M1 := mid_pt hm hr hi (k := 1) (by norm_num)
  have M2 := mid_pt hm hr hi (k := 2) (by norm_num)
  replace M0 : spt r (m.vertices + sedge m i 0) = (1 / 2 : ℝ) • (spt m (corner m i 1) + spt m (corner m i 2)) := M0
  replace M1 : spt r (m.vertices + sedge m i 1) = (1 / 2 : ℝ) • (spt m (corner m i 2) + spt m (corner m i 0)) := M1
  replace M2 : spt r (m.vertices + sedge m i 2) = (1 / 2 : ℝ) • (spt m (corner m i 0) + spt m (corner m i 1)) := M2
  obtain rfl | rfl | rfl | rfl : q = 0 ∨ q = 1 ∨ q = 2 ∨ q = 3 := by omega
  · obtain ⟨t0, t1, t2⟩ := hr.cornerTri i hi 0 (by norm_num)
    unfold crossTri
    norm_num at t0 t1 t2
    rw [Nat.add_zero, t0, t1, t2, M0, M1, hr.old _ (hm.corners i hi 2 (by norm_num))]
    exact cross_corner (spt m (corner m i 0)) (spt m (corner m i 1)) (spt m (corner m i 2))
  · obtain ⟨t0, t1, t2⟩ := hr.cornerTri i hi 1 (by norm_num)
    unfold crossTri
    norm_num at t0 t1 t2
    rw [t0, t1, t2, M1, M2, hr.old _ (hm.corners i hi 0 (by norm_num)), cross_cyc (spt m (corner m i 0))]
    exact cross_corner (spt m (corner m i 1)) (spt m (corner m i 2)) (spt m (corner m i 0))
  · obtain ⟨t0, t1, t2⟩ := hr.cornerTri i hi 2 (by norm_num)
    unfold crossTri
    norm_num at t0 t1 t2
    rw [t0, t1, t2, M2, M0, hr.old _ (hm.corners i hi 1 (by norm_num)), cross_cyc (spt m (corner m i 0)), cross_cyc (spt m (corner m i 1))]
    exact cross_corner (spt m (corner m i 2)) (spt m (corner m i 0)) (spt m (corner m i 1))
  · have t0 := (hr.midTri i hi 0 (by norm_num)).1
    have t1 := (hr.midTri i hi 1 (by norm_num)).1
    have t2 := (hr.midTri i hi 2 (by norm_num)).1
    unfold crossTri
    norm_num at t0 t1 t2
    rw [t0, t1, t2, M0, M1, M2]
    exact cross_mid (spt m (corner m i 0)) (spt m (corner m i 1)) (spt m (corner m i 2))

theorem len3_smul {c : ℝ} (hc : 0 ≤ c) (p : Fin 3 → ℝ) : len3 (c • p) = c * len3 p := by
  unfold len3
  rw [smul_dotProduct, dotProduct_smul, smul_eq_mul, smul_eq_mul, ← mul_assoc, Real.sqrt_mul (mul_self_nonneg c), Real.sqrt_mul_self hc]

theorem len3_sub (p q : Fin 3 → ℝ) : len3 (p - q) = len3 (q - p) := by
  unfold len3
  rw [← neg_sub q p, neg_dotProduct_neg]

theorem red_height (hm : SurfOk m) (hr : RedRefined m r) {i q : Nat} (hi : i < m.triangles) (hq : q < 4) : height r (4 * i + q) = 1 / 2 * height m i := by
  have M0 := mid_pt hm hr hi (k := 0) (by norm_num)
  have M1 := mid_pt hm hr hi (k := 1) (by norm_num)
  have M2 := mid_pt hm hr hi (k := 2) (by norm_num)
  have O0 := hr.old _ (hm.corners i hi 0 (by norm_num))
  have O1 := hr.old _ (hm.corners i hi 1 (by norm_num))
  have O2 := hr.old _ (hm.corners i hi 2 (by norm_num))
  have hx := red_cross hm hr hi hq
  unfold height
  rw [hx, len3_smul (by norm_num)]
  set A := spt m (corner m i 0)
  set B := spt m (corner m i 1)
  set C := spt m (corner m i 2)
  have hm' : ∀ x y z : ℝ, min (1 / 2 * x) (min (1 / 2 * y) (1 / 2 * z)) = 1 / 2 * min x (min y z) := fun x y z => by
    rw [← mul_min_of_nonneg _ _ (by norm_num : (0 : ℝ) ≤ 1 / 2), ← mul_min_of_nonneg _ _ (by norm_num : (0 : ℝ) ≤ 1 / 2)]
  have fin : ∀ (u v w : Fin 3 → ℝ), (∃ x y z : ℝ, len3 u = 1 / 2 * x ∧ len3 v = 1 / 2 * y ∧ len3 w = 1 / 2 * z ∧
      min x (min y z) = min (len3 (B - A)) (min (len3 (C - A)) (len3 (C - B)))) →
      1 / 4 * len3 (crossTri m i) / min (len3 u) (min (len3 v) (len3 w)) = 1 / 2 * (len3 (crossTri m i) / min (len3 (B - A)) (min (len3 (C - A)) (len3 (C - B)))) := by
    rintro u v w ⟨x, y, z, e1, e2, e3, e4⟩
    rw [e1, e2, e3, hm', e4]
    rw [show (1 / 4 : ℝ) * len3 (crossTri m i) = 1 / 2 * (1 / 2 * len3 (crossTri m i)) by ring, mul_div_mul_left _ _ (by norm_num : (1 / 2 : ℝ) ≠ 0), mul_div_assoc]
  have hl : ∀ (u p q : Fin 3 → ℝ), u = (1 / 2 : ℝ) • (p - q) → len3 u = 1 / 2 * len3 (p - q) := fun u p q h => by rw [h, len3_smul (by norm_num)]
  replace M0 : spt r (m.vertices + sedge m i 0) = (1 / 2 : ℝ) • (spt m (corner m i 1) + spt m (corner m i 2)) := M0
  replace M1 : spt r (m.vertices + sedge m i 1) = (1 / 2 : ℝ) • (spt m (corner m i 2) + spt m (corner m i 0)) := M1
  replace M2 : spt r (m.vertices + sedge m i 2) = (1 / 2 : ℝ) • (spt m (corner m i 0) + spt m (corner m i 1)) := M2
  obtain rfl | rfl | rfl | rfl : q = 0 ∨ q = 1 ∨ q = 2 ∨ q = 3 := by omega
  · obtain ⟨t0, t1, t2⟩ := hr.cornerTri i hi 0 (by norm_num)
    norm_num at t0 t1 t2
    refine fin _ _ _ ⟨len3 (B - A), len3 (C - A), len3 (C - B), ?_, ?_, ?_, rfl⟩
    · refine hl _ _ _ ?_
      rw [Nat.add_zero, t0, t1, M0, M1]; ext k; simp; ring
    · refine hl _ _ _ ?_
      rw [Nat.add_zero, t0, t2, M1, O2]; ext k; simp; ring
    · refine hl _ _ _ ?_
      rw [Nat.add_zero, t1, t2, M0, O2]; ext k; simp; ring
  · obtain ⟨t0, t1, t2⟩ := hr.cornerTri i hi 1 (by norm_num)
    norm_num at t0 t1 t2
    refine fin _ _ _ ⟨len3 (C - B), len3 (A - B), len3 (A - C), ?_, ?_, ?_, ?_⟩
    · refine hl _ _ _ ?_
      rw [t0, t1, M1, M2]; ext k; simp; ring
    · refine hl _ _ _ ?_
      rw [t0, t2, M2, O0]; ext k; simp; ring
    · refine hl _ _ _ ?_
      rw [t1, t2, M1, O0]; ext k; simp; ring
    · rw [len3_sub A B, len3_sub A C, min_comm, min_assoc]
  · obtain ⟨t0, t1, t2⟩ := hr.cornerTri i hi 2 (by norm_num)
    norm_num at t0 t1 t2
    refine fin _ _ _ ⟨len3 (A - C), len3 (B - C), len3 (B - A), ?_, ?_, ?_, ?_⟩
    · refine hl _ _ _ ?_
      rw [t0, t1, M0, M2]; ext k; simp; ring
    · refine hl _ _ _ ?_
      rw [t0, t2, M0, O1]; ext k; simp; ring
    · refine hl _ _ _ ?_
      rw [t1, t2, M2, O1]; ext k; simp; ring
    · rw [len3_sub A C, len3_sub B C, ← min_assoc, min_comm]
  · have t0 := (hr.midTri i hi 0 (by norm_num)).1
    have t1 := (hr.midTri i hi 1 (by norm_num)).1
    have t2 := (hr.midTri i hi 2 (by norm_num)).1
    norm_num at t0 t1 t2
    refine fin _ _ _ ⟨len3 (C - A), len3 (C - B), len3 (A - B), ?_, ?_, ?_, ?_⟩
    · refine hl _ _ _ ?_
      rw [t0, t1, M0, M2]; ext k; simp; ring
    · refine hl _ _ _ ?_
      rw [t0, t2, M1, M2]; ext k; simp; ring
    · refine hl _ _ _ ?_
      rw [t1, t2, M0, M1]; ext k; simp; ring
    · rw [len3_sub A B, ← min_assoc, min_comm]

end H2.Surf
