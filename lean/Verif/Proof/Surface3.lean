import Verif.Proof.Surface2
import Verif.Proof.TriP1f

set_option linter.unusedSectionVars false

/-! Degenerate triangles, translation, scaling. -/

namespace H2.Surf
open Spec Krylov

theorem prepareTri_nan {m : Surf} (hs : SurfSized m) (hc : ∀ i < m.triangles, ∀ k < 3, corner m i k < m.vertices) {i : Nat} (hi : i < m.triangles)
    (hn : crossTri m i = 0) {st : PrepSt} (hg1 : m.triangles ≤ st.g.n) : prepareTri m i st = .error .nan := by
  have := hs.t
  have := hs.x
  have c0 := hc i hi 0 (by norm_num)
  have c1 := hc i hi 1 (by norm_num)
  have c2 := hc i hi 2 (by norm_num)
  have e0 : m.t.v (3 * i) = corner m i 0 := rfl
  have e1 : m.t.v (3 * i + 1) = corner m i 1 := rfl
  have e2 : m.t.v (3 * i + 2) = corner m i 2 := rfl
  unfold prepareTri
  rw [get3_ok (by omega), ok_bind]
  simp only [e0, e1, e2]
  rw [get3_ok (by omega), ok_bind]
  simp only
  rw [get3_ok (by omega), ok_bind]
  simp only
  rw [get3_ok (by omega), ok_bind]
  simp only
  set P := spt m (corner m i 0) with hP
  set Q := spt m (corner m i 1) with hQ
  set S := spt m (corner m i 2) with hS
  have q0 : ∀ c, m.x.v (3 * c) = spt m c 0 := fun c => rfl
  have q1 : ∀ c, m.x.v (3 * c + 1) = spt m c 1 := fun c => rfl
  have q2 : ∀ c, m.x.v (3 * c + 2) = spt m c 2 := fun c => rfl
  simp only [q0, q1, q2, ← hP, ← hQ, ← hS]
  have hX : crossTri m i = ![(Q 1 - P 1) * (S 2 - P 2) - (Q 2 - P 2) * (S 1 - P 1), (Q 2 - P 2) * (S 0 - P 0) - (Q 0 - P 0) * (S 2 - P 2),
      (Q 0 - P 0) * (S 1 - P 1) - (Q 1 - P 1) * (S 0 - P 0)] := by
    show crossProduct (Q - P) (S - P) = _
    rw [cross_apply]; rfl
  have x0 : (Q 1 - P 1) * (S 2 - P 2) - (Q 2 - P 2) * (S 1 - P 1) = crossTri m i 0 := by rw [hX]; rfl
  have x1 : (Q 2 - P 2) * (S 0 - P 0) - (Q 0 - P 0) * (S 2 - P 2) = crossTri m i 1 := by rw [hX]; rfl
  have x2 : (Q 0 - P 0) * (S 1 - P 1) - (Q 1 - P 1) * (S 0 - P 0) = crossTri m i 2 := by rw [hX]; rfl
  rw [x0, x1, x2, hn]
  simp only [Pi.zero_apply, ne_eq, OfNat.ofNat_ne_zero, not_false_eq_true, zero_pow, add_zero, Real.sqrt_zero]
  rw [Arr.set_ok (by omega), ok_bind]
  have : cdiv (0 : ℝ) 0 = .error .nan := if_pos rfl
  rw [this]
  rfl

theorem prepare_nan {m : Surf} (hs : SurfSized m) (hc : ∀ i < m.triangles, ∀ k < 3, corner m i k < m.vertices) (hn : ¬ NonDegenerateSurf m) :
    prepare m = .error .nan := by
  classical
  unfold NonDegenerateSurf at hn
  push Not at hn
  have hd := Nat.find_spec hn
  set d := Nat.find hn
  have hlt : ∀ j < d, crossTri m j ≠ 0 := fun j hj h => Nat.find_min hn hj ⟨by omega, h⟩
  have hn1 := hs.n
  have hg1 := hs.g
  obtain ⟨st, e, h1, h2⟩ := forUp_tot (body := prepareTri m) (s := (⟨m.n, m.g, 10 ^ 30, 0⟩ : PrepSt)) (hi := d) (fun _ st => st.n.n = m.n.n ∧ st.g.n = m.g.n) (Nat.zero_le _) ⟨rfl, rfl⟩
    fun j st _ hj ⟨h1, h2⟩ => Tot.mono (prepareTri_eq hs hc (by omega) (hlt j hj) (by omega) (by omega)) fun st' h => ⟨h.1.trans h1, h.2.1.trans h2⟩
  unfold prepare
  rw [P1.loop_fail hd.1 e (prepareTri_nan hs hc hd.1 hd.2 (by omega))]
  rfl

/-- maps of the vertices preserve everything but coordinates -/
theorem movedOk {m : Surf} (hm : SurfOk m) {x : Arr ℝ} (hx : 3 * m.vertices ≤ x.n) : SurfOk { m with x := x } :=
  ⟨⟨hx, hm.e, hm.t, hm.s, hm.n, hm.g⟩, hm.ends, hm.corners, hm.edges, hm.match'⟩

theorem ok_of_same {m r : Surf} (hm : SurfOk m) (h : SameTopology m r) (hr : SurfSized r) : SurfOk r := by
  obtain ⟨h1, h2, h3, h4, h5, h6⟩ := h
  have c : corner r = corner m := by unfold corner; rw [h5]
  have s : sedge r = sedge m := by unfold sedge; rw [h6]
  have e : sendp r = sendp m := by unfold sendp; rw [h4]
  refine ⟨hr, ?_, ?_, ?_, ?_⟩
  · rw [h1, h2, e]; exact hm.ends
  · rw [h1, h3, c]; exact hm.corners
  · rw [h2, h3, s]; exact hm.edges
  · unfold Forward Backward
    rw [h3, c, s, e]; exact hm.match'

theorem translate_tot {m : Surf} (hm : SurfOk m) (hn : NonDegenerateSurf m) (t0 t1 t2 : ℝ) : Tot (translate m t0 t1 t2) fun r =>
    SameTopology m r ∧ SurfOk r ∧ Prepared r ∧ (∀ v < m.vertices, spt r v = spt m v + ![t0, t1, t2]) ∧
    (∀ i < m.triangles, crossTri r i = crossTri m i) ∧ ∀ i < m.triangles, height r i = height m i := by
  unfold translate
  have hx := hm.x
  refine Tot.bind (P := fun (x : Arr ℝ) => x.n = m.x.n ∧ ∀ v < m.vertices, x.v (3 * v) = m.x.v (3 * v) + t0 ∧ x.v (3 * v + 1) = m.x.v (3 * v + 1) + t1 ∧
    x.v (3 * v + 2) = m.x.v (3 * v + 2) + t2) ?_ ?_
  · refine Tot.mono (forUp_tot (fun i (x : Arr ℝ) => x.n = m.x.n ∧ (∀ v < i, x.v (3 * v) = m.x.v (3 * v) + t0 ∧ x.v (3 * v + 1) = m.x.v (3 * v + 1) + t1 ∧
      x.v (3 * v + 2) = m.x.v (3 * v + 2) + t2) ∧ ∀ k, 3 * i ≤ k → x.v k = m.x.v k) (Nat.zero_le _) ⟨rfl, fun v hv => absurd hv (by omega), fun k _ => rfl⟩ ?_)
      fun x h => ⟨h.1, h.2.1⟩
    rintro i x _ hi ⟨h1, h2, h3⟩
    beta_reduce
    rw [get3_ok (by omega), ok_bind]
    simp only
    refine ⟨_, set3_ok (by omega), h1, fun v hv => ?_, fun k hk => ?_⟩
    · simp only
      rcases Nat.lt_or_eq_of_le (Nat.le_of_lt_succ hv) with hh | hh
      · rw [if_neg (by omega), if_neg (by omega), if_neg (by omega), if_neg (by omega), if_neg (by omega), if_neg (by omega),
            if_neg (by omega), if_neg (by omega), if_neg (by omega)]
        exact h2 v hh
      · subst hh
        rw [if_neg (by omega), if_neg (by omega), if_pos rfl, if_neg (by omega), if_pos rfl, if_pos rfl, h3 _ (by omega), h3 _ (by omega), h3 _ (by omega)]
        exact ⟨rfl, rfl, rfl⟩
    · simp only
      rw [if_neg (by omega), if_neg (by omega), if_neg (by omega)]
      exact h3 k (by omega)
  · rintro x - ⟨h1, h2⟩
    have hok := movedOk hm (x := x) (by omega)
    have hp : ∀ v < m.vertices, spt { m with x := x } v = spt m v + ![t0, t1, t2] := by
      intro v hv
      obtain ⟨a, b, c⟩ := h2 v hv
      ext k
      fin_cases k
      · exact a
      · exact b
      · exact c
    have hcr : ∀ i < m.triangles, crossTri { m with x := x } i = crossTri m i := by
      intro i hi
      show crossProduct (spt { m with x := x } (corner m i 1) - spt { m with x := x } (corner m i 0))
        (spt { m with x := x } (corner m i 2) - spt { m with x := x } (corner m i 0)) = _
      rw [hp _ (hm.corners i hi 0 (by norm_num)), hp _ (hm.corners i hi 1 (by norm_num)), hp _ (hm.corners i hi 2 (by norm_num)), add_sub_add_right_eq_sub,
        add_sub_add_right_eq_sub]
      rfl
    have hht : ∀ i < m.triangles, height { m with x := x } i = height m i := by
      intro i hi
      unfold height
      rw [hcr i hi]
      show _ / min (len3 (spt { m with x := x } (corner m i 1) - spt { m with x := x } (corner m i 0)))
        (min (len3 (spt { m with x := x } (corner m i 2) - spt { m with x := x } (corner m i 0)))
        (len3 (spt { m with x := x } (corner m i 2) - spt { m with x := x } (corner m i 1)))) = _
      rw [hp _ (hm.corners i hi 0 (by norm_num)), hp _ (hm.corners i hi 1 (by norm_num)), hp _ (hm.corners i hi 2 (by norm_num)), add_sub_add_right_eq_sub,
        add_sub_add_right_eq_sub, add_sub_add_right_eq_sub]
    refine Tot.mono (prepare_tot hok.toSurfSized hok.corners fun i hi => by rw [hcr i hi]; exact hn i hi) ?_
    rintro r ⟨s1, s2, s3, s4⟩
    have es : spt r = spt { m with x := x } := by unfold spt; rw [s2]
    have ec : corner r = corner m := by unfold corner; rw [s1.2.2.2.2.1]
    have ex : crossTri r = crossTri { m with x := x } := by
      unfold crossTri; rw [es, ec]; rfl
    refine ⟨s1, ok_of_same hok s1 s3, s4, fun v hv => by rw [es]; exact hp v hv, fun i hi => by rw [ex]; exact hcr i hi, fun i hi => ?_⟩
    have : height r = height { m with x := x } := by
      unfold height; rw [ex, es, ec]; rfl
    rw [this]; exact hht i hi

theorem extent_tot {m : Surf} (hs : SurfSized m) {j : Nat} (hj : j < 3) (hv : 0 < m.vertices) (hb : ∀ v < m.vertices, |m.x.v (3 * v + j)| ≤ 10 ^ 30) :
    Tot (extent m j) fun s => (∀ v < m.vertices, s.1 ≤ m.x.v (3 * v + j) ∧ m.x.v (3 * v + j) ≤ s.2) ∧ (∃ v < m.vertices, m.x.v (3 * v + j) = s.1) ∧
      ∃ v < m.vertices, m.x.v (3 * v + j) = s.2 := by
  unfold extent
  have hx := hs.x
  refine Tot.mono (forUp_tot (fun i (s : ℝ × ℝ) => (∀ v < i, s.1 ≤ m.x.v (3 * v + j) ∧ m.x.v (3 * v + j) ≤ s.2) ∧
    (s.1 = 10 ^ 30 ∨ ∃ v < i, m.x.v (3 * v + j) = s.1) ∧ (s.2 = -10 ^ 30 ∨ ∃ v < i, m.x.v (3 * v + j) = s.2)) (Nat.zero_le _)
    ⟨fun v hv => absurd hv (by omega), .inl rfl, .inl rfl⟩ ?_) ?_
  · rintro i ⟨a, b⟩ _ hi ⟨h1, h2, h3⟩
    simp only at h1 h2 h3 ⊢
    rw [Arr.get_ok (by omega), ok_bind]
    refine Tot.pure ⟨fun v hv => ?_, ?_, ?_⟩
    · simp only
      rcases Nat.lt_or_eq_of_le (Nat.le_of_lt_succ hv) with hh | hh
      · have := h1 v hh
        constructor
        · split_ifs with hc
          · linarith
          · exact this.1
        · split_ifs with hc
          · linarith
          · exact this.2
      · subst hh
        constructor
        · split_ifs with hc
          · exact le_refl _
          · exact not_lt.mp hc
        · split_ifs with hc
          · exact le_refl _
          · exact not_lt.mp hc
    · simp only
      split_ifs with hc
      · exact .inr ⟨i, by omega, rfl⟩
      · rcases h2 with h2 | ⟨v, hv, h2⟩
        · exact .inl h2
        · exact .inr ⟨v, by omega, h2⟩
    · simp only
      split_ifs with hc
      · exact .inr ⟨i, by omega, rfl⟩
      · rcases h3 with h3 | ⟨v, hv, h3⟩
        · exact .inl h3
        · exact .inr ⟨v, by omega, h3⟩
  · rintro s ⟨h1, h2, h3⟩
    refine ⟨h1, ?_, ?_⟩
    · rcases h2 with h2 | h2
      · refine ⟨0, hv, ?_⟩
        have a := (h1 0 hv).1
        have b := (abs_le.mp (hb 0 hv)).2
        rw [h2] at a ⊢
        exact le_antisymm b a
      · exact h2
    · rcases h3 with h3 | h3
      · refine ⟨0, hv, ?_⟩
        have a := (h1 0 hv).2
        have b := (abs_le.mp (hb 0 hv)).1
        rw [h3] at a ⊢
        exact le_antisymm a b
      · exact h3

/-- the map applied by the scaling -/
theorem affine_tot {m : Surf} (hs : SurfSized m) (alpha beta : ℝ) :
    Tot (forUp 0 3 (fun j x => forUp 0 m.vertices (fun i (x : Arr ℝ) => do
      let y ← x.get (3 * i + j)
      x.set (3 * i + j) (alpha + beta * y)) x) m.x) fun x => x.n = m.x.n ∧ ∀ v < m.vertices, ∀ k < 3, x.v (3 * v + k) = alpha + beta * m.x.v (3 * v + k) := by
  have hx := hs.x
  refine Tot.mono (loop2 (body := fun j i (x : Arr ℝ) => do
      let y ← x.get (3 * i + j)
      x.set (3 * i + j) (alpha + beta * y)) (fun j i (x : Arr ℝ) => x.n = m.x.n ∧ ∀ v < m.vertices, ∀ k < 3,
    x.v (3 * v + k) = if k < j ∨ (k = j ∧ v < i) then alpha + beta * m.x.v (3 * v + k) else m.x.v (3 * v + k)) ?_ ?_ ?_) ?_
  · exact ⟨rfl, fun v hv k hk => by rw [if_neg (by omega)]⟩
  · rintro j i x hj hi ⟨h1, h2⟩
    beta_reduce
    rw [Arr.get_ok (by omega), ok_bind]
    refine ⟨_, Arr.set_ok (by omega), h1, fun v hv k hk => ?_⟩
    show (if 3 * v + k = 3 * i + j then alpha + beta * x.v (3 * i + j) else x.v (3 * v + k)) = _
    by_cases hh : 3 * v + k = 3 * i + j
    · rw [if_pos hh, if_pos (by omega), h2 i hi j hj, if_neg (by omega), hh]
    · rw [if_neg hh, h2 v hv k hk]
      by_cases hc : k < j ∨ (k = j ∧ v < i)
      · rw [if_pos hc, if_pos (by omega)]
      · rw [if_neg hc, if_neg (by omega)]
  · rintro j x hj ⟨h1, h2⟩
    refine ⟨h1, fun v hv k hk => ?_⟩
    rw [h2 v hv k hk]
    by_cases hc : k < j ∨ (k = j ∧ v < m.vertices)
    · rw [if_pos hc, if_pos (by omega)]
    · rw [if_neg hc, if_neg (by omega)]
  · rintro x ⟨h1, h2⟩
    exact ⟨h1, fun v hv k hk => by rw [h2 v hv k hk, if_pos (by omega)]⟩

theorem scaled_tot {m : Surf} (hm : SurfOk m) (hn : NonDegenerateSurf m) {alpha beta : ℝ} (hb : beta ≠ 0) {x : Arr ℝ} (h1 : x.n = m.x.n)
    (h2 : ∀ v < m.vertices, ∀ k < 3, x.v (3 * v + k) = alpha + beta * m.x.v (3 * v + k)) :
    Tot (prepare { m with x := x }) fun r => SameTopology m r ∧ SurfOk r ∧ Prepared r ∧ ∀ v < m.vertices, ∀ k, spt r v k = alpha + beta * spt m v k := by
  have hx := hm.x
  have hok := movedOk hm (x := x) (by omega)
  have hp : ∀ v < m.vertices, ∀ k, spt { m with x := x } v k = alpha + beta * spt m v k := by
    intro v hv k
    fin_cases k
    · exact h2 v hv 0 (by norm_num)
    · exact h2 v hv 1 (by norm_num)
    · exact h2 v hv 2 (by norm_num)
  have hd : ∀ v < m.vertices, ∀ w < m.vertices, spt { m with x := x } v - spt { m with x := x } w = beta • (spt m v - spt m w) := by
    intro v hv w hw
    ext k
    rw [Pi.sub_apply, hp v hv k, hp w hw k, Pi.smul_apply, Pi.sub_apply, smul_eq_mul]; ring
  have hcr : ∀ i < m.triangles, crossTri { m with x := x } i = (beta * beta) • crossTri m i := by
    intro i hi
    show crossProduct (spt { m with x := x } (corner m i 1) - spt { m with x := x } (corner m i 0))
      (spt { m with x := x } (corner m i 2) - spt { m with x := x } (corner m i 0)) = _
    rw [hd _ (hm.corners i hi 1 (by norm_num)) _ (hm.corners i hi 0 (by norm_num)), hd _ (hm.corners i hi 2 (by norm_num)) _ (hm.corners i hi 0 (by norm_num)),
      map_smul, map_smul, LinearMap.smul_apply, smul_smul]
    rfl
  refine Tot.mono (prepare_tot hok.toSurfSized hok.corners fun i hi => by
    rw [hcr i hi]; exact smul_ne_zero (mul_ne_zero hb hb) (hn i hi)) ?_
  rintro r ⟨s1, s2, s3, s4⟩
  have es : spt r = spt { m with x := x } := by unfold spt; rw [s2]
  exact ⟨s1, ok_of_same hok s1 s3, s4, fun v hv k => by rw [es]; exact hp v hv k⟩

theorem scale_tot {m : Surf} (hm : SurfOk m) (hn : NonDegenerateSurf m) (hv : 0 < m.vertices) (hb : ∀ v < m.vertices, ∀ k, |spt m v k| ≤ 10 ^ 30)
    (hd : ∃ v < m.vertices, ∃ w < m.vertices, spt m v ≠ spt m w) (a b : Nat → ℝ) (hab : ∀ k < 3, a k < b k) :
    Tot (scale m a b) fun r => SameTopology m r ∧ SurfOk r ∧ Prepared r ∧ ∃ (d : Fin 3) (alpha beta : ℝ), 0 < beta ∧
      (∀ v < m.vertices, ∀ k, spt r v k = alpha + beta * spt m v k) ∧
      (∀ v < m.vertices, a d ≤ spt r v d ∧ spt r v d ≤ b d) ∧ (∃ v < m.vertices, spt r v d = a d) ∧ (∃ v < m.vertices, spt r v d = b d) ∧
      ∀ v < m.vertices, ∀ w < m.vertices, ∀ k : Fin 3, spt r v k - spt r w k ≤ b k - a k := by
  have q : ∀ (v : Nat) (k : Fin 3), m.x.v (3 * v + k) = spt m v k := fun v k => by fin_cases k <;> rfl
  have hq : ∀ (k : Fin 3), ∀ v < m.vertices, |m.x.v (3 * v + k)| ≤ 10 ^ 30 := fun k v hv => by rw [q]; exact hb v hv k
  obtain ⟨b0, e0, x0⟩ := extent_tot hm.toSurfSized (j := 0) (by norm_num) hv (hq 0)
  obtain ⟨b1, e1, x1⟩ := extent_tot hm.toSurfSized (j := 1) (by norm_num) hv (hq 1)
  obtain ⟨b2, e2, x2⟩ := extent_tot hm.toSurfSized (j := 2) (by norm_num) hv (hq 2)
  have p0 : 0 < b 0 - a 0 := by have := hab 0 (by norm_num); linarith
  have p1 : 0 < b 1 - a 1 := by have := hab 1 (by norm_num); linarith
  have p2 : 0 < b 2 - a 2 := by have := hab 2 (by norm_num); linarith
  unfold scale
  rw [e0, ok_bind, e1, ok_bind, e2, ok_bind, cdiv_ok p0.ne', ok_bind, cdiv_ok p1.ne', ok_bind, cdiv_ok p2.ne', ok_bind]
  simp only
  -- ratios
  let B : Fin 3 → ℝ × ℝ := ![b0, b1, b2]
  have hB : ∀ k : Fin 3, (∀ v < m.vertices, (B k).1 ≤ spt m v k ∧ spt m v k ≤ (B k).2) ∧ (∃ v < m.vertices, spt m v k = (B k).1) ∧
      ∃ v < m.vertices, spt m v k = (B k).2 := by
    intro k
    fin_cases k
    · exact x0
    · exact x1
    · exact x2
  have hP : ∀ k : Fin 3, 0 < b k - a k := by
    intro k
    fin_cases k
    · exact p0
    · exact p1
    · exact p2
  have hsel : ∃ d : Fin 3, (if (b0.2 - b0.1) / (b 0 - a 0) > (b1.2 - b1.1) / (b 1 - a 1) then
        (if (b0.2 - b0.1) / (b 0 - a 0) > (b2.2 - b2.1) / (b 2 - a 2) then 0 else 2)
        else (if (b1.2 - b1.1) / (b 1 - a 1) > (b2.2 - b2.1) / (b 2 - a 2) then 1 else 2)) = d.1 ∧
      ∀ k : Fin 3, ((B k).2 - (B k).1) / (b k - a k) ≤ ((B d).2 - (B d).1) / (b d - a d) := by
    have aux : ∀ d : Fin 3, (b0.2 - b0.1) / (b 0 - a 0) ≤ ((B d).2 - (B d).1) / (b d - a d) → (b1.2 - b1.1) / (b 1 - a 1) ≤ ((B d).2 - (B d).1) / (b d - a d) →
        (b2.2 - b2.1) / (b 2 - a 2) ≤ ((B d).2 - (B d).1) / (b d - a d) → ∀ k : Fin 3, ((B k).2 - (B k).1) / (b k - a k) ≤ ((B d).2 - (B d).1) / (b d - a d) := by
      intro d h0 h1 h2 k
      fin_cases k
      · exact h0
      · exact h1
      · exact h2
    split_ifs with c1 c2 c2
    · exact ⟨0, rfl, aux 0 (le_refl _) c1.le c2.le⟩
    · exact ⟨2, rfl, aux 2 (not_lt.mp c2) (c1.le.trans (not_lt.mp c2)) (le_refl _)⟩
    · exact ⟨1, rfl, aux 1 (not_lt.mp c1) (le_refl _) c2.le⟩
    · exact ⟨2, rfl, aux 2 ((not_lt.mp c1).trans (not_lt.mp c2)) (not_lt.mp c2) (le_refl _)⟩
  obtain ⟨d, hde, hmax⟩ := hsel
  rw [hde]
  have hbd : (if d.1 = 0 then b0 else if d.1 = 1 then b1 else b2) = B d := by fin_cases d <;> rfl
  rw [hbd]
  have hpos : 0 < (B d).2 - (B d).1 := by
    obtain ⟨v, hv1, w, hw1, hne⟩ := hd
    have : ∃ k, spt m v k ≠ spt m w k := by
      by_contra hx
      push Not at hx
      exact hne (funext hx)
    obtain ⟨k, hk⟩ := this
    have h1 := (hB k).1 v hv1
    have h2 := (hB k).1 w hw1
    have h3 : 0 < (B k).2 - (B k).1 := by
      rcases lt_or_gt_of_ne hk with h | h <;> linarith
    have h4 := lt_of_lt_of_le (div_pos h3 (hP k)) (hmax k)
    by_contra hx
    exact absurd (div_nonpos_of_nonpos_of_nonneg (not_lt.mp hx) (hP d).le) (not_le.mpr h4)
  rw [cdiv_ok hpos.ne', ok_bind]
  have hbeta : 0 < (b d - a d) / ((B d).2 - (B d).1) := div_pos (hP d) hpos
  generalize hbt : (b d - a d) / ((B d).2 - (B d).1) = beta at hbeta
  have hbm : beta * ((B d).2 - (B d).1) = b d - a d := by rw [← hbt, div_mul_cancel₀ _ hpos.ne']
  refine Tot.bind (affine_tot hm.toSurfSized _ beta) fun x _ ⟨h1, h2⟩ => ?_
  refine Tot.mono (scaled_tot hm hn hbeta.ne' h1 h2) fun r ⟨s1, s2, s3, s4⟩ => ⟨s1, s2, s3, d, _, beta, hbeta, s4, fun v hv => ?_, ?_, ?_, fun v hv w hw k => ?_⟩
  · rw [s4 v hv]
    obtain ⟨l1, l2⟩ := (hB d).1 v hv
    have := mul_le_mul_of_nonneg_left l1 hbeta.le
    have := mul_le_mul_of_nonneg_left l2 hbeta.le
    constructor <;> nlinarith
  · obtain ⟨v, hv, e⟩ := (hB d).2.1
    exact ⟨v, hv, by rw [s4 v hv, e]; ring⟩
  · obtain ⟨v, hv, e⟩ := (hB d).2.2
    exact ⟨v, hv, by rw [s4 v hv, e]; linarith⟩
  · rw [s4 v hv, s4 w hw]
    have l1 := ((hB k).1 v hv).2
    have l2 := ((hB k).1 w hw).1
    have h3 := hmax k
    rw [div_le_div_iff₀ (hP k) (hP d), ← hbm] at h3
    have h4 : (B k).2 - (B k).1 ≤ ((b k - a k) / beta) := by
      rw [le_div_iff₀ hbeta]
      have := hpos
      nlinarith
    rw [le_div_iff₀ hbeta] at h4
    have := mul_le_mul_of_nonneg_left (sub_le_sub l1 l2) hbeta.le
    linarith

end H2.Surf
