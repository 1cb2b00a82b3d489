import Verif.Spec.SurfRefine
import Verif.Proof.Surface5

set_option linter.unusedSectionVars false

/-! Red refinement: what the loops compute. -/

namespace H2.Surf
open Spec

theorem redCopy_tot {m : Surf} (hs : SurfSized m) {x : Arr ℝ} (hx : 3 * m.vertices ≤ x.n) :
    Tot (redCopy m x) fun y => y.n = x.n ∧ ∀ v < m.vertices, ∀ k < 3, y.v (3 * v + k) = m.x.v (3 * v + k) := by
  have := hs.x
  unfold redCopy
  refine Tot.mono (loop2 (body := fun v j (x : Arr ℝ) => do
    let y ← m.x.get (3 * v + j)
    x.set (3 * v + j) y) (fun v j (y : Arr ℝ) => y.n = x.n ∧ ∀ w, ∀ k < 3, (w < v ∨ (w = v ∧ k < j)) → y.v (3 * w + k) = m.x.v (3 * w + k)) ?_ ?_ ?_) ?_
  · exact ⟨rfl, fun w k hk h => absurd h (by omega)⟩
  · rintro v j y hv hj ⟨h1, h2⟩
    beta_reduce
    rw [Arr.get_ok (by omega), ok_bind]
    refine ⟨_, Arr.set_ok (by omega), h1, fun w k hk h => ?_⟩
    show (if 3 * w + k = 3 * v + j then m.x.v (3 * v + j) else y.v (3 * w + k)) = _
    by_cases hh : 3 * w + k = 3 * v + j
    · rw [if_pos hh, hh]
    · rw [if_neg hh]; exact h2 w k hk (by omega)
  · rintro v y hv ⟨h1, h2⟩
    exact ⟨h1, fun w k hk h => h2 w k hk (by omega)⟩
  · rintro y ⟨h1, h2⟩
    exact ⟨h1, fun w hw k hk => h2 w k hk (by omega)⟩

/-- state after the loop over edges -/
def EdgesDone (m : Surf) (x : Nat → ℝ) (ea : Nat → Nat) (n : Nat) : Prop :=
  ∀ f < n, (∀ k < 3, x (3 * (m.vertices + f) + k) = 1 / 2 * (m.x.v (3 * sendp m f 0 + k) + m.x.v (3 * sendp m f 1 + k))) ∧
    ea (4 * f) = sendp m f 0 ∧ ea (4 * f + 1) = m.vertices + f ∧ ea (4 * f + 2) = m.vertices + f ∧ ea (4 * f + 3) = sendp m f 1

theorem redEdge_tot {m : Surf} (hm : SurfOk m) {e : Nat} (he : e < m.edges) {st : Arr ℝ × Arr Nat × Nat} (hv : st.2.2 = m.vertices + e)
    (hx : 3 * (m.vertices + m.edges) ≤ st.1.n) (hea : 4 * m.edges ≤ st.2.1.n) (hd : EdgesDone m st.1.v st.2.1.v e) :
    Tot (redEdge m e st) fun st' => st'.2.2 = m.vertices + (e + 1) ∧ st'.1.n = st.1.n ∧ st'.2.1.n = st.2.1.n ∧ EdgesDone m st'.1.v st'.2.1.v (e + 1) ∧
      ∀ k < 3 * m.vertices, st'.1.v k = st.1.v k := by
  have he' := hm.e
  have hxm := hm.x
  have v0 := hm.ends e he 0 (by norm_num)
  have v1 := hm.ends e he 1 (by norm_num)
  have e0 : m.e.v (2 * e) = sendp m e 0 := rfl
  have e1 : m.e.v (2 * e + 1) = sendp m e 1 := rfl
  unfold redEdge
  simp only
  refine Tot.bind (P := fun (x : Arr ℝ) => x.n = st.1.n ∧ (∀ k < 3, x.v (3 * (m.vertices + e) + k) = 1 / 2 * (m.x.v (3 * sendp m e 0 + k) + m.x.v (3 * sendp m e 1 + k))) ∧
    ∀ k < 3 * (m.vertices + e), x.v k = st.1.v k) ?_ ?_
  · refine forUp_tot (fun j (x : Arr ℝ) => x.n = st.1.n ∧ (∀ k < j, x.v (3 * (m.vertices + e) + k) = 1 / 2 * (m.x.v (3 * sendp m e 0 + k) + m.x.v (3 * sendp m e 1 + k))) ∧
      ∀ k < 3 * (m.vertices + e), x.v k = st.1.v k) (Nat.zero_le _) ⟨rfl, fun k hk => absurd hk (by omega), fun _ _ => rfl⟩ ?_
    rintro j x _ hj ⟨h1, h2, h3⟩
    beta_reduce
    rw [Arr.get_ok (by omega), ok_bind, e0, Arr.get_ok (by omega), ok_bind, Arr.get_ok (by omega), ok_bind, e1, Arr.get_ok (by omega), ok_bind, hv]
    refine ⟨_, Arr.set_ok (by omega), h1, fun k hk => ?_, fun k hk => ?_⟩
    · show (if 3 * (m.vertices + e) + k = 3 * (m.vertices + e) + j then _ else x.v (3 * (m.vertices + e) + k)) = _
      by_cases hh : k = j
      · rw [if_pos (by omega), hh]
      · rw [if_neg (by omega)]; exact h2 k (by omega)
    · show (if k = 3 * (m.vertices + e) + j then _ else x.v k) = _
      rw [if_neg (by omega)]; exact h3 k hk
  · rintro x - ⟨x1, x2, x3⟩
    rw [Arr.get_ok (by omega), ok_bind, Arr.set_ok (by omega), ok_bind, Arr.set_ok (by exact (by omega : 2 * (2 * e) + 1 < st.2.1.n)), ok_bind,
      Arr.set_ok (by exact (by omega : 2 * (2 * e + 1) < st.2.1.n)), ok_bind, Arr.get_ok (by omega), ok_bind,
      Arr.set_ok (by exact (by omega : 2 * (2 * e + 1) + 1 < st.2.1.n)), ok_bind]
    refine Tot.pure ⟨by show st.2.2 + 1 = _; omega, x1, rfl, fun f hf => ?_, fun k hk => x3 k (by omega)⟩
    have hval : ∀ k, (if k = 2 * (2 * e + 1) + 1 then m.e.v (2 * e + 1) else if k = 2 * (2 * e + 1) then st.2.2 else if k = 2 * (2 * e) + 1 then st.2.2 else
        if k = 2 * (2 * e) then m.e.v (2 * e) else st.2.1.v k) =
        if k = 4 * e + 3 then sendp m e 1 else if k = 4 * e + 2 then m.vertices + e else if k = 4 * e + 1 then m.vertices + e else if k = 4 * e then sendp m e 0 else st.2.1.v k := by
      intro k
      rw [e0, e1, hv, show 2 * (2 * e + 1) + 1 = 4 * e + 3 by omega, show 2 * (2 * e + 1) = 4 * e + 2 by omega, show 2 * (2 * e) + 1 = 4 * e + 1 by omega,
        show 2 * (2 * e) = 4 * e by omega]
    beta_reduce
    simp only [hval]
    rcases Nat.lt_or_eq_of_le (Nat.le_of_lt_succ hf) with hh | hh
    · obtain ⟨d1, d2, d3, d4, d5⟩ := hd f hh
      refine ⟨fun k hk => by rw [x3 _ (by omega)]; exact d1 k hk, ?_, ?_, ?_, ?_⟩
      · rw [if_neg (by omega), if_neg (by omega), if_neg (by omega), if_neg (by omega)]; exact d2
      · rw [if_neg (by omega), if_neg (by omega), if_neg (by omega), if_neg (by omega)]; exact d3
      · rw [if_neg (by omega), if_neg (by omega), if_neg (by omega), if_neg (by omega)]; exact d4
      · rw [if_neg (by omega), if_neg (by omega), if_neg (by omega), if_neg (by omega)]; exact d5
    · subst hh
      refine ⟨x2, ?_, ?_, ?_, ?_⟩
      · rw [if_neg (by omega), if_neg (by omega), if_neg (by omega), if_pos rfl]
      · rw [if_neg (by omega), if_neg (by omega), if_pos rfl]
      · rw [if_neg (by omega), if_pos rfl]
      · rw [if_pos rfl]

/-- the corner triangle `4i+j` has been created -/
def CornerDone (m : Surf) (ea sa ta : Nat → Nat) (i j : Nat) : Prop :=
  (ea (2 * (2 * m.edges + (3 * i + j))) = m.vertices + sedge m i ((j + 1) % 3) ∧ ea (2 * (2 * m.edges + (3 * i + j)) + 1) = m.vertices + sedge m i j) ∧
  (ta (3 * (4 * i + j)) = m.vertices + sedge m i ((j + 1) % 3) ∧ ta (3 * (4 * i + j) + 1) = m.vertices + sedge m i j ∧
    ta (3 * (4 * i + j) + 2) = corner m i ((j + 2) % 3)) ∧
  sa (3 * (4 * i + j)) = half m (sedge m i j) (corner m i ((j + 2) % 3)) ∧ sa (3 * (4 * i + j) + 1) = half m (sedge m i ((j + 1) % 3)) (corner m i ((j + 2) % 3)) ∧
  sa (3 * (4 * i + j) + 2) = 2 * m.edges + (3 * i + j)

theorem CornerDone.mono {m : Surf} {ea sa ta ea' sa' ta' : Nat → Nat} {i j e s : Nat} (h : CornerDone m ea sa ta i j) (he : 2 * m.edges + (3 * i + j) < e) (hs : 4 * i + j < s)
    (h1 : ∀ k < 2 * e, ea' k = ea k) (h2 : ∀ k < 3 * s, sa' k = sa k) (h3 : ∀ k < 3 * s, ta' k = ta k) : CornerDone m ea' sa' ta' i j := by
  unfold CornerDone
  rw [h1 _ (by omega), h1 _ (by omega), h3 _ (by omega), h3 _ (by omega), h3 _ (by omega), h2 _ (by omega), h2 _ (by omega), h2 _ (by omega)]
  exact h

/-- the ends of two consecutive edges -/
theorem two_edges {m : Surf} (hm : SurfOk m) (hp : Proper m) {i j : Nat} (hi : i < m.triangles) (hj : j < 3) :
    corner m i j ≠ corner m i ((j + 1) % 3) ∧ corner m i ((j + 1) % 3) ≠ corner m i ((j + 2) % 3) ∧ corner m i ((j + 2) % 3) ≠ corner m i j ∧
    ((sendp m (sedge m i j) 0 = corner m i ((j + 1) % 3) ∧ sendp m (sedge m i j) 1 = corner m i ((j + 2) % 3)) ∨
      (sendp m (sedge m i j) 0 = corner m i ((j + 2) % 3) ∧ sendp m (sedge m i j) 1 = corner m i ((j + 1) % 3))) ∧
    ((sendp m (sedge m i ((j + 1) % 3)) 0 = corner m i ((j + 2) % 3) ∧ sendp m (sedge m i ((j + 1) % 3)) 1 = corner m i j) ∨
      (sendp m (sedge m i ((j + 1) % 3)) 0 = corner m i j ∧ sendp m (sedge m i ((j + 1) % 3)) 1 = corner m i ((j + 2) % 3))) := by
  obtain ⟨p1, p2, p3⟩ := hp i hi
  have k0 := hm.match' i hi 0 (by norm_num)
  have k1 := hm.match' i hi 1 (by norm_num)
  have k2 := hm.match' i hi 2 (by norm_num)
  obtain rfl | rfl | rfl : j = 0 ∨ j = 1 ∨ j = 2 := by omega
  · exact ⟨p1, p2, p3, k0, k1⟩
  · exact ⟨p2, p3, p1, k1, k2⟩
  · exact ⟨p3, p1, p2, k2, k0⟩

/-- state while triangle `t` is refined and `j` of its corners are finished -/
structure RedInv (m : Surf) (ea0 : Nat → Nat) (ne n3 : Nat) (t j : Nat) (st : RedSt) : Prop where
  e : st.e = 2 * m.edges + (3 * t + j)
  s : st.s = 4 * t + j
  nea : st.ea.n = ne
  nsa : st.sa.n = n3
  nta : st.ta.n = n3
  low : ∀ k < 4 * m.edges, st.ea.v k = ea0 k
  corners : ∀ i, ∀ k < 3, (i < t ∨ (i = t ∧ k < j)) → CornerDone m st.ea.v st.sa.v st.ta.v i k
  mids : ∀ i < t, ∀ k < 3, st.ta.v (3 * (4 * i + 3) + k) = m.vertices + sedge m i ((k + 2) % 3) ∧ st.sa.v (3 * (4 * i + 3) + k) = 2 * m.edges + (3 * i + k)

theorem redStore_tot {st : RedSt} {s0 s1 k0 k1 : Nat} (h1 : 3 * st.s + 2 < st.sa.n) (h2 : 3 * st.s + 2 < st.ta.n) (h3 : 2 * s1 + k1 < st.ea.n) (h4 : 2 * (st.e - 1) + 1 < st.ea.n)
    (h5 : 2 * s0 + k0 < st.ea.n) : Tot (redStore st s0 s1 k0 k1) fun st' => st'.ea = st.ea ∧ st'.e = st.e ∧ st'.s = st.s ∧ st'.sa.n = st.sa.n ∧ st'.ta.n = st.ta.n ∧
      (st'.sa.v (3 * st.s) = s0 ∧ st'.sa.v (3 * st.s + 1) = s1 ∧ st'.sa.v (3 * st.s + 2) = st.e - 1) ∧
      (st'.ta.v (3 * st.s) = st.ea.v (2 * s1 + k1) ∧ st'.ta.v (3 * st.s + 1) = st.ea.v (2 * (st.e - 1) + 1) ∧ st'.ta.v (3 * st.s + 2) = st.ea.v (2 * s0 + k0)) ∧
      (∀ k < 3 * st.s, st'.sa.v k = st.sa.v k) ∧ ∀ k < 3 * st.s, st'.ta.v k = st.ta.v k := by
  unfold redStore
  rw [set3_ok h1, ok_bind, Arr.get_ok h3, ok_bind, Arr.get_ok h4, ok_bind, Arr.get_ok h5, ok_bind, set3_ok h2, ok_bind]
  refine Tot.pure ⟨rfl, rfl, rfl, rfl, rfl, ⟨?_, ?_, ?_⟩, ⟨?_, ?_, ?_⟩, fun k hk => ?_, fun k hk => ?_⟩
  all_goals show (if _ then _ else _) = _
  · rw [if_neg (by omega), if_neg (by omega), if_pos rfl]
  · rw [if_neg (by omega), if_pos rfl]
  · rw [if_pos rfl]
  · rw [if_neg (by omega), if_neg (by omega), if_pos rfl]
  · rw [if_neg (by omega), if_pos rfl]
  · rw [if_pos rfl]
  · rw [if_neg (by omega), if_neg (by omega), if_neg (by omega)]
  · rw [if_neg (by omega), if_neg (by omega), if_neg (by omega)]

theorem redCorner_tot {m : Surf} (hm : SurfOk m) (hp : Proper m) {x0 : Nat → ℝ} {ea0 : Nat → Nat} (h0 : EdgesDone m x0 ea0 m.edges) {ne n3 : Nat}
    (hne : 2 * (2 * m.edges + 3 * m.triangles) ≤ ne) (hn3 : 3 * (4 * m.triangles) ≤ n3) {t j : Nat} (ht : t < m.triangles) (hj : j < 3) {st : RedSt}
    (hI : RedInv m ea0 ne n3 t j st) : Tot (redCorner m t j st) (RedInv m ea0 ne n3 t (j + 1)) := by
  obtain ⟨i1, i2, i3, i4, i5, i6, i7, i8⟩ := hI
  have hsn := hm.s
  have hen := hm.e
  have hj1 : (j + 1) % 3 < 3 := Nat.mod_lt _ (by norm_num)
  have f0lt := hm.edges t ht j hj
  have f1lt := hm.edges t ht _ hj1
  obtain ⟨c1, c2, c3, c4, c5⟩ := two_edges hm hp ht hj
  unfold redCorner
  rw [Arr.get_ok (by omega), ok_bind, Arr.get_ok (by omega), ok_bind]
  have z0 : m.s.v (3 * t + j) = sedge m t j := rfl
  have z1 : m.s.v (3 * t + (j + 1) % 3) = sedge m t ((j + 1) % 3) := rfl
  rw [z0, z1]
  have cd : sedge m t j = sedge m t j := rfl
  set f0 := sedge m t j with hf0
  set f1 := sedge m t ((j + 1) % 3) with hf1
  obtain ⟨_, a0, a1, a2, a3⟩ := h0 f0 f0lt
  obtain ⟨_, b0, b1, b2, b3⟩ := h0 f1 f1lt
  rw [Arr.get_ok (by omega), ok_bind, Arr.set_ok (by omega), ok_bind, Arr.get_ok (by exact (by omega : 2 * (2 * f0 + 1) < st.ea.n)), ok_bind]
  rw [Arr.set_ok (by exact (by omega : 2 * st.e + 1 < st.ea.n)), ok_bind]
  simp only
  rw [if_neg (by omega : ¬ 2 * (2 * f0 + 1) = 2 * st.e)]
  have r1 : st.ea.v (2 * (2 * f1 + 1)) = m.vertices + f1 := by rw [i6 _ (by omega), show 2 * (2 * f1 + 1) = 4 * f1 + 2 by omega, b2]
  have r0 : st.ea.v (2 * (2 * f0 + 1)) = m.vertices + f0 := by rw [i6 _ (by omega), show 2 * (2 * f0 + 1) = 4 * f0 + 2 by omega, a2]
  rw [r1, r0]
  rw [Arr.get_ok (by omega), ok_bind, Arr.get_ok (by omega), ok_bind, Arr.get_ok (by omega), ok_bind, Arr.get_ok (by omega), ok_bind]
  have g1 : m.e.v (2 * f1 + 1) = sendp m f1 1 := rfl
  have g2 : m.e.v (2 * f0 + 1) = sendp m f0 1 := rfl
  have g3 : m.e.v (2 * f1) = sendp m f1 0 := rfl
  have g4 : m.e.v (2 * f0) = sendp m f0 0 := rfl
  rw [g1, g2, g3, g4]
  have hE : ∀ (st1 : RedSt) (s0 s1 k0 k1 : Nat), st1.ea.n = ne → st1.sa = st.sa → st1.ta = st.ta → st1.s = st.s → st1.e = st.e + 1 →
      (∀ k < 4 * m.edges, st1.ea.v k = ea0 k) → (∀ k < 2 * st.e, st1.ea.v k = st.ea.v k) → st1.ea.v (2 * st.e) = m.vertices + f1 → st1.ea.v (2 * st.e + 1) = m.vertices + f0 →
      2 * s0 + k0 < 4 * m.edges → 2 * s1 + k1 < 4 * m.edges → s0 = half m f0 (corner m t ((j + 2) % 3)) → s1 = half m f1 (corner m t ((j + 2) % 3)) →
      ea0 (2 * s1 + k1) = m.vertices + f1 → ea0 (2 * s0 + k0) = corner m t ((j + 2) % 3) →
      Tot (redStore st1 s0 s1 k0 k1 >>= fun st => pure { st with s := st.s + 1 }) (RedInv m ea0 ne n3 t (j + 1)) := by
    intro st1 s0 s1 k0 k1 q1 q2 q3 q4 q5 q6 q7 q8 q9 q10 q11 q12 q13 q14 q15
    refine Tot.bind (redStore_tot (st := st1) (by rw [q2, q4]; omega) (by rw [q3, q4]; omega) (by omega) (by omega) (by omega)) ?_
    rintro st2 - ⟨w1, w2, w3, w4, w5, ⟨w6, w7, w8⟩, ⟨w9, w10, w11⟩, w12, w13⟩
    rw [q4] at w6 w7 w8 w9 w10 w11 w12 w13
    rw [q2] at w12
    rw [q3] at w13
    rw [q5, Nat.add_sub_cancel] at w8 w10
    have hother : ∀ i k, CornerDone m st.ea.v st.sa.v st.ta.v i k → 2 * m.edges + (3 * i + k) < st.e → 4 * i + k < st.s → CornerDone m st2.ea.v st2.sa.v st2.ta.v i k :=
      fun i k h he hs => h.mono he hs (fun k hk => by rw [w1]; exact q7 k hk) w12 w13
    refine Tot.pure ⟨by show st2.e = _; omega, by show st2.s + 1 = _; omega, by rw [show _ = st2.ea from rfl, w1, q1], by show st2.sa.n = _; rw [w4, q2, i4],
      by show st2.ta.n = _; rw [w5, q3, i5], fun k hk => by rw [show _ = st2.ea from rfl, w1]; exact q6 k hk, ?_, ?_⟩
    · intro i k hk hik
      show CornerDone m st2.ea.v st2.sa.v st2.ta.v i k
      by_cases hnew : i = t ∧ k = j
      · obtain ⟨rfl, rfl⟩ := hnew
        unfold CornerDone
        rw [← i1, ← i2, ← hf0, ← hf1, w1]
        refine ⟨⟨q8, q9⟩, ⟨?_, ?_, ?_⟩, ?_, ?_, ?_⟩
        · rw [w9, q6 _ q11, q14]
        · rw [w10, q9]
        · rw [w11, q6 _ q10, q15]
        · rw [w6, q12]
        · rw [w7, q13]
        · rw [w8]
      · exact hother i k (i7 i k hk (by omega)) (by omega) (by omega)
    · intro i hi k hk
      show st2.ta.v _ = _ ∧ st2.sa.v _ = _
      rw [w12 _ (by omega), w13 _ (by omega)]
      exact i8 i hi k hk
  have lowv : ∀ k < 4 * m.edges, (if k = 2 * st.e + 1 then m.vertices + f0 else if k = 2 * st.e then m.vertices + f1 else st.ea.v k) = ea0 k := by
    intro k hk
    rw [if_neg (by omega), if_neg (by omega)]; exact i6 k hk
  have oldv : ∀ k < 2 * st.e, (if k = 2 * st.e + 1 then m.vertices + f0 else if k = 2 * st.e then m.vertices + f1 else st.ea.v k) = st.ea.v k := by
    intro k hk
    rw [if_neg (by omega), if_neg (by omega)]
  by_cases t1 : sendp m f1 1 = sendp m f0 1
  · rw [if_pos t1]
    have hc0 : sendp m f0 1 = corner m t ((j + 2) % 3) := by
      rcases c4 with ⟨x, y⟩ | ⟨x, y⟩ <;> rcases c5 with ⟨z, w⟩ | ⟨z, w⟩
      · exact y
      · exact y
      · exact absurd (w.symm.trans (t1.trans y)) c1
      · exact (t1.symm.trans w)
    exact hE _ _ _ _ _ i3 rfl rfl rfl rfl lowv oldv (by show (if _ then _ else _) = _; rw [if_neg (by omega), if_pos rfl]) (by show (if _ then _ else _) = _; rw [if_pos rfl])
      (by omega) (by omega) (by unfold half; rw [if_pos hc0]) (by unfold half; rw [if_pos (t1.trans hc0)])
      (by rw [show 2 * (2 * f1 + 1) + 0 = 4 * f1 + 2 by omega]; exact b2) (by rw [show 2 * (2 * f0 + 1) + 1 = 4 * f0 + 3 by omega, a3]; exact hc0)
  rw [if_neg t1]
  by_cases t2 : sendp m f1 0 = sendp m f0 1
  · rw [if_pos t2]
    have hc0 : sendp m f0 1 = corner m t ((j + 2) % 3) := by
      rcases c4 with ⟨x, y⟩ | ⟨x, y⟩ <;> rcases c5 with ⟨z, w⟩ | ⟨z, w⟩
      · exact y
      · exact y
      · exact absurd (z.symm.trans (t2.trans y)).symm c2
      · exact absurd (z.symm.trans (t2.trans y)) c1
    have hc1 : sendp m f1 1 ≠ corner m t ((j + 2) % 3) := fun h => t1 (h.trans hc0.symm)
    exact hE _ _ _ _ _ i3 rfl rfl rfl rfl lowv oldv (by show (if _ then _ else _) = _; rw [if_neg (by omega), if_pos rfl]) (by show (if _ then _ else _) = _; rw [if_pos rfl])
      (by omega) (by omega) (by unfold half; rw [if_pos hc0]) (by unfold half; rw [if_neg hc1])
      (by rw [show 2 * (2 * f1) + 1 = 4 * f1 + 1 by omega]; exact b1) (by rw [show 2 * (2 * f0 + 1) + 1 = 4 * f0 + 3 by omega, a3]; exact hc0)
  rw [if_neg t2]
  have hc0 : sendp m f0 0 = corner m t ((j + 2) % 3) ∧ sendp m f0 1 ≠ corner m t ((j + 2) % 3) := by
    rcases c4 with ⟨x, y⟩ | ⟨x, y⟩
    · exfalso
      rcases c5 with ⟨z, w⟩ | ⟨z, w⟩
      · exact t2 (z.trans y.symm)
      · exact t1 (w.trans y.symm)
    · exact ⟨x, fun h => c2 (y.symm.trans h)⟩
  by_cases t3 : sendp m f1 1 = sendp m f0 0
  · rw [if_pos t3]
    exact hE _ _ _ _ _ i3 rfl rfl rfl rfl lowv oldv (by show (if _ then _ else _) = _; rw [if_neg (by omega), if_pos rfl]) (by show (if _ then _ else _) = _; rw [if_pos rfl])
      (by omega) (by omega) (by unfold half; rw [if_neg hc0.2]) (by unfold half; rw [if_pos (t3.trans hc0.1)])
      (by rw [show 2 * (2 * f1 + 1) + 0 = 4 * f1 + 2 by omega]; exact b2) (by rw [show 2 * (2 * f0) + 0 = 4 * f0 by omega, a0]; exact hc0.1)
  rw [if_neg t3]
  have t4 : sendp m f1 0 = sendp m f0 0 := by
    rcases c5 with ⟨z, w⟩ | ⟨z, w⟩
    · exact z.trans hc0.1.symm
    · exact absurd (w.trans hc0.1.symm) t3
  rw [if_pos t4]
  have hc1 : sendp m f1 1 ≠ corner m t ((j + 2) % 3) := fun h => t3 (h.trans hc0.1.symm)
  exact hE _ _ _ _ _ i3 rfl rfl rfl rfl lowv oldv (by show (if _ then _ else _) = _; rw [if_neg (by omega), if_pos rfl]) (by show (if _ then _ else _) = _; rw [if_pos rfl])
      (by omega) (by omega) (by unfold half; rw [if_neg hc0.2]) (by unfold half; rw [if_neg hc1])
      (by rw [show 2 * (2 * f1) + 1 = 4 * f1 + 1 by omega]; exact b1) (by rw [show 2 * (2 * f0) + 0 = 4 * f0 by omega, a0]; exact hc0.1)

theorem redTri_tot {m : Surf} (hm : SurfOk m) (hp : Proper m) {x0 : Nat → ℝ} {ea0 : Nat → Nat} (h0 : EdgesDone m x0 ea0 m.edges) {ne n3 : Nat}
    (hne : 2 * (2 * m.edges + 3 * m.triangles) ≤ ne) (hn3 : 3 * (4 * m.triangles) ≤ n3) {t : Nat} (ht : t < m.triangles) {st : RedSt}
    (hI : RedInv m ea0 ne n3 t 0 st) : Tot (redTri m t st) (RedInv m ea0 ne n3 (t + 1) 0) := by
  unfold redTri
  refine Tot.bind (forUp_tot (fun j st => RedInv m ea0 ne n3 t j st) (Nat.zero_le _) hI fun j st _ hj h => redCorner_tot hm hp h0 hne hn3 ht hj h) ?_
  rintro st1 - h1
  refine Tot.bind (P := fun (st : RedSt) => RedInv m ea0 ne n3 t 3 st ∧ ∀ k < 3, st.ta.v (3 * (4 * t + 3) + k) = m.vertices + sedge m t ((k + 2) % 3) ∧
    st.sa.v (3 * (4 * t + 3) + k) = 2 * m.edges + (3 * t + k)) ?_ ?_
  · refine forUp_tot (fun i (st : RedSt) => RedInv m ea0 ne n3 t 3 st ∧ ∀ k < i, st.ta.v (3 * (4 * t + 3) + k) = m.vertices + sedge m t ((k + 2) % 3) ∧
      st.sa.v (3 * (4 * t + 3) + k) = 2 * m.edges + (3 * t + k)) (Nat.zero_le _) ⟨h1, fun k hk => absurd hk (by omega)⟩ ?_
    rintro i st _ hi ⟨hI, hk⟩
    obtain ⟨i1, i2, i3, i4, i5, i6, i7, i8⟩ := hI
    beta_reduce
    have hi1 : (i + 1) % 3 < 3 := Nat.mod_lt _ (by norm_num)
    rw [Arr.set_ok (by omega), ok_bind, Arr.get_ok (by omega), ok_bind, Arr.set_ok (by omega), ok_bind]
    have hv : st.ea.v (2 * (st.e - 3 + (i + 1) % 3)) = m.vertices + sedge m t ((i + 2) % 3) := by
      have h := (i7 t ((i + 1) % 3) hi1 (by omega)).1.1
      rw [show ((i + 1) % 3 + 1) % 3 = (i + 2) % 3 by omega] at h
      rw [← h]; congr 1; omega
    refine Tot.pure ⟨⟨i1, i2, i3, i4, i5, i6, fun i' k' hk' hik => ?_, fun i' hi' k' hk' => ?_⟩, fun k hkk => ?_⟩
    · refine (i7 i' k' hk' hik).mono (e := st.e) (s := st.s) (by omega) (by omega) (fun _ _ => rfl) (fun q hq => ?_) (fun q hq => ?_)
      · show (if q = 3 * st.s + i then _ else st.sa.v q) = _
        rw [if_neg (by omega)]
      · show (if q = 3 * st.s + i then _ else st.ta.v q) = _
        rw [if_neg (by omega)]
    · show (if _ = 3 * st.s + i then _ else st.ta.v _) = _ ∧ (if _ = 3 * st.s + i then _ else st.sa.v _) = _
      rw [if_neg (by omega), if_neg (by omega)]
      exact i8 i' hi' k' hk'
    · show (if _ = 3 * st.s + i then _ else st.ta.v _) = _ ∧ (if _ = 3 * st.s + i then _ else st.sa.v _) = _
      by_cases hh : k = i
      · rw [if_pos (by omega), if_pos (by omega), hh]
        exact ⟨hv, by omega⟩
      · rw [if_neg (by omega), if_neg (by omega)]
        exact hk k (by omega)
  · rintro st2 - ⟨⟨i1, i2, i3, i4, i5, i6, i7, i8⟩, hk⟩
    refine Tot.pure ⟨by show st2.e = _; omega, by show st2.s + 1 = _; omega, i3, i4, i5, i6, fun i k hk' hik => i7 i k hk' (by omega), fun i hi k hk' => ?_⟩
    rcases Nat.lt_or_eq_of_le (Nat.le_of_lt_succ hi) with hh | hh
    · exact i8 i hh k hk'
    · subst hh; exact hk k hk'

/-- before `prepare` -/
theorem refineRed_eq {m : Surf} (hm : SurfOk m) (hp : Proper m) (pad : Nat) (jx : Nat → ℝ) (jn : Nat → Nat) :
    ∃ r : Surf, RedRefined m r ∧ SurfSized r ∧ refineRed pad jx jn m = prepare r := by
  unfold refineRed
  simp only [newSurf]
  obtain ⟨x, ex, x1, x2⟩ := redCopy_tot (m := m) hm.toSurfSized (x := ⟨3 * (m.vertices + m.edges) + pad, jx⟩) (show 3 * m.vertices ≤ 3 * (m.vertices + m.edges) + pad by omega)
  rw [ex, ok_bind]
  replace x1 : x.n = 3 * (m.vertices + m.edges) + pad := x1
  obtain ⟨st1, e1, v1, xn, en, hd, xo⟩ : Tot (forUp 0 m.edges (redEdge m) (x, (⟨2 * (2 * m.edges + 3 * m.triangles) + pad, jn⟩ : Arr Nat), m.vertices)) fun st =>
      st.2.2 = m.vertices + m.edges ∧ st.1.n = 3 * (m.vertices + m.edges) + pad ∧ st.2.1.n = 2 * (2 * m.edges + 3 * m.triangles) + pad ∧ EdgesDone m st.1.v st.2.1.v m.edges ∧
      ∀ k < 3 * m.vertices, st.1.v k = x.v k := by
    refine forUp_tot (fun e (st : Arr ℝ × Arr Nat × Nat) => st.2.2 = m.vertices + e ∧ st.1.n = 3 * (m.vertices + m.edges) + pad ∧
      st.2.1.n = 2 * (2 * m.edges + 3 * m.triangles) + pad ∧ EdgesDone m st.1.v st.2.1.v e ∧ ∀ k < 3 * m.vertices, st.1.v k = x.v k) (Nat.zero_le _)
      ⟨rfl, x1, rfl, fun f hf => absurd hf (by omega), fun _ _ => rfl⟩ ?_
    rintro e st _ he ⟨h1, h2, h3, h4, h5⟩
    refine Tot.mono (redEdge_tot hm he h1 (by omega) (by omega) h4) ?_
    rintro st' ⟨w1, w2, w3, w4, w5⟩
    exact ⟨w1, w2.trans h2, w3.trans h3, w4, fun k hk => (w5 k hk).trans (h5 k hk)⟩
  rw [e1, ok_bind]
  obtain ⟨st, e2, hI⟩ : Tot (forUp 0 m.triangles (redTri m) ⟨st1.2.1, ⟨3 * (4 * m.triangles) + pad, jn⟩, ⟨3 * (4 * m.triangles) + pad, jn⟩, 2 * m.edges, 0⟩)
      (RedInv m st1.2.1.v (2 * (2 * m.edges + 3 * m.triangles) + pad) (3 * (4 * m.triangles) + pad) m.triangles 0) := by
    refine forUp_tot (fun t st => RedInv m st1.2.1.v (2 * (2 * m.edges + 3 * m.triangles) + pad) (3 * (4 * m.triangles) + pad) t 0 st) (Nat.zero_le _) ?_ ?_
    · exact ⟨rfl, rfl, en, rfl, rfl, fun _ _ => rfl, fun i k _ h => absurd h (by omega), fun i hi => absurd hi (by omega)⟩
    · exact fun t st _ ht h => redTri_tot hm hp hd (by omega) (by omega) ht h
  rw [e2, ok_bind]
  obtain ⟨i1, i2, i3, i4, i5, i6, i7, i8⟩ := hI
  rw [cassert_true (by simpa using i2), ok_bind, cassert_true (by simpa using i1), ok_bind, cassert_true (by simpa using v1), ok_bind]
  refine ⟨_, ?_, ?_, rfl⟩
  · refine ⟨rfl, rfl, rfl, fun v hv => ?_, fun f hf => ?_, fun f hf => ?_, fun f hf => ?_, fun i hi j hj => ?_, fun i hi j hj => ?_, fun i hi j hj => ?_, fun i hi k hk => ?_⟩
    · show ![st1.1.v (3 * v), st1.1.v (3 * v + 1), st1.1.v (3 * v + 2)] = _
      rw [xo _ (by omega), xo _ (by omega), xo _ (by omega), x2 v hv 1 (by norm_num), x2 v hv 2 (by norm_num), show x.v (3 * v) = m.x.v (3 * v) from x2 v hv 0 (by norm_num)]
      rfl
    · obtain ⟨d1, _⟩ := hd f hf
      ext k
      fin_cases k
      · exact (d1 0 (by norm_num)).trans rfl
      · exact (d1 1 (by norm_num)).trans rfl
      · exact (d1 2 (by norm_num)).trans rfl
    · obtain ⟨_, d1, d2, d3, d4⟩ := hd f hf
      show st.ea.v (2 * (2 * f) + 0) = _ ∧ st.ea.v (2 * (2 * f) + 1) = _
      rw [i6 _ (by omega), i6 _ (by omega), show 2 * (2 * f) + 0 = 4 * f by omega, show 2 * (2 * f) + 1 = 4 * f + 1 by omega]
      exact ⟨d1, d2⟩
    · obtain ⟨_, d1, d2, d3, d4⟩ := hd f hf
      show st.ea.v (2 * (2 * f + 1) + 0) = _ ∧ st.ea.v (2 * (2 * f + 1) + 1) = _
      rw [i6 _ (by omega), i6 _ (by omega), show 2 * (2 * f + 1) + 0 = 4 * f + 2 by omega, show 2 * (2 * f + 1) + 1 = 4 * f + 3 by omega]
      exact ⟨d3, d4⟩
    · exact (i7 i j hj (.inl hi)).1
    · exact (i7 i j hj (.inl hi)).2.1
    · exact (i7 i j hj (.inl hi)).2.2
    · exact i8 i hi k hk
  · refine ⟨?_, ?_, ?_, ?_, ?_, ?_⟩
    · show 3 * (m.vertices + m.edges) ≤ st1.1.n
      omega
    · show 2 * (2 * m.edges + 3 * m.triangles) ≤ st.ea.n
      omega
    · show 3 * (4 * m.triangles) ≤ st.ta.n
      omega
    · show 3 * (4 * m.triangles) ≤ st.sa.n
      omega
    · exact Nat.le_add_right _ _
    · exact Nat.le_add_right _ _

end H2.Surf
