import Verif.Proof.Surface3
import Verif.Proof.TriP1f

set_option linter.unusedSectionVars false

/-! Merging surface meshes. -/

namespace H2.Surf
open Spec

/-- the first `n` rows of `src` have been copied to the rows starting at `off` -/
def Copied {α : Type} (src : Arr α) (f : α → α) (off n : Nat) (a0 a : Arr α) : Prop :=
  a.n = a0.n ∧ ∀ j, a.v j = if 3 * off ≤ j ∧ j < 3 * (off + n) then f (src.v (j - 3 * off)) else a0.v j

theorem Copied.zero {α : Type} (src : Arr α) (f : α → α) (off : Nat) (a0 : Arr α) : Copied src f off 0 a0 a0 :=
  ⟨rfl, fun j => by rw [if_neg (by omega)]⟩

theorem Copied.step {α : Type} {src : Arr α} {f : α → α} {off i : Nat} {a0 a : Arr α} (h : Copied src f off i a0 a) (h2 : 3 * (off + i + 1) ≤ a0.n) :
    ∃ a', set3 a (i + off) (f (src.v (3 * i))) (f (src.v (3 * i + 1))) (f (src.v (3 * i + 2))) = .ok a' ∧ Copied src f off (i + 1) a0 a' := by
  have hn := h.1
  refine ⟨_, set3_ok (by omega), hn, fun j => ?_⟩
  beta_reduce
  show (if j = 3 * (i + off) + 2 then _ else if j = 3 * (i + off) + 1 then _ else if j = 3 * (i + off) then _ else a.v j) = _
  by_cases j2 : j = 3 * (i + off) + 2
  · rw [if_pos j2, if_pos (by omega), show j - 3 * off = 3 * i + 2 by omega]
  rw [if_neg j2]
  by_cases j1 : j = 3 * (i + off) + 1
  · rw [if_pos j1, if_pos (by omega), show j - 3 * off = 3 * i + 1 by omega]
  rw [if_neg j1]
  by_cases j0 : j = 3 * (i + off)
  · rw [if_pos j0, if_pos (by omega), show j - 3 * off = 3 * i by omega]
  rw [if_neg j0, h.2 j]
  by_cases hc : 3 * off ≤ j ∧ j < 3 * (off + i)
  · rw [if_pos hc, if_pos (by omega)]
  · rw [if_neg hc, if_neg (by omega)]

theorem copy3_tot {src a0 : Arr ℝ} {off n : Nat} (h1 : 3 * n ≤ src.n) (h2 : 3 * (off + n) ≤ a0.n) : Tot (forUp 0 n (fun i (x : Arr ℝ) => do
    let (a, b, c) ← get3 src i
    set3 x (i + off) a b c) a0) (Copied src id off n a0) := by
  refine forUp_tot (fun i a => Copied src id off i a0 a) (Nat.zero_le _) (Copied.zero src id off a0) fun i a _ hi h => ?_
  beta_reduce
  rw [get3_ok (by omega), ok_bind]
  exact h.step (by omega)

theorem edges1_tot {m : Surf} (hs : 2 * m.edges + 1 ≤ m.e.n) {e0 : Arr Nat} (he : 2 * m.edges + 1 ≤ e0.n) : Tot (forUp 0 m.edges (fun i (e : Arr Nat) => do
    let a ← m.e.get (2 * i)
    let e ← e.set (2 * i) a
    let b ← m.e.get (2 * i + 1)
    let e ← e.set (2 * i + 1) b
    let c ← m.e.get (2 * i + 2)
    e.set (2 * i + 2) c) e0) fun e => e.n = e0.n ∧ ∀ j < 2 * m.edges, e.v j = m.e.v j := by
  refine forUp_tot (fun i (e : Arr Nat) => e.n = e0.n ∧ ∀ j < 2 * i, e.v j = m.e.v j) (Nat.zero_le _) ⟨rfl, fun j hj => absurd hj (by omega)⟩ ?_
  rintro i e _ hi ⟨hn, h⟩
  beta_reduce
  rw [Arr.get_ok (by omega), ok_bind, Arr.set_ok (by omega), ok_bind, Arr.get_ok (by omega), ok_bind, Arr.set_ok (by exact (by omega : 2 * i + 1 < e.n)), ok_bind,
    Arr.get_ok (by omega), ok_bind, Arr.set_ok (by exact (by omega : 2 * i + 2 < e.n))]
  refine ⟨_, rfl, hn, fun j hj => ?_⟩
  show (if j = 2 * i + 2 then _ else if j = 2 * i + 1 then _ else if j = 2 * i then _ else e.v j) = _
  rw [if_neg (by omega)]
  by_cases j1 : j = 2 * i + 1
  · rw [if_pos j1, j1]
  rw [if_neg j1]
  by_cases j0 : j = 2 * i
  · rw [if_pos j0, j0]
  rw [if_neg j0]
  exact h j (by omega)

theorem edges2_tot {m : Surf} (hs : 2 * m.edges + 1 ≤ m.e.n) {e0 : Arr Nat} {off sh : Nat} (he : 2 * (off + m.edges) + 1 ≤ e0.n) :
    Tot (forUp 0 m.edges (fun i (e : Arr Nat) => do
    let a ← m.e.get (2 * i)
    let e ← e.set (2 * (i + off)) (a + sh)
    let b ← m.e.get (2 * i + 1)
    let e ← e.set (2 * (i + off) + 1) (b + sh)
    let c ← m.e.get (2 * i + 2)
    e.set (2 * (i + off) + 2) (c + sh)) e0) fun e => e.n = e0.n ∧ (∀ j < 2 * off, e.v j = e0.v j) ∧ ∀ j < 2 * m.edges, e.v (2 * off + j) = m.e.v j + sh := by
  refine forUp_tot (fun i (e : Arr Nat) => e.n = e0.n ∧ (∀ j < 2 * off, e.v j = e0.v j) ∧ ∀ j < 2 * i, e.v (2 * off + j) = m.e.v j + sh) (Nat.zero_le _)
    ⟨rfl, fun j hj => rfl, fun j hj => absurd hj (by omega)⟩ ?_
  rintro i e _ hi ⟨hn, h, h'⟩
  beta_reduce
  rw [Arr.get_ok (by omega), ok_bind, Arr.set_ok (by omega), ok_bind, Arr.get_ok (by omega), ok_bind, Arr.set_ok (by exact (by omega : 2 * (i + off) + 1 < e.n)),
    ok_bind, Arr.get_ok (by omega), ok_bind, Arr.set_ok (by exact (by omega : 2 * (i + off) + 2 < e.n))]
  refine ⟨_, rfl, hn, fun j hj => ?_, fun j hj => ?_⟩
  · show (if j = 2 * (i + off) + 2 then _ else if j = 2 * (i + off) + 1 then _ else if j = 2 * (i + off) then _ else e.v j) = _
    rw [if_neg (by omega), if_neg (by omega), if_neg (by omega)]
    exact h j hj
  · show (if 2 * off + j = 2 * (i + off) + 2 then _ else if 2 * off + j = 2 * (i + off) + 1 then _ else if 2 * off + j = 2 * (i + off) then _ else e.v (2 * off + j)) = _
    rw [if_neg (by omega)]
    by_cases j1 : 2 * off + j = 2 * (i + off) + 1
    · rw [if_pos j1, show j = 2 * i + 1 by omega]
    rw [if_neg j1]
    by_cases j0 : 2 * off + j = 2 * (i + off)
    · rw [if_pos j0, show j = 2 * i by omega]
    rw [if_neg j0]
    exact h' j (by omega)

/-- The edge loops read behind the end of the array. -/
theorem merge_ub {m1 m2 : Surf} (h1 : SurfSized m1) (h2 : SurfSized m2) (e1 : m1.e.n = 2 * m1.edges) (e2 : m2.e.n = 2 * m2.edges) (hpos : 0 < m1.edges + m2.edges)
    (jx : Nat → ℝ) (jn : Nat → Nat) : merge 0 jx jn m1 m2 = .error .ub := by
  have := h1.x
  have := h2.x
  unfold merge
  simp only [newSurf]
  obtain ⟨x1, hx1, c1⟩ := copy3_tot (src := m1.x) (a0 := ⟨3 * (m1.vertices + m2.vertices) + 0, jx⟩) (off := 0) (n := m1.vertices) h1.x
    (show 3 * (0 + m1.vertices) ≤ 3 * (m1.vertices + m2.vertices) + 0 by omega)
  obtain ⟨x2, hx2, c2⟩ := copy3_tot (src := m2.x) (a0 := x1) (off := m1.vertices) (n := m2.vertices) h2.x
    (by rw [c1.1]; show 3 * (m1.vertices + m2.vertices) ≤ 3 * (m1.vertices + m2.vertices) + 0; omega)
  erw [hx1, ok_bind]
  rw [hx2, ok_bind]
  rcases Nat.eq_zero_or_pos m1.edges with hz | hz
  · rw [hz]
    rw [show ∀ (b : Nat → Arr Nat → R (Arr Nat)) (s : Arr Nat), forUp 0 0 b s = .ok s from fun _ _ => rfl, ok_bind]
    have key : forUp 0 m2.edges (fun i (e : Arr Nat) => do
        let a ← m2.e.get (2 * i)
        let e ← e.set (2 * (i + 0)) (a + m1.vertices)
        let b ← m2.e.get (2 * i + 1)
        let e ← e.set (2 * (i + 0) + 1) (b + m1.vertices)
        let c ← m2.e.get (2 * i + 2)
        e.set (2 * (i + 0) + 2) (c + m1.vertices)) ⟨2 * (0 + m2.edges) + 0, jn⟩ = .error .ub := by
      obtain ⟨e, he, hn⟩ : Tot (forUp 0 (m2.edges - 1) (fun i (e : Arr Nat) => do
        let a ← m2.e.get (2 * i)
        let e ← e.set (2 * (i + 0)) (a + m1.vertices)
        let b ← m2.e.get (2 * i + 1)
        let e ← e.set (2 * (i + 0) + 1) (b + m1.vertices)
        let c ← m2.e.get (2 * i + 2)
        e.set (2 * (i + 0) + 2) (c + m1.vertices)) ⟨2 * (0 + m2.edges) + 0, jn⟩) fun e => e.n = 2 * m2.edges := by
        refine forUp_tot (fun _ (e : Arr Nat) => e.n = 2 * m2.edges) (Nat.zero_le _) (show 2 * (0 + m2.edges) + 0 = _ by omega) fun i e _ hi hn => ?_
        beta_reduce
        rw [Arr.get_ok (by omega), ok_bind, Arr.set_ok (by omega), ok_bind, Arr.get_ok (by omega), ok_bind, Arr.set_ok (by exact (by omega : 2 * (i + 0) + 1 < e.n)),
          ok_bind, Arr.get_ok (by omega), ok_bind, Arr.set_ok (by exact (by omega : 2 * (i + 0) + 2 < e.n))]
        exact ⟨_, rfl, hn⟩
      refine P1.loop_fail (d := m2.edges - 1) (by omega) he ?_
      rw [Arr.get_ok (by omega), ok_bind, Arr.set_ok (by omega), ok_bind, Arr.get_ok (by omega), ok_bind, Arr.set_ok (by exact (by omega : 2 * (m2.edges - 1 + 0) + 1 < e.n)),
          ok_bind]
      unfold Arr.get
      rw [if_neg (by omega)]
      rfl
    rw [key]
    rfl
  · have key : forUp 0 m1.edges (fun i (e : Arr Nat) => do
        let a ← m1.e.get (2 * i)
        let e ← e.set (2 * i) a
        let b ← m1.e.get (2 * i + 1)
        let e ← e.set (2 * i + 1) b
        let c ← m1.e.get (2 * i + 2)
        e.set (2 * i + 2) c) ⟨2 * (m1.edges + m2.edges) + 0, jn⟩ = .error .ub := by
      obtain ⟨e, he, hn⟩ : Tot (forUp 0 (m1.edges - 1) (fun i (e : Arr Nat) => do
        let a ← m1.e.get (2 * i)
        let e ← e.set (2 * i) a
        let b ← m1.e.get (2 * i + 1)
        let e ← e.set (2 * i + 1) b
        let c ← m1.e.get (2 * i + 2)
        e.set (2 * i + 2) c) ⟨2 * (m1.edges + m2.edges) + 0, jn⟩) fun e => e.n = 2 * (m1.edges + m2.edges) := by
        refine forUp_tot (fun _ (e : Arr Nat) => e.n = 2 * (m1.edges + m2.edges)) (Nat.zero_le _) rfl fun i e _ hi hn => ?_
        beta_reduce
        rw [Arr.get_ok (by omega), ok_bind, Arr.set_ok (by omega), ok_bind, Arr.get_ok (by omega), ok_bind, Arr.set_ok (by exact (by omega : 2 * i + 1 < e.n)),
          ok_bind, Arr.get_ok (by omega), ok_bind, Arr.set_ok (by exact (by omega : 2 * i + 2 < e.n))]
        exact ⟨_, rfl, hn⟩
      refine P1.loop_fail (d := m1.edges - 1) (by omega) he ?_
      rw [Arr.get_ok (by omega), ok_bind, Arr.set_ok (by omega), ok_bind, Arr.get_ok (by omega), ok_bind, Arr.set_ok (by exact (by omega : 2 * (m1.edges - 1) + 1 < e.n)),
          ok_bind]
      unfold Arr.get
      rw [if_neg (by omega)]
      rfl
    rw [key]
    rfl

theorem merge_tot {m1 m2 : Surf} (h1 : SurfSized m1) (h2 : SurfSized m2) (e1 : 2 * m1.edges + 1 ≤ m1.e.n) (e2 : 2 * m2.edges + 1 ≤ m2.e.n) {pad : Nat} (hpad : 1 ≤ pad)
    (jx : Nat → ℝ) (jn : Nat → Nat) : Tot (merge pad jx jn m1 m2) fun r => DisjointUnion m1 m2 r ∧ SurfSized r ∧ r.hmin = 10 ^ 30 ∧ r.hmax = 0 := by
  have hx1 := h1.x
  have hx2 := h2.x
  have ht1 := h1.t
  have ht2 := h2.t
  have hs1 := h1.s
  have hs2 := h2.s
  have hn1 := h1.n
  have hn2 := h2.n
  have hg1 := h1.g
  have hg2 := h2.g
  unfold merge
  simp only [newSurf]
  refine Tot.bind (P := Copied m1.x id 0 m1.vertices ⟨3 * (m1.vertices + m2.vertices) + pad, jx⟩) (copy3_tot (off := 0) hx1
    (show 3 * (0 + m1.vertices) ≤ 3 * (m1.vertices + m2.vertices) + pad by omega)) fun x1 _ c1 => ?_
  have nx1 : x1.n = 3 * (m1.vertices + m2.vertices) + pad := c1.1
  refine Tot.bind (copy3_tot (off := m1.vertices) hx2 (by omega)) fun x2 _ c2 => ?_
  refine Tot.bind (edges1_tot e1 (e0 := ⟨2 * (m1.edges + m2.edges) + pad, jn⟩) (show _ ≤ 2 * (m1.edges + m2.edges) + pad by omega)) ?_
  rintro a1 - ⟨na1, d1⟩
  replace na1 : a1.n = 2 * (m1.edges + m2.edges) + pad := na1
  refine Tot.bind (edges2_tot e2 (off := m1.edges) (by omega)) ?_
  rintro a2 - ⟨na2, d2, d3⟩
  refine Tot.bind (P := fun (st : Arr Nat × Arr Nat × Arr ℝ × Arr ℝ) => Copied m1.t id 0 m1.triangles ⟨3 * (m1.triangles + m2.triangles) + pad, jn⟩ st.1 ∧
      Copied m1.s id 0 m1.triangles ⟨3 * (m1.triangles + m2.triangles) + pad, jn⟩ st.2.1 ∧
      Copied m1.n id 0 m1.triangles ⟨3 * (m1.triangles + m2.triangles) + pad, jx⟩ st.2.2.1 ∧
      st.2.2.2.n = m1.triangles + m2.triangles + pad ∧ ∀ i < m1.triangles, st.2.2.2.v i = m1.g.v i) ?_ ?_
  · refine forUp_tot (fun i (st : Arr Nat × Arr Nat × Arr ℝ × Arr ℝ) => Copied m1.t id 0 i ⟨3 * (m1.triangles + m2.triangles) + pad, jn⟩ st.1 ∧
      Copied m1.s id 0 i ⟨3 * (m1.triangles + m2.triangles) + pad, jn⟩ st.2.1 ∧
      Copied m1.n id 0 i ⟨3 * (m1.triangles + m2.triangles) + pad, jx⟩ st.2.2.1 ∧
      st.2.2.2.n = m1.triangles + m2.triangles + pad ∧ ∀ k < i, st.2.2.2.v k = m1.g.v k) (Nat.zero_le _)
      ⟨Copied.zero _ _ _ _, Copied.zero _ _ _ _, Copied.zero _ _ _ _, rfl, fun k hk => absurd hk (by omega)⟩ ?_
    rintro i ⟨t, s, n, g⟩ _ hi ⟨k1, k2, k3, k4, k5⟩
    simp only at k1 k2 k3 k4 k5 ⊢
    obtain ⟨t', ht', k1'⟩ := k1.step (show 3 * (0 + i + 1) ≤ 3 * (m1.triangles + m2.triangles) + pad by omega)
    obtain ⟨s', hs', k2'⟩ := k2.step (show 3 * (0 + i + 1) ≤ 3 * (m1.triangles + m2.triangles) + pad by omega)
    obtain ⟨n', hn', k3'⟩ := k3.step (show 3 * (0 + i + 1) ≤ 3 * (m1.triangles + m2.triangles) + pad by omega)
    replace ht' : set3 t i (m1.t.v (3 * i)) (m1.t.v (3 * i + 1)) (m1.t.v (3 * i + 2)) = .ok t' := ht'
    replace hs' : set3 s i (m1.s.v (3 * i)) (m1.s.v (3 * i + 1)) (m1.s.v (3 * i + 2)) = .ok s' := hs'
    replace hn' : set3 n i (m1.n.v (3 * i)) (m1.n.v (3 * i + 1)) (m1.n.v (3 * i + 2)) = .ok n' := hn'
    rw [get3_ok (by omega), ok_bind]
    simp only
    rw [ht', ok_bind, get3_ok (by omega), ok_bind]
    simp only
    rw [hs', ok_bind, get3_ok (by omega), ok_bind]
    simp only
    rw [hn', ok_bind, Arr.get_ok (by omega), ok_bind, Arr.set_ok (by omega), ok_bind]
    refine Tot.pure ⟨k1', k2', k3', k4, fun k hk => ?_⟩
    show (if k = i then m1.g.v i else g.v k) = _
    by_cases hh : k = i
    · rw [if_pos hh, hh]
    · rw [if_neg hh]; exact k5 k (by omega)
  rintro ⟨t, s, n, g⟩ - ⟨k1, k2, k3, k4, k5⟩
  simp only at k1 k2 k3 k4 k5 ⊢
  have nt : t.n = 3 * (m1.triangles + m2.triangles) + pad := k1.1
  have ns : s.n = 3 * (m1.triangles + m2.triangles) + pad := k2.1
  have nn : n.n = 3 * (m1.triangles + m2.triangles) + pad := k3.1
  refine Tot.bind (P := fun (st : Arr Nat × Arr Nat × Arr ℝ × Arr ℝ) => Copied m2.t (· + m1.vertices) m1.triangles m2.triangles t st.1 ∧
      Copied m2.s (· + m1.edges) m1.triangles m2.triangles s st.2.1 ∧ Copied m2.n id m1.triangles m2.triangles n st.2.2.1 ∧
      st.2.2.2.n = g.n ∧ (∀ i < m1.triangles, st.2.2.2.v i = g.v i) ∧ ∀ i < m2.triangles, st.2.2.2.v (m1.triangles + i) = m2.g.v i) ?_ ?_
  · refine forUp_tot (fun i (st : Arr Nat × Arr Nat × Arr ℝ × Arr ℝ) => Copied m2.t (· + m1.vertices) m1.triangles i t st.1 ∧
      Copied m2.s (· + m1.edges) m1.triangles i s st.2.1 ∧ Copied m2.n id m1.triangles i n st.2.2.1 ∧
      st.2.2.2.n = g.n ∧ (∀ k < m1.triangles, st.2.2.2.v k = g.v k) ∧ ∀ k < i, st.2.2.2.v (m1.triangles + k) = m2.g.v k) (Nat.zero_le _)
      ⟨Copied.zero _ _ _ _, Copied.zero _ _ _ _, Copied.zero _ _ _ _, rfl, fun k hk => rfl, fun k hk => absurd hk (by omega)⟩ ?_
    rintro i ⟨t', s', n', g'⟩ _ hi ⟨l1, l2, l3, l4, l5, l6⟩
    simp only at l1 l2 l3 l4 l5 l6 ⊢
    obtain ⟨t2, ht2', l1'⟩ := l1.step (by omega)
    obtain ⟨s2, hs2', l2'⟩ := l2.step (by omega)
    obtain ⟨n2, hn2', l3'⟩ := l3.step (by omega)
    replace hn2' : set3 n' (i + m1.triangles) (m2.n.v (3 * i)) (m2.n.v (3 * i + 1)) (m2.n.v (3 * i + 2)) = .ok n2 := hn2'
    rw [get3_ok (by omega), ok_bind]
    simp only
    rw [ht2', ok_bind, get3_ok (by omega), ok_bind]
    simp only
    rw [hs2', ok_bind, get3_ok (by omega), ok_bind]
    simp only
    rw [hn2', ok_bind, Arr.get_ok (by omega), ok_bind, Arr.set_ok (by omega), ok_bind]
    refine Tot.pure ⟨l1', l2', l3', l4, fun k hk => ?_, fun k hk => ?_⟩
    · show (if k = i + m1.triangles then m2.g.v i else g'.v k) = _
      rw [if_neg (by omega)]; exact l5 k hk
    · show (if m1.triangles + k = i + m1.triangles then m2.g.v i else g'.v (m1.triangles + k)) = _
      by_cases hh : m1.triangles + k = i + m1.triangles
      · rw [if_pos hh, show k = i by omega]
      · rw [if_neg hh]; exact l6 k (by omega)
  rintro ⟨t', s', n', g'⟩ - ⟨l1, l2, l3, l4, l5, l6⟩
  simp only at l1 l2 l3 l4 l5 l6 ⊢
  have low : ∀ {α : Type} {src1 src2 a0 a1 a2 : Arr α} {f : α → α} {p q : Nat}, Copied src1 id 0 p a0 a1 → Copied src2 f p q a1 a2 → ∀ j < 3 * p, a2.v j = src1.v j := by
    intro α src1 src2 a0 a1 a2 f p q ha hb j hj
    rw [hb.2, if_neg (by omega), ha.2, if_pos (by omega)]
    rfl
  have high : ∀ {α : Type} {src2 a1 a2 : Arr α} {f : α → α} {p q : Nat}, Copied src2 f p q a1 a2 → ∀ j < 3 * q, a2.v (3 * p + j) = f (src2.v j) := by
    intro α src2 a1 a2 f p q hb j hj
    rw [hb.2, if_pos (by omega), Nat.add_sub_cancel_left]
  refine Tot.pure ⟨⟨rfl, rfl, rfl, fun v hv => ?_, fun v hv => ?_, fun f hf k hk => ?_, fun f hf k hk => ?_, fun i hi k hk => ?_, fun i hi k hk => ?_, fun i hi k hk => ?_,
    fun i hi k hk => ?_, fun i hi => ⟨?_, ?_⟩, fun i hi => ⟨?_, ?_⟩⟩, ⟨?_, ?_, ?_, ?_, ?_, ?_⟩, rfl, rfl⟩
  · show ![x2.v (3 * v), x2.v (3 * v + 1), x2.v (3 * v + 2)] = _
    rw [low c1 c2 _ (by omega), low c1 c2 _ (by omega), low c1 c2 _ (by omega)]
    rfl
  · show ![x2.v (3 * (m1.vertices + v)), x2.v (3 * (m1.vertices + v) + 1), x2.v (3 * (m1.vertices + v) + 2)] = _
    rw [Nat.mul_add, Nat.add_assoc, Nat.add_assoc, high c2 _ (by omega), high c2 _ (by omega), high c2 _ (by omega)]
    rfl
  · show a2.v (2 * f + k) = _
    rw [d2 _ (by omega), d1 _ (by omega)]
    rfl
  · show a2.v (2 * (m1.edges + f) + k) = _
    rw [Nat.mul_add, Nat.add_assoc, d3 _ (by omega), Nat.add_comm]
    rfl
  · exact low k1 l1 _ (by omega)
  · show t'.v (3 * (m1.triangles + i) + k) = _
    rw [Nat.mul_add, Nat.add_assoc, high l1 _ (by omega), Nat.add_comm]
    rfl
  · exact low k2 l2 _ (by omega)
  · show s'.v (3 * (m1.triangles + i) + k) = _
    rw [Nat.mul_add, Nat.add_assoc, high l2 _ (by omega), Nat.add_comm]
    rfl
  · show ![n'.v (3 * i), n'.v (3 * i + 1), n'.v (3 * i + 2)] = _
    rw [low k3 l3 _ (by omega), low k3 l3 _ (by omega), low k3 l3 _ (by omega)]
    rfl
  · show g'.v i = _
    rw [l5 i hi, k5 i hi]
  · show ![n'.v (3 * (m1.triangles + i)), n'.v (3 * (m1.triangles + i) + 1), n'.v (3 * (m1.triangles + i) + 2)] = _
    rw [Nat.mul_add, Nat.add_assoc, Nat.add_assoc, high l3 _ (by omega), high l3 _ (by omega), high l3 _ (by omega)]
    rfl
  · exact l6 i hi
  · show 3 * (m1.vertices + m2.vertices) ≤ x2.n
    rw [c2.1]; omega
  · show 2 * (m1.edges + m2.edges) ≤ a2.n
    omega
  · show 3 * (m1.triangles + m2.triangles) ≤ t'.n
    rw [l1.1]; omega
  · show 3 * (m1.triangles + m2.triangles) ≤ s'.n
    rw [l2.1]; omega
  · show 3 * (m1.triangles + m2.triangles) ≤ n'.n
    rw [l3.1]; omega
  · show (m1.triangles + m2.triangles) ≤ g'.n
    omega

end H2.Surf
