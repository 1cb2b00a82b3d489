import Verif.Spec.Tri2d
import Mathlib.Tactic.Ring
import Mathlib.Tactic.FieldSimp
import Mathlib.Tactic.LinearCombination

/-! Loops of `refine_tri2d`: contents of the arrays they fill. -/

set_option linter.unusedSectionVars false

namespace H2

/-- array after `a[i] = x` -/
def Arr.upd {α : Type _} (a : Arr α) (i : Nat) (x : α) : Arr α := ⟨a.n, fun k => if k = i then x else a.v k⟩

theorem Arr.upd_n {α : Type _} (a : Arr α) (i : Nat) (x : α) : (a.upd i x).n = a.n := rfl
theorem Arr.upd_v {α : Type _} (a : Arr α) (i j : Nat) (x : α) : (a.upd i x).v j = if j = i then x else a.v j := rfl

theorem Tot.get {α β : Type _} {a : Arr α} {i : Nat} {k : α → R β} {Q : β → Prop} (h : i < a.n) (hk : Tot (k (a.v i)) Q) :
    Tot (a.get i >>= k) Q := by rw [Arr.get_ok h, ok_bind]; exact hk

theorem Tot.set {α β : Type _} {a : Arr α} {i : Nat} {x : α} {k : Arr α → R β} {Q : β → Prop} (h : i < a.n)
    (hk : Tot (k (a.upd i x)) Q) : Tot (a.set i x >>= k) Q := by rw [Arr.set_ok h, ok_bind]; exact hk

namespace Tri2d
open H2.Spec
variable {K : Type}

/-- array after `if (t2r) a[i] = y` -/
def rupd (b : Bool) (a : Arr Nat) (i y : Nat) : Arr Nat := if b then a.upd i y else a

theorem Tot.rset {β : Type _} {b : Bool} {a : Arr Nat} {i y : Nat} {k : Arr Nat → R β} {Q : β → Prop} (h : b = true → i < a.n)
    (hk : Tot (k (rupd b a i y)) Q) : Tot (refSet b a i y >>= k) Q := by
  unfold refSet rupd at *
  cases b
  · exact hk
  · simp only [if_true] at *; exact Tot.set (h trivial) hk

section stages
variable [Field K] {m : Mesh K}

/-- what the vertex loops have written: the first `k` coarse vertices and the first `l` midpoints -/
structure VInv (t2r : Bool) (m : Mesh K) (k l : Nat) (s : VState K) : Prop where
  i : s.i = k + l
  xn : s.x.n = 2 * (m.vertices + m.edges)
  xbn : s.xb.n = m.vertices + m.edges
  old : ∀ j < k, s.x.v (2 * j) = m.x.v (2 * j) ∧ s.x.v (2 * j + 1) = m.x.v (2 * j + 1) ∧ s.xb.v j = m.xb.v j
  new : ∀ j < l, s.x.v (2 * (m.vertices + j)) = 1 / 2 * (m.x.v (2 * endp m j 0) + m.x.v (2 * endp m j 1)) ∧
    s.x.v (2 * (m.vertices + j) + 1) = 1 / 2 * (m.x.v (2 * endp m j 0 + 1) + m.x.v (2 * endp m j 1 + 1)) ∧
    s.xb.v (m.vertices + j) = m.eb.v j
  ref : t2r = true → s.xf.n = m.vertices + m.edges ∧ s.xt.n = m.vertices + m.edges ∧
    (∀ j < k, s.xt.v j = 0 ∧ s.xf.v j = j) ∧ ∀ j < l, s.xt.v (m.vertices + j) = 1 ∧ s.xf.v (m.vertices + j) = j

theorem copyVertices_tot (t2r : Bool) (hs : Sized m) {s : VState K} (h : VInv t2r m 0 0 s) :
    Tot (copyVertices t2r m s) (VInv t2r m m.vertices 0) := by
  unfold copyVertices
  refine forUp_tot (fun k s => VInv t2r m k 0 s) (Nat.zero_le _) h ?_
  intro j s _ hj h
  have hi := h.i; have hxn := h.xn; have hbn := h.xbn
  have e1 := hs.x; have e2 := hs.xb
  refine Tot.get (by omega) ?_
  refine Tot.set (by omega) ?_
  refine Tot.get (by omega) ?_
  refine Tot.set (by rw [Arr.upd_n]; omega) ?_
  refine Tot.get (by omega) ?_
  refine Tot.set (by omega) ?_
  refine Tot.rset (fun hb => by have := (h.ref hb).1; omega) ?_
  refine Tot.rset (fun hb => by have := (h.ref hb).2.1; omega) ?_
  refine Tot.pure ⟨by simp only; omega, hxn, hbn, ?_, fun j hj => absurd hj (by omega), ?_⟩
  · intro j' hj'
    simp only [Arr.upd_v, hi]
    by_cases hjj : j' = j
    · subst hjj
      rw [if_neg (by omega), if_pos (by omega), if_pos (by omega), if_pos (by omega)]
      exact ⟨rfl, rfl, rfl⟩
    · rw [if_neg (by omega), if_neg (by omega), if_neg (by omega), if_neg (by omega), if_neg (by omega)]
      exact h.old j' (by omega)
  · intro hb
    obtain ⟨h1, h2, h3, -⟩ := h.ref hb
    subst hb
    refine ⟨h1, h2, ?_, fun j hj => absurd hj (by omega)⟩
    intro j' hj'
    simp only [rupd, if_true, Arr.upd_v, hi]
    by_cases hjj : j' = j
    · subst hjj; exact ⟨if_pos (by omega), if_pos (by omega)⟩
    · rw [if_neg (by omega), if_neg (by omega)]; exact h3 j' (by omega)

theorem midVertices_tot (t2r : Bool) (hl : Legal m) {s : VState K} (h : VInv t2r m m.vertices 0 s) :
    Tot (midVertices t2r m s) (VInv t2r m m.vertices m.edges) := by
  unfold midVertices
  refine forUp_tot (fun k s => VInv t2r m m.vertices k s) (Nat.zero_le _) h ?_
  intro j s _ hj h
  have hi := h.i; have hxn := h.xn; have hbn := h.xbn
  have e1 := hl.x; have e2 := hl.e; have e3 := hl.eb
  have q0 : m.e.v (2 * j) < m.vertices := hl.ends j hj 0 (by omega)
  have q1 : m.e.v (2 * j + 1) < m.vertices := hl.ends j hj 1 (by omega)
  refine Tot.get (by omega) ?_
  refine Tot.get (by omega) ?_
  refine Tot.get (by omega) ?_
  refine Tot.get (by omega) ?_
  refine Tot.set (by omega) ?_
  refine Tot.get (by omega) ?_
  refine Tot.get (by omega) ?_
  refine Tot.set (by rw [Arr.upd_n]; omega) ?_
  refine Tot.get (by omega) ?_
  refine Tot.set (by omega) ?_
  refine Tot.rset (fun hb => by have := (h.ref hb).1; omega) ?_
  refine Tot.rset (fun hb => by have := (h.ref hb).2.1; omega) ?_
  refine Tot.pure ⟨by simp only; omega, hxn, hbn, ?_, ?_, ?_⟩
  · intro j' hj'
    simp only [Arr.upd_v, hi]
    rw [if_neg (by omega), if_neg (by omega), if_neg (by omega), if_neg (by omega), if_neg (by omega)]
    exact h.old j' hj'
  · intro j' hj'
    simp only [Arr.upd_v, hi]
    by_cases hjj : j' = j
    · subst hjj
      rw [if_neg (by omega), if_pos (by omega), if_pos (by omega), if_pos (by omega)]
      exact ⟨rfl, rfl, rfl⟩
    · rw [if_neg (by omega), if_neg (by omega), if_neg (by omega), if_neg (by omega), if_neg (by omega)]
      exact h.new j' (by omega)
  · intro hb
    obtain ⟨h1, h2, h3, h4⟩ := h.ref hb
    subst hb
    refine ⟨h1, h2, ?_, ?_⟩
    · intro j' hj'
      simp only [rupd, if_true, Arr.upd_v, hi]
      rw [if_neg (by omega), if_neg (by omega)]; exact h3 j' hj'
    · intro j' hj'
      simp only [rupd, if_true, Arr.upd_v, hi]
      by_cases hjj : j' = j
      · subst hjj; exact ⟨if_pos (by omega), if_pos (by omega)⟩
      · rw [if_neg (by omega), if_neg (by omega)]; exact h4 j' (by omega)

/-- effect of `putEdge` -/
theorem putEdge_tot {t2r : Bool} {a b flag father type : Nat} {s : EState} (he : 2 * s.i + 1 < s.e.n) (hb : s.i < s.eb.n)
    (hr : t2r = true → s.i < s.ef.n ∧ s.i < s.et.n) :
    Tot (putEdge t2r a b flag father type s) fun s' => s'.i = s.i + 1 ∧ s'.e.n = s.e.n ∧ s'.eb.n = s.eb.n ∧
      s'.ef.n = s.ef.n ∧ s'.et.n = s.et.n ∧
      s'.e.v (2 * s.i) = a ∧ s'.e.v (2 * s.i + 1) = b ∧ s'.eb.v s.i = flag ∧
      (t2r = true → s'.ef.v s.i = father ∧ s'.et.v s.i = type) ∧
      (∀ k < 2 * s.i, s'.e.v k = s.e.v k) ∧ ∀ k < s.i, s'.eb.v k = s.eb.v k ∧ s'.ef.v k = s.ef.v k ∧ s'.et.v k = s.et.v k := by
  unfold putEdge
  refine Tot.set (by omega) ?_
  refine Tot.set (by rw [Arr.upd_n]; omega) ?_
  refine Tot.set (by omega) ?_
  refine Tot.rset (fun h => (hr h).1) ?_
  refine Tot.rset (fun h => (hr h).2) ?_
  refine Tot.pure ⟨rfl, rfl, rfl, ?_, ?_, ?_, ?_, ?_, ?_, ?_, ?_⟩
  · simp only [rupd]; split <;> rfl
  · simp only [rupd]; split <;> rfl
  · simp only [Arr.upd_v]; rw [if_neg (by omega), if_pos trivial]
  · simp only [Arr.upd_v]; rw [if_pos trivial]
  · simp only [Arr.upd_v]; rw [if_pos trivial]
  · intro h; subst h; simp [rupd, Arr.upd_v]
  · intro k hk; simp only [Arr.upd_v]; rw [if_neg (by omega), if_neg (by omega)]
  · intro k hk
    simp only [Arr.upd_v, rupd]
    refine ⟨if_neg (by omega), ?_, ?_⟩ <;> split <;> simp only [Arr.upd_v] <;> rw [if_neg (by omega)]

/-- what the edge loops have written: the halves of the first `k` edges and the inner edges of the first `l` triangles -/
structure EInv (t2r : Bool) (m : Mesh K) (k l : Nat) (s : EState) : Prop where
  i : s.i = 2 * k + 3 * l
  en : s.e.n = 2 * (2 * m.edges + 3 * m.triangles)
  ebn : s.eb.n = 2 * m.edges + 3 * m.triangles
  half0 : ∀ j < k, s.e.v (4 * j) = endp m j 0 ∧ s.e.v (4 * j + 1) = m.vertices + j ∧ s.eb.v (2 * j) = m.eb.v j
  half1 : ∀ j < k, s.e.v (4 * j + 2) = m.vertices + j ∧ s.e.v (4 * j + 3) = endp m j 1 ∧ s.eb.v (2 * j + 1) = m.eb.v j
  in0 : ∀ j < l, s.e.v (2 * (2 * m.edges + 3 * j)) = m.vertices + side m j 1 ∧
    s.e.v (2 * (2 * m.edges + 3 * j) + 1) = m.vertices + side m j 2 ∧ s.eb.v (2 * m.edges + 3 * j) = 0
  in1 : ∀ j < l, s.e.v (2 * (2 * m.edges + 3 * j) + 2) = m.vertices + side m j 2 ∧
    s.e.v (2 * (2 * m.edges + 3 * j) + 3) = m.vertices + side m j 0 ∧ s.eb.v (2 * m.edges + 3 * j + 1) = 0
  in2 : ∀ j < l, s.e.v (2 * (2 * m.edges + 3 * j) + 4) = m.vertices + side m j 0 ∧
    s.e.v (2 * (2 * m.edges + 3 * j) + 5) = m.vertices + side m j 1 ∧ s.eb.v (2 * m.edges + 3 * j + 2) = 0
  ref : t2r = true → s.ef.n = 2 * m.edges + 3 * m.triangles ∧ s.et.n = 2 * m.edges + 3 * m.triangles ∧
    (∀ j < k, ∀ q < 2, s.et.v (2 * j + q) = 1 ∧ s.ef.v (2 * j + q) = j) ∧
    ∀ j < l, ∀ q < 3, s.et.v (2 * m.edges + 3 * j + q) = 2 ∧ s.ef.v (2 * m.edges + 3 * j + q) = j

theorem splitEdges_tot (t2r : Bool) (hs : Sized m) {s : EState} (h : EInv t2r m 0 0 s) :
    Tot (splitEdges t2r m m.vertices s) (EInv t2r m m.edges 0) := by
  unfold splitEdges
  refine forUp_tot (fun k s => EInv t2r m k 0 s) (Nat.zero_le _) h ?_
  intro j s _ hj h
  have hi := h.i; have hen := h.en; have hbn := h.ebn
  have e1 := hs.e; have e2 := hs.eb
  refine Tot.get (by omega) ?_
  refine Tot.get (by omega) ?_
  refine Tot.bind (putEdge_tot (by omega) (by omega)
    (fun hb => by have := (h.ref hb).1; have := (h.ref hb).2.1; omega)) ?_
  rintro s1 - ⟨a1, a2, a3, a4, a5, a6, a7, a8, a9, a10, a11⟩
  refine Tot.get (by omega) ?_
  refine Tot.get (by omega) ?_
  refine Tot.mono (putEdge_tot (by omega) (by omega)
    (fun hb => by have := (h.ref hb).1; have := (h.ref hb).2.1; omega)) ?_
  rintro s2 ⟨b1, b2, b3, b4, b5, b6, b7, b8, b9, b10, b11⟩
  have hi1 : s1.i = 2 * j + 1 := by omega
  have hi0 : s.i = 2 * j := by omega
  rw [hi0] at a6 a7 a8 a9 a10 a11
  rw [hi1] at b6 b7 b8 b9 b10 b11
  refine ⟨by omega, by omega, by omega, ?_, ?_, fun j hj => absurd hj (by omega), fun j hj => absurd hj (by omega),
    fun j hj => absurd hj (by omega), ?_⟩
  · intro j' hj'
    rw [b10 _ (by omega), b10 _ (by omega), (b11 _ (by omega)).1]
    by_cases hjj : j' = j
    · subst hjj
      refine ⟨?_, ?_, a8⟩
      · rw [show 4 * j' = 2 * (2 * j') by omega]; exact a6
      · rw [show 4 * j' = 2 * (2 * j') by omega]; exact a7
    · rw [a10 _ (by omega), a10 _ (by omega), (a11 _ (by omega)).1]; exact h.half0 j' (by omega)
  · intro j' hj'
    by_cases hjj : j' = j
    · subst hjj
      refine ⟨?_, ?_, b8⟩
      · rw [show 4 * j' + 2 = 2 * (2 * j' + 1) by omega]; exact b6
      · rw [show 4 * j' + 3 = 2 * (2 * j' + 1) + 1 by omega]; exact b7
    · rw [b10 _ (by omega), b10 _ (by omega), (b11 _ (by omega)).1,
        a10 _ (by omega), a10 _ (by omega), (a11 _ (by omega)).1]; exact h.half1 j' (by omega)
  · intro hb
    obtain ⟨h1, h2, h3, -⟩ := h.ref hb
    have a9 := a9 hb; have b9 := b9 hb
    refine ⟨by omega, by omega, ?_, fun j hj => absurd hj (by omega)⟩
    intro j' hj' q hq
    by_cases hjj : j' = j
    · subst hjj
      rcases (show q = 0 ∨ q = 1 by omega) with rfl | rfl
      · have := b11 (2 * j') (by omega)
        exact ⟨this.2.2.trans a9.2, this.2.1.trans a9.1⟩
      · exact ⟨b9.2, b9.1⟩
    · have u := b11 (2 * j' + q) (by omega)
      have v := a11 (2 * j' + q) (by omega)
      have w := h3 j' (by omega) q hq
      exact ⟨u.2.2.trans (v.2.2.trans w.1), u.2.1.trans (v.2.1.trans w.2)⟩

theorem innerEdges_tot (t2r : Bool) (hs : Sized m) {s : EState} (h : EInv t2r m m.edges 0 s) :
    Tot (innerEdges t2r m m.vertices s) (EInv t2r m m.edges m.triangles) := by
  unfold innerEdges
  refine forUp_tot (fun k s => EInv t2r m m.edges k s) (Nat.zero_le _) h ?_
  intro j s _ hj h
  have hi := h.i; have hen := h.en; have hbn := h.ebn
  have e1 := hs.t
  have hrf : t2r = true → s.ef.n = 2 * m.edges + 3 * m.triangles ∧ s.et.n = 2 * m.edges + 3 * m.triangles :=
    fun hb => ⟨(h.ref hb).1, (h.ref hb).2.1⟩
  refine Tot.get (by omega) ?_
  refine Tot.get (by omega) ?_
  refine Tot.get (by omega) ?_
  refine Tot.bind (putEdge_tot (by omega) (by omega) (fun hb => by have := hrf hb; omega)) ?_
  rintro s1 - ⟨a1, a2, a3, a4, a5, a6, a7, a8, a9, a10, a11⟩
  refine Tot.bind (putEdge_tot (by omega) (by omega) (fun hb => by have := hrf hb; omega)) ?_
  rintro s2 - ⟨b1, b2, b3, b4, b5, b6, b7, b8, b9, b10, b11⟩
  refine Tot.mono (putEdge_tot (by omega) (by omega) (fun hb => by have := hrf hb; omega)) ?_
  rintro s3 ⟨c1, c2, c3, c4, c5, c6, c7, c8, c9, c10, c11⟩
  have hi2 : s2.i = 2 * m.edges + 3 * j + 2 := by omega
  have hi1 : s1.i = 2 * m.edges + 3 * j + 1 := by omega
  have hi0 : s.i = 2 * m.edges + 3 * j := by omega
  rw [hi0] at a6 a7 a8 a9 a10 a11
  rw [hi1] at b6 b7 b8 b9 b10 b11
  rw [hi2] at c6 c7 c8 c9 c10 c11
  have hold : ∀ k < 2 * (2 * m.edges + 3 * j), s3.e.v k = s.e.v k := fun k hk => by
    rw [c10 _ (by omega), b10 _ (by omega), a10 _ (by omega)]
  have holdb : ∀ k < 2 * m.edges + 3 * j, s3.eb.v k = s.eb.v k ∧ s3.ef.v k = s.ef.v k ∧ s3.et.v k = s.et.v k := fun k hk => by
    have u := c11 k (by omega)
    have v := b11 k (by omega)
    have w := a11 k (by omega)
    exact ⟨u.1.trans (v.1.trans w.1), u.2.1.trans (v.2.1.trans w.2.1), u.2.2.trans (v.2.2.trans w.2.2)⟩
  refine ⟨by omega, by omega, by omega, ?_, ?_, ?_, ?_, ?_, ?_⟩
  · intro j' hj'
    rw [hold _ (by omega), hold _ (by omega), (holdb _ (by omega)).1]; exact h.half0 j' hj'
  · intro j' hj'
    rw [hold _ (by omega), hold _ (by omega), (holdb _ (by omega)).1]; exact h.half1 j' hj'
  · intro j' hj'
    by_cases hjj : j' = j
    · subst hjj
      rw [c10 _ (by omega), c10 _ (by omega), (c11 _ (by omega)).1, b10 _ (by omega), b10 _ (by omega), (b11 _ (by omega)).1]
      exact ⟨a6, a7, a8⟩
    · rw [hold _ (by omega), hold _ (by omega), (holdb _ (by omega)).1]; exact h.in0 j' (by omega)
  · intro j' hj'
    by_cases hjj : j' = j
    · subst hjj
      rw [c10 _ (by omega), c10 _ (by omega), (c11 _ (by omega)).1]
      exact ⟨b6, b7, b8⟩
    · rw [hold _ (by omega), hold _ (by omega), (holdb _ (by omega)).1]; exact h.in1 j' (by omega)
  · intro j' hj'
    by_cases hjj : j' = j
    · subst hjj
      exact ⟨c6, c7, c8⟩
    · rw [hold _ (by omega), hold _ (by omega), (holdb _ (by omega)).1]; exact h.in2 j' (by omega)
  · intro hb
    obtain ⟨h1, h2, h3, h4⟩ := h.ref hb
    have a9 := a9 hb; have b9 := b9 hb; have c9 := c9 hb
    refine ⟨by omega, by omega, ?_, ?_⟩
    · intro j' hj' q hq
      have u := holdb (2 * j' + q) (by omega)
      have w := h3 j' (by omega) q hq
      exact ⟨u.2.2.trans w.1, u.2.1.trans w.2⟩
    · intro j' hj' q hq
      by_cases hjj : j' = j
      · subst hjj
        rcases (show q = 0 ∨ q = 1 ∨ q = 2 by omega) with rfl | rfl | rfl
        · have u := c11 (2 * m.edges + 3 * j') (by omega)
          have v := b11 (2 * m.edges + 3 * j') (by omega)
          exact ⟨u.2.2.trans (v.2.2.trans a9.2), u.2.1.trans (v.2.1.trans a9.1)⟩
        · have u := c11 (2 * m.edges + 3 * j' + 1) (by omega)
          exact ⟨u.2.2.trans b9.2, u.2.1.trans b9.1⟩
        · exact ⟨c9.2, c9.1⟩
      · have u := holdb (2 * m.edges + 3 * j' + q) (by omega)
        have w := h4 j' (by omega) q hq
        exact ⟨u.2.2.trans w.1, u.2.1.trans w.2⟩

/-- the half of edge `f` at its end point `a` -/
def half (m : Mesh K) (f a : Nat) : Nat := if endp m f 0 = a then 2 * f else 2 * f + 1

/-- `intersecting_edges` finds the two halves that meet in the common end point -/
theorem intersectingEdges_tot (hl : Legal m) {t2r : Bool} {s : EState} {l : Nat} (h : EInv t2r m m.edges l s) {f g a b c : Nat} (hf : f < m.edges)
    (hg : g < m.edges) (hfa : Joins m f a b) (hga : Joins m g a c) (hab : a ≠ b) (hac : a ≠ c) (hbc : b ≠ c) :
    intersectingEdges s.e (2 * f) (2 * g) = .ok (half m f a, half m g a) := by
  have hen := h.en
  obtain ⟨f0, f1, -⟩ := h.half0 f hf
  obtain ⟨f2, f3, -⟩ := h.half1 f hf
  obtain ⟨g0, g1, -⟩ := h.half0 g hg
  obtain ⟨g2, g3, -⟩ := h.half1 g hg
  have q0 := hl.ends f hf 0 (by omega)
  have q1 := hl.ends f hf 1 (by omega)
  have p0 := hl.ends g hg 0 (by omega)
  have p1 := hl.ends g hg 1 (by omega)
  have hfg : f ≠ g := by
    rintro rfl
    rcases hfa with ⟨h1, h2⟩ | ⟨h1, h2⟩ <;> rcases hga with ⟨h3, h4⟩ | ⟨h3, h4⟩ <;> omega
  have E : ∀ i, i < 2 * (2 * m.edges + 3 * m.triangles) → s.e.get i = .ok (s.e.v i) := fun i hi => Arr.get_ok (by omega)
  unfold intersectingEdges meets
  rw [E (2 * (2 * f)) (by omega), E (2 * (2 * f) + 1) (by omega), E (2 * (2 * g)) (by omega), E (2 * (2 * g) + 1) (by omega),
    E (2 * (2 * f + 1)) (by omega), E (2 * (2 * f + 1) + 1) (by omega), E (2 * (2 * g + 1)) (by omega), E (2 * (2 * g + 1) + 1) (by omega)]
  rw [show 2 * (2 * f) = 4 * f by omega, show 2 * (2 * g) = 4 * g by omega, show 2 * (2 * f + 1) = 4 * f + 2 by omega,
    show 2 * (2 * g + 1) = 4 * g + 2 by omega, f0, f1, f2, f3, g0, g1, g2, g3]
  simp only [ok_bind, half, pure, Except.pure, cassert]
  rcases hfa with ⟨h1, h2⟩ | ⟨h1, h2⟩ <;> rcases hga with ⟨h3, h4⟩ | ⟨h3, h4⟩ <;> rw [h1] at q0 <;> rw [h2] at q1 <;>
    rw [h3] at p0 <;> rw [h4] at p1 <;> rw [h1, h2, h3, h4]
  · simp
  · rw [if_neg (by simp; omega)]; simp [hac.symm]
  · rw [if_neg (by simp; omega), if_neg (by simp; omega)]; simp [hab.symm]
  · rw [if_neg (by simp; omega), if_neg (by simp; omega), if_neg (by simp; omega)]; simp [hab.symm, hac.symm, bind, Except.bind]

/-- what the triangle loop has written for the first `k` triangles -/
structure TInv (t2r : Bool) (m : Mesh K) (k : Nat) (s : TState) : Prop where
  i : s.i = 4 * k
  tn : s.t.n = 3 * (4 * m.triangles)
  sub : ∀ j < k, ∀ a b c, Corners m j a b c →
    (s.t.v (12 * j) = 2 * m.edges + 3 * j ∧ s.t.v (12 * j + 1) = half m (side m j 1) a ∧ s.t.v (12 * j + 2) = half m (side m j 2) a) ∧
    (s.t.v (12 * j + 3) = half m (side m j 0) b ∧ s.t.v (12 * j + 4) = 2 * m.edges + 3 * j + 1 ∧ s.t.v (12 * j + 5) = half m (side m j 2) b) ∧
    (s.t.v (12 * j + 6) = half m (side m j 0) c ∧ s.t.v (12 * j + 7) = half m (side m j 1) c ∧ s.t.v (12 * j + 8) = 2 * m.edges + 3 * j + 2) ∧
    s.t.v (12 * j + 9) = 2 * m.edges + 3 * j ∧ s.t.v (12 * j + 10) = 2 * m.edges + 3 * j + 1 ∧ s.t.v (12 * j + 11) = 2 * m.edges + 3 * j + 2
  ref : t2r = true → s.tf.n = 4 * m.triangles ∧ ∀ j < k, ∀ q < 4, s.tf.v (4 * j + q) = j

theorem rupd_n (b : Bool) (a : Arr Nat) (i y : Nat) : (rupd b a i y).n = a.n := by unfold rupd; split <;> rfl

theorem Joins.symm {f a b : Nat} (h : Joins m f a b) : Joins m f b a := h.elim .inr .inl

theorem Corners.unique {i a b c a' b' c' : Nat} (h : Corners m i a b c) (h' : Corners m i a' b' c') : a = a' ∧ b = b' ∧ c = c' := by
  have := h.ab; have := h.bc; have := h.ca; have := h'.ab; have := h'.bc; have := h'.ca
  rcases h.s0 with ⟨h1, h2⟩ | ⟨h1, h2⟩ <;> rcases h'.s0 with ⟨h3, h4⟩ | ⟨h3, h4⟩ <;>
  rcases h.s1 with ⟨h5, h6⟩ | ⟨h5, h6⟩ <;> rcases h'.s1 with ⟨h7, h8⟩ | ⟨h7, h8⟩ <;>
  omega

theorem splitTriangles_tot (t2r : Bool) (hl : Legal m) (hc : ∀ i < m.triangles, ∃ a b c, Corners m i a b c) {q : EState} {l : Nat}
    (h : EInv t2r m m.edges l q) {s : TState} (h0 : TInv t2r m 0 s) :
    Tot (splitTriangles t2r m q.e (2 * m.edges) s) (TInv t2r m m.triangles) := by
  unfold splitTriangles
  refine forUp_tot (fun k s => TInv t2r m k s) (Nat.zero_le _) h0 ?_
  intro j s _ hj hI
  have hi := hI.i; have htn := hI.tn
  have e1 := hl.t
  obtain ⟨a, b, c, hC⟩ := hc j hj
  have s0 := hl.sides j hj 0 (by omega)
  have s1 := hl.sides j hj 1 (by omega)
  have s2 := hl.sides j hj 2 (by omega)
  have r1 := intersectingEdges_tot hl h s1 s2 hC.s1.symm hC.s2 hC.ca.symm hC.ab hC.bc.symm
  have r2 := intersectingEdges_tot hl h s0 s2 hC.s0 hC.s2.symm hC.bc hC.ab.symm hC.ca
  have r3 := intersectingEdges_tot hl h s0 s1 hC.s0.symm hC.s1 hC.bc.symm hC.ca hC.ab.symm
  have hrf : t2r = true → s.tf.n = 4 * m.triangles := fun hb => (hI.ref hb).1
  refine Tot.get (by omega) ?_
  refine Tot.get (by omega) ?_
  refine Tot.get (by omega) ?_
  refine Tot.bind ⟨_, r1, rfl⟩ ?_
  rintro p - rfl
  refine Tot.set (by omega) ?_
  refine Tot.set (by simp only [Arr.upd_n]; omega) ?_
  refine Tot.set (by simp only [Arr.upd_n]; omega) ?_
  refine Tot.rset (fun hb => by have := hrf hb; omega) ?_
  refine Tot.bind ⟨_, r2, rfl⟩ ?_
  rintro p - rfl
  refine Tot.set (by simp only [Arr.upd_n]; omega) ?_
  refine Tot.set (by simp only [Arr.upd_n]; omega) ?_
  refine Tot.set (by simp only [Arr.upd_n]; omega) ?_
  refine Tot.rset (fun hb => by have := hrf hb; rw [rupd_n]; omega) ?_
  refine Tot.bind ⟨_, r3, rfl⟩ ?_
  rintro p - rfl
  refine Tot.set (by simp only [Arr.upd_n]; omega) ?_
  refine Tot.set (by simp only [Arr.upd_n]; omega) ?_
  refine Tot.set (by simp only [Arr.upd_n]; omega) ?_
  refine Tot.rset (fun hb => by have := hrf hb; simp only [rupd_n]; omega) ?_
  refine Tot.set (by simp only [Arr.upd_n]; omega) ?_
  refine Tot.set (by simp only [Arr.upd_n]; omega) ?_
  refine Tot.set (by simp only [Arr.upd_n]; omega) ?_
  refine Tot.rset (fun hb => by have := hrf hb; simp only [rupd_n]; omega) ?_
  refine Tot.pure ⟨by simp only; omega, htn, ?_, ?_⟩
  · intro j' hj' a' b' c' hC'
    simp only [hi]
    by_cases hjj : j' = j
    · subst hjj
      obtain ⟨rfl, rfl, rfl⟩ := Corners.unique hC hC'
      have rd : ∀ (A : Arr Nat) (x i : Nat), (A.upd i x).v i = x := fun A x i => if_pos rfl
      have rn : ∀ (A : Arr Nat) (x i k : Nat), k ≠ i → (A.upd i x).v k = A.v k := fun A x i k h => if_neg h
      refine ⟨⟨?_, ?_, ?_⟩, ⟨?_, ?_, ?_⟩, ⟨?_, ?_, ?_⟩, ?_, ?_, ?_⟩ <;>
      · repeat rw [rn _ _ _ _ (by omega)]
        simp only [Arr.upd_v]
        rw [if_pos (by omega)]
    · simp only [Arr.upd_v]
      have := hI.sub j' (by omega) a' b' c' hC'
      obtain ⟨⟨x1, x2, x3⟩, ⟨x4, x5, x6⟩, ⟨x7, x8, x9⟩, x10, x11, x12⟩ := this
      refine ⟨⟨?_, ?_, ?_⟩, ⟨?_, ?_, ?_⟩, ⟨?_, ?_, ?_⟩, ?_, ?_, ?_⟩ <;>
      · repeat rw [if_neg (by omega)]
        assumption
  · intro hb
    obtain ⟨h1, h2⟩ := hI.ref hb
    subst hb
    refine ⟨h1, ?_⟩
    intro j' hj' q hq
    simp only [rupd, if_true, Arr.upd_v, hi]
    by_cases hjj : j' = j
    · subst hjj
      rcases (show q = 0 ∨ q = 1 ∨ q = 2 ∨ q = 3 by omega) with rfl | rfl | rfl | rfl
      · rw [if_neg (by omega), if_neg (by omega), if_neg (by omega), if_pos (by omega)]
      · rw [if_neg (by omega), if_neg (by omega), if_pos (by omega)]
      · rw [if_neg (by omega), if_pos (by omega)]
      · rw [if_pos (by omega)]
    · rw [if_neg (by omega), if_neg (by omega), if_neg (by omega), if_neg (by omega)]
      exact h2 j' (by omega) q hq

end stages
end Tri2d
end H2
