import Verif.Proof.Interp

/-! The functions of bem2d.c for interpolation. -/

set_option linter.unusedSectionVars false

namespace H2.Interp
open Spec Dense Finset
variable {K : Type} [Field K] [LinearOrder K] [DecidableEq K]

theorem lagrPoly_div (n : Nat) (p : Nat → K) (j : Nat) (x : K) :
    lagrPoly n p j x = (∏ l ∈ (range n).erase j, (x - p l)) * (1 / ∏ l ∈ (range n).erase j, (p j - p l)) := by
  unfold lagrPoly
  rw [prod_div_distrib, div_eq_mul_one_div]

theorem lagrange_tot {junk : Nat → K} {X : Arr (K × K)} {px py : Arr K} {V : Mat} {m : Mem K} (hx : DistinctPts px.n px.v) (hy : DistinctPts py.n py.v)
    (hv : V.Valid m) (hc : V.cols = px.n * py.n) (hX : V.rows ≤ X.n) :
    Tot (lagrange junk X px py V m) (MatBecomes V m (fun i c => lagrPoly px.n px.v (c / py.n) (X.v i).1 * lagrPoly py.n py.v (c % py.n) (X.v i).2)) := by
  unfold lagrange
  rw [cassert_true (by simp [hc]), ok_bind]
  obtain ⟨dx, e1, dx1, dx2⟩ := denoms_tot hx junk
  obtain ⟨dy, e2, dy1, dy2⟩ := denoms_tot hy junk
  rw [e1, ok_bind, e2, ok_bind]
  refine Tot.bind (gridLoop (E := fun i jx jy => lagrPoly px.n px.v jx (X.v i).1 * lagrPoly py.n py.v jy (X.v i).2) hv hc ?_) ?_
  · intro jx hjx jy hjy F m1 h1
    rw [Arr.get_ok (by omega), ok_bind, Arr.get_ok (by omega), ok_bind]
    have hcol : jx * py.n + jy < V.cols := by
      rw [hc]
      calc jx * py.n + jy < jx * py.n + py.n := by omega
        _ = (jx + 1) * py.n := by ring
        _ ≤ px.n * py.n := Nat.mul_le_mul_right _ hjx
    refine Tot.bind (fillCol (E := fun i => lagrPoly px.n px.v jx (X.v i).1 * lagrPoly py.n py.v jy (X.v i).2) h1 hcol ?_) ?_
    · intro i hi m2
      rw [Arr.get_ok (by omega), ok_bind, numer_ok hjx hjy, ok_bind, dx2 jx hjx, dy2 jy hjy, lagrPoly_div, lagrPoly_div]
      congr 1
      ring
    · rintro m2 - h2
      exact Tot.pure ⟨h2, rfl⟩
  · rintro ⟨m1, ix⟩ - h1
    exact Tot.pure h1

theorem lagrange_nan {junk : Nat → K} {X : Arr (K × K)} {px py : Arr K} {V : Mat} {m : Mem K} (hc : V.cols = px.n * py.n)
    (h : ¬ DistinctPts px.n px.v ∨ ¬ DistinctPts py.n py.v) : lagrange junk X px py V m = .error .nan := by
  unfold lagrange
  rw [cassert_true (by simp [hc]), ok_bind]
  by_cases hx : DistinctPts px.n px.v
  · obtain ⟨dx, e1, -, -⟩ := denoms_tot hx junk
    rw [e1, ok_bind, denoms_nan (by tauto)]
    rfl
  · rw [denoms_nan hx]; rfl

/-! ### integrals over edges -/

theorem index_ok {gr : Geo K} {idx : Option (Arr Nat)} {rows t : Nat} (hg : GeoOk gr idx rows) (ht : t < rows) : index idx t = .ok (edgeOf idx t) := by
  unfold index edgeOf
  cases idx with
  | none => rfl
  | some a => exact Arr.get_ok (by have := hg.hidx a rfl; omega)

theorem ends_ok {gr : Geo K} {idx : Option (Arr Nat)} {rows t : Nat} (hg : GeoOk gr idx rows) (ht : t < rows) :
    ends gr (edgeOf idx t) = .ok (gr.x.v (gr.e.v (edgeOf idx t)).1, gr.x.v (gr.e.v (edgeOf idx t)).2) := by
  unfold ends
  rw [Arr.get_ok (hg.e t ht), ok_bind, Arr.get_ok (hg.x t ht).1, ok_bind, Arr.get_ok (hg.x t ht).2, ok_bind]
  rfl

/-- a loop that adds up -/
theorem sumLoop {n : Nat} {body : Nat → K → R K} {f : Nat → K} (hb : ∀ q < n, ∀ s, body q s = .ok (s + f q)) :
    forUp 0 n body 0 = .ok (∑ q ∈ range n, f q) := by
  have : Tot (forUp 0 n body 0) (fun s => s = ∑ q ∈ range n, f q) := by
    refine forUp_tot (fun k (s : K) => s = ∑ q ∈ range k, f q) (Nat.zero_le _) (by simp) ?_
    rintro k s _ hk rfl
    exact ⟨_, hb k hk _, by rw [sum_range_succ]⟩
  obtain ⟨s, e, rfl⟩ := this
  exact e

theorem lagrangeConst_tot {junk : Nat → K} {gr : Geo K} {idx : Option (Arr Nat)} {px py : Arr K} {V : Mat} {m : Mem K} (hg : GeoOk gr idx V.rows)
    (hx : DistinctPts px.n px.v) (hy : DistinctPts py.n py.v) (hv : V.Valid m) (hc : V.cols = px.n * py.n) :
    Tot (lagrangeConst junk gr idx px py V m) (MatBecomes V m (fun t c =>
      edgeInt gr (edgeOf idx t) fun x y => lagrPoly px.n px.v (c / py.n) x * lagrPoly py.n py.v (c % py.n) y)) := by
  unfold lagrangeConst
  obtain ⟨dx, e1, dx1, dx2⟩ := denoms_tot hx junk
  obtain ⟨dy, e2, dy1, dy2⟩ := denoms_tot hy junk
  rw [e1, ok_bind, e2, ok_bind]
  refine Tot.bind (gridLoop (E := fun t jx jy => edgeInt gr (edgeOf idx t) fun x y => lagrPoly px.n px.v jx x * lagrPoly py.n py.v jy y) hv hc ?_) ?_
  · intro jx hjx jy hjy F m1 h1
    rw [Arr.get_ok (by omega), ok_bind, Arr.get_ok (by omega), ok_bind]
    have hcol : jx * py.n + jy < V.cols := by
      rw [hc]
      calc jx * py.n + jy < jx * py.n + py.n := by omega
        _ = (jx + 1) * py.n := by ring
        _ ≤ px.n * py.n := Nat.mul_le_mul_right _ hjx
    refine Tot.bind (fillCol (E := fun t => edgeInt gr (edgeOf idx t) fun x y => lagrPoly px.n px.v jx x * lagrPoly py.n py.v jy y) h1 hcol ?_) ?_
    · intro t ht m2
      rw [index_ok hg ht, ok_bind, Arr.get_ok (hg.g t ht), ok_bind, ends_ok hg ht, ok_bind]
      simp only
      rw [sumLoop (f := fun q => gr.ww.v q * ((∏ l ∈ (range px.n).erase jx, ((quadPt gr (edgeOf idx t) q).1 - px.v l)) *
        ∏ l ∈ (range py.n).erase jy, ((quadPt gr (edgeOf idx t) q).2 - py.v l)))]
      · rw [ok_bind, dx2 jx hjx, dy2 jy hjy]
        congr 1
        unfold edgeInt
        rw [mul_assoc, sum_mul]
        congr 1
        refine sum_congr rfl fun q _ => ?_
        beta_reduce
        rw [lagrPoly_div, lagrPoly_div]
        ring
      · intro q hq s
        rw [Arr.get_ok (by have := hg.xx; omega), ok_bind]
        rw [numer_ok hjx hjy, ok_bind, Arr.get_ok (by have := hg.ww; omega), ok_bind]
        rfl
    · rintro m2 - h2
      exact Tot.pure ⟨h2, rfl⟩
  · rintro ⟨m1, ix⟩ - h1
    exact Tot.pure h1

/-! ### interpolation points -/

theorem point_inj {K : Type} [Field K] [LinearOrder K] [IsStrictOrderedRing K] {a b x y : K} (h : a < b) (e : point a b x = point a b y) : x = y := by
  unfold point at e
  have h1 : (b - a) * (1 / 2) * (x - y) = 0 := by linear_combination e
  have h2 : b - a ≠ 0 := sub_ne_zero.mpr h.ne'
  rcases mul_eq_zero.mp h1 with h3 | h3
  · exfalso
    rcases mul_eq_zero.mp h3 with h4 | h4
    · exact h2 h4
    · norm_num at h4
  · exact sub_eq_zero.mp h3

theorem widen_lt {K : Type} [Field K] [LinearOrder K] [IsStrictOrderedRing K] {eps a b : K} (he : 0 < eps) (hab : a ≤ b) :
    (widen eps a b).1 < (widen eps a b).2 ∧ (widen eps a b).1 ≤ a ∧ b ≤ (widen eps a b).2 := by
  unfold widen
  split
  · refine ⟨?_, ?_, ?_⟩ <;> dsimp only <;> linarith
  · refine ⟨?_, ?_, ?_⟩ <;> dsimp only <;> linarith

theorem point_in {K : Type} [Field K] [LinearOrder K] [IsStrictOrderedRing K] {a b x : K} (h : a ≤ b) (h1 : -1 ≤ x) (h2 : x ≤ 1) :
    a ≤ point a b x ∧ point a b x ≤ b := by
  unfold point
  constructor <;> nlinarith

theorem pointsVec_tot (eps ax bx ay by' : K) {m : Nat} {x px py : Arr K} (hx : m ≤ x.n) (h1 : m = px.n) (h2 : m = py.n) :
    Tot (pointsVec eps ax bx ay by' m x px py) fun p => p.1.n = m ∧ p.2.n = m ∧
      ∀ i < m, p.1.v i = point (widen eps ax bx).1 (widen eps ax bx).2 (x.v i) ∧ p.2.v i = point (widen eps ay by').1 (widen eps ay by').2 (x.v i) := by
  unfold pointsVec
  refine forUp_tot (fun k (p : Arr K × Arr K) => p.1.n = m ∧ p.2.n = m ∧ ∀ i < k, p.1.v i = point (widen eps ax bx).1 (widen eps ax bx).2 (x.v i) ∧
    p.2.v i = point (widen eps ay by').1 (widen eps ay by').2 (x.v i)) (Nat.zero_le _) ⟨h1.symm, h2.symm, fun i hi => absurd hi (Nat.not_lt_zero _)⟩ ?_
  rintro k ⟨p, q⟩ _ hk ⟨g1, g2, g3⟩
  rw [Arr.get_ok (by omega), ok_bind, Arr.set_ok (by dsimp only at g1 ⊢; omega), ok_bind, Arr.set_ok (by dsimp only at g2 ⊢; omega), ok_bind]
  refine ⟨_, rfl, g1, g2, fun i hi => ?_⟩
  simp only
  by_cases e : i = k
  · simp [e]
  · simp only [e, if_false]
    exact g3 i (by omega)

theorem pointsArray_tot (eps ax bx ay by' : K) {m : Nat} {x : Arr K} {X : Arr (K × K)} (hx : m ≤ x.n) (h1 : X.n = m * m) :
    Tot (pointsArray eps ax bx ay by' m (m * m) x X) fun X => X.n = m * m ∧
      ∀ i < m, ∀ j < m, X.v (i * m + j) = (point (widen eps ax bx).1 (widen eps ax bx).2 (x.v i), point (widen eps ay by').1 (widen eps ay by').2 (x.v j)) := by
  unfold pointsArray
  refine Tot.bind (P := fun (st : Arr (K × K) × Nat) => st.2 = m * m ∧ st.1.n = m * m ∧
    ∀ i < m, ∀ j < m, st.1.v (i * m + j) = (point (widen eps ax bx).1 (widen eps ax bx).2 (x.v i), point (widen eps ay by').1 (widen eps ay by').2 (x.v j))) ?_ ?_
  · refine (forUp_tot (fun k (st : Arr (K × K) × Nat) => st.2 = k * m ∧ st.1.n = m * m ∧
      ∀ i < k, ∀ j < m, st.1.v (i * m + j) = (point (widen eps ax bx).1 (widen eps ax bx).2 (x.v i), point (widen eps ay by').1 (widen eps ay by').2 (x.v j)))
      (Nat.zero_le _) ⟨by simp, h1, fun i hi => absurd hi (Nat.not_lt_zero _)⟩ ?_)
    rintro k ⟨X1, ix⟩ _ hk ⟨e, g1, g2⟩
    refine (forUp_tot (fun l (st : Arr (K × K) × Nat) => st.2 = k * m + l ∧ st.1.n = m * m ∧
      ∀ i j, (i < k ∧ j < m) ∨ (i = k ∧ j < l) → j < m → st.1.v (i * m + j) = (point (widen eps ax bx).1 (widen eps ax bx).2 (x.v i), point (widen eps ay by').1 (widen eps ay by').2 (x.v j)))
      (Nat.zero_le _) ⟨by simpa using e, g1, ?_⟩ ?_).mono ?_
    · rintro i j (h | h) hj
      · exact g2 i h.1 j h.2
      · exact absurd h.2 (Nat.not_lt_zero _)
    · rintro l ⟨X2, ix2⟩ _ hl ⟨e2, g3, g4⟩
      replace e2 : ix2 = k * m + l := e2
      replace g3 : X2.n = m * m := g3
      subst e2
      have hlt : k * m + l < m * m := by
        calc k * m + l < k * m + m := by omega
          _ = (k + 1) * m := by ring
          _ ≤ m * m := Nat.mul_le_mul_right _ hk
      rw [Arr.get_ok (by omega), ok_bind, Arr.get_ok (by omega), ok_bind, Arr.set_ok (by dsimp only; omega), ok_bind]
      refine ⟨_, rfl, rfl, g3, ?_⟩
      intro i j hij hj
      simp only
      have inj : i * m + j = k * m + l ↔ i = k ∧ j = l := by
        constructor
        · intro h
          have a1 : (i * m + j) / m = i := by rw [Nat.mul_comm, Nat.mul_add_div (by omega), Nat.div_eq_of_lt hj, add_zero]
          have a2 : (k * m + l) / m = k := by rw [Nat.mul_comm, Nat.mul_add_div (by omega), Nat.div_eq_of_lt hl, add_zero]
          have a3 : i = k := by rw [← a1, ← a2, h]
          subst a3
          exact ⟨rfl, by omega⟩
        · rintro ⟨rfl, rfl⟩; rfl
      by_cases e : i = k ∧ j = l
      · rw [if_pos (inj.mpr e), e.1, e.2]
      · rw [if_neg (fun h => e (inj.mp h))]
        refine g4 i j ?_ hj
        rcases hij with h | h
        · exact Or.inl h
        · refine Or.inr ⟨h.1, ?_⟩
          have : j ≠ l := fun e' => e ⟨h.1, e'⟩
          omega
    · rintro ⟨X2, ix2⟩ ⟨e2, g3, g4⟩
      refine ⟨?_, g3, fun i hi j hj => g4 i j ?_ hj⟩
      · replace e2 : ix2 = k * m + m := e2
        show ix2 = (k + 1) * m
        rw [e2]; ring
      · by_cases h : i = k
        · exact Or.inr ⟨h, hj⟩
        · exact Or.inl ⟨by omega, hj⟩
  · rintro ⟨X1, ix⟩ - ⟨e, g1, g2⟩
    replace e : ix = m * m := e
    simp only
    rw [cassert_true (by simp [e]), ok_bind]
    exact Tot.pure ⟨g1, g2⟩

end H2.Interp
