import Verif.Proof.Interp5

/-!
# C85: interpolation for boundary element matrices in 2D

Chebyshev points, interpolation points of clusters, matrices of integrals of Lagrange polynomials and of their normal derivatives, low-rank
blocks by interpolation and transfer matrices (bem2d.c).
-/

namespace H2.Props
open H2 Spec Dense Interp Finset
variable {K : Type} [Field K] [LinearOrder K] [IsStrictOrderedRing K] [DecidableEq K]

/-- The reference points are different, lie in `[-1, 1]` and are the zeros of the Chebyshev polynomial of degree `m`. -/
theorem C85_chebyshev (m : Nat) : DistinctPts m (chebyshev m) ∧ ∀ i < m, -1 ≤ chebyshev m i ∧ chebyshev m i ≤ 1 ∧ (Polynomial.Chebyshev.T ℝ m).eval (chebyshev m i) = 0 :=
  ⟨chebyshev_nodes m, fun i hi => ⟨(chebyshev_in m i).1, (chebyshev_in m i).2, chebyshev_root hi⟩⟩

/-- The specification of Lagrange polynomials is the right one: one at the own node, zero at the others, and `lagrDeriv` is the derivative. -/
theorem C85_lagrange_poly {n : Nat} {p : Nat → K} (hp : DistinctPts n p) {j : Nat} (hj : j < n) :
    lagrPoly n p j (p j) = 1 ∧ (∀ l < n, l ≠ j → lagrPoly n p j (p l) = 0) ∧
      ∃ P : Polynomial K, P.natDegree < n ∧ (∀ x, P.eval x = lagrPoly n p j x) ∧ ∀ x, P.derivative.eval x = lagrDeriv n p j x := by
  refine ⟨lagrPoly_self hp hj, fun l hl h => lagrPoly_other hl h, Lagrange.basis (range n) p j, ?_, lagrPoly_eval n p j, lagrDeriv_eval n p j⟩
  rw [Lagrange.natDegree_basis (fun a ha b hb e => hp a (by simpa using ha) b (by simpa using hb) e) (by simpa using hj), card_range]
  omega

/-- Interpolation points of a cluster: both functions use the same points; they are different in each direction even if the bounding box is
flat, and lie in the bounding box, enlarged by `eps` where it is flat. -/
theorem C85_points {eps ax bx ay by' : K} (he : 0 < eps) (hx : ax ≤ bx) (hy : ay ≤ by') {junk : Nat → K} {m : Nat} {x : Arr K} (hm : m ≤ x.n) (hn : DistinctPts m x.v) :
    ∃ px py X, pointsVec eps ax bx ay by' m x ⟨m, junk⟩ ⟨m, junk⟩ = .ok (px, py) ∧
      pointsArray eps ax bx ay by' m (m * m) x ⟨m * m, fun i => (junk i, junk i)⟩ = .ok X ∧ px.n = m ∧ py.n = m ∧ X.n = m * m ∧
      DistinctPts m px.v ∧ DistinctPts m py.v ∧ (∀ i < m, ∀ j < m, X.v (i * m + j) = (px.v i, py.v j)) ∧
      (∀ i < m, px.v i = boxPts eps ax bx x.v i ∧ py.v i = boxPts eps ay by' x.v i) ∧
      ∀ i < m, -1 ≤ x.v i → x.v i ≤ 1 → (ax - eps ≤ px.v i ∧ px.v i ≤ bx + eps ∧ (eps ≤ bx - ax → ax ≤ px.v i ∧ px.v i ≤ bx)) ∧
        (ay - eps ≤ py.v i ∧ py.v i ≤ by' + eps ∧ (eps ≤ by' - ay → ay ≤ py.v i ∧ py.v i ≤ by')) := by
  obtain ⟨⟨px, py⟩, e1, h1, h2, h3⟩ := pointsVec_tot eps ax bx ay by' (px := ⟨m, junk⟩) (py := ⟨m, junk⟩) hm rfl rfl
  obtain ⟨X, e2, z1, z2⟩ := pointsArray_tot eps ax bx ay by' (X := ⟨m * m, fun i => (junk i, junk i)⟩) hm rfl
  refine ⟨px, py, X, e1, e2, h1, h2, z1, nodes_congr rfl (fun i hi => (h3 i hi).1) (pts_nodes he hx hn), nodes_congr rfl (fun i hi => (h3 i hi).2) (pts_nodes he hy hn), ?_, ?_, ?_⟩
  · intro i hi j hj
    rw [z2 i hi j hj, (h3 i hi).1, (h3 j hj).2]
  · intro i hi
    rw [(h3 i hi).1, (h3 i hi).2, ← pts_eq, ← pts_eq]
    exact ⟨rfl, rfl⟩
  · intro i hi g1 g2
    have key : ∀ a b : K, a ≤ b → a - eps ≤ point (widen eps a b).1 (widen eps a b).2 (x.v i) ∧ point (widen eps a b).1 (widen eps a b).2 (x.v i) ≤ b + eps ∧
        (eps ≤ b - a → a ≤ point (widen eps a b).1 (widen eps a b).2 (x.v i) ∧ point (widen eps a b).1 (widen eps a b).2 (x.v i) ≤ b) := by
      intro a b hab
      have hw := point_in (widen_lt he hab).1.le g1 g2
      unfold widen at hw ⊢
      split
      · rename_i hlt
        rw [if_pos hlt] at hw
        exact ⟨hw.1, hw.2, fun h => absurd hlt (not_lt.mpr h)⟩
      · rename_i hlt
        rw [if_neg hlt] at hw
        dsimp only at hw ⊢
        exact ⟨by linarith [hw.1], by linarith [hw.2], fun _ => hw⟩
    rw [(h3 i hi).1, (h3 i hi).2]
    exact ⟨key ax bx hx, key ay by' hy⟩

/-- `assemble_bem2d_lagrange_amatrix`: the values of the Lagrange polynomials in the points `X`. -/
theorem C85_lagrange {junk : Nat → K} {X : Arr (K × K)} {px py : Arr K} {V : Mat} {m : Mem K} (hx : DistinctPts px.n px.v) (hy : DistinctPts py.n py.v)
    (hv : V.Valid m) (hc : V.cols = px.n * py.n) (hX : V.rows ≤ X.n) :
    ∃ m', lagrange junk X px py V m = .ok m' ∧ V.Valid m' ∧ Frame V.Cell m m' ∧ ∀ i < V.rows, ∀ jx < px.n, ∀ jy < py.n,
      V.val m' i (jx * py.n + jy) = lagrPoly px.n px.v jx (X.v i).1 * lagrPoly py.n py.v jy (X.v i).2 := by
  obtain ⟨m', e, h1, h2, h3⟩ := lagrange_tot (junk := junk) hx hy hv hc hX
  refine ⟨m', e, h1, h3, fun i hi jx hjx jy hjy => ?_⟩
  have hcol : jx * py.n + jy < V.cols := by
    rw [hc]
    calc jx * py.n + jy < jx * py.n + py.n := by omega
      _ = (jx + 1) * py.n := by ring
      _ ≤ px.n * py.n := Nat.mul_le_mul_right _ hjx
  rw [h2 i hi _ hcol]
  beta_reduce
  rw [Nat.mul_comm jx py.n, Nat.mul_add_div (by omega), Nat.mul_add_mod, Nat.div_eq_of_lt hjy, Nat.mod_eq_of_lt hjy, add_zero]

/-- Two equal interpolation points in one direction make it divide by zero. -/
theorem C85_lagrange_nan {junk : Nat → K} {X : Arr (K × K)} {px py : Arr K} {V : Mat} {m : Mem K} (hc : V.cols = px.n * py.n)
    (h : ¬ DistinctPts px.n px.v ∨ ¬ DistinctPts py.n py.v) : lagrange junk X px py V m = .error .nan := lagrange_nan hc h

/-- The matrix of `assemble_bem2d_lagrange_amatrix` evaluates polynomials of the degree of the interpolation exactly. -/
theorem C85_lagrange_exact {junk : Nat → K} {X : Arr (K × K)} {p : Nat} {px py : Arr K} {V : Mat} {m : Mem K} (h1 : px.n = p) (h2 : py.n = p)
    (hx : DistinctPts p px.v) (hy : DistinctPts p py.v) (hv : V.Valid m) (hc : V.cols = p * p) (hX : V.rows ≤ X.n) {f : K → K → K} (hf : TensorPoly p f) :
    ∃ m', lagrange junk X px py V m = .ok m' ∧ ∀ i < V.rows, ∑ v ∈ range (p * p), V.val m' i v * f (px.v (v / p)) (py.v (v % p)) = f (X.v i).1 (X.v i).2 := by
  subst h1
  obtain ⟨m', e, -, h, -⟩ := lagrange_tot (junk := junk) hx (h2 ▸ hy) hv (h2 ▸ hc) hX
  refine ⟨m', e, fun i hi => ?_⟩
  rw [← tensor_exact hx hy hf, ← sum_grid px.n px.n (fun a b => f (px.v a) (py.v b) * (lagrPoly px.n px.v a (X.v i).1 * lagrPoly px.n py.v b (X.v i).2))]
  refine sum_congr rfl fun v hv => ?_
  rw [h i hi v (by rw [hc]; exact mem_range.mp hv), h2]
  ring

/-- `assemble_bem2d_lagrange_const_amatrix`: integrals over the edges of the Lagrange polynomials, by the quadrature rule. -/
theorem C85_lagrange_const {junk : Nat → K} {gr : Geo K} {idx : Option (Arr Nat)} {px py : Arr K} {V : Mat} {m : Mem K} (hg : GeoOk gr idx V.rows)
    (hx : DistinctPts px.n px.v) (hy : DistinctPts py.n py.v) (hv : V.Valid m) (hc : V.cols = px.n * py.n) :
    ∃ m', lagrangeConst junk gr idx px py V m = .ok m' ∧ V.Valid m' ∧ Frame V.Cell m m' ∧ ∀ t < V.rows, ∀ c < V.cols,
      V.val m' t c = edgeInt gr (edgeOf idx t) fun x y => lagrPoly px.n px.v (c / py.n) x * lagrPoly py.n py.v (c % py.n) y := by
  obtain ⟨m', e, h1, h2, h3⟩ := lagrangeConst_tot (junk := junk) hg hx hy hv hc
  exact ⟨m', e, h1, h3, h2⟩

/-- `assemble_bem2d_dn_lagrange_const_amatrix`, if no quadrature point shares a coordinate with an interpolation point: minus the integrals of
the normal derivatives. -/
theorem C85_dn_lagrange_const {gr : Geo K} {idx : Option (Arr Nat)} {px py : Arr K} {V : Mat} {m : Mem K} (hg : GeoOk gr idx V.rows)
    (hx : DistinctPts px.n px.v) (hy : DistinctPts py.n py.v) (hn : NoHit gr idx V.rows px py) (hv : V.Valid m) (hc : V.cols = px.n * py.n) :
    ∃ m', dnLagrangeConst gr idx px py V m = .ok m' ∧ V.Valid m' ∧ Frame V.Cell m m' ∧ ∀ t < V.rows, ∀ c < V.cols,
      V.val m' t c = -edgeInt gr (edgeOf idx t) fun x y =>
        (gr.n.v (edgeOf idx t)).1 * (lagrDeriv px.n px.v (c / py.n) x * lagrPoly py.n py.v (c % py.n) y) +
        (gr.n.v (edgeOf idx t)).2 * (lagrPoly px.n px.v (c / py.n) x * lagrDeriv py.n py.v (c % py.n) y) := by
  obtain ⟨m', e, h1, h2, h3⟩ := dnLagrangeConst_tot hg hx hy hn hv hc
  refine ⟨m', e, h1, h3, fun t ht c hcc => ?_⟩
  refine (h2 t ht c hcc).trans ?_
  unfold edgeInt
  refine congrArg Neg.neg (congrArg (gr.g.v (edgeOf idx t) * ·) (sum_congr rfl fun q _ => ?_))
  rw [mul_comm (lagrDeriv py.n py.v _ _)]

omit [IsStrictOrderedRing K] in
/-- If a quadrature point does share a coordinate with one of at least two interpolation points, the function divides by zero, although the
derivatives are finite. -/
theorem C85_dn_lagrange_const_nan {gr : Geo K} {idx : Option (Arr Nat)} {px py : Arr K} {V : Mat} {m : Mem K} (hg : GeoOk gr idx V.rows)
    (hx : DistinctPts px.n px.v) (hy : DistinctPts py.n py.v) (hv : V.Valid m) (hc : V.cols = px.n * py.n) (h1 : 2 ≤ px.n) (h2 : 2 ≤ py.n)
    (hn : ¬ NoHit gr idx V.rows px py) : dnLagrangeConst gr idx px py V m = .error .nan := by
  unfold NoHit at hn
  push Not at hn
  obtain ⟨t, ht, q, hq, h⟩ := hn
  by_cases hh : ∃ l < px.n, (quadPt gr (edgeOf idx t) q).1 = px.v l
  · exact dnLagrangeConst_nan hg hx hy hv hc ht hq (Or.inl ⟨h1, by omega, hh⟩)
  · push Not at hh
    exact dnLagrangeConst_nan hg hx hy hv hc ht hq (Or.inr ⟨by omega, h2, h hh⟩)

/-- Row interpolation of a low-rank block: `A B^T` holds the integrals of the functions that interpolate the columns `b j` of the kernel. -/
theorem C85_inter_row {eps ax bx ay by' : K} (he : 0 < eps) (hx : ax ≤ bx) (hy : ay ≤ by') {junk : Nat → K} {m : Nat} {x : Arr K} (hm : m ≤ x.n) (hn : DistinctPts m x.v)
    {gr : Geo K} {idx : Option (Arr Nat)} {A B : Mat} {s : Mem K} (hg : GeoOk gr idx A.rows) (hA : A.Valid s) (hB : B.Valid s) (hc : A.cols = m * m)
    (hc2 : B.cols = m * m) (hd : Disj A.Cell B.Cell) {kernelCol : Arr (K × K) → Mat → Mem K → R (Mem K)} {b : Nat → K → K → K}
    (hk : ∀ (Z : Arr (K × K)) (s : Mem K), Z.n = m * m → B.Valid s → Tot (kernelCol Z B s) (MatBecomes B s fun j v => b j (Z.v v).1 (Z.v v).2)) :
    ∃ s', interRow eps ax bx ay by' junk m x gr idx kernelCol A B s = .ok s' ∧ Frame (fun c => A.Cell c ∨ B.Cell c) s s' ∧ ∀ t < A.rows, ∀ j < B.rows,
      ∑ v ∈ range (m * m), A.val s' t v * B.val s' j v = edgeInt gr (edgeOf idx t) (interpol m (boxPts eps ax bx x.v) (boxPts eps ay by' x.v) (b j)) ∧
      (TensorPoly m (b j) → ∑ v ∈ range (m * m), A.val s' t v * B.val s' j v = edgeInt gr (edgeOf idx t) (b j)) := by
  obtain ⟨s', e, -, -, h1, h2⟩ := interRow_tot he hx hy (junk := junk) hm hn hg hA hB hc hc2 hd hk
  refine ⟨s', e, h2, fun t ht j hj => ?_⟩
  rw [h1 t ht j hj, pts_eq, pts_eq]
  refine ⟨rfl, fun hf => ?_⟩
  congr 1
  funext u v
  rw [← pts_eq, ← pts_eq]
  exact tensor_exact (pts_nodes he hx hn) (pts_nodes he hy hn) hf u v

/-- Nested cluster bases: for the rows of a son, the matrix with the points of the father is the matrix with the points of the son times the
transfer matrix. -/
theorem C85_nested {eps ax bx ay by' ax' bx' ay' by'' : K} (he : 0 < eps) (hx : ax ≤ bx) (hy : ay ≤ by') (hx' : ax' ≤ bx') (hy' : ay' ≤ by'')
    {junk : Nat → K} {m : Nat} {x : Arr K} (hm : m ≤ x.n) (hn : DistinctPts m x.v) {gr : Geo K} {idx : Option (Arr Nat)} {V W E : Mat} {s1 s2 s3 : Mem K}
    (hg : GeoOk gr idx V.rows) (hV : V.Valid s1) (hVc : V.cols = m * m) (hW : W.Valid s2) (hWr : W.rows = V.rows) (hWc : W.cols = m * m) (hE : E.Valid s3)
    (hEr : E.rows = m * m) (hEc : E.cols = m * m) : ∃ s1' s2' s3', (do
      let p ← pointsVec eps ax bx ay by' m x ⟨m, junk⟩ ⟨m, junk⟩
      lagrangeConst junk gr idx p.1 p.2 V s1) = .ok s1' ∧ (do
      let p ← pointsVec eps ax' bx' ay' by'' m x ⟨m, junk⟩ ⟨m, junk⟩
      lagrangeConst junk gr idx p.1 p.2 W s2) = .ok s2' ∧ transfer eps ax bx ay by' ax' bx' ay' by'' junk m x E s3 = .ok s3' ∧
      ∀ t < V.rows, ∀ c < m * m, V.val s1' t c = ∑ v ∈ range (m * m), W.val s2' t v * E.val s3' v c := by
  obtain ⟨s1', e1, h1⟩ := basis_tot he hx hy (junk := junk) hm hn hg hV hVc
  obtain ⟨s2', e2, h2⟩ := basis_tot he hx' hy' (junk := junk) hm hn (hWr ▸ hg) hW hWc
  obtain ⟨s3', e3, h3⟩ := transfer_tot (ax' := ax') (bx' := bx') (ay' := ay') (by'' := by'') he hx hy (junk := junk) hm hn hE hEr hEc
  refine ⟨s1', s2', s3', e1, e2, e3, fun t ht c hc => ?_⟩
  rw [h1.2.1 t ht c (by omega)]
  beta_reduce
  rw [nested he hx hy hx' hy' hn gr _ hc]
  refine sum_congr rfl fun v hv => ?_
  rw [mem_range] at hv
  rw [h2.2.1 t (by omega) v (by omega), h3.2.1 v (by omega) c (by omega)]

/-! ### a concrete case -/

/-- one edge from `(0,0)` to `(2,1)` and one parallel to an axis from `(0,0)` to `(2,0)`, quadrature points `1/4` and `3/4` -/
def geo85 : Geo ℚ where
  x := ⟨3, fun i => if i = 0 then (0, 0) else if i = 1 then (2, 1) else (2, 0)⟩
  e := ⟨2, fun i => if i = 0 then (0, 1) else (0, 2)⟩
  n := ⟨2, fun _ => (1, -2)⟩
  g := ⟨2, fun _ => 2⟩
  nq := 2
  xx := ⟨2, fun i => if i = 0 then 1 / 4 else 3 / 4⟩
  ww := ⟨2, fun _ => 1 / 2⟩

def ref85 : Arr ℚ := ⟨2, fun i => if i = 0 then -(1 / 3) else 1 / 3⟩

theorem geo85_ok (rows : Nat) (h : rows ≤ 2) : GeoOk geo85 none rows where
  hidx := by intro a h; cases h
  e t ht := by show t < 2; omega
  g t ht := by show t < 2; omega
  n t ht := by show t < 2; omega
  x t ht := by
    obtain rfl | rfl : t = 0 ∨ t = 1 := by omega
    · exact ⟨by decide, by decide⟩
    · exact ⟨by decide, by decide⟩
  xx := le_rfl
  ww := le_rfl

theorem ref85_nodes : DistinctPts 2 ref85.v := by
  intro i hi j hj e
  obtain rfl | rfl : i = 0 ∨ i = 1 := by omega
  all_goals obtain rfl | rfl : j = 0 ∨ j = 1 := by omega
  all_goals first
    | rfl
    | (exfalso; norm_num [ref85] at e)

def mem85 : Mem ℚ := fun c => if c < 40 then some 0 else none

theorem mem85_valid (a : Mat) (h1 : a.rows ≤ a.ld) (h2 : ∀ i < a.rows, ∀ j < a.cols, a.addr i j < 40) : a.Valid mem85 :=
  ⟨h1, fun i hi j hj => by simp [mem85, h2 i hi j hj]⟩

/-- the low-rank block for the edge and the kernel `3 x y + y` is exact -/
example : ∃ s', interRow (1 / 10 : ℚ) 0 2 0 1 (fun _ => 7) 2 ref85 geo85 none
      (fun Z B s => forUp 0 4 (fun v (s : Mem ℚ) => do
        let z ← Z.get v
        s.write (B.addr 0 v) (3 * z.1 * z.2 + z.2)) s) ⟨0, 1, 1, 4⟩ ⟨4, 1, 1, 4⟩ mem85 = .ok s' ∧
    ∑ v ∈ range (2 * 2), (Mat.mk 0 1 1 4).val s' 0 v * (Mat.mk 4 1 1 4).val s' 0 v = edgeInt geo85 0 (fun x y => 3 * x * y + y) := by
  obtain ⟨s', e, -, h⟩ := C85_inter_row (K := ℚ) (eps := 1 / 10) (ax := 0) (bx := 2) (ay := 0) (by' := 1) (by norm_num) (by norm_num) (by norm_num) (junk := fun _ => 7) (m := 2)
    (x := ref85) le_rfl ref85_nodes (gr := geo85) (idx := none) (A := ⟨0, 1, 1, 4⟩) (B := ⟨4, 1, 1, 4⟩) (s := mem85) (geo85_ok 1 (by omega))
    (mem85_valid _ le_rfl (by intro i hi j hj; simp only [Mat.addr] at *; omega)) (mem85_valid _ le_rfl (by intro i hi j hj; simp only [Mat.addr] at *; omega)) rfl rfl
    (by rintro c ⟨i, hi, j, hj, rfl⟩ ⟨i', hi', j', hj', e⟩; simp only [Mat.addr] at *; omega)
    (kernelCol := fun Z B s => forUp 0 4 (fun v (s : Mem ℚ) => do
        let z ← Z.get v
        s.write (B.addr 0 v) (3 * z.1 * z.2 + z.2)) s) (b := fun _ x y => 3 * x * y + y) (by
      intro Z s hZ hB
      refine (forUp_tot (fun k (s' : Mem ℚ) => MatBecomes ⟨4, 1, 1, 4⟩ s (fun i v => if v < k then 3 * (Z.v v).1 * (Z.v v).2 + (Z.v v).2 else (Mat.mk 4 1 1 4).val s i v) s')
        (Nat.zero_le _) ?_ ?_).mono ?_
      · simp only [Nat.not_lt_zero, if_false]
        exact ⟨hB, fun _ _ _ _ => rfl, fun _ _ => rfl⟩
      · intro k s1 _ hk h1
        rw [Arr.get_ok (by omega), ok_bind]
        refine (HMat.write_entry h1 (k := 0) Nat.zero_lt_one hk _).mono fun s2 h2 => mb_congr h2 fun i hi j hj => ?_
        beta_reduce
        replace hi : i < 1 := hi
        by_cases e : j = k
        · rw [if_pos ⟨by omega, e⟩, if_pos (by omega), e]
        · rw [if_neg (fun h => e h.2)]
          have : (j < k) ↔ j < k + 1 := by omega
          simp only [this]
      · intro s2 h2
        refine mb_congr h2 fun i hi j hj => ?_
        beta_reduce
        rw [if_pos hj])
  refine ⟨s', e, (h 0 (by decide) 0 (by decide)).2 ?_⟩
  refine ⟨fun a b => if a = 1 ∧ b = 1 then 3 else if a = 0 ∧ b = 1 then 1 else 0, fun x y => ?_⟩
  simp [sum_range_succ]
  ring

/-- no quadrature point of the first edge is hit by the points `1/3`, `5/3` … -/
example : ∃ m', dnLagrangeConst geo85 none ⟨2, fun i => if i = 0 then 1 / 3 else 5 / 3⟩ ⟨2, fun i => if i = 0 then 1 / 3 else 5 / 3⟩ ⟨0, 1, 1, 4⟩ mem85 = .ok m' := by
  have hn : DistinctPts 2 (fun i : Nat => if i = 0 then (1 / 3 : ℚ) else 5 / 3) := by
    intro i hi j hj e
    obtain rfl | rfl : i = 0 ∨ i = 1 := by omega
    all_goals obtain rfl | rfl : j = 0 ∨ j = 1 := by omega
    all_goals first
      | rfl
      | (exfalso; norm_num at e)
  obtain ⟨m', e, -⟩ := C85_dn_lagrange_const (K := ℚ) (gr := geo85) (idx := none) (px := ⟨2, fun i => if i = 0 then 1 / 3 else 5 / 3⟩) (py := ⟨2, fun i => if i = 0 then 1 / 3 else 5 / 3⟩)
    (V := ⟨0, 1, 1, 4⟩) (m := mem85) (geo85_ok 1 (by omega)) hn hn (by
      intro t ht q hq
      obtain rfl : t = 0 := by change t < 1 at ht; omega
      change q < 2 at hq
      obtain rfl | rfl : q = 0 ∨ q = 1 := by omega
      all_goals
        constructor
        all_goals
          intro l hl
          change l < 2 at hl
          obtain rfl | rfl : l = 0 ∨ l = 1 := by omega
          all_goals norm_num [quadPt, edgeOf, geo85])
    (mem85_valid _ le_rfl (by intro i hi j hj; simp only [Mat.addr] at *; omega)) rfl
  exact ⟨m', e⟩

/-- … but the edge parallel to an axis has a second coordinate in common with the point `0`: division by zero -/
theorem C85_dn_lagrange_const_witness : dnLagrangeConst geo85 (some ⟨1, fun _ => 1⟩) ⟨2, fun i => if i = 0 then 1 / 3 else 5 / 3⟩ ⟨2, fun i => if i = 0 then 0 else 1⟩ ⟨0, 1, 1, 4⟩ mem85 =
    .error .nan := by
  have hn : ∀ a b : ℚ, a ≠ b → DistinctPts 2 (fun i : Nat => if i = 0 then a else b) := by
    intro a b hab i hi j hj e
    obtain rfl | rfl : i = 0 ∨ i = 1 := by omega
    all_goals obtain rfl | rfl : j = 0 ∨ j = 1 := by omega
    all_goals first
      | rfl
      | (exfalso; simp at e; first | exact hab e | exact hab e.symm)
  refine C85_dn_lagrange_const_nan (K := ℚ) ?_ (hn _ _ (by norm_num)) (hn _ _ (by norm_num))
    (mem85_valid _ le_rfl (by intro i hi j hj; simp only [Mat.addr] at *; omega)) rfl le_rfl le_rfl ?_
  · exact {
      hidx := by intro a h; cases h; exact le_rfl
      e := fun t ht => by show 1 < 2; omega
      g := fun t ht => by show 1 < 2; omega
      n := fun t ht => by show 1 < 2; omega
      x := fun t ht => ⟨by simp [edgeOf, geo85], by simp [edgeOf, geo85]⟩
      xx := le_rfl
      ww := le_rfl }
  · intro h
    exact (h 0 (by decide) 0 (by decide)).2 0 (by decide) (by norm_num [quadPt, edgeOf, geo85])

/-- the Chebyshev points meet the hypotheses of the theorems -/
example : DistinctPts 5 (chebyshev 5) := (C85_chebyshev 5).1

end H2.Props
