import Verif.Proof.TriP1f
import Verif.Props.Tri2d

/-!
# C77: piecewise linear finite elements

`new_tri2dp1` numbers inner and boundary vertices; the sparse matrices have the positions of neighbouring vertices; the assembled matrices are the
stiffness and mass matrices of the nodal basis; load vectors and norms are given by the edge midpoint rule; the prolongation represents coarse
functions on the fine mesh and gives Galerkin matrices.
-/

namespace H2.Props
open Spec Tri2d

variable {m : Mesh ℝ} {dc : P1.Disc}

/-- C77: `new_tri2dp1` accepts every mesh: inner vertices are the degrees of freedom, and inner and boundary vertices are numbered consecutively. -/
theorem C77_numbering (jb : Nat → Bool) (jn : Nat → Nat) (hs : Sized m) : ∃ dc, P1.newDisc jb jn m = .ok dc ∧ Numbered m dc := P1.newDisc_tot hs jb jn

/-- C77: the system matrix is created with zero entries, and it has a position for each pair of degrees of freedom that belong to a common triangle, and no others. -/
theorem C77_build (jc : Nat → Nat) (jx : Nat → ℝ) (hm : ConsistentMesh m) (hn : Numbered m dc) (h0 : 0 < dc.ndof) :
    ∃ A, P1.buildMatrix jc jx dc false = .ok A ∧ CSR A ∧ A.rows = dc.ndof ∧ A.cols = dc.ndof ∧ (∀ i < dc.ndof, ∀ j, entry A i j = 0) ∧
      ∀ v ∈ innerV m, ∀ w ∈ innerV m, HasPos A (dc.idx.v v) (dc.idx.v w) ↔ Neighbours m v w := by
  obtain ⟨c, hc⟩ := P1.exists_corners hm
  obtain ⟨A, e, h1, h2, h3, h4, h5⟩ := P1.buildMatrix_tot hm.toLegal hc hn (fix := false) h0 h0 jc jx
  refine ⟨A, e, h1, h2, h3, h4, fun v hv w hw => ?_⟩
  rw [h5 _ (hn.dofs.1 hv)]
  exact P1.pos_neighbours hm.toLegal hc hn (fix := false) hv hw

/-- C77: the interaction matrix is created with zero entries, and it has a position for each pair of a degree of freedom and a boundary vertex that belong to a common triangle, and no others. -/
theorem C77_build_interaction (jc : Nat → Nat) (jx : Nat → ℝ) (hm : ConsistentMesh m) (hn : Numbered m dc) (h0 : 0 < dc.ndof) (h1 : 0 < dc.nfix) :
    ∃ A, P1.buildMatrix jc jx dc true = .ok A ∧ CSR A ∧ A.rows = dc.ndof ∧ A.cols = dc.nfix ∧ (∀ i < dc.ndof, ∀ j, entry A i j = 0) ∧
      ∀ v ∈ innerV m, ∀ w ∈ fixedV m, HasPos A (dc.idx.v v) (dc.idx.v w) ↔ Neighbours m v w := by
  obtain ⟨c, hc⟩ := P1.exists_corners hm
  obtain ⟨A, e, h1, h2, h3, h4, h5⟩ := P1.buildMatrix_tot hm.toLegal hc hn (fix := true) h0 h1 jc jx
  refine ⟨A, e, h1, h2, h3, h4, fun v hv w hw => ?_⟩
  rw [h5 _ (hn.dofs.1 hv)]
  exact P1.pos_neighbours hm.toLegal hc hn (fix := true) hv hw

/-- C77: without degrees of freedom the matrices cannot be created: the assertion of `new_sparsepattern` fails. -/
theorem C77_build_empty (jc : Nat → Nat) (jx : Nat → ℝ) (fix : Bool) (h0 : dc.ndof = 0) : P1.buildMatrix jc jx dc fix = .error .assertFail := by
  unfold P1.buildMatrix Pattern.new
  rw [h0]
  rfl

/-- C77: the matrices created by `build_tri2dp1_sparsematrix` and `build_tri2dp1_interaction_sparsematrix` are suitable for the assembly functions. -/
theorem C77_pattern (jc : Nat → Nat) (jx : Nat → ℝ) (hm : ConsistentMesh m) (hn : Numbered m dc) (h0 : 0 < dc.ndof) :
    (∃ A, P1.buildMatrix jc jx dc false = .ok A ∧ PatternFor m dc (innerV m) A) ∧ (0 < dc.nfix → ∃ A, P1.buildMatrix jc jx dc true = .ok A ∧ PatternFor m dc (fixedV m) A) := by
  constructor
  · obtain ⟨A, e, h1, h2, -, -, h3⟩ := C77_build jc jx hm hn h0
    exact ⟨A, e, h1, h2, fun v hv w hw h => (h3 v hv w hw).mpr h⟩
  · intro hf
    obtain ⟨A, e, h1, h2, -, -, h3⟩ := C77_build_interaction jc jx hm hn h0 hf
    exact ⟨A, e, h1, h2, fun v hv w hw h => (h3 v hv w hw).mpr h⟩

/-- C77: `assemble_tri2dp1_laplace_sparsematrix` adds the integrals of the products of the gradients of the nodal basis functions, for pairs of degrees of freedom to the first matrix
and for a degree of freedom and a boundary vertex to the second (which may be missing). -/
theorem C77_laplace (hm : ConsistentMesh m) {c : Nat → Nat × Nat × Nat} (hc : CornersAll m c) (hnd : NonDegenerate m c) (hn : Numbered m dc) {g : Nat → Nat → ℝ × ℝ} (hg : ∀ v, GradOf m c (hat v) (g v))
    {A : Sparse ℝ} (hA : PatternFor m dc (innerV m) A) {Af : Option (Sparse ℝ)} (hf : ∀ B, Af = some B → PatternFor m dc (fixedV m) B) :
    ∃ A' Af', P1.laplace dc A Af = .ok (A', Af') ∧ FormAdded m dc (innerV m) (fun v w => gradInt m c (g v) (g w)) A A' ∧ (Af = none → Af' = none) ∧
      ∀ B, Af = some B → ∃ B', Af' = some B' ∧ FormAdded m dc (fixedV m) (fun v w => gradInt m c (g v) (g w)) B B' := by
  obtain ⟨A', Af', e, h1, h2, h3⟩ := P1.assemble_form hm.toLegal hc hn (P1.laplace_elem hnd) hA hf
  refine ⟨A', Af', e, P1.added_congr h1 fun v _ w _ => (P1.energy_eq hnd (hg v) (hg w)).symm, h2, fun B hB => ?_⟩
  obtain ⟨B', e', h4⟩ := h3 B hB
  exact ⟨B', e', P1.added_congr h4 fun v _ w _ => (P1.energy_eq hnd (hg v) (hg w)).symm⟩

/-- C77: in a mesh without triangles of area zero every piecewise linear function has gradients. -/
theorem C77_gradients {c : Nat → Nat × Nat × Nat} (hnd : NonDegenerate m c) (u : Nat → ℝ) :
    ∃ g, GradOf m c u g ∧ ∀ g', GradOf m c u g' → ∀ d < m.triangles, g' d = g d := by
  refine ⟨fun d => P1.grd m c d u, P1.gradOf_grd hnd u, fun g' h d hd => (P1.grd_eq (hnd d hd) (h d hd)).symm⟩

/-- C77: the quadratic form of the assembled matrix is the energy: for all coefficient vectors `x`, `y` the product `xᵀ A y` is the integral of the product of the gradients of the
piecewise linear functions that have the values `x` and `y` in the inner vertices and vanish in the boundary vertices. -/
theorem C77_energy (hm : ConsistentMesh m) {c : Nat → Nat × Nat × Nat} (hc : CornersAll m c) (hnd : NonDegenerate m c) (hn : Numbered m dc) {A : Sparse ℝ} (hA : PatternFor m dc (innerV m) A)
    (hA0 : ∀ i < dc.ndof, ∀ j < dc.ndof, entry A i j = 0) :
    ∃ A', P1.laplace dc A none = .ok (A', none) ∧ ∀ (x y : Nat → ℝ) (g h : Nat → ℝ × ℝ), GradOf m c (dofFun dc x) g → GradOf m c (dofFun dc y) h →
      ∑ i ∈ Finset.range dc.ndof, ∑ j ∈ Finset.range dc.ndof, x i * y j * entry A' i j = gradInt m c g h := by
  obtain ⟨A', Af', e, h1, h2, -⟩ := P1.assemble_form hm.toLegal hc hn (P1.laplace_elem hnd) hA (Af := none) (fun B hB => by cases hB)
  rw [h2 rfl] at e
  refine ⟨A', e, fun x y g h hg hh => ?_⟩
  rw [P1.bilinear_of hm.toLegal hc hn (fun d hd w hw => (P1.laplace_elem hnd d hd w hw).imp fun At h => h.2) h1 x y, P1.energy_eq hnd hg hh]
  have : ∑ i ∈ Finset.range dc.ndof, ∑ j ∈ Finset.range dc.ndof, x i * y j * entry A i j = 0 := by
    refine Finset.sum_eq_zero fun i hi => Finset.sum_eq_zero fun j hj => ?_
    rw [hA0 i (Finset.mem_range.mp hi) j (Finset.mem_range.mp hj), mul_zero]
  rw [this, zero_add]

/-- C77: if every inner vertex is linked to a boundary vertex by a chain of triangles, the assembled system matrix is positive definite. -/
theorem C77_definite (hm : ConsistentMesh m) {c : Nat → Nat × Nat × Nat} (hc : CornersAll m c) (hnd : NonDegenerate m c) (hn : Numbered m dc) {A : Sparse ℝ} (hA : PatternFor m dc (innerV m) A)
    (hA0 : ∀ i < dc.ndof, ∀ j < dc.ndof, entry A i j = 0) (hlink : ∀ v ∈ innerV m, ∃ w ∈ fixedV m, Linked m v w) :
    ∃ A', P1.laplace dc A none = .ok (A', none) ∧ (∀ i < dc.ndof, ∀ j < dc.ndof, entry A' i j = entry A' j i) ∧
      ∀ x : Nat → ℝ, (∃ i < dc.ndof, x i ≠ 0) → 0 < ∑ i ∈ Finset.range dc.ndof, ∑ j ∈ Finset.range dc.ndof, x i * x j * entry A' i j := by
  obtain ⟨A', e, h⟩ := C77_energy hm hc hnd hn hA hA0
  refine ⟨A', e, fun i hi j hj => ?_, fun x hx => ?_⟩
  · obtain ⟨gi, hgi, -⟩ := C77_gradients hnd (dofFun dc (fun k => if k = i then 1 else 0))
    obtain ⟨gj, hgj, -⟩ := C77_gradients hnd (dofFun dc (fun k => if k = j then 1 else 0))
    have h1 := h _ _ _ _ hgi hgj
    have h2 := h _ _ _ _ hgj hgi
    have key : ∀ a < dc.ndof, ∀ b < dc.ndof, ∑ k ∈ Finset.range dc.ndof, ∑ l ∈ Finset.range dc.ndof, (if k = a then (1 : ℝ) else 0) * (if l = b then 1 else 0) * entry A' k l = entry A' a b := by
      intro a ha b hb
      rw [Finset.sum_eq_single_of_mem a (Finset.mem_range.mpr ha) fun k _ hk => by simp [hk], Finset.sum_eq_single_of_mem b (Finset.mem_range.mpr hb) fun l _ hl => by simp [hl]]
      simp
    rw [key i hi j hj] at h1
    rw [key j hj i hi] at h2
    rw [h1, h2]
    unfold gradInt
    refine Finset.sum_congr rfl fun d _ => ?_
    ring
  · obtain ⟨g, hg, -⟩ := C77_gradients hnd (dofFun dc x)
    rw [h x x g g hg hg]
    have hnn : 0 ≤ gradInt m c g g := Finset.sum_nonneg fun d _ => mul_nonneg (by unfold triArea; positivity) (add_nonneg (mul_self_nonneg _) (mul_self_nonneg _))
    refine lt_of_le_of_ne hnn fun h0 => ?_
    obtain ⟨i, hi, hxi⟩ := hx
    obtain ⟨v, hv, rfl⟩ := hn.dofs.2.2 hi
    obtain ⟨w, hw, hl⟩ := hlink v hv
    have hconst : dofFun dc x v = dofFun dc x w := by
      clear hw hxi
      induction hl with
      | refl => rfl
      | tail _ hn' ih => exact ih.trans (P1.energy_zero hc hnd hg h0.symm hn')
    have e1 : dofFun dc x v = x (dc.idx.v v) := if_pos (P1.inner_dof hn hv)
    have e2 : dofFun dc x w = 0 := by
      unfold dofFun
      rw [P1.fixed_dof hn hw]
      rfl
    exact hxi (by rw [← e1, hconst, e2])

/-- C77: a triangle of area zero makes the assembly fail with a division by zero (`NaN` entries in floating point arithmetic). -/
theorem C77_laplace_degenerate (hm : ConsistentMesh m) {c : Nat → Nat × Nat × Nat} (hc : CornersAll m c) (hn : Numbered m dc) (hdeg : ¬ NonDegenerate m c) {A : Sparse ℝ} (hA : PatternFor m dc (innerV m) A)
    {Af : Option (Sparse ℝ)} (hf : ∀ B, Af = some B → PatternFor m dc (fixedV m) B) : P1.laplace dc A Af = .error .nan := P1.laplace_nan hm.toLegal hc hn hdeg hA hf

/-- C77: `assemble_tri2dp1_mass_sparsematrix` adds the integrals of the products of the nodal basis functions. -/
theorem C77_mass (hm : ConsistentMesh m) {c : Nat → Nat × Nat × Nat} (hc : CornersAll m c) (hn : Numbered m dc) {A : Sparse ℝ} (hA : PatternFor m dc (innerV m) A)
    {Af : Option (Sparse ℝ)} (hf : ∀ B, Af = some B → PatternFor m dc (fixedV m) B) :
    ∃ A' Af', P1.mass dc A Af = .ok (A', Af') ∧ FormAdded m dc (innerV m) (fun v w => meshInt m c fun d s t => linAt c (hat v) d s t * linAt c (hat w) d s t) A A' ∧ (Af = none → Af' = none) ∧
      ∀ B, Af = some B → ∃ B', Af' = some B' ∧ FormAdded m dc (fixedV m) (fun v w => meshInt m c fun d s t => linAt c (hat v) d s t * linAt c (hat w) d s t) B B' :=
  P1.assemble_form hm.toLegal hc hn (P1.mass_elem m c) hA hf

/-- C77: the quadratic form of the assembled mass matrix is the `L²` inner product of the functions with the given values in the inner vertices that vanish in the boundary vertices. -/
theorem C77_mass_form (hm : ConsistentMesh m) {c : Nat → Nat × Nat × Nat} (hc : CornersAll m c) (hn : Numbered m dc) {A : Sparse ℝ} (hA : PatternFor m dc (innerV m) A)
    (hA0 : ∀ i < dc.ndof, ∀ j < dc.ndof, entry A i j = 0) :
    ∃ A', P1.mass dc A none = .ok (A', none) ∧ ∀ (x y : Nat → ℝ), ∑ i ∈ Finset.range dc.ndof, ∑ j ∈ Finset.range dc.ndof, x i * y j * entry A' i j =
      meshInt m c fun d s t => linAt c (dofFun dc x) d s t * linAt c (dofFun dc y) d s t := by
  obtain ⟨A', Af', e, h1, h2, -⟩ := P1.assemble_form hm.toLegal hc hn (P1.mass_elem m c) hA (Af := none) (fun B hB => by cases hB)
  rw [h2 rfl] at e
  refine ⟨A', e, fun x y => ?_⟩
  rw [P1.bilinear_of hm.toLegal hc hn (fun d hd w hw => (P1.mass_elem m c d hd w hw).imp fun At h => h.2) h1 x y]
  have : ∑ i ∈ Finset.range dc.ndof, ∑ j ∈ Finset.range dc.ndof, x i * y j * entry A i j = 0 := by
    refine Finset.sum_eq_zero fun i hi => Finset.sum_eq_zero fun j hj => ?_
    rw [hA0 i (Finset.mem_range.mp hi) j (Finset.mem_range.mp hj), mul_zero]
  rw [this, zero_add]
  rfl

/-- C77: `assemble_tri2dp1_dirichlet_avector` writes the values of the function (zero for a null pointer) in the boundary vertices into the vector. -/
theorem C77_dirichlet (hm : ConsistentMesh m) (hn : Numbered m dc) (g : Option (ℝ × ℝ → ℝ)) {dv : Arr ℝ} (hd : dv.n = dc.nfix) :
    ∃ r, P1.dirichlet dc g dv = .ok r ∧ r.n = dc.nfix ∧ ∀ v ∈ fixedV m, r.v (dc.idx.v v) = match g with | none => 0 | some g => g (pt m v) :=
  P1.dirichlet_tot hm.toLegal hn g hd

/-- C77: `assemble_tri2dp1_functional_avector` overwrites the vector by the integrals of the product of the function and the nodal basis functions, approximated by the edge midpoint rule. -/
theorem C77_functional (hm : ConsistentMesh m) {c : Nat → Nat × Nat × Nat} (hc : CornersAll m c) (hn : Numbered m dc) (f : ℝ × ℝ → ℝ) {fv : Arr ℝ} (hf : fv.n = dc.ndof) :
    ∃ r, P1.functional dc f fv = .ok r ∧ r.n = dc.ndof ∧ ∀ v ∈ innerV m, r.v (dc.idx.v v) = midInt m c fun d s t => f (refPt (tp0 m c d) (tp1 m c d) (tp2 m c d) s t) * linAt c (hat v) d s t :=
  P1.functional_tot hm.toLegal hc hn f hf

/-- C77: the load vector is exact for affine functions. -/
theorem C77_functional_exact (hm : ConsistentMesh m) {c : Nat → Nat × Nat × Nat} (hc : CornersAll m c) (hn : Numbered m dc) (α β γ : ℝ) {fv : Arr ℝ} (hf : fv.n = dc.ndof) :
    ∃ r, P1.functional dc (fun x => α + β * x.1 + γ * x.2) fv = .ok r ∧ ∀ v ∈ innerV m, r.v (dc.idx.v v) =
      meshInt m c fun d s t => (α + β * (refPt (tp0 m c d) (tp1 m c d) (tp2 m c d) s t).1 + γ * (refPt (tp0 m c d) (tp1 m c d) (tp2 m c d) s t).2) * linAt c (hat v) d s t := by
  obtain ⟨r, e, -, h⟩ := C77_functional hm hc hn (fun x => α + β * x.1 + γ * x.2) hf
  refine ⟨r, e, fun v hv => ?_⟩
  rw [h v hv]
  refine P1.mid_exact m c fun d _ => P1.quad_of_lin ?_ (P1.lin_linAt c (hat v) d)
  refine ⟨α + β * (tp0 m c d).1 + γ * (tp0 m c d).2, β * ((tp1 m c d).1 - (tp0 m c d).1) + γ * ((tp1 m c d).2 - (tp0 m c d).2),
    β * ((tp2 m c d).1 - (tp0 m c d).1) + γ * ((tp2 m c d).2 - (tp0 m c d).2), fun s t => ?_⟩
  unfold refPt
  ring

/-- C77: `normmax_tri2dp1` computes the maximum of the errors in the inner vertices. -/
theorem C77_normmax (hm : ConsistentMesh m) (hn : Numbered m dc) (u : ℝ × ℝ → ℝ) {xs : Arr ℝ} (hx : xs.n = dc.ndof) :
    ∃ r, P1.normmax dc u xs = .ok r ∧ 0 ≤ r ∧ (∀ v ∈ innerV m, |u (pt m v) - xs.v (dc.idx.v v)| ≤ r) ∧ (r = 0 ∨ ∃ v ∈ innerV m, r = |u (pt m v) - xs.v (dc.idx.v v)|) :=
  P1.normmax_tot hm.toLegal hn u hx

/-- C77: `norml2_tri2dp1` computes the `L²` norm of the difference of a piecewise linear function and a given function by the edge midpoint rule. -/
theorem C77_norml2 (hm : ConsistentMesh m) {c : Nat → Nat × Nat × Nat} (hc : CornersAll m c) (hn : Numbered m dc) (f : ℝ × ℝ → ℝ) {b bf : Option (Arr ℝ)} (hb : ∀ a, b = some a → a.n = dc.ndof)
    (hbf : ∀ a, bf = some a → a.n = dc.nfix) :
    P1.norml2 dc (some f) b bf = .ok √(midInt m c fun d s t => (linAt c (valuesOf dc b bf) d s t - f (refPt (tp0 m c d) (tp1 m c d) (tp2 m c d) s t)) ^ 2) :=
  P1.norml2_tot hm.toLegal hc hn (some f) (P1.dimOk_of hb) (P1.dimOk_of hbf)

/-- C77: without a given function the result is the exact `L²` norm of the piecewise linear function. -/
theorem C77_norml2_exact (hm : ConsistentMesh m) {c : Nat → Nat × Nat × Nat} (hc : CornersAll m c) (hn : Numbered m dc) {b bf : Option (Arr ℝ)} (hb : ∀ a, b = some a → a.n = dc.ndof)
    (hbf : ∀ a, bf = some a → a.n = dc.nfix) :
    P1.norml2 dc none b bf = .ok √(meshInt m c fun d s t => linAt c (valuesOf dc b bf) d s t ^ 2) := by
  rw [P1.norml2_tot hm.toLegal hc hn none (P1.dimOk_of hb) (P1.dimOk_of hbf)]
  congr 2
  have e : P1.l2fun m c none (valuesOf dc b bf) = fun d s t => linAt c (valuesOf dc b bf) d s t * linAt c (valuesOf dc b bf) d s t := by
    funext d s t
    unfold P1.l2fun
    ring
  rw [e, P1.mid_exact m c fun d _ => P1.quad_of_lin (P1.lin_linAt c _ d) (P1.lin_linAt c _ d)]
  congr 1
  funext d s t
  ring

/-- C77: the prolongation matrix between a mesh and its regular refinement has the values of the coarse nodal basis functions in the inner vertices of the fine mesh as its entries. -/
theorem C77_prolongation (jc : Nat → Nat) (jx : Nat → ℝ) {r : Mesh ℝ} {f : Ref} {df dcc : P1.Disc} (hm : ConsistentMesh m) (hr : Refinement m r) (hf : Fathers m r f) (hnf : Numbered r df) (hnc : Numbered m dcc)
    (h0 : 0 < df.ndof) (h1 : 0 < dcc.ndof) :
    ∃ P, P1.prolongation jc jx df dcc f = .ok (some P) ∧ CSR P ∧ P.rows = df.ndof ∧ P.cols = dcc.ndof ∧
      ∀ v ∈ innerV r, ∀ z ∈ innerV m, entry P (df.idx.v v) (dcc.idx.v z) = prolonged m (hat z) v :=
  P1.prolongation_tot hm.toLegal hr hf hnf hnc h0 h1 jc jx

/-- C77: the prolonged values are the values of the same function: it is linear in the triangles of the refined mesh and has the same gradients. -/
theorem C77_prolonged {r : Mesh ℝ} (hm : ConsistentMesh m) (hmr : ConsistentMesh r) (hr : Refinement m r) {c cr : Nat → Nat × Nat × Nat} (hc : CornersAll m c) (hcr : CornersAll r cr) {u : Nat → ℝ} {g : Nat → ℝ × ℝ}
    (hg : GradOf m c u g) : GradOf r cr (prolonged m u) (fun d => g (d / 4)) ∧ ∀ v < m.vertices, prolonged m u v = u v :=
  ⟨P1.grad_refine hm.toLegal hmr.toLegal hr hc hcr hg, fun _ hv => P1.prolonged_old hv⟩

/-- C77: Galerkin property.  For a consistent mesh (boundary flags 0 and 1) without triangles of area zero and with inner vertices: after refinement, numbering, assembly on both meshes and
construction of the prolongation, the coarse matrix is the product `Pᵀ A P` with the fine matrix. -/
theorem C77_galerkin (jxm : Nat → ℝ) (jb : Nat → Bool) (jn jc : Nat → Nat) (jx : Nat → ℝ) (hm : ConsistentMesh m) (hb : ∀ f < m.edges, m.eb.v f ≤ 1) {c : Nat → Nat × Nat × Nat} (hc : CornersAll m c)
    (hnd : NonDegenerate m c) (hin : (innerV m).Nonempty) :
    ∃ (r : Mesh ℝ) (f : Ref) (dcc df : P1.Disc) (Z Zf A Af P : Sparse ℝ), refineTri2d jxm jn true m = .ok (r, f) ∧ P1.newDisc jb jn m = .ok dcc ∧ P1.newDisc jb jn r = .ok df ∧
      P1.buildMatrix jc jx dcc false = .ok Z ∧ P1.buildMatrix jc jx df false = .ok Zf ∧ P1.laplace dcc Z none = .ok (A, none) ∧ P1.laplace df Zf none = .ok (Af, none) ∧
      P1.prolongation jc jx df dcc f = .ok (some P) ∧ Af.rows = df.ndof ∧ ∀ i < dcc.ndof, ∀ j < dcc.ndof, entry A i j = tripleProduct df.ndof P Af i j := by
  obtain ⟨r, f, e1, hr, hmr, hf⟩ := C51_refine jxm jn true hm
  replace hf := hf rfl
  obtain ⟨dcc, e2, hnc⟩ := C77_numbering jb jn hm.toSized
  obtain ⟨df, e3, hnf⟩ := C77_numbering jb jn hmr.toSized
  obtain ⟨cr, hcr⟩ := P1.exists_corners hmr
  have hndr := P1.nonDegenerate_refine hm.toLegal hmr.toLegal hr hc hcr hnd
  obtain ⟨v0, hv0⟩ := hin
  have h0c : 0 < dcc.ndof := lt_of_le_of_lt (Nat.zero_le _) (hnc.dofs.1 hv0)
  have hv0r : v0 ∈ innerV r := ⟨by rw [hr.vertices]; exact Nat.lt_add_right _ hv0.1, by rw [(hr.old v0 hv0.1).2]; exact hv0.2⟩
  have h0f : 0 < df.ndof := lt_of_le_of_lt (Nat.zero_le _) (hnf.dofs.1 hv0r)
  obtain ⟨Z, e4, z1, z2, -, z3, z4⟩ := C77_build jc jx hm hnc h0c
  obtain ⟨Zf, e5, y1, y2, -, y3, y4⟩ := C77_build jc jx hmr hnf h0f
  have hZ : PatternFor m dcc (innerV m) Z := ⟨z1, z2, fun v hv w hw h => (z4 v hv w hw).mpr h⟩
  have hZf : PatternFor r df (innerV r) Zf := ⟨y1, y2, fun v hv w hw h => (y4 v hv w hw).mpr h⟩
  obtain ⟨A, e6, hA⟩ := C77_energy hm hc hnd hnc hZ fun i hi j _ => z3 i hi j
  obtain ⟨Af, e7, hAf⟩ := C77_energy hmr hcr hndr hnf hZf fun i hi j _ => y3 i hi j
  choose g hg _ using fun v => C77_gradients hnd (hat v)
  obtain ⟨A2, B2, e6', hA2, -, -⟩ := C77_laplace hm hc hnd hnc hg hZ (Af := none) (fun B hB => by cases hB)
  choose gr hgr _ using fun v => C77_gradients hndr (hat v)
  obtain ⟨A3, B3, e7', hA3, -, -⟩ := C77_laplace hmr hcr hndr hnf hgr hZf (Af := none) (fun B hB => by cases hB)
  rw [e6] at e6'
  rw [e7] at e7'
  obtain ⟨rfl, -⟩ := Prod.mk.inj (Except.ok.inj e6')
  obtain ⟨rfl, -⟩ := Prod.mk.inj (Except.ok.inj e7')
  obtain ⟨P, e8, -, -, -, hP⟩ := C77_prolongation jc jx hm hr hf hnf hnc h0f h0c
  refine ⟨r, f, dcc, df, Z, Zf, A, Af, P, e1, e2, e3, e4, e5, e6, e7, e8, hA3.rows.trans y2, fun i hi j hj => ?_⟩
  obtain ⟨v, hv, rfl⟩ := hnc.dofs.2.2 hi
  obtain ⟨w, hw, rfl⟩ := hnc.dofs.2.2 hj
  have hgv := P1.gradOf_congr hmr.toLegal hcr (P1.column_fun hm hb hr (dcc := dcc) hnf hv fun x hx => hP x hx v hv) (P1.grad_refine hm.toLegal hmr.toLegal hr hc hcr (hg v))
  have hgw := P1.gradOf_congr hmr.toLegal hcr (P1.column_fun hm hb hr (dcc := dcc) hnf hw fun x hx => hP x hx w hw) (P1.grad_refine hm.toLegal hmr.toLegal hr hc hcr (hg w))
  unfold tripleProduct
  rw [hAf _ _ _ _ hgv hgw, P1.energy_refine hm.toLegal hmr.toLegal hr hc hcr, hA2.entries v hv w hw, z3 _ hi, zero_add]

/-! ### The unit circle: one inner vertex, four boundary vertices -/

theorem circle_inner : innerV (newUnitcircle : Mesh ℝ) = {0} := by
  ext v
  constructor
  · rintro ⟨h1, h2⟩
    have h1' : v < 5 := h1
    have : v = 0 ∨ v = 1 ∨ v = 2 ∨ v = 3 ∨ v = 4 := by omega
    rcases this with rfl | rfl | rfl | rfl | rfl
    · rfl
    all_goals exact absurd (show (1 : Nat) = 0 from h2) (by omega)
  · rintro rfl
    exact ⟨show 0 < 5 by omega, rfl⟩

theorem circle_nonDegenerate {c : Nat → Nat × Nat × Nat} (hc : CornersAll (newUnitcircle : Mesh ℝ) c) : NonDegenerate (newUnitcircle : Mesh ℝ) c := P1.circle_area (C51_builtin (K := ℝ)).2.1.toLegal hc

/-- the hypotheses of the Galerkin property are satisfied by the built-in unit circle -/
example : ∃ c, CornersAll (newUnitcircle : Mesh ℝ) c ∧ NonDegenerate (newUnitcircle : Mesh ℝ) c ∧ (innerV (newUnitcircle : Mesh ℝ)).Nonempty ∧ (∀ f < (newUnitcircle : Mesh ℝ).edges, (newUnitcircle : Mesh ℝ).eb.v f ≤ 1) ∧
    (∀ v ∈ innerV (newUnitcircle : Mesh ℝ), ∃ w ∈ fixedV (newUnitcircle : Mesh ℝ), Linked newUnitcircle v w) := by
  obtain ⟨c, hc⟩ := P1.exists_corners (C51_builtin (K := ℝ)).2.1
  refine ⟨c, hc, circle_nonDegenerate hc, ⟨0, by rw [circle_inner]; rfl⟩, ?_, ?_⟩
  · intro f hf
    have hf' : f < 8 := hf
    interval_cases f <;> decide
  · rw [circle_inner]
    rintro v rfl
    refine ⟨1, ⟨show 1 < 5 by omega, show (1 : Nat) ≠ 0 by omega⟩, Relation.ReflTransGen.single ?_⟩
    exact P1.circle_neighbours

/-- a consistent mesh with triangles of area zero: all vertices of the unit circle in one point -/
noncomputable def flatCircle : Mesh ℝ := { (newUnitcircle : Mesh ℝ) with x := ⟨10, fun _ => 0⟩ }

example : ConsistentMesh flatCircle ∧ ∀ c, CornersAll flatCircle c → ¬ NonDegenerate flatCircle c := by
  refine ⟨C51_checked_consistent (fun _ => 0) ⟨rfl, rfl, rfl, rfl, rfl⟩ (simple_of _ _ rfl rfl 8 4 rfl rfl (by decide)) rfl, fun c _ h => ?_⟩
  refine h 0 (show 0 < 4 by omega) ?_
  have hp : ∀ v, pt flatCircle v = (0, 0) := fun _ => rfl
  unfold tp0 tp1 tp2 area2
  rw [hp, hp, hp]
  norm_num

/-- the matrices of the unit circle can be built and assembled, and the unit square has no degree of freedom -/
example (jb : Nat → Bool) (jn jc : Nat → Nat) (jx : Nat → ℝ) : (∃ dc A, P1.newDisc jb jn newUnitcircle = .ok dc ∧ dc.ndof = 1 ∧ P1.buildMatrix jc jx dc false = .ok A) ∧
    ∃ dc, P1.newDisc jb jn newUnitsquare = .ok dc ∧ P1.buildMatrix jc jx dc false = .error .assertFail := by
  constructor
  · obtain ⟨dc, e, hn⟩ := C77_numbering jb jn (C51_builtin (K := ℝ)).2.1.toSized
    have hd := hn.dofs
    rw [circle_inner] at hd
    have h1 : dc.ndof = 1 := by
      have := hd.image_eq
      rw [Set.image_singleton] at this
      have h0 : (0 : Nat) ∈ Set.Iio dc.ndof := by
        have : dc.idx.v 0 ∈ Set.Iio dc.ndof := hd.1 rfl
        exact lt_of_le_of_lt (Nat.zero_le _) this
      have e0 : (0 : Nat) = dc.idx.v 0 := by rw [← this] at h0; exact h0
      by_contra hne
      have h2 : (1 : Nat) ∈ Set.Iio dc.ndof := by
        show 1 < dc.ndof
        have : 0 < dc.ndof := h0
        omega
      rw [← this] at h2
      have : (1 : Nat) = dc.idx.v 0 := h2
      omega
    obtain ⟨A, eA, -⟩ := C77_build jc jx (C51_builtin (K := ℝ)).2.1 hn (by omega)
    exact ⟨dc, A, e, h1, eA⟩
  · obtain ⟨dc, e, hn⟩ := C77_numbering jb jn (C51_builtin (K := ℝ)).1.toSized
    refine ⟨dc, e, C77_build_empty jc jx false ?_⟩
    by_contra hne
    have h0 : 0 ∈ Set.Iio dc.ndof := Nat.pos_of_ne_zero hne
    obtain ⟨v, ⟨hv, hx⟩, -⟩ := hn.dofs.2.2 h0
    have hv' : v < 4 := hv
    have hx' : (arrOf (0 : Nat) [1, 1, 1, 1]).v v = 0 := hx
    interval_cases v <;> exact absurd hx' (by decide)

end H2.Props
