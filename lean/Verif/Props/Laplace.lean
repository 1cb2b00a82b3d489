import Verif.Proof.Laplace

/-!
# C89: kernel functions for the Laplace equation

`g2` and `g3` are the fundamental solutions in two and three dimensions, `d1`, `d2`, `d12` the derivatives in given directions in the first argument, the second one, and
both, defined with Mathlib's `deriv` (Spec/Laplace.lean).  The points of evaluation are different from the source points.

In three dimensions and for the derivative in the first argument the code computes what its documentation promises.  In two dimensions the derivative in the second argument
has the wrong sign; this could be a convention for the normal vectors, but `fill_dnx_dny_kernel_laplacebem2d` computes neither the second derivative nor its negative
(`C89_dnx_dny_2d_false`), while `fill_dnzdcol_kernel_c_laplacebem2d` computes its negative.
-/

set_option linter.unusedSectionVars false

namespace H2.Props
open Spec Dense Lap

/-- `fill_kernel_laplacebem2d` -/
theorem C89_kernel_2d {X Y : Nat → P2} {V : Mat} {m : Mem ℝ} (hV : V.Valid m) (h : ∀ i < V.rows, ∀ j < V.cols, X i ≠ Y j) :
    ∃ m', fillKernel2 X Y V m = .ok m' ∧ MatBecomes V m (fun i j => g2 (X i) (Y j)) m' := fillKernel2_tot hV h

/-- `fill_dny_kernel_laplacebem2d` computes the negative of the derivative in the second argument. -/
theorem C89_dny_2d_partial {X Y NY : Nat → P2} {V : Mat} {m : Mem ℝ} (hV : V.Valid m) (h : ∀ i < V.rows, ∀ j < V.cols, X i ≠ Y j) :
    ∃ m', fillDny2 X Y NY V m = .ok m' ∧ MatBecomes V m (fun i j => -d2 g2 (NY j) (X i) (Y j)) m' := fillDny2_tot hV h

/-- `fill_dnx_dny_kernel_laplacebem2d` computes the negative of the mixed derivative with a wrong additional term. -/
theorem C89_dnx_dny_2d_partial {X NX Y NY : Nat → P2} {V : Mat} {m : Mem ℝ} (hV : V.Valid m) (h : ∀ i < V.rows, ∀ j < V.cols, X i ≠ Y j) :
    ∃ m', fillDnxDny2 X NX Y NY V m = .ok m' ∧ MatBecomes V m (fun i j => -d12 g2 (NX i) (NY j) (X i) (Y j) +
      4 * d1 g2 (NX i) (X i) (Y j) * (((X i).1 - (Y j).1) * (NY j).1 + ((X i).2 - (Y j).2) * (NY j).2) / (((X i).1 - (Y j).1) ^ 2 + ((X i).2 - (Y j).2) ^ 2)) m' :=
  fillDnxDny2_tot hV h

/-- The value is the mixed derivative, up to sign, for no choice of the sign of the normal vectors: a counterexample with unit vectors in the direction `(3/5, 4/5)` and `x - y = (1, 0)`. -/
theorem C89_dnx_dny_2d_false : ∃ (x y nx ny : P2) (m m' : Mem ℝ) (V : Mat), nx.1 ^ 2 + nx.2 ^ 2 = 1 ∧ ny.1 ^ 2 + ny.2 ^ 2 = 1 ∧ x ≠ y ∧ V.Valid m ∧ V.rows = 1 ∧ V.cols = 1 ∧
    fillDnxDny2 (fun _ => x) (fun _ => nx) (fun _ => y) (fun _ => ny) V m = .ok m' ∧
    V.val m' 0 0 ≠ d12 g2 nx ny x y ∧ V.val m' 0 0 ≠ -d12 g2 nx ny x y := by
  have hne : ((1, 0) : P2) ≠ (0, 0) := fun h => by simpa using congrArg Prod.fst h
  have hv : (Mat.mk 0 1 1 1).Valid (fun _ => some (0 : ℝ)) := ⟨le_rfl, fun _ _ _ _ => rfl⟩
  obtain ⟨m', e, _, h2, _⟩ := C89_dnx_dny_2d_partial (X := fun _ => ((1, 0) : P2)) (Y := fun _ => (0, 0)) (NX := fun _ => (3 / 5, 4 / 5)) (NY := fun _ => (3 / 5, 4 / 5))
    hv (fun _ _ _ _ => hne)
  have := h2 0 (by decide) 0 (by decide)
  refine ⟨(1, 0), (0, 0), (3 / 5, 4 / 5), (3 / 5, 4 / 5), _, m', _, by norm_num, by norm_num, hne, hv, rfl, rfl, e, ?_, ?_⟩
  · rw [this, d12_g2 _ _ hne, d1_g2 _ hne]
    unfold q2 kc
    norm_num
  · rw [this, d12_g2 _ _ hne, d1_g2 _ hne]
    unfold q2 kc
    norm_num

section Quadrature
variable {idx : Option (Nat → Nat)} {Z N : Nat → P2} {gr : Curve} {V : Mat} {m : Mem ℝ}

/-- `fill_kernel_c_laplacebem2d`: the quadrature rule applied to the fundamental solution on the edges. -/
theorem C89_kernel_c_2d (hV : V.Valid m)
    (h : ∀ s < V.rows, ∀ i < V.cols, ∀ q < gr.nq, Z i ≠ segPoint (gr.x (gr.e (at' idx s)).1) (gr.x (gr.e (at' idx s)).2) (gr.xx q)) :
    ∃ m', fillKernelC2 idx Z gr V m = .ok m' ∧ MatBecomes V m (fun s i => gr.g (at' idx s) * ∑ q ∈ Finset.range gr.nq,
      gr.ww q * g2 (Z i) (segPoint (gr.x (gr.e (at' idx s)).1) (gr.x (gr.e (at' idx s)).2) (gr.xx q))) m' := fillKernelC2_tot hV h

/-- `fill_dnz_kernel_c_laplacebem2d`: the quadrature rule applied to the derivative in the direction of `N`. -/
theorem C89_dnz_c_2d (hV : V.Valid m)
    (h : ∀ s < V.rows, ∀ i < V.cols, ∀ q < gr.nq, Z i ≠ segPoint (gr.x (gr.e (at' idx s)).1) (gr.x (gr.e (at' idx s)).2) (gr.xx q)) :
    ∃ m', fillDnzC2 idx Z N gr V m = .ok m' ∧ MatBecomes V m (fun s i => gr.g (at' idx s) * ∑ q ∈ Finset.range gr.nq,
      gr.ww q * d1 g2 (N i) (Z i) (segPoint (gr.x (gr.e (at' idx s)).1) (gr.x (gr.e (at' idx s)).2) (gr.xx q))) m' := fillDnzC2_tot hV h

/-- `fill_dcol_kernel_col_c_laplacebem2d`: the quadrature rule applied to the negative of the derivative in the direction of the normal vector of the edge. -/
theorem C89_dcol_c_2d_partial (hV : V.Valid m)
    (h : ∀ s < V.rows, ∀ i < V.cols, ∀ q < gr.nq, Z i ≠ segPoint (gr.x (gr.e (at' idx s)).1) (gr.x (gr.e (at' idx s)).2) (gr.xx q)) :
    ∃ m', fillDcolC2 idx Z gr V m = .ok m' ∧ MatBecomes V m (fun s i => gr.g (at' idx s) * ∑ q ∈ Finset.range gr.nq,
      gr.ww q * -d2 g2 (gr.n (at' idx s)) (Z i) (segPoint (gr.x (gr.e (at' idx s)).1) (gr.x (gr.e (at' idx s)).2) (gr.xx q))) m' := fillDcolC2_tot hV h

/-- `fill_dnzdcol_kernel_c_laplacebem2d`: the quadrature rule applied to the negative of the mixed derivative. -/
theorem C89_dnzdcol_c_2d_partial (hV : V.Valid m)
    (h : ∀ s < V.rows, ∀ i < V.cols, ∀ q < gr.nq, Z i ≠ segPoint (gr.x (gr.e (at' idx s)).1) (gr.x (gr.e (at' idx s)).2) (gr.xx q)) :
    ∃ m', fillDnzDcolC2 idx Z N gr V m = .ok m' ∧ MatBecomes V m (fun s i => gr.g (at' idx s) * ∑ q ∈ Finset.range gr.nq,
      gr.ww q * -d12 g2 (N i) (gr.n (at' idx s)) (Z i) (segPoint (gr.x (gr.e (at' idx s)).1) (gr.x (gr.e (at' idx s)).2) (gr.xx q))) m' := fillDnzDcolC2_tot hV h

end Quadrature

/-- the kernel functions of the single layer, double layer, adjoint double layer and hypersingular operator in three dimensions -/
theorem C89_kernels_3d {x y : P3} (h : x ≠ y) (a b : Option P3) (nx ny : P3) :
    slp x y a b = .ok (g3 x y) ∧ dlp x y a (some ny) = .ok (d2 g3 ny x y) ∧ adlp x y (some nx) b = .ok (d1 g3 nx x y) ∧
    hs x y (some nx) (some ny) = .ok (d12 g3 nx ny x y) :=
  ⟨slp_ok h a b, dlp_ok h a ny, adlp_ok h b nx, hs_ok h nx ny⟩

section Fill3
variable {X Y NX NY : Nat → P3} {V : Mat} {m : Mem ℝ} (c : ℝ)

/-- `fill_kernel_laplacebem3d` -/
theorem C89_fill_3d (hV : V.Valid m) (h : ∀ i < V.rows, ∀ j < V.cols, X i ≠ Y j) :
    ∃ m', fillKernel3 c X Y V m = .ok m' ∧ MatBecomes V m (fun i j => c * g3 (X i) (Y j)) m' :=
  fillBem3_tot hV fun i hi j hj => slp_ok (h i hi j hj) _ _

/-- `fill_dny_kernel_laplacebem3d` -/
theorem C89_fill_dny_3d (hV : V.Valid m) (h : ∀ i < V.rows, ∀ j < V.cols, X i ≠ Y j) :
    ∃ m', fillDny3 c X Y NY V m = .ok m' ∧ MatBecomes V m (fun i j => c * d2 g3 (NY j) (X i) (Y j)) m' :=
  fillBem3_tot hV fun i hi j hj => dlp_ok (h i hi j hj) _ _

/-- `fill_dnx_dny_kernel_laplacebem3d` -/
theorem C89_fill_dnx_dny_3d (hV : V.Valid m) (h : ∀ i < V.rows, ∀ j < V.cols, X i ≠ Y j) :
    ∃ m', fillDnxDny3 c X NX Y NY V m = .ok m' ∧ MatBecomes V m (fun i j => c * d12 g3 (NX i) (NY j) (X i) (Y j)) m' :=
  fillBem3_tot hV fun i hi j hj => hs_ok (h i hi j hj) _ _

end Fill3

/-! ### examples -/

/-- points `(i, 0)` and `(0, j + 1)` are different; a 2 x 3 matrix with leading dimension 4 -/
example : (Mat.mk 5 4 2 3).Valid (fun _ => some (0 : ℝ)) ∧ ∀ i : ℕ, i < 2 → ∀ j : ℕ, j < 3 → ((i : ℝ), (0 : ℝ)) ≠ (0, (j : ℝ) + 1) := by
  refine ⟨⟨by decide, fun _ _ _ _ => rfl⟩, fun i _ j _ h => ?_⟩
  have := congrArg Prod.snd h
  simp only at this
  have : (0 : ℝ) ≤ j := Nat.cast_nonneg j
  linarith

/-- the derivatives are not zero: `x - y = (1, 0)` -/
example : d1 g2 (1, 0) (1, 0) (0, 0) = kc ∧ d2 g2 (1, 0) (1, 0) (0, 0) = -kc := by
  have hne : ((1, 0) : P2) ≠ (0, 0) := fun h => by simpa using congrArg Prod.fst h
  rw [d1_g2 _ hne, d2_g2 _ hne]
  unfold q2
  norm_num

/-- the double layer kernel for `x - y = (0, 0, 2)` and the normal vector `(0, 0, 1)` -/
example : d2 g3 ![0, 0, 1] ![0, 0, 2] ![0, 0, 0] = 1 / 4 := by
  have hne : (![0, 0, 2] : P3) ≠ ![0, 0, 0] := fun h => by simpa using congrFun h 2
  rw [d2_g3 _ hne]
  have : normsqr3 (![0, 0, 2] - ![0, 0, 0]) = 2 ^ 2 := by simp [normsqr3]; norm_num
  rw [this, Real.sqrt_sq (by norm_num)]
  simp [dot3]; norm_num

end H2.Props
