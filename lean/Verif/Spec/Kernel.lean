import Verif.Model.Kernel
import Verif.Spec.Project
import Mathlib.Algebra.Polynomial.Degree.Definitions
import Mathlib.Algebra.Polynomial.Eval.Defs

/-! Specifications for kernel matrices (C61). -/

namespace H2.Spec
variable {𝕜 : Type} [RCLike 𝕜]

/-- coordinate `d` of the multi-index with number `a`: multi-indices in `{0, ..., m-1}^dim` are numbered with the first coordinate running fastest -/
def digit (m a d : Nat) : Nat := a / m ^ d % m

/-- the `j`-th interpolation point in the interval `[bmin[d], bmax[d]]`: the `j`-th reference point transformed from `[-1, 1]` -/
noncomputable def knot (km : KM 𝕜) (t : Cluster ℝ) (d j : Nat) : ℝ :=
  (t.info.bmax d + t.info.bmin d) / 2 + (t.info.bmax d - t.info.bmin d) / 2 * km.xiRef j

/-- the tensor interpolation point with number `a` in the bounding box of `t` -/
noncomputable def knots (km : KM 𝕜) (t : Cluster ℝ) (a : Nat) : Fin km.dim → ℝ := fun d => knot km t d (digit km.m a d)

/-- the Lagrange polynomial for the point `xi i` among `xi 0, ..., xi (m-1)` -/
noncomputable def lag1 (m : Nat) (xi : Nat → ℝ) (i : Nat) (s : ℝ) : ℝ := ∏ j ∈ (Finset.range m).erase i, (s - xi j) / (xi i - xi j)

/-- the tensor Lagrange polynomial with number `a` for the bounding box of `t` -/
noncomputable def lag (km : KM 𝕜) (t : Cluster ℝ) (a : Nat) (x : Nat → ℝ) : ℝ := ∏ d ∈ Finset.range km.dim, lag1 km.m (knot km t d) (digit km.m a d) (x d)

/-- reference points are pairwise different -/
def Nodes (km : KM 𝕜) : Prop := ∀ i < km.m, ∀ j < km.m, km.xiRef i = km.xiRef j → i = j

/-- the bounding box has no side of length zero (only important if there is more than one interpolation point) -/
def NonFlat (km : KM 𝕜) (t : Cluster ℝ) : Prop := km.m ≤ 1 ∨ ∀ d < km.dim, t.info.bmin d ≠ t.info.bmax d

/-- the cluster can be used with the kernel matrix: dimension, non-degenerate box -/
def KCluster (km : KM 𝕜) (t : Cluster ℝ) : Prop := t.info.dim = km.dim ∧ NonFlat km t

/-- all clusters of a basis can be used with the kernel matrix -/
def KBasis (km : KM 𝕜) : CBV ℝ 𝕜 → Prop
  | .mk t _ _ _ _ _ _ son => KCluster km t.cl ∧ ∀ i, KBasis km (son i)

/-- the clusters of the sons partition the cluster, in all clusters of the tree -/
def KParts : CBV ℝ 𝕜 → Prop
  | .mk t _ _ _ _ _ n son => (0 < n → Segments t (fun i => (son i).t)) ∧ ∀ i, KParts (son i)

/-- the basis has been filled: rank `m^dim`, and in all clusters of the tree the entries of the basis are the values of the Lagrange polynomials of this cluster in the points -/
def Interpolates (km : KM 𝕜) (idx : Arr Nat) : CBV ℝ 𝕜 → Prop
  | .mk t k kt kb V E n son => k = km.m ^ km.dim ∧ (∀ r, In t r → ∀ a < k, vbasis (.mk t k kt kb V E n son) r a = (lag km t.cl a (km.x (idx.v r)) : 𝕜)) ∧ ∀ i, Interpolates km idx (son i)

/-- the clusters of two bases are the same -/
def KSameTree : CBV ℝ 𝕜 → CBV ℝ 𝕜 → Prop
  | .mk t _ _ _ _ _ n son, .mk t' _ _ _ _ _ n' son' => t' = t ∧ ∃ e : n' = n, ∀ i, KSameTree (son (Fin.cast e i)) (son' i)

/-- kernel value for two points -/
def kval (km : KM 𝕜) (i j : Nat) : 𝕜 := km.kernel (fun d => km.x i d) (fun d => km.x j d)

/-- interpolation of the kernel in both variables, evaluated in the points with numbers `i` and `j` -/
noncomputable def kinterp (km : KM 𝕜) (t s : Cluster ℝ) (i j : Nat) : 𝕜 :=
  ∑ a ∈ Finset.range (km.m ^ km.dim), ∑ b ∈ Finset.range (km.m ^ km.dim), (lag km t a (km.x i) : 𝕜) * km.kernel (knots km t a) (knots km s b) * (lag km s b (km.x j) : 𝕜)

/-- entries of the approximation described by the structure of an H²-matrix: kernel values in dense blocks, interpolated kernel in uniform blocks -/
def KEntries (km : KM 𝕜) (ridx cidx : Arr Nat) : H2V ℝ 𝕜 → Prop
  | .zero _ _ => False
  | .uni rb cb S => ∀ r c, In rb.cb.t r → In cb.cb.t c → h2vplace (.uni rb cb S) r c = kinterp km rb.cb.t.cl cb.cb.t.cl (ridx.v r) (cidx.v c)
  | .full rb cb f => ∀ r c, In rb.cb.t r → In cb.cb.t c → h2vplace (.full rb cb f) r c = kval km (ridx.v r) (cidx.v c)
  | .super _ _ _ _ son => ∀ i j, KEntries km ridx cidx (son i j)

/-- `f` is a polynomial of degree less than `m` in each of its variables (the other ones being fixed) -/
def SepPoly (m : Nat) {dim : Nat} (f : (Fin dim → ℝ) → 𝕜) : Prop :=
  ∀ d x, ∃ p : Polynomial 𝕜, p.degree < m ∧ ∀ s : ℝ, f (Function.update x d s) = p.eval (s : 𝕜)

/-- the kernel is a polynomial of degree less than `m` in each of its `2 dim` variables -/
def PolyKernel (km : KM 𝕜) : Prop := (∀ y, SepPoly km.m fun x => km.kernel x y) ∧ ∀ x, SepPoly km.m fun y => km.kernel x y

end H2.Spec
