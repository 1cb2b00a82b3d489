import Verif.Proof.Kernel3
import Verif.Props.Collect

/-!
# C61: kernel matrices are approximated by tensor interpolation

`lag km t a` is the tensor Lagrange polynomial with number `a` for the bounding box of the cluster `t`, `knots km t a` the corresponding interpolation point,
`Interpolates km idx cb` says that all clusters of the basis (not only the leaves) represent Lagrange polynomials (Spec/Kernel.lean).
-/

set_option linter.unusedSectionVars false

namespace H2.Props
open Spec Kern
variable {𝕜 : Type} [RCLike 𝕜]

/-- `new_kernelmatrix` sets up pairwise different interpolation points in `[-1, 1]` for all orders; at least one point is needed. -/
theorem C61_new {dim points m : Nat} (kernel : (Fin dim → ℝ) → (Fin dim → ℝ) → 𝕜) (junk : Nat → ℝ) :
    (0 < points → ∃ km, KM.new dim points m kernel junk = .ok km ∧ Nodes km ∧ (∀ i < m, km.xiRef i ∈ Set.Icc (-1) 1) ∧ km.dim = dim ∧ km.points = points ∧ km.m = m) ∧
    (points = 0 → KM.new dim points m kernel junk = .error .ub) := by
  refine ⟨fun h => ⟨_, if_pos h, cheb_inj m, fun i _ => ⟨Real.neg_one_le_cos _, Real.cos_le_one _⟩, rfl, rfl, rfl⟩, fun h => if_neg (by omega)⟩

/-- `fillN_kernelmatrix`: all entries become kernel values; the index arrays are used if they are given. -/
theorem C61_nearfield {km : KM 𝕜} {ridx cidx : Option (Arr Nat × Nat)} {N : VMat 𝕜} {ri ci : Nat → Nat}
    (hr : match ridx with | none => N.rows ≤ km.points ∧ ri = id | some (idx, off) => off + N.rows ≤ idx.n ∧ (∀ i < N.rows, idx.v (off + i) < km.points) ∧ ri = fun i => idx.v (off + i))
    (hc : match cidx with | none => N.cols ≤ km.points ∧ ci = id | some (idx, off) => off + N.cols ≤ idx.n ∧ (∀ j < N.cols, idx.v (off + j) < km.points) ∧ ci = fun j => idx.v (off + j)) :
    ∃ N', km.fillN ridx cidx N = .ok N' ∧ N'.rows = N.rows ∧ N'.cols = N.cols ∧ ∀ i < N.rows, ∀ j < N.cols, N'.e i j = kval km (ri i) (ci j) := by
  refine fillN_gen (fun i hi => ?_) (fun j hj => ?_) ?_ ?_
  · cases ridx with
    | none => rw [hr.2]; exact ⟨rfl, by have := hr.1; show i < _; omega⟩
    | some p => rw [hr.2.2]; exact ⟨if_pos (by have := hr.1; omega), hr.2.1 i hi⟩
  · cases cidx with
    | none => rw [hc.2]; exact ⟨rfl, by have := hc.1; show j < _; omega⟩
    | some p => rw [hc.2.2]; exact ⟨if_pos (by have := hc.1; omega), hc.2.1 j hj⟩
  · rintro rfl; exact hr.1
  · rintro rfl; exact hc.1

/-- `fillS_kernelmatrix`: in any dimension, every entry is the kernel evaluated in the interpolation points numbered by its row and column. -/
theorem C61_coupling {km : KM 𝕜} {junk : Nat → ℝ} (hm : 0 < km.m) (hd : 0 < km.dim) {t s : Cluster ℝ} (ht : t.info.dim = km.dim) (hs : s.info.dim = km.dim) {S : VMat 𝕜}
    (h1 : S.rows = km.m ^ km.dim) (h2 : S.cols = km.m ^ km.dim) :
    ∃ S', km.fillS junk t s S = .ok S' ∧ S'.rows = km.m ^ km.dim ∧ S'.cols = km.m ^ km.dim ∧ ∀ a < km.m ^ km.dim, ∀ b < km.m ^ km.dim, S'.e a b = km.kernel (knots km t a) (knots km s b) :=
  fillS_tot hm hd ht hs h1 h2

/-- `fill_clusterbasis_kernelmatrix`: for every cluster tree with non-degenerate boxes the basis is filled; its rank is `m^dim`, it is consistent, and because interpolation reproduces
polynomials, in every cluster of the tree its columns are the Lagrange polynomials of this cluster evaluated in the points. -/
theorem C61_basis {km : KM 𝕜} {idx : Arr Nat} {junk : Nat → 𝕜} (hm : 0 < km.m) (hd : 0 < km.dim) (hn : Nodes km) {cb : CBV ℝ 𝕜} (hp : KParts cb) (hk : KBasis km cb) (hi : IdxOk idx cb.t km.points) :
    ∃ cb', km.fillBasis idx junk cb = .ok cb' ∧ KSameTree cb cb' ∧ CBVOk cb' ∧ VCounts cb' ∧ Interpolates km idx cb' := by
  have e : forT 0 km.dim (fun _ k => k * km.m) 1 = km.m ^ km.dim := by
    generalize km.dim = d
    induction d with
    | zero => rfl
    | succ d ih => rw [forT_succ (Nat.zero_le _), ih, pow_succ]
  unfold KM.fillBasis
  rw [e]
  obtain ⟨cb', h, h1, h2, h3, h4, -⟩ := fillBasis_tot (junk := junk) hm hd hn hp hk hi
  exact ⟨cb', h, h1, h2, h4, h3⟩

/-- Boxes without extent in one direction (for example of clusters with one point) have to be excluded: with at least two interpolation points, the interpolation points coincide, and
`fillV_kernelmatrix` divides by zero. -/
theorem C61_flat {km : KM 𝕜} {idx : Arr Nat} (hm : 2 ≤ km.m) {t : CRef ℝ} (hi : IdxOk idx t km.points) (ht : t.cl.info.dim = km.dim) (hsz : 0 < t.cl.size)
    {d : Nat} (hd : d < km.dim) (hf : t.cl.info.bmin d = t.cl.info.bmax d) (V : VMat 𝕜) : km.fillV idx t.cl V = .error .nan :=
  fillV_nan hm hi ht hsz hd hf V

/-- `fill_h2matrix_kernelmatrix` with bases filled by `fill_clusterbasis_kernelmatrix`: structure and bases are kept, entries in dense blocks become kernel values, and entries in uniform blocks
become values of the interpolated kernel. -/
theorem C61_h2matrix {km : KM 𝕜} {ridx cidx : Arr Nat} {junk : Nat → ℝ} (hm : 0 < km.m) (hd : 0 < km.dim) {h : H2V ℝ 𝕜} (ho : H2VOk h) (hz : NoZero h)
    (hr : CBVOk h.rb.cb) (hri : IdxOk ridx h.rb.cb.t km.points) (hc : CBVOk h.cb.cb) (hci : IdxOk cidx h.cb.cb.t km.points) (hrk : KBasis km h.rb.cb) (hck : KBasis km h.cb.cb)
    (hrI : Interpolates km ridx h.rb.cb) (hcI : Interpolates km cidx h.cb.cb) :
    ∃ h', km.fillH2 ridx cidx junk h = .ok h' ∧ SameForm h h' ∧ H2VOk h' ∧ KEntries km ridx cidx h' :=
  fillH2_tot hm hd ho hz ⟨hr, hri⟩ ⟨hc, hci⟩ hrk hck hrI hcI

/-- If the kernel is a polynomial of degree less than `m` in each variable, the H²-matrix is equal to the kernel matrix. -/
theorem C61_polynomial {km : KM 𝕜} {ridx cidx : Arr Nat} {junk : Nat → ℝ} (hm : 0 < km.m) (hd : 0 < km.dim) (hn : Nodes km) (hp : PolyKernel km) {h : H2V ℝ 𝕜} (ho : H2VOk h) (ht : H2VTiles h) (hz : NoZero h)
    (hr : CBVOk h.rb.cb) (hri : IdxOk ridx h.rb.cb.t km.points) (hc : CBVOk h.cb.cb) (hci : IdxOk cidx h.cb.cb.t km.points) (hrk : KBasis km h.rb.cb) (hck : KBasis km h.cb.cb)
    (hrI : Interpolates km ridx h.rb.cb) (hcI : Interpolates km cidx h.cb.cb) :
    ∃ h', km.fillH2 ridx cidx junk h = .ok h' ∧ ∀ r c, In h.rb.cb.t r → In h.cb.cb.t c → h2vplace h' r c = kval km (ridx.v r) (cidx.v c) := by
  obtain ⟨h', e, h1, h2, h3⟩ := C61_h2matrix (junk := junk) hm hd ho hz hr hri hc hci hrk hck hrI hcI
  have q := sameForm_refs h1
  refine ⟨h', e, fun r c k1 k2 => kentries_exact hn hp h2 (sameForm_tiles h1 ht) ?_ ?_ ?_ ?_ h3 r c ?_ ?_⟩
  all_goals first | (rw [q.1]; assumption) | (rw [q.2]; assumption)

/-! ### examples -/

/-- a cluster tree with two leaves in the unit square -/
noncomputable def kclEx : Cluster ℝ := .mk ⟨0, 4, 2, fun _ => 0, fun _ => 1, 3, 0⟩
  [.mk ⟨0, 2, 2, fun _ => 0, fun d => if d = 0 then 1 / 2 else 1, 1, 0⟩ [], .mk ⟨2, 2, 2, fun d => if d = 0 then 1 / 2 else 0, fun _ => 1, 1, 0⟩ []]
/-- a polynomial kernel, four points and interpolation of order 3 -/
noncomputable def kmEx : KM ℝ := ⟨2, fun x y => x 0 * x 0 * y 1 + y 0, 4, fun i d => if d = 0 then i / 4 else 1 / 2, 3, KM.cheb 3⟩
/-- an empty basis for the tree -/
noncomputable def kbEx : CBV ℝ ℝ := .mk (CRef.root kclEx) 0 0 0 ⟨0, 0, fun _ _ => 0⟩ ⟨0, 0, fun _ _ => 0⟩ 2
  (fun i => .mk ((CRef.root kclEx).son i) 0 2 2 ⟨2, 0, fun _ _ => 0⟩ ⟨0, 0, fun _ _ => 0⟩ 0 fun i => i.elim0)
def kidxEx : Arr Nat := ⟨4, fun i => 3 - i⟩

theorem kbEx_ok : KParts kbEx ∧ KBasis kmEx kbEx ∧ IdxOk kidxEx kbEx.t kmEx.points := by
  refine ⟨⟨fun _ => ⟨fun i => ?_, ?_⟩, fun i => ⟨fun h => absurd h (by decide), fun i => i.elim0⟩⟩, ⟨⟨rfl, .inr fun d _ => ?_⟩, fun i => ⟨⟨?_, .inr fun d hd => ?_⟩, fun i => i.elim0⟩⟩, ?_, fun r hr => ?_⟩
  · fin_cases i
    · rfl
    · rfl
  · rfl
  · show (0 : ℝ) ≠ 1
    norm_num
  · fin_cases i <;> rfl
  · replace hd : d < 2 := hd
    fin_cases i
    · show (0 : ℝ) ≠ if d = 0 then 1 / 2 else 1
      split <;> norm_num
    · show (if d = 0 then 1 / 2 else 0 : ℝ) ≠ 1
      split <;> norm_num
  · show 0 + 4 ≤ 4
    omega
  · show 3 - r < 4
    omega

theorem kmEx_poly : PolyKernel kmEx := by
  have deg : ∀ a b c : ℝ, (Polynomial.C a * Polynomial.X * Polynomial.X + Polynomial.C b * Polynomial.X + Polynomial.C c).degree < ((3 : ℕ) : WithBot ℕ) := by
    intro a b c
    have h := Polynomial.degree_quadratic_le (a := a) (b := b) (c := c)
    rw [pow_two, ← mul_assoc] at h
    exact lt_of_le_of_lt h (by decide)
  have k1 : ∀ y : Fin 2 → ℝ, SepPoly (𝕜 := ℝ) 3 fun x : Fin 2 → ℝ => x 0 * x 0 * y 1 + y 0 := by
    intro y d x
    fin_cases d
    · refine ⟨_, deg (y 1) 0 (y 0), fun s => ?_⟩
      simp
      ring
    · refine ⟨_, deg 0 0 (x 0 * x 0 * y 1 + y 0), fun s => ?_⟩
      simp
  have k2 : ∀ x : Fin 2 → ℝ, SepPoly (𝕜 := ℝ) 3 fun y : Fin 2 → ℝ => x 0 * x 0 * y 1 + y 0 := by
    intro x d y
    fin_cases d
    · refine ⟨_, deg 0 1 (x 0 * x 0 * y 1), fun s => ?_⟩
      simp [add_comm]
    · refine ⟨_, deg 0 (x 0 * x 0) (y 0), fun s => ?_⟩
      simp
  exact ⟨k1, k2⟩

/-- The basis can be filled, and the H²-matrix consisting of one uniform block is equal to the kernel matrix. -/
example : ∃ cb h', kmEx.fillBasis kidxEx (fun _ => 7) kbEx = .ok cb ∧ kmEx.fillH2 kidxEx kidxEx (fun _ => 7) (.uni ⟨0, [], cb⟩ ⟨0, [], cb⟩ ⟨9, 9, fun _ _ => 5⟩) = .ok h' ∧
    ∀ r < 4, ∀ c < 4, h2vplace h' r c = kval kmEx (3 - r) (3 - c) := by
  obtain ⟨k1, k2, k3⟩ := kbEx_ok
  obtain ⟨cb, e, h1, h2, -, h4⟩ := C61_basis (km := kmEx) (junk := fun _ => 7) (by decide) (by decide) (cheb_inj 3) k1 k2 k3
  have ht : cb.t = CRef.root kclEx := sameTree_t h1
  have hk : KBasis kmEx cb := by
    cases cb with
    | mk t k kt kb V E n son =>
      obtain ⟨rfl, rfl, h⟩ := h1
      refine ⟨k2.1, fun i => ?_⟩
      have := h i
      have q := k2.2 i
      cases hs : son i with
      | mk t k kt kb V E n son =>
        rw [hs] at this
        obtain ⟨rfl, rfl, -⟩ := this
        exact ⟨q.1, fun i => i.elim0⟩
  have hkk : cb.k = 9 := (interp_k h4).1
  have hi : IdxOk kidxEx cb.t kmEx.points := by rw [ht]; exact k3
  obtain ⟨h', e', h5⟩ := C61_polynomial (km := kmEx) (ridx := kidxEx) (cidx := kidxEx) (junk := fun _ => 7) (by decide) (by decide) (cheb_inj 3) kmEx_poly
    (h := .uni ⟨0, [], cb⟩ ⟨0, [], cb⟩ ⟨9, 9, fun _ _ => 5⟩) ⟨hkk.symm, hkk.symm⟩ trivial trivial h2 hi h2 hi hk hk h4 h4
  refine ⟨cb, h', e, e', fun r hr c hc => h5 r c ?_ ?_⟩
  · show In cb.t r
    rw [ht]
    exact ⟨Nat.zero_le _, by show r < 0 + 4; omega⟩
  · show In cb.t c
    rw [ht]
    exact ⟨Nat.zero_le _, by show c < 0 + 4; omega⟩

end H2.Props
