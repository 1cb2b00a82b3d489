import Verif.Spec.Trunc
import Verif.Spec.Rk
import Mathlib.Analysis.InnerProductSpace.PiL2
import Mathlib.Analysis.InnerProductSpace.Projection.FiniteDimensional

/-! Best approximation by truncated singular value decompositions. -/

set_option linter.unusedSectionVars false

namespace H2.Svd
open Spec
variable {𝕜 : Type} [RCLike 𝕜]

/-- the leading part of a sequence as an element of the Euclidean space -/
def vec (n : Nat) (x : Nat → 𝕜) : EuclideanSpace 𝕜 (Fin n) := WithLp.toLp 2 fun i => x i

theorem vec_inner (n : Nat) (x y : Nat → 𝕜) : inner 𝕜 (vec n x) (vec n y) = ∑ i ∈ Finset.range n, star (x i) * y i := by
  rw [← Fin.sum_univ_eq_sum_range (fun i => star (x i) * y i)]
  unfold vec
  rw [PiLp.inner_apply]
  refine Finset.sum_congr rfl fun i _ => ?_
  simp [mul_comm]

theorem vec_norm (n : Nat) (x : Nat → 𝕜) : ‖vec n x‖ ^ 2 = vecSq n x := by
  unfold vecSq
  rw [← Fin.sum_univ_eq_sum_range (fun i => ‖x i‖ ^ 2), EuclideanSpace.norm_sq_eq]
  rfl

theorem vec_congr {n : Nat} {x y : Nat → 𝕜} (h : ∀ i < n, x i = y i) : vec n x = vec n y := by
  unfold vec
  congr 1
  funext i
  exact h i i.2

theorem vec_sub (n : Nat) (x y : Nat → 𝕜) : vec n (fun i => x i - y i) = vec n x - vec n y := rfl

theorem vec_apply (n : Nat) (x : Nat → 𝕜) (i : Fin n) : vec n x i = x i := rfl

theorem vec_sum {ι : Type*} (n : Nat) (s : Finset ι) (c : ι → 𝕜) (v : ι → Nat → 𝕜) : vec n (fun i => ∑ l ∈ s, v l i * c l) = ∑ l ∈ s, c l • vec n (v l) := by
  ext i
  simp only [WithLp.ofLp_sum, Finset.sum_apply, WithLp.ofLp_smul, Pi.smul_apply, smul_eq_mul]
  exact Finset.sum_congr rfl fun l _ => mul_comm _ _

/-- the columns of a matrix with orthonormal columns -/
theorem orth {n k : Nat} {U : Nat → Nat → 𝕜} (h : OrthCols n k U) : Orthonormal 𝕜 fun l : Fin k => vec n fun i => U i l := by
  rw [orthonormal_iff_ite]
  intro l l'
  rw [vec_inner, h l l.2 l' l'.2]
  simp [Fin.ext_iff]

section abstract
variable {E : Type*} [NormedAddCommGroup E] [InnerProductSpace 𝕜 E]

theorem norm_sum {ι : Type*} [Fintype ι] {v : ι → E} (hv : Orthonormal 𝕜 v) (s : Finset ι) (c : ι → 𝕜) : ‖∑ l ∈ s, c l • v l‖ ^ 2 = ∑ l ∈ s, ‖c l‖ ^ 2 := by
  have h : ((‖∑ l ∈ s, c l • v l‖ ^ 2 : ℝ) : 𝕜) = ((∑ l ∈ s, ‖c l‖ ^ 2 : ℝ) : 𝕜) := by
    push_cast
    rw [← inner_self_eq_norm_sq_to_K, hv.inner_sum]
    exact Finset.sum_congr rfl fun l _ => RCLike.conj_mul (c l)
  exact_mod_cast h

theorem bessel {ι : Type*} [Fintype ι] {v : ι → E} (hv : Orthonormal 𝕜 v) (x : E) : ∑ l, ‖inner 𝕜 (v l) x‖ ^ 2 ≤ ‖x‖ ^ 2 := hv.sum_inner_products_le (x := x) (s := Finset.univ)

theorem best {ι : Type*} [Fintype ι] {v : ι → E} (hv : Orthonormal 𝕜 v) (x : E) (c : ι → 𝕜) : ‖x‖ ^ 2 - ∑ l, ‖inner 𝕜 (v l) x‖ ^ 2 ≤ ‖x - ∑ l, c l • v l‖ ^ 2 := by
  have h1 := bessel hv (x - ∑ l, c l • v l)
  have h2 := norm_sum hv Finset.univ c
  have h3 : ∀ l, inner 𝕜 (v l) (x - ∑ l, c l • v l) = inner 𝕜 (v l) x - c l := fun l => by
    rw [inner_sub_right, hv.inner_right_fintype]
  have h4 := norm_sub_sq (𝕜 := 𝕜) x (∑ l, c l • v l)
  rw [inner_sum, map_sum, h2] at h4
  rw [h4]
  have h5 : ∀ l, ‖inner 𝕜 (v l) x‖ ^ 2 - 2 * RCLike.re (inner 𝕜 x (c l • v l)) + ‖c l‖ ^ 2 = ‖inner 𝕜 (v l) x - c l‖ ^ 2 := fun l => by
    have h6 := norm_sub_sq (𝕜 := 𝕜) (inner 𝕜 (v l) x) (c l)
    rw [h6, inner_smul_right]
    congr 3
    rw [RCLike.inner_apply, inner_conj_symm]
  have h7 : 0 ≤ ∑ l, ‖inner 𝕜 (v l) x - c l‖ ^ 2 := Finset.sum_nonneg fun _ _ => sq_nonneg _
  rw [← Finset.sum_congr rfl fun l _ => h5 l, Finset.sum_add_distrib, Finset.sum_sub_distrib, ← Finset.mul_sum] at h7
  linarith

end abstract

/-- weighted sums of a decreasing sequence -/
theorem weighted {K k : Nat} {s w : Nat → ℝ} (hs : ∀ l < K, 0 ≤ s l) (hd : ∀ l l', l ≤ l' → l' < K → s l' ≤ s l) (h0 : ∀ l < K, 0 ≤ w l) (h1 : ∀ l < K, w l ≤ 1)
    (hw : ∑ l ∈ Finset.range K, w l ≤ k) (hk : k ≤ K) : ∑ l ∈ Finset.range K, s l * w l ≤ ∑ l ∈ Finset.range k, s l := by
  rcases eq_or_lt_of_le hk with e | hk
  · subst e
    exact Finset.sum_le_sum fun l hl => by
      have := Finset.mem_range.mp hl
      exact mul_le_of_le_one_right (hs l this) (h1 l this)
  have e1 := Finset.sum_range_add_sum_Ico (fun l => s l * w l) hk.le
  have e2 := Finset.sum_range_add_sum_Ico w hk.le
  have a1 : ∑ l ∈ Finset.Ico k K, s l * w l ≤ ∑ l ∈ Finset.Ico k K, s k * w l := Finset.sum_le_sum fun l hl => by
    have := Finset.mem_Ico.mp hl
    exact mul_le_mul_of_nonneg_right (hd k l this.1 this.2) (h0 l this.2)
  have a2 : ∑ l ∈ Finset.range k, s k * (1 - w l) ≤ ∑ l ∈ Finset.range k, s l * (1 - w l) := Finset.sum_le_sum fun l hl => by
    have := Finset.mem_range.mp hl
    exact mul_le_mul_of_nonneg_right (hd l k (by omega) hk) (by have := h1 l (by omega); linarith)
  rw [← Finset.mul_sum] at a1 a2
  rw [Finset.sum_sub_distrib] at a2
  simp only [Finset.sum_const, Finset.card_range, nsmul_eq_mul, mul_one, mul_sub, Finset.sum_sub_distrib] at a2
  have a3 : s k * ∑ l ∈ Finset.Ico k K, w l ≤ s k * (k - ∑ l ∈ Finset.range k, w l) := mul_le_mul_of_nonneg_left (by linarith) (hs k hk)
  rw [mul_sub] at a3
  linarith

section form
variable {rows cols K : Nat} {M : Nat → Nat → 𝕜} {s : Nat → ℝ} {U V : Nat → Nat → 𝕜}

theorem vecSq_congr {n : Nat} {x y : Nat → 𝕜} (h : ∀ i < n, x i = y i) : vecSq n x = vecSq n y :=
  Finset.sum_congr rfl fun i hi => by rw [h i (Finset.mem_range.mp hi)]

theorem frobSq_congr {M N : Nat → Nat → 𝕜} (h : ∀ i < rows, ∀ j < cols, M i j = N i j) : frobSq rows cols M = frobSq rows cols N :=
  Finset.sum_congr rfl fun j hj => vecSq_congr fun i hi => h i hi j (Finset.mem_range.mp hj)

theorem matVec_congr {M N : Nat → Nat → 𝕜} {i : Nat} (h : ∀ j < cols, M i j = N i j) (x : Nat → 𝕜) : matVec cols M x i = matVec cols N x i :=
  Finset.sum_congr rfl fun j hj => by rw [h j (Finset.mem_range.mp hj)]

theorem specBound_congr {M N : Nat → Nat → 𝕜} (h : ∀ i < rows, ∀ j < cols, M i j = N i j) (B : ℝ) : SpecBound rows cols M B ↔ SpecBound rows cols N B := by
  have : ∀ x, vecSq rows (matVec cols M x) = vecSq rows (matVec cols N x) := fun x => vecSq_congr fun i hi => matVec_congr (h i hi) x
  constructor <;> intro h' x
  · rw [← this]; exact h' x
  · rw [this]; exact h' x

/-- partial sums of a singular value decomposition -/
def part (S : Finset Nat) (s : Nat → ℝ) (U V : Nat → Nat → 𝕜) (i j : Nat) : 𝕜 := ∑ l ∈ S, U i l * (s l : 𝕜) * star (V j l)

/-- inner product with a column of `V` -/
def coef (cols : Nat) (V : Nat → Nat → 𝕜) (x : Nat → 𝕜) (l : Nat) : 𝕜 := ∑ j ∈ Finset.range cols, star (V j l) * x j

theorem part_matVec (S : Finset Nat) (x : Nat → 𝕜) (i : Nat) : matVec cols (part S s U V) x i = ∑ l ∈ S, U i l * ((s l : 𝕜) * coef cols V x l) := by
  unfold matVec part coef
  simp only [Finset.sum_mul, Finset.mul_sum]
  rw [Finset.sum_comm]
  exact Finset.sum_congr rfl fun l _ => Finset.sum_congr rfl fun j _ => by ring

/-- sums over sets of indices below `K` -/
theorem sum_fin {S : Finset Nat} (hS : ∀ l ∈ S, l < K) {A : Type*} [AddCommMonoid A] (f : Nat → A) :
    ∑ l ∈ S, f l = ∑ l ∈ Finset.univ.filter (fun l : Fin K => l.1 ∈ S), f l := by
  refine (Finset.sum_bij (fun (l : Fin K) _ => l.1) ?_ ?_ ?_ ?_).symm
  · intro l hl
    exact (Finset.mem_filter.mp hl).2
  · intro l _ l' _ e
    exact Fin.ext e
  · intro l hl
    exact ⟨⟨l, hS l hl⟩, Finset.mem_filter.mpr ⟨Finset.mem_univ _, hl⟩, rfl⟩
  · intro _ _
    rfl

theorem vecSq_cols (hU : OrthCols rows K U) {S : Finset Nat} (hS : ∀ l ∈ S, l < K) (c : Nat → 𝕜) : vecSq rows (fun i => ∑ l ∈ S, U i l * c l) = ∑ l ∈ S, ‖c l‖ ^ 2 := by
  rw [← vec_norm, vec_sum rows S c (fun l i => U i l), sum_fin hS, sum_fin hS]
  exact norm_sum (orth hU) _ fun l => c l

theorem part_norm (hU : OrthCols rows K U) {S : Finset Nat} (hS : ∀ l ∈ S, l < K) (x : Nat → 𝕜) :
    vecSq rows (matVec cols (part S s U V) x) = ∑ l ∈ S, s l ^ 2 * ‖coef cols V x l‖ ^ 2 := by
  rw [vecSq_congr fun i _ => part_matVec S x i, vecSq_cols hU hS]
  refine Finset.sum_congr rfl fun l _ => ?_
  rw [norm_mul, mul_pow, RCLike.norm_ofReal, sq_abs]

theorem coef_eq (x : Nat → 𝕜) (l : Nat) : coef cols V x l = inner 𝕜 (vec cols fun j => V j l) (vec cols x) := (vec_inner _ _ _).symm

theorem coef_le (hV : OrthCols cols K V) {S : Finset Nat} (hS : ∀ l ∈ S, l < K) (x : Nat → 𝕜) : ∑ l ∈ S, ‖coef cols V x l‖ ^ 2 ≤ vecSq cols x := by
  rw [← vec_norm, sum_fin hS]
  refine le_trans (Finset.sum_le_sum_of_subset_of_nonneg (Finset.subset_univ _) fun _ _ _ => sq_nonneg _) ?_
  have := bessel (orth hV) (vec cols x)
  refine le_of_eq_of_le (Finset.sum_congr rfl fun l _ => ?_) this
  rw [coef_eq]

theorem part_frob (hU : OrthCols rows K U) (hV : OrthCols cols K V) {S : Finset Nat} (hS : ∀ l ∈ S, l < K) : frobSq rows cols (part S s U V) = ∑ l ∈ S, s l ^ 2 := by
  have h : ∀ j, vecSq rows (fun i => part S s U V i j) = ∑ l ∈ S, s l ^ 2 * ‖V j l‖ ^ 2 := fun j => by
    rw [vecSq_congr (x := fun i => part S s U V i j) (y := fun i => ∑ l ∈ S, U i l * ((s l : 𝕜) * star (V j l))) fun i _ => Finset.sum_congr rfl fun l _ => mul_assoc _ _ _, vecSq_cols hU hS]
    refine Finset.sum_congr rfl fun l _ => ?_
    rw [norm_mul, mul_pow, RCLike.norm_ofReal, sq_abs, norm_star]
  unfold frobSq
  rw [Finset.sum_congr rfl fun j _ => h j, Finset.sum_comm]
  refine Finset.sum_congr rfl fun l hl => ?_
  rw [← Finset.mul_sum]
  have h1 := hV l (hS l hl) l (hS l hl)
  rw [if_pos rfl] at h1
  have h2 : ((∑ i ∈ Finset.range cols, ‖V i l‖ ^ 2 : ℝ) : 𝕜) = 1 := by
    rw [← h1]
    push_cast
    exact Finset.sum_congr rfl fun i _ => (RCLike.conj_mul _).symm
  have h3 : ∑ i ∈ Finset.range cols, ‖V i l‖ ^ 2 = 1 := by exact_mod_cast h2
  rw [h3, mul_one]

theorem form_part (h : SvdForm rows cols K M s U V) : ∀ i < rows, ∀ j < cols, M i j = part (Finset.range K) s U V i j := h.eq

theorem form_rest (h : SvdForm rows cols K M s U V) {k : Nat} (hk : k ≤ K) : ∀ i < rows, ∀ j < cols, M i j - Svd.part (Finset.range k) s U V i j = Svd.part (Finset.Ico k K) s U V i j := by
  intro i hi j hj
  rw [h.eq i hi j hj, sub_eq_iff_eq_add']
  exact (Finset.sum_range_add_sum_Ico _ hk).symm

theorem lt_range {K : Nat} : ∀ l ∈ Finset.range K, l < K := fun _ h => Finset.mem_range.mp h
theorem lt_Ico {k K : Nat} : ∀ l ∈ Finset.Ico k K, l < K := fun _ h => (Finset.mem_Ico.mp h).2

theorem spec_part (hU : OrthCols rows K U) (hV : OrthCols cols K V) {S : Finset Nat} (hS : ∀ l ∈ S, l < K) (h0 : ∀ l ∈ S, 0 ≤ s l) {t : ℝ} (ht : ∀ l ∈ S, s l ≤ t) :
    SpecBound rows cols (Svd.part S s U V) (t ^ 2) := by
  intro x
  rw [part_norm hU hS]
  refine le_trans (Finset.sum_le_sum (g := fun l => t ^ 2 * ‖coef cols V x l‖ ^ 2) fun l hl => ?_) ?_
  · exact mul_le_mul_of_nonneg_right (pow_le_pow_left₀ (h0 l hl) (ht l hl) 2) (sq_nonneg _)
  · rw [← Finset.mul_sum]
    exact mul_le_mul_of_nonneg_left (coef_le hV hS x) (sq_nonneg _)

/-- the largest singular value is a lower bound of the spectral norm -/
theorem spec_first (h : SvdForm rows cols K M s U V) {l : Nat} (hl : l < K) {B : ℝ} (hB : SpecBound rows cols M B) : s l ^ 2 ≤ B := by
  have h1 := hB fun j => V j l
  have e1 := (specBound_congr (form_part h) B).mp hB fun j => V j l
  rw [part_norm h.orthU lt_range] at e1
  have hc : ∀ l' < K, coef cols V (fun j => V j l) l' = if l' = l then 1 else 0 := fun l' hl' => h.orthV l' hl' l hl
  have e2 : vecSq cols (fun j => V j l) = 1 := by
    rw [← vec_norm, (orth h.orthV).1 ⟨l, hl⟩, one_pow]
  rw [e2, mul_one, Finset.sum_congr rfl fun l' hl' => by rw [hc l' (lt_range l' hl')], Finset.sum_eq_single l] at e1
  · simpa using e1
  · intro b _ hb
    simp [hb]
  · intro hh
    exact absurd (Finset.mem_range.mpr hl) hh

theorem close_part (h : SvdForm rows cols K M s U V) {tm : Option Trunc.Mode} {eps : ℝ} {k : Nat} (he : 0 ≤ eps) (hk : k ≤ K)
    (ha : Acceptable tm eps K s k) {N : Nat → Nat → 𝕜} (hN : ∀ i < rows, ∀ j < cols, N i j = Svd.part (Finset.range k) s U V i j) : CloseTo tm eps rows cols M N := by
  have hr : ∀ i < rows, ∀ j < cols, M i j - N i j = Svd.part (Finset.Ico k K) s U V i j := fun i hi j hj => by rw [hN i hi j hj, form_rest h hk i hi j hj]
  have hpos : ∀ l ∈ Finset.Ico k K, 0 ≤ s l := fun l hl => h.nonneg l (lt_Ico l hl)
  have hrel : (∀ l, k ≤ l → l < K → s l ≤ eps * s 0) → ∀ B, 0 ≤ B → SpecBound rows cols M B → SpecBound rows cols (fun i j => M i j - N i j) (eps ^ 2 * B) := by
    intro ha B hB hM x
    have h4 : (0 : ℝ) ≤ vecSq cols x := Finset.sum_nonneg fun _ _ => sq_nonneg _
    rcases Nat.eq_zero_or_pos K with e | hK
    · have h2 : vecSq rows (matVec cols (fun i j => M i j - N i j) x) = 0 := by
        rw [vecSq_congr fun i hi => matVec_congr (hr i hi) x, part_norm h.orthU lt_Ico, e]
        simp
      rw [h2]
      positivity
    · have h1 := (specBound_congr (M := fun i j => M i j - N i j) hr ((eps * s 0) ^ 2)).mpr (spec_part h.orthU h.orthV lt_Ico hpos fun l hl => ha l (Finset.mem_Ico.mp hl).1 (lt_Ico l hl)) x
      refine h1.trans ?_
      have h2 := spec_first h hK hM
      rw [mul_pow]
      exact mul_le_mul_of_nonneg_right (mul_le_mul_of_nonneg_left h2 (sq_nonneg _)) h4
  match tm, ha with
  | some ⟨true, true⟩, ha =>
    show frobSq _ _ _ ≤ _
    rw [frobSq_congr hr, part_frob h.orthU h.orthV lt_Ico]
    exact ha
  | some ⟨true, false⟩, ha =>
    show frobSq _ _ _ ≤ _ * frobSq _ _ _
    rw [frobSq_congr hr, part_frob h.orthU h.orthV lt_Ico, frobSq_congr (form_part h), part_frob h.orthU h.orthV lt_range]
    exact ha
  | some ⟨false, true⟩, ha =>
    exact (specBound_congr (M := fun i j => M i j - N i j) hr _).mpr (spec_part h.orthU h.orthV lt_Ico hpos fun l hl => ha l (Finset.mem_Ico.mp hl).1 (lt_Ico l hl))
  | some ⟨false, false⟩, ha => exact hrel ha
  | none, ha => exact hrel ha

/-- Eckart-Young in the Frobenius norm -/
theorem frob_least (h : SvdForm rows cols K M s U V) {k : Nat} (hk : k ≤ K) (X Y : Nat → Nat → 𝕜) :
    ∑ l ∈ Finset.Ico k K, s l ^ 2 ≤ frobSq rows cols (fun i j => M i j - lowRank k X Y i j) := by
  obtain ⟨S, hS⟩ : ∃ S : Submodule 𝕜 (EuclideanSpace 𝕜 (Fin rows)), S = Submodule.span 𝕜 (Set.range fun l : Fin k => vec rows fun i => X i l) := ⟨_, rfl⟩
  have hfin : Module.finrank 𝕜 S ≤ k := by
    rw [hS]
    exact (finrank_range_le_card _).trans (by simp)
  have hq := (stdOrthonormalBasis 𝕜 S).orthonormal
  obtain ⟨q, hqd⟩ : ∃ q : Fin (Module.finrank 𝕜 S) → EuclideanSpace 𝕜 (Fin rows), q = fun p => ((stdOrthonormalBasis 𝕜 S p : S) : EuclideanSpace 𝕜 (Fin rows)) := ⟨_, rfl⟩
  have hq' : Orthonormal 𝕜 q := by
    rw [hqd]
    exact hq.comp_linearIsometry S.subtypeₗᵢ
  -- every column of the low-rank matrix is in the span
  have hmem : ∀ j, ∃ c : Fin (Module.finrank 𝕜 S) → 𝕜, vec rows (fun i => lowRank k X Y i j) = ∑ p, c p • q p := by
    intro j
    have h1 : vec rows (fun i => lowRank k X Y i j) ∈ S := by
      unfold lowRank
      rw [vec_sum rows (Finset.range k) (fun l => star (Y j l)) (fun l i => X i l)]
      refine S.sum_mem fun l hl => S.smul_mem _ ?_
      rw [hS]
      exact Submodule.subset_span ⟨⟨l, Finset.mem_range.mp hl⟩, rfl⟩
    refine ⟨fun p => inner 𝕜 (stdOrthonormalBasis 𝕜 S p) (⟨_, h1⟩ : S), ?_⟩
    have h2 := congrArg Subtype.val ((stdOrthonormalBasis 𝕜 S).sum_repr' (⟨_, h1⟩ : S))
    simp only [Submodule.coe_sum, Submodule.coe_smul] at h2
    rw [hqd]
    exact h2.symm
  have hcol : ∀ j, vecSq rows (fun i => M i j) - ∑ p, ‖inner 𝕜 (q p) (vec rows fun i => M i j)‖ ^ 2 ≤ vecSq rows (fun i => M i j - lowRank k X Y i j) := by
    intro j
    obtain ⟨c, hc⟩ := hmem j
    rw [← vec_norm rows (fun i => M i j - lowRank k X Y i j), vec_sub rows (fun i => M i j), hc, ← vec_norm]
    exact best hq' _ c
  have hsum := Finset.sum_le_sum fun j (_ : j ∈ Finset.range cols) => hcol j
  rw [Finset.sum_sub_distrib] at hsum
  refine le_trans ?_ hsum
  have e1 : ∑ j ∈ Finset.range cols, vecSq rows (fun i => M i j) = ∑ l ∈ Finset.range K, s l ^ 2 := by
    have := frobSq_congr (form_part h)
    rw [part_frob h.orthU h.orthV lt_range] at this
    exact this
  -- the weights
  obtain ⟨w, hw⟩ : ∃ w : Nat → ℝ, w = fun l => ∑ p, ‖inner 𝕜 (q p) (vec rows fun i => U i l)‖ ^ 2 := ⟨_, rfl⟩
  have e2 : ∑ j ∈ Finset.range cols, ∑ p, ‖inner 𝕜 (q p) (vec rows fun i => M i j)‖ ^ 2 = ∑ l ∈ Finset.range K, s l ^ 2 * w l := by
    rw [Finset.sum_comm, hw]
    simp only [Finset.mul_sum]
    rw [Finset.sum_comm (s := Finset.range K)]
    refine Finset.sum_congr rfl fun p _ => ?_
    have h1 : ∀ j < cols, ‖inner 𝕜 (q p) (vec rows fun i => M i j)‖ ^ 2 = ‖∑ l ∈ Finset.range K, V j l * star ((s l : 𝕜) * inner 𝕜 (q p) (vec rows fun i => U i l))‖ ^ 2 := by
      intro j hj
      have h2 : vec rows (fun i => M i j) = ∑ l ∈ Finset.range K, ((s l : 𝕜) * star (V j l)) • vec rows fun i => U i l := by
        rw [← vec_sum rows (Finset.range K) (fun l => (s l : 𝕜) * star (V j l)) (fun l i => U i l)]
        refine vec_congr fun i hi => ?_
        rw [h.eq i hi j hj]
        exact Finset.sum_congr rfl fun l _ => mul_assoc _ _ _
      rw [h2, inner_sum, ← norm_star, star_sum]
      congr 2
      refine Finset.sum_congr rfl fun l _ => ?_
      rw [inner_smul_right]
      simp only [star_mul', star_star, RCLike.star_def, RCLike.conj_conj]
      ring
    rw [Finset.sum_congr rfl fun j hj => h1 j (Finset.mem_range.mp hj)]
    have h3 := vecSq_cols h.orthV (S := Finset.range K) lt_range fun l => star ((s l : 𝕜) * inner 𝕜 (q p) (vec rows fun i => U i l))
    unfold vecSq at h3
    rw [h3]
    refine Finset.sum_congr rfl fun l _ => ?_
    rw [norm_star, norm_mul, mul_pow, RCLike.norm_ofReal, sq_abs]
  have hw0 : ∀ l, 0 ≤ w l := fun l => by rw [hw]; exact Finset.sum_nonneg fun _ _ => sq_nonneg _
  have hw1 : ∀ l < K, w l ≤ 1 := fun l hl => by
    rw [hw]
    refine (bessel hq' _).trans (le_of_eq ?_)
    rw [(orth h.orthU).1 ⟨l, hl⟩, one_pow]
  have hwk : ∑ l ∈ Finset.range K, w l ≤ k := by
    rw [hw, Finset.sum_comm]
    refine le_trans (Finset.sum_le_sum (g := fun _ => (1 : ℝ)) fun p _ => ?_) ?_
    · rw [sum_fin (K := K) lt_range]
      refine le_trans (Finset.sum_le_sum_of_subset_of_nonneg (Finset.subset_univ _) fun _ _ _ => sq_nonneg _) ?_
      have := bessel (orth h.orthU) (q p)
      rw [hq'.1 p, one_pow] at this
      refine le_of_eq_of_le (Finset.sum_congr rfl fun l _ => ?_) this
      rw [norm_inner_symm]
    · simpa using hfin
  rw [e1, e2]
  have h9 := weighted (s := fun l => s l ^ 2) (fun l _ => sq_nonneg _) (fun l l' hll hl' => pow_le_pow_left₀ (h.nonneg l' hl') (h.dec l l' hll hl') 2) (fun l _ => hw0 l) hw1 hwk hk
  have h10 := Finset.sum_range_add_sum_Ico (fun l => s l ^ 2) hk
  linarith

/-- the lower bound for the spectral norm -/
theorem spec_least (h : SvdForm rows cols K M s U V) {k : Nat} (hk : k < K) (X Y : Nat → Nat → 𝕜) {B : ℝ} (hB : SpecBound rows cols (fun i j => M i j - lowRank k X Y i j) B) : s k ^ 2 ≤ B := by
  -- a vector in the span of the first right singular vectors that is annihilated by the low-rank matrix
  obtain ⟨f, hf⟩ : ∃ f : (Fin (k + 1) → 𝕜) →ₗ[𝕜] (Fin k → 𝕜), f = Matrix.toLin' (Matrix.of fun (l : Fin k) (p : Fin (k + 1)) => ∑ j ∈ Finset.range cols, star (Y j l) * V j p) := ⟨_, rfl⟩
  have h1 : LinearMap.ker f ≠ ⊥ := LinearMap.ker_ne_bot_of_finrank_lt (by simp)
  obtain ⟨c, hc, hc0⟩ := (Submodule.ne_bot_iff _).mp h1
  obtain ⟨d, hd⟩ : ∃ d : Nat → 𝕜, d = fun l => if h : l < k + 1 then c ⟨l, h⟩ else 0 := ⟨_, rfl⟩
  obtain ⟨x, hx⟩ : ∃ x : Nat → 𝕜, x = fun j => ∑ l ∈ Finset.range (k + 1), V j l * d l := ⟨_, rfl⟩
  have hk' : ∀ l ∈ Finset.range (k + 1), l < K := fun l hl => by have := Finset.mem_range.mp hl; omega
  have hnx : vecSq cols x = ∑ l ∈ Finset.range (k + 1), ‖d l‖ ^ 2 := by rw [hx]; exact vecSq_cols h.orthV hk' d
  have hpos : 0 < vecSq cols x := by
    rw [hnx]
    refine (Finset.sum_nonneg fun _ _ => sq_nonneg _).lt_of_ne fun e => hc0 ?_
    funext p
    have := (Finset.sum_eq_zero_iff_of_nonneg fun _ _ => sq_nonneg _).mp e.symm p (Finset.mem_range.mpr p.2)
    rw [pow_eq_zero_iff two_ne_zero, norm_eq_zero, hd] at this
    simpa [p.2] using this
  have hY : ∀ l < k, ∑ j ∈ Finset.range cols, star (Y j l) * x j = 0 := by
    intro l hl
    have h2 := congrFun (LinearMap.mem_ker.mp hc) ⟨l, hl⟩
    rw [hf, Matrix.toLin'_apply] at h2
    simp only [Matrix.mulVec, dotProduct, Matrix.of_apply, Pi.zero_apply] at h2
    rw [hx]
    simp only [Finset.mul_sum]
    rw [Finset.sum_comm, ← Fin.sum_univ_eq_sum_range (fun p => ∑ j ∈ Finset.range cols, star (Y j l) * (V j p * d p)), ← h2]
    refine Finset.sum_congr rfl fun p _ => ?_
    rw [Finset.sum_mul]
    refine Finset.sum_congr rfl fun j _ => ?_
    rw [hd]
    simp only [p.2, dif_pos, mul_assoc]
  have hN : ∀ i, matVec cols (lowRank k X Y) x i = 0 := by
    intro i
    unfold matVec lowRank
    simp only [Finset.sum_mul]
    rw [Finset.sum_comm]
    refine Finset.sum_eq_zero fun l hl => ?_
    rw [Finset.sum_congr rfl fun j _ => mul_assoc _ _ _, ← Finset.mul_sum, hY l (Finset.mem_range.mp hl), mul_zero]
  have hcoef : ∀ l < K, coef cols V x l = if l < k + 1 then d l else 0 := by
    intro l hl
    unfold coef
    rw [hx]
    simp only [Finset.mul_sum]
    rw [Finset.sum_comm]
    have : ∀ p ∈ Finset.range (k + 1), ∑ j ∈ Finset.range cols, star (V j l) * (V j p * d p) = if p = l then d l else 0 := fun p hp => by
      rw [Finset.sum_congr rfl fun j _ => (mul_assoc _ _ _).symm, ← Finset.sum_mul, h.orthV l hl p (hk' p hp)]
      by_cases e : l = p
      · subst e; simp
      · rw [if_neg e, if_neg (Ne.symm e), zero_mul]
    rw [Finset.sum_congr rfl this, Finset.sum_ite_eq']
    simp
  have h3 := hB x
  rw [vecSq_congr (y := matVec cols (part (Finset.range K) s U V) x) fun i hi => ?_, part_norm h.orthU lt_range] at h3
  · have h4 : s k ^ 2 * vecSq cols x ≤ ∑ l ∈ Finset.range K, s l ^ 2 * ‖coef cols V x l‖ ^ 2 := by
      rw [hnx, Finset.mul_sum]
      refine le_trans (Finset.sum_le_sum (g := fun l => s l ^ 2 * ‖coef cols V x l‖ ^ 2) fun l hl => ?_) (Finset.sum_le_sum_of_subset_of_nonneg (Finset.range_subset_range.mpr hk) fun l _ _ => by positivity)
      have hl' := Finset.mem_range.mp hl
      rw [hcoef l (hk' l hl), if_pos hl']
      exact mul_le_mul_of_nonneg_right (pow_le_pow_left₀ (h.nonneg k hk) (h.dec l k (by omega) hk) 2) (sq_nonneg _)
    exact le_of_mul_le_mul_right (h4.trans h3) hpos
  · have h5 : matVec cols (fun i j => M i j - lowRank k X Y i j) x i = matVec cols M x i - matVec cols (lowRank k X Y) x i := by
      unfold matVec
      rw [← Finset.sum_sub_distrib]
      exact Finset.sum_congr rfl fun j _ => sub_mul _ _ _
    rw [h5, hN, sub_zero]
    exact matVec_congr (form_part h i hi) x

theorem not_close (h : SvdForm rows cols K M s U V) {tm : Option Trunc.Mode} {eps : ℝ} {k : Nat} (he : 0 ≤ eps) (hk : k < K) (ha : ¬ Acceptable tm eps K s k) (X Y : Nat → Nat → 𝕜) :
    ¬ CloseTo tm eps rows cols M (lowRank k X Y) := by
  have hrel : (¬ ∀ l, k ≤ l → l < K → s l ≤ eps * s 0) → ¬ ∀ B, 0 ≤ B → SpecBound rows cols M B → SpecBound rows cols (fun i j => M i j - lowRank k X Y i j) (eps ^ 2 * B) := by
    intro ha hc
    push Not at ha
    obtain ⟨l, h1, h2, h3⟩ := ha
    have h0 := h.nonneg 0 (by omega)
    have h4 := spec_least h hk X Y (hc (s 0 ^ 2) (sq_nonneg _) ((specBound_congr (form_part h) _).mpr
      (spec_part h.orthU h.orthV lt_range (fun l hl => h.nonneg l (lt_range l hl)) fun l hl => h.dec 0 l (Nat.zero_le _) (lt_range l hl))))
    rw [← mul_pow] at h4
    have h5 := h.dec k l h1 h2
    have h6 := pow_lt_pow_left₀ (lt_of_lt_of_le h3 h5) (by positivity) two_ne_zero
    linarith
  match tm, ha with
  | some ⟨true, true⟩, ha => exact fun hc => ha (le_trans (frob_least h hk.le X Y) hc)
  | some ⟨true, false⟩, ha =>
    intro hc
    refine ha (le_trans (frob_least h hk.le X Y) ?_)
    replace hc : frobSq _ _ _ ≤ eps ^ 2 * frobSq rows cols M := hc
    rw [frobSq_congr (form_part h), part_frob h.orthU h.orthV lt_range] at hc
    exact hc
  | some ⟨false, true⟩, ha =>
    intro hc
    replace ha : ¬ ∀ l, k ≤ l → l < K → s l ≤ eps := ha
    push Not at ha
    obtain ⟨l, h1, h2, h3⟩ := ha
    have h4 := spec_least h hk X Y hc
    have h5 := h.dec k l h1 h2
    have h6 := pow_lt_pow_left₀ (lt_of_lt_of_le h3 h5) he two_ne_zero
    linarith
  | some ⟨false, false⟩, ha => exact hrel ha
  | none, ha => exact hrel ha

end form
end H2.Svd
