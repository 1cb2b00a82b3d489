import Verif.Proof.Krylov
import Mathlib.LinearAlgebra.Dimension.Finite
import Mathlib.LinearAlgebra.FiniteDimensional.Basic
import Mathlib.LinearAlgebra.FiniteDimensional.Lemmas
import Mathlib.LinearAlgebra.BilinearMap
import Mathlib.LinearAlgebra.Matrix.DotProduct
import Mathlib.Tactic.FieldSimp

/-! # The biconjugate gradient method -/

set_option linter.unusedSectionVars false

namespace H2.Krylov
open Spec Dense

section abstract_
variable {K V : Type} [Field K] [AddCommGroup V] [Module K V]

/-- the sequences of the biconjugate gradient method for the bilinear form `d` -/
structure IsBicg (d : V →ₗ[K] V →ₗ[K] K) (A At : V →ₗ[K] V) (r rt p pt : Nat → V) : Prop where
  adj : ∀ u w, d (A u) w = d u (At w)
  p0 : p 0 = r 0
  pt0 : pt 0 = rt 0
  hr : ∀ k, r (k + 1) = r k - (d (r k) (rt k) / d (A (p k)) (pt k)) • A (p k)
  hrt : ∀ k, rt (k + 1) = rt k - (d (r k) (rt k) / d (A (p k)) (pt k)) • At (pt k)
  hp : ∀ k, p (k + 1) = r (k + 1) + (d (r (k + 1)) (rt (k + 1)) / d (r k) (rt k)) • p k
  hpt : ∀ k, pt (k + 1) = rt (k + 1) + (d (r (k + 1)) (rt (k + 1)) / d (r k) (rt k)) • pt k

variable {d : V →ₗ[K] V →ₗ[K] K} {A At : V →ₗ[K] V} {r rt p pt : Nat → V}

/-- biorthogonality up to step `k` -/
structure BiOrth (d : V →ₗ[K] V →ₗ[K] K) (A : V →ₗ[K] V) (r rt p pt : Nat → V) (k : Nat) : Prop where
  res : ∀ i ≤ k, ∀ j ≤ k, i ≠ j → d (r i) (rt j) = 0
  dir : ∀ i ≤ k, ∀ j ≤ k, i ≠ j → d (A (p i)) (pt j) = 0

theorem IsBicg.orth (h : IsBicg d A At r rt p pt) (k : Nat) (hm : ∀ j < k, d (r j) (rt j) ≠ 0)
    (hg : ∀ j < k, d (A (p j)) (pt j) ≠ 0) : BiOrth d A r rt p pt k := by
  induction k with
  | zero => exact ⟨fun i hi j hj hij => by omega, fun i hi j hj hij => by omega⟩
  | succ k ih =>
    have o := ih (fun j hj => hm j (by omega)) (fun j hj => hg j (by omega))
    have hmk := hm k (by omega)
    have hgk := hg k (by omega)
    have e1 : ∀ j ≤ k, d (A (p k)) (rt j) = if j = k then d (A (p k)) (pt k) else 0 := fun j hj => by
      cases j with
      | zero => rw [← h.pt0]
                split
                · next e => rw [← e]
                · next e => exact o.dir k le_rfl 0 hj (fun e' => e e'.symm)
      | succ j =>
        have : rt (j + 1) = pt (j + 1) - (d (r (j + 1)) (rt (j + 1)) / d (r j) (rt j)) • pt j := by rw [h.hpt j]; abel
        rw [this, map_sub, map_smul, o.dir k le_rfl j (by omega) (by omega), smul_zero, sub_zero]
        split
        · next e => rw [← e]
        · next e => exact o.dir k le_rfl _ hj (fun e' => e e'.symm)
    have e2 : ∀ j ≤ k, d (A (r j)) (pt k) = if j = k then d (A (p k)) (pt k) else 0 := fun j hj => by
      cases j with
      | zero => rw [← h.p0]
                split
                · next e => rw [← e]
                · next e => exact o.dir 0 hj k le_rfl e
      | succ j =>
        have : r (j + 1) = p (j + 1) - (d (r (j + 1)) (rt (j + 1)) / d (r j) (rt j)) • p j := by rw [h.hp j]; abel
        rw [this, map_sub, map_smul, map_sub, map_smul, LinearMap.sub_apply, LinearMap.smul_apply, o.dir j (by omega) k le_rfl (by omega),
          smul_zero, sub_zero]
        split
        · next e => rw [← e]
        · next e => exact o.dir _ hj k le_rfl e
    have f1 : ∀ j ≤ k, d (r (k + 1)) (rt j) = 0 := fun j hj => by
      rw [h.hr k, map_sub, map_smul, LinearMap.sub_apply, LinearMap.smul_apply, e1 j hj]
      split
      · next e => subst e; rw [smul_eq_mul, div_mul_cancel₀ _ hgk, sub_self]
      · next e => rw [o.res k le_rfl j hj (fun e' => e e'.symm), smul_zero, sub_zero]
    have f2 : ∀ j ≤ k, d (r j) (rt (k + 1)) = 0 := fun j hj => by
      rw [h.hrt k, map_sub, map_smul, ← h.adj, e2 j hj]
      split
      · next e => subst e; rw [smul_eq_mul, div_mul_cancel₀ _ hgk, sub_self]
      · next e => rw [o.res j hj k le_rfl e, smul_zero, sub_zero]
    have hal : ∀ j ≤ k, d (r j) (rt j) / d (A (p j)) (pt j) ≠ 0 := fun j hj => div_ne_zero (hm j (by omega)) (hg j (by omega))
    have g1 : ∀ j ≤ k, d (A (p (k + 1))) (pt j) = 0 := fun j hj => by
      have ea : (d (r j) (rt j) / d (A (p j)) (pt j)) • At (pt j) = rt j - rt (j + 1) := by rw [h.hrt j]; abel
      have eb : (d (r j) (rt j) / d (A (p j)) (pt j)) * d (A (r (k + 1))) (pt j) = - d (r (k + 1)) (rt (j + 1)) := by
        rw [h.adj (r (k + 1)), ← smul_eq_mul, ← map_smul, ea, map_sub, f1 j hj, zero_sub]
      refine (mul_eq_zero.mp ?_).resolve_left (hal j hj)
      rw [h.hp k, map_add, map_smul, map_add, map_smul, LinearMap.add_apply, LinearMap.smul_apply, mul_add, eb]
      rcases Nat.lt_or_ge j k with hj' | hj'
      · rw [f1 (j + 1) hj', o.dir k le_rfl j hj (by omega)]; simp
      · obtain rfl : j = k := by omega
        rw [smul_eq_mul]
        field_simp
        ring
    have g2 : ∀ j ≤ k, d (A (p j)) (pt (k + 1)) = 0 := fun j hj => by
      have ea : (d (r j) (rt j) / d (A (p j)) (pt j)) • A (p j) = r j - r (j + 1) := by rw [h.hr j]; abel
      have eb : (d (r j) (rt j) / d (A (p j)) (pt j)) * d (A (p j)) (rt (k + 1)) = - d (r (j + 1)) (rt (k + 1)) := by
        rw [← smul_eq_mul, ← LinearMap.smul_apply, ← map_smul, ea, map_sub, LinearMap.sub_apply, f2 j hj, zero_sub]
      refine (mul_eq_zero.mp ?_).resolve_left (hal j hj)
      rw [h.hpt k, map_add, map_smul, mul_add, eb]
      rcases Nat.lt_or_ge j k with hj' | hj'
      · rw [f2 (j + 1) hj', o.dir j hj k le_rfl (by omega)]; simp
      · obtain rfl : j = k := by omega
        rw [smul_eq_mul]
        field_simp
        ring
    refine ⟨fun i hi j hj hij => ?_, fun i hi j hj hij => ?_⟩
    · by_cases hi' : i = k + 1
      · subst hi'; exact f1 j (by omega)
      · by_cases hj' : j = k + 1
        · subst hj'; exact f2 i (by omega)
        · exact o.res i (by omega) j (by omega) hij
    · by_cases hi' : i = k + 1
      · subst hi'; exact g1 j (by omega)
      · by_cases hj' : j = k + 1
        · subst hj'; exact g2 i (by omega)
        · exact o.dir i (by omega) j (by omega) hij

/-- after `finrank` steps without breakdown the residual vanishes -/
theorem IsBicg.terminates [FiniteDimensional K V] (h : IsBicg d A At r rt p pt) (hnd : ∀ u, (∀ w, d u w = 0) → u = 0) {n : Nat}
    (hn : Module.finrank K V = n) (hm : ∀ j < n, d (r j) (rt j) ≠ 0) (hg : ∀ j < n, d (A (p j)) (pt j) ≠ 0) : r n = 0 := by
  have o := h.orth n hm hg
  have li : LinearIndependent K fun i : Fin n => rt i := by
    rw [Fintype.linearIndependent_iff]
    intro g hg' i
    have e := congrArg (fun w => d (r i) w) hg'
    simp only [map_sum, map_smul, map_zero, smul_eq_mul] at e
    rw [Finset.sum_eq_single i] at e
    · exact (mul_eq_zero.mp e).resolve_right (hm i i.2)
    · intro j _ hj
      rw [o.res i i.2.le j j.2.le (fun e => hj (Fin.ext e.symm)), mul_zero]
    · intro hi; exact absurd (Finset.mem_univ i) hi
  have sp : Submodule.span K (Set.range fun i : Fin n => rt i) = ⊤ :=
    li.span_eq_top_of_card_eq_finrank' (by rw [Fintype.card_fin, hn])
  refine hnd _ fun w => ?_
  have hw : w ∈ Submodule.span K (Set.range fun i : Fin n => rt i) := by rw [sp]; trivial
  induction hw using Submodule.span_induction with
  | mem w hw => obtain ⟨i, rfl⟩ := hw
                exact o.res n le_rfl i i.2.le (by omega)
  | zero => exact map_zero _
  | add u w _ _ hu hw => rw [map_add, hu, hw, add_zero]
  | smul c u _ hu => rw [map_smul, hu, smul_zero]

end abstract_

section concrete
variable {K : Type} [Field K] [StarRing K] [TrivialStar K] {C : Nat → Prop} {n : Nat} {A : Nat → Nat → K} {f ft : AddEval K}

/-- the bilinear form -/
noncomputable def dotB (K : Type) [Field K] (n : Nat) : (Fin n → K) →ₗ[K] (Fin n → K) →ₗ[K] K :=
  LinearMap.mk₂ K (fun u w => u ⬝ᵥ w) add_dotProduct smul_dotProduct dotProduct_add (fun c u w => dotProduct_smul c u w)

theorem dotB_vec (f g : Nat → K) : dotB K n (vec n f) (vec n g) = ip n f g := by
  simp only [dotB, LinearMap.mk₂_apply, dotProduct, vec, ip]
  rw [← Fin.sum_univ_eq_sum_range (fun i => star (f i) * g i)]
  simp

theorem vec_mv (A : Nat → Nat → K) (f : Nat → K) : vec n (mv n A f) = (mat n A).mulVecLin (vec n f) := by
  funext i
  simp only [Matrix.mulVecLin_apply, vec, mv, Matrix.mulVec, dotProduct, mat, Matrix.of_apply]
  rw [← Fin.sum_univ_eq_sum_range (fun j => A i j * f j)]

theorem vec_sub (c : K) (f g : Nat → K) : vec n (fun i => f i - c * g i) = vec n f - c • vec n g := by
  funext i; simp [vec]
theorem vec_add (c : K) (f g : Nat → K) : vec n (fun i => f i + c * g i) = vec n f + c • vec n g := by
  funext i; simp [vec]

/-- the coefficient `alpha` -/
noncomputable def bicgL (n : Nat) (A : Nat → Nat → K) (G : BicgVar → Nat → K) : K := ip n (G .r) (G .rt) / ip n (mv n A (G .p)) (G .pt)

/-- the sequences of `init_bicg`, `step_bicg` -/
noncomputable def bicgSeq (n : Nat) (A At : Nat → Nat → K) (F : BicgVar → Nat → K) : Nat → BicgVar → Nat → K
  | 0 => bicgInitF n A F
  | k + 1 => let G := bicgSeq n A At F k
    bicgStepF n A At G (bicgL n A G) (ip n (fun i => G .r i - bicgL n A G * mv n A (G .p) i)
      (fun i => G .rt i - bicgL n A G * mv n At (G .pt) i) / ip n (G .r) (G .rt))

theorem bicgSeq_bicg (A : Nat → Nat → K) (F : BicgVar → Nat → K) :
    IsBicg (dotB K n) (mat n A).mulVecLin (mat n fun i j => A j i).mulVecLin
      (fun k => vec n (bicgSeq n A (fun i j => A j i) F k .r)) (fun k => vec n (bicgSeq n A (fun i j => A j i) F k .rt))
      (fun k => vec n (bicgSeq n A (fun i j => A j i) F k .p)) (fun k => vec n (bicgSeq n A (fun i j => A j i) F k .pt)) := by
  refine ⟨fun u w => ?_, rfl, rfl, fun k => ?_, fun k => ?_, fun k => ?_, fun k => ?_⟩
  · simp only [dotB, LinearMap.mk₂_apply, Matrix.mulVecLin_apply]
    have : (mat n fun i j => A j i) = (mat n A).transpose := rfl
    rw [this, Matrix.mulVec_transpose, dotProduct_comm, Matrix.dotProduct_mulVec, dotProduct_comm]
  · simp only [← vec_mv, dotB_vec, ← vec_sub]; rfl
  · simp only [← vec_mv, dotB_vec, ← vec_sub]; rfl
  · simp only [dotB_vec, ← vec_add]; rfl
  · simp only [dotB_vec, ← vec_add]; rfl

theorem bicg_run {m : Mem K} (hf : IsAddEval f n A C m) (hft : IsAddEval ft n (fun i j => A j i) C m) {v : BicgVar → Vec}
    (hs : Separate C v (fun _ => n) m) {k : Nat} {M : Nat → Mem K}
    (hM : ∀ i ≤ k, iterate (initBicg f (v .b) (v .x) (v .r) (v .rt) (v .p) (v .pt))
      (stepBicg f ft (v .x) (v .r) (v .rt) (v .p) (v .pt) (v .a) (v .at')) m i = .ok (M i)) (S : Nat → BicgVar → Nat → K)
    (hS : S = bicgSeq n A (fun i j => A j i) fun i => (v i).val m) :
    (∀ i ≤ k, Holds v m (S i) (M i)) ∧ ∀ i < k, ip n (mv n A (S i .p)) (S i .pt) ≠ 0 ∧ ip n (S i .r) (S i .rt) ≠ 0 := by
  subst hS
  induction k with
  | zero =>
    refine ⟨fun i hi => ?_, fun i hi => by omega⟩
    obtain rfl : i = 0 := by omega
    obtain ⟨m', e, h⟩ := initBicg_tot hf hs (.init hs)
    have := (hM 0 le_rfl).symm.trans e
    rw [Except.ok.inj this]
    exact h
  | succ k ih =>
    obtain ⟨h1, h2⟩ := ih fun i hi => hM i (by omega)
    have e := hM (k + 1) le_rfl
    rw [iterate, hM k (by omega), ok_bind] at e
    rcases stepBicg_nan hf hft hs (h1 k le_rfl) with h | h
    · rw [h.2] at e; cases e
    · refine ⟨fun i hi => ?_, fun i hi => ?_⟩
      · by_cases hi' : i = k + 1
        · subst hi'
          obtain ⟨m', e', h'⟩ := h.2
          obtain rfl := Except.ok.inj (e.symm.trans e')
          obtain ⟨l, beta, rfl, hb, h'⟩ := h'
          simp only [bicgStepF] at hb
          subst hb
          exact h'
        · exact h1 i (by omega)
      · by_cases hi' : i = k
        · subst hi'
          exact not_or.mp h.1
        · exact h2 i (by omega)

end concrete
end H2.Krylov
