import Verif.Proof.NormEst
import Verif.Props.KrylovSolve

/-!
# C68: estimates of spectral norms

`NormEst rows cols A x0 r` (Spec/NormEst.lean): `r` is the square root of the quotient of the last two vectors of the iteration with `A^* A` started with `x0`; it never exceeds any bound of the matrix and
it is never smaller than the quotient `‖A x0‖ / ‖x0‖`. The theorems add that the functions end normally, without access to memory that is not allocated, and that the memory is afterwards exactly what it was before:
no vector is leaked, the matrices are unchanged.
-/

set_option linter.unusedSectionVars false

namespace H2.Props
open Spec Krylov Dense
variable {𝕜 : Type} [RCLike 𝕜] {C : Nat → Prop} {rows cols n : Nat} {A B : Nat → Nat → 𝕜} {f g : MvmCb 𝕜} {m : Mem 𝕜} {nx ny : Nat}

/-- `norm2_matrix` estimates `‖A‖`. -/
theorem C68_norm2 (hf : IsMvm f rows cols A C m) (hC : ∀ c, C c → (m c).isSome) (fr : FreshVecs m [⟨nx, cols⟩, ⟨ny, rows⟩]) (junk rnd : Nat → 𝕜) :
    ∃ r, norm2Mat f rows cols nx ny junk rnd m = .ok (r, m) ∧ NormEst rows cols A rnd r :=
  normEst_tot hC fr junk rnd fun _ h hs => normBody_gram hs (mvm_agree hf h)

/-- `norm2diff_matrix` estimates `‖A - B‖`. -/
theorem C68_diff (hf : IsMvm f rows cols A C m) (hg : IsMvm g rows cols B C m) (hC : ∀ c, C c → (m c).isSome) (fr : FreshVecs m [⟨nx, cols⟩, ⟨ny, rows⟩]) (junk rnd : Nat → 𝕜) :
    ∃ r, norm2diffMat f g rows cols nx ny junk rnd m = .ok (r, m) ∧ NormEst rows cols (fun i j => A i j - B i j) rnd r :=
  normEst_tot hC fr junk rnd fun _ h hs => diffBody_gram hs (mvm_agree hf h) (mvm_agree hg h)

/-- `norm2diff_pre_matrix` estimates `‖B - A‖` for a square matrix `B` given by the evaluations of `B` and of its adjoint in place. -/
theorem C68_pre {evalB evaltransB : Prcd 𝕜} {B : Matrix (Fin n) (Fin n) 𝕜} (hf : IsMvm f n n A C m) (hB : IsPrcd evalB n B.mulVec C m)
    (hBt : IsPrcd evaltransB n (Matrix.conjTranspose B).mulVec C m) (hC : ∀ c, C c → (m c).isSome) (fr : FreshVecs m [⟨nx, n⟩, ⟨ny, n⟩]) (junk rnd : Nat → 𝕜) :
    ∃ r, norm2diffPre f evalB evaltransB n n nx ny junk rnd m = .ok (r, m) ∧ NormEst n n (fun i j => entries B i j - A i j) rnd r :=
  normEst_tot hC fr junk rnd fun _ h hs => preBody_gram hs (mvm_agree hf h) (prcd_agree hB h) (prcd_agree hBt h)

/-- `norm2diff_id_pre_matrix` estimates `‖B⁻¹ A - I‖` for an invertible matrix `B` given by the solvers for `B` and for its adjoint. -/
theorem C68_id_pre {solveB solvetransB : Prcd 𝕜} {B : Matrix (Fin n) (Fin n) 𝕜} (hf : IsMvm f n n A C m) (hB : IsPrcd solveB n B⁻¹.mulVec C m)
    (hBt : IsPrcd solvetransB n (Matrix.conjTranspose B)⁻¹.mulVec C m) (hC : ∀ c, C c → (m c).isSome) (fr : FreshVecs m [⟨nx, n⟩, ⟨ny, n⟩]) (junk rnd : Nat → 𝕜) :
    ∃ r, norm2diffIdPre f solveB solvetransB n n nx ny junk rnd m = .ok (r, m) ∧
      NormEst n n (fun i j => ∑ k ∈ Finset.range n, entries B⁻¹ i k * A k j - if i = j then 1 else 0) rnd r := by
  rw [← Matrix.conjTranspose_nonsing_inv] at hBt
  exact normEst_tot hC fr junk rnd fun _ h hs => idBody_gram hs (mvm_agree hf h) (prcd_agree hB h) (prcd_agree hBt h)

/-- `norm2_amatrix` -/
theorem C68_norm2_amatrix {a : Mat} (ha : a.Valid m) (fr : FreshVecs m [⟨nx, a.cols⟩, ⟨ny, a.rows⟩]) (junk rnd : Nat → 𝕜) :
    ∃ r, norm2Am a nx ny junk rnd m = .ok (r, m) ∧ NormEst a.rows a.cols (a.val m) rnd r :=
  C68_norm2 (C47_callback_mvm ha) (fun c ⟨i, hi, j, hj, e⟩ => by rw [e]; exact ha.2 i hi j hj) fr junk rnd

theorem mvm_super {f : MvmCb 𝕜} {C C' : Nat → Prop} (hf : IsMvm f rows cols A C m) (h : ∀ c, C c → C' c) : IsMvm f rows cols A C' m :=
  fun alpha trans x y m' hm dx dy => hf alpha trans x y m' (fun c hc => hm c (h c hc)) (fun c h1 h2 => dx c h1 (h c h2)) fun c h1 h2 => dy c h1 (h c h2)

/-- `norm2diff_amatrix` -/
theorem C68_diff_amatrix {a b : Mat} (ha : a.Valid m) (hb : b.Valid m) (hr : b.rows = a.rows) (hc : b.cols = a.cols) (fr : FreshVecs m [⟨nx, a.cols⟩, ⟨ny, a.rows⟩]) (junk rnd : Nat → 𝕜) :
    ∃ r, norm2diffAm a b nx ny junk rnd m = .ok (r, m) ∧ NormEst a.rows a.cols (fun i j => a.val m i j - b.val m i j) rnd r := by
  refine C68_diff (C := fun c => a.Cell c ∨ b.Cell c) (mvm_super (C47_callback_mvm ha) fun c => .inl) (mvm_super ?_ fun c => .inr) ?_ fr junk rnd
  · have := C47_callback_mvm hb
    rwa [hr, hc] at this
  · rintro c (⟨i, hi, j, hj, e⟩ | ⟨i, hi, j, hj, e⟩)
    · rw [e]; exact ha.2 i hi j hj
    · rw [e]; exact hb.2 i hi j hj

/-- Consequences of the specification: the estimate of the zero matrix is zero, and the estimate is positive unless the starting vector is in the null space. -/
theorem C68_zero_iff {x0 : Nat → 𝕜} {r : ℝ} (h : NormEst rows cols A x0 r) : (r = 0 → ∀ i < rows, mv cols A x0 i = 0) ∧ ((∀ i < rows, ∀ j < cols, A i j = 0) → r = 0) := by
  constructor
  · rintro rfl
    have := h.above
    rw [zero_mul] at this
    exact nrm_eq_zero (le_antisymm this (nrm_nonneg _ _))
  · intro hz
    refine le_antisymm (h.below 0 le_rfl fun f => ?_) h.nonneg
    rw [zero_mul, nrm_zero fun i hi => ?_]
    exact Finset.sum_eq_zero fun j hj => by rw [hz i hi j (Finset.mem_range.mp hj), zero_mul]

/-! ### the hypotheses are met -/

/-- the estimate for the dense example matrix -/
example (rnd : Nat → ℝ) : ∃ r, norm2Am (Mat.mk 0 2 2 2) 22 24 (fun _ => 7) rnd exMem47 = .ok (r, exMem47) ∧ NormEst 2 2 ((Mat.mk 0 2 2 2).val exMem47) rnd r :=
  C68_norm2_amatrix exValid47 (by
    have := exFresh62.1
    exact ⟨fun v hv => this.1 v (by simp only [List.mem_cons, List.not_mem_nil, or_false] at hv ⊢; tauto), by
      have h := this.2
      simp only [List.pairwise_cons, List.mem_cons, List.not_mem_nil, or_false, forall_eq_or_imp, forall_eq, IsEmpty.forall_iff, implies_true, and_true, List.Pairwise.nil] at h ⊢
      exact h.1.1⟩) _ _

/-- the difference of the example matrix to `2 I`, given by an evaluation in place -/
example (rnd : Nat → ℝ) : ∃ r, norm2diffPre (fun alpha trans => mvm alpha trans (Mat.mk 0 2 2 2)) (fun x => scaleVec (2 : ℝ) x) (fun x => scaleVec (2 : ℝ) x) 2 2 22 24 (fun _ => 7) rnd exMem47 = .ok (r, exMem47) := by
  have e : ((2 : ℝ) • (1 : Matrix (Fin 2) (Fin 2) ℝ)).mulVec = fun u => (2 : ℝ) • u := by
    funext u; rw [Matrix.smul_mulVec, Matrix.one_mulVec]
  have hp : IsPrcd (fun x => scaleVec (2 : ℝ) x) 2 ((2 : ℝ) • (1 : Matrix (Fin 2) (Fin 2) ℝ)).mulVec (Mat.mk 0 2 2 2).Cell exMem47 := by
    intro x m' _ _ hx dx
    rw [e]
    exact scale_isPrcd 2 2 (m := exMem47) x m' (fun _ h => h.elim) (fun _ _ h => h) hx dx
  obtain ⟨r, h, -⟩ := C68_pre (C := (Mat.mk 0 2 2 2).Cell) (C47_callback_mvm exValid47) hp (by simpa using hp) (fun c ⟨i, hi, j, hj, e⟩ => by rw [e]; exact exValid47.2 i hi j hj)
    (nx := 22) (ny := 24) (by
    have := exFresh62.1
    exact ⟨fun v hv => this.1 v (by simp only [List.mem_cons, List.not_mem_nil, or_false] at hv ⊢; tauto), by
      have h := this.2
      simp only [List.pairwise_cons, List.mem_cons, List.not_mem_nil, or_false, forall_eq_or_imp, forall_eq, IsEmpty.forall_iff, implies_true, and_true, List.Pairwise.nil] at h ⊢
      exact h.1.1⟩) (fun _ => 7) rnd
  exact ⟨r, h⟩

end H2.Props
