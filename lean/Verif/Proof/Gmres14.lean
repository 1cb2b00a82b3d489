import Verif.Proof.Gmres13

/-! # GMRES: one column -/

set_option linter.unusedSectionVars false

namespace H2.Gm
open Spec Dense Matrix QR Krylov
variable {n : Nat} {C : Nat → Prop} {b x rhat q : Vec} {qr : Mat} {m0 m : Mem ℝ} {F : GVar qr.cols → Nat → ℝ}
variable {A : Nat → Nat → ℝ} {N : Matrix (Fin n) (Fin n) ℝ} {f : AddEval ℝ} {prcd : Option (Prcd ℝ)} {sgn : ℝ → ℝ} {junk : Nat → ℝ}
variable {B X : Nat → ℝ} {k : Nat} {st : GSt ℝ} {H : Nat → Nat → ℝ} {β : ℝ}

/-- With one column, the loop makes no progress. -/
theorem loop_one (hs : SignFn 0 sgn) (hf : IsAddEval f n A C m0) (hp : IsPrcdOpt prcd n N.mulVec C m0) (hv : GmresVars n C b x rhat q qr m0) (hc : qr.cols = 1) {tol : ℝ} {maxiter : Nat} (hmax : maxiter < 2 ^ 32)
    {X0 : Nat → ℝ} (htol : tol < √(Spec.minRes n A N.mulVec B X0 0)) :
    ∀ (fuel i : Nat) (X : Nat → ℝ) (st : GSt ℝ) (F : GVar qr.cols → Nat → ℝ) (H : Nat → Nat → ℝ) (β : ℝ), i < maxiter → maxiter ≤ i + 1 + fuel → (∀ l < n, X l = X0 l) →
      GState n C b x rhat q qr m0 (N * mat n A) (res0 n A N B X) B X 0 st F H β →
      Tot (gmresLoop sgn 0 junk f prcd b x rhat q qr tol maxiter fuel (√(Spec.minRes n A N.mulVec B X0 0), i, st)) fun s => s.2.1 + 1 = maxiter ∧ ∃ X F H β, (∀ l < n, X l = X0 l) ∧ 
        GState n C b x rhat q qr m0 (N * mat n A) (res0 n A N B X) B X 0 s.2.2 F H β := by
  intro fuel
  induction fuel with
  | zero =>
    intro i X st F H β hi hfu hX h
    unfold gmresLoop whileF
    rw [if_neg]
    · exact ⟨_, rfl, show i + 1 = maxiter by omega, X, F, H, β, hX, h⟩
    · simp only [decide_eq_true_eq]
      intro hh
      apply hh.2
      rw [Nat.mod_eq_of_lt (by omega)]; omega
  | succ fuel ih =>
    intro i X st F H β hi hfu hX h
    have hmod : (i + 1) % 2 ^ 32 = i + 1 := Nat.mod_eq_of_lt (by omega)
    by_cases hcond : i + 1 = maxiter
    · unfold gmresLoop whileF
      rw [if_neg]
      · exact ⟨_, rfl, hcond, X, F, H, β, hX, h⟩
      · simp only [decide_eq_true_eq, hmod]
        exact fun hh => hh.2 hcond
    · unfold gmresLoop whileF
      rw [if_pos (by simp only [decide_eq_true_eq]; exact ⟨htol, by rw [hmod]; exact hcond⟩)]
      dsimp only
      rw [h.hk, if_pos (by omega)]
      simp only [bind_assoc, pure_bind]
      refine Tot.bind (finish_tot (junk := junk) hs hf hp hv (by omega) h) fun st' _ ⟨X', F', H', β', g1, g2, g3⟩ => ?_
      have hX' : ∀ l < n, X' l = X0 l := fun l hl => by
        obtain ⟨c, hc⟩ := g1.1
        rw [hc l hl]; simp [hX l hl]
      have e : stepGmres sgn 0 junk f prcd rhat q qr st' = .ok st' := by
        unfold stepGmres; rw [if_pos (by omega)]; rfl
      rw [e, ok_bind, g3.residual hv, ok_bind, hmod, minRes_congr (fun _ _ => rfl) hX']
      exact ih (i + 1) X' st' F' H' β' (by omega) (by omega) hX' g3

end H2.Gm
