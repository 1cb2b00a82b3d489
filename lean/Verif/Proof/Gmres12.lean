import Verif.Proof.Gmres11

/-! # GMRES: runs, one step too many -/

set_option linter.unusedSectionVars false

namespace H2.Gm
open Spec Dense Matrix QR Krylov
variable {n : Nat} {C : Nat → Prop} {b x rhat q : Vec} {qr : Mat} {m0 m : Mem ℝ} {F : GVar qr.cols → Nat → ℝ}
variable {A : Nat → Nat → ℝ} {N : Matrix (Fin n) (Fin n) ℝ} {f : AddEval ℝ} {prcd : Option (Prcd ℝ)} {sgn : ℝ → ℝ} {junk : Nat → ℝ}
variable {r : Fin n → ℝ} {B X : Nat → ℝ} {k : Nat} {st : GSt ℝ} {H : Nat → Nat → ℝ} {β : ℝ}

theorem loopN_last {σ : Type _} (body : Nat → σ → R σ) : ∀ (p i : Nat) (s : σ), loopN body (p + 1) i s = loopN body p i s >>= body (i + p)
  | 0, i, s => by show (body i s >>= fun s => pure s) = body i s; cases body i s <;> rfl
  | p + 1, i, s => by
    show (body i s >>= fun s => loopN body (p + 1) (i + 1) s) = (body i s >>= fun s => loopN body p (i + 1) s) >>= body (i + (p + 1))
    rw [bind_assoc]
    congr 1
    funext s
    rw [loopN_last body p (i + 1) s, show i + 1 + p = i + (p + 1) by omega]

theorem forUp_last {σ : Type _} (body : Nat → σ → R σ) (k : Nat) (s : σ) : forUp 0 (k + 1) body s = forUp 0 k body s >>= body k := by
  have := loopN_last body k 0 s
  rwa [Nat.zero_add] at this

/-- initialization and `k` regular steps -/
theorem run_tot (hs : SignFn 0 sgn) (hf : IsAddEval f n A C m0) (hp : IsPrcdOpt prcd n N.mulVec C m0) (hv : GmresVars n C b x rhat q qr m0) (hk : k < n) (hc : k < qr.cols)
    (hreg : Regular n A N.mulVec (b.val m0) (x.val m0) k) (k0 : Nat) {tau : Arr ℝ} (ht : qr.cols ≤ tau.n) :
    Tot (initGmres sgn 0 junk f prcd b x rhat q qr ⟨k0, tau, m0⟩ >>= forUp 0 k fun _ => stepGmres sgn 0 junk f prcd rhat q qr) fun st => ∃ F H β,
      GState n C b x rhat q qr m0 (N * mat n A) (res0 n A N (b.val m0) (x.val m0)) (b.val m0) (x.val m0) k st F H β := by
  refine Tot.bind (init_tot (junk := junk) hs hf hp hv (by omega) (by omega) (st := ⟨k0, tau, m0⟩) ht (Holds.init hv.sep)) fun st0 _ g0 => ?_
  refine forUp_tot (fun j st => ∃ F H β, GState n C b x rhat q qr m0 (N * mat n A) (res0 n A N (b.val m0) (x.val m0)) (b.val m0) (x.val m0) j st F H β) (Nat.zero_le _) g0 ?_
  rintro j st - hj ⟨F, H, β, g⟩
  exact step_tot hs hf hp hv (by omega) (by omega) g (hreg j hj).1 (hreg j hj).2

/-- the column of the last step -/
theorem column_full (hs : SignFn 0 sgn) (hf : IsAddEval f n A C m0) (hp : IsPrcdOpt prcd n N.mulVec C m0) (hv : GmresVars n C b x rhat q qr m0) (hkn : k + 1 = n) (hc : k + 1 < qr.cols)
    (h : GState n C b x rhat q qr m0 (N * mat n A) r B X k st F H β) :
    Tot (stepColumn sgn 0 junk f prcd q qr st) fun st' => st'.k = k ∧ ∃ F', Holds (gvec b x rhat q qr) m0 F' st'.m := by
  have hr := hv.rows
  have htau := h.htau
  unfold stepColumn
  simp only
  rw [h.hk, column_ok (b := b) (x := x) (rhat := rhat) (q := q) ⟨k + 1, hc⟩, ok_bind]
  refine Tot.bind (h.hold.clear hv.sep (.col ⟨k + 1, hc⟩)) fun m1 _ h1 => ?_
  refine Tot.bind (h1.eval hf hv.sep (i := .q) (j := .col ⟨k + 1, hc⟩) (by simp) rfl rfl 1) fun m2 _ h2 => ?_
  refine Tot.bind (h2.prcdOpt hp hv.sep (j := .col ⟨k + 1, hc⟩) rfl) fun m3 _ h3 => ?_
  rw [initSub_ok.mpr ⟨by omega, by omega, rfl⟩, ok_bind]
  refine Tot.bind (qreval_holds hv h3 (p := k + 1) (by omega) (by omega) (tau := st.tau) (by omega) (s := .col ⟨k + 1, hc⟩) (fun j hj e => by
    injection e with e; have := congrArg Fin.val e; simp only at this; omega) true) fun m4 _ ⟨X4, h4, e4⟩ => ?_
  rw [initSub_ok.mpr ⟨by omega, by omega, rfl⟩, ok_bind]
  refine Tot.cassert (by simp; omega) ?_
  obtain ⟨v1, _⟩ := part_valid hv h4 ⟨k + 1, hc⟩ (o := k + 1)
  refine Tot.bind (qrdecomp_tot hs le_rfl junk ⟨1, fun i => st.tau.v (k + 1 + i)⟩ v1) fun p _ ⟨_, _, Y, t3, t4⟩ => ?_
  obtain ⟨tau, m5⟩ := p
  exact Tot.pure ⟨rfl, _, colpart_holds hv h4 ⟨k + 1, hc⟩ (o := k + 1) (by omega) t3⟩

/-- one step too many -/
theorem step_ub (hs : SignFn 0 sgn) (hf : IsAddEval f n A C m0) (hp : IsPrcdOpt prcd n N.mulVec C m0) (hv : GmresVars n C b x rhat q qr m0) (hkn : k + 1 = n) (hc : n < qr.cols)
    (hq : m0 (q.addr n) = none) (h : GState n C b x rhat q qr m0 (N * mat n A) r B X k st F H β) : stepGmres sgn 0 junk f prcd rhat q qr st = .error .ub := by
  have hr := hv.rows
  obtain ⟨st1, e1, k1, F1, h1⟩ := column_full (junk := junk) hs hf hp hv hkn (by omega) h
  unfold stepGmres
  rw [if_neg (by rw [h.hk]; omega), e1, ok_bind]
  unfold stepDirection
  rw [k1, initSub_ok.mpr ⟨by omega, by omega, rfl⟩, ok_bind]
  obtain ⟨m2, e2, h2⟩ := h1.clear hv.sep .q
  replace e2 : clearVec q st1.m = .ok m2 := e2
  rw [e2, ok_bind]
  have hn : m2 (q.addr (k + 1)) = none := by
    rw [h2.2 _ fun s hs => ?_, hkn, hq]
    obtain ⟨i, hi, e⟩ := hs
    have := (hv.sep.1 s).1.1 i hi
    rw [← e, hkn, hq] at this
    cases this
  have e3 : m2.write (q.addr (k + 1)) 1 = .error .ub := by
    unfold Mem.write; rw [hn]
  rw [e3]; rfl

end H2.Gm
