import Verif.Proof.Coarsen3
import Verif.Props.Trunc
import Verif.Props.Collect

/-! # C64: coarsening of H-matrices (`coarsen_hmatrix`) -/

namespace H2.Props
open Spec HV Svd
variable {G 𝕜 : Type} [RCLike 𝕜] {env : TrEnv 𝕜} {tm : Option Trunc.Mode} {eps : ℝ} {z : Sizeof} {same : CRef G → CRef G → Bool} {recursive : Bool}

/-- `coarsen_hmatrix` always succeeds; the result is a valid H-matrix that differs only by replacing off-diagonal subdivided blocks by low-rank
blocks and does not need more storage.  If it works recursively, no block of the result can be replaced any more with a gain.  Otherwise it only
considers the block itself. -/
theorem C64_coarsen (he : ExactEnv env) (heps : 0 ≤ eps) {h : HV G 𝕜} (ho : HVOk h) :
    ∃ h', coarsen env tm eps z same recursive h = .ok h' ∧ HVOk h' ∧ h'.rc = h.rc ∧ h'.cc = h.cc ∧ Coarser same h h' ∧ storage z h' ≤ storage z h ∧
      (recursive = true → AllSettled same z tm eps h') ∧ (recursive = false → Settled same z tm eps h' ∧ (h' = h ∨ ∃ r, h' = rk h.rc h.cc r)) := by
  obtain ⟨h', e, hr⟩ := coarsen_tot (same := same) (z := z) (tm := tm) he heps recursive (Err := fun (_ _ : HV G 𝕜) => True) ⟨fun _ => trivial, fun _ _ _ _ => trivial, fun _ _ _ _ _ => trivial⟩ ho
  exact ⟨h', e, hr.ok, hr.rc, hr.cc, hr.coarser, hr.size, hr.all, fun h => ⟨hr.settled, hr.one h⟩⟩

/-- With an absolute tolerance, the error is bounded by the tolerance times the number of subdivided blocks, in the norm selected by the truncation
mode. -/
theorem C64_error_absolute (he : ExactEnv env) (heps : 0 ≤ eps) (frob : Bool) {h h' : HV G 𝕜} (ho : HVOk h)
    (hh : coarsen env (some ⟨frob, true⟩) eps z same recursive h = .ok h') :
    Within frob (eps * supers h) h.rc.cl.size h.cc.cl.size fun i j => hentry h i j - hentry h' i j := by
  obtain ⟨h'', e, hr⟩ := coarsen_tot (same := same) (z := z) he heps recursive (errRel_abs (G := G) (tm := some ⟨frob, true⟩) (frob := frob) heps fun rows cols M N hc => by
    cases frob
    · exact hc
    · exact hc) ho
  obtain rfl : h' = h'' := Except.ok.inj (hh.symm.trans e)
  exact hr.err

/-- With a tolerance relative to the Frobenius norm, the relative error is bounded by `(1 + eps)^p - 1`, where `p` is the number of nested
subdivisions. -/
theorem C64_error_relative (he : ExactEnv env) (heps : 0 ≤ eps) {h h' : HV G 𝕜} (ho : HVOk h) (hh : coarsen env (some ⟨true, false⟩) eps z same recursive h = .ok h') :
    frobSq h.rc.cl.size h.cc.cl.size (fun i j => hentry h i j - hentry h' i j) ≤ ((1 + eps) ^ nested h - 1) ^ 2 * frobSq h.rc.cl.size h.cc.cl.size (hentry h) := by
  obtain ⟨h'', e, hr⟩ := coarsen_tot (same := same) (z := z) he heps recursive (errRel_rel (G := G) (𝕜 := 𝕜) heps) ho
  obtain rfl : h' = h'' := Except.ok.inj (hh.symm.trans e)
  exact hr.err

/-- With the tolerance zero, coarsening does not change the matrix, in all truncation modes. -/
theorem C64_exact (he : ExactEnv env) {h h' : HV G 𝕜} (ho : HVOk h) (hh : coarsen env tm 0 z same recursive h = .ok h') :
    ∀ i < h.rc.cl.size, ∀ j < h.cc.cl.size, hentry h' i j = hentry h i j := by
  obtain ⟨h'', e, hr⟩ := coarsen_tot (same := same) (z := z) he le_rfl recursive (errRel_abs (G := G) (tm := tm) (eps := 0) (frob := true) le_rfl fun rows cols M N hc =>
    within_zero fun i hi j hj => by rw [close_zero hc hi hj, sub_self]) ho
  obtain rfl : h' = h'' := Except.ok.inj (hh.symm.trans e)
  intro i hi j hj
  have h1 := hr.err
  rw [zero_mul] at h1
  have h2 : CloseTo (some ⟨true, true⟩) 0 h.rc.cl.size h.cc.cl.size (hentry h) (hentry h') := h1
  exact close_zero h2 hi hj

/-! ## Hypotheses are satisfiable -/

example : ∃ h', coarsen trEnvEx none (1 / 10) ⟨40, 32, 8⟩ (fun _ _ => false) true hvEx = .ok h' ∧ storage ⟨40, 32, 8⟩ h' ≤ storage ⟨40, 32, 8⟩ hvEx := by
  obtain ⟨h', e, -, -, -, -, h1, -⟩ := C64_coarsen (tm := none) (z := ⟨40, 32, 8⟩) (same := fun _ _ => false) (recursive := true) (eps := 1 / 10) trEnvEx_ok (by norm_num) hvEx_ok.1
  exact ⟨h', e, h1⟩

/-- a matrix of rank one, represented by four dense blocks -/
def hvOnes : HV Nat ℝ := .super (CRef.root bex) (CRef.root bex) 2 2 fun i j => .full (bs i) (bs j) ⟨(bs i).cl.size, (bs j).cl.size, fun _ _ => 1⟩

theorem hvOnes_ok : HVOk hvOnes := ⟨by decide, by decide, ⟨bs, bs, fun _ _ => ⟨rfl, rfl⟩, bs_seg, bs_seg⟩, fun _ _ => ⟨rfl, rfl⟩⟩

/-- it is replaced by a low-rank block -/
example : ∃ r, coarsen trEnvEx none 0 ⟨40, 32, 8⟩ (fun _ _ => false) true hvOnes = .ok (rk (CRef.root bex) (CRef.root bex) r) ∧
    ∀ i < 5, ∀ j < 5, rkVal r i j = 1 := by
  obtain ⟨h', e, h1, h2, h3, h4, h5, h6, -⟩ := C64_coarsen (tm := none) (z := ⟨40, 32, 8⟩) (same := fun _ _ => false) (recursive := true) trEnvEx_ok le_rfl hvOnes_ok
  have hx := C64_exact trEnvEx_ok hvOnes_ok e
  have hent : ∀ i < 5, ∀ j < 5, hentry hvOnes i j = 1 := by
    intro i hi j hj
    unfold hentry hvOnes
    rw [hval_super]
    simp only [Fin.sum_univ_two, hval_full]
    simp only [mem_seg, show (bs 0).cl.off = 0 from rfl, show (bs 1).cl.off = 2 from rfl, show (bs 0).cl.size = 2 from rfl, show (bs 1).cl.size = 3 from rfl, HV.rc, HV.cc,
      show (CRef.root bex).cl.off = 0 from rfl]
    interval_cases i <;> interval_cases j <;> norm_num
  cases h' with
  | rk t s r =>
    refine ⟨r, ?_, fun i hi j hj => ?_⟩
    · rw [e, show t = CRef.root bex from h2, show s = CRef.root bex from h3]
    · rw [← hentry_rk (t := t) (s := s) (by rw [show t = CRef.root bex from h2]; exact hi) (by rw [show s = CRef.root bex from h3]; exact hj), hx i hi j hj, hent i hi j hj]
  | full t s f => exact absurd h4 (fun h => by cases h)
  | super t s m n son =>
    exfalso
    obtain ⟨rfl, rfl, rfl, rfl, h7⟩ := h4
    have h8 := (h6 rfl).1 rfl (fun i j => by
      rw [← show (HV.full _ _ _ : HV Nat ℝ) = son i j from h7 i j]
      exact trivial)
    obtain ⟨r, er, hr, -⟩ := C63_trunc (tm := none) trEnvEx_ok le_rfl (r := ⟨⟨5, 1, fun _ _ => 1⟩, ⟨5, 1, fun _ _ => 1⟩, 1⟩) ⟨rfl, rfl⟩
    have hc : ∀ i < 5, ∀ j < 5, rkVal (⟨⟨5, 1, fun _ _ => 1⟩, ⟨5, 1, fun _ _ => 1⟩, 1⟩ : VRk ℝ) i j = hentry (super (CRef.root bex) (CRef.root bex) 2 2 son) i j := fun i hi j hj => by
      rw [hx i hi j hj, hent i hi j hj]
      simp [rkVal]
    have h9 := h8 r ⟨hr.ok, hr.rows_eq, hr.cols_eq, hr.rank, close_congr hc hr.close, fun k hk X Y hcl => hr.least k hk X Y (close_congr (fun i hi j hj => (hc i hi j hj).symm) hcl)⟩
    have h10 : r.k ≤ 1 := C63_rank hr 1 (fun _ _ => 1) (fun _ _ => 1) fun i _ j _ => by simp [lowRank, rkVal]
    have h11 : son = fun i j => .full (bs i) (bs j) ⟨(bs i).cl.size, (bs j).cl.size, fun _ _ => 1⟩ := funext fun i => funext fun j => (h7 i j).symm
    rw [h11] at h9
    simp only [storage, Fin.sum_univ_two, hr.ok.1, hr.ok.2, hr.rows_eq, hr.cols_eq, show (bs 0).cl.size = 2 from rfl, show (bs 1).cl.size = 3 from rfl] at h9
    omega

end H2.Props
