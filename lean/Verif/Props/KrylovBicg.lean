import Verif.Proof.KrylovBicg
import Verif.Props.Krylov
import Mathlib.Analysis.Complex.Basic
import Mathlib.Tactic.IntervalCases
import Mathlib.Tactic.FinCases

/-!
# C54: BiCG, and the callbacks that meet the assumptions of C47, C48 and C54
-/

set_option linter.unusedSectionVars false

namespace H2.Props
open Spec Dense Krylov

section real
variable {K : Type} [Field K] [StarRing K] [TrivialStar K] {C : Nat → Prop} {n : Nat} {A : Nat → Nat → K} {f ft : AddEval K} {m : Mem K}

/-- For a real field: if `k` steps of `step_bicg` run without division by zero, with `M i` the memory after `i` steps, the
residuals `r` and `rt` are biorthogonal, the directions `p` and `pt` biconjugate, `k ≤ n`, and if `k = n` the exact solution has
been found. -/
theorem C54_bicg (hf : IsAddEval f n A C m) (hft : IsAddEval ft n (fun i j => A j i) C m) {v : BicgVar → Vec}
    (hs : Separate C v (fun _ => n) m) {k : Nat} {M : Nat → Mem K}
    (hM : ∀ i ≤ k, iterate (initBicg f (v .b) (v .x) (v .r) (v .rt) (v .p) (v .pt))
      (stepBicg f ft (v .x) (v .r) (v .rt) (v .p) (v .pt) (v .a) (v .at')) m i = .ok (M i)) :
    (∀ i ≤ k, ∀ j ≤ k, i ≠ j → ip n ((v .r).val (M i)) ((v .rt).val (M j)) = 0 ∧
      ip n (mv n A ((v .p).val (M i))) ((v .pt).val (M j)) = 0) ∧
    k ≤ n ∧ (k = n → ∀ i < n, mv n A ((v .x).val (M k)) i = (v .b).val m i) := by
  obtain ⟨S, hS⟩ : ∃ S, S = bicgSeq n A (fun i j => A j i) fun i => (v i).val m := ⟨_, rfl⟩
  obtain ⟨hH, hne⟩ := bicg_run hf hft hs hM S hS
  have hb := bicgSeq_bicg (n := n) A fun i => (v i).val m
  rw [← hS] at hb
  have hd : ∀ s, (v s).dim = n := fun s => (hs.1 s).2
  have hv : ∀ i ≤ k, ∀ s, vec n ((v s).val (M i)) = vec n (S i s) := fun i hi s => by
    funext j
    exact (hH i hi).val s (by rw [hd]; exact j.2)
  have hmu : ∀ i < k, dotB K n (vec n (S i .r)) (vec n (S i .rt)) ≠ 0 := fun i hi => by
    rw [dotB_vec]; exact (hne i hi).2
  have hga : ∀ i < k, dotB K n ((mat n A).mulVecLin (vec n (S i .p))) (vec n (S i .pt)) ≠ 0 := fun i hi => by
    rw [← vec_mv, dotB_vec]; exact (hne i hi).1
  have o := hb.orth k hmu hga
  have hnd : ∀ u : Fin n → K, (∀ w, dotB K n u w = 0) → u = 0 := fun u hu => by
    funext i
    have := hu (Pi.single i 1)
    simpa [dotB] using this
  have hfin : Module.finrank K (Fin n → K) = n := Module.finrank_fin_fun K
  have hz : n ≤ k → vec n (S n .r) = 0 := fun h =>
    hb.terminates hnd hfin (fun j hj => hmu j (by omega)) (fun j hj => hga j (by omega))
  refine ⟨fun i hi j hj hij => ⟨?_, ?_⟩, ?_, ?_⟩
  · rw [← dotB_vec, hv i hi, hv j hj]; exact o.res i hi j hj hij
  · rw [← dotB_vec, vec_mv, hv i hi, hv j hj]; exact o.dir i hi j hj hij
  · by_contra hc
    have := hmu n (by omega)
    rw [hz (by omega), map_zero, LinearMap.zero_apply] at this
    exact this rfl
  · rintro rfl i hi
    have h47 := C47_bicg hf hft hs k
    rw [hM k le_rfl] at h47
    rcases h47 with h47 | ⟨m', e, h47⟩
    · cases h47
    · obtain rfl : M k = m' := Except.ok.inj e
      have e1 := h47.2.2.2.1 i hi
      have e2 := congrFun (hz le_rfl) ⟨i, hi⟩
      rw [← hv k le_rfl] at e2
      have e2 : (v .r).val (M k) i = 0 := e2
      rw [e2] at e1
      exact (sub_eq_zero.mp e1.symm).symm

end real

section complex
variable {K : Type} [Field K] [StarRing K] {C : Nat → Prop} {A : Nat → Nat → K} {f ft : AddEval K} {m : Mem K}

/-- With a non-trivial conjugation (complex field), `step_bicg` uses the conjugate of the correct coefficient: already for
one equation `c x = b` with `c ≠ 0` that is not solved by the initial guess, the first step is well defined, but finds the solution
only if `c` is real. -/
theorem C54_complex (hf : IsAddEval f 1 A C m) (hft : IsAddEval ft 1 (fun i j => star (A j i)) C m) {v : BicgVar → Vec}
    (hs : Separate C v (fun _ => 1) m) (hA : A 0 0 ≠ 0) (h0 : A 0 0 * (v .x).val m 0 ≠ (v .b).val m 0) :
    Tot (iterate (initBicg f (v .b) (v .x) (v .r) (v .rt) (v .p) (v .pt))
      (stepBicg f ft (v .x) (v .r) (v .rt) (v .p) (v .pt) (v .a) (v .at')) m 1)
      fun m' => A 0 0 * (v .x).val m' 0 = (v .b).val m 0 ↔ star (A 0 0) = A 0 0 := by
  obtain ⟨m1, e1, h1⟩ := initBicg_tot hf hs (.init hs)
  simp only [iterate]
  rw [e1, ok_bind]
  set c := A 0 0
  set r0 := (v .b).val m 0 - c * (v .x).val m 0 with hr0
  have hr : r0 ≠ 0 := fun h => h0 (sub_eq_zero.mp h).symm
  have i1 : ∀ f g : Nat → K, ip 1 f g = star (f 0) * g 0 := fun f g => by simp [ip]
  have m1' : ∀ (f : Nat → K), mv 1 A f 0 = c * f 0 := fun f => by simp [mv, c]
  have hsr : star r0 ≠ 0 := star_ne_zero.mpr hr
  have hsc : star c ≠ 0 := star_ne_zero.mpr hA
  rcases stepBicg_nan hf hft hs h1 with h | h
  · exfalso
    have := h.1
    simp only [i1, m1', bicgInitF, star_mul] at this
    rcases this with h | h
    · exact mul_ne_zero (mul_ne_zero hsr hsc) hr h
    · exact mul_ne_zero hsr hr h
  · refine h.2.mono ?_
    rintro m' ⟨l, beta, hl, -, h'⟩
    have hl' : l = 1 / star c := by
      rw [hl]
      simp only [i1, m1', bicgInitF, star_mul, ← hr0]
      field_simp
    rw [h'.val .x (by rw [(hs.1 .x).2]; exact Nat.one_pos)]
    simp only [bicgStepF, bicgInitF, m1', ← hr0, hl']
    have e : (v .b).val m 0 = r0 + c * (v .x).val m 0 := by rw [hr0]; ring
    rw [e]
    constructor
    · intro h
      have h' : c * (1 / star c * r0) = r0 := by linear_combination h
      have h2 : c * r0 = star c * r0 := by
        rw [one_div] at h'
        calc c * r0 = star c * (c * ((star c)⁻¹ * r0)) := by field_simp
          _ = star c * r0 := by rw [h']
      exact (mul_right_cancel₀ hr h2).symm
    · intro h
      rw [h]
      field_simp
      ring

end complex

/-! ### callbacks -/

section callbacks
variable {K : Type} [Field K] [StarRing K] {m : Mem K}

theorem val_agree {a : Mat} {m m0 : Mem K} (h : ∀ c, a.Cell c → m c = m0 c) {i j : Nat} (hi : i < a.rows) (hj : j < a.cols) :
    a.val m i j = a.val m0 i j := by
  unfold Mat.val; rw [h _ ⟨i, hi, j, hj, rfl⟩]

theorem valid_agree {a : Mat} {m m0 : Mem K} (h : ∀ c, a.Cell c → m c = m0 c) (ha : a.Valid m0) : a.Valid m :=
  ⟨ha.1, fun i hi j hj => by rw [h _ ⟨i, hi, j, hj, rfl⟩]; exact ha.2 i hi j hj⟩

/-- `addeval_amatrix` with a square matrix is a valid `addeval` callback. -/
theorem C47_callback_addeval {a : Mat} (ha : a.Valid m) (hsq : a.rows = a.cols) :
    IsAddEval (fun alpha => addeval alpha a) a.rows (a.val m) a.Cell m := by
  intro alpha x y m' hm' hxa hya hx hy dx dy hxy
  refine (addeval_tot (valid_agree hm' ha) hx hy (fun c h1 h2 => hya c h2 h1) hxy (by rw [dx, hsq]) (by rw [dy]) alpha).mono
    fun m'' h => ⟨h.1, fun i hi => ?_, h.2.2⟩
  have ez := h.2.1 i hi
  beta_reduce at ez ⊢
  rw [ez, if_pos (by rw [← dy]; exact hi)]
  congr 2
  rw [hsq]
  exact Finset.sum_congr rfl fun j hj => by rw [val_agree hm' (by rw [← dy]; exact hi) (Finset.mem_range.mp hj)]

/-- `addevaltrans_amatrix` with a square matrix is a valid `addevaltrans` callback. -/
theorem C47_callback_addevaltrans {a : Mat} (ha : a.Valid m) (hsq : a.rows = a.cols) :
    IsAddEval (fun alpha => addevaltrans alpha a) a.rows (fun i j => star (a.val m j i)) a.Cell m := by
  intro alpha x y m' hm' hxa hya hx hy dx dy hxy
  refine (addevaltrans_tot (valid_agree hm' ha) hx hy (fun c h1 h2 => hya c h2 h1) hxy (by rw [dx]) (by rw [dy, hsq]) alpha).mono
    fun m'' h => ⟨h.1, fun i hi => ?_, h.2.2⟩
  have ez := h.2.1 i hi
  beta_reduce at ez ⊢
  have hi' : i < a.cols := by rw [← hsq, ← dy]; exact hi
  rw [ez, if_pos hi']
  congr 2
  exact Finset.sum_congr rfl fun j hj => by rw [val_agree hm' (Finset.mem_range.mp hj) hi']

/-- `mvm_amatrix` is a valid `mvm` callback. -/
theorem C47_callback_mvm {a : Mat} (ha : a.Valid m) :
    IsMvm (fun alpha trans => mvm alpha trans a) a.rows a.cols (a.val m) a.Cell m := by
  intro alpha trans x y m' hm' hxa hya hx hy dx dy hxy
  cases trans
  · simp only [Bool.false_eq_true, if_false] at dx dy
    refine (addeval_tot (valid_agree hm' ha) hx hy (fun c h1 h2 => hya c h2 h1) hxy (by rw [dx]) (by rw [dy]) alpha).mono
      fun m'' h => ⟨h.1, fun i hi => ?_, h.2.2⟩
    have ez := h.2.1 i hi
    beta_reduce at ez ⊢
    have hi' : i < a.rows := by rw [← dy]; exact hi
    rw [ez, if_pos hi']
    simp only [Bool.false_eq_true, if_false]
    congr 2
    exact Finset.sum_congr rfl fun j hj => by rw [val_agree hm' hi' (Finset.mem_range.mp hj)]; rfl
  · simp only [if_true] at dx dy
    refine (addevaltrans_tot (valid_agree hm' ha) hx hy (fun c h1 h2 => hya c h2 h1) hxy (by rw [dx]) (by rw [dy]) alpha).mono
      fun m'' h => ⟨h.1, fun i hi => ?_, h.2.2⟩
    have ez := h.2.1 i hi
    beta_reduce at ez ⊢
    have hi' : i < a.cols := by rw [← dy]; exact hi
    rw [ez, if_pos hi']
    congr 2
    exact Finset.sum_congr rfl fun j hj => by rw [val_agree hm' (Finset.mem_range.mp hj) hi']; rfl

/-- scaling is a valid preconditioner -/
theorem scale_isPrcd (n : Nat) (alpha : K) : IsPrcd (fun x => scaleVec alpha x) n (fun u => alpha • u) (fun _ => False) m := by
  intro x m' _ _ hx dx
  refine (scaleVec_tot hx alpha).mono fun m'' h => ⟨h.1, h.2.2, ?_⟩
  funext i
  exact h.2.1 i (by rw [dx]; exact i.2)

end callbacks

/-! ### the hypotheses are met -/

/-- a 2 × 2 matrix and nine vectors of two entries -/
def exMem47 : Mem ℝ := fun c =>
  if c < 22 then some (if c = 0 then 5 else if c = 1 ∨ c = 2 then 2 else if c = 3 then 1 else c) else none

/-- the vectors -/
def exVec47 (i : Nat) : Vec := ⟨4 + 2 * i, 2⟩

theorem exSep47 {ι : Type} (e : ι → Nat) (inj : ∀ i j, e i = e j → i = j) (hlt : ∀ i, e i < 9) :
    Separate (Mat.mk 0 2 2 2).Cell (fun i => exVec47 (e i)) (fun _ => 2) exMem47 := by
  refine ⟨fun i => ⟨⟨fun k hk => ?_, ?_⟩, rfl⟩, fun i j hij => ?_⟩
  · have := hlt i
    simp only [exVec47] at hk
    have : (exVec47 (e i)).addr k < 22 := by simp only [exVec47, Vec.addr]; omega
    simp only [exMem47, if_pos this]; rfl
  · rintro c ⟨k, hk, rfl⟩ ⟨a, ha, b, hb, h⟩
    simp only [exVec47, Mat.addr, Vec.addr] at h ha hb hk
    omega
  · rintro c ⟨k, hk, rfl⟩ ⟨l, hl, h⟩
    have : e i ≠ e j := fun h => hij (inj i j h)
    simp only [exVec47, Vec.addr] at h hk hl
    omega

theorem exValid47 : (Mat.mk 0 2 2 2).Valid exMem47 := by
  refine ⟨by decide, fun i hi j hj => ?_⟩
  simp only at hi hj
  have : (Mat.mk 0 2 2 2).addr i j < 22 := by simp only [Mat.addr]; omega
  simp only [exMem47, if_pos this]; rfl

open scoped ComplexOrder in
theorem exPos47 : (mat 2 ((Mat.mk 0 2 2 2).val exMem47)).PosDef := by
  have e : mat 2 ((Mat.mk 0 2 2 2).val exMem47) =
      (!![1, 2; 0, 1] : Matrix (Fin 2) (Fin 2) ℝ) * (!![1, 2; 0, 1] : Matrix (Fin 2) (Fin 2) ℝ).conjTranspose := by
    ext i j
    fin_cases i <;> fin_cases j <;> simp [mat, Mat.val, Mat.addr, exMem47, Matrix.mul_apply, Fin.sum_univ_two,
      Matrix.conjTranspose_apply] <;> try norm_num
  rw [e]
  refine Matrix.PosDef.mul_conjTranspose_self _ (Matrix.vecMul_injective_iff_isUnit.mpr ?_)
  rw [Matrix.isUnit_iff_isUnit_det, Matrix.det_fin_two]
  simp

open scoped ComplexOrder in
/-- a positive definite system that meets all hypotheses of the theorems on CG -/
example : ∃ v : CgVar → Vec, IsAddEval (fun alpha => addeval alpha (Mat.mk 0 2 2 2)) 2 ((Mat.mk 0 2 2 2).val exMem47) (Mat.mk 0 2 2 2).Cell
    exMem47 ∧ (mat 2 ((Mat.mk 0 2 2 2).val exMem47)).PosDef ∧ Separate (Mat.mk 0 2 2 2).Cell v (fun _ => 2) exMem47 :=
  ⟨_, C47_callback_addeval exValid47 rfl, exPos47, exSep47 (fun | .b => 0 | .x => 1 | .r => 2 | .p => 3 | .a => 4)
    (by rintro ⟨⟩ ⟨⟩ <;> simp) (by rintro ⟨⟩ <;> simp)⟩

open scoped ComplexOrder in
/-- the same for PCG with the preconditioner `2 I`, and for BiCG -/
example : ∃ v : PcgVar → Vec, ∃ N : Matrix (Fin 2) (Fin 2) ℝ, N.PosDef ∧
    IsPrcdOpt (some fun x => scaleVec (2 : ℝ) x) 2 N.mulVec (Mat.mk 0 2 2 2).Cell exMem47 ∧
    Separate (Mat.mk 0 2 2 2).Cell v (fun _ => 2) exMem47 := by
  refine ⟨_, (2 : ℝ) • 1, Matrix.PosDef.smul Matrix.PosDef.one (by norm_num), ?_,
    exSep47 (fun | .b => 0 | .x => 1 | .r => 2 | .q => 3 | .p => 4 | .a => 5) (by rintro ⟨⟩ ⟨⟩ <;> simp) (by rintro ⟨⟩ <;> simp)⟩
  intro x m' _ _ hx dx
  have e : ((2 : ℝ) • (1 : Matrix (Fin 2) (Fin 2) ℝ)).mulVec = fun u => (2 : ℝ) • u := by
    funext u; rw [Matrix.smul_mulVec, Matrix.one_mulVec]
  rw [e]
  exact scale_isPrcd 2 2 (m := exMem47) x m' (fun _ h => h.elim) (fun _ _ h => h) hx dx

example : ∃ v : BicgVar → Vec, IsAddEval (fun alpha => addevaltrans alpha (Mat.mk 0 2 2 2)) 2
    (fun i j => (Mat.mk 0 2 2 2).val exMem47 j i) (Mat.mk 0 2 2 2).Cell exMem47 ∧
    Separate (Mat.mk 0 2 2 2).Cell v (fun _ => 2) exMem47 :=
  ⟨_, by simpa using C47_callback_addevaltrans exValid47 rfl,
    exSep47 (fun | .b => 0 | .x => 1 | .r => 2 | .rt => 3 | .p => 4 | .pt => 5 | .a => 6 | .at' => 7)
    (by rintro ⟨⟩ ⟨⟩ <;> simp) (by rintro ⟨⟩ <;> simp)⟩

open scoped ComplexOrder in
/-- Uzawa with `A11 = I / 2` and an invertible `A21` -/
example : ∃ v : PuzVar → Vec, ∃ A11 : Nat → Nat → ℝ, (mat 2 A11).PosDef ∧
    IsPrcd (fun x => scaleVec (2 : ℝ) x) 2 (mat 2 A11)⁻¹.mulVec (Mat.mk 0 2 2 2).Cell exMem47 ∧
    IsMvm (fun alpha trans => mvm alpha trans (Mat.mk 0 2 2 2)) 2 2 ((Mat.mk 0 2 2 2).val exMem47) (Mat.mk 0 2 2 2).Cell exMem47 ∧
    LinearIndependent ℝ (fun (i : Fin 2) (j : Fin 2) => (Mat.mk 0 2 2 2).val exMem47 i j) ∧
    Separate (Mat.mk 0 2 2 2).Cell v (puzDim 2 2) exMem47 := by
  have e1 : mat 2 (fun i j => if i = j then (1 / 2 : ℝ) else 0) = (1 / 2 : ℝ) • 1 := by
    ext i j
    fin_cases i <;> fin_cases j <;> simp [mat]
  have e2 : ((1 / 2 : ℝ) • (1 : Matrix (Fin 2) (Fin 2) ℝ))⁻¹ = (2 : ℝ) • 1 := by
    refine Matrix.inv_eq_right_inv ?_
    rw [smul_mul_smul_comm, one_mul]
    norm_num
  refine ⟨fun i => exVec47 (match i with | .b1 => 0 | .b2 => 1 | .x1 => 2 | .x2 => 3 | .r2 => 4 | .q2 => 5 | .p2 => 6 | .a1 => 7 | .s2 => 8),
    fun i j => if i = j then 1 / 2 else 0, ?_, ?_, C47_callback_mvm exValid47, ?_, ?_⟩
  · rw [e1]; exact Matrix.PosDef.smul Matrix.PosDef.one (by norm_num)
  · intro x m' _ _ hx dx
    have e : ((2 : ℝ) • (1 : Matrix (Fin 2) (Fin 2) ℝ)).mulVec = fun u => (2 : ℝ) • u := by
      funext u; rw [Matrix.smul_mulVec, Matrix.one_mulVec]
    rw [e1, e2, e]
    exact scale_isPrcd 2 2 (m := exMem47) x m' (fun _ h => h.elim) (fun _ _ h => h) hx dx
  · exact Matrix.linearIndependent_rows_of_isUnit exPos47.isUnit
  · have := exSep47 (ι := PuzVar) (fun i => match i with | .b1 => 0 | .b2 => 1 | .x1 => 2 | .x2 => 3 | .r2 => 4 | .q2 => 5 | .p2 => 6 | .a1 => 7 | .s2 => 8)
      (by rintro ⟨⟩ ⟨⟩ <;> simp) (by rintro ⟨⟩ <;> simp)
    have ed : puzDim 2 2 = fun _ => 2 := by funext i; cases i <;> rfl
    rw [ed]
    exact this

/-- the complex case really occurs -/
example : star (Complex.I) ≠ Complex.I ∧ Complex.I ≠ 0 := by
  refine ⟨fun h => ?_, Complex.I_ne_zero⟩
  have := congrArg Complex.im h
  simp at this
  linarith

end H2.Props
