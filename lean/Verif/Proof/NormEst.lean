import Verif.Spec.NormEst
import Verif.Proof.KrylovSolve
import Verif.Proof.KrylovRun

/-! # Norm estimates -/

set_option linter.unusedSectionVars false

namespace H2.Krylov
open Spec Dense
variable {𝕜 : Type} [RCLike 𝕜] {rows cols : Nat} {A : Nat → Nat → 𝕜}

/-! ### vectors -/

theorem nrm_E (n : Nat) (f : Nat → 𝕜) : nrm n f = ‖E n f‖ := by
  unfold nrm
  rw [EuclideanSpace.norm_eq, ← Fin.sum_univ_eq_sum_range (fun i => ‖f i‖ ^ 2)]
  rfl

theorem nrm_nonneg (n : Nat) (f : Nat → 𝕜) : 0 ≤ nrm n f := Real.sqrt_nonneg _

theorem nrm_ip (n : Nat) (f : Nat → 𝕜) : ip n f f = ((nrm n f ^ 2 : ℝ) : 𝕜) := by
  rw [nrm_E, ← E_inner, inner_self_eq_norm_sq_to_K]; push_cast; rfl

theorem ip_le (n : Nat) (f g : Nat → 𝕜) : ‖ip n f g‖ ≤ nrm n f * nrm n g := by
  rw [nrm_E, nrm_E, ← E_inner]; exact norm_inner_le_norm _ _

theorem nrm_smul (n : Nat) (c : 𝕜) (f : Nat → 𝕜) : nrm n (fun i => c * f i) = ‖c‖ * nrm n f := by
  rw [nrm_E, nrm_E]
  have : E n (fun i => c * f i) = c • E n f := by
    unfold E vec; rw [← WithLp.toLp_smul]; rfl
  rw [this, norm_smul]

theorem nrm_eq_zero {n : Nat} {f : Nat → 𝕜} (h : nrm n f = 0) : ∀ i < n, f i = 0 := by
  rw [nrm_E, norm_eq_zero] at h
  exact E_zero.mp h

theorem ip_adj (f g : Nat → 𝕜) : ip cols (mv rows (op true A) f) g = ip rows f (mv cols A g) := by
  unfold ip mv op
  simp only [if_true, star_sum, star_mul', star_star, Finset.sum_mul, Finset.mul_sum]
  rw [Finset.sum_comm]
  exact Finset.sum_congr rfl fun i _ => Finset.sum_congr rfl fun j _ => by ring

theorem gram_congr {f g : Nat → 𝕜} (h : ∀ i < cols, f i = g i) : gram rows cols A f = gram rows cols A g := by
  unfold gram
  congr 1
  funext i
  exact Finset.sum_congr rfl fun j hj => by rw [h j (Finset.mem_range.mp hj)]

theorem mv_smul (n : Nat) (A : Nat → Nat → 𝕜) (c : 𝕜) (f : Nat → 𝕜) : mv n A (fun i => c * f i) = fun i => c * mv n A f i := by
  funext i
  unfold mv
  rw [Finset.mul_sum]
  exact Finset.sum_congr rfl fun j _ => by ring

theorem gram_smul (c : 𝕜) (f : Nat → 𝕜) : gram rows cols A (fun i => c * f i) = fun i => c * gram rows cols A f i := by
  unfold gram
  rw [mv_smul, mv_smul]

theorem gramN_smul (k : Nat) : ∀ (c : 𝕜) (f : Nat → 𝕜), (gram rows cols A)^[k] (fun i => c * f i) = fun i => c * (gram rows cols A)^[k] f i := by
  induction k with
  | zero => intro c f; rfl
  | succ k ih => intro c f; rw [Function.iterate_succ_apply, gram_smul, ih, Function.iterate_succ_apply]

theorem gramN_congr (k : Nat) {f g : Nat → 𝕜} (h : ∀ i < cols, f i = g i) : ∀ i < cols, (gram rows cols A)^[k] f i = (gram rows cols A)^[k] g i := by
  cases k with
  | zero => exact h
  | succ k => intro i _; rw [Function.iterate_succ_apply, Function.iterate_succ_apply, gram_congr h]

theorem mv_zero {n : Nat} {f : Nat → 𝕜} (h : ∀ i < n, f i = 0) : mv n A f = fun _ => 0 := by
  funext i
  exact Finset.sum_eq_zero fun j hj => by rw [h j (Finset.mem_range.mp hj), mul_zero]

theorem gramN_zero (k : Nat) : ∀ {f : Nat → 𝕜}, nrm cols f = 0 → nrm cols ((gram rows cols A)^[k] f) = 0 := by
  induction k with
  | zero => intro f h; exact h
  | succ k ih =>
    intro f h
    rw [Function.iterate_succ_apply]
    apply ih
    unfold gram
    rw [mv_zero (nrm_eq_zero h), mv_zero fun _ _ => rfl]
    exact nrm_zero fun _ _ => rfl

/-! ### convexity -/

theorem ip_gram (f g : Nat → 𝕜) : ip cols (gram rows cols A f) g = ip rows (mv cols A f) (mv cols A g) := ip_adj _ _

theorem ip_gram' (f g : Nat → 𝕜) : ip cols f (gram rows cols A g) = ip cols (gram rows cols A f) g := by
  rw [← ip_star, ip_gram, ip_star, ip_gram]

theorem sq_le {a b c : ℝ} (h : ‖(((a ^ 2 : ℝ)) : 𝕜)‖ ≤ b * c) : a ^ 2 ≤ b * c := by
  rwa [RCLike.norm_ofReal, abs_of_nonneg (sq_nonneg a)] at h

theorem step_first (f : Nat → 𝕜) : nrm rows (mv cols A f) ^ 2 ≤ nrm cols f * nrm cols (gram rows cols A f) := by
  refine sq_le (𝕜 := 𝕜) ?_
  rw [← nrm_ip, ← ip_gram, mul_comm]
  exact ip_le _ _ _

theorem step_gram (f : Nat → 𝕜) : nrm cols (gram rows cols A f) ^ 2 ≤ nrm cols f * nrm cols (gram rows cols A (gram rows cols A f)) := by
  refine sq_le (𝕜 := 𝕜) ?_
  rw [← nrm_ip, ← ip_gram']
  exact ip_le _ _ _

theorem quotients (f : Nat → 𝕜) (k : Nat) : nrm rows (mv cols A f) ^ 2 * nrm cols ((gram rows cols A)^[k] f) ≤ nrm cols f ^ 2 * nrm cols ((gram rows cols A)^[k + 1] f) := by
  by_cases hf : nrm cols f = 0
  · rw [gramN_zero k hf, mul_zero]; positivity [nrm_nonneg cols ((gram rows cols A)^[k + 1] f), sq_nonneg (nrm cols f)]
  have hf : 0 < nrm cols f := lt_of_le_of_ne (nrm_nonneg _ _) (Ne.symm hf)
  induction k with
  | zero =>
    have := step_first (rows := rows) (cols := cols) (A := A) f
    show nrm rows (mv cols A f) ^ 2 * nrm cols f ≤ nrm cols f ^ 2 * nrm cols (gram rows cols A f)
    nlinarith
  | succ k ih =>
    set u := nrm cols ((gram rows cols A)^[k] f) with hu
    have e1 : (gram rows cols A)^[k + 1] f = gram rows cols A ((gram rows cols A)^[k] f) := Function.iterate_succ_apply' _ _ _
    have e2 : (gram rows cols A)^[k + 1 + 1] f = gram rows cols A (gram rows cols A ((gram rows cols A)^[k] f)) := by
      rw [Function.iterate_succ_apply', e1]
    have hs := step_gram (rows := rows) (cols := cols) (A := A) ((gram rows cols A)^[k] f)
    rw [← e2, ← e1, ← hu] at hs
    have n1 := nrm_nonneg cols ((gram rows cols A)^[k + 1] f)
    have n2 := nrm_nonneg cols ((gram rows cols A)^[k + 1 + 1] f)
    have n0 : 0 ≤ u := nrm_nonneg _ _
    generalize nrm cols ((gram rows cols A)^[k + 1] f) = v at *
    generalize nrm cols ((gram rows cols A)^[k + 1 + 1] f) = w at *
    by_cases hu0 : u = 0
    · have : v = 0 := by nlinarith [sq_nonneg v]
      rw [this, mul_zero]; positivity
    · have hu1 : 0 < u := lt_of_le_of_ne n0 (Ne.symm hu0)
      have : nrm rows (mv cols A f) ^ 2 * v * u ≤ nrm cols f ^ 2 * w * u := by
        calc nrm rows (mv cols A f) ^ 2 * v * u = nrm rows (mv cols A f) ^ 2 * u * v := by ring
          _ ≤ nrm cols f ^ 2 * v * v := mul_le_mul_of_nonneg_right ih n1
          _ = nrm cols f ^ 2 * v ^ 2 := by ring
          _ ≤ nrm cols f ^ 2 * (u * w) := mul_le_mul_of_nonneg_left hs (sq_nonneg _)
          _ = _ := by ring
      exact le_of_mul_le_mul_right this hu1

theorem gram_le {M : ℝ} (hM0 : 0 ≤ M) (hM : ∀ f : Nat → 𝕜, nrm rows (mv cols A f) ≤ M * nrm cols f) (f : Nat → 𝕜) : nrm cols (gram rows cols A f) ≤ M ^ 2 * nrm cols f := by
  have h : nrm cols (gram rows cols A f) ^ 2 ≤ nrm rows (mv cols A (gram rows cols A f)) * nrm rows (mv cols A f) := by
    refine sq_le (𝕜 := 𝕜) ?_
    rw [← nrm_ip, ip_gram, mul_comm]
    exact ip_le _ _ _
  have h1 := hM f
  have h2 := hM (gram rows cols A f)
  have n0 := nrm_nonneg cols (gram rows cols A f)
  have n1 := nrm_nonneg rows (mv cols A f)
  have n2 := nrm_nonneg rows (mv cols A (gram rows cols A f))
  have n3 := nrm_nonneg cols f
  by_cases hz : nrm cols (gram rows cols A f) = 0
  · rw [hz]; positivity
  have hz : 0 < nrm cols (gram rows cols A f) := lt_of_le_of_ne n0 (Ne.symm hz)
  have : nrm cols (gram rows cols A f) * nrm cols (gram rows cols A f) ≤ M ^ 2 * nrm cols f * nrm cols (gram rows cols A f) := by
    calc _ = nrm cols (gram rows cols A f) ^ 2 := by ring
      _ ≤ _ := h
      _ ≤ (M * nrm cols (gram rows cols A f)) * (M * nrm cols f) := mul_le_mul h2 h1 n1 (by positivity)
      _ = _ := by ring
  exact le_of_mul_le_mul_right this hz

theorem gram_first (x0 : Nat → 𝕜) : ∀ k, nrm cols ((gram rows cols A)^[k] x0) = 0 → nrm cols x0 = 0 ∨ nrm cols (gram rows cols A x0) = 0 := by
  intro k
  induction k with
  | zero => exact .inl
  | succ k ih =>
    intro h0
    cases k with
    | zero => exact .inr h0
    | succ k =>
      have := step_gram (rows := rows) (cols := cols) (A := A) ((gram rows cols A)^[k] x0)
      rw [← Function.iterate_succ_apply' (gram rows cols A) k, ← Function.iterate_succ_apply' (gram rows cols A) (k + 1), h0, mul_zero] at this
      refine ih ?_
      have h2 := nrm_nonneg cols ((gram rows cols A)^[k + 1] x0)
      exact pow_eq_zero_iff (two_ne_zero) |>.mp (le_antisymm this (sq_nonneg _))

theorem above_of (x0 : Nat → 𝕜) (k : Nat) : nrm rows (mv cols A x0) ≤ Real.sqrt (nrm cols ((gram rows cols A)^[k + 1] x0) / nrm cols ((gram rows cols A)^[k] x0)) * nrm cols x0 := by
  have h := quotients (rows := rows) (cols := cols) (A := A) x0 k
  have n1 := nrm_nonneg cols ((gram rows cols A)^[k] x0)
  have n2 := nrm_nonneg cols ((gram rows cols A)^[k + 1] x0)
  have nx := nrm_nonneg cols x0
  by_cases hz : nrm cols ((gram rows cols A)^[k] x0) = 0
  · have hA : nrm rows (mv cols A x0) = 0 := by
      have h1 := step_first (rows := rows) (cols := cols) (A := A) x0
      rcases gram_first x0 k hz with h0 | h0
      · rw [h0, zero_mul] at h1
        exact pow_eq_zero_iff (two_ne_zero) |>.mp (le_antisymm h1 (sq_nonneg _))
      · rw [h0, mul_zero] at h1
        exact pow_eq_zero_iff (two_ne_zero) |>.mp (le_antisymm h1 (sq_nonneg _))
    rw [hA]; positivity
  · have hp : 0 < nrm cols ((gram rows cols A)^[k] x0) := lt_of_le_of_ne n1 (Ne.symm hz)
    refine (abs_le_of_sq_le_sq' ?_ (by positivity)).2
    rw [mul_pow, Real.sq_sqrt (div_nonneg n2 n1), div_mul_eq_mul_div, le_div_iff₀ hp, mul_comm (nrm cols _) (nrm cols x0 ^ 2)]
    exact h

theorem below_of (x0 : Nat → 𝕜) (k : Nat) {M : ℝ} (hM0 : 0 ≤ M) (hM : ∀ f : Nat → 𝕜, nrm rows (mv cols A f) ≤ M * nrm cols f) :
    Real.sqrt (nrm cols ((gram rows cols A)^[k + 1] x0) / nrm cols ((gram rows cols A)^[k] x0)) ≤ M := by
  refine Real.sqrt_le_iff.mpr ⟨hM0, ?_⟩
  refine div_le_of_le_mul₀ (nrm_nonneg _ _) (sq_nonneg _) ?_
  rw [Function.iterate_succ_apply']
  exact gram_le hM0 hM _

theorem normEst_of (x0 : Nat → 𝕜) : NormEst rows cols A x0 (Real.sqrt (nrm cols ((gram rows cols A)^[20] x0) / nrm cols ((gram rows cols A)^[19] x0))) :=
  ⟨rfl, Real.sqrt_nonneg _, fun _ hM0 hM => below_of x0 19 hM0 hM, above_of x0 19⟩

/-! ### the loop -/

section loop
variable {C : Nat → Prop} {v : Bool → Vec} {dim : Bool → Nat} {m0 : Mem 𝕜}

/-- the body of the loop multiplies by `A^* A` -/
def IsGram (rows cols : Nat) (A : Nat → Nat → 𝕜) (v : Bool → Vec) (m0 : Mem 𝕜) (body : Mem 𝕜 → R (Mem 𝕜)) : Prop :=
  ∀ F m, Holds v m0 F m → Tot (body m) fun m' => ∃ F', Holds v m0 F' m' ∧ ∀ i < cols, F' false i = gram rows cols A (F false) i

theorem normLoop_tot {body : Mem 𝕜 → R (Mem 𝕜)} (hs : Separate C v dim m0) (hd : dim false = cols) (hb : IsGram rows cols A v m0 body) :
    ∀ (s : Nat) (F : Bool → Nat → 𝕜) (m : Mem 𝕜), Holds v m0 F m → Tot (normLoop body (v false) s (nrm cols (F false)) m) fun r =>
      (∃ F', Holds v m0 F' r.2) ∧ r.1 = if s = 0 then nrm cols (F false) else nrm cols ((gram rows cols A)^[s] (F false)) / nrm cols ((gram rows cols A)^[s - 1] (F false)) := by
  intro s
  induction s with
  | zero => intro F m h; exact Tot.pure ⟨⟨F, h⟩, rfl⟩
  | succ s ih =>
    intro F m h
    unfold normLoop
    by_cases hp : nrm cols (F false) > 0
    · rw [if_pos hp]
      refine Tot.bind (h.scale hs false _) fun m1 _ h1 => ?_
      refine Tot.bind (hb _ _ h1) fun m2 _ ⟨F2, h2, e2⟩ => ?_
      have hdv : (v false).dim = cols := by rw [(hs.1 false).2, hd]
      rw [norm2Vec_tot (h2.valid false), ok_bind, hdv, nrm_congr (fun i hi => h2.val false (by rw [hdv]; exact hi))]
      refine (ih F2 m2 h2).mono fun r ⟨hr, hv⟩ => ⟨hr, ?_⟩
      rw [hv, if_neg (Nat.succ_ne_zero s)]
      have hc : ‖(((1 / nrm cols (F false) : ℝ)) : 𝕜)‖ = 1 / nrm cols (F false) := by
        rw [RCLike.norm_ofReal, abs_of_pos (by positivity)]
      rw [Function.update_self] at e2
      have e3 : ∀ k, nrm cols ((gram rows cols A)^[k] (F2 false)) = 1 / nrm cols (F false) * nrm cols ((gram rows cols A)^[k + 1] (F false)) := fun k => by
        rw [nrm_congr (gramN_congr k e2), ← Function.iterate_succ_apply, gramN_smul, nrm_smul, hc]
      by_cases h0 : s = 0
      · subst h0
        have := e3 0
        rw [Function.iterate_zero, id] at this
        rw [if_pos rfl, this, div_mul_eq_mul_div, one_mul]
        rfl
      · rw [if_neg h0, e3, e3, mul_div_mul_left _ _ (by positivity), Nat.sub_add_cancel (by omega)]
        rfl
    · rw [if_neg hp]
      have hz : nrm cols (F false) = 0 := le_antisymm (not_lt.mp hp) (nrm_nonneg _ _)
      refine Tot.pure ⟨⟨F, h⟩, ?_⟩
      rw [if_neg (Nat.succ_ne_zero s), gramN_zero _ hz, zero_div, hz]

end loop

theorem randomVec_tot {v : Vec} {m : Mem 𝕜} (hv : v.Valid m) (rnd : Nat → 𝕜) : Tot (randomVec v rnd m) (VecBecomes v m rnd) := by
  unfold randomVec
  refine (vecLoop hv (G := rnd) le_rfl fun i hi m' _ h => ?_).mono fun m' h => ⟨h.1, fun i hi => (h.2.1 i hi).trans (if_pos hi), h.2.2⟩
  exact Mem.write_ok h

/-- the vectors `x` and `y` of the norm estimates -/
def nvec (rows cols nx ny : Nat) : Bool → Vec
  | false => ⟨nx, cols⟩
  | true => ⟨ny, rows⟩

def ndim (rows cols : Nat) : Bool → Nat
  | false => cols
  | true => rows

theorem normEst_tot {C : Nat → Prop} {m : Mem 𝕜} {nx ny : Nat} {body : Vec → Vec → Mem 𝕜 → R (Mem 𝕜)} (hC : ∀ c, C c → (m c).isSome) (fr : FreshVecs m [⟨nx, cols⟩, ⟨ny, rows⟩]) (junk rnd : Nat → 𝕜)
    (hb : ∀ m0, (∀ c, C c → m0 c = m c) → Separate C (nvec rows cols nx ny) (ndim rows cols) m0 → IsGram rows cols A (nvec rows cols nx ny) m0 (body ⟨nx, cols⟩ ⟨ny, rows⟩)) :
    ∃ r, normEst body rows cols nx ny junk rnd m = .ok (r, m) ∧ NormEst rows cols A rnd r := by
  obtain ⟨fr1, fr2⟩ := fr
  simp only [List.forall_mem_cons, List.pairwise_cons, List.not_mem_nil, IsEmpty.forall_iff, implies_true, and_true, List.Pairwise.nil] at fr1 fr2
  obtain ⟨f1, f2⟩ := fr1
  obtain ⟨m1, hm1⟩ : ∃ m1, m1 = (m.alloc nx cols junk).alloc ny rows junk := ⟨_, rfl⟩
  have keep : ∀ c, ¬ (Vec.mk nx cols).Cell c → ¬ (Vec.mk ny rows).Cell c → m1 c = m c := fun c h1 h2 => by
    rw [hm1, alloc_out h2, alloc_out h1]
  have some : ∀ c, C c → ¬ (Vec.mk nx cols).Cell c ∧ ¬ (Vec.mk ny rows).Cell c := fun c hc =>
    ⟨fun h' => by have := hC c hc; rw [f1 c h'] at this; simp at this, fun h' => by have := hC c hc; rw [f2 c h'] at this; simp at this⟩
  have vx : (Vec.mk nx cols).Valid m1 := by rw [hm1]; exact valid_keep (fun c h => by rw [alloc_out (fr2 c h)]) alloc_in
  have vy : (Vec.mk ny rows).Valid m1 := by rw [hm1]; exact alloc_in
  have hs : Separate C (nvec rows cols nx ny) (ndim rows cols) m1 := by
    refine ⟨fun i => ?_, fun i j hij => ?_⟩
    · cases i
      · exact ⟨⟨vx, fun c h h' => (some c h').1 h⟩, rfl⟩
      · exact ⟨⟨vy, fun c h h' => (some c h').2 h⟩, rfl⟩
    · cases i <;> cases j <;> first | exact absurd rfl hij | skip
      · exact fr2
      · exact fun c h1 h2 => fr2 c h2 h1
  have hm1C : ∀ c, C c → m1 c = m c := fun c hc => keep c (some c hc).1 (some c hc).2
  have h0 : Holds (nvec rows cols nx ny) m1 _ m1 := Holds.init hs
  obtain ⟨m2, e2, hb2⟩ := randomVec_tot vx rnd
  have h2 := h0.set hs (j := false) hb2
  have h3 : nrm cols (Function.update (fun i => (nvec rows cols nx ny i).val m1) false rnd false) = nrm cols rnd := by rw [Function.update_self]
  obtain ⟨r, e3, ⟨F', h4⟩, hr⟩ := normLoop_tot (cols := cols) hs rfl (hb m1 hm1C hs) normSteps _ _ h2
  rw [h3] at e3
  have hn : norm2Vec (Vec.mk nx cols) m2 = .ok (nrm cols rnd) := by
    rw [norm2Vec_tot hb2.1, nrm_congr hb2.2.1]
  have hm : (r.2.free ny rows).free nx cols = m := by
    funext c
    by_cases c1 : (Vec.mk nx cols).Cell c
    · rw [free_in c1, f1 c c1]
    by_cases c2 : (Vec.mk ny rows).Cell c
    · rw [free_out c1, free_in c2, f2 c c2]
    rw [free_out c1, free_out c2, h4.2 c (by rintro (_ | _); exacts [c1, c2]), keep c c1 c2]
  refine ⟨Real.sqrt r.1, ?_, ?_⟩
  · unfold normEst
    simp only []
    rw [← hm1, e2, ok_bind, hn, ok_bind]
    replace e3 : normLoop (body ⟨nx, cols⟩ ⟨ny, rows⟩) ⟨nx, cols⟩ normSteps (nrm cols rnd) m2 = .ok r := e3
    rw [e3, ok_bind, hm]
    rfl
  · rw [hr, Function.update_self]
    exact normEst_of rnd

/-! ### the bodies -/

section bodies
variable {C : Nat → Prop} {m m0 : Mem 𝕜} {nx ny n : Nat}

theorem mvm_agree {f : MvmCb 𝕜} (hf : IsMvm f rows cols A C m) (h : ∀ c, C c → m0 c = m c) : IsMvm f rows cols A C m0 :=
  fun alpha trans y z m' h' => hf alpha trans y z m' fun c hc => by rw [h' c hc, h c hc]

theorem prcd_agree {f : Prcd 𝕜} {N : (Fin n → 𝕜) → Fin n → 𝕜} (hf : IsPrcd f n N C m) (h : ∀ c, C c → m0 c = m c) : IsPrcd f n N C m0 :=
  fun y m' h' => hf y m' fun c hc => by rw [h' c hc, h c hc]

theorem op_false (A : Nat → Nat → 𝕜) : op false A = A := by funext i j; simp [op]

theorem mv_sub (n : Nat) (A B : Nat → Nat → 𝕜) (f : Nat → 𝕜) (i : Nat) : mv n (fun i j => A i j - B i j) f i = mv n A f i - mv n B f i := by
  unfold mv; rw [← Finset.sum_sub_distrib]; exact Finset.sum_congr rfl fun j _ => by ring

theorem mv_op_sub (n : Nat) (A B : Nat → Nat → 𝕜) (f : Nat → 𝕜) (i : Nat) : mv n (op true fun i j => A i j - B i j) f i = mv n (op true A) f i - mv n (op true B) f i := by
  unfold mv; rw [← Finset.sum_sub_distrib]; exact Finset.sum_congr rfl fun j _ => by simp only [op, if_true, star_sub]; ring

theorem ext_entries (B : Matrix (Fin n) (Fin n) 𝕜) (f : Nat → 𝕜) {i : Nat} (hi : i < n) : ext B.mulVec f i = mv n (entries B) f i := by
  unfold Spec.ext
  rw [dif_pos hi]
  unfold mv
  rw [← Fin.sum_univ_eq_sum_range (fun j => entries B i j * f j)]
  simp only [Matrix.mulVec, dotProduct, vec]
  exact Finset.sum_congr rfl fun j _ => by rw [entries, dif_pos ⟨hi, j.2⟩]

theorem entries_adj (B : Matrix (Fin n) (Fin n) 𝕜) (i j : Nat) : entries (Matrix.conjTranspose B) i j = op true (entries B) i j := by
  simp only [op, if_true]
  unfold entries
  by_cases h : i < n ∧ j < n
  · rw [dif_pos h, dif_pos h.symm]; rfl
  · rw [dif_neg h, dif_neg (fun h' : j < n ∧ i < n => h h'.symm), star_zero]

theorem mv_congr' {n : Nat} {A : Nat → Nat → 𝕜} {f g : Nat → 𝕜} (h : ∀ i < n, f i = g i) : mv n A f = mv n A g := by
  funext i
  exact Finset.sum_congr rfl fun j hj => by rw [h j (Finset.mem_range.mp hj)]

theorem normBody_gram {f : MvmCb 𝕜} (hs : Separate C (nvec rows cols nx ny) (ndim rows cols) m0) (hf : IsMvm f rows cols A C m0) :
    IsGram rows cols A (nvec rows cols nx ny) m0 (normBody f ⟨nx, cols⟩ ⟨ny, rows⟩) := by
  intro F m h
  unfold normBody
  refine Tot.bind (h.clear hs true) fun m1 _ h1 => ?_
  refine Tot.bind (h1.mvm hf hs (i := false) (j := true) (by decide) false rfl rfl 1) fun m2 _ h2 => ?_
  refine Tot.bind (h2.clear hs false) fun m3 _ h3 => ?_
  refine (h3.mvm hf hs (i := true) (j := false) (by decide) true rfl rfl 1).mono fun m4 h4 => ⟨_, h4, fun i _ => ?_⟩
  simp [Function.update, gram, op_false]

theorem diffBody_gram {f g : MvmCb 𝕜} {B : Nat → Nat → 𝕜} (hs : Separate C (nvec rows cols nx ny) (ndim rows cols) m0) (hf : IsMvm f rows cols A C m0) (hg : IsMvm g rows cols B C m0) :
    IsGram rows cols (fun i j => A i j - B i j) (nvec rows cols nx ny) m0 (diffBody f g ⟨nx, cols⟩ ⟨ny, rows⟩) := by
  intro F m h
  unfold diffBody
  refine Tot.bind (h.clear hs true) fun m1 _ h1 => ?_
  refine Tot.bind (h1.mvm hf hs (i := false) (j := true) (by decide) false rfl rfl 1) fun m2 _ h2 => ?_
  refine Tot.bind (h2.mvm hg hs (i := false) (j := true) (by decide) false rfl rfl (-1)) fun m2 _ h2 => ?_
  refine Tot.bind (h2.clear hs false) fun m3 _ h3 => ?_
  refine Tot.bind (h3.mvm hf hs (i := true) (j := false) (by decide) true rfl rfl 1) fun m2 _ h2 => ?_
  refine (h2.mvm hg hs (i := true) (j := false) (by decide) true rfl rfl (-1)).mono fun m4 h4 => ⟨_, h4, fun i _ => ?_⟩
  have e : mv cols (fun i j => A i j - B i j) (F false) = fun k => mv cols A (F false) k + -mv cols B (F false) k := by
    funext k; rw [mv_sub, sub_eq_add_neg]
  unfold gram
  rw [mv_op_sub, e]
  simp [Function.update, op_false, sub_eq_add_neg]

theorem preBody_gram {f : MvmCb 𝕜} {evalB evaltransB : Prcd 𝕜} {B : Matrix (Fin n) (Fin n) 𝕜} (hs : Separate C (nvec n n nx ny) (ndim n n) m0) (hf : IsMvm f n n A C m0)
    (hB : IsPrcd evalB n B.mulVec C m0) (hBt : IsPrcd evaltransB n (Matrix.conjTranspose B).mulVec C m0) :
    IsGram n n (fun i j => entries B i j - A i j) (nvec n n nx ny) m0 (preBody f evalB evaltransB ⟨nx, n⟩ ⟨ny, n⟩) := by
  intro F m h
  unfold preBody
  refine Tot.bind (h.copy hs (i := false) (j := true) (by decide) rfl) fun m1 _ h1 => ?_
  refine Tot.bind (h1.prcd hB hs (j := true) rfl) fun m2 _ h2 => ?_
  refine Tot.bind (h2.mvm hf hs (i := false) (j := true) (by decide) false rfl rfl (-1)) fun m3 _ h3 => ?_
  refine Tot.bind (h3.copy hs (i := true) (j := false) (by decide) rfl) fun m4 _ h4 => ?_
  refine Tot.bind (h4.prcd hBt hs (j := false) rfl) fun m5 _ h5 => ?_
  refine (h5.mvm hf hs (i := true) (j := false) (by decide) true rfl rfl (-1)).mono fun m6 h6 => ⟨_, h6, fun i hi => ?_⟩
  unfold gram
  rw [mv_op_sub]
  obtain ⟨w, hw⟩ : ∃ w, w = fun k => ext B.mulVec (F false) k + -mv n A (F false) k := ⟨_, rfl⟩
  have e : ∀ k < n, mv n (fun i j => entries B i j - A i j) (F false) k = w k := by
    intro k hk; rw [hw, mv_sub, ← ext_entries B _ hk, sub_eq_add_neg]
  rw [mv_congr' e, mv_congr' e, ← (funext fun i => funext fun j => entries_adj B i j : entries (Matrix.conjTranspose B) = op true (entries B)), ← ext_entries _ _ hi, hw]
  simp [Function.update, op_false, sub_eq_add_neg]

theorem idBody_gram {f : MvmCb 𝕜} {solveB solvetransB : Prcd 𝕜} {S : Matrix (Fin n) (Fin n) 𝕜} (hs : Separate C (nvec n n nx ny) (ndim n n) m0) (hf : IsMvm f n n A C m0)
    (hB : IsPrcd solveB n S.mulVec C m0) (hBt : IsPrcd solvetransB n (Matrix.conjTranspose S).mulVec C m0) :
    IsGram n n (fun i j => mv n (entries S) (fun k => A k j) i - if i = j then 1 else 0) (nvec n n nx ny) m0 (idBody f solveB solvetransB ⟨nx, n⟩ ⟨ny, n⟩) := by
  intro F m h
  unfold idBody
  refine Tot.bind (h.clear hs true) fun m1 _ h1 => ?_
  refine Tot.bind (h1.mvm hf hs (i := false) (j := true) (by decide) false rfl rfl 1) fun m2 _ h2 => ?_
  refine Tot.bind (h2.prcd hB hs (j := true) rfl) fun m3 _ h3 => ?_
  refine Tot.bind (h3.add hs (i := false) (j := true) (by decide) rfl (-1)) fun m4 _ h4 => ?_
  refine Tot.bind (h4.clear hs false) fun m5 _ h5 => ?_
  refine Tot.bind (h5.add hs (i := true) (j := false) (by decide) rfl (-1)) fun m6 _ h6 => ?_
  refine Tot.bind (h6.prcd hBt hs (j := true) rfl) fun m7 _ h7 => ?_
  refine (h7.mvm hf hs (i := true) (j := false) (by decide) true rfl rfl 1).mono fun m8 h8 => ⟨_, h8, fun i hi => ?_⟩
  unfold gram
  obtain ⟨w, hw⟩ : ∃ w, w = fun k => ext S.mulVec (mv n A (F false)) k + -F false k := ⟨_, rfl⟩
  have e : ∀ k < n, mv n (fun i j => mv n (entries S) (fun k => A k j) i - if i = j then 1 else 0) (F false) k = w k := by
    intro k hk
    rw [hw, mv_sub, sub_eq_add_neg]
    congr 1
    · rw [ext_entries _ _ hk]
      unfold mv
      simp only [Finset.sum_mul, Finset.mul_sum]
      rw [Finset.sum_comm]
      exact Finset.sum_congr rfl fun i _ => Finset.sum_congr rfl fun j _ => by ring
    · unfold mv; simp [hk]
  rw [mv_op_sub, mv_congr' e, mv_congr' e]
  have e2 : mv n (op true fun i j : Nat => if i = j then (1 : 𝕜) else 0) w i = w i := by
    unfold mv op; simp [hi]
  have e3 : mv n (op true fun i j => mv n (entries S) (fun k => A k j) i) w i = mv n (op true A) (ext (Matrix.conjTranspose S).mulVec w) i := by
    rw [mv_congr' (fun k hk => ext_entries (Matrix.conjTranspose S) w hk)]
    unfold mv
    simp only [entries_adj]
    simp only [op, if_true, star_sum, star_mul', Finset.sum_mul, Finset.mul_sum]
    rw [Finset.sum_comm]
    exact Finset.sum_congr rfl fun i _ => Finset.sum_congr rfl fun j _ => by ring
  rw [e2, e3, hw]
  simp [Function.update, op_false]
  ring

end bodies

end H2.Krylov
