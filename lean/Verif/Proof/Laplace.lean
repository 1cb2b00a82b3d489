import Verif.Model.Laplace
import Verif.Spec.Laplace
import Verif.Proof.Dense
import Mathlib.Analysis.SpecialFunctions.Log.Deriv
import Mathlib.Analysis.SpecialFunctions.Sqrt
import Mathlib.Tactic.FieldSimp
import Mathlib.Tactic.LinearCombination

set_option linter.unusedSectionVars false

namespace H2.Lap
open Spec H2.Dense

/-! ### derivatives in the plane -/

/-- squared distance -/
def q2 (x y : P2) : ℝ := (x.1 - y.1) * (x.1 - y.1) + (x.2 - y.2) * (x.2 - y.2)

theorem q2_pos {x y : P2} (h : x ≠ y) : 0 < q2 x y := by
  unfold q2
  rcases eq_or_ne x.1 y.1 with h1 | h1
  · have h2 : x.2 - y.2 ≠ 0 := fun h2 => h (Prod.ext h1 (sub_eq_zero.mp h2))
    have := mul_self_pos.mpr h2
    nlinarith [mul_self_nonneg (x.1 - y.1)]
  · have := mul_self_pos.mpr (sub_ne_zero.mpr h1)
    nlinarith [mul_self_nonneg (x.2 - y.2)]

theorem g2_eq (x y : P2) : g2 x y = kcLog * Real.log (q2 x y) := by
  unfold g2 kcLog q2
  rw [Real.log_sqrt (by positivity)]
  rw [show (x.1 - y.1) ^ 2 + (x.2 - y.2) ^ 2 = (x.1 - y.1) * (x.1 - y.1) + (x.2 - y.2) * (x.2 - y.2) by ring]
  ring

theorem kc_eq : kc = 2 * kcLog := by unfold kc kcLog; norm_num

theorem quad_deriv (a b c e : ℝ) : HasDerivAt (fun t : ℝ => (a + t * b) * (a + t * b) + (c + t * e) * (c + t * e)) (2 * (a * b + c * e)) 0 := by
  have h1 : HasDerivAt (fun t : ℝ => a + t * b) b 0 := by simpa using ((hasDerivAt_id (0 : ℝ)).mul_const b).const_add a
  have h2 : HasDerivAt (fun t : ℝ => c + t * e) e 0 := by simpa using ((hasDerivAt_id (0 : ℝ)).mul_const e).const_add c
  refine HasDerivAt.congr_deriv ((h1.mul h1).add (h2.mul h2)) ?_
  ring

theorem d1_g2 {x y : P2} (n : P2) (h : x ≠ y) :
    d1 g2 n x y = kc * ((x.1 - y.1) * n.1 + (x.2 - y.2) * n.2) / q2 x y := by
  have hp := (q2_pos h).ne'
  have e : (fun t : ℝ => g2 (x + t • n) y) = fun t : ℝ => kcLog * Real.log ((x.1 - y.1 + t * n.1) * (x.1 - y.1 + t * n.1) + (x.2 - y.2 + t * n.2) * (x.2 - y.2 + t * n.2)) := by
    funext t
    rw [g2_eq]
    simp only [q2, Prod.fst_add, Prod.snd_add, Prod.smul_fst, Prod.smul_snd, smul_eq_mul]
    congr 2; ring
  unfold d1
  rw [e]
  have := ((quad_deriv (x.1 - y.1) n.1 (x.2 - y.2) n.2).log (by simpa [q2] using hp)).const_mul kcLog
  rw [this.deriv, kc_eq]
  simp only [zero_mul, add_zero]
  unfold q2
  ring

theorem d2_g2 {x y : P2} (n : P2) (h : x ≠ y) :
    d2 g2 n x y = -(kc * ((x.1 - y.1) * n.1 + (x.2 - y.2) * n.2) / q2 x y) := by
  have hp := (q2_pos h).ne'
  have e : (fun t : ℝ => g2 x (y + t • n)) = fun t : ℝ => kcLog * Real.log ((x.1 - y.1 + t * -n.1) * (x.1 - y.1 + t * -n.1) + (x.2 - y.2 + t * -n.2) * (x.2 - y.2 + t * -n.2)) := by
    funext t
    rw [g2_eq]
    simp only [q2, Prod.fst_add, Prod.snd_add, Prod.smul_fst, Prod.smul_snd, smul_eq_mul]
    congr 2; ring
  unfold d2
  rw [e]
  have := ((quad_deriv (x.1 - y.1) (-n.1) (x.2 - y.2) (-n.2)).log (by simpa [q2] using hp)).const_mul kcLog
  rw [this.deriv, kc_eq]
  simp only [zero_mul, add_zero]
  unfold q2
  ring

theorem d12_g2 {x y : P2} (n1 n2 : P2) (h : x ≠ y) :
    d12 g2 n1 n2 x y = -kc * ((n1.1 * n2.1 + n1.2 * n2.2) * (1 / q2 x y)
      - 2 * ((x.1 - y.1) * n1.1 + (x.2 - y.2) * n1.2) * ((x.1 - y.1) * n2.1 + (x.2 - y.2) * n2.2) * (1 / q2 x y) * (1 / q2 x y)) := by
  have hp := (q2_pos h).ne'
  have hq : (x.1 - y.1 + 0 * n1.1) * (x.1 - y.1 + 0 * n1.1) + (x.2 - y.2 + 0 * n1.2) * (x.2 - y.2 + 0 * n1.2) ≠ 0 := by simpa [q2] using hp
  have hc := (quad_deriv (x.1 - y.1) n1.1 (x.2 - y.2) n1.2)
  have e : (fun t : ℝ => d2 g2 n2 (x + t • n1) y) =ᶠ[nhds 0] fun t : ℝ =>
      -(kc * (((x.1 - y.1) * n2.1 + (x.2 - y.2) * n2.2) + t * (n1.1 * n2.1 + n1.2 * n2.2)) /
        ((x.1 - y.1 + t * n1.1) * (x.1 - y.1 + t * n1.1) + (x.2 - y.2 + t * n1.2) * (x.2 - y.2 + t * n1.2))) := by
    filter_upwards [hc.continuousAt.eventually_ne hq] with t ht
    have hne : x + t • n1 ≠ y := by
      rintro rfl
      apply ht
      simp only [Prod.fst_add, Prod.snd_add, Prod.smul_fst, Prod.smul_snd, smul_eq_mul]
      ring
    rw [d2_g2 n2 hne]
    simp only [q2, Prod.fst_add, Prod.snd_add, Prod.smul_fst, Prod.smul_snd, smul_eq_mul]
    congr 2 <;> ring
  unfold d12
  show deriv (fun t : ℝ => d2 g2 n2 (x + t • n1) y) 0 = _
  rw [e.deriv_eq]
  have hl : HasDerivAt (fun t : ℝ => kc * (((x.1 - y.1) * n2.1 + (x.2 - y.2) * n2.2) + t * (n1.1 * n2.1 + n1.2 * n2.2))) (kc * (n1.1 * n2.1 + n1.2 * n2.2)) 0 := by
    simpa using (((hasDerivAt_id (0 : ℝ)).mul_const (n1.1 * n2.1 + n1.2 * n2.2)).const_add ((x.1 - y.1) * n2.1 + (x.2 - y.2) * n2.2)).const_mul kc
  refine HasDerivAt.deriv (HasDerivAt.congr_deriv (hl.div hc hq).neg ?_)
  simp only [zero_mul, add_zero]
  unfold q2 at *
  field_simp

/-! ### derivatives in space -/

theorem normsqr3_pos {x y : P3} (h : x ≠ y) : 0 < normsqr3 (x - y) := by
  have hn : ¬ (x 0 - y 0 = 0 ∧ x 1 - y 1 = 0 ∧ x 2 - y 2 = 0) := by
    rintro ⟨h0, h1, h2⟩
    apply h
    funext i
    fin_cases i
    · exact sub_eq_zero.mp h0
    · exact sub_eq_zero.mp h1
    · exact sub_eq_zero.mp h2
  simp only [normsqr3, Pi.sub_apply]
  rcases eq_or_ne (x 0 - y 0) 0 with h0 | h0
  · rcases eq_or_ne (x 1 - y 1) 0 with h1 | h1
    · have h2 : x 2 - y 2 ≠ 0 := fun h2 => hn ⟨h0, h1, h2⟩
      have := mul_self_pos.mpr h2
      rw [h0, h1]; linarith
    · have := mul_self_pos.mpr h1
      nlinarith [mul_self_nonneg (x 0 - y 0), mul_self_nonneg (x 2 - y 2)]
  · have := mul_self_pos.mpr h0
    nlinarith [mul_self_nonneg (x 1 - y 1), mul_self_nonneg (x 2 - y 2)]

theorem g3_eq (x y : P3) : g3 x y = 1 / Real.sqrt (normsqr3 (x - y)) := by
  unfold g3 normsqr3
  rw [Fin.sum_univ_three]
  simp only [Pi.sub_apply]
  congr 2; ring

theorem normsqr3_deriv (d n : P3) : HasDerivAt (fun t : ℝ => normsqr3 (d + t • n)) (2 * dot3 d n) 0 := by
  have h : ∀ i, HasDerivAt (fun t : ℝ => (d + t • n) i) (n i) 0 := fun i => by
    simpa using ((hasDerivAt_id (0 : ℝ)).mul_const (n i)).const_add (d i)
  unfold normsqr3
  refine HasDerivAt.congr_deriv ((((h 0).mul (h 0)).add ((h 1).mul (h 1))).add ((h 2).mul (h 2))) ?_
  simp [dot3]; ring

theorem rs_deriv {d n : P3} (h : 0 < normsqr3 d) : HasDerivAt (fun t : ℝ => 1 / Real.sqrt (normsqr3 (d + t • n)))
    (-(dot3 d n * (1 / Real.sqrt (normsqr3 d) * (1 / Real.sqrt (normsqr3 d) * (1 / Real.sqrt (normsqr3 d)))))) 0 := by
  have h0 : normsqr3 (d + (0 : ℝ) • n) = normsqr3 d := by simp
  have hs : Real.sqrt (normsqr3 d) ≠ 0 := (Real.sqrt_pos.mpr h).ne'
  simp only [one_div]
  refine HasDerivAt.congr_deriv (((normsqr3_deriv d n).sqrt (by rw [h0]; exact h.ne')).inv (by rw [h0]; exact hs)) ?_
  rw [h0]
  field_simp

theorem d1_g3 {x y : P3} (n : P3) (h : x ≠ y) :
    d1 g3 n x y = -(dot3 (x - y) n * (1 / Real.sqrt (normsqr3 (x - y)) * (1 / Real.sqrt (normsqr3 (x - y)) * (1 / Real.sqrt (normsqr3 (x - y)))))) := by
  unfold d1
  have e : (fun t : ℝ => g3 (x + t • n) y) = fun t : ℝ => 1 / Real.sqrt (normsqr3 (x - y + t • n)) := by
    funext t; rw [g3_eq, add_sub_right_comm]
  rw [e, (rs_deriv (normsqr3_pos h)).deriv]

theorem d2_g3 {x y : P3} (n : P3) (h : x ≠ y) :
    d2 g3 n x y = dot3 (x - y) n * (1 / Real.sqrt (normsqr3 (x - y)) * (1 / Real.sqrt (normsqr3 (x - y)) * (1 / Real.sqrt (normsqr3 (x - y))))) := by
  unfold d2
  have e : (fun t : ℝ => g3 x (y + t • n)) = fun t : ℝ => 1 / Real.sqrt (normsqr3 (x - y + t • (-n))) := by
    funext t; rw [g3_eq]; congr 3; rw [smul_neg]; abel
  rw [e, (rs_deriv (normsqr3_pos h)).deriv]
  simp only [dot3, Pi.neg_apply]; ring

theorem d12_g3 {x y : P3} (n1 n2 : P3) (h : x ≠ y) :
    d12 g3 n1 n2 x y = 1 / Real.sqrt (normsqr3 (x - y)) * (1 / Real.sqrt (normsqr3 (x - y))) * (1 / Real.sqrt (normsqr3 (x - y)) * (1 / Real.sqrt (normsqr3 (x - y)))) *
      (1 / Real.sqrt (normsqr3 (x - y))) * (-3 * (dot3 (x - y) n1 * dot3 (x - y) n2) + normsqr3 (x - y) * dot3 n1 n2) := by
  have hp := normsqr3_pos h
  have hs : Real.sqrt (normsqr3 (x - y)) ≠ 0 := (Real.sqrt_pos.mpr hp).ne'
  have hc := normsqr3_deriv (x - y) n1
  have e : (fun t : ℝ => d2 g3 n2 (x + t • n1) y) =ᶠ[nhds 0] fun t : ℝ =>
      (dot3 (x - y) n2 + t * dot3 n1 n2) * (1 / Real.sqrt (normsqr3 (x - y + t • n1)) * (1 / Real.sqrt (normsqr3 (x - y + t • n1)) * (1 / Real.sqrt (normsqr3 (x - y + t • n1))))) := by
    filter_upwards [hc.continuousAt.eventually_ne (y := (0 : ℝ)) (by simpa using hp.ne')] with t ht
    have hne : x + t • n1 ≠ y := by
      rintro rfl
      apply ht
      simp [normsqr3]
    rw [d2_g3 n2 hne, add_sub_right_comm]
    congr 1
    simp only [dot3, Pi.add_apply, Pi.sub_apply, Pi.smul_apply, smul_eq_mul]
    ring
  show deriv (fun t : ℝ => d2 g3 n2 (x + t • n1) y) 0 = _
  rw [e.deriv_eq]
  have hl : HasDerivAt (fun t : ℝ => dot3 (x - y) n2 + t * dot3 n1 n2) (dot3 n1 n2) 0 := by
    simpa using ((hasDerivAt_id (0 : ℝ)).mul_const (dot3 n1 n2)).const_add (dot3 (x - y) n2)
  have hr := rs_deriv (n := n1) hp
  refine HasDerivAt.deriv (HasDerivAt.congr_deriv (hl.mul (hr.mul (hr.mul hr))) ?_)
  simp only [zero_mul, add_zero, zero_smul, Pi.mul_apply]
  have h2 : normsqr3 (x - y) = Real.sqrt (normsqr3 (x - y)) * Real.sqrt (normsqr3 (x - y)) := (Real.mul_self_sqrt hp.le).symm
  generalize Real.sqrt (normsqr3 (x - y)) = r at *
  rw [h2]
  field_simp
  ring

/-! ### loops -/

theorem fill_loop {V : Mat} {m : Mem ℝ} (hV : V.Valid m) {f : Nat → Nat → R ℝ} {G : Nat → Nat → ℝ}
    (h : ∀ i < V.rows, ∀ j < V.cols, f i j = .ok (G i j)) :
    Tot (forUp 0 V.cols (fun j m => forUp 0 V.rows (fun i m => do
      let v ← f i j
      m.write (V.addr i j) v) m) m) (MatBecomes V m G) := by
  refine (colLoop hV (lo := fun _ => 0) (hi := fun _ => V.rows) (G := G) le_rfl (fun _ _ => le_rfl) (fun _ _ => Nat.zero_le _)
    fun j hj i _ hi m' _ h' => ?_).mono fun m' h' => becomes_congr h' fun i hi j hj => by simp [hi, hj]
  show (do let v ← f i j; m'.write (V.addr i j) v) = _
  rw [h i hi j hj, ok_bind, Mem.write_ok h']

theorem sum_loop {n : Nat} {f : Nat → R ℝ} {t : Nat → ℝ} (h : ∀ q < n, f q = .ok (t q)) :
    forUp 0 n (fun q (sum : ℝ) => do
      let v ← f q
      pure (sum + v)) 0 = .ok (∑ q ∈ Finset.range n, t q) := by
  rw [sumLoop (t := t) (Nat.zero_le _)]
  · rw [zero_add, Finset.range_eq_Ico]
  · intro q _ hq s
    rw [h q hq, ok_bind]; rfl

theorem ne_of_q2 {x y : P2} (h : x ≠ y) : (x.1 - y.1) * (x.1 - y.1) + (x.2 - y.2) * (x.2 - y.2) ≠ 0 := (q2_pos h).ne'

theorem fillKernel2_tot {X Y : Nat → P2} {V : Mat} {m : Mem ℝ} (hV : V.Valid m) (h : ∀ i < V.rows, ∀ j < V.cols, X i ≠ Y j) :
    Tot (fillKernel2 X Y V m) (MatBecomes V m fun i j => g2 (X i) (Y j)) := by
  unfold fillKernel2
  have := fill_loop (f := fun i j => do
    let l ← rlog (((X i).1 - (Y j).1) * ((X i).1 - (Y j).1) + ((X i).2 - (Y j).2) * ((X i).2 - (Y j).2))
    pure (kcLog * l)) hV (G := fun i j => g2 (X i) (Y j)) fun i hi j hj => by
      rw [rlog, if_neg (ne_of_q2 (h i hi j hj)), g2_eq]; rfl
  simpa only [bind_assoc, pure_bind] using this

theorem fillDny2_tot {X Y NY : Nat → P2} {V : Mat} {m : Mem ℝ} (hV : V.Valid m) (h : ∀ i < V.rows, ∀ j < V.cols, X i ≠ Y j) :
    Tot (fillDny2 X Y NY V m) (MatBecomes V m fun i j => -d2 g2 (NY j) (X i) (Y j)) := by
  unfold fillDny2
  have := fill_loop (f := fun i j => do
    let norm2 ← inv (((X i).1 - (Y j).1) * ((X i).1 - (Y j).1) + ((X i).2 - (Y j).2) * ((X i).2 - (Y j).2))
    pure (kc * (((X i).1 - (Y j).1) * (NY j).1 + ((X i).2 - (Y j).2) * (NY j).2) * norm2)) hV (G := fun i j => -d2 g2 (NY j) (X i) (Y j)) fun i hi j hj => by
      rw [inv, if_neg (ne_of_q2 (h i hi j hj)), d2_g2 _ (h i hi j hj), pure_bind]
      show Except.ok _ = Except.ok _
      congr 1
      unfold q2
      ring
  simpa only [bind_assoc, pure_bind] using this

theorem fillDnxDny2_tot {X NX Y NY : Nat → P2} {V : Mat} {m : Mem ℝ} (hV : V.Valid m) (h : ∀ i < V.rows, ∀ j < V.cols, X i ≠ Y j) :
    Tot (fillDnxDny2 X NX Y NY V m) (MatBecomes V m fun i j => -d12 g2 (NX i) (NY j) (X i) (Y j) +
      4 * d1 g2 (NX i) (X i) (Y j) * (((X i).1 - (Y j).1) * (NY j).1 + ((X i).2 - (Y j).2) * (NY j).2) / (((X i).1 - (Y j).1) ^ 2 + ((X i).2 - (Y j).2) ^ 2)) := by
  unfold fillDnxDny2
  have := fill_loop (f := fun i j => do
    let norm2 ← inv (((X i).1 - (Y j).1) * ((X i).1 - (Y j).1) + ((X i).2 - (Y j).2) * ((X i).2 - (Y j).2))
    pure (kc * ((NX i).1 * ((NY j).1 + 2 * (((X i).1 - (Y j).1) * (NY j).1 + ((X i).2 - (Y j).2) * (NY j).2) * ((X i).1 - (Y j).1) * norm2)
      + (NX i).2 * ((NY j).2 + 2 * (((X i).1 - (Y j).1) * (NY j).1 + ((X i).2 - (Y j).2) * (NY j).2) * ((X i).2 - (Y j).2) * norm2)) * norm2)) hV
      (G := fun i j => -d12 g2 (NX i) (NY j) (X i) (Y j) +
        4 * d1 g2 (NX i) (X i) (Y j) * (((X i).1 - (Y j).1) * (NY j).1 + ((X i).2 - (Y j).2) * (NY j).2) / (((X i).1 - (Y j).1) ^ 2 + ((X i).2 - (Y j).2) ^ 2)) fun i hi j hj => by
      have h0 := ne_of_q2 (h i hi j hj)
      rw [inv, if_neg h0, d12_g2 _ _ (h i hi j hj), d1_g2 _ (h i hi j hj), pure_bind]
      show Except.ok _ = Except.ok _
      congr 1
      rw [show ((X i).1 - (Y j).1) ^ 2 + ((X i).2 - (Y j).2) ^ 2 = ((X i).1 - (Y j).1) * ((X i).1 - (Y j).1) + ((X i).2 - (Y j).2) * ((X i).2 - (Y j).2) by ring]
      unfold q2
      generalize (X i).1 - (Y j).1 = a at *
      generalize (X i).2 - (Y j).2 = b at *
      have hq : a * a + b * b ≠ 0 := h0
      generalize hr : a * a + b * b = r at *
      field_simp
      ring
  simpa only [bind_assoc, pure_bind] using this

/-- the quadrature point number `q` of the edge `s` -/
noncomputable def qp (gr : Curve) (s q : Nat) : P2 := segPoint (gr.x (gr.e s).1) (gr.x (gr.e s).2) (gr.xx q)

theorem fillKernelC2_tot {idx : Option (Nat → Nat)} {Z : Nat → P2} {gr : Curve} {V : Mat} {m : Mem ℝ} (hV : V.Valid m)
    (h : ∀ s < V.rows, ∀ i < V.cols, ∀ q < gr.nq, Z i ≠ qp gr (at' idx s) q) :
    Tot (fillKernelC2 idx Z gr V m) (MatBecomes V m fun s i => gr.g (at' idx s) * ∑ q ∈ Finset.range gr.nq, gr.ww q * g2 (Z i) (qp gr (at' idx s) q)) := by
  unfold fillKernelC2
  have := fill_loop (f := fun s i => do
    let sum ← forUp 0 gr.nq (fun q (sum : ℝ) => do
      let v ← (do
        let l ← rlog (((Z i).1 - (qp gr (at' idx s) q).1) * ((Z i).1 - (qp gr (at' idx s) q).1) + ((Z i).2 - (qp gr (at' idx s) q).2) * ((Z i).2 - (qp gr (at' idx s) q).2))
        pure (gr.ww q * l))
      pure (sum + v)) 0
    pure (sum * (gr.g (at' idx s) * kcLog))) hV
      (G := fun s i => gr.g (at' idx s) * ∑ q ∈ Finset.range gr.nq, gr.ww q * g2 (Z i) (qp gr (at' idx s) q)) fun s hs i hi => by
      rw [sum_loop (t := fun q => gr.ww q * Real.log (q2 (Z i) (qp gr (at' idx s) q))), ok_bind]
      · show Except.ok _ = Except.ok _
        congr 1
        rw [Finset.sum_mul, Finset.mul_sum]
        refine Finset.sum_congr rfl fun q _ => ?_
        rw [g2_eq]; ring
      · intro q hq
        rw [rlog, if_neg (ne_of_q2 (h s hs i hi q hq))]; rfl
  simpa only [bind_assoc, pure_bind, qp, segPoint] using this

theorem fillDnzC2_tot {idx : Option (Nat → Nat)} {Z N : Nat → P2} {gr : Curve} {V : Mat} {m : Mem ℝ} (hV : V.Valid m)
    (h : ∀ s < V.rows, ∀ i < V.cols, ∀ q < gr.nq, Z i ≠ qp gr (at' idx s) q) :
    Tot (fillDnzC2 idx Z N gr V m) (MatBecomes V m fun s i => gr.g (at' idx s) * ∑ q ∈ Finset.range gr.nq, gr.ww q * d1 g2 (N i) (Z i) (qp gr (at' idx s) q)) := by
  unfold fillDnzC2
  have := fill_loop (f := fun s i => do
    let sum ← forUp 0 gr.nq (fun q (sum : ℝ) => do
      let v ← quot (gr.ww q * (((Z i).1 - (qp gr (at' idx s) q).1) * (N i).1 + ((Z i).2 - (qp gr (at' idx s) q).2) * (N i).2))
        (((Z i).1 - (qp gr (at' idx s) q).1) * ((Z i).1 - (qp gr (at' idx s) q).1) + ((Z i).2 - (qp gr (at' idx s) q).2) * ((Z i).2 - (qp gr (at' idx s) q).2))
      pure (sum + v)) 0
    pure (sum * (gr.g (at' idx s) * kc))) hV
      (G := fun s i => gr.g (at' idx s) * ∑ q ∈ Finset.range gr.nq, gr.ww q * d1 g2 (N i) (Z i) (qp gr (at' idx s) q)) fun s hs i hi => by
      rw [sum_loop (t := fun q => gr.ww q * (((Z i).1 - (qp gr (at' idx s) q).1) * (N i).1 + ((Z i).2 - (qp gr (at' idx s) q).2) * (N i).2) / q2 (Z i) (qp gr (at' idx s) q)), ok_bind]
      · show Except.ok _ = Except.ok _
        congr 1
        rw [Finset.sum_mul, Finset.mul_sum]
        refine Finset.sum_congr rfl fun q hq => ?_
        rw [d1_g2 _ (h s hs i hi q (Finset.mem_range.mp hq))]; ring
      · intro q hq
        rw [quot, if_neg (ne_of_q2 (h s hs i hi q hq))]; rfl
  simpa only [bind_assoc, pure_bind, qp, segPoint] using this

theorem fillDcolC2_tot {idx : Option (Nat → Nat)} {Z : Nat → P2} {gr : Curve} {V : Mat} {m : Mem ℝ} (hV : V.Valid m)
    (h : ∀ s < V.rows, ∀ i < V.cols, ∀ q < gr.nq, Z i ≠ qp gr (at' idx s) q) :
    Tot (fillDcolC2 idx Z gr V m) (MatBecomes V m fun s i => gr.g (at' idx s) * ∑ q ∈ Finset.range gr.nq, gr.ww q * -d2 g2 (gr.n (at' idx s)) (Z i) (qp gr (at' idx s) q)) := by
  unfold fillDcolC2
  have := fill_loop (f := fun s i => do
    let sum ← forUp 0 gr.nq (fun q (sum : ℝ) => do
      let v ← quot (gr.ww q * (((Z i).1 - (qp gr (at' idx s) q).1) * (gr.n (at' idx s)).1 + ((Z i).2 - (qp gr (at' idx s) q).2) * (gr.n (at' idx s)).2))
        (((Z i).1 - (qp gr (at' idx s) q).1) * ((Z i).1 - (qp gr (at' idx s) q).1) + ((Z i).2 - (qp gr (at' idx s) q).2) * ((Z i).2 - (qp gr (at' idx s) q).2))
      pure (sum + v)) 0
    pure (sum * (gr.g (at' idx s) * kc))) hV
      (G := fun s i => gr.g (at' idx s) * ∑ q ∈ Finset.range gr.nq, gr.ww q * -d2 g2 (gr.n (at' idx s)) (Z i) (qp gr (at' idx s) q)) fun s hs i hi => by
      rw [sum_loop (t := fun q => gr.ww q * (((Z i).1 - (qp gr (at' idx s) q).1) * (gr.n (at' idx s)).1 + ((Z i).2 - (qp gr (at' idx s) q).2) * (gr.n (at' idx s)).2) / q2 (Z i) (qp gr (at' idx s) q)), ok_bind]
      · show Except.ok _ = Except.ok _
        congr 1
        rw [Finset.sum_mul, Finset.mul_sum]
        refine Finset.sum_congr rfl fun q hq => ?_
        rw [d2_g2 _ (h s hs i hi q (Finset.mem_range.mp hq))]; ring
      · intro q hq
        rw [quot, if_neg (ne_of_q2 (h s hs i hi q hq))]; rfl
  simpa only [bind_assoc, pure_bind, qp, segPoint] using this

theorem fillDnzDcolC2_tot {idx : Option (Nat → Nat)} {Z N : Nat → P2} {gr : Curve} {V : Mat} {m : Mem ℝ} (hV : V.Valid m)
    (h : ∀ s < V.rows, ∀ i < V.cols, ∀ q < gr.nq, Z i ≠ qp gr (at' idx s) q) :
    Tot (fillDnzDcolC2 idx Z N gr V m) (MatBecomes V m fun s i => gr.g (at' idx s) * ∑ q ∈ Finset.range gr.nq,
      gr.ww q * -d12 g2 (N i) (gr.n (at' idx s)) (Z i) (qp gr (at' idx s) q)) := by
  unfold fillDnzDcolC2
  have := fill_loop (f := fun s i => do
    let sum ← forUp 0 gr.nq (fun q (sum : ℝ) => do
      let v ← (do
        let norm2 ← inv (((Z i).1 - (qp gr (at' idx s) q).1) * ((Z i).1 - (qp gr (at' idx s) q).1) + ((Z i).2 - (qp gr (at' idx s) q).2) * ((Z i).2 - (qp gr (at' idx s) q).2))
        pure (gr.ww q * (-2 * ((N i).1 * ((Z i).1 - (qp gr (at' idx s) q).1) + (N i).2 * ((Z i).2 - (qp gr (at' idx s) q).2)) *
          ((gr.n (at' idx s)).1 * ((Z i).1 - (qp gr (at' idx s) q).1) + (gr.n (at' idx s)).2 * ((Z i).2 - (qp gr (at' idx s) q).2)) * norm2 * norm2 +
          ((gr.n (at' idx s)).1 * (N i).1 + (gr.n (at' idx s)).2 * (N i).2) * norm2)))
      pure (sum + v)) 0
    pure (sum * (gr.g (at' idx s) * kc))) hV
      (G := fun s i => gr.g (at' idx s) * ∑ q ∈ Finset.range gr.nq, gr.ww q * -d12 g2 (N i) (gr.n (at' idx s)) (Z i) (qp gr (at' idx s) q)) fun s hs i hi => by
      rw [sum_loop (t := fun q => gr.ww q * (-2 * ((N i).1 * ((Z i).1 - (qp gr (at' idx s) q).1) + (N i).2 * ((Z i).2 - (qp gr (at' idx s) q).2)) *
          ((gr.n (at' idx s)).1 * ((Z i).1 - (qp gr (at' idx s) q).1) + (gr.n (at' idx s)).2 * ((Z i).2 - (qp gr (at' idx s) q).2)) *
            (1 / q2 (Z i) (qp gr (at' idx s) q)) * (1 / q2 (Z i) (qp gr (at' idx s) q)) +
          ((gr.n (at' idx s)).1 * (N i).1 + (gr.n (at' idx s)).2 * (N i).2) * (1 / q2 (Z i) (qp gr (at' idx s) q)))), ok_bind]
      · show Except.ok _ = Except.ok _
        congr 1
        rw [Finset.sum_mul, Finset.mul_sum]
        refine Finset.sum_congr rfl fun q hq => ?_
        rw [d12_g2 _ _ (h s hs i hi q (Finset.mem_range.mp hq))]; ring
      · intro q hq
        rw [inv, if_neg (ne_of_q2 (h s hs i hi q hq))]; rfl
  simpa only [bind_assoc, pure_bind, qp, segPoint] using this

/-! ### kernels in space -/

theorem slp_ok {x y : P3} (h : x ≠ y) (a b : Option P3) : slp x y a b = .ok (g3 x y) := by
  unfold slp rsqrt
  simp only
  rw [if_neg (normsqr3_pos h).ne', g3_eq]; rfl

theorem dlp_ok {x y : P3} (h : x ≠ y) (a : Option P3) (n : P3) : dlp x y a (some n) = .ok (d2 g3 n x y) := by
  unfold dlp rsqrt
  simp only
  rw [if_neg (normsqr3_pos h).ne', d2_g3 n h]; rfl

theorem adlp_ok {x y : P3} (h : x ≠ y) (b : Option P3) (n : P3) : adlp x y (some n) b = .ok (d1 g3 n x y) := by
  unfold adlp rsqrt
  simp only
  rw [if_neg (normsqr3_pos h.symm).ne', d1_g3 n h]
  have e : normsqr3 (y - x) = normsqr3 (x - y) := by simp only [normsqr3, Pi.sub_apply]; ring
  have e' : dot3 (y - x) n = - dot3 (x - y) n := by simp only [dot3, Pi.sub_apply]; ring
  rw [e, ← neg_mul, ← e']; rfl

theorem hs_ok {x y : P3} (h : x ≠ y) (n1 n2 : P3) : hs x y (some n1) (some n2) = .ok (d12 g3 n1 n2 x y) := by
  unfold hs rsqrt
  simp only
  rw [if_neg (normsqr3_pos h).ne', d12_g3 n1 n2 h]; rfl

theorem fillBem3_tot {c : ℝ} {X Y : Nat → P3} {NX NY : Option (Nat → P3)} {V : Mat} {k : P3 → P3 → Option P3 → Option P3 → R ℝ} {m : Mem ℝ} (hV : V.Valid m)
    {G : Nat → Nat → ℝ} (h : ∀ i < V.rows, ∀ j < V.cols, k (X i) (Y j) (NX.map fun f => f i) (NY.map fun f => f j) = .ok (G i j)) :
    Tot (fillBem3 c X Y NX NY V k m) (MatBecomes V m fun i j => c * G i j) := by
  unfold fillBem3
  have := fill_loop (f := fun i j => do
    let v ← k (X i) (Y j) (NX.map fun f => f i) (NY.map fun f => f j)
    pure (c * v)) hV (G := fun i j => c * G i j) fun i hi j hj => by rw [h i hi j hj]; rfl
  simpa only [bind_assoc, pure_bind] using this

end H2.Lap
