import Verif.Model.Frob
import Verif.Spec.Frob
import Verif.Proof.H2Convert2

set_option linter.unusedSectionVars false

namespace H2.Dense
open Spec
variable {𝕜 : Type} [RCLike 𝕜]

theorem frobLoop {a : Mat} {m : Mem 𝕜} (ha : a.Valid m) :
    forUp 0 a.cols (fun j (sum : ℝ) => forUp 0 a.rows (fun i (sum : ℝ) => do
      let x ← m.read (a.addr i j)
      pure (sum + RCLike.normSq x)) sum) 0 = .ok (∑ i ∈ Finset.range a.rows, ∑ j ∈ Finset.range a.cols, ‖a.val m i j‖ ^ 2) := by
  rw [sumLoop (t := fun j => ∑ i ∈ Finset.Ico 0 a.rows, ‖a.val m i j‖ ^ 2) (Nat.zero_le _)]
  · rw [Finset.sum_comm]; simp only [zero_add, Finset.range_eq_Ico]
  · intro j _ hj s
    rw [sumLoop (t := fun i => ‖a.val m i j‖ ^ 2) (Nat.zero_le _)]
    intro i _ hi s
    rw [Mem.read_ok (ha.some hi hj), ok_bind, RCLike.normSq_eq_def']
    rfl

theorem normfrob2M_tot {a : Mat} {m : Mem 𝕜} (ha : a.Valid m) :
    normfrob2M a m = .ok (∑ i ∈ Finset.range a.rows, ∑ j ∈ Finset.range a.cols, ‖a.val m i j‖ ^ 2) := frobLoop ha

theorem normfrobM_tot {a : Mat} {m : Mem 𝕜} (ha : a.Valid m) : normfrobM a m = .ok (frob a.rows a.cols (a.val m)) := by
  unfold normfrobM
  rw [frobLoop ha, ok_bind]
  rfl

theorem newIdentity_tot {p n : Nat} {junk : Nat → 𝕜} {m : Mem 𝕜} : Tot (newIdentity p n n junk m) (fun s => s.1 = ⟨p, n, n, n⟩ ∧
    Mat.Valid ⟨p, n, n, n⟩ s.2 ∧ (∀ i < n, ∀ j < n, Mat.val ⟨p, n, n, n⟩ s.2 i j = if i = j then 1 else 0) ∧
    Frame (Vec.Cell ⟨p, n * n⟩) m s.2) := by
  have v1 : Mat.Valid ⟨p, n, n, n⟩ (m.alloc p (n * n) junk) := H2Mat.newMat_valid HMat.alloc_vvalid
  have fr := H2.alloc_frame m p (n * n) junk
  generalize hm : m.alloc p (n * n) junk = m1 at v1 fr
  obtain ⟨m2, e, r1, r2, r3⟩ := identity_tot v1
  unfold newIdentity
  unfold identity at e
  simp only at e
  simp only [hm]
  rw [← bind_assoc, e, ok_bind]
  refine Tot.pure ⟨rfl, r1, r2, fun c hc => ?_⟩
  show m2 c = m c
  rw [r3 c (fun h => hc (H2Mat.mcell_vcell h)), fr c hc]

theorem frob_congr {r c : Nat} {A B : Nat → Nat → 𝕜} (h : ∀ i < r, ∀ j < c, A i j = B i j) : frob r c A = frob r c B := by
  unfold frob
  congr 1
  refine Finset.sum_congr rfl fun i hi => Finset.sum_congr rfl fun j hj => ?_
  rw [h i (Finset.mem_range.mp hi) j (Finset.mem_range.mp hj)]

theorem frob_nonneg {r c : Nat} {A : Nat → Nat → 𝕜} : 0 ≤ frob r c A := Real.sqrt_nonneg _

theorem checkOrtho_tot {a : Mat} {m : Mem 𝕜} (ha : a.Valid m) (tr : Bool) {p : Nat} {junk : Nat → 𝕜}
    (hf : Fresh m p (opCols tr a * opCols tr a)) :
    checkOrtho tr a p junk m = .ok (frob (opCols tr a) (opCols tr a) (defect (opRows tr a) (op tr (a.val m))), m) := by
  have key : ∀ n, n = opCols tr a → ∀ (nr : Bool), nr = !tr → Tot (do
      let s ← newIdentity p n n junk m
      let m ← addmul (-1) nr a tr a s.1 s.2
      let norm ← normfrobM s.1 m
      let m := m.free p (n * n)
      pure (max 0 norm, m)) (fun r => r = (frob n n (defect (opRows tr a) (op tr (a.val m))), m)) := by
    intro n hn nr hnr
    rw [← hn] at hf
    refine Tot.bind newIdentity_tot ?_
    rintro ⟨a2, m1⟩ - ⟨h1, v1, id1, fr1⟩
    simp only at h1 v1 id1 fr1
    subst h1
    have dA : Disj a.Cell (Vec.Cell ⟨p, n * n⟩) := by
      rintro c ⟨i, hi, j, hj, rfl⟩ h2
      have h3 := H2.fresh_none hf h2
      have h4 := ha.2 i hi j hj
      rw [h3] at h4
      exact absurd h4 (by simp)
    have va : a.Valid m1 := Rk.frame_valid fr1 dA ha
    have dA2 : Disj a.Cell (Mat.Cell ⟨p, n, n, n⟩) := fun c h1 h2 => dA c h1 (H2Mat.mcell_vcell h2)
    have e1 : opRows nr a = n := by rw [hnr, hn]; cases tr <;> rfl
    have e2 : opCols nr a = opRows tr a := by rw [hnr]; cases tr <;> rfl
    refine Tot.bind (addmul_tot va va v1 dA2 dA2 nr tr e2 (by simp only; omega) (by simp only; omega) (-1)) ?_
    rintro m2 - ⟨v2, x2, fr2⟩
    rw [normfrobM_tot v2, ok_bind]
    refine Tot.pure (Prod.ext ?_ ?_)
    · show max 0 (frob n n _) = _
      rw [max_eq_right frob_nonneg]
      refine frob_congr fun i hi j hj => ?_
      have hb : i < opRows nr a ∧ j < opCols tr a := ⟨by omega, by omega⟩
      rw [x2 i hi j hj]
      beta_reduce
      rw [if_pos hb, id1 i hi j hj, e2]
      unfold defect
      rw [neg_one_mul, ← sub_eq_add_neg]
      congr 1
      refine Finset.sum_congr rfl fun l hl => ?_
      have hl := Finset.mem_range.mp hl
      rw [H2Mat.op_frame fr1 dA (tr := nr) (by omega) (by omega), H2Mat.op_frame fr1 dA (tr := tr) (by omega) (by omega), hnr]
      cases tr <;> simp [op]
    · show m2.free p (n * n) = m
      funext c
      by_cases hc : Vec.Cell ⟨p, n * n⟩ c
      · rw [H2.fresh_none hf hc]
        rw [HMat.vcell_iff] at hc
        unfold Mem.free; exact if_pos hc
      · rw [H2.free_eq hc, fr2 c (fun h => hc (H2Mat.mcell_vcell h)), fr1 c hc]
  unfold checkOrtho
  cases tr
  · obtain ⟨r, e, h⟩ := key a.cols rfl true rfl
    rw [if_neg (by simp)]
    rw [e, h]; rfl
  · obtain ⟨r, e, h⟩ := key a.rows rfl false rfl
    rw [if_pos rfl]
    rw [e, h]; rfl

theorem frob_zero {r c : Nat} {A : Nat → Nat → 𝕜} : frob r c A = 0 ↔ ∀ i < r, ∀ j < c, A i j = 0 := by
  unfold frob
  rw [Real.sqrt_eq_zero (Finset.sum_nonneg fun i _ => Finset.sum_nonneg fun j _ => by positivity),
    Finset.sum_eq_zero_iff_of_nonneg (fun i _ => Finset.sum_nonneg fun j _ => by positivity)]
  constructor
  · intro h i hi j hj
    have := h i (Finset.mem_range.mpr hi)
    rw [Finset.sum_eq_zero_iff_of_nonneg (fun j _ => by positivity)] at this
    simpa using this j (Finset.mem_range.mpr hj)
  · intro h i hi
    refine Finset.sum_eq_zero fun j hj => ?_
    rw [h i (Finset.mem_range.mp hi) j (Finset.mem_range.mp hj)]; simp

theorem defect_zero {r c : Nat} {A : Nat → Nat → 𝕜} : frob c c (defect r A) = 0 ↔ OrthoCols r c A := by
  rw [frob_zero]
  unfold defect OrthoCols
  refine forall₂_congr fun j _ => forall₂_congr fun k _ => ?_
  rw [sub_eq_zero, eq_comm]

theorem defect_quad {r c : Nat} {A : Nat → Nat → 𝕜} (x : Nat → 𝕜) :
    ((∑ j ∈ Finset.range c, ‖x j‖ ^ 2 : ℝ) : 𝕜) - ((∑ i ∈ Finset.range r, ‖∑ j ∈ Finset.range c, A i j * x j‖ ^ 2 : ℝ) : 𝕜)
      = ∑ j ∈ Finset.range c, ∑ k ∈ Finset.range c, defect r A j k * (star (x j) * x k) := by
  have h : ∀ z : 𝕜, ((‖z‖ ^ 2 : ℝ) : 𝕜) = star z * z := fun z => by
    rw [RCLike.star_def, RCLike.conj_mul]; push_cast; rfl
  have e1 : ((∑ j ∈ Finset.range c, ‖x j‖ ^ 2 : ℝ) : 𝕜) = ∑ j ∈ Finset.range c, ∑ k ∈ Finset.range c, (if j = k then 1 else 0) * (star (x j) * x k) := by
    rw [RCLike.ofReal_sum]
    refine Finset.sum_congr rfl fun j hj => ?_
    simp only [ite_mul, one_mul, zero_mul]
    rw [Finset.sum_ite_eq, if_pos hj, h]
  have e2 : ((∑ i ∈ Finset.range r, ‖∑ j ∈ Finset.range c, A i j * x j‖ ^ 2 : ℝ) : 𝕜) =
      ∑ j ∈ Finset.range c, ∑ k ∈ Finset.range c, (∑ i ∈ Finset.range r, star (A i j) * A i k) * (star (x j) * x k) := by
    rw [RCLike.ofReal_sum]
    have : ∀ i ∈ Finset.range r, ((‖∑ j ∈ Finset.range c, A i j * x j‖ ^ 2 : ℝ) : 𝕜) =
        ∑ j ∈ Finset.range c, ∑ k ∈ Finset.range c, star (A i j) * A i k * (star (x j) * x k) := fun i _ => by
      rw [h, star_sum, Finset.sum_mul_sum]
      refine Finset.sum_congr rfl fun j _ => Finset.sum_congr rfl fun k _ => ?_
      rw [star_mul']; ring
    rw [Finset.sum_congr rfl this, Finset.sum_comm]
    refine Finset.sum_congr rfl fun j _ => ?_
    rw [Finset.sum_comm]
    refine Finset.sum_congr rfl fun k _ => ?_
    rw [Finset.sum_mul]
  rw [e1, e2, ← Finset.sum_sub_distrib]
  refine Finset.sum_congr rfl fun j _ => ?_
  rw [← Finset.sum_sub_distrib]
  refine Finset.sum_congr rfl fun k _ => ?_
  unfold defect; ring

theorem defect_isometry {r c : Nat} {A : Nat → Nat → 𝕜} (x : Nat → 𝕜) :
    |(∑ i ∈ Finset.range r, ‖∑ j ∈ Finset.range c, A i j * x j‖ ^ 2) - ∑ j ∈ Finset.range c, ‖x j‖ ^ 2|
      ≤ frob c c (defect r A) * ∑ j ∈ Finset.range c, ‖x j‖ ^ 2 := by
  have h := congrArg norm (defect_quad (r := r) (c := c) (A := A) x)
  rw [← RCLike.ofReal_sub, RCLike.norm_ofReal, abs_sub_comm] at h
  rw [h, ← Finset.sum_product']
  refine (norm_sum_le _ _).trans ?_
  simp only [norm_mul, norm_star]
  refine (Real.sum_mul_le_sqrt_mul_sqrt _ _ _).trans ?_
  have e : ∑ i ∈ Finset.range c ×ˢ Finset.range c, (‖x i.1‖ * ‖x i.2‖) ^ 2 = (∑ j ∈ Finset.range c, ‖x j‖ ^ 2) ^ 2 := by
    rw [sq (∑ j ∈ Finset.range c, ‖x j‖ ^ 2), Finset.sum_mul_sum, ← Finset.sum_product']
    refine Finset.sum_congr rfl fun i _ => ?_
    ring
  rw [e, Real.sqrt_sq (Finset.sum_nonneg fun j _ => by positivity)]
  unfold frob
  rw [← Finset.sum_product']

end H2.Dense
