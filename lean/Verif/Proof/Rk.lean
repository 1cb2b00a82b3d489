import Verif.Proof.Dense2
import Verif.Spec.Rk
import Mathlib.Algebra.Order.BigOperators.Group.Finset
import Mathlib.Algebra.Star.BigOperators
import Mathlib.Tactic.Linarith
import Mathlib.Tactic.Positivity

set_option linter.unusedSectionVars false

namespace H2

/-! ### truncation -/
namespace Trunc
open Spec
variable {R' : Type} [Field R'] [LinearOrder R'] [IsStrictOrderedRing R']

theorem countDown_tot {sigma : Arr R'} {bound : R'} : ∀ (k : Nat) (sum : R'), k ≤ sigma.n →
    sum = ∑ l ∈ Finset.Ico k sigma.n, sigma.v l ^ 2 → sum ≤ bound →
    Tot (countDown sigma bound k sum) fun k' => k' ≤ k ∧ ∑ l ∈ Finset.Ico k' sigma.n, sigma.v l ^ 2 ≤ bound ∧
      ∀ k'' < k', bound < ∑ l ∈ Finset.Ico k'' sigma.n, sigma.v l ^ 2 := by
  intro k
  induction k with
  | zero => intro sum _ hs hb; exact Tot.pure ⟨le_rfl, hs ▸ hb, fun k'' h => absurd h (Nat.not_lt_zero _)⟩
  | succ k ih =>
    intro sum hk hs hb
    unfold countDown
    rw [Arr.get_ok (by omega), ok_bind]
    have e : sum + sigma.v k * sigma.v k = ∑ l ∈ Finset.Ico k sigma.n, sigma.v l ^ 2 := by
      rw [Finset.sum_eq_sum_Ico_succ_bot (by omega), hs]; ring
    by_cases h : sum + sigma.v k * sigma.v k ≤ bound
    · rw [if_pos h]
      exact (ih _ (by omega) e h).mono fun k' ⟨h1, h2, h3⟩ => ⟨by omega, h2, h3⟩
    · rw [if_neg h]
      refine Tot.pure ⟨le_rfl, hs ▸ hb, fun k'' hk'' => ?_⟩
      rw [e] at h
      refine lt_of_lt_of_le (not_le.mp h) (Finset.sum_le_sum_of_subset_of_nonneg ?_ fun _ _ _ => sq_nonneg _)
      exact Finset.Ico_subset_Ico (by omega) le_rfl

theorem countUp_tot {sigma : Arr R'} {t : R'} {t' : R R'} (ht : 0 < sigma.n → t' = .ok t) :
    ∀ (n k : Nat), k + n = sigma.n → (∀ l < k, t < sigma.v l) →
    Tot (countUp sigma t' n k) fun k' => k' ≤ sigma.n ∧ (k' < sigma.n → sigma.v k' ≤ t) ∧ ∀ l < k', t < sigma.v l := by
  intro n
  induction n with
  | zero => intro k hk h; exact Tot.pure ⟨by omega, fun h => by omega, h⟩
  | succ n ih =>
    intro k hk h
    obtain rfl : t' = .ok t := ht (by omega)
    unfold countUp
    rw [Arr.get_ok (by omega), ok_bind, ok_bind]
    by_cases hlt : t < sigma.v k
    · rw [if_pos hlt]
      refine ih (k + 1) (by omega) fun l hl => ?_
      by_cases e : l = k
      · rw [e]; exact hlt
      · exact h l (by omega)
    · rw [if_neg hlt]
      exact Tot.pure ⟨by omega, fun _ => not_lt.mp hlt, h⟩

theorem findrank_tot (tm : Option Mode) (eps : R') (sigma : Arr R')
    (hdec : ∀ i j, i ≤ j → j < sigma.n → sigma.v j ≤ sigma.v i) :
    Tot (findrank tm eps sigma) fun k => k ≤ sigma.n ∧ Acceptable tm eps sigma.n sigma.v k ∧
      ∀ k' < k, ¬ Acceptable tm eps sigma.n sigma.v k' := by
  have up : ∀ (t : R') (t' : R R'), (0 < sigma.n → t' = .ok t) →
      Tot (countUp sigma t' sigma.n 0) fun k => k ≤ sigma.n ∧ (∀ l, k ≤ l → l < sigma.n → sigma.v l ≤ t) ∧
        ∀ k' < k, ¬ ∀ l, k' ≤ l → l < sigma.n → sigma.v l ≤ t := by
    intro t t' ht
    refine (countUp_tot ht sigma.n 0 (by omega) fun l h => absurd h (Nat.not_lt_zero _)).mono ?_
    rintro k ⟨h1, h2, h3⟩
    refine ⟨h1, fun l hl1 hl2 => (hdec k l hl1 hl2).trans (h2 (by omega)), fun k' hk' hall => ?_⟩
    exact absurd (hall k' le_rfl (by omega)) (not_le.mpr (h3 k' hk'))
  rcases tm with _ | ⟨_ | _, _ | _⟩
  · exact up (eps * sigma.v 0) _ fun h => by rw [Arr.get_ok h]; rfl
  · exact up (eps * sigma.v 0) _ fun h => by rw [Arr.get_ok h]; rfl
  · exact up eps _ fun _ => rfl
  · unfold findrank
    have hn : forUp 0 sigma.n (fun k norm => do let s ← sigma.get k; pure (norm + s * s)) (0 : R') =
        .ok (∑ l ∈ Finset.range sigma.n, sigma.v l ^ 2) := by
      obtain ⟨r, e, h⟩ := forUp_tot (body := fun k norm => do let s ← sigma.get k; pure (norm + s * s)) (s := (0 : R'))
        (fun k r => r = ∑ l ∈ Finset.range k, sigma.v l ^ 2) (Nat.zero_le sigma.n) (by simp) (fun k r _ hk hr =>
          ⟨r + sigma.v k * sigma.v k, by rw [Arr.get_ok hk]; rfl, by rw [Finset.sum_range_succ, hr]; ring⟩)
      rw [e, h]
    rw [hn, ok_bind]
    refine (countDown_tot sigma.n 0 le_rfl (by simp) ?_).mono ?_
    · have : 0 ≤ ∑ l ∈ Finset.range sigma.n, sigma.v l ^ 2 := Finset.sum_nonneg fun _ _ => sq_nonneg _
      nlinarith [mul_self_nonneg eps]
    · rintro k ⟨h1, h2, h3⟩
      simp only [Acceptable]
      refine ⟨h1, by rw [pow_two eps]; exact h2, fun k' hk' h => ?_⟩
      rw [pow_two eps] at h
      exact absurd h (not_le.mpr (h3 k' hk'))
  · unfold findrank
    refine (countDown_tot sigma.n 0 le_rfl (by simp) (mul_self_nonneg eps)).mono ?_
    rintro k ⟨h1, h2, h3⟩
    simp only [Acceptable]
    refine ⟨h1, by rw [pow_two eps]; exact h2, fun k' hk' h => ?_⟩
    rw [pow_two eps] at h
    exact absurd h (not_le.mpr (h3 k' hk'))

end Trunc

/-! ### low-rank matrices -/
namespace Rk
open Spec Dense
variable {K : Type _} [Field K] [StarRing K]

theorem frame_val {a : Mat} {m m' : Mem K} {S : Nat → Prop} (hf : Frame S m m') (hd : Disj a.Cell S) {i j : Nat}
    (hi : i < a.rows) (hj : j < a.cols) : a.val m' i j = a.val m i j := by
  unfold Mat.val; rw [hf _ (hd _ (Mat.cell_addr hi hj))]
theorem frame_valid {a : Mat} {m m' : Mem K} {S : Nat → Prop} (hf : Frame S m m') (hd : Disj a.Cell S)
    (h : a.Valid m) : a.Valid m' :=
  ⟨h.1, fun i hi j hj => by rw [hf _ (hd _ (Mat.cell_addr hi hj))]; exact h.2 i hi j hj⟩
theorem frame_vval {v : Vec} {m m' : Mem K} {S : Nat → Prop} (hf : Frame S m m') (hd : Disj v.Cell S) {i : Nat}
    (hi : i < v.dim) : v.val m' i = v.val m i := by
  unfold Vec.val; rw [hf _ (hd _ (Vec.cell_addr hi))]
theorem frame_vvalid {v : Vec} {m m' : Mem K} {S : Nat → Prop} (hf : Frame S m m') (hd : Disj v.Cell S)
    (h : v.Valid m) : v.Valid m' :=
  fun i hi => by rw [hf _ (hd _ (Vec.cell_addr hi))]; exact h i hi

/-- the loop of `addeval` and `addevaltrans`: `y += alpha P Q^* x` -/
theorem evalLoop {P Q : Mat} {x y : Vec} {m : Mem K} {k : Nat} (hP : P.Valid m) (hQ : Q.Valid m) (hx : x.Valid m)
    (hy : y.Valid m) (hPy : Disj P.Cell y.Cell) (hQy : Disj Q.Cell y.Cell) (hxy : Disj x.Cell y.Cell)
    (hyd : y.dim = P.rows) (hxd : x.dim = Q.rows) (hkP : k ≤ P.cols) (hkQ : k ≤ Q.cols) (alpha : K)
    {body : Nat → Mem K → R (Mem K)}
    (hbody : ∀ nu < k, ∀ m, body nu m = (dotprodVec ⟨Q.base + nu * Q.ld, Q.rows⟩ x m >>= fun beta =>
      addVec (alpha * beta) ⟨P.base + nu * P.ld, P.rows⟩ y m)) :
    Tot (forUp 0 k body m) (VecBecomes y m fun i => y.val m i + alpha *
      ∑ j ∈ Finset.range Q.rows, (∑ nu ∈ Finset.range k, P.val m i nu * star (Q.val m j nu)) * x.val m j) := by
  have colval : ∀ (M : Mat) (m' : Mem K) (nu i : Nat),
      (Vec.mk (M.base + nu * M.ld) M.rows).val m' i = M.val m' i nu := by
    intro M m' nu i
    simp only [Vec.val, Mat.val, Vec.addr, Mat.addr]
    rw [show M.base + nu * M.ld + i = M.base + (i + nu * M.ld) by ring]
  have coladdr : ∀ (M : Mat) (nu i : Nat), (Vec.mk (M.base + nu * M.ld) M.rows).addr i = M.addr i nu := by
    intro M nu i; simp only [Vec.addr, Mat.addr]; ring
  have colcell : ∀ (M : Mat) (nu : Nat), nu < M.cols → ∀ c, (Vec.mk (M.base + nu * M.ld) M.rows).Cell c → M.Cell c := by
    rintro M nu hnu c ⟨i, hi, rfl⟩
    exact ⟨i, hi, nu, hnu, coladdr M nu i⟩
  have colvalid : ∀ (M : Mat) (m' : Mem K) (nu : Nat), nu < M.cols → M.Valid m' →
      (Vec.mk (M.base + nu * M.ld) M.rows).Valid m' := by
    intro M m' nu hnu hM i hi
    rw [coladdr]; exact hM.2 i hi nu hnu
  refine (forUp_tot (fun r (m' : Mem K) => VecBecomes y m (fun i => y.val m i + alpha * ∑ nu ∈ Finset.range r,
      (∑ j ∈ Finset.range Q.rows, star (Q.val m j nu) * x.val m j) * P.val m i nu) m') (Nat.zero_le _) ?_ ?_).mono ?_
  · exact ⟨hy, fun i hi => by simp, fun _ _ => rfl⟩
  · intro nu m1 _ hnu h1
    have hf := h1.2.2
    rw [hbody nu hnu, dotprodVec_tot (colvalid Q m1 nu (by omega) (frame_valid hf hQy hQ)) (frame_vvalid hf hxy hx) hxd.symm,
      ok_bind]
    refine (addVec_tot (colvalid P m1 nu (by omega) (frame_valid hf hPy hP)) h1.1
      (fun c hc => hPy c (colcell P nu (by omega) c hc)) hyd.ge _).mono fun m2 h2 => ?_
    refine ⟨h2.1, fun i hi => ?_, fun c hc => (h2.2.2 c hc).trans (hf c hc)⟩
    have e2 := h2.2.1 i hi
    simp only at e2 ⊢
    rw [e2, if_pos (show i < P.rows by omega), h1.2.1 i hi, colval, frame_val hf hPy (by omega) (by omega),
      Finset.sum_range_succ]
    have e : ∀ j ∈ Finset.range Q.rows, star ((Vec.mk (Q.base + nu * Q.ld) Q.rows).val m1 j) * x.val m1 j =
        star (Q.val m j nu) * x.val m j := by
      intro j hj
      rw [Finset.mem_range] at hj
      rw [colval, frame_val hf hQy hj (by omega), frame_vval hf hxy (by omega)]
    rw [Finset.sum_congr rfl e]
    ring
  · intro m' h
    refine vbecomes_congr h fun i hi => ?_
    congr 2
    have : ∀ nu ∈ Finset.range k, (∑ j ∈ Finset.range Q.rows, star (Q.val m j nu) * x.val m j) * P.val m i nu =
        ∑ j ∈ Finset.range Q.rows, P.val m i nu * star (Q.val m j nu) * x.val m j := by
      intro nu _
      rw [Finset.sum_mul]
      exact Finset.sum_congr rfl fun j _ => by ring
    rw [Finset.sum_congr rfl this, Finset.sum_comm]
    exact Finset.sum_congr rfl fun j _ => (Finset.sum_mul _ _ _).symm

theorem mvm_tot {r : Rk} {x y : Vec} {m : Mem K} (hr : r.Valid m) (hx : x.Valid m) (hy : y.Valid m)
    (hry : Disj r.Cell y.Cell) (hxy : Disj x.Cell y.Cell) (trans : Bool) (hyd : y.dim = r.rows trans)
    (hxd : x.dim = r.cols trans) (alpha : K) :
    Tot (mvm alpha trans r x y m) (VecBecomes y m fun i => y.val m i + alpha *
      ∑ j ∈ Finset.range (r.cols trans), op trans (r.val m) i j * x.val m j) := by
  have hA := hr.colsA; have hB := hr.colsB
  have hAy : Disj r.A.Cell y.Cell := fun c h => hry c (Or.inl h)
  have hBy : Disj r.B.Cell y.Cell := fun c h => hry c (Or.inr h)
  cases trans
  · simp only [mvm, addeval, Bool.false_eq_true, if_false, rows, cols, op] at *
    refine Tot.cassert (by simpa using hyd) (Tot.cassert (by simpa using hxd) (Tot.cassert (by simpa using hA.ge)
      (Tot.cassert (by simpa using hB.ge) ?_)))
    refine evalLoop hr.A hr.B hx hy hAy hBy hxy hyd hxd hA.ge hB.ge alpha fun nu hnu m' => ?_
    rw [initColumn_ok.mpr ⟨by omega, rfl⟩, initColumn_ok.mpr ⟨by omega, rfl⟩]
  · simp only [mvm, addevaltrans, if_true, rows, cols, op] at *
    refine Tot.cassert (by simpa using hxd) (Tot.cassert (by simpa using hyd) (Tot.cassert (by simpa using hA.ge)
      (Tot.cassert (by simpa using hB.ge) ?_)))
    refine (evalLoop hr.B hr.A hx hy hBy hAy hxy hyd hxd hB.ge hA.ge alpha fun nu hnu m' => ?_).mono fun m' h =>
      vbecomes_congr h fun i hi => ?_
    · rw [initColumn_ok.mpr ⟨by omega, rfl⟩, initColumn_ok.mpr ⟨by omega, rfl⟩]
    · congr 2
      refine Finset.sum_congr rfl fun j _ => ?_
      congr 1
      rw [val, star_sum]
      exact Finset.sum_congr rfl fun nu _ => by rw [star_mul', star_star, mul_comm]

theorem addAmatrix_tot {r : Rk} {b : Mat} {m : Mem K} (hr : r.Valid m) (hb : b.Valid m) (hd : Disj r.Cell b.Cell)
    (trans : Bool) (h1 : b.rows = r.rows trans) (h2 : b.cols = r.cols trans) (alpha : K) :
    Tot (addAmatrix alpha trans r b m) (MatBecomes b m fun i j => b.val m i j + alpha * op trans (r.val m) i j) := by
  have hA := hr.colsA; have hB := hr.colsB
  have hAb : Disj r.A.Cell b.Cell := fun c h => hd c (Or.inl h)
  have hBb : Disj r.B.Cell b.Cell := fun c h => hd c (Or.inr h)
  cases trans
  · simp only [addAmatrix, Bool.false_eq_true, if_false, rows, cols, op] at *
    refine Tot.cassert (by simpa using h1.symm) (Tot.cassert (by simpa using h2.symm) ?_)
    by_cases hk : r.k > 0
    · rw [if_pos hk]
      refine (addmul_tot hr.A hr.B hb hAb hBb false true (by simp [opCols, opRows, hA, hB]) (by simp [opRows, h1])
        (by simp [opCols, h2]) alpha).mono fun m' h => becomes_congr h fun i hi j hj => ?_
      rw [if_pos (by simp only [opRows, opCols, Bool.false_eq_true, if_false, if_true]; omega)]
      simp only [opCols, op, Bool.false_eq_true, if_false, if_true, hA]
      rfl
    · rw [if_neg hk]
      refine Tot.pure (becomes_congr (becomes_self hb) fun i hi j hj => ?_)
      rw [val, show r.k = 0 by omega]; simp
  · simp only [addAmatrix, if_true, rows, cols, op] at *
    refine Tot.cassert (by simpa using h1.symm) (Tot.cassert (by simpa using h2.symm) ?_)
    by_cases hk : r.k > 0
    · rw [if_pos hk]
      refine (addmul_tot hr.B hr.A hb hBb hAb false true (by simp [opCols, opRows, hA, hB]) (by simp [opRows, h1])
        (by simp [opCols, h2]) alpha).mono fun m' h => becomes_congr h fun i hi j hj => ?_
      rw [if_pos (by simp only [opRows, opCols, Bool.false_eq_true, if_false, if_true]; omega)]
      simp only [opCols, op, Bool.false_eq_true, if_false, if_true, hB, val, star_sum, star_mul', star_star]
      congr 2
      exact Finset.sum_congr rfl fun nu _ => mul_comm _ _
    · rw [if_neg hk]
      refine Tot.pure (becomes_congr (becomes_self hb) fun i hi j hj => ?_)
      rw [val, show r.k = 0 by omega]; simp

theorem scale_tot {r : Rk} {m : Mem K} (hr : r.Valid m) (alpha : K) :
    Tot (scale alpha r m) fun m' => r.Valid m' ∧ Frame r.Cell m m' ∧
      ∀ i < r.A.rows, ∀ j < r.B.rows, r.val m' i j = alpha * r.val m i j := by
  have hA := hr.colsA; have hB := hr.colsB
  refine (Dense.scale_tot hr.A alpha).mono fun m' h => ?_
  have hd : Disj r.B.Cell r.A.Cell := fun c h1 h2 => hr.disj c h2 h1
  refine ⟨⟨h.1, frame_valid h.2.2 hd hr.B, hr.disj, hA, hB⟩, fun c hc => h.2.2 c fun h' => hc (Or.inl h'), ?_⟩
  intro i hi j hj
  unfold val
  rw [Finset.mul_sum]
  refine Finset.sum_congr rfl fun nu hnu => ?_
  rw [Finset.mem_range] at hnu
  rw [h.2.1 i hi nu (by omega), frame_val h.2.2 hd hj (by omega), mul_assoc]

theorem initSub_tot {src : Rk} {m : Mem K} (h : src.Valid m) {rows roff cols coff : Nat} (h1 : roff + rows ≤ src.A.rows)
    (h2 : coff + cols ≤ src.B.rows) :
    Tot (initSub src rows roff cols coff) fun r => r.Valid m ∧ r.A.rows = rows ∧ r.B.rows = cols ∧
      (∀ c, r.Cell c → src.Cell c) ∧ ∀ m' : Mem K, ∀ i j, r.val m' i j = src.val m' (i + roff) (j + coff) := by
  have hA := h.colsA; have hB := h.colsB
  obtain ⟨A, eA⟩ : ∃ A, Dense.initSub src.A rows roff src.k 0 = .ok A := ⟨_, initSub_ok.mpr ⟨h1, by omega, rfl⟩⟩
  obtain ⟨B, eB⟩ : ∃ B, Dense.initSub src.B cols coff src.k 0 = .ok B := ⟨_, initSub_ok.mpr ⟨h2, by omega, rfl⟩⟩
  unfold initSub
  rw [eA, ok_bind, eB, ok_bind]
  have aA := initSub_addr eA
  have aB := initSub_addr eB
  obtain ⟨_, _, rA⟩ := initSub_ok.mp eA
  obtain ⟨_, _, rB⟩ := initSub_ok.mp eB
  have r1 : A.rows = rows := by rw [rA]
  have r2 : A.cols = src.k := by rw [rA]
  have r3 : A.ld = src.A.ld := by rw [rA]
  have s1 : B.rows = cols := by rw [rB]
  have s2 : B.cols = src.k := by rw [rB]
  have s3 : B.ld = src.B.ld := by rw [rB]
  have cA : ∀ c, A.Cell c → src.A.Cell c := by
    rintro c ⟨i, hi, j, hj, rfl⟩
    exact ⟨i + roff, by omega, j + 0, by omega, aA i j⟩
  have cB : ∀ c, B.Cell c → src.B.Cell c := by
    rintro c ⟨i, hi, j, hj, rfl⟩
    exact ⟨i + coff, by omega, j + 0, by omega, aB i j⟩
  refine Tot.pure ⟨⟨⟨?_, ?_⟩, ⟨?_, ?_⟩, fun c h1 h2 => h.disj c (cA c h1) (cB c h2), r2, s2⟩, r1, s1, ?_, ?_⟩
  · have := h.A.1
    show A.rows ≤ A.ld
    omega
  · intro i hi j hj
    have hi : i < A.rows := hi
    have hj : j < A.cols := hj
    show (m (A.addr i j)).isSome
    rw [aA]; exact h.A.2 _ (by omega) _ (by omega)
  · have := h.B.1
    show B.rows ≤ B.ld
    omega
  · intro i hi j hj
    have hi : i < B.rows := hi
    have hj : j < B.cols := hj
    show (m (B.addr i j)).isSome
    rw [aB]; exact h.B.2 _ (by omega) _ (by omega)
  · rintro c (hc | hc)
    · exact Or.inl (cA c hc)
    · exact Or.inr (cB c hc)
  · intro m' i j
    unfold val Mat.val
    refine Finset.sum_congr rfl fun nu _ => ?_
    show (m' (A.addr i nu)).getD 0 * star ((m' (B.addr j nu)).getD 0) = _
    rw [aA, aB]
    rfl


/-- a freshly allocated `rows` x `cols` matrix -/
theorem alloc_valid {m : Mem K} {nb rows cols : Nat} {junk : Nat → K} :
    (Mat.mk nb rows rows cols).Valid (m.alloc nb (rows * cols) junk) := by
  refine ⟨le_rfl, fun i hi j hj => ?_⟩
  have hi : i < rows := hi
  have hj : j < cols := hj
  have : nb ≤ (Mat.mk nb rows rows cols).addr i j ∧ (Mat.mk nb rows rows cols).addr i j < nb + rows * cols := by
    unfold Mat.addr
    have : (j + 1) * rows ≤ cols * rows := Nat.mul_le_mul_right _ hj
    rw [Nat.succ_mul] at this
    simp only
    rw [Nat.mul_comm rows]
    omega
  unfold Mem.alloc
  rw [if_pos this]; rfl

theorem cell_block {a : Mat} (h : a.rows ≤ a.ld) {c : Nat} (hc : a.Cell c) : Block a c := by
  obtain ⟨i, hi, j, hj, rfl⟩ := hc
  unfold Block Mat.addr
  have : (j + 1) * a.ld ≤ a.cols * a.ld := Nat.mul_le_mul_right _ hj
  rw [Nat.succ_mul] at this
  rw [Nat.mul_comm a.ld]
  omega

theorem free_of_not {a : Mat} {m : Mem K} {c : Nat} (h : ¬ Block a c) : (m.free a.base (a.ld * a.cols)) c = m c := by
  have : ¬ (a.base ≤ c ∧ c < a.base + a.ld * a.cols) := h
  simp only [Mem.free, if_neg this]

theorem alloc_of_not {m : Mem K} {nb n c : Nat} {junk : Nat → K} (h : ¬ (nb ≤ c ∧ c < nb + n)) :
    m.alloc nb n junk c = m c := by simp only [Mem.alloc, if_neg h]

theorem setrank_tot {b : Rk} {m : Mem K} (hkA : b.A.cols = b.k) (hkB : b.B.cols = b.k)
    (k nbA nbB : Nat) (junk : Nat → K) (hne : b.k ≠ k) {P : Nat → Prop}
    (hP : ∀ c, P c → (m c).isSome ∧ ¬ Block b.A c ∧ ¬ Block b.B c)
    (hfA : Fresh (m.free b.A.base (b.A.ld * b.A.cols)) nbA (b.A.rows * k))
    (hfB : Fresh (((m.free b.A.base (b.A.ld * b.A.cols)).alloc nbA (b.A.rows * k) junk).free b.B.base
      (b.B.ld * b.B.cols)) nbB (b.B.rows * k))
    (hBA : ∀ c, nbA ≤ c → c < nbA + b.A.rows * k → ¬ Block b.B c) :
    Tot (setrank b k nbA nbB junk m) fun p => p.1.Valid p.2 ∧ p.1.A.rows = b.A.rows ∧ p.1.B.rows = b.B.rows ∧
      p.1.k = k ∧ (∀ c, P c → ¬ p.1.Cell c) ∧
      (∀ c, ¬ Block b.A c → ¬ Block b.B c → ¬ p.1.Cell c → p.2 c = m c) := by
  unfold setrank resize
  rw [if_pos (by omega)]
  simp only [pure_bind]
  rw [if_pos (by omega)]
  simp only [pure_bind]
  set m1 := m.free b.A.base (b.A.ld * b.A.cols) with e1
  set m2 := m1.alloc nbA (b.A.rows * k) junk with e2
  set m3 := m2.free b.B.base (b.B.ld * b.B.cols) with e3
  set m4 := m3.alloc nbB (b.B.rows * k) junk with e4
  set A' : Mat := ⟨nbA, b.A.rows, b.A.rows, k⟩ with eA'
  set B' : Mat := ⟨nbB, b.B.rows, b.B.rows, k⟩ with eB'
  have blkA : ∀ c, A'.Cell c → nbA ≤ c ∧ c < nbA + b.A.rows * k := fun c h => cell_block (a := A') le_rfl h
  have blkB : ∀ c, B'.Cell c → nbB ≤ c ∧ c < nbB + b.B.rows * k := fun c h => cell_block (a := B') le_rfl h
  have vA2 : A'.Valid m2 := alloc_valid
  have s3 : ∀ c, A'.Cell c → (m3 c).isSome := by
    rintro c hc
    rw [e3, free_of_not (hBA c (blkA c hc).1 (blkA c hc).2)]
    obtain ⟨i, hi, j, hj, rfl⟩ := hc
    exact vA2.2 i hi j hj
  have dis : Disj A'.Cell B'.Cell := by
    intro c h1 h2
    have := s3 c h1
    rw [hfB c (blkB c h2).1 (blkB c h2).2] at this
    exact absurd this (by simp)
  have vA4 : A'.Valid m4 := by
    refine ⟨le_rfl, fun i hi j hj => ?_⟩
    have hc : A'.Cell (A'.addr i j) := Mat.cell_addr hi hj
    by_cases hn : nbB ≤ A'.addr i j ∧ A'.addr i j < nbB + b.B.rows * k
    · rw [e4]; unfold Mem.alloc; rw [if_pos hn]; rfl
    · rw [e4, alloc_of_not hn]; exact s3 _ hc
  refine Tot.pure ⟨⟨vA4, alloc_valid, dis, rfl, rfl⟩, rfl, rfl, rfl, ?_, ?_⟩
  · rintro c hPc hc
    obtain ⟨p1, p2, p3⟩ := hP c hPc
    have q1 : (m1 c).isSome := by rw [e1, free_of_not p2]; exact p1
    have q2 : ¬ (nbA ≤ c ∧ c < nbA + b.A.rows * k) := by
      intro h; rw [hfA c h.1 h.2] at q1; exact absurd q1 (by simp)
    have q3 : (m3 c).isSome := by rw [e3, free_of_not p3, e2, alloc_of_not q2]; exact q1
    have q4 : ¬ (nbB ≤ c ∧ c < nbB + b.B.rows * k) := by
      intro h; rw [hfB c h.1 h.2] at q3; exact absurd q3 (by simp)
    rcases hc with hc | hc
    · exact q2 (blkA c hc)
    · exact q4 (blkB c hc)
  · intro c p2 p3 hc
    have full : ∀ (nb rows : Nat), nb ≤ c → c < nb + rows * k → (Mat.mk nb rows rows k).Cell c := by
      intro nb rows h1 h2
      have hr : 0 < rows := by
        rcases Nat.eq_zero_or_pos rows with h | h
        · rw [h] at h2; omega
        · exact h
      refine ⟨(c - nb) % rows, Nat.mod_lt _ hr, (c - nb) / rows, ?_, ?_⟩
      · show (c - nb) / rows < k
        rw [Nat.div_lt_iff_lt_mul hr, Nat.mul_comm]; omega
      · show c = nb + ((c - nb) % rows + (c - nb) / rows * rows)
        have := Nat.mod_add_div (c - nb) rows
        rw [Nat.mul_comm] at this
        omega
    have q2 : ¬ (nbA ≤ c ∧ c < nbA + b.A.rows * k) := fun h => hc (Or.inl (full nbA b.A.rows h.1 h.2))
    have q4 : ¬ (nbB ≤ c ∧ c < nbB + b.B.rows * k) := fun h => hc (Or.inr (full nbB b.B.rows h.1 h.2))
    show m4 c = m c
    rw [e4, alloc_of_not q4, e3, free_of_not p3, e2, alloc_of_not q2, e1, free_of_not p2]

/-- copying both factors, possibly exchanged -/
theorem copy2_tot {a b : Rk} {m : Mem K} (ha : a.Valid m) (hb : b.Valid m) (hd : Disj a.Cell b.Cell) (hk : b.k = a.k)
    (trans : Bool) (h1 : b.A.rows = a.rows trans) (h2 : b.B.rows = a.cols trans) :
    Tot (if trans then do
        let m ← Dense.copy false a.A b.B m
        let m ← Dense.copy false a.B b.A m
        pure (b, m)
      else do
        let m ← Dense.copy false a.A b.A m
        let m ← Dense.copy false a.B b.B m
        pure (b, m)) fun p => p.1 = b ∧ b.Valid p.2 ∧ Frame b.Cell m p.2 ∧
        ∀ i < b.A.rows, ∀ j < b.B.rows, b.val p.2 i j = op trans (a.val m) i j := by
  have hA := ha.colsA; have hB := ha.colsB; have hA' := hb.colsA; have hB' := hb.colsB
  have dAA : Disj a.A.Cell b.A.Cell := fun c x y => hd c (Or.inl x) (Or.inl y)
  have dAB : Disj a.A.Cell b.B.Cell := fun c x y => hd c (Or.inl x) (Or.inr y)
  have dBA : Disj a.B.Cell b.A.Cell := fun c x y => hd c (Or.inr x) (Or.inl y)
  have dBB : Disj a.B.Cell b.B.Cell := fun c x y => hd c (Or.inr x) (Or.inr y)
  have dba : Disj b.B.Cell b.A.Cell := fun c x y => hb.disj c y x
  cases trans
  · simp only [Bool.false_eq_true, if_false, rows, cols] at *
    refine Tot.bind (copy_tot ha.A hb.A dAA false (by simp [opRows, h1]) (by simp [opCols]; omega)) fun m1 _ c1 => ?_
    refine Tot.bind (copy_tot (frame_valid c1.2.2 dBA ha.B) (frame_valid c1.2.2 dba hb.B) dBB false
      (by simp [opRows, h2]) (by simp [opCols]; omega)) fun m2 _ c2 => ?_
    refine Tot.pure ⟨rfl, ⟨frame_valid c2.2.2 hb.disj c1.1, c2.1, hb.disj, hA', hB'⟩, ?_, ?_⟩
    · intro c hc
      show m2 c = m c
      rw [c2.2.2 c fun h => hc (Or.inr h), c1.2.2 c fun h => hc (Or.inl h)]
    · intro i hi j hj
      simp only [val, op, Bool.false_eq_true, if_false, hk]
      refine Finset.sum_congr rfl fun nu hnu => ?_
      rw [Finset.mem_range] at hnu
      rw [frame_val c2.2.2 hb.disj hi (by omega), c1.2.1 i hi nu (by omega), c2.2.1 j hj nu (by omega)]
      simp only [op, Bool.false_eq_true, if_false]
      rw [frame_val c1.2.2 dBA (by omega) (by omega)]
  · simp only [if_true, rows, cols] at *
    refine Tot.bind (copy_tot ha.A hb.B dAB false (by simp [opRows, h2]) (by simp [opCols]; omega)) fun m1 _ c1 => ?_
    refine Tot.bind (copy_tot (frame_valid c1.2.2 dBB ha.B) (frame_valid c1.2.2 hb.disj hb.A) dBA false
      (by simp [opRows, h1]) (by simp [opCols]; omega)) fun m2 _ c2 => ?_
    refine Tot.pure ⟨rfl, ⟨c2.1, frame_valid c2.2.2 dba c1.1, hb.disj, hA', hB'⟩, ?_, ?_⟩
    · intro c hc
      show m2 c = m c
      rw [c2.2.2 c fun h => hc (Or.inl h), c1.2.2 c fun h => hc (Or.inr h)]
    · intro i hi j hj
      simp only [val, op, if_true, hk, star_sum, star_mul', star_star]
      refine Finset.sum_congr rfl fun nu hnu => ?_
      rw [Finset.mem_range] at hnu
      rw [frame_val c2.2.2 dba hj (by omega), c1.2.1 j hj nu (by omega), c2.2.1 i hi nu (by omega)]
      simp only [op, Bool.false_eq_true, if_false]
      rw [frame_val c1.2.2 dBB (by omega) (by omega), mul_comm]

theorem copy_same {a b : Rk} {m : Mem K} (ha : a.Valid m) (hb : b.Valid m) (hd : Disj a.Cell b.Cell) (hk : b.k = a.k)
    (trans : Bool) (h1 : b.A.rows = a.rows trans) (h2 : b.B.rows = a.cols trans) (nbA nbB : Nat) (junk : Nat → K) :
    Tot (copy trans a b nbA nbB junk m) fun p => p.1 = b ∧ b.Valid p.2 ∧ Frame b.Cell m p.2 ∧
        ∀ i < b.A.rows, ∀ j < b.B.rows, b.val p.2 i j = op trans (a.val m) i j := by
  have key := copy2_tot ha hb hd hk trans h1 h2
  cases trans
  · simp only [rows, cols, Bool.false_eq_true, if_false] at h1 h2 key
    simp only [copy, Bool.false_eq_true, if_false]
    refine Tot.cassert (by simp [h1]) (Tot.cassert (by simp [h2]) ?_)
    rw [if_neg (by simpa using hk)]
    exact key
  · simp only [rows, cols, if_true] at h1 h2 key
    simp only [copy, if_true]
    refine Tot.cassert (by simp [h2]) (Tot.cassert (by simp [h1]) ?_)
    rw [if_neg (by simpa using hk)]
    exact key

theorem copy_resize {a b : Rk} {m : Mem K} (ha : a.Valid m) (hkA : b.A.cols = b.k) (hkB : b.B.cols = b.k)
    (hd : ∀ c, a.Cell c → ¬ Block b.A c ∧ ¬ Block b.B c) (hk : b.k ≠ a.k)
    (trans : Bool) (h1 : b.A.rows = a.rows trans) (h2 : b.B.rows = a.cols trans) (nbA nbB : Nat) (junk : Nat → K)
    (hfA : Fresh (m.free b.A.base (b.A.ld * b.A.cols)) nbA (b.A.rows * a.k))
    (hfB : Fresh (((m.free b.A.base (b.A.ld * b.A.cols)).alloc nbA (b.A.rows * a.k) junk).free b.B.base
      (b.B.ld * b.B.cols)) nbB (b.B.rows * a.k))
    (hBA : ∀ c, nbA ≤ c → c < nbA + b.A.rows * a.k → ¬ Block b.B c) :
    Tot (copy trans a b nbA nbB junk m) fun p => p.1.Valid p.2 ∧ p.1.A.rows = b.A.rows ∧ p.1.B.rows = b.B.rows ∧
        p.1.k = a.k ∧ (∀ c, ¬ Block b.A c → ¬ Block b.B c → ¬ p.1.Cell c → p.2 c = m c) ∧
        ∀ i < b.A.rows, ∀ j < b.B.rows, p.1.val p.2 i j = op trans (a.val m) i j := by
  have hS := setrank_tot (m := m) hkA hkB a.k nbA nbB junk hk (P := a.Cell) (fun c hc => ⟨?_, hd c hc⟩) hfA hfB hBA
  · have key : ∀ p : Rk × Mem K, (p.1.Valid p.2 ∧ p.1.A.rows = b.A.rows ∧ p.1.B.rows = b.B.rows ∧
        p.1.k = a.k ∧ (∀ c, a.Cell c → ¬ p.1.Cell c) ∧
        (∀ c, ¬ Block b.A c → ¬ Block b.B c → ¬ p.1.Cell c → p.2 c = m c)) →
        Tot (if trans then do
          let m ← Dense.copy false a.A p.1.B p.2
          let m ← Dense.copy false a.B p.1.A m
          pure (p.1, m)
        else do
          let m ← Dense.copy false a.A p.1.A p.2
          let m ← Dense.copy false a.B p.1.B m
          pure (p.1, m)) fun p => p.1.Valid p.2 ∧ p.1.A.rows = b.A.rows ∧ p.1.B.rows = b.B.rows ∧
        p.1.k = a.k ∧ (∀ c, ¬ Block b.A c → ¬ Block b.B c → ¬ p.1.Cell c → p.2 c = m c) ∧
        ∀ i < b.A.rows, ∀ j < b.B.rows, p.1.val p.2 i j = op trans (a.val m) i j := by
      rintro ⟨b', m'⟩ ⟨v, r1, r2, k', dis, fr⟩
      simp only at *
      have same : ∀ c, a.Cell c → m' c = m c := fun c hc => fr c (hd c hc).1 (hd c hc).2 (dis c hc)
      have fA : Frame (fun c => ¬ a.Cell c) m m' := fun c hc => same c (not_not.mp hc)
      have dA : Disj a.A.Cell (fun c => ¬ a.Cell c) := fun c hc hn => hn (Or.inl hc)
      have dB : Disj a.B.Cell (fun c => ¬ a.Cell c) := fun c hc hn => hn (Or.inr hc)
      have ha' : a.Valid m' := ⟨frame_valid fA dA ha.A, frame_valid fA dB ha.B, ha.disj, ha.colsA, ha.colsB⟩
      refine (copy2_tot ha' v dis k' trans (r1.trans h1) (r2.trans h2)).mono ?_
      rintro ⟨b'', m''⟩ ⟨e, w1, w2, w3⟩
      simp only at *
      subst e
      refine ⟨w1, r1, r2, k', fun c x y z => (w2 c z).trans (fr c x y z), fun i hi j hj => ?_⟩
      rw [w3 i (by omega) j (by omega)]
      have hval : ∀ i < a.A.rows, ∀ j < a.B.rows, a.val m' i j = a.val m i j := by
        intro i hi j hj
        unfold val
        refine Finset.sum_congr rfl fun nu hnu => ?_
        rw [Finset.mem_range] at hnu
        have := ha.colsA; have := ha.colsB
        rw [frame_val fA dA hi (by omega), frame_val fA dB hj (by omega)]
      cases trans
      · simp only [op, rows, cols, Bool.false_eq_true, if_false] at *
        exact hval i (by omega) j (by omega)
      · simp only [op, rows, cols, if_true] at *
        rw [hval j (by omega) i (by omega)]
    cases trans
    · simp only [rows, cols, Bool.false_eq_true, if_false] at h1 h2 key
      simp only [copy, Bool.false_eq_true, if_false]
      refine Tot.cassert (by simp [h1]) (Tot.cassert (by simp [h2]) ?_)
      rw [if_pos hk]
      exact Tot.bind hS fun p _ hp => key p hp
    · simp only [rows, cols, if_true] at h1 h2 key
      simp only [copy, if_true]
      refine Tot.cassert (by simp [h2]) (Tot.cassert (by simp [h1]) ?_)
      rw [if_pos hk]
      exact Tot.bind hS fun p _ hp => key p hp
  · rcases hc with ⟨i, hi, j, hj, rfl⟩ | ⟨i, hi, j, hj, rfl⟩
    · exact ha.A.2 i hi j hj
    · exact ha.B.2 i hi j hj

end Rk
end H2
