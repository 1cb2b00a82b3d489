import Verif.Spec.KrylovSolve
import Verif.Props.KrylovBicg

/-! # Proofs for the solvers -/

set_option linter.unusedSectionVars false

namespace H2.Krylov
open Spec Dense Props
variable {𝕜 : Type} [RCLike 𝕜]

theorem norm2Vec_tot {v : Vec} {m : Mem 𝕜} (hv : v.Valid m) : norm2Vec v m = .ok (nrm v.dim (v.val m)) := by
  have h : Tot (forUp 0 v.dim (fun i (s : ℝ) => do
    let x ← m.read (v.addr i)
    pure (s + RCLike.normSq x)) 0) fun s => s = ∑ i ∈ Finset.range v.dim, ‖v.val m i‖ ^ 2 := by
    refine forUp_tot (fun k (s : ℝ) => s = ∑ i ∈ Finset.range k, ‖v.val m i‖ ^ 2) (Nat.zero_le _) (by simp) ?_
    rintro i s - hi rfl
    obtain ⟨x, e, hx⟩ := Mem.read_some (hv i hi)
    rw [hx, ok_bind]
    refine Tot.pure ?_
    rw [Finset.sum_range_succ]
    have : v.val m i = x := by unfold Vec.val; rw [e]; rfl
    rw [this, RCLike.normSq_eq_def']
  obtain ⟨s, e, rfl⟩ := h
  unfold norm2Vec
  rw [e, ok_bind]
  rfl

theorem nrm_congr {n : Nat} {f g : Nat → 𝕜} (h : ∀ i < n, f i = g i) : nrm n f = nrm n g := by
  unfold nrm
  rw [Finset.sum_congr rfl fun i hi => by rw [h i (Finset.mem_range.mp hi)]]

theorem nrm_zero {n : Nat} {f : Nat → 𝕜} (h : ∀ i < n, f i = 0) : nrm n f = 0 := by
  unfold nrm
  rw [Finset.sum_eq_zero fun i hi => by rw [h i (Finset.mem_range.mp hi)]; simp, Real.sqrt_zero]

/-- the loop stops at the first step `j` that meets the criterion -/
theorem solveLoop_tot {step : Mem 𝕜 → R (Mem 𝕜)} {r : Vec} {tol : ℝ} (maxiter : Nat) {K : Nat} {M : Nat → Mem 𝕜} {e : Nat → ℝ} (hK : K < 2 ^ 32)
    (hs : ∀ k < K, step (M k) = .ok (M (k + 1))) (hr : ∀ k ≤ K, norm2Vec r (M k) = .ok (e k)) (he : e K ≤ tol) :
    ∀ (fuel k : Nat), k ≤ K → K ≤ k + fuel → (maxiter ≠ 0 → k < maxiter) → ∃ j, k ≤ j ∧ j ≤ K ∧ solveLoop step r tol maxiter fuel (e k, k, M k) = .ok (e j, j, M j) ∧ (e j ≤ tol ∨ j + 1 = maxiter) ∧
      (maxiter ≠ 0 → j < maxiter) ∧ ∀ i, k ≤ i → i < j → tol < e i := by
  intro fuel
  induction fuel with
  | zero =>
    intro k h1 h2 h3
    obtain rfl : k = K := by omega
    refine ⟨k, le_rfl, le_rfl, ?_, .inl he, h3, fun i h h' => by omega⟩
    unfold solveLoop whileF
    rw [if_neg]
    simp only [decide_eq_true_eq]
    exact fun h => absurd h.1 (not_lt.mpr he)
  | succ f ih =>
    intro k h1 h2 h3
    by_cases hc : e k > tol ∧ (k + 1) % 2 ^ 32 ≠ maxiter
    · have hk : k < K := by
        rcases Nat.lt_or_ge k K with h | h
        · exact h
        · obtain rfl : k = K := by omega
          exact absurd hc.1 (not_lt.mpr he)
      have hm : (k + 1) % 2 ^ 32 = k + 1 := Nat.mod_eq_of_lt (by omega)
      obtain ⟨j, h4, h5, h6, h7, h8, h9⟩ := ih (k + 1) hk (by omega) (fun h => by have := h3 h; have := hc.2; omega)
      refine ⟨j, by omega, h5, ?_, h7, h8, fun i h h' => ?_⟩
      · unfold solveLoop whileF
        rw [if_pos (by simp only [decide_eq_true_eq]; exact hc)]
        simp only
        rw [hs k hk, ok_bind, hr (k + 1) hk, ok_bind, hm]
        exact h6
      · by_cases hi : i = k
        · rw [hi]; exact hc.1
        · exact h9 i (by omega) h'
    · refine ⟨k, le_rfl, h1, ?_, ?_, h3, fun i h h' => by omega⟩
      · unfold solveLoop whileF
        rw [if_neg]
        simp only [decide_eq_true_eq]
        exact hc
      · by_cases h : e k > tol
        · right
          have : (k + 1) % 2 ^ 32 = maxiter := by
            by_contra h'
            exact hc ⟨h, h'⟩
          rcases Nat.lt_or_ge k K with hk | hk
          · rw [Nat.mod_eq_of_lt (by omega)] at this
            exact this
          · obtain rfl : k = K := by omega
            exact absurd h (not_lt.mpr he)
        · exact .inl (not_lt.mp h)

theorem energy_congr {n : Nat} {A : Nat → Nat → 𝕜} {b x y : Nat → 𝕜} (h : ∀ i < n, x i = y i) : energy n A b x = energy n A b y := by
  have k : ∀ f : Nat → 𝕜, ip n f x = ip n f y := fun f => Finset.sum_congr rfl fun i hi => by rw [h i (Finset.mem_range.mp hi)]
  unfold energy
  rw [show mv n A x = mv n A y from funext (mv_congr A h), k, k]

theorem inAffine_congr {n k : Nat} {x x' y y' : Nat → 𝕜} {w : Nat → Nat → 𝕜} (hx : ∀ i < n, x i = x' i) (hy : ∀ i < n, y i = y' i) (h : InAffine n k x w y) : InAffine n k x' w y' := by
  obtain ⟨c, h⟩ := h
  exact ⟨c, fun i hi => by rw [← hy i hi, ← hx i hi, h i hi]⟩

/-- From the run of the method to the solver. -/
theorem solved_of_run {n : Nat} {A : Nat → Nat → 𝕜} {N : (Fin n → 𝕜) → Fin n → 𝕜} {init step : Mem 𝕜 → R (Mem 𝕜)} {b x r p : Vec} {m1 : Mem 𝕜} {K : Nat} {M : Nat → Mem 𝕜}
    (hrun : CgRun n A N (iterate init step m1) (b.val m1) x r p m1 K M) (hn : n < 2 ^ 32) (hr : ∀ k ≤ K, r.Valid (M k)) (dr : r.dim = n)
    {eps : ℝ} (he : 0 ≤ eps) (maxiter fuel : Nat) (hf : n ≤ fuel) :
    init m1 = .ok (M 0) ∧ ∃ e0, norm2Vec r (M 0) = .ok e0 ∧ ∃ j ≤ K, ∃ error, solveLoop step r (eps * nrm n (b.val m1)) maxiter fuel (e0, 0, M 0) = .ok (error, j, M j) ∧
      ∀ m', Frame x.Cell m1 m' → (∀ i < n, x.val m' i = x.val (M j) i) → Solved n A N b x eps maxiter m1 j m' := by
  have h0 : init m1 = .ok (M 0) := hrun.ok 0 (Nat.zero_le _)
  have hs : ∀ k < K, step (M k) = .ok (M (k + 1)) := by
    intro k hk
    have := hrun.ok (k + 1) hk
    have e : iterate init step m1 (k + 1) = iterate init step m1 k >>= step := rfl
    rw [e, hrun.ok k (by omega), ok_bind] at this
    exact this
  have hres : ∀ k ≤ K, norm2Vec r (M k) = .ok (nrm n fun i => b.val m1 i - mv n A (x.val (M k)) i) := by
    intro k hk
    rw [norm2Vec_tot (hr k hk), dr, nrm_congr fun i hi => hrun.res k hk i hi]
  have hz : nrm n (fun i => b.val m1 i - mv n A (x.val (M K)) i) ≤ eps * nrm n (b.val m1) := by
    rw [nrm_zero fun i hi => by rw [hrun.solved i hi, sub_self]]
    exact mul_nonneg he (Real.sqrt_nonneg _)
  obtain ⟨j, -, h1, h2, h3, h4, h5⟩ := solveLoop_tot maxiter (lt_of_le_of_lt hrun.steps hn) hs hres hz fuel 0 (Nat.zero_le _) (by have := hrun.steps; omega) (fun h => by omega)
  refine ⟨h0, _, hres 0 (Nat.zero_le _), j, h1, _, h2, fun m' hfr hxj => ?_⟩
  have hopt : ∀ k ≤ K, CgIterate n A N (b.val m1) (x.val m1) k (x.val (M k)) := by
    intro k hk
    refine ⟨?_, fun z hz => ?_⟩
    · exact hrun.mem k hk
    · by_cases hne : ∃ i < n, z i ≠ x.val (M k) i
      · refine (hrun.min k hk z ?_ hne).le
        exact hz
      · push Not at hne
        rw [energy_congr hne]
  refine ⟨h1.trans hrun.steps, h4, ?_, ⟨inAffine_congr (fun _ _ => rfl) (fun i hi => (hxj i hi).symm) (hopt j h1).1, fun z hz => ?_⟩, fun k hk y hy => ?_, hfr⟩
  · rw [show mv n A (x.val m') = mv n A (x.val (M j)) from funext (mv_congr A hxj)]
    exact h3
  · rw [energy_congr hxj]
    exact (hopt j h1).2 z hz
  · have hyx : ∀ i < n, y i = x.val (M k) i := by
      by_contra hne
      push Not at hne
      have g := hrun.min k (by omega) y hy.1 hne
      have g' := hy.2 _ (hopt k (by omega)).1
      exact absurd g (not_lt.mpr g')
    have := h5 k (Nat.zero_le _) hk
    rw [show mv n A y = mv n A (x.val (M k)) from funext (mv_congr A hyx)]
    exact this

theorem ext_congr {n : Nat} (N : (Fin n → 𝕜) → Fin n → 𝕜) {f g : Nat → 𝕜} (h : ∀ i < n, f i = g i) : ∀ i < n, ext N f i = ext N g i := by
  intro i hi
  unfold ext
  rw [dif_pos hi, dif_pos hi, show vec n f = vec n g from funext fun i => h i i.2]

theorem kry_congr {n : Nat} {A : Nat → Nat → 𝕜} (N : (Fin n → 𝕜) → Fin n → 𝕜) {f g : Nat → 𝕜} (h : ∀ i < n, f i = g i) : ∀ l, ∀ i < n, kry n A N f l i = kry n A N g l i
  | 0 => ext_congr N h
  | l + 1 => ext_congr N fun i _ => mv_congr A (kry_congr N h l) i

theorem energy_rhs {n : Nat} {A : Nat → Nat → 𝕜} {b b' x : Nat → 𝕜} (h : ∀ i < n, b i = b' i) : energy n A b x = energy n A b' x := by
  unfold energy
  rw [show ip n b x = ip n b' x from Finset.sum_congr rfl fun i hi => by rw [h i (Finset.mem_range.mp hi)]]

theorem cgIterate_congr {n : Nat} {A : Nat → Nat → 𝕜} {N : (Fin n → 𝕜) → Fin n → 𝕜} {b b' x x' : Nat → 𝕜} (hb : ∀ i < n, b i = b' i) (hx : ∀ i < n, x i = x' i) {k : Nat} {y : Nat → 𝕜}
    (h : CgIterate n A N b x k y) : CgIterate n A N b' x' k y := by
  have hk := kry_congr (A := A) N (f := fun i => b i - mv n A x i) (g := fun i => b' i - mv n A x' i) fun i hi => by rw [hb i hi, mv_congr A hx]
  refine ⟨?_, fun z hz => ?_⟩
  · obtain ⟨c, h⟩ := h.1
    exact ⟨c, fun i hi => by rw [h i hi, hx i hi, Finset.sum_congr rfl fun l _ => by rw [hk l i hi]]⟩
  · rw [← energy_rhs hb, ← energy_rhs hb]
    refine h.2 z ?_
    obtain ⟨c, h⟩ := hz
    exact ⟨c, fun i hi => by rw [h i hi, hx i hi, Finset.sum_congr rfl fun l _ => by rw [← hk l i hi]]⟩

theorem solved_congr {n : Nat} {A : Nat → Nat → 𝕜} {N : (Fin n → 𝕜) → Fin n → 𝕜} {b x : Vec} {m m1 : Mem 𝕜} (hb : ∀ i < n, b.val m1 i = b.val m i) (hx : ∀ i < n, x.val m1 i = x.val m i)
    {eps : ℝ} {maxiter j : Nat} {m1' m' : Mem 𝕜} (hx' : ∀ i < n, x.val m' i = x.val m1' i) (hfr : Frame x.Cell m m') (h : Solved n A N b x eps maxiter m1 j m1') : Solved n A N b x eps maxiter m j m' := by
  have e1 : mv n A (x.val m') = mv n A (x.val m1') := funext (mv_congr A hx')
  have e2 : ∀ g : Nat → 𝕜, nrm n (fun i => b.val m1 i - g i) = nrm n fun i => b.val m i - g i := fun g => nrm_congr fun i hi => by rw [hb i hi]
  refine ⟨h.steps, h.limit, ?_, ?_, fun k hk y hy => ?_, hfr⟩
  · rw [e1, ← nrm_congr hb, ← e2]
    exact h.stop
  · have g := cgIterate_congr hb hx h.optimal
    refine ⟨inAffine_congr (fun _ _ => rfl) (fun i hi => (hx' i hi).symm) g.1, fun z hz => ?_⟩
    rw [energy_congr hx']
    exact g.2 z hz
  · rw [← nrm_congr hb, ← e2]
    exact h.needed k hk y (cgIterate_congr (fun i hi => (hb i hi).symm) (fun i hi => (hx i hi).symm) hy)

theorem alloc_out {m : Mem 𝕜} {nb n c : Nat} {junk : Nat → 𝕜} (h : ¬ (Vec.mk nb n).Cell c) : m.alloc nb n junk c = m c := by
  unfold Mem.alloc
  rw [if_neg]
  rintro ⟨h1, h2⟩
  exact h ⟨c - nb, by show _ < n; omega, by show _ = nb + _; omega⟩
theorem alloc_in {m : Mem 𝕜} {nb n : Nat} {junk : Nat → 𝕜} : (Vec.mk nb n).Valid (m.alloc nb n junk) := by
  intro i hi
  replace hi : i < n := hi
  unfold Mem.alloc
  rw [if_pos ⟨by show nb ≤ nb + i; omega, by show nb + i < _; omega⟩]
  rfl
theorem free_out {m : Mem 𝕜} {nb n c : Nat} (h : ¬ (Vec.mk nb n).Cell c) : m.free nb n c = m c := by
  unfold Mem.free
  rw [if_neg]
  rintro ⟨h1, h2⟩
  exact h ⟨c - nb, by show _ < n; omega, by show _ = nb + _; omega⟩
theorem free_in {m : Mem 𝕜} {nb n c : Nat} (h : (Vec.mk nb n).Cell c) : m.free nb n c = none := by
  obtain ⟨i, hi, rfl⟩ := h
  replace hi : i < n := hi
  unfold Mem.free
  rw [if_pos ⟨by show nb ≤ nb + i; omega, by show nb + i < _; omega⟩]

theorem valid_keep {v : Vec} {m m' : Mem 𝕜} (h : ∀ c, v.Cell c → m' c = m c) (hv : v.Valid m) : v.Valid m' := fun i hi => by
  rw [h _ ⟨i, hi, rfl⟩]; exact hv i hi
theorem val_keep {v : Vec} {m m' : Mem 𝕜} (h : ∀ c, v.Cell c → m' c = m c) {i : Nat} (hi : i < v.dim) : v.val m' i = v.val m i := by
  unfold Vec.val; rw [h _ ⟨i, hi, rfl⟩]

theorem cell_eq {v : Vec} {m m' : Mem 𝕜} {i : Nat} (h1 : (m' (v.addr i)).isSome) (h2 : (m (v.addr i)).isSome) (e : v.val m' i = v.val m i) : m' (v.addr i) = m (v.addr i) := by
  obtain ⟨a, ha⟩ := Option.isSome_iff_exists.mp h1
  obtain ⟨b, hb⟩ := Option.isSome_iff_exists.mp h2
  unfold Vec.val at e
  rw [ha, hb] at e ⊢
  exact congrArg some e

/-- cells of a valid vector are not cells of a new one -/
theorem valid_fresh {v w : Vec} {m : Mem 𝕜} (hv : v.Valid m) (hw : ∀ c, w.Cell c → m c = none) : Disj v.Cell w.Cell := by
  rintro c ⟨i, hi, rfl⟩ h
  have := hv i hi
  rw [hw _ h] at this
  exact absurd this (by simp)

end H2.Krylov
