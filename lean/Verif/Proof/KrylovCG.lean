import Mathlib.Analysis.InnerProductSpace.Basic
import Mathlib.LinearAlgebra.Dimension.Finite
import Mathlib.LinearAlgebra.Dimension.Constructions
import Mathlib.LinearAlgebra.FiniteDimensional.Basic
import Mathlib.Tactic.Ring
import Mathlib.Tactic.Linarith
import Mathlib.Tactic.FieldSimp
import Mathlib.Tactic.LinearCombination

/-! # The preconditioned conjugate gradient method in an inner product space -/

set_option linter.unusedSectionVars false

namespace H2.Krylov
variable {𝕜 V : Type} [RCLike 𝕜] [NormedAddCommGroup V] [InnerProductSpace 𝕜 V]

local notation "⟪" x ", " y "⟫" => inner 𝕜 x y

/-- self-adjoint and positive definite -/
structure IsSPD (A : V →ₗ[𝕜] V) : Prop where
  sym : ∀ u w, ⟪A u, w⟫ = ⟪u, A w⟫
  pos : ∀ u, u ≠ 0 → 0 < RCLike.re ⟪u, A u⟫

/-- the sequences of the preconditioned conjugate gradient method -/
structure IsPCG (A N : V →ₗ[𝕜] V) (x r p : Nat → V) : Prop where
  p0 : p 0 = N (r 0)
  hx : ∀ k, x (k + 1) = x k + (⟪p k, r k⟫ / ⟪p k, A (p k)⟫) • p k
  hr : ∀ k, r (k + 1) = r k - (⟪p k, r k⟫ / ⟪p k, A (p k)⟫) • A (p k)
  hp : ∀ k, p (k + 1) = N (r (k + 1)) - (⟪A (p k), N (r (k + 1))⟫ / ⟪p k, A (p k)⟫) • p k

variable {A N : V →ₗ[𝕜] V} {x r p : Nat → V}

theorem IsSPD.ne_zero (h : IsSPD A) {u : V} (hu : u ≠ 0) : ⟪u, A u⟫ ≠ 0 := fun e => by
  have := h.pos u hu
  rw [e, map_zero] at this
  exact lt_irrefl _ this

theorem IsSPD.inner_zero (h : IsSPD A) {u : V} (hu : ⟪u, A u⟫ = 0) : u = 0 := by
  by_contra hn
  exact h.ne_zero hn hu

/-- the orthogonality relations up to step `K` -/
structure Orth (A N : V →ₗ[𝕜] V) (r p : Nat → V) (K : Nat) : Prop where
  conj : ∀ i j, i < j → j ≤ K → ⟪p i, A (p j)⟫ = 0
  pr : ∀ i j, i < j → j ≤ K → ⟪p i, r j⟫ = 0
  qr : ∀ i j, i < j → j ≤ K → ⟪N (r i), r j⟫ = 0
  same : ∀ j ≤ K, ⟪p j, r j⟫ = ⟪N (r j), r j⟫

theorem IsPCG.pr_ne {K : Nat} (hN : IsSPD N) (o : Orth A N r p K) {j : Nat} (hj : j ≤ K) (hr : r j ≠ 0) : ⟪p j, r j⟫ ≠ 0 := by
  rw [o.same j hj, hN.sym]
  exact hN.ne_zero hr

theorem IsPCG.gamma_ne {K : Nat} (hA : IsSPD A) (hN : IsSPD N) (o : Orth A N r p K) {j : Nat} (hj : j ≤ K) (hr : r j ≠ 0) :
    ⟪p j, A (p j)⟫ ≠ 0 := by
  refine hA.ne_zero fun e => IsPCG.pr_ne hN o hj hr ?_
  rw [e, inner_zero_left]

theorem IsPCG.orth (h : IsPCG A N x r p) (hA : IsSPD A) (hN : IsSPD N) (K : Nat) (hne : ∀ j < K, r j ≠ 0) : Orth A N r p K := by
  induction K with
  | zero => exact ⟨fun i j _ _ => by omega, fun i j _ _ => by omega, fun i j _ _ => by omega,
      fun j hj => by obtain rfl : j = 0 := by omega
                     rw [h.p0]⟩
  | succ K ih =>
    have o := ih fun j hj => hne j (by omega)
    have hg := IsPCG.gamma_ne hA hN o le_rfl (hne K (by omega))
    -- p ⟂ r
    have e1 : ∀ i ≤ K, ⟪p i, r (K + 1)⟫ = 0 := fun i hi => by
      rw [h.hr K, inner_sub_right, inner_smul_right]
      rcases Nat.lt_or_ge i K with hi' | hi'
      · rw [o.pr i K hi' le_rfl, o.conj i K hi' le_rfl]; simp
      · obtain rfl : i = K := by omega
        rw [div_mul_cancel₀ _ hg, sub_self]
    have e2 : ∀ i ≤ K, ⟪N (r i), r (K + 1)⟫ = 0 := fun i hi => by
      cases i with
      | zero => rw [← h.p0]; exact e1 0 hi
      | succ i =>
        have : N (r (i + 1)) = p (i + 1) + (⟪A (p i), N (r (i + 1))⟫ / ⟪p i, A (p i)⟫) • p i := by rw [h.hp i]; abel
        rw [this, inner_add_left, inner_smul_left, e1 _ hi, e1 i (by omega)]; simp
    have e3 : ∀ i ≤ K, ⟪p i, A (p (K + 1))⟫ = 0 := fun i hi => by
      rw [h.hp K, map_sub, map_smul, inner_sub_right, inner_smul_right, ← hA.sym]
      rcases Nat.lt_or_ge i K with hi' | hi'
      · rw [o.conj i K hi' le_rfl, mul_zero, sub_zero]
        have hl : ⟪p i, r i⟫ / ⟪p i, A (p i)⟫ ≠ 0 :=
          div_ne_zero (IsPCG.pr_ne hN o hi (hne i (by omega))) (IsPCG.gamma_ne hA hN o hi (hne i (by omega)))
        have ea : (⟪p i, r i⟫ / ⟪p i, A (p i)⟫) • A (p i) = r i - r (i + 1) := by rw [h.hr i]; abel
        have hz : ⟪r i - r (i + 1), N (r (K + 1))⟫ = 0 := by
          rw [← hN.sym, map_sub, inner_sub_left, e2 i (by omega), e2 (i + 1) (by omega), sub_self]
        rw [← ea, inner_smul_left] at hz
        exact (mul_eq_zero.mp hz).resolve_left ((map_ne_zero _).mpr hl)
      · obtain rfl : i = K := by omega
        rw [div_mul_cancel₀ _ hg, sub_self]
    refine ⟨fun i j hij hj => ?_, fun i j hij hj => ?_, fun i j hij hj => ?_, fun j hj => ?_⟩
    · rcases Nat.lt_or_ge j (K + 1) with hj' | hj'
      · exact o.conj i j hij (by omega)
      · obtain rfl : j = K + 1 := by omega
        exact e3 i (by omega)
    · rcases Nat.lt_or_ge j (K + 1) with hj' | hj'
      · exact o.pr i j hij (by omega)
      · obtain rfl : j = K + 1 := by omega
        exact e1 i (by omega)
    · rcases Nat.lt_or_ge j (K + 1) with hj' | hj'
      · exact o.qr i j hij (by omega)
      · obtain rfl : j = K + 1 := by omega
        exact e2 i (by omega)
    · rcases Nat.lt_or_ge j (K + 1) with hj' | hj'
      · exact o.same j (by omega)
      · obtain rfl : j = K + 1 := by omega
        rw [h.hp K, inner_sub_left, inner_smul_left, e1 K le_rfl, mul_zero, sub_zero]

/-- a zero residual occurs after at most `finrank` steps -/
theorem IsPCG.terminates [FiniteDimensional 𝕜 V] (h : IsPCG A N x r p) (hA : IsSPD A) (hN : IsSPD N) :
    ∃ k ≤ Module.finrank 𝕜 V, r k = 0 := by
  by_contra hc
  push Not at hc
  set n := Module.finrank 𝕜 V
  have o := h.orth hA hN n fun j hj => hc j (by omega)
  have hp : ∀ i : Fin (n + 1), ⟪p i, A (p i)⟫ ≠ 0 := fun i =>
    IsPCG.gamma_ne hA hN o (by omega) (hc i (by omega))
  have li : LinearIndependent 𝕜 fun i : Fin (n + 1) => p i := by
    rw [Fintype.linearIndependent_iff]
    intro g hg i
    have e := congrArg (fun w => ⟪A (p i), w⟫) hg
    simp only [inner_sum, inner_smul_right, inner_zero_right] at e
    rw [Finset.sum_eq_single i] at e
    · rw [hA.sym] at e
      exact (mul_eq_zero.mp e).resolve_right (hp i)
    · intro j _ hj
      rw [hA.sym]
      rcases Nat.lt_or_ge i.1 j.1 with hij | hij
      · rw [o.conj i j hij (by omega), mul_zero]
      · have : j.1 < i.1 := lt_of_le_of_ne hij fun e => hj (Fin.ext e)
        rw [← hA.sym, ← inner_conj_symm, o.conj j i this (by omega)]; simp
    · intro hi; exact absurd (Finset.mem_univ i) hi
  have := li.fintype_card_le_finrank
  rw [Fintype.card_fin] at this
  omega

/-- the quadratic functional whose gradient is the negative residual -/
noncomputable def functional (A : V →ₗ[𝕜] V) (b x : V) : ℝ := RCLike.re ⟪A x, x⟫ / 2 - RCLike.re ⟪b, x⟫

theorem functional_add (hA : IsSPD A) (b x d : V) :
    functional A b (x + d) = functional A b x - RCLike.re ⟪b - A x, d⟫ + RCLike.re ⟪d, A d⟫ / 2 := by
  unfold functional
  have e : RCLike.re ⟪A d, x⟫ = RCLike.re ⟪A x, d⟫ := by
    rw [hA.sym d x, ← inner_conj_symm d (A x), RCLike.conj_re]
  rw [map_add, inner_add_left, inner_add_right, inner_add_right, inner_add_right, inner_sub_left]
  simp only [map_add, map_sub]
  rw [hA.sym d d, e]
  ring

theorem IsPCG.residual (h : IsPCG A N x r p) {b : V} (h0 : r 0 = b - A (x 0)) (k : Nat) : r k = b - A (x k) := by
  induction k with
  | zero => exact h0
  | succ k ih => rw [h.hr, h.hx, ih, map_add, map_smul]; abel

/-- the span of the first `k` directions -/
def dirs (𝕜 : Type) {V : Type} [RCLike 𝕜] [NormedAddCommGroup V] [InnerProductSpace 𝕜 V] (p : Nat → V) (k : Nat) : Submodule 𝕜 V :=
  Submodule.span 𝕜 {w | ∃ i < k, w = p i}

theorem mem_dirs {i k : Nat} (h : i < k) : p i ∈ dirs 𝕜 p k := Submodule.subset_span ⟨i, h, rfl⟩

theorem dirs_mono {k l : Nat} (h : k ≤ l) : dirs 𝕜 p k ≤ dirs 𝕜 p l :=
  Submodule.span_mono fun w ⟨i, hi, e⟩ => ⟨i, by omega, e⟩

theorem IsPCG.x_mem (h : IsPCG A N x r p) (k : Nat) : x k - x 0 ∈ dirs 𝕜 p k := by
  induction k with
  | zero => rw [sub_self]; exact Submodule.zero_mem _
  | succ k ih =>
    rw [h.hx, add_sub_right_comm]
    exact Submodule.add_mem _ (dirs_mono (by omega) ih) (Submodule.smul_mem _ _ (mem_dirs (by omega)))

theorem Orth.dirs_perp {K : Nat} (o : Orth A N r p K) {k : Nat} (hk : k ≤ K) {d : V} (hd : d ∈ dirs 𝕜 p k) : ⟪r k, d⟫ = 0 := by
  induction hd using Submodule.span_induction with
  | mem w hw => obtain ⟨i, hi, rfl⟩ := hw
                rw [← inner_conj_symm, o.pr i k hi hk]; simp
  | zero => exact inner_zero_right _
  | add u w _ _ hu hw => rw [inner_add_right, hu, hw, add_zero]
  | smul c u _ hu => rw [inner_smul_right, hu, mul_zero]

/-- the iterates minimise the functional on `x 0 + span {p 0, …, p (k - 1)}` -/
theorem IsPCG.minimal (h : IsPCG A N x r p) (hA : IsSPD A) (hN : IsSPD N) {b : V} (h0 : r 0 = b - A (x 0)) {k : Nat}
    (hne : ∀ j < k, r j ≠ 0) {d : V} (hd : d ∈ dirs 𝕜 p k) (hx : x 0 + d ≠ x k) :
    functional A b (x k) < functional A b (x 0 + d) := by
  have o := h.orth hA hN k hne
  have e : x 0 + d = x k + (d - (x k - x 0)) := by abel
  have hm : d - (x k - x 0) ∈ dirs 𝕜 p k := Submodule.sub_mem _ hd (h.x_mem k)
  have hz : d - (x k - x 0) ≠ 0 := fun hz => hx (by rw [e, hz, add_zero])
  rw [e, functional_add hA, ← h.residual h0 k, o.dirs_perp le_rfl hm, map_zero, sub_zero]
  have := hA.pos _ hz
  linarith

/-- the Krylov space is contained in the span of the directions -/
theorem IsPCG.krylov (h : IsPCG A N x r p) (hA : IsSPD A) (hN : IsSPD N) {k : Nat} (hne : ∀ j < k, r j ≠ 0) (i : Nat) (hi : i < k) :
    ((N ∘ₗ A) ^ i) (N (r 0)) ∈ dirs 𝕜 p (i + 1) := by
  have o := h.orth hA hN k hne
  induction i with
  | zero => rw [pow_zero, Module.End.one_apply, ← h.p0]; exact mem_dirs (by omega)
  | succ i ih =>
    rw [pow_succ', Module.End.mul_apply]
    have step : ∀ w ∈ dirs 𝕜 p (i + 1), (N ∘ₗ A) w ∈ dirs 𝕜 p (i + 2) := fun w hw => by
      induction hw using Submodule.span_induction with
      | mem w hw =>
        obtain ⟨l, hl, rfl⟩ := hw
        have hl' : ⟪p l, r l⟫ / ⟪p l, A (p l)⟫ ≠ 0 :=
          div_ne_zero (IsPCG.pr_ne hN o (by omega) (hne l (by omega))) (IsPCG.gamma_ne hA hN o (by omega) (hne l (by omega)))
        have hq : ∀ t ≤ l + 1, N (r t) ∈ dirs 𝕜 p (i + 2) := fun t ht => by
          cases t with
          | zero => rw [← h.p0]; exact mem_dirs (by omega)
          | succ t =>
            have : N (r (t + 1)) = p (t + 1) + (⟪A (p t), N (r (t + 1))⟫ / ⟪p t, A (p t)⟫) • p t := by rw [h.hp t]; abel
            rw [this]
            exact Submodule.add_mem _ (mem_dirs (by omega)) (Submodule.smul_mem _ _ (mem_dirs (by omega)))
        have e : (⟪p l, r l⟫ / ⟪p l, A (p l)⟫) • (N ∘ₗ A) (p l) = N (r l) - N (r (l + 1)) := by
          rw [h.hr l, map_sub, map_smul, LinearMap.comp_apply]; abel
        refine (Submodule.smul_mem_iff _ hl').mp ?_
        rw [e]
        exact Submodule.sub_mem _ (hq _ (by omega)) (hq _ (by omega))
      | zero => rw [map_zero]; exact Submodule.zero_mem _
      | add u w _ _ hu hw => rw [map_add]; exact Submodule.add_mem _ hu hw
      | smul c u _ hu => rw [map_smul]; exact Submodule.smul_mem _ _ hu
    exact step _ (ih (by omega))

/-- the directions are in the Krylov space -/
theorem IsPCG.p_mem (h : IsPCG A N x r p) (k : Nat) :
    N (r k) ∈ dirs 𝕜 (fun i => ((N ∘ₗ A) ^ i) (N (r 0))) (k + 1) ∧ p k ∈ dirs 𝕜 (fun i => ((N ∘ₗ A) ^ i) (N (r 0))) (k + 1) := by
  induction k with
  | zero =>
    have : N (r 0) ∈ dirs 𝕜 (fun i => ((N ∘ₗ A) ^ i) (N (r 0))) (0 + 1) := Submodule.subset_span ⟨0, by omega, by simp⟩
    exact ⟨this, by rw [h.p0]; exact this⟩
  | succ k ih =>
    have step : ∀ w ∈ dirs 𝕜 (fun i => ((N ∘ₗ A) ^ i) (N (r 0))) (k + 1),
        (N ∘ₗ A) w ∈ dirs 𝕜 (fun i => ((N ∘ₗ A) ^ i) (N (r 0))) (k + 1 + 1) := fun w hw => by
      induction hw using Submodule.span_induction with
      | mem w hw =>
        obtain ⟨l, hl, rfl⟩ := hw
        exact Submodule.subset_span ⟨l + 1, by omega, by beta_reduce; rw [pow_succ', Module.End.mul_apply]⟩
      | zero => rw [map_zero]; exact Submodule.zero_mem _
      | add u w _ _ hu hw => rw [map_add]; exact Submodule.add_mem _ hu hw
      | smul c u _ hu => rw [map_smul]; exact Submodule.smul_mem _ _ hu
    have e : N (r (k + 1)) ∈ dirs 𝕜 (fun i => ((N ∘ₗ A) ^ i) (N (r 0))) (k + 1 + 1) := by
      rw [h.hr k, map_sub, map_smul]
      exact Submodule.sub_mem _ (dirs_mono (by omega) ih.1) (Submodule.smul_mem _ _ (step _ ih.2))
    refine ⟨e, ?_⟩
    rw [h.hp k]
    exact Submodule.sub_mem _ e (Submodule.smul_mem _ _ (dirs_mono (by omega) ih.2))

theorem IsPCG.dirs_eq (h : IsPCG A N x r p) (hA : IsSPD A) (hN : IsSPD N) {k : Nat} (hne : ∀ j < k, r j ≠ 0) :
    dirs 𝕜 (fun i => ((N ∘ₗ A) ^ i) (N (r 0))) k = dirs 𝕜 p k := by
  refine le_antisymm (Submodule.span_le.mpr ?_) (Submodule.span_le.mpr ?_)
  · rintro w ⟨i, hi, rfl⟩
    exact dirs_mono (by omega) (h.krylov hA hN hne i hi)
  · rintro w ⟨i, hi, rfl⟩
    exact dirs_mono (by omega) (h.p_mem i).2

theorem dirs_iff {w : Nat → V} {k : Nat} {d : V} : d ∈ dirs 𝕜 w k ↔ ∃ c : Nat → 𝕜, d = ∑ l ∈ Finset.range k, c l • w l := by
  refine ⟨fun h => ?_, ?_⟩
  · induction h using Submodule.span_induction with
    | mem u hu =>
      obtain ⟨i, hi, rfl⟩ := hu
      refine ⟨fun l => if l = i then 1 else 0, ?_⟩
      rw [Finset.sum_eq_single i (fun j _ hj => by simp [hj]) (fun hi' => absurd (Finset.mem_range.mpr hi) hi')]
      simp
    | zero => exact ⟨fun _ => 0, by simp⟩
    | add u w _ _ hu hw =>
      obtain ⟨c, rfl⟩ := hu
      obtain ⟨c', rfl⟩ := hw
      exact ⟨fun l => c l + c' l, by simp [add_smul, Finset.sum_add_distrib]⟩
    | smul a u _ hu =>
      obtain ⟨c, rfl⟩ := hu
      exact ⟨fun l => a * c l, by simp [mul_smul, Finset.smul_sum]⟩
  · rintro ⟨c, rfl⟩
    exact Submodule.sum_mem _ fun l hl => Submodule.smul_mem _ _ (mem_dirs (Finset.mem_range.mp hl))

/-- once the residual vanishes, so does the direction -/
theorem IsPCG.p_zero (h : IsPCG A N x r p) {k : Nat} (hr : r k = 0) : p k = 0 := by
  cases k with
  | zero => rw [h.p0, hr, map_zero]
  | succ k => rw [h.hp, hr, map_zero, inner_zero_right]; simp

end H2.Krylov
