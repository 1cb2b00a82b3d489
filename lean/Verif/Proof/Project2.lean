import Verif.Proof.Project

/-! Best approximation by projection. -/

set_option linter.unusedSectionVars false

namespace H2
open Spec
variable {G 𝕜 : Type} [RCLike 𝕜]

theorem opDims_of : ∀ {cb cb' : CBV G 𝕜} {x : COp G 𝕜}, Reduced cb cb' → Changes cb cb' x → OpDims cb cb' x := by
  intro cb
  induction cb with
  | mk t k kt kb V E n son ih =>
    intro cb' x hr hc
    cases cb'; cases x
    obtain ⟨r1, -, -, e0, r2⟩ := hr
    obtain ⟨c1, c2, c3, c4, -, e, e', c5⟩ := hc
    exact ⟨r1, c1, c2, c3, c4, e, e', fun i => ih _ (r2 i) (c5 i)⟩

theorem orthonormal_top {cb : CBV G 𝕜} (h : Orthonormal cb) : ∀ a < cb.k, ∀ b < cb.k, cross cb cb a b = if a = b then 1 else 0 := by
  cases cb; exact h.1

theorem products_top {cb cb' : CBV G 𝕜} {x : COp G 𝕜} (h : Products cb cb' x) : ∀ a < cb.k, ∀ b < cb'.k, x.C.e a b = cross cb cb' a b := by
  cases x; exact h.2.2.2.2.1

/-- Pythagoras -/
theorem pyth {ι : Type} (s : Finset ι) (d e : ι → 𝕜) (h : ∑ i ∈ s, d i * star (e i) = 0) : ∑ i ∈ s, ‖d i + e i‖ ^ 2 = ∑ i ∈ s, ‖d i‖ ^ 2 + ∑ i ∈ s, ‖e i‖ ^ 2 := by
  have h1 : ∀ i, ‖d i + e i‖ ^ 2 = ‖d i‖ ^ 2 + ‖e i‖ ^ 2 + 2 * RCLike.re (d i * star (e i)) := by
    intro i
    have := RCLike.normSq_add (d i) (e i)
    simpa [RCLike.normSq_eq_def'] using this
  rw [Finset.sum_congr rfl fun i _ => h1 i, Finset.sum_add_distrib, Finset.sum_add_distrib, ← Finset.mul_sum, ← map_sum, h]
  simp

theorem prod4 (s t u v : Finset Nat) (f : Nat → Nat → Nat → Nat → 𝕜) :
    ∑ i ∈ s, ∑ j ∈ t, ∑ a ∈ u, ∑ b ∈ v, f i j a b = ∑ a ∈ u, ∑ b ∈ v, ∑ i ∈ s, ∑ j ∈ t, f i j a b := by
  rw [Finset.sum_congr rfl fun i _ => Finset.sum_comm]
  rw [Finset.sum_comm]
  refine Finset.sum_congr rfl fun a _ => ?_
  rw [Finset.sum_congr rfl fun i _ => Finset.sum_comm]
  rw [Finset.sum_comm]

/-- the factorized matrix `V X W^*` -/
def vxw (k l : Nat) (V W X : Nat → Nat → 𝕜) (i j : Nat) : 𝕜 := ∑ a ∈ Finset.range k, ∑ b ∈ Finset.range l, V i a * X a b * star (W j b)

theorem vxw_sub (k l : Nat) (V W X Y : Nat → Nat → 𝕜) (i j : Nat) : vxw k l V W X i j - vxw k l V W Y i j = vxw k l V W (fun a b => X a b - Y a b) i j := by
  unfold vxw
  rw [← Finset.sum_sub_distrib]
  refine Finset.sum_congr rfl fun a _ => ?_
  rw [← Finset.sum_sub_distrib]
  exact Finset.sum_congr rfl fun b _ => by ring

theorem vxw_gram {n m k l : Nat} {V W X : Nat → Nat → 𝕜} (hV : ∀ a < k, ∀ b < k, ∑ i ∈ Finset.range n, star (V i a) * V i b = if a = b then 1 else 0)
    (hW : ∀ a < l, ∀ b < l, ∑ i ∈ Finset.range m, star (W i a) * W i b = if a = b then 1 else 0) {a b : Nat} (ha : a < k) (hb : b < l) :
    ∑ i ∈ Finset.range n, ∑ j ∈ Finset.range m, star (V i a) * vxw k l V W X i j * W j b = X a b := by
  unfold vxw
  have h1 : ∀ i j, star (V i a) * (∑ a ∈ Finset.range k, ∑ b ∈ Finset.range l, V i a * X a b * star (W j b)) * W j b =
      ∑ c ∈ Finset.range k, ∑ d ∈ Finset.range l, X c d * ((star (V i a) * V i c) * (star (W j d) * W j b)) := by
    intro i j
    rw [Finset.mul_sum, Finset.sum_mul]
    refine Finset.sum_congr rfl fun c _ => ?_
    rw [Finset.mul_sum, Finset.sum_mul]
    exact Finset.sum_congr rfl fun d _ => by ring
  simp only [h1]
  rw [prod4]
  have h2 : ∀ c ∈ Finset.range k, ∀ d ∈ Finset.range l, (∑ i ∈ Finset.range n, ∑ j ∈ Finset.range m, X c d * ((star (V i a) * V i c) * (star (W j d) * W j b))) =
      X c d * ((if a = c then 1 else 0) * (if d = b then 1 else 0)) := by
    intro c hc d hd
    rw [← hV a ha c (Finset.mem_range.mp hc), ← hW d (Finset.mem_range.mp hd) b hb, Finset.sum_mul_sum, Finset.mul_sum]
    exact Finset.sum_congr rfl fun i _ => by rw [Finset.mul_sum]
  rw [Finset.sum_congr rfl fun c hc => Finset.sum_congr rfl fun d hd => h2 c hc d hd]
  rw [Finset.sum_eq_single a, Finset.sum_eq_single b]
  · simp
  · intro d _ hd; simp [hd]
  · exact fun h => absurd (Finset.mem_range.mpr hb) h
  · intro c _ hc
    exact Finset.sum_eq_zero fun d _ => by simp [Ne.symm hc]
  · exact fun h => absurd (Finset.mem_range.mpr ha) h

/-- Pythagoras for projections -/
theorem frob_split {n m k l : Nat} {V W B S X : Nat → Nat → 𝕜} (hV : ∀ a < k, ∀ b < k, ∑ i ∈ Finset.range n, star (V i a) * V i b = if a = b then 1 else 0)
    (hW : ∀ a < l, ∀ b < l, ∑ i ∈ Finset.range m, star (W i a) * W i b = if a = b then 1 else 0)
    (hS : ∀ a < k, ∀ b < l, S a b = ∑ i ∈ Finset.range n, ∑ j ∈ Finset.range m, star (V i a) * B i j * W j b) :
    ∑ i ∈ Finset.range n, ∑ j ∈ Finset.range m, ‖B i j - vxw k l V W X i j‖ ^ 2 =
      ∑ i ∈ Finset.range n, ∑ j ∈ Finset.range m, ‖B i j - vxw k l V W S i j‖ ^ 2 +
      ∑ i ∈ Finset.range n, ∑ j ∈ Finset.range m, ‖vxw k l V W S i j - vxw k l V W X i j‖ ^ 2 := by
  simp only [← Finset.sum_product']
  rw [← pyth]
  · exact Finset.sum_congr rfl fun p _ => by rw [sub_add_sub_cancel]
  · simp only [vxw_sub]
    rw [Finset.sum_product' (f := fun i j => (B i j - vxw k l V W S i j) * star (vxw k l V W (fun a b => S a b - X a b) i j))]
    generalize hD : (fun a b => S a b - X a b) = D
    have h1 : ∀ i j, (B i j - vxw k l V W S i j) * star (vxw k l V W D i j) =
        ∑ a ∈ Finset.range k, ∑ b ∈ Finset.range l, star (D a b) * (star (V i a) * B i j * W j b - star (V i a) * vxw k l V W S i j * W j b) := by
      intro i j
      conv_lhs => rhs; unfold vxw
      rw [star_sum, Finset.mul_sum]
      refine Finset.sum_congr rfl fun a _ => ?_
      rw [star_sum, Finset.mul_sum]
      refine Finset.sum_congr rfl fun b _ => ?_
      simp only [star_mul', star_star]
      ring
    simp only [h1]
    rw [prod4]
    refine Finset.sum_eq_zero fun a ha => Finset.sum_eq_zero fun b hb => ?_
    simp only [← Finset.mul_sum, Finset.sum_sub_distrib]
    rw [vxw_gram hV hW (Finset.mem_range.mp ha) (Finset.mem_range.mp hb), ← hS a (Finset.mem_range.mp ha) b (Finset.mem_range.mp hb), sub_self, mul_zero]

theorem best_frob {n m k l : Nat} {V W B S X : Nat → Nat → 𝕜} (hV : ∀ a < k, ∀ b < k, ∑ i ∈ Finset.range n, star (V i a) * V i b = if a = b then 1 else 0)
    (hW : ∀ a < l, ∀ b < l, ∑ i ∈ Finset.range m, star (W i a) * W i b = if a = b then 1 else 0)
    (hS : ∀ a < k, ∀ b < l, S a b = ∑ i ∈ Finset.range n, ∑ j ∈ Finset.range m, star (V i a) * B i j * W j b) :
    ∑ i ∈ Finset.range n, ∑ j ∈ Finset.range m, ‖B i j - ∑ a ∈ Finset.range k, ∑ b ∈ Finset.range l, V i a * S a b * star (W j b)‖ ^ 2 ≤
      ∑ i ∈ Finset.range n, ∑ j ∈ Finset.range m, ‖B i j - ∑ a ∈ Finset.range k, ∑ b ∈ Finset.range l, V i a * X a b * star (W j b)‖ ^ 2 := by
  have h := frob_split (X := X) hV hW hS
  refine le_of_le_of_eq (le_add_of_nonneg_right ?_) h.symm
  exact Finset.sum_nonneg fun i _ => Finset.sum_nonneg fun j _ => by positivity

/-- `(V'^* V) S (W'^* W)^* = V'^* (V S W^*) W'` -/
theorem project_entry (n m k l : Nat) (V W : Nat → Nat → 𝕜) (S : Nat → Nat → 𝕜) (v w : Nat → 𝕜) :
    ∑ i ∈ Finset.range k, ∑ j ∈ Finset.range l, (∑ r ∈ Finset.range n, star (v r) * V r i) * S i j * star (∑ r ∈ Finset.range m, star (w r) * W r j) =
      ∑ r ∈ Finset.range n, ∑ c ∈ Finset.range m, star (v r) * (∑ i ∈ Finset.range k, ∑ j ∈ Finset.range l, V r i * S i j * star (W c j)) * w c := by
  have h1 : ∀ r c, star (v r) * (∑ i ∈ Finset.range k, ∑ j ∈ Finset.range l, V r i * S i j * star (W c j)) * w c =
      ∑ i ∈ Finset.range k, ∑ j ∈ Finset.range l, (star (v r) * V r i) * S i j * star (star (w c) * W c j) := by
    intro r c
    rw [Finset.mul_sum, Finset.sum_mul]
    refine Finset.sum_congr rfl fun i _ => ?_
    rw [Finset.mul_sum, Finset.sum_mul]
    refine Finset.sum_congr rfl fun j _ => ?_
    rw [star_mul', star_star]
    ring
  simp only [h1]
  rw [prod4]
  refine Finset.sum_congr rfl fun i _ => Finset.sum_congr rfl fun j _ => ?_
  rw [star_sum, Finset.sum_mul, Finset.sum_mul]
  exact Finset.sum_congr rfl fun r _ => by rw [Finset.mul_sum]

end H2
