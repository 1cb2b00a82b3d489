import Verif.Proof.HChol3
import Verif.Proof.FactorChol

/-! Block Cholesky decomposition (C65). -/

set_option linter.unusedSectionVars false

namespace H2
open Spec Dense
variable {G : Type} {𝕜 : Type} [RCLike 𝕜]

/-- `s` columns of the Cholesky decomposition of the lower triangular part of `A` have been computed, the remaining part of `F` is the
Schur complement -/
def CholInv (A : Nat → Nat → 𝕜) (n s : Nat) (F : Nat → Nat → 𝕜) : Prop :=
  (∀ j < s, star (F j j) = F j j ∧ 0 < RCLike.re (F j j)) ∧ ∀ r < n, ∀ c ≤ r,
    A r c = ∑ l ∈ Finset.range s, tri true false F r l * star (tri true false F c l) + (if s ≤ c then F r c else 0)

theorem triL_lt {F : Nat → Nat → 𝕜} {x y : Nat} (h : y ≤ x) : tri true false F x y = F x y := by
  unfold tri
  by_cases e : x = y
  · rw [if_pos e, e]; simp
  · rw [if_neg e]; simp only [if_true]; rw [if_pos (by omega)]

theorem triL_gt {F : Nat → Nat → 𝕜} {x y : Nat} (h : x < y) : tri true false F x y = 0 := by
  unfold tri
  rw [if_neg (by omega)]; simp only [if_true]; rw [if_neg (by omega)]

theorem cholInv_init (A : Nat → Nat → 𝕜) (n : Nat) : CholInv A n 0 A :=
  ⟨fun j hj => absurd hj (by omega), fun r _ c _ => by rw [Finset.sum_range_zero, if_pos (Nat.zero_le _), zero_add]⟩

theorem cholInv_congr {A A' F F' : Nat → Nat → 𝕜} {n s : Nat} (h : CholInv A n s F) (hs : s ≤ n)
    (hA : ∀ r < n, ∀ c ≤ r, A' r c = A r c) (hF : ∀ r < n, ∀ c ≤ r, F' r c = F r c) : CholInv A' n s F' := by
  refine ⟨fun j hj => by rw [hF j (by omega) j le_rfl]; exact h.1 j hj, fun r hr c hc => ?_⟩
  rw [hA r hr c hc, h.2 r hr c hc, hF r hr c hc]
  congr 1
  refine Finset.sum_congr rfl fun l hl => ?_
  have := Finset.mem_range.mp hl
  have tt : ∀ x < n, tri true false F' x l = tri true false F x l := by
    intro x hx
    rcases Nat.lt_or_ge x l with e | e
    · rw [triL_gt e, triL_gt e]
    · rw [triL_lt e, triL_lt e, hF x hx l e]
  rw [tt r hr, tt c (by omega)]

theorem cholInv_blockstep {A F F1 : Nat → Nat → 𝕜} {n s b : Nat} (h : CholInv A n s F) (hsb : s + b ≤ n)
    (hold : ∀ r < n, ∀ c < s, c ≤ r → F1 r c = F r c)
    (hdiag : ∀ l < b, star (F1 (s + l) (s + l)) = F1 (s + l) (s + l) ∧ 0 < RCLike.re (F1 (s + l) (s + l)))
    (h11 : ∀ r < b, ∀ c ≤ r, ∑ l ∈ Finset.range b, tri true false F1 (s + r) (s + l) * star (tri true false F1 (s + c) (s + l)) =
      F (s + r) (s + c))
    (h21 : ∀ r < n, s + b ≤ r → ∀ c < b, ∑ l ∈ Finset.range b, F1 r (s + l) * star (tri true false F1 (s + c) (s + l)) = F r (s + c))
    (h22 : ∀ r < n, ∀ c ≤ r, s + b ≤ c → F1 r c = F r c - ∑ l ∈ Finset.range b, F1 r (s + l) * star (F1 c (s + l))) :
    CholInv A n (s + b) F1 := by
  refine ⟨fun j hj => ?_, fun r hr c hc => ?_⟩
  · by_cases e : j < s
    · rw [hold j (by omega) j e le_rfl]; exact h.1 j e
    · have := hdiag (j - s) (by omega)
      rw [show s + (j - s) = j by omega] at this
      exact this
  have h1 : ∑ k ∈ Finset.range s, tri true false F1 r k * star (tri true false F1 c k) =
      ∑ k ∈ Finset.range s, tri true false F r k * star (tri true false F c k) := by
    refine Finset.sum_congr rfl fun k hk => ?_
    have hk := Finset.mem_range.mp hk
    have tt : ∀ x < n, tri true false F1 x k = tri true false F x k := by
      intro x hx
      rcases Nat.lt_or_ge x k with e | e
      · rw [triL_gt e, triL_gt e]
      · rw [triL_lt e, triL_lt e, hold x hx k hk e]
    rw [tt r hr, tt c (by omega)]
  rw [Finset.sum_range_add, h1, h.2 r hr c hc, add_assoc]
  congr 1
  by_cases ec : c < s
  · rw [if_neg (by omega), if_neg (by omega), add_zero, Finset.sum_eq_zero]
    intro l _
    rw [triL_gt (show c < s + l by omega), star_zero, mul_zero]
  rw [if_pos (by omega)]
  obtain ⟨c', rfl⟩ : ∃ c', c = s + c' := ⟨c - s, by omega⟩
  obtain ⟨r', rfl⟩ : ∃ r', r = s + r' := ⟨r - s, by omega⟩
  by_cases er' : r' < b
  · rw [if_neg (by omega), add_zero]
    exact (h11 r' er' c' (by omega)).symm
  · by_cases ec' : c' < b
    · rw [if_neg (by omega), add_zero, ← h21 _ hr (by omega) c' ec']
      refine Finset.sum_congr rfl fun l hl => ?_
      have := Finset.mem_range.mp hl
      rw [triL_lt (show s + l ≤ s + r' by omega)]
    · rw [if_pos (by omega), h22 _ hr _ hc (by omega)]
      have : ∑ l ∈ Finset.range b, tri true false F1 (s + r') (s + l) * star (tri true false F1 (s + c') (s + l)) =
          ∑ l ∈ Finset.range b, F1 (s + r') (s + l) * star (F1 (s + c') (s + l)) := by
        refine Finset.sum_congr rfl fun l hl => ?_
        have := Finset.mem_range.mp hl
        rw [triL_lt (show s + l ≤ s + c' by omega), triL_lt (show s + l ≤ s + r' by omega)]
      rw [this]; ring

theorem re_pos_ne {x : 𝕜} (h : 0 < RCLike.re x) : x ≠ 0 := fun e => by rw [e, map_zero] at h; exact lt_irrefl _ h

/-- the columns that have been computed are determined -/
theorem cholInv_unique {A F F' : Nat → Nat → 𝕜} {n s s' : Nat} (h : CholInv A n s F) (h' : CholInv A n s' F') (hs : s ≤ s') (hn : s' ≤ n) :
    ∀ l < s, ∀ r < n, l ≤ r → F r l = F' r l := by
  intro l
  induction l using Nat.strong_induction_on with
  | _ l ih =>
    intro hl
    have col : ∀ {F : Nat → Nat → 𝕜} {s : Nat}, CholInv A n s F → s ≤ n → l < s → ∀ r < n, l ≤ r →
        A r l = ∑ k ∈ Finset.range l, F r k * star (F l k) + F r l * star (F l l) := by
      intro F s h hsn hl r hr hlr
      rw [h.2 r hr l hlr, if_neg (by omega), add_zero, ← Finset.sum_range_add_sum_Ico _ (show l + 1 ≤ s by omega),
        Finset.sum_eq_zero (s := Finset.Ico (l + 1) s), add_zero, Finset.sum_range_succ, triL_lt hlr, triL_lt le_rfl]
      · congr 1
        refine Finset.sum_congr rfl fun k hk => ?_
        have := Finset.mem_range.mp hk
        rw [triL_lt (by omega), triL_lt (by omega)]
      · intro k hk
        have := Finset.mem_Ico.mp hk
        rw [triL_gt (x := l) (by omega), star_zero, mul_zero]
    have key : ∀ r < n, l ≤ r → F r l * star (F l l) = F' r l * star (F' l l) := by
      intro r hr hlr
      have e1 := col h (by omega) hl r hr hlr
      have e2 := col h' hn (by omega) r hr hlr
      have e3 : ∑ k ∈ Finset.range l, F r k * star (F l k) = ∑ k ∈ Finset.range l, F' r k * star (F' l k) := by
        refine Finset.sum_congr rfl fun k hk => ?_
        have hk := Finset.mem_range.mp hk
        rw [ih k hk (by omega) r hr (by omega), ih k hk (by omega) l (by omega) (by omega)]
      rw [e1, e3] at e2
      exact add_left_cancel e2
    obtain ⟨p1, p2⟩ := h.1 l hl
    obtain ⟨q1, q2⟩ := h'.1 l (by omega)
    have hd : F l l = F' l l := by
      have := key l (by omega) le_rfl
      rw [p1, q1, ← real_of_star p1, ← real_of_star q1, ← RCLike.ofReal_mul, ← RCLike.ofReal_mul] at this
      have := RCLike.ofReal_injective this
      rw [← real_of_star p1, ← real_of_star q1]
      congr 1
      nlinarith [mul_self_inj_of_nonneg p2.le q2.le]
    intro r hr hlr
    have := key r hr hlr
    rw [← hd] at this
    exact mul_right_cancel₀ (by rw [p1]; exact re_pos_ne p2) this

theorem chol_trailing {A F : Nat → Nat → 𝕜} {n s b : Nat} (h : CholInv A n s F) (hsb : s + b ≤ n) (hm : ∃ F', CholInv A n n F') :
    ∃ F', CholInv (fun r c => F (s + r) (s + c)) b b F' := by
  obtain ⟨F', h'⟩ := hm
  have hu := cholInv_unique h h' (by omega) le_rfl
  refine ⟨fun r c => F' (s + r) (s + c), fun j hj => h'.1 _ (by omega), fun r hr c hc => ?_⟩
  have e1 := h.2 (s + r) (by omega) (s + c) (by omega)
  have e2 := h'.2 (s + r) (by omega) (s + c) (by omega)
  rw [if_pos (by omega)] at e1
  rw [if_neg (by omega), add_zero] at e2
  rw [if_neg (by omega), add_zero]
  rw [e1, ← Finset.sum_range_add_sum_Ico _ hsb, Finset.sum_eq_zero (s := Finset.Ico (s + b) n), add_zero, Finset.sum_range_add] at e2
  · have : ∑ k ∈ Finset.range s, tri true false F' (s + r) k * star (tri true false F' (s + c) k) =
        ∑ k ∈ Finset.range s, tri true false F (s + r) k * star (tri true false F (s + c) k) := by
      refine Finset.sum_congr rfl fun k hk => ?_
      have hk := Finset.mem_range.mp hk
      rw [triL_lt (by omega), triL_lt (by omega), triL_lt (by omega), triL_lt (by omega), hu k hk _ (by omega) (by omega),
        hu k hk _ (by omega) (by omega)]
    rw [this] at e2
    show F (s + r) (s + c) = _
    rw [add_left_cancel e2]
    refine Finset.sum_congr rfl fun l _ => ?_
    unfold tri
    simp only [if_true, Bool.false_eq_true, if_false, Nat.add_right_inj, Nat.add_lt_add_iff_left]
  · intro l hl
    have := Finset.mem_Ico.mp hl
    rw [triL_gt (x := s + r) (by omega), zero_mul]

theorem cholInv_real {A F : Nat → Nat → 𝕜} {n s : Nat} (h : CholInv A n s F) (hA : ∀ r < n, star (A r r) = A r r) :
    ∀ r < n, s ≤ r → star (F r r) = F r r := by
  intro r hr hs
  have e := h.2 r hr r le_rfl
  rw [if_pos hs] at e
  have e1 : F r r = A r r - ∑ l ∈ Finset.range s, tri true false F r l * star (tri true false F r l) := by rw [e]; ring
  rw [e1, star_sub, hA r hr, star_sum]
  congr 1
  refine Finset.sum_congr rfl fun l _ => ?_
  rw [star_mul', star_star, mul_comm]

/-! ### positive definite matrices -/

open scoped ComplexOrder in
theorem cholInv_pd {A F : Nat → Nat → 𝕜} {n : Nat} (h : CholInv A n n F) : PD (herm A) n := by
  unfold PD
  have e : (Matrix.of fun r c : Fin n => herm A r c) = (Matrix.of fun r c : Fin n => tri true false F r c) *
      (Matrix.of fun r c : Fin n => tri true false F r c).conjTranspose := by
    ext r c
    rw [Matrix.mul_apply, Matrix.of_apply]
    have low : ∀ r < n, ∀ c ≤ r, A r c = ∑ l ∈ Finset.range n, tri true false F r l * star (tri true false F c l) := by
      intro r hr c hc
      rw [h.2 r hr c hc, if_neg (by omega), add_zero]
    show herm A r c = ∑ l : Fin n, tri true false F r l * star (tri true false F c l)
    rw [Fin.sum_univ_eq_sum_range (fun l => tri true false F r l * star (tri true false F c l)) n]
    unfold herm
    by_cases hrc : c.1 ≤ r.1
    · rw [if_pos hrc, low r r.2 c hrc]
    · rw [if_neg hrc, low c c.2 r (by omega), star_sum]
      refine Finset.sum_congr rfl fun l _ => ?_
      rw [star_mul', star_star, mul_comm]
  rw [e]
  refine Matrix.PosDef.mul_conjTranspose_self _ ?_
  rw [show (fun v => Matrix.vecMul v (Matrix.of fun r c : Fin n => tri true false F r c)) = _ from rfl]
  refine Matrix.vecMul_injective_iff_isUnit.mpr ?_
  rw [Matrix.isUnit_iff_isUnit_det, Matrix.det_of_isLowerTriangular]
  · rw [isUnit_iff_ne_zero, Finset.prod_ne_zero_iff]
    intro j _
    simp only [Matrix.of_apply, tri, if_true]
    exact re_pos_ne (h.1 j j.2).2
  · intro i j hij
    have : (i : Nat) < j := hij
    simp only [Matrix.of_apply]
    exact triL_gt this

open scoped ComplexOrder in
theorem pd_le {A : Nat → Nat → 𝕜} {n k : Nat} (h : PD A n) (hk : k ≤ n) : PD A k := by
  unfold PD at h ⊢
  have := h.submatrix (e := Fin.castLE hk) (Fin.castLE_injective hk)
  exact this

theorem cholPost_inv {A F : Nat → Nat → 𝕜} {n : Nat} (h : CholPost A n 0 F) : CholInv A n n F := by
  obtain ⟨hreal, ⟨-, h2, h3⟩ | ⟨h1, -⟩⟩ := h
  · refine ⟨fun j hj => ⟨hreal j hj, h2 j hj⟩, fun r hr c hc => ?_⟩
    rw [if_neg (by omega), add_zero, chol_product h3 (fun j hj => re_pos_ne (h2 j hj)) le_rfl le_rfl hr (show c < n by omega) hreal]
    unfold herm
    rw [if_pos hc]
  · exact absurd h1 (by omega)

theorem pd_cholInv {A : Nat → Nat → 𝕜} {n : Nat} (h : PD (herm A) n) (hA : ∀ r < n, star (A r r) = A r r) : ∃ F, CholInv A n n F := by
  have hd : ∀ F : Nat → Nat → 𝕜, ∀ i, hatC i F i i = F i i := fun F i => by unfold hatC; rw [if_pos rfl, if_neg (by omega)]
  have sq : ∀ d : ℝ, 0 < d → ((√d : ℝ) : 𝕜) * ((√d : ℝ) : 𝕜) = (d : 𝕜) := fun d hd => by
    rw [← RCLike.ofReal_mul, Real.mul_self_sqrt hd.le]
  have sn : ∀ d : ℝ, 0 < d → ((√d : ℝ) : 𝕜) ≠ 0 := fun d hd => by
    rw [Ne, RCLike.ofReal_eq_zero]; exact (Real.sqrt_pos.mpr hd).ne'
  have main : ∀ i ≤ n, ∃ F : Nat → Nat → 𝕜, (∀ r < n, star (F r r) = F r r) ∧ (∀ j < i, 0 < RCLike.re (F j j)) ∧
      LRInv (herm A) n i (hatC i F) := by
    intro i
    induction i with
    | zero => exact fun _ => ⟨A, hA, fun j hj => absurd hj (by omega), by rw [hatC_zero]; exact lrInv_init _ _⟩
    | succ i ih =>
      intro hi
      obtain ⟨F, hreal, hpos, hinv⟩ := ih (by omega)
      have hp : 0 < RCLike.re (F i i) := by
        by_contra hc
        have hpost : CholPost A n (i + 1) F := ⟨hreal, .inr ⟨by omega, hi, hpos, hinv, not_lt.mp hc⟩⟩
        rcases cholPost_pd hpost with ⟨h0, -⟩ | ⟨-, -, h1, -⟩
        · exact absurd h0 (by omega)
        · exact h1 (pd_le h hi)
      have hs : star ((√(RCLike.re (F i i)) : ℝ) : 𝕜) = ((√(RCLike.re (F i i)) : ℝ) : 𝕜) := RCLike.conj_ofReal _
      have hq := (sq _ hp).trans (real_of_star (hreal i (by omega)))
      refine ⟨cholF n i ((√(RCLike.re (F i i)) : ℝ) : 𝕜) F, cholF_real hs hreal, fun j hj => ?_, ?_⟩
      · by_cases e : j = i
        · subst e
          unfold cholF
          rw [if_pos ⟨rfl, rfl⟩, RCLike.ofReal_re]
          exact Real.sqrt_pos.mpr hp
        · unfold cholF
          rw [if_neg (by omega), if_neg (by omega), if_neg (by omega)]
          exact hpos j (by omega)
      · refine lrInv_congr' (lrInv_step hinv (by omega) ?_) (by omega) fun r hr c hc => hatC_step hq (sn _ hp) hs (by omega) hr hc
        rw [hd, ← hq]
        exact mul_ne_zero (sn _ hp) (sn _ hp)
  obtain ⟨F, h1, h2, h3⟩ := main n le_rfl
  exact ⟨F, cholPost_inv ⟨h1, .inl ⟨rfl, h2, h3⟩⟩⟩

namespace HV

theorem denseChol_may {f : VMat 𝕜} (hsq : f.rows = f.cols) (h0 : 0 < f.rows) (hlt : f.rows < 2 ^ 32)
    (hreal : ∀ r < f.rows, star (f.e r r) = f.e r r) :
    May (denseChol f) (¬ ∃ F, CholInv f.e f.rows f.rows F) (fun f' => f'.rows = f.rows ∧ f'.cols = f.cols ∧
      CholInv f.e f.rows f.rows f'.e) := by
  unfold denseChol
  obtain ⟨va, ea⟩ := load_valid_a (a := f) (x := (.zero 0 0 : VMat 𝕜))
  refine May.bindT (choldecomp_tot va hsq h0 hlt ?_) ?_
  · intro r hr
    replace hr : r < f.rows := hr
    rw [ea r hr r (by omega)]
    exact hreal r hr
  rintro ⟨p, m'⟩ - ⟨F, h1, h2, -⟩
  simp only
  have key : ∀ F, CholInv f.e f.rows f.rows F ↔ CholInv ((⟨0, f.rows, f.rows, f.cols⟩ : Mat).val (loadMem f (.zero 0 0))) f.rows f.rows F :=
    fun F => ⟨fun h => cholInv_congr h le_rfl (fun r hr c hc => ea r hr c (by omega)) fun _ _ _ _ => rfl,
      fun h => cholInv_congr h le_rfl (fun r hr c hc => (ea r hr c (by omega)).symm) fun _ _ _ _ => rfl⟩
  by_cases hp : p = 0
  · subst hp
    rw [cassert_true (by simp)]
    right
    refine Tot.pure ⟨rfl, rfl, ?_⟩
    rw [key]
    refine cholInv_congr (cholPost_inv h2) le_rfl (fun _ _ _ _ => rfl) fun r hr c hc => h1.2.1 r hr c (show c < f.cols by omega)
  · left
    have : (decide ((p, m').1 = 0)) = false := by simpa using hp
    simp only at this
    rw [this]
    refine ⟨rfl, ?_⟩
    rintro ⟨F', hF'⟩
    rw [key] at hF'
    rcases cholPost_pd h2 with ⟨h0, -⟩ | ⟨-, g1, g2, -⟩
    · exact hp h0
    · exact g2 (pd_le (cholInv_pd hF') g1)

/-- a loop over the lower triangular part that changes one son in each round -/
theorem loopLow_tot {K : Type} [Field K] [StarRing K] {d : HV G K} {m n : Nat} {xs0 : Fin m → Fin n → HV G K} {lo hi : Nat} (hle : lo ≤ hi)
    {diag : Nat → (Fin m → Fin n → HV G K) → R (Fin m → Fin n → HV G K)}
    {body : Nat → Nat → (Fin m → Fin n → HV G K) → R (Fin m → Fin n → HV G K)} {P : Nat → Nat → HV G K → Prop}
    (hd : ∀ j, lo ≤ j → j < hi → ∀ xs, (∀ p q, ¬ (lo ≤ q ∧ q < j ∧ q ≤ p) → sg d xs p q = sg d xs0 p q) →
      Tot (diag j xs) (fun xs' => P j j (sg d xs' j j) ∧ ∀ p q, ¬ (p = j ∧ q = j) → sg d xs' p q = sg d xs p q))
    (hb : ∀ j, lo ≤ j → j < hi → ∀ i, j < i → i < hi → ∀ xs, (∀ p q, ¬ (lo ≤ q ∧ q < j ∧ q ≤ p) → ¬ (p < i ∧ q = j) →
        sg d xs p q = sg d xs0 p q) →
      Tot (body j i xs) (fun xs' => P i j (sg d xs' i j) ∧ ∀ p q, ¬ (p = i ∧ q = j) → sg d xs' p q = sg d xs p q)) :
    Tot (forUp lo hi (fun j xs => do let xs ← diag j xs; forUp (j + 1) hi (body j) xs) xs0) (fun xs' =>
      (∀ j, lo ≤ j → j < hi → ∀ i, j ≤ i → i < hi → P i j (sg d xs' i j)) ∧
      ∀ p q, ¬ (lo ≤ q ∧ q ≤ p ∧ p < hi) → sg d xs' p q = sg d xs0 p q) := by
  refine (forUp_tot (fun k (xs' : Fin m → Fin n → HV G K) => (∀ j, lo ≤ j → j < k → ∀ i, j ≤ i → i < hi → P i j (sg d xs' i j)) ∧
      ∀ p q, ¬ (lo ≤ q ∧ q < k ∧ q ≤ p ∧ p < hi) → sg d xs' p q = sg d xs0 p q) hle ?_ ?_).mono ?_
  · exact ⟨fun j h1 h2 => absurd h2 (by omega), fun p q _ => rfl⟩
  · rintro k xs h1 h2 ⟨g1, g2⟩
    refine Tot.bind (hd k h1 h2 xs fun p q h => g2 p q (by omega)) ?_
    rintro xs1 - ⟨d1, d2⟩
    refine (loopAt_tot (d := d) (show k + 1 ≤ hi by omega) (fun i => i) (fun _ => k) (fun _ _ h _ => h) (P := fun i => P i k) ?_).mono ?_
    · intro i i1 i2 xs' hxs'
      refine hb k h1 h2 i i1 i2 xs' fun p q n1 n2 => ?_
      rw [hxs' p q (fun j' j1 j2 e => n2 ⟨by omega, e.2⟩), d2 p q (by omega), g2 p q (by omega)]
    · rintro xs' ⟨f1, f2⟩
      refine ⟨fun j j1 j2 i i1 i2 => ?_, fun p q hpq => ?_⟩
      · by_cases e : j = k
        · subst e
          by_cases e' : i = j
          · subst e'
            rw [f2 i i (fun j' _ _ h => by omega)]
            exact d1
          · exact f1 i (by omega) i2
        · rw [f2 i j (fun j' _ _ h => e h.2), d2 i j (by omega)]
          exact g1 j j1 (by omega) i i1 i2
      · rw [f2 p q (fun j j1 j2 h => hpq (by omega)), d2 p q (fun h => hpq (by omega)), g2 p q (fun h => hpq (by omega))]
  · rintro xs ⟨g1, g2⟩
    exact ⟨g1, fun p q h => g2 p q (by omega)⟩

end HV
end H2
