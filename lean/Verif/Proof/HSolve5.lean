import Verif.Proof.HSolve4

/-! LR decomposition of H-matrices. -/

set_option linter.unusedSectionVars false

namespace H2
open Spec Dense
variable {G K : Type} [Field K] [StarRing K]

/-! ### programs that may run into an assertion -/

/-- either an assertion fails and `c` holds, or the result satisfies `P` -/
def May {α : Type _} (x : R α) (c : Prop) (P : α → Prop) : Prop := (x = .error .assertFail ∧ c) ∨ Tot x P

theorem May.bind {α β : Type _} {x : R α} {f : α → R β} {Q : α → Prop} {c : Prop} {P : β → Prop} (h : May x c Q)
    (hf : ∀ a, x = .ok a → Q a → May (f a) c P) : May (x >>= f) c P := by
  rcases h with ⟨e, h⟩ | ⟨a, e, h⟩
  · left; rw [e]; exact ⟨rfl, h⟩
  · rw [e]; exact hf a e h

theorem May.bindT {α β : Type _} {x : R α} {f : α → R β} {Q : α → Prop} {c : Prop} {P : β → Prop} (h : Tot x Q)
    (hf : ∀ a, x = .ok a → Q a → May (f a) c P) : May (x >>= f) c P := May.bind (.inr h) hf

theorem May.mono {α : Type _} {x : R α} {c c' : Prop} {P Q : α → Prop} (h : May x c P) (hc : c → c') (hP : ∀ a, P a → Q a) :
    May x c' Q := by
  rcases h with ⟨e, h⟩ | h
  · exact .inl ⟨e, hc h⟩
  · exact .inr (h.mono hP)

theorem May.cassert {β : Type _} {p : Bool} {k : Unit → R β} {c : Prop} {Q : β → Prop} (hp : p = true) (h : May (k ()) c Q) :
    May (H2.cassert p >>= k) c Q := by rw [cassert_true hp]; exact h

theorem forUp_may {σ : Type _} {body : Nat → σ → R σ} {c : Prop} (I : Nat → σ → Prop) : ∀ {lo hi : Nat} {s : σ}, lo ≤ hi → I lo s →
    (∀ k s, lo ≤ k → k < hi → I k s → May (body k s) c (I (k + 1))) → May (forUp lo hi body s) c (I hi) := by
  intro lo hi s hle h0 hb
  obtain ⟨n, rfl⟩ : ∃ n, hi = lo + n := ⟨hi - lo, by omega⟩
  clear hle
  induction n generalizing lo s with
  | zero =>
    right
    exact forUp_tot I le_rfl h0 fun k t h1 h2 => absurd h2 (by omega)
  | succ n ih =>
    have e : forUp lo (lo + (n + 1)) body s = body lo s >>= fun s => forUp (lo + 1) (lo + 1 + n) body s := by
      unfold forUp
      rw [show lo + (n + 1) - lo = n + 1 by omega, show lo + 1 + n - (lo + 1) = n by omega]
      rfl
    rw [e]
    refine May.bind (hb lo s le_rfl (by omega) h0) fun s' _ h' => ?_
    have := ih (lo := lo + 1) (s := s') h' (fun k t h1 h2 => hb k t (by omega) (by omega))
    rw [show lo + (n + 1) = lo + 1 + n by omega]
    exact this

/-! ### block elimination -/

theorem lrInv_blockstep {A F F1 : Nat → Nat → K} {n s b : Nat} (h : LRInv A n s F) (hsb : s + b ≤ n)
    (hold : ∀ r < n, ∀ c < n, r < s ∨ c < s → F1 r c = F r c)
    (hdiag : ∀ l < b, F1 (s + l) (s + l) ≠ 0)
    (h11 : ∀ r < b, ∀ c < b, ∑ l ∈ Finset.range b, tri true true F1 (s + r) (s + l) * tri false false F1 (s + l) (s + c) = F (s + r) (s + c))
    (h12 : ∀ r < b, ∀ c < n, s + b ≤ c → ∑ l ∈ Finset.range b, tri true true F1 (s + r) (s + l) * F1 (s + l) c = F (s + r) c)
    (h21 : ∀ r < n, s + b ≤ r → ∀ c < b, ∑ l ∈ Finset.range b, F1 r (s + l) * tri false false F1 (s + l) (s + c) = F r (s + c))
    (h22 : ∀ r < n, s + b ≤ r → ∀ c < n, s + b ≤ c → F1 r c = F r c - ∑ l ∈ Finset.range b, F1 r (s + l) * F1 (s + l) c) :
    LRInv A n (s + b) F1 := by
  refine ⟨fun j hj => ?_, fun r hr c hc => ?_⟩
  · by_cases e : j < s
    · rw [hold j (by omega) j (by omega) (.inl e)]; exact h.1 j e
    · have := hdiag (j - s) (by omega)
      rw [show s + (j - s) = j by omega] at this
      exact this
  have lowtri : ∀ {x y}, y < x → tri true true F1 x y = F1 x y := by
    intro x y hxy; unfold tri; rw [if_neg (by omega)]; simp [hxy]
  have lowz : ∀ {x y}, x < y → tri true true F1 x y = 0 := by
    intro x y hxy; unfold tri; rw [if_neg (by omega)]
    simp only [if_true]; rw [if_neg (by omega)]
  have uptri : ∀ {x y}, x < y → tri false false F1 x y = F1 x y := by
    intro x y hxy; unfold tri; rw [if_neg (by omega)]; simp [hxy]
  have upz : ∀ {x y}, y < x → tri false false F1 x y = 0 := by
    intro x y hxy; unfold tri; rw [if_neg (by omega)]
    simp only [Bool.false_eq_true, if_false]; rw [if_neg (by omega)]
  have h1 : ∑ k ∈ Finset.range s, tri true true F1 r k * tri false false F1 k c =
      ∑ k ∈ Finset.range s, tri true true F r k * tri false false F k c := by
    refine Finset.sum_congr rfl fun k hk => ?_
    have hk := Finset.mem_range.mp hk
    unfold tri
    simp only [if_true, Bool.false_eq_true, if_false]
    rw [hold r hr k (by omega) (.inr hk), hold k (by omega) k (by omega) (.inl hk), hold k (by omega) c hc (.inl hk)]
  rw [Finset.sum_range_add, h1, h.2 r hr c hc, add_assoc]
  congr 1
  by_cases er : r < s
  · rw [if_neg (by omega), if_neg (by omega), add_zero, Finset.sum_eq_zero]
    intro l _
    rw [lowz (by omega), zero_mul]
  by_cases ec : c < s
  · rw [if_neg (by omega), if_neg (by omega), add_zero, Finset.sum_eq_zero]
    intro l _
    rw [upz (by omega), mul_zero]
  rw [if_pos (by omega)]
  obtain ⟨r', rfl⟩ : ∃ r', r = s + r' := ⟨r - s, by omega⟩
  obtain ⟨c', rfl⟩ : ∃ c', c = s + c' := ⟨c - s, by omega⟩
  by_cases er' : r' < b
  · rw [if_neg (by omega), add_zero]
    by_cases ec' : c' < b
    · exact (h11 r' er' c' ec').symm
    · rw [← h12 r' er' _ hc (by omega)]
      refine Finset.sum_congr rfl fun l hl => ?_
      have := Finset.mem_range.mp hl
      rw [uptri (show s + l < s + c' by omega)]
  · by_cases ec' : c' < b
    · rw [if_neg (by omega), add_zero, ← h21 _ hr (by omega) c' ec']
      refine Finset.sum_congr rfl fun l hl => ?_
      have := Finset.mem_range.mp hl
      rw [lowtri (show s + l < s + r' by omega)]
    · rw [if_pos (by omega), h22 _ hr (by omega) _ hc (by omega)]
      have : ∑ l ∈ Finset.range b, tri true true F1 (s + r') (s + l) * tri false false F1 (s + l) (s + c') =
          ∑ l ∈ Finset.range b, F1 (s + r') (s + l) * F1 (s + l) (s + c') := by
        refine Finset.sum_congr rfl fun l hl => ?_
        have := Finset.mem_range.mp hl
        rw [uptri (show s + l < s + c' by omega), lowtri (show s + l < s + r' by omega)]
      rw [this]; ring

/-- If all leading minors are non-zero, the elimination can be completed. -/
theorem lr_continue {A F : Nat → Nat → K} {n s : Nat} (h : LRInv A n s F) (hs : s ≤ n) (hm : ∀ k ≤ n, minor A k ≠ 0) :
    ∃ F', LRInv A n n F' ∧ ∀ r c, r < s ∨ c < s → F' r c = F r c := by
  have : ∀ d, s + d ≤ n → ∃ F', LRInv A n (s + d) F' ∧ ∀ r c, r < s ∨ c < s → F' r c = F r c := by
    intro d
    induction d with
    | zero => intro _; exact ⟨F, h, fun _ _ _ => rfl⟩
    | succ d ih =>
      intro hd
      obtain ⟨F', h1, h2⟩ := ih (by omega)
      have hp : F' (s + d) (s + d) ≠ 0 := by
        have := hm (s + d + 1) (by omega)
        rw [lrInv_minors h1 le_rfl (by omega)] at this
        exact Finset.prod_ne_zero_iff.mp this _ (Finset.mem_range.mpr (by omega))
      refine ⟨lrF n (s + d) F', lrInv_step h1 (show s + d < n by omega) hp, fun r c hrc => ?_⟩
      rw [← h2 r c hrc]
      unfold lrF
      by_cases e : s + d < r ∧ r < n
      · rw [if_pos e, if_neg (by omega), if_neg (by omega)]
      · rw [if_neg e]
  obtain ⟨F', h1, h2⟩ := this (n - s) (by omega)
  rw [show s + (n - s) = n by omega] at h1
  exact ⟨F', h1, h2⟩

/-- The trailing block of a matrix that has a decomposition has one, too. -/
theorem lr_trailing {A F : Nat → Nat → K} {n s b : Nat} (h : LRInv A n s F) (hsb : s + b ≤ n) (hm : ∃ F', LRInv A n n F') :
    ∃ F', LRInv (fun r c => F (s + r) (s + c)) b b F' := by
  obtain ⟨F0, h0⟩ := hm
  obtain ⟨F', h1, h2⟩ := lr_continue h (by omega) fun k hk => lrInv_nonzero h0 hk hk
  refine ⟨fun r c => F' (s + r) (s + c), fun j hj => h1.1 _ (by omega), fun r hr c hc => ?_⟩
  have e1 := h.2 (s + r) (by omega) (s + c) (by omega)
  have e2 := h1.2 (s + r) (by omega) (s + c) (by omega)
  rw [if_pos (by omega)] at e1
  rw [if_neg (by omega), add_zero] at e2
  rw [if_neg (by omega), add_zero]
  rw [e1, ← Finset.sum_range_add_sum_Ico _ hsb, Finset.sum_eq_zero (s := Finset.Ico (s + b) n), add_zero, Finset.sum_range_add] at e2
  · have : ∑ k ∈ Finset.range s, tri true true F' (s + r) k * tri false false F' k (s + c) =
        ∑ k ∈ Finset.range s, tri true true F (s + r) k * tri false false F k (s + c) := by
      refine Finset.sum_congr rfl fun k hk => ?_
      have hk := Finset.mem_range.mp hk
      unfold tri
      simp only [if_true, Bool.false_eq_true, if_false]
      rw [h2 (s + r) k (.inr hk), h2 k k (.inl hk), h2 k (s + c) (.inl hk)]
    rw [this] at e2
    show F (s + r) (s + c) = _
    rw [add_left_cancel e2]
    refine Finset.sum_congr rfl fun l _ => ?_
    unfold tri
    simp only [if_true, Bool.false_eq_true, if_false, Nat.add_right_inj, Nat.add_lt_add_iff_left]
  · intro l hl
    have := Finset.mem_Ico.mp hl
    unfold tri
    rw [if_neg (by omega)]
    simp only [if_true]
    rw [if_neg (by omega), zero_mul]

theorem lrInv_congr {A A' F F' : Nat → Nat → K} {n i : Nat} (h : LRInv A n i F) (hi : i ≤ n) (hA : ∀ r < n, ∀ c < n, A' r c = A r c)
    (hF : ∀ r < n, ∀ c < n, F' r c = F r c) : LRInv A' n i F' := by
  refine ⟨fun j hj => by rw [hF j (by omega) j (by omega)]; exact h.1 j hj, fun r hr c hc => ?_⟩
  rw [hA r hr c hc, h.2 r hr c hc, hF r hr c hc]
  congr 1
  refine Finset.sum_congr rfl fun k hk => ?_
  have := Finset.mem_range.mp hk
  unfold tri
  rw [hF r hr k (by omega), hF r hr r hr, hF k (by omega) k (by omega), hF k (by omega) c hc]

namespace HV

theorem denseLr_may {f : VMat K} (hsq : f.rows = f.cols) (h0 : 0 < f.rows) (hlt : f.rows < 2 ^ 32) :
    May (denseLr f) (¬ ∃ F, LRInv f.e f.rows f.rows F) (fun f' => f'.rows = f.rows ∧ f'.cols = f.cols ∧
      LRInv f.e f.rows f.rows f'.e) := by
  unfold denseLr
  obtain ⟨va, ea⟩ := load_valid_a (a := f) (x := (.zero 0 0 : VMat K))
  refine May.bindT (lrdecomp_tot va hsq h0 hlt) ?_
  rintro ⟨p, m'⟩ - ⟨F, h1, h2⟩
  simp only
  have key : ∀ F, LRInv f.e f.rows f.rows F ↔ LRInv ((⟨0, f.rows, f.rows, f.cols⟩ : Mat).val (loadMem f (.zero 0 0))) f.rows f.rows F :=
    fun F => ⟨fun h => lrInv_congr h le_rfl (fun r hr c hc => ea r hr c (by omega)) fun _ _ _ _ => rfl,
      fun h => lrInv_congr h le_rfl (fun r hr c hc => (ea r hr c (by omega)).symm) fun _ _ _ _ => rfl⟩
  by_cases hp : p = 0
  · subst hp
    rw [cassert_true (by simp)]
    right
    refine Tot.pure ⟨rfl, rfl, ?_⟩
    rcases h2 with ⟨-, h2⟩ | ⟨h2, -⟩
    · rw [key]
      refine lrInv_congr h2 le_rfl (fun _ _ _ _ => rfl) fun r hr c hc => h1.2.1 r hr c (show c < f.cols by omega)
    · exact absurd h2 (by simp)
  · left
    have : (decide ((p, m').1 = 0)) = false := by simpa using hp
    simp only at this
    rw [this]
    refine ⟨rfl, ?_⟩
    rintro ⟨F', hF'⟩
    rw [key] at hF'
    rcases h2 with ⟨h2, -⟩ | ⟨g1, g2, g3, g4⟩
    · exact hp h2
    · refine lrInv_nonzero hF' g2 g2 ?_
      rw [lrInv_minors g3 (show p ≤ p - 1 + 1 by omega) g2]
      exact Finset.prod_eq_zero (Finset.mem_range.mpr (show p - 1 < p by omega)) g4

theorem atSon_may {d : HV G K} {m n : Nat} {xs : Fin m → Fin n → HV G K} {i j : Nat} (hi : i < m) (hj : j < n)
    {f : HV G K → R (HV G K)} {c : Prop} {P : HV G K → Prop} (h : May (f (sg d xs i j)) c P) :
    May (atSon xs i j f) c (fun xs' => P (sg d xs' i j) ∧ ∀ i' j', ¬ (i' = i ∧ j' = j) → sg d xs' i' j' = sg d xs i' j') := by
  rcases h with ⟨e, h⟩ | h
  · left
    unfold atSon
    rw [dif_pos ⟨hi, hj⟩]
    have e' : sg d xs i j = xs ⟨i, hi⟩ ⟨j, hj⟩ := by unfold sg; rw [dif_pos ⟨hi, hj⟩]
    rw [e'] at e
    rw [e]
    exact ⟨rfl, h⟩
  · exact .inr (atSon_tot hi hj h)

/-- a loop that changes one son in each round -/
theorem loopAt_tot {d : HV G K} {m n : Nat} {xs0 : Fin m → Fin n → HV G K} {lo hi : Nat} (hle : lo ≤ hi) (ri ci : Nat → Nat)
    (hinj : ∀ j j', ri j = ri j' → ci j = ci j' → j = j') {body : Nat → (Fin m → Fin n → HV G K) → R (Fin m → Fin n → HV G K)}
    {P : Nat → HV G K → Prop}
    (hb : ∀ j, lo ≤ j → j < hi → ∀ xs, (∀ p q, (∀ j', lo ≤ j' → j' < j → ¬ (p = ri j' ∧ q = ci j')) → sg d xs p q = sg d xs0 p q) →
      Tot (body j xs) (fun xs' => P j (sg d xs' (ri j) (ci j)) ∧ ∀ p q, ¬ (p = ri j ∧ q = ci j) → sg d xs' p q = sg d xs p q)) :
    Tot (forUp lo hi body xs0) (fun xs' => (∀ j, lo ≤ j → j < hi → P j (sg d xs' (ri j) (ci j))) ∧
      ∀ p q, (∀ j, lo ≤ j → j < hi → ¬ (p = ri j ∧ q = ci j)) → sg d xs' p q = sg d xs0 p q) := by
  refine forUp_tot (fun k (xs' : Fin m → Fin n → HV G K) => (∀ j, lo ≤ j → j < k → P j (sg d xs' (ri j) (ci j))) ∧
      ∀ p q, (∀ j, lo ≤ j → j < k → ¬ (p = ri j ∧ q = ci j)) → sg d xs' p q = sg d xs0 p q) hle ?_ ?_
  · exact ⟨fun j h1 h2 => absurd h2 (by omega), fun p q _ => rfl⟩
  · rintro k xs h1 h2 ⟨g1, g2⟩
    refine (hb k h1 h2 xs g2).mono ?_
    rintro xs' ⟨f1, f2⟩
    refine ⟨fun j j1 j2 => ?_, fun p q hpq => ?_⟩
    · by_cases e : j = k
      · rw [e]; exact f1
      · rw [f2 _ _ (fun h => e (hinj _ _ h.1 h.2))]
        exact g1 j j1 (by omega)
    · rw [f2 p q (hpq k h1 (by omega)), g2 p q fun j j1 j2 => hpq j j1 (by omega)]

/-- a double loop that changes one son in each round -/
theorem loopAt2_tot {d : HV G K} {m n : Nat} {xs0 : Fin m → Fin n → HV G K} {lo hi : Nat} (hle : lo ≤ hi)
    {body : Nat → Nat → (Fin m → Fin n → HV G K) → R (Fin m → Fin n → HV G K)} {P : Nat → Nat → HV G K → Prop}
    (hb : ∀ j, lo ≤ j → j < hi → ∀ i, lo ≤ i → i < hi → ∀ xs, (∀ p q, ¬ ((lo ≤ p ∧ p < hi) ∧ lo ≤ q ∧ q < j) →
        ¬ ((lo ≤ p ∧ p < i) ∧ q = j) → sg d xs p q = sg d xs0 p q) →
      Tot (body j i xs) (fun xs' => P i j (sg d xs' i j) ∧ ∀ p q, ¬ (p = i ∧ q = j) → sg d xs' p q = sg d xs p q)) :
    Tot (forUp lo hi (fun j xs => forUp lo hi (body j) xs) xs0) (fun xs' =>
      (∀ i, lo ≤ i → i < hi → ∀ j, lo ≤ j → j < hi → P i j (sg d xs' i j)) ∧
      ∀ p q, ¬ ((lo ≤ p ∧ p < hi) ∧ lo ≤ q ∧ q < hi) → sg d xs' p q = sg d xs0 p q) := by
  refine forUp_tot (fun k (xs' : Fin m → Fin n → HV G K) => (∀ i, lo ≤ i → i < hi → ∀ j, lo ≤ j → j < k → P i j (sg d xs' i j)) ∧
      ∀ p q, ¬ ((lo ≤ p ∧ p < hi) ∧ lo ≤ q ∧ q < k) → sg d xs' p q = sg d xs0 p q) hle ?_ ?_
  · exact ⟨fun i _ _ j h1 h2 => absurd h2 (by omega), fun p q _ => rfl⟩
  · rintro k xs h1 h2 ⟨g1, g2⟩
    refine (loopAt_tot (d := d) hle (fun i => i) (fun _ => k) (fun _ _ h _ => h) (P := fun i => P i k) ?_).mono ?_
    · intro i i1 i2 xs' hxs'
      refine hb k h1 h2 i i1 i2 xs' fun p q n1 n2 => ?_
      rw [hxs' p q (fun j' j1 j2 e => n2 ⟨by omega, e.2⟩), g2 p q n1]
    · rintro xs' ⟨f1, f2⟩
      refine ⟨fun i i1 i2 j j1 j2 => ?_, fun p q hpq => ?_⟩
      · by_cases e : j = k
        · rw [e]; exact f1 i i1 i2
        · rw [f2 i j (fun j' _ _ h => e h.2)]
          exact g1 i i1 i2 j j1 (by omega)
      · rw [f2 p q (fun j j1 j2 h => hpq (by omega)), g2 p q (fun h => hpq (by omega))]

end HV
end H2
