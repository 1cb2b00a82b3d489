import Verif.Model.Heapsort
import Mathlib.Logic.Equiv.Basic
import Mathlib.Tactic.Common

namespace H2.Heapsort

variable {α : Type _}

/-- `a'` is `a` rearranged by a permutation of positions that moves only positions `< n`. -/
def PermBelow (n : Nat) (a a' : Nat → α) : Prop :=
  ∃ σ : Equiv.Perm Nat, (∀ i, n ≤ i → σ i = i) ∧ ∀ i, a' i = a (σ i)

theorem PermBelow.refl (n : Nat) (a : Nat → α) : PermBelow n a a :=
  ⟨Equiv.refl _, fun _ _ => rfl, fun _ => rfl⟩

theorem PermBelow.trans {n : Nat} {a b c : Nat → α} (h1 : PermBelow n a b)
    (h2 : PermBelow n b c) : PermBelow n a c := by
  obtain ⟨s, hs, es⟩ := h1
  obtain ⟨t, ht, et⟩ := h2
  refine ⟨t.trans s, fun i hi => ?_, fun i => ?_⟩
  · simp [ht i hi, hs i hi]
  · simp [et, es]

theorem PermBelow.mono {n m : Nat} (h : n ≤ m) {a b : Nat → α} (h1 : PermBelow n a b) :
    PermBelow m a b := by
  obtain ⟨s, hs, es⟩ := h1
  exact ⟨s, fun i hi => hs i (by omega), es⟩

theorem PermBelow.swap {n i j : Nat} (a : Nat → α) (hi : i < n) (hj : j < n) :
    PermBelow n a (swap a i j) := by
  refine ⟨Equiv.swap i j, fun k hk => Equiv.swap_apply_of_ne_of_ne (by omega) (by omega), ?_⟩
  intro k
  unfold Heapsort.swap
  by_cases h1 : k = i
  · subst h1; simp
  · by_cases h2 : k = j
    · subst h2; simp [h1]
    · simp [h1, h2, Equiv.swap_apply_of_ne_of_ne]

theorem PermBelow.src {n : Nat} {a b : Nat → α} (h : PermBelow n a b) {i : Nat} (hi : i < n) :
    ∃ j, j < n ∧ b i = a j := by
  obtain ⟨s, hs, es⟩ := h
  refine ⟨s i, ?_, es i⟩
  by_contra hc
  have h1 := hs (s i) (by omega)
  have h2 := s.injective h1
  omega

theorem PermBelow.ge {n : Nat} {a b : Nat → α} (h : PermBelow n a b) {i : Nat} (hi : n ≤ i) :
    b i = a i := by
  obtain ⟨s, hs, es⟩ := h
  rw [es, hs i hi]

theorem heapDown_perm (le : α → α → Bool) (n : Nat) (root : Nat) (a : Nat → α) :
    PermBelow n a (heapDown le n root a) := by
  fun_induction heapDown le n root a with
  | case1 root a h child hle ih =>
    refine PermBelow.trans (PermBelow.swap a (by omega) ?_) ih
    show child < n
    simp only [child]; split <;> omega
  | case2 => exact PermBelow.refl _ _
  | case3 => exact PermBelow.refl _ _

/-- Heap order at every node `p` with `r ≤ p`, for the heap occupying positions `< n`. -/
def Heap (le : α → α → Bool) (n r : Nat) (a : Nat → α) : Prop :=
  ∀ p c, r ≤ p → (c = 2 * p + 1 ∨ c = 2 * p + 2) → c < n → le (a c) (a p) = true

theorem heapDown_heap {le : α → α → Bool}
    (htot : ∀ x y, le x y = true ∨ le y x = true)
    (htr : ∀ x y z, le x y = true → le y z = true → le x z = true)
    (n r root : Nat) (a : Nat → α) (hr : r ≤ root)
    (h1 : ∀ p c, r ≤ p → p ≠ root → (c = 2 * p + 1 ∨ c = 2 * p + 2) → c < n →
      le (a c) (a p) = true)
    (h2 : ∀ q c, r ≤ q → (root = 2 * q + 1 ∨ root = 2 * q + 2) →
      (c = 2 * root + 1 ∨ c = 2 * root + 2) → c < n → le (a c) (a q) = true) :
    Heap le n r (heapDown le n root a) := by
  fun_induction heapDown le n root a with
  | case1 root a h child hle ih =>
    have hchild : (child = 2 * root + 1 ∨ child = 2 * root + 2) ∧ child < n ∧
        (∀ c, (c = 2 * root + 1 ∨ c = 2 * root + 2) → c < n → le (a c) (a child) = true) := by
      by_cases hc : 2 * root + 1 + 1 < n ∧ le (a (2 * root + 1)) (a (2 * root + 1 + 1)) = true
      · have e : child = 2 * root + 1 + 1 := by simp only [child]; first | rw [if_pos hc] | rw [dif_pos hc]
        rw [e]
        refine ⟨by omega, hc.1, ?_⟩
        rintro c (rfl | rfl) hcn
        · exact hc.2
        · rcases htot (a (2 * root + 2)) (a (2 * root + 2)) with h | h <;> exact h
      · have e : child = 2 * root + 1 := by simp only [child]; first | rw [if_neg hc] | rw [dif_neg hc]
        rw [e]
        refine ⟨by omega, h, ?_⟩
        rintro c (rfl | rfl) hcn
        · rcases htot (a (2 * root + 1)) (a (2 * root + 1)) with h | h <;> exact h
        · rcases htot (a (2 * root + 1)) (a (2 * root + 2)) with h' | h'
          · exact absurd ⟨by omega, h'⟩ hc
          · exact h'
    obtain ⟨hcc, hcn, hcmax⟩ := hchild
    clear_value child
    have hne : root ≠ child := by omega
    have es_root : swap a root child root = a child := by simp [swap]
    have es_child : swap a root child child = a root := by
      simp [swap, Ne.symm hne]
    have es_other : ∀ k, k ≠ root → k ≠ child → swap a root child k = a k := by
      intro k hk1 hk2; simp [swap, hk1, hk2]
    apply ih (by omega)
    · intro p c hp hpc hcp hcn'
      by_cases hpr : p = root
      · subst hpr
        rw [es_root]
        by_cases hcc' : c = child
        · rw [hcc', es_child]; exact hle
        · rw [es_other c (by omega) hcc']; exact hcmax c hcp hcn'
      · rw [es_other p hpr hpc]
        by_cases hcr : c = root
        · -- p is the parent of root
          rw [hcr, es_root]
          exact h2 p child hp (by omega) hcc hcn
        · by_cases hcc' : c = child
          · omega
          · rw [es_other c hcr hcc']; exact h1 p c hp hpr hcp hcn'
    · intro q c hq hqc hcc' hcn'
      have hqr : q = root := by omega
      subst hqr
      rw [es_root, es_other c (by omega) (by omega)]
      exact h1 child c (by omega) (by omega) hcc' hcn'
  | case2 root a h child hle =>
    intro p c hp hpc hcn
    by_cases hpr : p = root
    · have hle' : le (a child) (a root) = true := by
        rcases htot (a root) (a child) with h' | h'
        · exact absurd h' hle
        · exact h'
      have hmax : le (a c) (a child) = true := by
        by_cases hc : 2 * root + 1 + 1 < n ∧ le (a (2 * root + 1)) (a (2 * root + 1 + 1)) = true
        · have e : child = 2 * root + 1 + 1 := by simp only [child]; first | rw [if_pos hc] | rw [dif_pos hc]
          rw [e]; rw [hpr] at hpc
          rcases hpc with h | h
          · rw [h]; exact hc.2
          · rw [h]; rcases htot (a (2 * root + 2)) (a (2 * root + 2)) with h | h <;> exact h
        · have e : child = 2 * root + 1 := by simp only [child]; first | rw [if_neg hc] | rw [dif_neg hc]
          rw [e]; rw [hpr] at hpc
          rcases hpc with h | h
          · rw [h]; rcases htot (a (2 * root + 1)) (a (2 * root + 1)) with h | h <;> exact h
          · rw [h]
            rcases htot (a (2 * root + 1)) (a (2 * root + 2)) with h' | h'
            · exact absurd ⟨by omega, h'⟩ hc
            · exact h'
      rw [hpr]; exact htr _ _ _ hmax hle'
    · exact h1 p c hp hpr hpc hcn
  | case3 root a h =>
    intro p c hp hpc hcn
    by_cases hpr : p = root
    · omega
    · exact h1 p c hp hpr hpc hcn

theorem buildHeap_perm (le : α → α → Bool) (n : Nat) :
    ∀ k a, PermBelow n a (buildHeap le n k a)
  | 0, a => PermBelow.refl _ _
  | k + 1, a => (heapDown_perm le n k a).trans (buildHeap_perm le n k _)

theorem buildHeap_heap {le : α → α → Bool}
    (htot : ∀ x y, le x y = true ∨ le y x = true)
    (htr : ∀ x y z, le x y = true → le y z = true → le x z = true) (n : Nat) :
    ∀ k a, Heap le n k a → Heap le n 0 (buildHeap le n k a)
  | 0, a, h => h
  | k + 1, a, h => by
    apply buildHeap_heap htot htr n k
    apply heapDown_heap htot htr n k k a (Nat.le_refl _)
    · intro p c hp hpk hc hcn; exact h p c (by omega) hc hcn
    · intro q c hq hqc; omega

theorem heap_max {le : α → α → Bool}
    (htot : ∀ x y, le x y = true ∨ le y x = true)
    (htr : ∀ x y z, le x y = true → le y z = true → le x z = true) {n : Nat} {a : Nat → α}
    (h : Heap le n 0 a) : ∀ i, i < n → le (a i) (a 0) = true := by
  intro i
  induction i using Nat.strongRecOn with
  | _ i ih =>
    intro hi
    by_cases h0 : i = 0
    · subst h0; rcases htot (a 0) (a 0) with h | h <;> exact h
    · have hp : (i - 1) / 2 < i := by omega
      exact htr _ _ _ (h ((i - 1) / 2) i (Nat.zero_le _) (by omega) hi) (ih _ hp (by omega))

theorem sortPhase_perm (le : α → α → Bool) :
    ∀ n a, PermBelow n a (sortPhase le n a)
  | 0, a => PermBelow.refl _ _
  | 1, a => PermBelow.refl _ _
  | n + 2, a => by
    refine PermBelow.trans ?_ ((sortPhase_perm le (n + 1) _).mono (by omega))
    exact (PermBelow.swap a (by omega) (by omega)).trans
      ((heapDown_perm le (n + 1) 0 _).mono (by omega))

theorem sortPhase_sorted {le : α → α → Bool}
    (htot : ∀ x y, le x y = true ∨ le y x = true)
    (htr : ∀ x y z, le x y = true → le y z = true → le x z = true) (N : Nat) :
    ∀ n a, n ≤ N → Heap le n 0 a →
      (∀ i j, i < j → n ≤ j → j < N → le (a i) (a j) = true) →
      ∀ i j, i < j → j < N → le (sortPhase le n a i) (sortPhase le n a j) = true
  | 0, a, _, _, hs => fun i j h1 h2 => hs i j h1 (Nat.zero_le _) h2
  | 1, a, _, _, hs => fun i j h1 h2 => hs i j h1 (by omega) h2
  | n + 2, a, hn, hh, hs => by
    have hmax := heap_max htot htr hh
    have hpd := heapDown_perm le (n + 1) 0 (swap a 0 (n + 1))
    apply sortPhase_sorted htot htr N (n + 1) _ (by omega)
    · apply heapDown_heap htot htr (n + 1) 0 0 _ (Nat.le_refl _)
      · intro p c hp hp0 hc hcn
        have e1 : swap a 0 (n + 1) c = a c := by
          simp only [swap]; rw [if_neg (by omega), if_neg (by omega)]
        have e2 : swap a 0 (n + 1) p = a p := by
          simp only [swap]; rw [if_neg (by omega), if_neg (by omega)]
        rw [e1, e2]; exact hh p c hp hc (by omega)
      · intro q c hq hqc; omega
    · intro i j hij hj hjN
      -- values: position j ≥ n+1 is untouched by heapDown
      rw [hpd.ge hj]
      have key : ∀ i', i' < j → le (swap a 0 (n + 1) i') (swap a 0 (n + 1) j) = true := by
        intro i' hi'
        by_cases hjn : j = n + 1
        · have : swap a 0 (n + 1) j = a 0 := by
            simp only [swap]; rw [if_neg (by omega), if_pos hjn]
          rw [this]
          simp only [swap]
          split
          · exact hmax _ (by omega)
          · split
            · omega
            · exact hmax _ (by omega)
        · have : swap a 0 (n + 1) j = a j := by
            simp only [swap]; rw [if_neg (by omega), if_neg hjn]
          rw [this]
          simp only [swap]
          split
          · exact hs _ _ (by omega) (by omega) hjN
          · split
            · exact hs _ _ (by omega) (by omega) hjN
            · exact hs _ _ (by omega) (by omega) hjN
      by_cases hi : n + 1 ≤ i
      · rw [hpd.ge hi]; exact key i hij
      · obtain ⟨k, hk, ek⟩ := hpd.src (i := i) (by omega)
        rw [ek]; exact key k (by omega)

end H2.Heapsort
