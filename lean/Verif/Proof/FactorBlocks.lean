import Verif.Proof.FactorUse

/-! # Blocked LR decomposition -/

set_option linter.unusedSectionVars false

namespace H2.Dense
open Spec
variable {K : Type} [Field K] [StarRing K]

/-! ### windows -/

/-- a submatrix -/
def win (a : Mat) (rs ro cs co : Nat) : Mat := ⟨a.base + ro + a.ld * co, a.ld, rs, cs⟩

theorem initSub_win {a : Mat} {rs ro cs co : Nat} (h1 : ro + rs ≤ a.rows) (h2 : co + cs ≤ a.cols) :
    initSub a rs ro cs co = .ok (win a rs ro cs co) := initSub_ok.mpr ⟨h1, h2, rfl⟩

theorem win_addr (a : Mat) (rs ro cs co i j : Nat) : (win a rs ro cs co).addr i j = a.addr (ro + i) (co + j) := by
  simp only [win, Mat.addr]; ring

theorem win_valid {a : Mat} {rs ro cs co : Nat} {m : Mem K} (ha : a.Valid m) (h1 : ro + rs ≤ a.rows) (h2 : co + cs ≤ a.cols) :
    (win a rs ro cs co).Valid m := by
  refine ⟨by have := ha.1; simp only [win]; omega, fun i hi j hj => ?_⟩
  simp only [win] at hi hj
  rw [win_addr]
  exact ha.2 _ (by omega) _ (by omega)

theorem win_val (a : Mat) (rs ro cs co : Nat) (m : Mem K) (i j : Nat) :
    (win a rs ro cs co).val m i j = a.val m (ro + i) (co + j) := by
  unfold Mat.val; rw [win_addr]

theorem win_disj {a : Mat} {rs ro cs co rs' ro' cs' co' : Nat} (hld : a.rows ≤ a.ld) (h1 : ro + rs ≤ a.rows)
    (h1' : ro' + rs' ≤ a.rows)
    (h : ro + rs ≤ ro' ∨ ro' + rs' ≤ ro ∨ co + cs ≤ co' ∨ co' + cs' ≤ co) :
    Disj (win a rs ro cs co).Cell (win a rs' ro' cs' co').Cell := by
  rintro c ⟨i, hi, j, hj, e⟩ ⟨i', hi', j', hj', e'⟩
  simp only [win] at hi hj hi' hj'
  rw [win_addr] at e e'
  have := Mat.addr_inj hld (show ro + i < a.rows by omega) (show ro' + i' < a.rows by omega) (e.symm.trans e')
  omega

theorem win_becomes_val {a : Mat} {rs ro cs co : Nat} {m m' : Mem K} {F : Nat → Nat → K} (h : MatBecomes a m F m')
    (h1 : ro + rs ≤ a.rows) (h2 : co + cs ≤ a.cols) {i j : Nat} (hi : i < rs) (hj : j < cs) :
    (win a rs ro cs co).val m' i j = F (ro + i) (co + j) := by
  rw [win_val, h.2.1 _ (by omega) _ (by omega)]

theorem win_lift {a : Mat} {rs ro cs co : Nat} {m m1 m2 : Mem K} {F G : Nat → Nat → K} (h : MatBecomes a m F m1)
    (hg : MatBecomes (win a rs ro cs co) m1 G m2) (h1 : ro + rs ≤ a.rows) (h2 : co + cs ≤ a.cols) :
    MatBecomes a m (fun r c => if ro ≤ r ∧ r < ro + rs ∧ co ≤ c ∧ c < co + cs then G (r - ro) (c - co) else F r c) m2 := by
  have hval : ∀ r < a.rows, ∀ c < a.cols, m2 (a.addr r c) =
      some (if ro ≤ r ∧ r < ro + rs ∧ co ≤ c ∧ c < co + cs then G (r - ro) (c - co) else F r c) := by
    intro r hr c hc
    by_cases e : ro ≤ r ∧ r < ro + rs ∧ co ≤ c ∧ c < co + cs
    · rw [if_pos e]
      have := hg.1.some (show r - ro < (win a rs ro cs co).rows by simp only [win]; omega)
        (show c - co < (win a rs ro cs co).cols by simp only [win]; omega)
      rw [hg.2.1 (r - ro) (by simp only [win]; omega) (c - co) (by simp only [win]; omega), win_addr] at this
      rwa [show ro + (r - ro) = r by omega, show co + (c - co) = c by omega] at this
    · rw [if_neg e, hg.2.2, h.1.some hr hc, h.2.1 r hr c hc]
      rintro ⟨i, hi, j, hj, e'⟩
      simp only [win] at hi hj
      rw [win_addr] at e'
      have := Mat.addr_inj h.1.1 hr (show ro + i < a.rows by omega) e'
      omega
  refine ⟨⟨h.1.1, fun r hr c hc => by rw [hval r hr c hc]; rfl⟩, fun r hr c hc => by simp [Mat.val, hval r hr c hc], fun p hp => ?_⟩
  rw [hg.2.2 p, h.2.2 p hp]
  rintro ⟨i, hi, j, hj, e'⟩
  simp only [win] at hi hj
  rw [win_addr] at e'
  exact hp (e' ▸ Mat.cell_addr (by omega) (by omega))

/-! ### offsets -/

/-- what the partition of the index range satisfies -/
structure Off (n blocks : Nat) (off size : Nat → Nat) : Prop where
  zero : off 0 = 0
  last : off blocks = n
  next : ∀ k < blocks, off k + size k = off (k + 1)
  pos : ∀ k < blocks, 0 < size k

theorem Off.mono {n blocks : Nat} {off size : Nat → Nat} (h : Off n blocks off size) {i j : Nat} (hij : i ≤ j) (hj : j ≤ blocks) :
    off i ≤ off j := by
  induction j with
  | zero => rw [Nat.le_zero.mp hij]
  | succ j ih =>
    by_cases e : i = j + 1
    · rw [e]
    · have := ih (by omega) (by omega)
      have := h.next j (by omega)
      omega

theorem Off.le {n blocks : Nat} {off size : Nat → Nat} (h : Off n blocks off size) {j : Nat} (hj : j ≤ blocks) : off j ≤ n := by
  have := h.mono hj le_rfl
  rwa [h.last] at this

theorem off_of {n blocks : Nat} (h0 : 0 < blocks) (hb : blocks ≤ n) (hw : n * blocks < 2 ^ 32) :
    Off n blocks (blockOff n blocks) (blockSize n blocks) := by
  have e : ∀ k ≤ blocks, blockOff n blocks k = n * k / blocks := fun k hk => by
    unfold blockOff
    rw [Nat.mod_eq_of_lt]
    exact lt_of_le_of_lt (Nat.mul_le_mul_left n hk) hw
  have hn : n < 2 ^ 32 := by
    have : n * 1 ≤ n * blocks := Nat.mul_le_mul_left n h0
    omega
  have le : ∀ k ≤ blocks, n * k / blocks ≤ n := fun k hk => by
    calc n * k / blocks ≤ n * blocks / blocks := Nat.div_le_div_right (Nat.mul_le_mul_left n hk)
      _ = n := Nat.mul_div_cancel n h0
  have step : ∀ k < blocks, n * k / blocks + 1 ≤ n * (k + 1) / blocks := fun k hk => by
    rw [show n * k / blocks + 1 = (n * k + blocks) / blocks from (Nat.add_div_right _ h0).symm]
    exact Nat.div_le_div_right (by rw [Nat.mul_succ]; omega)
  have sz : ∀ k < blocks, blockSize n blocks k = n * (k + 1) / blocks - n * k / blocks := fun k hk => by
    unfold blockSize
    rw [e k (by omega), e (k + 1) (by omega)]
    have := step k hk
    have := le (k + 1) (by omega)
    generalize n * (k + 1) / blocks = x at *
    generalize n * k / blocks = y at *
    rw [show x + 2 ^ 32 - y = (x - y) + 2 ^ 32 by omega, Nat.add_mod_right, Nat.mod_eq_of_lt (by omega)]
  refine ⟨?_, ?_, fun k hk => ?_, fun k hk => ?_⟩
  · rw [e 0 (by omega)]; simp
  · rw [e blocks le_rfl, Nat.mul_div_cancel n h0]
  · rw [sz k hk, e k (by omega), e (k + 1) (by omega)]
    have := step k hk; omega
  · rw [sz k hk]
    have := step k hk; omega

/-! ### functions -/

theorem tri_congr {lower unit : Bool} {F G : Nat → Nat → K} {i j : Nat} (h1 : F i j = G i j) (h2 : F i i = G i i) :
    tri lower unit F i j = tri lower unit G i j := by unfold tri; rw [h1, h2]

theorem lrInv_congr {A B : Nat → Nat → K} {n i : Nat} {F G : Nat → Nat → K} (h : LRInv A n i F) (hi : i ≤ n)
    (hA : ∀ r < n, ∀ c < n, A r c = B r c) (hF : ∀ r < n, ∀ c < n, F r c = G r c) : LRInv B n i G := by
  refine ⟨fun j hj => by rw [← hF j (by omega) j (by omega)]; exact h.1 j hj, fun r hr c hc => ?_⟩
  rw [← hA r hr c hc, h.2 r hr c hc, hF r hr c hc]
  congr 1
  refine Finset.sum_congr rfl fun k hk => ?_
  have := Finset.mem_range.mp hk
  rw [tri_congr (hF r hr k (by omega)) (hF r hr r hr), tri_congr (hF k (by omega) c hc) (hF k (by omega) k (by omega))]

/-- a decomposition of a diagonal block continues the decomposition of the matrix -/
theorem lrInv_nest {A : Nat → Nat → K} {n o s i : Nat} {F F' G : Nat → Nat → K} (h : LRInv A n o F) (hs : o + s ≤ n) (hi : i ≤ s)
    (hG : LRInv (fun r c => F (o + r) (o + c)) s i G) (hold : ∀ r c, (r < o ∨ c < o) → F' r c = F r c)
    (hnew : ∀ r < s, ∀ c < s, F' (o + r) (o + c) = G r c) : LRInv A (o + s) (o + i) F' := by
  refine ⟨fun j hj => ?_, fun r hr c hc => ?_⟩
  · by_cases e : j < o
    · rw [hold j j (.inl e)]; exact h.1 j e
    · have := hG.1 (j - o) (by omega)
      rwa [← hnew _ (by omega) _ (by omega), show o + (j - o) = j by omega] at this
  · rw [h.2 r (by omega) c (by omega), ← Finset.sum_range_add_sum_Ico _ (show o ≤ o + i by omega), add_assoc]
    congr 1
    · refine Finset.sum_congr rfl fun k hk => ?_
      have := Finset.mem_range.mp hk
      unfold tri
      simp only [if_true, Bool.false_eq_true, if_false]
      rw [hold r k (.inr this), hold k k (.inl this), hold k c (.inl this)]
    · by_cases e : o ≤ r ∧ o ≤ c
      · rw [if_pos e]
        have hrc := hG.2 (r - o) (by omega) (c - o) (by omega)
        simp only at hrc
        rw [show o + (r - o) = r by omega, show o + (c - o) = c by omega] at hrc
        have er : F' r c = G (r - o) (c - o) := by
          rw [← hnew _ (by omega) _ (by omega), show o + (r - o) = r by omega, show o + (c - o) = c by omega]
        rw [hrc, Finset.sum_Ico_eq_sum_range, show o + i - o = i by omega]
        congr 1
        · refine Finset.sum_congr rfl fun k hk => ?_
          have := Finset.mem_range.mp hk
          have e1 : F' r (o + k) = G (r - o) k := by
            rw [← hnew _ (by omega) _ (by omega), show o + (r - o) = r by omega]
          have e2 : F' (o + k) c = G k (c - o) := by
            rw [← hnew _ (by omega) _ (by omega), show o + (c - o) = c by omega]
          have e3 : F' (o + k) (o + k) = G k k := hnew _ (by omega) _ (by omega)
          unfold tri
          simp only [if_true, Bool.false_eq_true, if_false]
          rw [e1, e2, e3]
          by_cases h1 : r = o + k
          · rw [if_pos h1, if_pos (show r - o = k by omega)]
            by_cases h2 : o + k = c
            · rw [if_pos h2, if_pos (show k = c - o by omega)]
            · rw [if_neg h2, if_neg (show ¬ k = c - o by omega)]
              by_cases h3 : o + k < c
              · rw [if_pos h3, if_pos (by omega)]
              · rw [if_neg h3, if_neg (by omega)]
          · rw [if_neg h1, if_neg (show ¬ r - o = k by omega)]
            by_cases h4 : o + k < r
            · rw [if_pos h4, if_pos (show k < r - o by omega)]
              by_cases h2 : o + k = c
              · rw [if_pos h2, if_pos (show k = c - o by omega)]
              · rw [if_neg h2, if_neg (show ¬ k = c - o by omega)]
                by_cases h3 : o + k < c
                · rw [if_pos h3, if_pos (by omega)]
                · rw [if_neg h3, if_neg (by omega)]
            · rw [if_neg h4, if_neg (show ¬ k < r - o by omega), zero_mul, zero_mul]
        · rw [er]
          by_cases h5 : i ≤ r - o ∧ i ≤ c - o
          · rw [if_pos h5, if_pos (by omega)]
          · rw [if_neg h5, if_neg (by omega)]
      · rw [if_neg e, if_neg (by omega), add_zero, Finset.sum_eq_zero]
        intro k hk
        have := Finset.mem_Ico.mp hk
        unfold tri
        simp only [if_true, Bool.false_eq_true, if_false]
        by_cases h1 : r < o
        · rw [if_neg (show ¬ r = k by omega), if_neg (show ¬ k < r by omega), zero_mul]
        · rw [if_neg (show ¬ k = c by omega), if_neg (show ¬ k < c by omega), mul_zero]

/-- a block elimination step -/
theorem lrInv_blockStep {A : Nat → Nat → K} {n o e : Nat} {F F' : Nat → Nat → K} (h : LRInv A n o F) (hoe : o ≤ e)
    (hold : ∀ r c, (r < o ∨ c < o) → F' r c = F r c) (hd : ∀ j, o ≤ j → j < e → F' j j ≠ 0)
    (hnew : ∀ r, o ≤ r → r < n → ∀ c, o ≤ c → c < n → F r c =
      ∑ k ∈ Finset.Ico o e, tri true true F' r k * tri false false F' k c + if e ≤ r ∧ e ≤ c then F' r c else 0) :
    LRInv A n e F' := by
  refine ⟨fun j hj => ?_, fun r hr c hc => ?_⟩
  · by_cases e' : j < o
    · rw [hold j j (.inl e')]; exact h.1 j e'
    · exact hd j (by omega) hj
  · rw [h.2 r hr c hc, ← Finset.sum_range_add_sum_Ico _ hoe, add_assoc]
    congr 1
    · refine Finset.sum_congr rfl fun k hk => ?_
      have := Finset.mem_range.mp hk
      unfold tri
      simp only [if_true, Bool.false_eq_true, if_false]
      rw [hold r k (.inr this), hold k k (.inl this), hold k c (.inl this)]
    · by_cases e' : o ≤ r ∧ o ≤ c
      · rw [if_pos e', hnew r e'.1 hr c e'.2 hc]
      · rw [if_neg e', if_neg (by omega), add_zero, Finset.sum_eq_zero]
        intro k hk
        have := Finset.mem_Ico.mp hk
        unfold tri
        simp only [if_true, Bool.false_eq_true, if_false]
        by_cases h1 : r < o
        · rw [if_neg (show ¬ r = k by omega), if_neg (show ¬ k < r by omega), zero_mul]
        · rw [if_neg (show ¬ k = c by omega), if_neg (show ¬ k < c by omega), mul_zero]

/-- fewer rows and columns -/
theorem firstZeroMinor_le {A : Nat → Nat → K} {n n' p : Nat} (h : FirstZeroMinor A n p) (hp : 0 < p) (hn : n ≤ n') :
    FirstZeroMinor A n' p := by
  rcases h with ⟨h1, _⟩ | ⟨h1, h2, h3, h4⟩
  · exact absurd hp (by omega)
  · exact .inr ⟨h1, by omega, h3, h4⟩

/-! ### the phases of a block step -/

theorem tri_shift (lower unit : Bool) (F : Nat → Nat → K) (o i j : Nat) :
    tri lower unit (fun i j => F (o + i) (o + j)) i j = tri lower unit F (o + i) (o + j) := by
  unfold tri
  by_cases e : i = j
  · subst e; simp
  · rw [if_neg e, if_neg (show ¬ o + i = o + j by omega)]
    cases lower <;> simp

theorem sum_shift (o s : Nat) (f : Nat → K) : ∑ l ∈ Finset.range s, f (o + l) = ∑ l ∈ Finset.Ico o (o + s), f l := by
  rw [Finset.sum_Ico_eq_sum_range, show o + s - o = s by omega]

section
variable {a : Mat} {blocks : Nat} {off size : Nat → Nat}

theorem subBlock_win (hO : Off a.rows blocks (blockOff a.rows blocks) (blockSize a.rows blocks)) (hsq : a.rows = a.cols)
    {i j : Nat} (hi : i < blocks) (hj : j < blocks) : subBlock a blocks i j =
      .ok (win a (blockSize a.rows blocks i) (blockOff a.rows blocks i) (blockSize a.rows blocks j) (blockOff a.rows blocks j)) := by
  have := hO.next i hi; have := hO.le (show i + 1 ≤ blocks by omega)
  have := hO.next j hj; have := hO.le (show j + 1 ≤ blocks by omega)
  exact initSub_win (by omega) (by omega)

/-- the block `(i, j)` -/
def blk (a : Mat) (off size : Nat → Nat) (i j : Nat) : Mat := win a (size i) (off i) (size j) (off j)

variable (hO : Off a.rows blocks off size) (hsq : a.rows = a.cols)
include hO hsq

theorem blk_lift {i j : Nat} (hi : i < blocks) (hj : j < blocks) {m m1 m2 : Mem K} {F G : Nat → Nat → K} (h : MatBecomes a m F m1)
    (hg : MatBecomes (blk a off size i j) m1 G m2) :
    MatBecomes a m (fun r c => if off i ≤ r ∧ r < off (i + 1) ∧ off j ≤ c ∧ c < off (j + 1) then G (r - off i) (c - off j)
      else F r c) m2 := by
  have h1 := hO.next i hi; have := hO.le (show i + 1 ≤ blocks by omega)
  have h2 := hO.next j hj; have := hO.le (show j + 1 ≤ blocks by omega)
  have := win_lift h hg (by omega) (by omega)
  rwa [h1, h2] at this

theorem blk_valid {i j : Nat} (hi : i < blocks) (hj : j < blocks) {m : Mem K} (ha : a.Valid m) : (blk a off size i j).Valid m := by
  have h1 := hO.next i hi; have := hO.le (show i + 1 ≤ blocks by omega)
  have h2 := hO.next j hj; have := hO.le (show j + 1 ≤ blocks by omega)
  exact win_valid ha (by omega) (by omega)

theorem blk_val {i j : Nat} (hi : i < blocks) (hj : j < blocks) {m m' : Mem K} {F : Nat → Nat → K} (h : MatBecomes a m F m')
    {r c : Nat} (hr : r < size i) (hc : c < size j) : (blk a off size i j).val m' r c = F (off i + r) (off j + c) := by
  have h1 := hO.next i hi; have := hO.le (show i + 1 ≤ blocks by omega)
  have h2 := hO.next j hj; have := hO.le (show j + 1 ≤ blocks by omega)
  exact win_becomes_val h (by omega) (by omega) hr hc

theorem blk_disj {i j i' j' : Nat} (hi : i < blocks) (hj : j < blocks) (hi' : i' < blocks) (hj' : j' < blocks)
    (hne : i ≠ i' ∨ j ≠ j') (hld : a.rows ≤ a.ld) : Disj (blk a off size i j).Cell (blk a off size i' j').Cell := by
  have h1 := hO.next i hi; have := hO.le (show i + 1 ≤ blocks by omega)
  have h2 := hO.next i' hi'; have := hO.le (show i' + 1 ≤ blocks by omega)
  have h3 := hO.next j hj
  have h4 := hO.next j' hj'
  have sep : ∀ x y, x < blocks → y < blocks → x ≠ y → off x + size x ≤ off y ∨ off y + size y ≤ off x := by
    intro x y hx hy hxy
    rw [hO.next x hx, hO.next y hy]
    rcases lt_or_gt_of_ne hxy with h | h
    · exact .inl (hO.mono h (by omega))
    · exact .inr (hO.mono h (by omega))
  refine win_disj hld (by omega) (by omega) ?_
  rcases hne with h | h
  · rcases sep i i' hi hi' h with h | h
    · exact .inl h
    · exact .inr (.inl h)
  · rcases sep j j' hj hj' h with h | h
    · exact .inr (.inr (.inl h))
    · exact .inr (.inr (.inr h))

/-- `A_{kj} = L_{kk} R_{kj}` -/
theorem solveR_tot {k j : Nat} (hk : k < blocks) (hj : j < blocks) (hkj : k < j) {m m' : Mem K} {F : Nat → Nat → K}
    (h : MatBecomes a m F m') :
    Tot (trisolve true true false (blk a off size k k) false (blk a off size k j) m') (fun m2 => ∃ F', MatBecomes a m F' m2 ∧
      (∀ r c, ¬ (off k ≤ r ∧ r < off (k + 1) ∧ off j ≤ c ∧ c < off (j + 1)) → F' r c = F r c) ∧
      ∀ r, off k ≤ r → r < off (k + 1) → ∀ c, off j ≤ c → c < off (j + 1) →
        ∑ l ∈ Finset.Ico (off k) (off (k + 1)), tri true true F r l * F' l c = F r c) := by
  have hkn := hO.next k hk
  have hjn := hO.next j hj
  have hmin : min (blk a off size k k).rows (blk a off size k k).cols = size k := by simp [blk, win]
  refine (trisolve_tot (blk_valid hO hsq hk hk h.1) (blk_valid hO hsq hk hj h.1)
    (blk_disj hO hsq hk hk hk hj (.inr (by omega)) h.1.1) true true false false (by rw [hmin]; exact le_rfl)
    (fun h => absurd h (by decide))).mono ?_
  rintro m2 ⟨X, h1, h2, _⟩
  rw [hmin] at h2
  refine ⟨_, blk_lift hO hsq hk hj h h1, fun r c hrc => if_neg hrc, fun r hr1 hr2 c hc1 hc2 => ?_⟩
  have := h2 (r - off k) (by omega) (c - off j)
  simp only [op, Bool.false_eq_true, if_false] at this
  rw [blk_val hO hsq hk hj h (by omega) (by omega), show off k + (r - off k) = r by omega,
    show off j + (c - off j) = c by omega] at this
  rw [← this, ← hkn, ← sum_shift]
  refine Finset.sum_congr rfl fun l hl => ?_
  have := Finset.mem_range.mp hl
  rw [if_pos (by omega), show off k + l - off k = l by omega, show r = off k + (r - off k) by omega, ← tri_shift,
    show off k + (r - off k) - off k = r - off k by omega]
  congr 1
  exact tri_congr (blk_val hO hsq hk hk h (by omega) (by omega)).symm (blk_val hO hsq hk hk h (by omega) (by omega)).symm

/-- `A_{ik} = L_{ik} R_{kk}` -/
theorem solveL_tot {k i : Nat} (hk : k < blocks) (hi : i < blocks) (hki : k < i) {m m' : Mem K} {F : Nat → Nat → K}
    (h : MatBecomes a m F m') (hD : ∀ r, off k ≤ r → r < off (k + 1) → F r r ≠ 0) :
    Tot (trisolve false false true (blk a off size k k) true (blk a off size i k) m') (fun m2 => ∃ F', MatBecomes a m F' m2 ∧
      (∀ r c, ¬ (off i ≤ r ∧ r < off (i + 1) ∧ off k ≤ c ∧ c < off (k + 1)) → F' r c = F r c) ∧
      ∀ r, off i ≤ r → r < off (i + 1) → ∀ c, off k ≤ c → c < off (k + 1) →
        ∑ l ∈ Finset.Ico (off k) (off (k + 1)), F' r l * tri false false F l c = F r c) := by
  have hkn := hO.next k hk
  have hin := hO.next i hi
  have hmin : min (blk a off size k k).rows (blk a off size k k).cols = size k := by simp [blk, win]
  refine (trisolve_tot (blk_valid hO hsq hk hk h.1) (blk_valid hO hsq hi hk h.1)
    (blk_disj hO hsq hk hk hi hk (.inl (by omega)) h.1.1) false false true true (by rw [hmin]; exact le_rfl)
    (fun _ j hj => ?_)).mono ?_
  · rw [hmin] at hj
    rw [blk_val hO hsq hk hk h hj hj]
    exact hD _ (by omega) (by omega)
  rintro m2 ⟨X, h1, h2, _⟩
  rw [hmin] at h2
  refine ⟨_, blk_lift hO hsq hi hk h h1, fun r c hrc => if_neg hrc, fun r hr1 hr2 c hc1 hc2 => ?_⟩
  have := congrArg star (h2 (c - off k) (by omega) (r - off i))
  simp only [op, if_true, star_star, star_sum, star_mul'] at this
  rw [blk_val hO hsq hi hk h (by omega) (by omega), show off k + (c - off k) = c by omega,
    show off i + (r - off i) = r by omega] at this
  rw [← this, ← hkn, ← sum_shift]
  refine Finset.sum_congr rfl fun l hl => ?_
  have := Finset.mem_range.mp hl
  rw [if_pos (by omega), show off k + l - off k = l by omega, mul_comm, show tri false false F (off k + l) c =
    tri false false F (off k + l) (off k + (c - off k)) by rw [show off k + (c - off k) = c by omega], ← tri_shift]
  congr 1
  exact tri_congr (blk_val hO hsq hk hk h (by omega) (by omega)).symm (blk_val hO hsq hk hk h (by omega) (by omega)).symm

/-- `A_{ij} -= L_{ik} R_{kj}` -/
theorem update_tot {k i j : Nat} (hk : k < blocks) (hi : i < blocks) (hj : j < blocks) (hki : k < i) (hkj : k < j) {m m' : Mem K}
    {F : Nat → Nat → K} (h : MatBecomes a m F m') :
    Tot (addmul (-1) false (blk a off size i k) false (blk a off size k j) (blk a off size i j) m') (MatBecomes a m fun r c =>
      if off i ≤ r ∧ r < off (i + 1) ∧ off j ≤ c ∧ c < off (j + 1) then
        F r c - ∑ l ∈ Finset.Ico (off k) (off (k + 1)), F r l * F l c else F r c) := by
  have hkn := hO.next k hk
  have hin := hO.next i hi
  have hjn := hO.next j hj
  refine (addmul_tot (blk_valid hO hsq hi hk h.1) (blk_valid hO hsq hk hj h.1) (blk_valid hO hsq hi hj h.1)
    (blk_disj hO hsq hi hk hi hj (.inr (by omega)) h.1.1) (blk_disj hO hsq hk hj hi hj (.inl (by omega)) h.1.1) false false
    rfl le_rfl le_rfl (-1)).mono fun m2 h1 => becomes_congr (blk_lift hO hsq hi hj h h1) fun r _ c _ => ?_
  by_cases e : off i ≤ r ∧ r < off (i + 1) ∧ off j ≤ c ∧ c < off (j + 1)
  · rw [if_pos e, if_pos e]
    simp only [opRows, opCols, op, Bool.false_eq_true, if_false]
    rw [show (blk a off size i k).rows = size i from rfl, show (blk a off size k j).cols = size j from rfl,
      show (blk a off size i k).cols = size k from rfl, if_pos (show r - off i < size i ∧ c - off j < size j by omega),
      blk_val hO hsq hi hj h (by omega) (by omega), show off i + (r - off i) = r by omega, show off j + (c - off j) = c by omega,
      neg_one_mul, ← sub_eq_add_neg, ← hkn, ← sum_shift]
    congr 1
    refine Finset.sum_congr rfl fun l hl => ?_
    have := Finset.mem_range.mp hl
    rw [blk_val hO hsq hi hk h (by omega) (by omega), blk_val hO hsq hk hj h (by omega) (by omega),
      show off i + (r - off i) = r by omega, show off j + (c - off j) = c by omega]
  · rw [if_neg e, if_neg e]

/-- all the blocks right of the diagonal block -/
theorem phaseR_tot {k : Nat} (hk : k < blocks) {m m' : Mem K} {F : Nat → Nat → K} (h : MatBecomes a m F m') :
    Tot (forUp (k + 1) blocks (fun j m => trisolve true true false (blk a off size k k) false (blk a off size k j) m) m')
      (fun m2 => ∃ F', MatBecomes a m F' m2 ∧
      (∀ r c, ¬ (off k ≤ r ∧ r < off (k + 1) ∧ off (k + 1) ≤ c ∧ c < a.rows) → F' r c = F r c) ∧
      ∀ r, off k ≤ r → r < off (k + 1) → ∀ c, off (k + 1) ≤ c → c < a.rows →
        ∑ l ∈ Finset.Ico (off k) (off (k + 1)), tri true true F r l * F' l c = F r c) := by
  rw [← hO.last]
  refine forUp_tot (fun j (m2 : Mem K) => ∃ F', MatBecomes a m F' m2 ∧
      (∀ r c, ¬ (off k ≤ r ∧ r < off (k + 1) ∧ off (k + 1) ≤ c ∧ c < off j) → F' r c = F r c) ∧
      ∀ r, off k ≤ r → r < off (k + 1) → ∀ c, off (k + 1) ≤ c → c < off j →
        ∑ l ∈ Finset.Ico (off k) (off (k + 1)), tri true true F r l * F' l c = F r c) (by omega)
    ⟨F, h, fun _ _ _ => rfl, fun r _ _ c h1 h2 => absurd h1 (by omega)⟩ ?_
  rintro j m1 h1 h2 ⟨F1, b1, b2, b3⟩
  have hj := hO.mono h1 (by omega)
  refine (solveR_tot hO hsq hk h2 (by omega) b1).mono ?_
  rintro m2 ⟨F2, c1, c2, c3⟩
  refine ⟨F2, c1, fun r c hrc => ?_, fun r hr1 hr2 c hc1 hc2 => ?_⟩
  · have := hO.mono (show j ≤ j + 1 by omega) (by omega)
    rw [c2 r c (by omega), b2 r c (by omega)]
  · by_cases e : c < off j
    · rw [← b3 r hr1 hr2 c hc1 e]
      exact Finset.sum_congr rfl fun l hl => by
        have := Finset.mem_Ico.mp hl
        rw [c2 l c (by omega)]
    · rw [← b2 r c (by omega), ← c3 r hr1 hr2 c (by omega) hc2]
      exact Finset.sum_congr rfl fun l hl => by
        have := Finset.mem_Ico.mp hl
        rw [tri_congr (b2 r l (by omega)) (b2 r r (by omega))]

/-- all the blocks below the diagonal block -/
theorem phaseL_tot {k : Nat} (hk : k < blocks) {m m' : Mem K} {F : Nat → Nat → K} (h : MatBecomes a m F m')
    (hD : ∀ r, off k ≤ r → r < off (k + 1) → F r r ≠ 0) :
    Tot (forUp (k + 1) blocks (fun i m => trisolve false false true (blk a off size k k) true (blk a off size i k) m) m')
      (fun m2 => ∃ F', MatBecomes a m F' m2 ∧
      (∀ r c, ¬ (off (k + 1) ≤ r ∧ r < a.rows ∧ off k ≤ c ∧ c < off (k + 1)) → F' r c = F r c) ∧
      ∀ r, off (k + 1) ≤ r → r < a.rows → ∀ c, off k ≤ c → c < off (k + 1) →
        ∑ l ∈ Finset.Ico (off k) (off (k + 1)), F' r l * tri false false F l c = F r c) := by
  rw [← hO.last]
  refine forUp_tot (fun i (m2 : Mem K) => ∃ F', MatBecomes a m F' m2 ∧
      (∀ r c, ¬ (off (k + 1) ≤ r ∧ r < off i ∧ off k ≤ c ∧ c < off (k + 1)) → F' r c = F r c) ∧
      ∀ r, off (k + 1) ≤ r → r < off i → ∀ c, off k ≤ c → c < off (k + 1) →
        ∑ l ∈ Finset.Ico (off k) (off (k + 1)), F' r l * tri false false F l c = F r c) (by omega)
    ⟨F, h, fun _ _ _ => rfl, fun r h1 h2 => absurd h1 (by omega)⟩ ?_
  rintro i m1 h1 h2 ⟨F1, b1, b2, b3⟩
  have hi := hO.mono h1 (by omega)
  refine (solveL_tot hO hsq hk h2 (by omega) b1 (fun r hr1 hr2 => by rw [b2 r r (by omega)]; exact hD r hr1 hr2)).mono ?_
  rintro m2 ⟨F2, c1, c2, c3⟩
  refine ⟨F2, c1, fun r c hrc => ?_, fun r hr1 hr2 c hc1 hc2 => ?_⟩
  · have := hO.mono (show i ≤ i + 1 by omega) (by omega)
    rw [c2 r c (by omega), b2 r c (by omega)]
  · by_cases e : r < off i
    · rw [← b3 r hr1 e c hc1 hc2]
      exact Finset.sum_congr rfl fun l hl => by
        have := Finset.mem_Ico.mp hl
        rw [c2 r l (by omega)]
    · rw [← b2 r c (by omega), ← c3 r (by omega) hr2 c hc1 hc2]
      exact Finset.sum_congr rfl fun l hl => by
        have := Finset.mem_Ico.mp hl
        rw [tri_congr (b2 l c (by omega)) (b2 l l (by omega))]

/-- all the updates -/
theorem phaseU_tot {k : Nat} (hk : k < blocks) {m m' : Mem K} {F : Nat → Nat → K} (h : MatBecomes a m F m') :
    Tot (forUp (k + 1) blocks (fun j m => forUp (k + 1) blocks (fun i m =>
      addmul (-1) false (blk a off size i k) false (blk a off size k j) (blk a off size i j) m) m) m') (MatBecomes a m fun r c =>
      if off (k + 1) ≤ r ∧ r < a.rows ∧ off (k + 1) ≤ c ∧ c < a.rows then
        F r c - ∑ l ∈ Finset.Ico (off k) (off (k + 1)), F r l * F l c else F r c) := by
  have hmono := hO.mono (show k ≤ k + 1 by omega) (show k + 1 ≤ blocks by omega)
  rw [← hO.last]
  refine forUp_tot (fun j (m2 : Mem K) => MatBecomes a m (fun r c =>
      if off (k + 1) ≤ r ∧ r < off blocks ∧ off (k + 1) ≤ c ∧ c < off j then
        F r c - ∑ l ∈ Finset.Ico (off k) (off (k + 1)), F r l * F l c else F r c) m2) (by omega)
    (becomes_congr h fun r _ c _ => by rw [if_neg (by omega)]) ?_
  intro j m1 h1 h2 b1
  have hj := hO.mono h1 (by omega)
  have hj' := hO.mono (show j ≤ j + 1 by omega) (by omega)
  refine (forUp_tot (fun i (m2 : Mem K) => MatBecomes a m (fun r c =>
      if off (k + 1) ≤ r ∧ (r < off blocks ∧ off (k + 1) ≤ c ∧ c < off j ∨ r < off i ∧ off j ≤ c ∧ c < off (j + 1)) then
        F r c - ∑ l ∈ Finset.Ico (off k) (off (k + 1)), F r l * F l c else F r c) m2) (show k + 1 ≤ blocks by omega)
    (becomes_congr b1 fun r _ c _ => ?_) ?_).mono fun m2 h => becomes_congr h fun r _ c _ => ?_
  · by_cases e : off (k + 1) ≤ r ∧ r < off blocks ∧ off (k + 1) ≤ c ∧ c < off j
    · rw [if_pos e, if_pos (by omega)]
    · rw [if_neg e, if_neg (by omega)]
  · intro i m2 h3 h4 b2
    have hi := hO.mono h3 (by omega)
    have hi' := hO.mono (show i ≤ i + 1 by omega) (by omega)
    have hib := hO.mono (show i + 1 ≤ blocks by omega) le_rfl
    refine (update_tot hO hsq hk h4 h2 (by omega) (by omega) b2).mono fun m3 b3 => becomes_congr b3 fun r _ c _ => ?_
    by_cases e : off i ≤ r ∧ r < off (i + 1) ∧ off j ≤ c ∧ c < off (j + 1)
    · rw [if_pos e, if_neg (by omega), if_pos (by omega)]
      congr 1
      refine Finset.sum_congr rfl fun l hl => ?_
      have := Finset.mem_Ico.mp hl
      rw [if_neg (by omega), if_neg (by omega)]
    · rw [if_neg e]
      by_cases e' : off (k + 1) ≤ r ∧ (r < off blocks ∧ off (k + 1) ≤ c ∧ c < off j ∨ r < off i ∧ off j ≤ c ∧ c < off (j + 1))
      · rw [if_pos e', if_pos (by omega)]
      · rw [if_neg e', if_neg (by omega)]
  · by_cases e : off (k + 1) ≤ r ∧ (r < off blocks ∧ off (k + 1) ≤ c ∧ c < off j ∨ r < off blocks ∧ off j ≤ c ∧ c < off (j + 1))
    · rw [if_pos e, if_pos (by omega)]
    · rw [if_neg e, if_neg (by omega)]

/-- the four phases together -/
theorem phases_lrInv {k : Nat} (hk : k < blocks) {A F0 F1 F2 F3 F4 : Nat → Nat → K} (hinv : LRInv A a.rows (off k) F0)
    (hdec : LRInv A (off (k + 1)) (off (k + 1)) F1)
    (h1 : ∀ r c, ¬ (off k ≤ r ∧ r < off (k + 1) ∧ off k ≤ c ∧ c < off (k + 1)) → F1 r c = F0 r c)
    (h2 : ∀ r c, ¬ (off k ≤ r ∧ r < off (k + 1) ∧ off (k + 1) ≤ c ∧ c < a.rows) → F2 r c = F1 r c)
    (h2' : ∀ r, off k ≤ r → r < off (k + 1) → ∀ c, off (k + 1) ≤ c → c < a.rows →
        ∑ l ∈ Finset.Ico (off k) (off (k + 1)), tri true true F1 r l * F2 l c = F1 r c)
    (h3 : ∀ r c, ¬ (off (k + 1) ≤ r ∧ r < a.rows ∧ off k ≤ c ∧ c < off (k + 1)) → F3 r c = F2 r c)
    (h3' : ∀ r, off (k + 1) ≤ r → r < a.rows → ∀ c, off k ≤ c → c < off (k + 1) →
        ∑ l ∈ Finset.Ico (off k) (off (k + 1)), F3 r l * tri false false F2 l c = F2 r c)
    (h4 : ∀ r < a.rows, ∀ c < a.rows, F4 r c = if off (k + 1) ≤ r ∧ r < a.rows ∧ off (k + 1) ≤ c ∧ c < a.rows then
        F3 r c - ∑ l ∈ Finset.Ico (off k) (off (k + 1)), F3 r l * F3 l c else F3 r c) :
    LRInv A a.rows (off (k + 1)) F4 := by
  have hle := hO.le (show k + 1 ≤ blocks by omega)
  have hkk := hO.mono (show k ≤ k + 1 by omega) (by omega)
  -- what has become of the diagonal block and the rest
  have g4 : ∀ r < a.rows, ∀ c < a.rows, r < off (k + 1) ∨ c < off (k + 1) → F4 r c = F3 r c := fun r hr c hc h => by
    rw [h4 r hr c hc, if_neg (by omega)]
  have gd : ∀ r < off (k + 1), ∀ c < off (k + 1), F4 r c = F1 r c := fun r hr c hc => by
    rw [g4 r (by omega) c (by omega) (.inl hr), h3 r c (by omega), h2 r c (by omega)]
  have hinv' : LRInv A a.rows (off k) (fun r c => if r < a.rows ∧ c < a.rows then F0 r c else F4 r c) :=
    lrInv_congr hinv (by omega) (fun _ _ _ _ => rfl) fun r hr c hc => by rw [if_pos ⟨hr, hc⟩]
  refine lrInv_blockStep hinv' hkk ?_ ?_ ?_
  · intro r c h
    by_cases e : r < a.rows ∧ c < a.rows
    · rw [if_pos e, g4 r e.1 c e.2 (by omega), h3 r c (by omega), h2 r c (by omega), h1 r c (by omega)]
    · rw [if_neg e]
  · intro j hj1 hj2
    rw [gd j hj2 j hj2]
    exact hdec.1 j hj2
  · intro r hr1 hr2 c hc1 hc2
    rw [if_pos ⟨hr2, hc2⟩]
    by_cases er : r < off (k + 1)
    · have tl : ∀ l ∈ Finset.Ico (off k) (off (k + 1)), tri true true F4 r l = tri true true F1 r l := fun l hl => by
        have := Finset.mem_Ico.mp hl
        exact tri_congr (gd r er l (by omega)) (gd r er r er)
      by_cases ec : c < off (k + 1)
      · rw [if_neg (by omega), add_zero]
        have e1 := hdec.2 r er c ec
        rw [if_neg (by omega), add_zero, hinv.2 r hr2 c hc2, if_pos ⟨hr1, hc1⟩, ← Finset.sum_range_add_sum_Ico _ hkk] at e1
        have e2 : ∑ l ∈ Finset.range (off k), tri true true F0 r l * tri false false F0 l c =
            ∑ l ∈ Finset.range (off k), tri true true F1 r l * tri false false F1 l c := by
          refine Finset.sum_congr rfl fun l hl => ?_
          have := Finset.mem_range.mp hl
          unfold tri
          simp only [if_true, Bool.false_eq_true, if_false]
          rw [h1 r l (by omega), h1 l l (by omega), h1 l c (by omega)]
        rw [e2] at e1
        rw [add_left_cancel e1]
        refine Finset.sum_congr rfl fun l hl => ?_
        have := Finset.mem_Ico.mp hl
        rw [tl l hl, tri_congr (gd l (by omega) c ec) (gd l (by omega) l (by omega))]
      · rw [if_neg (by omega), add_zero, ← h1 r c (by omega), ← h2' r hr1 er c (by omega) hc2]
        refine Finset.sum_congr rfl fun l hl => ?_
        have := Finset.mem_Ico.mp hl
        rw [tl l hl]
        congr 1
        unfold tri
        simp only [Bool.false_eq_true, if_false]
        rw [if_neg (by omega), if_pos (by omega), g4 l (by omega) c hc2 (by omega), h3 l c (by omega)]
    · have tl : ∀ l ∈ Finset.Ico (off k) (off (k + 1)), tri true true F4 r l = F3 r l := fun l hl => by
        have := Finset.mem_Ico.mp hl
        unfold tri
        simp only [if_true]
        rw [if_neg (by omega), if_pos (by omega), g4 r hr2 l (by omega) (by omega)]
      by_cases ec : c < off (k + 1)
      · rw [if_neg (by omega), add_zero, ← h1 r c (by omega), ← h2 r c (by omega), ← h3' r (by omega) hr2 c hc1 ec]
        refine Finset.sum_congr rfl fun l hl => ?_
        have := Finset.mem_Ico.mp hl
        rw [tl l hl]
        congr 1
        refine tri_congr ?_ ?_
        · rw [gd l (by omega) c ec, h2 l c (by omega)]
        · rw [gd l (by omega) l (by omega), h2 l l (by omega)]
      · rw [if_pos (by omega), h4 r hr2 c hc2, if_pos (by omega), h3 r c (by omega), h2 r c (by omega), h1 r c (by omega)]
        have : ∑ l ∈ Finset.Ico (off k) (off (k + 1)), tri true true F4 r l * tri false false F4 l c =
            ∑ l ∈ Finset.Ico (off k) (off (k + 1)), F3 r l * F3 l c := by
          refine Finset.sum_congr rfl fun l hl => ?_
          have := Finset.mem_Ico.mp hl
          rw [tl l hl]
          congr 1
          unfold tri
          simp only [Bool.false_eq_true, if_false]
          rw [if_neg (by omega), if_pos (by omega), g4 l (by omega) c hc2 (by omega)]
        rw [this]
        ring

/-- decomposition of the diagonal block -/
theorem diag_tot {k : Nat} (hk : k < blocks) (hlt : a.rows < 2 ^ 32) {m m' : Mem K} {A F : Nat → Nat → K}
    (h : MatBecomes a m F m') (hinv : LRInv A a.rows (off k) F) :
    Tot (lrdecomp (blk a off size k k) m') (fun st => ∃ F', MatBecomes a m F' st.2 ∧ st.1 ≤ size k ∧
      (∀ r c, ¬ (off k ≤ r ∧ r < off (k + 1) ∧ off k ≤ c ∧ c < off (k + 1)) → F' r c = F r c) ∧
      (st.1 = 0 → LRInv A (off (k + 1)) (off (k + 1)) F') ∧ (0 < st.1 → FirstZeroMinor A a.rows (off k + st.1))) := by
  have hkn := hO.next k hk
  have hle := hO.le (show k + 1 ≤ blocks by omega)
  have hpos := hO.pos k hk
  refine (lrdecomp_tot (blk_valid hO hsq hk hk h.1) rfl hpos (by show size k < 2 ^ 32; omega)).mono ?_
  rintro ⟨p, m1⟩ ⟨G, h1, h2⟩
  simp only at h1 h2 ⊢
  replace h2 : LRPost ((blk a off size k k).val m') (size k) p G := h2
  have hB : ∀ r < size k, ∀ c < size k, (blk a off size k k).val m' r c = F (off k + r) (off k + c) :=
    fun r hr c hc => blk_val hO hsq hk hk h hr hc
  refine ⟨_, blk_lift hO hsq hk hk h h1, ?_, fun r c hrc => if_neg hrc, fun hp => ?_, fun hp => ?_⟩
  · rcases h2 with h2 | h2 <;> omega
  · rcases h2 with h2 | h2
    · rw [← hkn]
      refine lrInv_nest hinv (by omega) le_rfl (lrInv_congr h2.2 le_rfl hB fun _ _ _ _ => rfl) (fun r c hrc => if_neg (by omega))
        fun r hr c hc => ?_
      rw [if_pos (by omega)]
      congr 1 <;> omega
    · exact absurd h2.1 (by omega)
  · rcases h2 with h2 | ⟨h2, h3, h4, h5⟩
    · exact absurd h2.1 (by omega)
    · refine firstZeroMinor_le (n := off k + size k) (lrPost_minor (F := fun r c =>
        if off k ≤ r ∧ r < off (k + 1) ∧ off k ≤ c ∧ c < off (k + 1) then G (r - off k) (c - off k) else F r c)
        (.inr ⟨by omega, by omega, ?_, ?_⟩)) (by omega) (by omega)
      · rw [show off k + p - 1 = off k + (p - 1) by omega]
        refine lrInv_nest hinv (by omega) (by omega) (lrInv_congr h4 (by omega) hB fun _ _ _ _ => rfl)
          (fun r c hrc => if_neg (by omega)) fun r hr c hc => ?_
        rw [if_pos (by omega)]
        congr 1 <;> omega
      · simp only
        rw [if_pos (by omega), show off k + p - 1 - off k = p - 1 by omega]
        exact h5
end

/-! ### the algorithm -/

theorem lrBlockStep_tot {a : Mat} {blocks k : Nat}
    (hO : Off a.rows blocks (blockOff a.rows blocks) (blockSize a.rows blocks)) (hsq : a.rows = a.cols)
    (hlt : a.rows < 2 ^ 32) (hk : k < blocks) {m m' : Mem K} {A F : Nat → Nat → K} (h : MatBecomes a m F m')
    (hinv : LRInv A a.rows (blockOff a.rows blocks k) F) :
    Tot (lrBlockStep a blocks k m') (fun st => ∃ F', MatBecomes a m F' st.2 ∧
      (st.1 = 0 → LRInv A a.rows (blockOff a.rows blocks (k + 1)) F') ∧ (0 < st.1 → FirstZeroMinor A a.rows st.1)) := by
  have hkn := hO.next k hk
  have hle := hO.le (show k + 1 ≤ blocks by omega)
  unfold lrBlockStep
  rw [subBlock_win hO hsq hk hk, ok_bind]
  refine Tot.bind (diag_tot hO hsq hk hlt h hinv) ?_
  rintro ⟨p, m1⟩ - ⟨F1, b1, b2, b3, b4, b5⟩
  simp only at b1 b2 b3 b4 b5 ⊢
  by_cases hp : 0 < p
  · rw [if_pos hp, Nat.mod_eq_of_lt (by omega), Nat.add_comm]
    exact Tot.pure ⟨F1, b1, fun h => absurd h (by simp only; omega), fun _ => b5 hp⟩
  · rw [if_neg hp]
    have hdec := b4 (by omega)
    rw [forUp_congr (g := fun j m => trisolve true true false (blk a (blockOff a.rows blocks) (blockSize a.rows blocks) k k) false
      (blk a (blockOff a.rows blocks) (blockSize a.rows blocks) k j) m) (fun j h1 h2 s => by
        rw [subBlock_win hO hsq hk h2, ok_bind]; rfl)]
    refine Tot.bind (phaseR_tot hO hsq hk b1) ?_
    rintro m2 - ⟨F2, c1, c2, c3⟩
    rw [forUp_congr (g := fun i m => trisolve false false true (blk a (blockOff a.rows blocks) (blockSize a.rows blocks) k k) true
      (blk a (blockOff a.rows blocks) (blockSize a.rows blocks) i k) m) (fun j h1 h2 s => by
        rw [subBlock_win hO hsq h2 hk, ok_bind]; rfl)]
    refine Tot.bind (phaseL_tot hO hsq hk c1 fun r hr1 hr2 => by rw [c2 r r (by omega)]; exact hdec.1 r hr2) ?_
    rintro m3 - ⟨F3, d1, d2, d3⟩
    rw [forUp_congr (g := fun j m => forUp (k + 1) blocks (fun i m =>
      addmul (-1) false (blk a (blockOff a.rows blocks) (blockSize a.rows blocks) i k) false
        (blk a (blockOff a.rows blocks) (blockSize a.rows blocks) k j)
        (blk a (blockOff a.rows blocks) (blockSize a.rows blocks) i j) m) m) (fun j h1 h2 s => by
        rw [subBlock_win hO hsq hk h2, ok_bind]
        exact forUp_congr (fun i h3 h4 s => by rw [subBlock_win hO hsq h4 hk, ok_bind, subBlock_win hO hsq h4 h2, ok_bind]; rfl) s)]
    refine Tot.bind (phaseU_tot hO hsq hk d1) ?_
    intro m4 _ e1
    exact Tot.pure ⟨_, e1, fun _ => phases_lrInv hO hsq hk hinv hdec b3 c2 c3 d2 d3 fun r hr c hc => rfl,
      fun h => absurd h (by simp only; omega)⟩

theorem lrBlockLoop_tot {a : Mat} {blocks : Nat}
    (hO : Off a.rows blocks (blockOff a.rows blocks) (blockSize a.rows blocks)) (hsq : a.rows = a.cols)
    (hlt : a.rows < 2 ^ 32) {m : Mem K} {A : Nat → Nat → K} (s k : Nat) (hk : k + s = blocks) {m' : Mem K} {F : Nat → Nat → K}
    (h : MatBecomes a m F m') (hinv : LRInv A a.rows (blockOff a.rows blocks k) F) :
    Tot (lrBlockLoop a blocks s k m') (fun st => ∃ F', MatBecomes a m F' st.2 ∧
      (st.1 = 0 → LRInv A a.rows a.rows F') ∧ (0 < st.1 → FirstZeroMinor A a.rows st.1)) := by
  induction s generalizing k m' F with
  | zero =>
    unfold lrBlockLoop
    refine Tot.pure ⟨F, h, fun _ => ?_, fun h => absurd h (by simp only; omega)⟩
    rwa [show k = blocks by omega, hO.last] at hinv
  | succ s ih =>
    unfold lrBlockLoop
    refine Tot.bind (lrBlockStep_tot hO hsq hlt (by omega) h hinv) ?_
    rintro ⟨p, m1⟩ - ⟨F1, b1, b2, b3⟩
    simp only at b1 b2 b3 ⊢
    by_cases hp : 0 < p
    · rw [if_pos hp]
      exact Tot.pure ⟨F1, b1, fun h => absurd h (by simp only; omega), fun _ => b3 hp⟩
    · rw [if_neg hp]
      exact ih (k + 1) (by omega) b1 (b2 (by omega))

theorem lrdecompBlocks_tot {a : Mat} {m : Mem K} (ha : a.Valid m) (hsq : a.rows = a.cols) (h0 : 0 < a.rows) (blocksize : Nat)
    (hb : 0 < blocksize) (hlt : a.rows < 2 ^ 32) (hw : a.rows * (a.rows / blocksize) < 2 ^ 32) :
    Tot (lrdecompBlocks a blocksize m) (fun st => ∃ F', MatBecomes a m F' st.2 ∧
      (st.1 = 0 → LRInv (a.val m) a.rows a.rows F') ∧ FirstZeroMinor (a.val m) a.rows st.1) := by
  refine Tot.cassert (by simpa using hsq) ?_
  by_cases e : a.rows ≤ blocksize
  · rw [if_pos e]
    refine (lrdecomp_tot ha hsq h0 hlt).mono ?_
    rintro ⟨p, m'⟩ ⟨F, h1, h2⟩
    refine ⟨F, h1, fun hp => ?_, lrPost_minor h2⟩
    rcases h2 with h2 | h2
    · exact h2.2
    · exact absurd h2.1 (by simp only at hp ⊢; omega)
  · rw [if_neg e, if_neg (by omega)]
    have hdiv : 0 < a.rows / blocksize := Nat.div_pos (by omega) hb
    refine (lrBlockLoop_tot (off_of hdiv (Nat.div_le_self _ _) hw) hsq hlt _ 0 (by omega) (becomes_self ha)
      (by rw [(off_of hdiv (Nat.div_le_self _ _) hw).zero]; exact lrInv_init _ _)).mono ?_
    rintro ⟨p, m'⟩ ⟨F, h1, h2, h3⟩
    refine ⟨F, h1, h2, ?_⟩
    by_cases hp : 0 < p
    · exact h3 hp
    · have := h2 (by simp only; omega)
      exact .inl ⟨by simp only; omega, fun k hk => lrInv_nonzero this hk hk⟩

theorem firstZeroMinor_unique {A : Nat → Nat → K} {n p q : Nat} (h : FirstZeroMinor A n p) (h' : FirstZeroMinor A n q) : p = q := by
  rcases h with ⟨h1, h2⟩ | ⟨h1, h2, h3, h4⟩ <;> rcases h' with ⟨g1, g2⟩ | ⟨g1, g2, g3, g4⟩
  · omega
  · exact absurd g3 (h2 q g2)
  · exact absurd h3 (g2 p h2)
  · rcases Nat.lt_trichotomy p q with h | h | h
    · exact absurd h3 (g4 p h)
    · exact h
    · exact absurd g3 (h4 q h)

theorem becomes_cell_eq {a : Mat} {m m' m'' : Mem K} {F G : Nat → Nat → K} (h : MatBecomes a m F m') (g : MatBecomes a m G m'')
    {i j : Nat} (hi : i < a.rows) (hj : j < a.cols) (e : F i j = G i j) : m' (a.addr i j) = m'' (a.addr i j) := by
  obtain ⟨x, hx⟩ := Option.isSome_iff_exists.mp (h.1.2 i hi j hj)
  obtain ⟨y, hy⟩ := Option.isSome_iff_exists.mp (g.1.2 i hi j hj)
  have h1 := h.2.1 i hi j hj
  have h2 := g.2.1 i hi j hj
  unfold Mat.val at h1 h2
  rw [hx] at h1 ⊢
  rw [hy] at h2 ⊢
  simp only [Option.getD_some] at h1 h2
  rw [h1, h2, e]

end H2.Dense
