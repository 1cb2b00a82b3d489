import Verif.Proof.Dense2
import Verif.Spec.Factor
import Mathlib.Tactic.FieldSimp
import Mathlib.Algebra.Star.BigOperators

/-! # Triangular solves -/

set_option linter.unusedSectionVars false

namespace H2.Dense
open Spec
variable {K : Type} [Field K] [StarRing K]

/-! ### vectors given by address functions -/

/-- afterwards the cells `xa 0, …, xa (n - 1)` hold `F`, and nothing else has changed -/
def AB (xa : Nat → Nat) (n : Nat) (m : Mem K) (F : Nat → K) (m' : Mem K) : Prop :=
  (∀ i < n, m' (xa i) = some (F i)) ∧ Frame (fun c => ∃ i < n, c = xa i) m m'

theorem ab_read {xa : Nat → Nat} {n : Nat} {m m' : Mem K} {F : Nat → K} (h : AB xa n m F m') {i : Nat} (hi : i < n) :
    m'.read (xa i) = .ok (F i) := Mem.read_ok (h.1 i hi)

theorem ab_read_other {xa : Nat → Nat} {n : Nat} {m m' : Mem K} {F : Nat → K} (h : AB xa n m F m') {p : Nat} {v : K}
    (hp : m p = some v) (hd : ∀ i < n, p ≠ xa i) : m'.read p = .ok v :=
  Mem.read_ok (by rw [h.2 p (fun ⟨i, hi, e⟩ => hd i hi e), hp])

theorem ab_write {xa : Nat → Nat} {n : Nat} (inj : ∀ i < n, ∀ j < n, xa i = xa j → i = j) {m m' : Mem K} {F : Nat → K}
    (h : AB xa n m F m') {i : Nat} (hi : i < n) (v : K) :
    Tot (m'.write (xa i) v) (AB xa n m fun k => if k = i then v else F k) := by
  refine ⟨_, Mem.write_ok (h.1 i hi), fun k hk => ?_, fun c hc => ?_⟩
  · by_cases e : k = i
    · simp only [if_pos e]
      rw [e, Mem.upd_same]
    · simp only [if_neg e]
      rw [Mem.upd_ne (fun h' => e (inj k hk i hi h')), h.1 k hk]
  · rw [Mem.upd_ne (fun e => hc ⟨i, hi, e⟩), h.2 c hc]

theorem ab_congr {xa : Nat → Nat} {n : Nat} {m m' : Mem K} {F G : Nat → K} (h : AB xa n m F m') (e : ∀ i < n, F i = G i) :
    AB xa n m G m' := ⟨fun i hi => by rw [h.1 i hi, e i hi], h.2⟩

theorem ab_vec {x : Vec} {m m' : Mem K} {F : Nat → K} : AB x.addr x.dim m F m' ↔ VecBecomes x m F m' := by
  constructor
  · rintro ⟨h1, h2⟩
    exact ⟨fun i hi => by rw [h1 i hi]; rfl, fun i hi => by simp [Vec.val, h1 i hi], h2⟩
  · rintro ⟨h1, h2, h3⟩
    exact ⟨fun i hi => by rw [h1.some hi, h2 i hi], h3⟩

theorem ab_self {x : Vec} {m : Mem K} (hx : x.Valid m) : AB x.addr x.dim m (x.val m) m :=
  ⟨fun _ hi => hx.some hi, fun _ _ => rfl⟩

/-! ### substitution on functions -/

/-- forward substitution after `k` steps: `C` is the strict triangle, `D` the diagonal, `b` the right-hand side -/
def AscInv (n : Nat) (C : Nat → Nat → K) (D b : Nat → K) (k : Nat) (X : Nat → K) : Prop :=
  (∀ i < k, ∑ j ∈ Finset.range i, C i j * X j + D i * X i = b i) ∧
  (∀ i, k ≤ i → i < n → X i + ∑ j ∈ Finset.range k, C i j * X j = b i) ∧ ∀ i, n ≤ i → X i = b i

/-- backward substitution when `k` steps are left -/
def DescInv (n : Nat) (C : Nat → Nat → K) (D b : Nat → K) (k : Nat) (X : Nat → K) : Prop :=
  (∀ i, k ≤ i → i < n → ∑ j ∈ Finset.Ico (i + 1) n, C i j * X j + D i * X i = b i) ∧
  (∀ i < k, X i + ∑ j ∈ Finset.Ico k n, C i j * X j = b i) ∧ ∀ i, n ≤ i → X i = b i

/-- one column operation -/
def elim (C : Nat → Nat → K) (D : Nat → K) (k lo hi : Nat) (X : Nat → K) (i : Nat) : K :=
  if i = k then X k / D k else if lo ≤ i ∧ i < hi then X i - C i k * (X k / D k) else X i

theorem asc_init (n : Nat) (C : Nat → Nat → K) (D b : Nat → K) : AscInv n C D b 0 b :=
  ⟨fun i hi => absurd hi (by omega), fun i _ _ => by simp, fun _ _ => rfl⟩

theorem desc_init (n : Nat) (C : Nat → Nat → K) (D b : Nat → K) : DescInv n C D b n b :=
  ⟨fun i h1 h2 => absurd h1 (by omega), fun i _ => by simp, fun _ _ => rfl⟩

theorem asc_step {n : Nat} {C : Nat → Nat → K} {D b : Nat → K} {k : Nat} {X : Nat → K} (hk : k < n) (hD : D k ≠ 0)
    (h : AscInv n C D b k X) : AscInv n C D b (k + 1) (elim C D k (k + 1) n X) := by
  obtain ⟨h1, h2, h3⟩ := h
  have low : ∀ j < k, elim C D k (k + 1) n X j = X j := fun j hj => by
    unfold elim; rw [if_neg (by omega), if_neg (by omega)]
  have mid : elim C D k (k + 1) n X k = X k / D k := if_pos rfl
  have ss : ∀ i, ∑ j ∈ Finset.range k, C i j * elim C D k (k + 1) n X j = ∑ j ∈ Finset.range k, C i j * X j := fun i =>
    Finset.sum_congr rfl fun j hj => by rw [low j (Finset.mem_range.mp hj)]
  refine ⟨fun i hi => ?_, fun i hi hin => ?_, fun i hi => ?_⟩
  · by_cases e : i = k
    · subst e
      rw [ss, mid, mul_div_cancel₀ _ hD, add_comm]
      exact h2 i le_rfl hk
    · have hi : i < k := by omega
      rw [low i hi, ← h1 i hi]
      congr 1
      exact Finset.sum_congr rfl fun j hj => by rw [low j (by have := Finset.mem_range.mp hj; omega)]
  · rw [Finset.sum_range_succ, ss, mid, ← h2 i (by omega) hin]
    have : elim C D k (k + 1) n X i = X i - C i k * (X k / D k) := by
      unfold elim; rw [if_neg (by omega), if_pos ⟨by omega, hin⟩]
    rw [this]; ring
  · have : elim C D k (k + 1) n X i = X i := by unfold elim; rw [if_neg (by omega), if_neg (by omega)]
    rw [this, h3 i hi]

theorem desc_step {n : Nat} {C : Nat → Nat → K} {D b : Nat → K} {k : Nat} {X : Nat → K} (hk : k < n) (hD : D k ≠ 0)
    (h : DescInv n C D b (k + 1) X) : DescInv n C D b k (elim C D k 0 k X) := by
  obtain ⟨h1, h2, h3⟩ := h
  have high : ∀ j, k < j → elim C D k 0 k X j = X j := fun j hj => by
    unfold elim; rw [if_neg (by omega), if_neg (by omega)]
  have mid : elim C D k 0 k X k = X k / D k := if_pos rfl
  have ss : ∀ i l, k ≤ l → ∑ j ∈ Finset.Ico (l + 1) n, C i j * elim C D k 0 k X j = ∑ j ∈ Finset.Ico (l + 1) n, C i j * X j :=
    fun i l hl => Finset.sum_congr rfl fun j hj => by rw [high j (by have := Finset.mem_Ico.mp hj; omega)]
  refine ⟨fun i hi hin => ?_, fun i hi => ?_, fun i hi => ?_⟩
  · rw [ss i i hi]
    by_cases e : i = k
    · subst e
      rw [mid, mul_div_cancel₀ _ hD, add_comm]
      exact h2 i (by omega)
    · rw [high i (by omega), h1 i (by omega) hin]
  · rw [Finset.sum_eq_sum_Ico_succ_bot hk, ss i k le_rfl, mid, ← h2 i (by omega)]
    have : elim C D k 0 k X i = X i - C i k * (X k / D k) := by
      unfold elim; rw [if_neg (by omega), if_pos ⟨by omega, hi⟩]
    rw [this]; ring
  · rw [high i (by omega), h3 i hi]

/-! ### vectors -/

theorem solveStep_tot {c : K → K} {ad : Nat → Nat → Nat} {unit : Bool} {x : Vec} {j lo hi : Nat} {m m' : Mem K} {X : Nat → K}
    {A : Nat → Nat → K} (hj : j < x.dim) (hjn : ¬ (lo ≤ j ∧ j < hi)) (hle : lo ≤ hi) (hhi : hi ≤ x.dim)
    (hA : ∀ i, (i = j ∨ lo ≤ i ∧ i < hi) → m (ad i j) = some (A i j) ∧ ¬ x.Cell (ad i j)) (h : VecBecomes x m X m') :
    Tot (solveStep c ad unit x j lo hi m') (VecBecomes x m (elim (fun i j => c (A i j))
      (fun j => if unit then 1 else c (A j j)) j lo hi X)) := by
  have inj : ∀ i < x.dim, ∀ j < x.dim, x.addr i = x.addr j → i = j := fun i _ j _ e => Vec.addr_inj e
  rw [← ab_vec] at h
  unfold solveStep
  refine Tot.bind (P := fun (st : K × Mem K) => st.1 = X j / (if unit then 1 else c (A j j)) ∧ AB x.addr x.dim m (fun k =>
    if k = j then X j / (if unit then 1 else c (A j j)) else X k) st.2) ?_ ?_
  · cases unit
    · simp only [Bool.false_eq_true, if_false]
      obtain ⟨e1, e2⟩ := hA j (.inl rfl)
      rw [ab_read h hj, ok_bind, ab_read_other h e1 (fun i hi e => e2 ⟨i, hi, e⟩), ok_bind]
      exact Tot.bind (ab_write inj h hj _) fun m2 _ h2 => Tot.pure ⟨rfl, h2⟩
    · simp only [if_true]
      rw [ab_read h hj, ok_bind]
      refine Tot.pure ⟨by rw [div_one], ab_congr h fun i hi => ?_⟩
      split
      · rename_i e; rw [e, div_one]
      · rfl
  · rintro ⟨nv, m1⟩ - ⟨e, h1⟩
    simp only at e h1 ⊢
    have : Tot (forUp lo hi (fun i (m : Mem K) => do
        let v ← m.read (x.addr i)
        let d ← m.read (ad i j)
        m.write (x.addr i) (v - c d * nv)) m1) (AB x.addr x.dim m fun i => if i = j then X j / (if unit then 1 else c (A j j))
          else if lo ≤ i ∧ i < hi then X i - c (A i j) * (X j / (if unit then 1 else c (A j j))) else X i) := by
      refine forUp_tot (fun k m2 => AB x.addr x.dim m (fun i => if i = j then X j / (if unit then 1 else c (A j j))
          else if lo ≤ i ∧ i < k then X i - c (A i j) * (X j / (if unit then 1 else c (A j j))) else X i) m2) hle
        (ab_congr h1 fun i _ => ?_) ?_
      · split
        · rfl
        · rw [if_neg (by omega)]
      · intro k m2 h1k hk h2
        obtain ⟨e1, e2⟩ := hA k (.inr ⟨h1k, hk⟩)
        rw [ab_read h2 (show k < x.dim by omega), ok_bind, ab_read_other h2 e1 (fun i hi e => e2 ⟨i, hi, e⟩), ok_bind]
        refine (ab_write inj h2 (show k < x.dim by omega) _).mono fun m3 h3 => ab_congr h3 fun i _ => ?_
        have hkj : k ≠ j := fun e' => hjn (by omega)
        by_cases e' : i = k
        · rw [if_pos e', e', if_neg hkj, if_neg hkj, if_neg (show ¬ (lo ≤ k ∧ k < k) by omega),
            if_pos (show lo ≤ k ∧ k < k + 1 by omega), e]
        · rw [if_neg e']
          by_cases e'' : i = j
          · rw [if_pos e'', if_pos e'']
          · rw [if_neg e'', if_neg e'']
            by_cases h4 : lo ≤ i ∧ i < k
            · rw [if_pos h4, if_pos (show lo ≤ i ∧ i < k + 1 by omega)]
            · rw [if_neg h4, if_neg (show ¬ (lo ≤ i ∧ i < k + 1) by omega)]
    exact this.mono fun m2 h2 => ab_vec.mp h2

theorem solveUp_tot {c : K → K} {ad : Nat → Nat → Nat} {unit : Bool} {x : Vec} {n : Nat} {m : Mem K} {A : Nat → Nat → K}
    (hx : x.Valid m) (hn : n ≤ x.dim)
    (hA : ∀ i < n, ∀ j < n, m (ad i j) = some (A i j) ∧ ¬ x.Cell (ad i j)) (hD : unit = false → ∀ j < n, c (A j j) ≠ 0) :
    Tot (forUp 0 n (fun j m => solveStep c ad unit x j (j + 1) n m) m) (fun m' => ∃ X, VecBecomes x m X m' ∧
      AscInv n (fun i j => c (A i j)) (fun j => if unit then 1 else c (A j j)) (x.val m) n X) := by
  refine forUp_tot (fun k m' => ∃ X, VecBecomes x m X m' ∧
      AscInv n (fun i j => c (A i j)) (fun j => if unit then 1 else c (A j j)) (x.val m) k X) (Nat.zero_le _)
    ⟨_, ab_vec.mp (ab_self hx), asc_init _ _ _ _⟩ ?_
  rintro k m' - hk ⟨X, h1, h2⟩
  refine (solveStep_tot (by omega) (by omega) (by omega) hn (fun i hi => hA i (by omega) k hk) h1).mono fun m2 h3 =>
    ⟨_, h3, asc_step hk ?_ h2⟩
  cases unit
  · simpa using hD rfl k hk
  · simp

theorem solveDown_tot {c : K → K} {ad : Nat → Nat → Nat} {unit : Bool} {x : Vec} {n : Nat} {m : Mem K} {A : Nat → Nat → K}
    (hx : x.Valid m) (hn : n ≤ x.dim)
    (hA : ∀ i < n, ∀ j < n, m (ad i j) = some (A i j) ∧ ¬ x.Cell (ad i j)) (hD : unit = false → ∀ j < n, c (A j j) ≠ 0) :
    Tot (forDown (fun j m => solveStep c ad unit x j 0 j m) n m) (fun m' => ∃ X, VecBecomes x m X m' ∧
      DescInv n (fun i j => c (A i j)) (fun j => if unit then 1 else c (A j j)) (x.val m) 0 X) := by
  refine forDown_tot (fun k m' => ∃ X, VecBecomes x m X m' ∧
      DescInv n (fun i j => c (A i j)) (fun j => if unit then 1 else c (A j j)) (x.val m) k X)
    ⟨_, ab_vec.mp (ab_self hx), desc_init _ _ _ _⟩ ?_
  rintro k m' hk ⟨X, h1, h2⟩
  refine (solveStep_tot (by omega) (by omega) (by omega) (by omega) (fun i hi => hA i (by omega) k hk) h1).mono fun m2 h3 =>
    ⟨_, h3, desc_step hk ?_ h2⟩
  cases unit
  · simpa using hD rfl k hk
  · simp

/-! ### loops over rectangles -/

theorem forUp_one {σ : Type _} (k : Nat) (body : Nat → σ → R σ) (s : σ) : forUp k (k + 1) body s = body k s := by
  unfold forUp
  rw [Nat.add_sub_cancel_left]
  simp only [loopN]
  cases body k s <;> rfl

/-- A loop over a row of `x` that assigns `new r j` to entry `(r, j)`. -/
theorem lineLoop {x : Mat} {m0 m : Mem K} {F : Nat → Nat → K} (h : MatBecomes x m0 F m) {r lo hi : Nat}
    (hr : r < x.rows) (hle : lo ≤ hi) (hhi : hi ≤ x.cols) {new : Nat → K} {body : Nat → Mem K → R (Mem K)}
    (hb : ∀ j, lo ≤ j → j < hi → ∀ m1 G, MatBecomes x m0 G m1 → (∀ i' j', ¬ (i' = r ∧ lo ≤ j' ∧ j' < j) → G i' j' = F i' j') →
      body j m1 = m1.write (x.addr r j) (new j)) :
    Tot (forUp lo hi body m) (MatBecomes x m0 fun i j => if i = r ∧ lo ≤ j ∧ j < hi then new j else F i j) := by
  refine forUp_tot (fun k m' => MatBecomes x m0 (fun i j => if i = r ∧ lo ≤ j ∧ j < k then new j else F i j) m') hle
    (becomes_congr h fun i _ j _ => by rw [if_neg (by omega)]) ?_
  intro k m' h1 h2 h3
  rw [hb k h1 h2 m' _ h3 fun i' j' h' => if_neg h']
  refine (becomes_write h3 hr (show k < x.cols by omega) _).mono fun m2 h4 => becomes_congr h4 fun i _ j _ => ?_
  by_cases e : i = r ∧ j = k
  · rw [e.1, e.2, fset_same, if_pos ⟨rfl, h1, by omega⟩]
  · rw [fset_ne e]
    by_cases e' : i = r ∧ lo ≤ j ∧ j < k
    · rw [if_pos e', if_pos (by omega)]
    · rw [if_neg e', if_neg (by omega)]

/-- A loop over a column of `x`. -/
theorem colLineLoop {x : Mat} {m0 m : Mem K} {F : Nat → Nat → K} (h : MatBecomes x m0 F m) {r lo hi : Nat}
    (hr : r < x.cols) (hle : lo ≤ hi) (hhi : hi ≤ x.rows) {new : Nat → K} {body : Nat → Mem K → R (Mem K)}
    (hb : ∀ j, lo ≤ j → j < hi → ∀ m1 G, MatBecomes x m0 G m1 → (∀ i' j', ¬ (j' = r ∧ lo ≤ i' ∧ i' < j) → G i' j' = F i' j') →
      body j m1 = m1.write (x.addr j r) (new j)) :
    Tot (forUp lo hi body m) (MatBecomes x m0 fun i j => if j = r ∧ lo ≤ i ∧ i < hi then new i else F i j) := by
  refine forUp_tot (fun k m' => MatBecomes x m0 (fun i j => if j = r ∧ lo ≤ i ∧ i < k then new i else F i j) m') hle
    (becomes_congr h fun i _ j _ => by rw [if_neg (by omega)]) ?_
  intro k m' h1 h2 h3
  rw [hb k h1 h2 m' _ h3 fun i' j' h' => if_neg h']
  refine (becomes_write h3 (show k < x.rows by omega) hr _).mono fun m2 h4 => becomes_congr h4 fun i _ j _ => ?_
  by_cases e : i = k ∧ j = r
  · rw [e.1, e.2, fset_same, if_pos ⟨rfl, h1, by omega⟩]
  · rw [fset_ne e]
    by_cases e' : j = r ∧ lo ≤ i ∧ i < k
    · rw [if_pos e', if_pos (by omega)]
    · rw [if_neg e', if_neg (by omega)]

/-- A row-by-row loop that assigns `new i j` to entry `(i, j)`. -/
theorem rectLoop {x : Mat} {m0 m : Mem K} {F : Nat → Nat → K} (h : MatBecomes x m0 F m) {lo hi lo' hi' : Nat}
    (hle : lo ≤ hi) (hhi : hi ≤ x.rows) (hle' : lo' ≤ hi') (hhi' : hi' ≤ x.cols) {new : Nat → Nat → K}
    {body : Nat → Nat → Mem K → R (Mem K)}
    (hb : ∀ i, lo ≤ i → i < hi → ∀ j, lo' ≤ j → j < hi' → ∀ m1 G, MatBecomes x m0 G m1 →
      (∀ r q, ¬ (lo ≤ r ∧ lo' ≤ q ∧ q < hi' ∧ (r < i ∨ r = i ∧ q < j)) → G r q = F r q) →
      body i j m1 = m1.write (x.addr i j) (new i j)) :
    Tot (forUp lo hi (fun i m => forUp lo' hi' (fun j m => body i j m) m) m)
      (MatBecomes x m0 fun i j => if lo ≤ i ∧ i < hi ∧ lo' ≤ j ∧ j < hi' then new i j else F i j) := by
  refine forUp_tot (fun k m' => MatBecomes x m0 (fun i j => if lo ≤ i ∧ i < k ∧ lo' ≤ j ∧ j < hi' then new i j else F i j) m') hle
    (becomes_congr h fun i _ j _ => by rw [if_neg (by omega)]) ?_
  intro k m' h1 h2 h3
  refine (lineLoop h3 (show k < x.rows by omega) hle' hhi' (new := new k) fun j hj1 hj2 m1 G h4 h5 =>
    hb k h1 h2 j hj1 hj2 m1 G h4 fun r q hrq => ?_).mono fun m2 h4 => becomes_congr h4 fun i _ j _ => ?_
  · rw [h5 r q (by omega), if_neg (by omega)]
  · by_cases e : i = k ∧ lo' ≤ j ∧ j < hi'
    · rw [if_pos e, e.1, if_pos (by omega)]
    · rw [if_neg e]
      by_cases e' : lo ≤ i ∧ i < k ∧ lo' ≤ j ∧ j < hi'
      · rw [if_pos e', if_pos (by omega)]
      · rw [if_neg e', if_neg (by omega)]

/-! ### matrices -/

/-- reading a cell outside of `x` -/
theorem becomes_read_cell {x : Mat} {m0 m : Mem K} {F : Nat → Nat → K} (h : MatBecomes x m0 F m) {p : Nat} {v : K}
    (hp : m0 p = some v) (hd : ¬ x.Cell p) : m.read p = .ok v := Mem.read_ok (by rw [h.2.2 p hd, hp])

theorem rowStep_tot {c : K → K} {ad : Nat → Nat → Nat} {unit : Bool} {x : Mat} {k lo hi : Nat} {m m' : Mem K}
    {X : Nat → Nat → K} {A : Nat → Nat → K} (hk : k < x.rows) (hkn : ¬ (lo ≤ k ∧ k < hi)) (hle : lo ≤ hi) (hhi : hi ≤ x.rows)
    (hA : ∀ i, (i = k ∨ lo ≤ i ∧ i < hi) → m (ad i k) = some (A i k) ∧ ¬ x.Cell (ad i k)) (h : MatBecomes x m X m') :
    Tot (rowStep c ad unit x k lo hi m') (MatBecomes x m fun i q => elim (fun i j => c (A i j))
      (fun j => if unit then 1 else c (A j j)) k lo hi (fun i => X i q) i) := by
  unfold rowStep
  refine Tot.bind (P := MatBecomes x m fun i q => if i = k then X k q / (if unit then 1 else c (A k k)) else X i q) ?_ ?_
  · cases unit
    · simp only [Bool.false_eq_true, if_false]
      obtain ⟨e1, e2⟩ := hA k (.inl rfl)
      rw [becomes_read_cell h e1 e2, ok_bind]
      refine (lineLoop h hk (Nat.zero_le _) le_rfl (new := fun q => X k q * (1 / c (A k k))) fun q _ hq m1 G h1 h2 => ?_).mono
        fun m2 h3 => becomes_congr h3 fun i _ q hq => ?_
      · rw [becomes_read h1 hk hq, ok_bind, h2 k q (by omega)]
      · by_cases e : i = k
        · rw [if_pos ⟨e, Nat.zero_le _, hq⟩, if_pos e, mul_one_div]
        · rw [if_neg (fun h => e h.1), if_neg e]
    · simp only [if_true]
      refine Tot.pure (becomes_congr h fun i _ q _ => ?_)
      split
      · rename_i e; rw [e, div_one]
      · rfl
  · intro m1 _ h1
    refine (rectLoop h1 hle hhi (Nat.zero_le _) le_rfl (new := fun i q => X i q - c (A i k) *
      (X k q / (if unit then 1 else c (A k k)))) fun i hi1 hi2 j _ hj m2 G h2 h3 => ?_).mono fun m2 h2 =>
      becomes_congr h2 fun i _ q hq => ?_
    · obtain ⟨e1, e2⟩ := hA i (.inr ⟨hi1, hi2⟩)
      rw [becomes_read h2 (show i < x.rows by omega) hj, ok_bind, becomes_read_cell h2 e1 e2, ok_bind, becomes_read h2 hk hj,
        ok_bind, h3 i j (by omega), h3 k j (by omega), if_pos rfl, if_neg (show i ≠ k by omega)]
    · unfold elim
      by_cases e : i = k
      · subst e
        rw [if_neg (by omega)]
        simp only [if_true]
      · rw [if_neg e]
        by_cases e' : lo ≤ i ∧ i < hi
        · rw [if_pos ⟨e'.1, e'.2, Nat.zero_le _, hq⟩, if_pos e', if_neg e]
        · rw [if_neg (by omega), if_neg e', if_neg e]

theorem colStep_tot {c : K → K} {ad : Nat → Nat → Nat} {unit : Bool} {x : Mat} {k lo hi : Nat} {m m' : Mem K}
    {X : Nat → Nat → K} {A : Nat → Nat → K} (hk : k < x.cols) (hkn : ¬ (lo ≤ k ∧ k < hi)) (hle : lo ≤ hi) (hhi : hi ≤ x.cols)
    (hA : ∀ i, (i = k ∨ lo ≤ i ∧ i < hi) → m (ad i k) = some (A i k) ∧ ¬ x.Cell (ad i k)) (h : MatBecomes x m X m') :
    Tot (colStep c ad unit x k lo hi m') (MatBecomes x m fun q i => elim (fun i j => c (A i j))
      (fun j => if unit then 1 else c (A j j)) k lo hi (fun i => X q i) i) := by
  unfold colStep
  refine Tot.bind (P := MatBecomes x m fun q i => if i = k then X q k / (if unit then 1 else c (A k k)) else X q i) ?_ ?_
  · cases unit
    · simp only [Bool.false_eq_true, if_false]
      obtain ⟨e1, e2⟩ := hA k (.inl rfl)
      rw [becomes_read_cell h e1 e2, ok_bind]
      refine (colLineLoop h hk (Nat.zero_le _) le_rfl (new := fun q => X q k * (1 / c (A k k))) fun q _ hq m1 G h1 h2 => ?_).mono
        fun m2 h3 => becomes_congr h3 fun q hq i _ => ?_
      · rw [becomes_read h1 hq hk, ok_bind, h2 q k (by omega)]
      · by_cases e : i = k
        · rw [if_pos ⟨e, Nat.zero_le _, hq⟩, if_pos e, mul_one_div]
        · rw [if_neg (fun h => e h.1), if_neg e]
    · simp only [if_true]
      refine Tot.pure (becomes_congr h fun q _ i _ => ?_)
      split
      · rename_i e; rw [e, div_one]
      · rfl
  · intro m1 _ h1
    refine (rectLoop h1 (Nat.zero_le _) le_rfl hle hhi (new := fun q i => X q i - 
      (X q k / (if unit then 1 else c (A k k))) * c (A i k)) fun q _ hq i hi1 hi2 m2 G h2 h3 => ?_).mono fun m2 h2 =>
      becomes_congr h2 fun q hq i _ => ?_
    · obtain ⟨e1, e2⟩ := hA i (.inr ⟨hi1, hi2⟩)
      rw [becomes_read h2 hq (show i < x.cols by omega), ok_bind, becomes_read h2 hq hk, ok_bind, becomes_read_cell h2 e1 e2,
        ok_bind, h3 q i (by omega), h3 q k (by omega), if_pos rfl, if_neg (show i ≠ k by omega)]
    · unfold elim
      by_cases e : i = k
      · subst e
        rw [if_neg (by omega)]
        simp only [if_true]
      · rw [if_neg e]
        by_cases e' : lo ≤ i ∧ i < hi
        · rw [if_pos ⟨Nat.zero_le _, hq, e'.1, e'.2⟩, if_pos e', if_neg e, mul_comm]
        · rw [if_neg (by omega), if_neg e', if_neg e]

section
variable {c : K → K} {ad : Nat → Nat → Nat} {unit : Bool} {x : Mat} {n : Nat} {m : Mem K} {A : Nat → Nat → K}

theorem rowUp_tot (hx : x.Valid m) (hn : n ≤ x.rows)
    (hA : ∀ i < n, ∀ j < n, m (ad i j) = some (A i j) ∧ ¬ x.Cell (ad i j)) (hD : unit = false → ∀ j < n, c (A j j) ≠ 0) :
    Tot (forUp 0 n (fun k m => rowStep c ad unit x k (k + 1) n m) m) (fun m' => ∃ X, MatBecomes x m X m' ∧ ∀ q,
      AscInv n (fun i j => c (A i j)) (fun j => if unit then 1 else c (A j j)) (fun i => x.val m i q) n (fun i => X i q)) := by
  refine forUp_tot (fun k m' => ∃ X, MatBecomes x m X m' ∧ ∀ q,
      AscInv n (fun i j => c (A i j)) (fun j => if unit then 1 else c (A j j)) (fun i => x.val m i q) k (fun i => X i q))
    (Nat.zero_le _) ⟨_, becomes_self hx, fun q => asc_init _ _ _ _⟩ ?_
  rintro k m' - hk ⟨X, h1, h2⟩
  refine (rowStep_tot (by omega) (by omega) (by omega) hn (fun i hi => hA i (by omega) k hk) h1).mono fun m2 h3 =>
    ⟨_, h3, fun q => asc_step hk ?_ (h2 q)⟩
  cases unit
  · simpa using hD rfl k hk
  · simp

theorem rowDown_tot (hx : x.Valid m) (hn : n ≤ x.rows)
    (hA : ∀ i < n, ∀ j < n, m (ad i j) = some (A i j) ∧ ¬ x.Cell (ad i j)) (hD : unit = false → ∀ j < n, c (A j j) ≠ 0) :
    Tot (forDown (fun k m => rowStep c ad unit x k 0 k m) n m) (fun m' => ∃ X, MatBecomes x m X m' ∧ ∀ q,
      DescInv n (fun i j => c (A i j)) (fun j => if unit then 1 else c (A j j)) (fun i => x.val m i q) 0 (fun i => X i q)) := by
  refine forDown_tot (fun k m' => ∃ X, MatBecomes x m X m' ∧ ∀ q,
      DescInv n (fun i j => c (A i j)) (fun j => if unit then 1 else c (A j j)) (fun i => x.val m i q) k (fun i => X i q))
    ⟨_, becomes_self hx, fun q => desc_init _ _ _ _⟩ ?_
  rintro k m' hk ⟨X, h1, h2⟩
  refine (rowStep_tot (by omega) (by omega) (by omega) (by omega) (fun i hi => hA i (by omega) k hk) h1).mono fun m2 h3 =>
    ⟨_, h3, fun q => desc_step hk ?_ (h2 q)⟩
  cases unit
  · simpa using hD rfl k hk
  · simp

theorem colUp_tot (hx : x.Valid m) (hn : n ≤ x.cols)
    (hA : ∀ i < n, ∀ j < n, m (ad i j) = some (A i j) ∧ ¬ x.Cell (ad i j)) (hD : unit = false → ∀ j < n, c (A j j) ≠ 0) :
    Tot (forUp 0 n (fun k m => colStep c ad unit x k (k + 1) n m) m) (fun m' => ∃ X, MatBecomes x m X m' ∧ ∀ q,
      AscInv n (fun i j => c (A i j)) (fun j => if unit then 1 else c (A j j)) (x.val m q) n (X q)) := by
  refine forUp_tot (fun k m' => ∃ X, MatBecomes x m X m' ∧ ∀ q,
      AscInv n (fun i j => c (A i j)) (fun j => if unit then 1 else c (A j j)) (x.val m q) k (X q))
    (Nat.zero_le _) ⟨_, becomes_self hx, fun q => asc_init _ _ _ _⟩ ?_
  rintro k m' - hk ⟨X, h1, h2⟩
  refine (colStep_tot (by omega) (by omega) (by omega) hn (fun i hi => hA i (by omega) k hk) h1).mono fun m2 h3 =>
    ⟨_, h3, fun q => asc_step hk ?_ (h2 q)⟩
  cases unit
  · simpa using hD rfl k hk
  · simp

theorem colDown_tot (hx : x.Valid m) (hn : n ≤ x.cols)
    (hA : ∀ i < n, ∀ j < n, m (ad i j) = some (A i j) ∧ ¬ x.Cell (ad i j)) (hD : unit = false → ∀ j < n, c (A j j) ≠ 0) :
    Tot (forDown (fun k m => colStep c ad unit x k 0 k m) n m) (fun m' => ∃ X, MatBecomes x m X m' ∧ ∀ q,
      DescInv n (fun i j => c (A i j)) (fun j => if unit then 1 else c (A j j)) (x.val m q) 0 (X q)) := by
  refine forDown_tot (fun k m' => ∃ X, MatBecomes x m X m' ∧ ∀ q,
      DescInv n (fun i j => c (A i j)) (fun j => if unit then 1 else c (A j j)) (x.val m q) k (X q))
    ⟨_, becomes_self hx, fun q => desc_init _ _ _ _⟩ ?_
  rintro k m' hk ⟨X, h1, h2⟩
  refine (colStep_tot (by omega) (by omega) (by omega) (by omega) (fun i hi => hA i (by omega) k hk) h1).mono fun m2 h3 =>
    ⟨_, h3, fun q => desc_step hk ?_ (h2 q)⟩
  cases unit
  · simpa using hD rfl k hk
  · simp
end

/-! ### from substitution to linear systems -/

theorem asc_solves {n : Nat} {C : Nat → Nat → K} {D b X : Nat → K} {T : Nat → Nat → K} (h : AscInv n C D b n X)
    (hT : ∀ i < n, ∀ j < n, T i j = if i = j then D i else if j < i then C i j else 0) :
    ∀ i < n, ∑ j ∈ Finset.range n, T i j * X j = b i := by
  intro i hi
  rw [← h.1 i hi, ← Finset.sum_range_add_sum_Ico _ (show i + 1 ≤ n by omega), Finset.sum_range_succ, hT i hi i hi, if_pos rfl,
    Finset.sum_eq_zero (s := Finset.Ico (i + 1) n), add_zero]
  · congr 1
    refine Finset.sum_congr rfl fun j hj => ?_
    have := Finset.mem_range.mp hj
    rw [hT i hi j (by omega), if_neg (by omega), if_pos this]
  · intro j hj
    have := Finset.mem_Ico.mp hj
    rw [hT i hi j (by omega), if_neg (by omega), if_neg (by omega), zero_mul]

theorem desc_solves {n : Nat} {C : Nat → Nat → K} {D b X : Nat → K} {T : Nat → Nat → K} (h : DescInv n C D b 0 X)
    (hT : ∀ i < n, ∀ j < n, T i j = if i = j then D i else if i < j then C i j else 0) :
    ∀ i < n, ∑ j ∈ Finset.range n, T i j * X j = b i := by
  intro i hi
  rw [← h.1 i (Nat.zero_le _) hi, ← Finset.sum_range_add_sum_Ico _ (show i + 1 ≤ n by omega), Finset.sum_range_succ,
    hT i hi i hi, if_pos rfl, Finset.sum_eq_zero (s := Finset.range i), zero_add, add_comm]
  · congr 1
    refine Finset.sum_congr rfl fun j hj => ?_
    have := Finset.mem_Ico.mp hj
    rw [hT i hi j (by omega), if_neg (by omega), if_pos (by omega)]
  · intro j hj
    have := Finset.mem_range.mp hj
    rw [hT i hi j (by omega), if_neg (by omega), if_neg (by omega), zero_mul]

theorem op_tri (trans lower unit : Bool) (A : Nat → Nat → K) (i j : Nat) :
    op trans (tri lower unit A) i j = if i = j then (if unit then 1 else op trans A i i)
      else if (if lower != trans then j < i else i < j) then op trans A i j else 0 := by
  unfold op tri
  by_cases e : i = j
  · subst e
    cases trans <;> cases unit <;> simp
  · have e' : j ≠ i := fun h => e h.symm
    cases trans <;> cases lower <;> simp [e, e', apply_ite star]

/-- the cells of `a`, seen from the operation on `x` -/
theorem hA_of {a : Mat} {m : Mem K} {S : Nat → Prop} (ha : a.Valid m) (hd : Disj a.Cell S) {i j : Nat}
    (hi : i < a.rows) (hj : j < a.cols) : m (a.addr i j) = some (a.val m i j) ∧ ¬ S (a.addr i j) :=
  ⟨ha.some hi hj, hd _ (Mat.cell_addr hi hj)⟩

theorem trisolveVec_tot {a : Mat} {x : Vec} {m : Mem K} (ha : a.Valid m) (hx : x.Valid m) (hd : Disj a.Cell x.Cell)
    (hr : a.rows ≤ x.dim) (hc : a.cols ≤ x.dim) (lower unit trans : Bool)
    (hD : unit = false → ∀ j < min a.rows a.cols, a.val m j j ≠ 0) :
    Tot (trisolveVec lower unit trans a x m) (fun m' => ∃ X, VecBecomes x m X m' ∧
      (∀ i < min a.rows a.cols, ∑ j ∈ Finset.range (min a.rows a.cols), op trans (tri lower unit (a.val m)) i j * X j = x.val m i) ∧
      ∀ i, min a.rows a.cols ≤ i → X i = x.val m i) := by
  have hD' : ∀ (h : unit = false), ∀ j < min a.rows a.cols, star (a.val m j j) ≠ 0 := fun h j hj =>
    (star_ne_zero).mpr (hD h j hj)
  unfold trisolveVec lowersolveVec uppersolveVec
  cases lower <;> cases trans <;> simp only [Bool.false_eq_true, if_false, if_true] <;>
    refine Tot.cassert (by simpa using hr) (Tot.cassert (by simpa using hc) ?_)
  · refine (solveDown_tot (A := a.val m) hx (by omega) (fun i hi j hj => hA_of ha hd (by omega) (by omega)) hD).mono ?_
    rintro m' ⟨X, h1, h2⟩
    exact ⟨X, h1, desc_solves h2 fun i _ j _ => by rw [op_tri]; simp [op], fun i hi => h2.2.2 i hi⟩
  · refine (solveUp_tot (A := fun i j => a.val m j i) hx (by omega)
      (fun i hi j hj => hA_of ha hd (show j < a.rows by omega) (by omega)) hD').mono ?_
    rintro m' ⟨X, h1, h2⟩
    exact ⟨X, h1, asc_solves h2 fun i _ j _ => by rw [op_tri]; simp [op], fun i hi => h2.2.2 i hi⟩
  · refine (solveUp_tot (A := a.val m) hx (by omega) (fun i hi j hj => hA_of ha hd (by omega) (by omega)) hD).mono ?_
    rintro m' ⟨X, h1, h2⟩
    exact ⟨X, h1, asc_solves h2 fun i _ j _ => by rw [op_tri]; simp [op], fun i hi => h2.2.2 i hi⟩
  · refine (solveDown_tot (A := fun i j => a.val m j i) hx (by omega)
      (fun i hi j hj => hA_of ha hd (show j < a.rows by omega) (by omega)) hD').mono ?_
    rintro m' ⟨X, h1, h2⟩
    exact ⟨X, h1, desc_solves h2 fun i _ j _ => by rw [op_tri]; simp [op], fun i hi => h2.2.2 i hi⟩

/-- a linear system for the conjugated vectors -/
theorem star_system {n : Nat} {T : Nat → Nat → K} {b X : Nat → K}
    (h : ∀ i < n, ∑ j ∈ Finset.range n, star (T i j) * X j = b i) :
    ∀ i < n, ∑ j ∈ Finset.range n, T i j * star (X j) = star (b i) := by
  intro i hi
  rw [← h i hi, star_sum]
  exact Finset.sum_congr rfl fun j _ => by rw [star_mul', star_star]

theorem trisolve_tot {a x : Mat} {m : Mem K} (ha : a.Valid m) (hx : x.Valid m) (hd : Disj a.Cell x.Cell)
    (lower unit trans xtrans : Bool) (hn : min a.rows a.cols ≤ opRows xtrans x)
    (hD : unit = false → ∀ j < min a.rows a.cols, a.val m j j ≠ 0) :
    Tot (trisolve lower unit trans a xtrans x m) (fun m' => ∃ X, MatBecomes x m X m' ∧
      (∀ i < min a.rows a.cols, ∀ q, ∑ j ∈ Finset.range (min a.rows a.cols),
        op trans (tri lower unit (a.val m)) i j * op xtrans X j q = op xtrans (x.val m) i q) ∧
      ∀ i, min a.rows a.cols ≤ i → ∀ q, op xtrans X i q = op xtrans (x.val m) i q) := by
  have hD' : ∀ (h : unit = false), ∀ j < min a.rows a.cols, star (a.val m j j) ≠ 0 := fun h j hj =>
    (star_ne_zero).mpr (hD h j hj)
  have h1 : ∀ i < min a.rows a.cols, ∀ j < min a.rows a.cols, m (a.addr i j) = some (a.val m i j) ∧ ¬ x.Cell (a.addr i j) :=
    fun i hi j hj => hA_of ha hd (by omega) (by omega)
  have h2 : ∀ i < min a.rows a.cols, ∀ j < min a.rows a.cols, m (a.addr j i) = some (a.val m j i) ∧ ¬ x.Cell (a.addr j i) :=
    fun i hi j hj => hA_of ha hd (by omega) (by omega)
  unfold trisolve lowersolve uppersolve
  unfold opRows at hn
  cases lower <;> cases trans <;> cases xtrans <;> simp only [Bool.false_eq_true, if_false, if_true] at hn ⊢ <;>
    refine Tot.cassert (by simpa using hn) ?_
  · refine (rowDown_tot (A := a.val m) hx hn h1 hD).mono ?_
    rintro m' ⟨X, h3, h4⟩
    exact ⟨X, h3, fun i hi q => desc_solves (h4 q) (fun i _ j _ => by rw [op_tri]; simp [op]) i hi, fun i hi q => (h4 q).2.2 i hi⟩
  · refine (colDown_tot (A := a.val m) hx hn h1 hD').mono ?_
    rintro m' ⟨X, h3, h4⟩
    exact ⟨X, h3, fun i hi q => star_system (desc_solves (h4 q) (fun i _ j _ => by rw [op_tri]; simp [op, apply_ite star])) i hi,
      fun i hi q => congrArg star ((h4 q).2.2 i hi)⟩
  · refine (rowUp_tot (A := fun i j => a.val m j i) hx hn h2 hD').mono ?_
    rintro m' ⟨X, h3, h4⟩
    exact ⟨X, h3, fun i hi q => asc_solves (h4 q) (fun i _ j _ => by rw [op_tri]; simp [op]) i hi, fun i hi q => (h4 q).2.2 i hi⟩
  · refine (colUp_tot (A := fun i j => a.val m j i) hx hn h2 hD).mono ?_
    rintro m' ⟨X, h3, h4⟩
    exact ⟨X, h3, fun i hi q => star_system (asc_solves (h4 q) (fun i _ j _ => by rw [op_tri]; simp [op, apply_ite star])) i hi,
      fun i hi q => congrArg star ((h4 q).2.2 i hi)⟩
  · refine (rowUp_tot (A := a.val m) hx hn h1 hD).mono ?_
    rintro m' ⟨X, h3, h4⟩
    exact ⟨X, h3, fun i hi q => asc_solves (h4 q) (fun i _ j _ => by rw [op_tri]; simp [op]) i hi, fun i hi q => (h4 q).2.2 i hi⟩
  · refine (colUp_tot (A := a.val m) hx hn h1 hD').mono ?_
    rintro m' ⟨X, h3, h4⟩
    exact ⟨X, h3, fun i hi q => star_system (asc_solves (h4 q) (fun i _ j _ => by rw [op_tri]; simp [op, apply_ite star])) i hi,
      fun i hi q => congrArg star ((h4 q).2.2 i hi)⟩
  · refine (rowDown_tot (A := fun i j => a.val m j i) hx hn h2 hD').mono ?_
    rintro m' ⟨X, h3, h4⟩
    exact ⟨X, h3, fun i hi q => desc_solves (h4 q) (fun i _ j _ => by rw [op_tri]; simp [op]) i hi, fun i hi q => (h4 q).2.2 i hi⟩
  · refine (colDown_tot (A := fun i j => a.val m j i) hx hn h2 hD).mono ?_
    rintro m' ⟨X, h3, h4⟩
    exact ⟨X, h3, fun i hi q => star_system (desc_solves (h4 q) (fun i _ j _ => by rw [op_tri]; simp [op, apply_ite star])) i hi,
      fun i hi q => congrArg star ((h4 q).2.2 i hi)⟩

end H2.Dense
