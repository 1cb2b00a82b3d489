import Verif.Core.Arr
import Mathlib.Algebra.BigOperators.Group.Finset.Piecewise
import Mathlib.Algebra.BigOperators.Ring.Finset

/-!
# Flat memory of field elements

`none` marks cells that are not allocated; accessing one is undefined behaviour.  All dense vectors and matrices are
windows into one memory, so overlapping windows and stray accesses can be expressed.  Uninitialised cells hold an
arbitrary value.
-/

namespace H2

/-- memory for `field` values -/
abbrev Mem (K : Type _) := Nat → Option K

namespace Mem
variable {K : Type _}

/-- read a cell -/
def read (m : Mem K) (p : Nat) : R K := match m p with | some x => .ok x | none => .error .ub
/-- store without check -/
def upd (m : Mem K) (p : Nat) (x : K) : Mem K := fun c => if c = p then some x else m c
/-- write a cell -/
def write (m : Mem K) (p : Nat) (x : K) : R (Mem K) :=
  match m p with | some _ => .ok (m.upd p x) | none => .error .ub
/-- allocate the cells `base, …, base + n - 1` with arbitrary contents -/
def alloc (m : Mem K) (base n : Nat) (junk : Nat → K) : Mem K :=
  fun c => if base ≤ c ∧ c < base + n then some (junk c) else m c
/-- free the cells `base, …, base + n - 1` -/
def free (m : Mem K) (base n : Nat) : Mem K := fun c => if base ≤ c ∧ c < base + n then none else m c

theorem read_ok {m : Mem K} {p : Nat} {x : K} (h : m p = some x) : m.read p = .ok x := by simp [read, h]
theorem read_some {m : Mem K} {p : Nat} (h : (m p).isSome) : ∃ x, m p = some x ∧ m.read p = .ok x := by
  obtain ⟨x, hx⟩ := Option.isSome_iff_exists.mp h
  exact ⟨x, hx, read_ok hx⟩
theorem write_ok {m : Mem K} {p : Nat} {x y : K} (h : m p = some y) : m.write p x = .ok (m.upd p x) := by
  simp [write, h]
theorem upd_same (m : Mem K) (p : Nat) (x : K) : m.upd p x p = some x := by simp [upd]
theorem upd_ne {m : Mem K} {p c : Nat} {x : K} (h : c ≠ p) : m.upd p x c = m c := by simp [upd, h]

end Mem

/-! ### loop rules -/

variable {K : Type _}

/-- A double loop in which every round `(o, i)` assigns one cell of its own. -/
theorem forUp2_assign {p : Nat} {lo hi : Nat → Nat} {ad : Nat → Nat → Nat} {g : Nat → Nat → K}
    {body : Nat → Nat → Mem K → R (Mem K)} {m0 : Mem K}
    (hlh : ∀ o < p, lo o ≤ hi o)
    (inj : ∀ o < p, ∀ i, lo o ≤ i → i < hi o → ∀ o' < p, ∀ i', lo o' ≤ i' → i' < hi o' → ad o i = ad o' i' →
      o = o' ∧ i = i')
    (hb : ∀ o < p, ∀ i, lo o ≤ i → i < hi o → ∀ m : Mem K,
      (∀ c, (∀ o' ≤ o, ∀ i', lo o' ≤ i' → i' < hi o' → (o' < o ∨ i' < i) → c ≠ ad o' i') → m c = m0 c) →
      body o i m = .ok (m.upd (ad o i) (g o i))) :
    Tot (forUp 0 p (fun o m => forUp (lo o) (hi o) (fun i m => body o i m) m) m0)
      (fun m' => (∀ o < p, ∀ i, lo o ≤ i → i < hi o → m' (ad o i) = some (g o i)) ∧
        ∀ c, (∀ o < p, ∀ i, lo o ≤ i → i < hi o → c ≠ ad o i) → m' c = m0 c) := by
  refine forUp_tot (fun r (m : Mem K) => (∀ o < r, ∀ i, lo o ≤ i → i < hi o → m (ad o i) = some (g o i)) ∧
        ∀ c, (∀ o < r, ∀ i, lo o ≤ i → i < hi o → c ≠ ad o i) → m c = m0 c) (Nat.zero_le _)
    ⟨fun o ho => absurd ho (Nat.not_lt_zero _), fun _ _ => rfl⟩ ?_
  rintro o m - ho ⟨h1, h2⟩
  refine (forUp_tot (fun s (m' : Mem K) => (∀ i, lo o ≤ i → i < s → m' (ad o i) = some (g o i)) ∧
      ∀ c, (∀ i, lo o ≤ i → i < s → c ≠ ad o i) → m' c = m c) (hlh o ho)
    ⟨fun i h1 h2 => absurd h2 (by omega), fun _ _ => rfl⟩ ?_).mono ?_
  · rintro i m' hi1 hi2 ⟨b1, b2⟩
    refine ⟨_, hb o ho i hi1 hi2 m' ?_, ?_, ?_⟩
    · intro c hc
      rw [b2 c fun i' h1 h2 => hc o le_rfl i' h1 (by omega) (Or.inr h2)]
      exact h2 c fun o' ho' i' h1 h2 => hc o' (by omega) i' h1 h2 (Or.inl ho')
    · intro i' h1 h2
      by_cases e : i' = i
      · rw [e, Mem.upd_same]
      · rw [Mem.upd_ne]
        · exact b1 i' h1 (by omega)
        · intro e'
          exact e (inj o ho i' h1 (by omega) o ho i hi1 hi2 e').2
    · intro c hc
      rw [Mem.upd_ne (hc i hi1 (by omega))]
      exact b2 c fun i' h1 h2 => hc i' h1 (by omega)
  · rintro m' ⟨b1, b2⟩
    refine ⟨fun o' ho' i h3 h4 => ?_, fun c hc => ?_⟩
    · by_cases e : o' = o
      · subst e; exact b1 i h3 h4
      · have : o' < o := by omega
        rw [b2]
        · exact h1 o' this i h3 h4
        · intro i' h5 h6 e'
          exact e (inj o' (by omega) i h3 h4 o ho i' h5 h6 e').1
    · rw [b2 c fun i h1 h2 => hc o (by omega) i h1 h2]
      exact h2 c fun o' ho' i h1 h2 => hc o' (by omega) i h1 h2

/-- `m` is `m0` with `f c` added to each cell `c` -/
def Acc [Add K] (m0 : Mem K) (f : Nat → K) (m : Mem K) : Prop := ∀ c, m c = (m0 c).map (· + f c)

theorem Acc.zero [AddMonoid K] (m0 : Mem K) : Acc m0 (fun _ => 0) m0 := by
  intro c; cases m0 c <;> simp

theorem Acc.eq [AddMonoid K] {m0 m : Mem K} {f : Nat → K} (h : Acc m0 f m) {c : Nat} (hf : f c = 0) : m c = m0 c := by
  rw [h c, hf]; cases m0 c <;> simp

theorem Acc.some [Add K] {m0 m : Mem K} {f : Nat → K} (h : Acc m0 f m) {c : Nat} {x : K} (hx : m0 c = some x) :
    m c = Option.some (x + f c) := by rw [h c, hx]; rfl

theorem Acc.congr [Add K] {m0 m : Mem K} {f g : Nat → K} (h : Acc m0 f m) (e : ∀ c, f c = g c) : Acc m0 g m := by
  intro c; rw [h c, e c]

/-- one `a[p] += t` -/
theorem Acc.add [AddMonoid K] {m0 m : Mem K} {f : Nat → K} (h : Acc m0 f m) {p : Nat} {x : K}
    (hx : m0 p = Option.some x) (t : K) :
    Acc m0 (fun c => f c + if c = p then t else 0) (m.upd p (x + f p + t)) := by
  intro c
  by_cases e : c = p
  · subst e; rw [Mem.upd_same, hx]; simp [add_assoc]
  · rw [Mem.upd_ne e, h c]; simp [e]

/-- A loop whose round `k` adds `d k c` to every cell `c`. -/
theorem forUp_acc [AddCommMonoid K] {lo hi : Nat} {body : Nat → Mem K → R (Mem K)} {m0 : Mem K} {S : Nat → Prop}
    {d : Nat → Nat → K} (hle : lo ≤ hi) (hS : ∀ k, lo ≤ k → k < hi → ∀ c, ¬ S c → d k c = 0)
    (hb : ∀ k, lo ≤ k → k < hi → ∀ (f : Nat → K) (m : Mem K), (∀ c, ¬ S c → f c = 0) → Acc m0 f m →
      Tot (body k m) (Acc m0 (fun c => f c + d k c)))
    {f : Nat → K} {m : Mem K} (hf : ∀ c, ¬ S c → f c = 0) (h : Acc m0 f m) :
    Tot (forUp lo hi body m) (Acc m0 (fun c => f c + ∑ k ∈ Finset.Ico lo hi, d k c)) := by
  refine forUp_tot (fun r (m' : Mem K) => r ≤ hi → Acc m0 (fun c => f c + ∑ k ∈ Finset.Ico lo r, d k c) m') hle
    (fun _ => by simpa using h) ?_ |>.mono fun m' h => h le_rfl
  intro k m' hk1 hk2 ih
  have hz : ∀ c, ¬ S c → f c + ∑ k ∈ Finset.Ico lo k, d k c = 0 := by
    intro c hc
    rw [hf c hc, zero_add]
    refine Finset.sum_eq_zero fun k' hk' => ?_
    rw [Finset.mem_Ico] at hk'
    exact hS k' hk'.1 (by omega) c hc
  refine (hb k hk1 hk2 _ m' hz (ih (by omega))).mono fun m'' h'' _ => ?_
  refine h''.congr fun c => ?_
  rw [Finset.sum_Ico_succ_top hk1, add_assoc]

end H2
