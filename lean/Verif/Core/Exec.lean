/-!
# Execution model

Outcomes of C calls and C `for` loops.  Nothing here models a particular function of the library;
these are the conventions of DESIGN.md (1) and (2).
-/

namespace H2

/-- The ways a modelled C call can fail to return normally. -/
inductive Err where
  /-- an `assert` is violated -/
  | assertFail
  /-- undefined behaviour: out-of-bounds or NULL access, use after free -/
  | ub
  /-- explicit `abort()` -/
  | abort
  /-- not an outcome of the C code: the recursion/iteration budget of the model is exhausted; a call
  "does not terminate" iff it gives `fuel` for every budget -/
  | fuel
  /-- a division by zero: the C code would continue with infinities or NaN.  Only used where the model says so (`cdiv`);
  elsewhere divisors are assumed to be non-zero by the theorems. -/
  | nan
deriving DecidableEq, Repr

/-- Result of a modelled C call. -/
abbrev R (α : Type _) := Except Err α

instance {α : Type _} [DecidableEq α] : DecidableEq (R α)
  | .ok a, .ok b => if h : a = b then .isTrue (h ▸ rfl) else .isFalse (fun e => h (Except.ok.inj e))
  | .error a, .error b =>
    if h : a = b then .isTrue (h ▸ rfl) else .isFalse (fun e => h (Except.error.inj e))
  | .ok _, .error _ => .isFalse nofun
  | .error _, .ok _ => .isFalse nofun

/-- C `assert(p)`. -/
def cassert (p : Bool) : R Unit := if p then .ok () else .error .assertFail

/-- `n` iterations of `body`, the first one with index `i`. -/
def loopN {σ : Type _} (body : Nat → σ → R σ) : Nat → Nat → σ → R σ
  | 0, _, s => .ok s
  | n + 1, i, s => body i s >>= fun s' => loopN body n (i + 1) s'

/-- C `for (i = lo; i < hi; i++) body`. -/
def forUp {σ : Type _} (lo hi : Nat) (body : Nat → σ → R σ) (s : σ) : R σ :=
  loopN body (hi - lo) lo s

/-- C `while (cond) body`; `Err.fuel` when more than the given number of rounds is needed. -/
def whileF {σ : Type _} (cond : σ → Bool) (body : σ → R σ) : Nat → σ → R σ
  | 0, s => if cond s then .error .fuel else .ok s
  | n + 1, s => if cond s then body s >>= whileF cond body n else .ok s

/-- Total loop (the body cannot fail). -/
def loopT {σ : Type _} (body : Nat → σ → σ) : Nat → Nat → σ → σ
  | 0, _, s => s
  | n + 1, i, s => loopT body n (i + 1) (body i s)

/-- C `for (i = lo; i < hi; i++)` with a body that cannot fail. -/
def forT {σ : Type _} (lo hi : Nat) (body : Nat → σ → σ) (s : σ) : σ :=
  loopT body (hi - lo) lo s

theorem bind_ok {α β : Type _} {x : R α} {f : α → R β} {b : β} :
    (x >>= f) = .ok b ↔ ∃ a, x = .ok a ∧ f a = .ok b := by
  cases x with
  | error e => simp [bind, Except.bind]
  | ok a => simp [bind, Except.bind]

theorem bind_error {α β : Type _} {x : R α} {f : α → R β} {e : Err} :
    (x >>= f) = .error e ↔ x = .error e ∨ ∃ a, x = .ok a ∧ f a = .error e := by
  cases x with
  | error e => simp [bind, Except.bind]
  | ok a => simp [bind, Except.bind]

theorem pure_ok {α : Type _} {a b : α} : (pure a : R α) = .ok b ↔ a = b := by
  simp [pure, Except.pure]

theorem ok_bind {α β : Type _} (a : α) (f : α → R β) : ((.ok a : R α) >>= f) = f a := rfl

theorem throw_ne_ok {α : Type _} {e : Err} {b : α} : (throw e : R α) = .ok b ↔ False := by
  simp [throw, throwThe, MonadExceptOf.throw]

theorem cassert_ok {p : Bool} {u : Unit} : cassert p = .ok u ↔ p = true := by
  unfold cassert; cases p <;> simp

theorem cassert_true {p : Bool} (h : p = true) : cassert p = .ok () := by
  simp [cassert, h]

theorem loopN_inv {σ : Type _} {body : Nat → σ → R σ} (I : Nat → σ → Prop) :
    ∀ (n i : Nat) (s : σ),
      (∀ k t, i ≤ k → k < i + n → I k t → ∃ t', body k t = .ok t' ∧ I (k + 1) t') →
      I i s → ∃ s', loopN body n i s = .ok s' ∧ I (i + n) s'
  | 0, i, s, _, h0 => ⟨s, rfl, h0⟩
  | n + 1, i, s, hb, h0 => by
    obtain ⟨t, ht, hI⟩ := hb i s (Nat.le_refl _) (by omega) h0
    obtain ⟨s', hs', hI'⟩ := loopN_inv I n (i + 1) t
      (fun k u h1 h2 h3 => hb k u (by omega) (by omega) h3) hI
    refine ⟨s', ?_, ?_⟩
    · simp only [loopN, ht]; exact hs'
    · have : i + (n + 1) = i + 1 + n := by omega
      rw [this]; exact hI'

/-- Total-correctness rule for `for` loops: an invariant that each iteration preserves without
failing holds at the end, and the loop does not fail. -/
theorem forUp_inv {σ : Type _} {lo hi : Nat} {body : Nat → σ → R σ} {s : σ}
    (I : Nat → σ → Prop) (hle : lo ≤ hi) (h0 : I lo s)
    (hb : ∀ k t, lo ≤ k → k < hi → I k t → ∃ t', body k t = .ok t' ∧ I (k + 1) t') :
    ∃ s', forUp lo hi body s = .ok s' ∧ I hi s' := by
  obtain ⟨s', h1, h2⟩ := loopN_inv I (hi - lo) lo s
    (fun k t h1 h2 h3 => hb k t h1 (by omega) h3) h0
  refine ⟨s', h1, ?_⟩
  have : lo + (hi - lo) = hi := by omega
  rwa [this] at h2

theorem loopT_inv {σ : Type _} {body : Nat → σ → σ} (I : Nat → σ → Prop) :
    ∀ (n i : Nat) (s : σ),
      (∀ k t, i ≤ k → k < i + n → I k t → I (k + 1) (body k t)) →
      I i s → I (i + n) (loopT body n i s)
  | 0, i, s, _, h0 => h0
  | n + 1, i, s, hb, h0 => by
    have := loopT_inv I n (i + 1) (body i s)
      (fun k u h1 h2 h3 => hb k u (by omega) (by omega) h3) (hb i s (Nat.le_refl _) (by omega) h0)
    have e : i + (n + 1) = i + 1 + n := by omega
    rw [e]; exact this

/-- Invariant rule for loops whose body cannot fail. -/
theorem forT_inv {σ : Type _} {lo hi : Nat} {body : Nat → σ → σ} {s : σ}
    (I : Nat → σ → Prop) (hle : lo ≤ hi) (h0 : I lo s)
    (hb : ∀ k t, lo ≤ k → k < hi → I k t → I (k + 1) (body k t)) :
    I hi (forT lo hi body s) := by
  have h := loopT_inv I (hi - lo) lo s (fun k t h1 h2 h3 => hb k t h1 (by omega) h3) h0
  have e : lo + (hi - lo) = hi := by omega
  rwa [e] at h

theorem forT_self {σ : Type _} (lo : Nat) (body : Nat → σ → σ) (s : σ) : forT lo lo body s = s := by
  simp [forT, loopT]

theorem loopT_succ_last {σ : Type _} (body : Nat → σ → σ) :
    ∀ (n i : Nat) (s : σ), loopT body (n + 1) i s = body (i + n) (loopT body n i s)
  | 0, i, s => rfl
  | n + 1, i, s => by
    rw [loopT, loopT_succ_last body n (i + 1) (body i s)]
    have : i + 1 + n = i + (n + 1) := by omega
    rw [this]; rfl

/-- Peel the last iteration. -/
theorem forT_succ {σ : Type _} {lo hi : Nat} (h : lo ≤ hi) (body : Nat → σ → σ) (s : σ) :
    forT lo (hi + 1) body s = body hi (forT lo hi body s) := by
  unfold forT
  have e : hi + 1 - lo = (hi - lo) + 1 := by omega
  rw [e, loopT_succ_last]
  have e2 : lo + (hi - lo) = hi := by omega
  rw [e2]

/-- A loop with a body that never fails is a total loop. -/
theorem forUp_ok {σ : Type _} {lo hi : Nat} {body : Nat → σ → R σ} {body' : Nat → σ → σ}
    (h : ∀ i s, lo ≤ i → i < hi → body i s = .ok (body' i s)) (s : σ) :
    forUp lo hi body s = .ok (forT lo hi body' s) := by
  unfold forUp forT
  suffices H : ∀ n i s, lo ≤ i → i + n ≤ hi → loopN body n i s = .ok (loopT body' n i s) by
    by_cases hle : lo ≤ hi
    · exact H _ _ _ (Nat.le_refl _) (by omega)
    · have : hi - lo = 0 := by omega
      rw [this]; rfl
  intro n
  induction n with
  | zero => intros; rfl
  | succ n ih =>
    intro i s h1 h2
    simp only [loopN, loopT, h i s h1 (by omega)]
    exact ih (i + 1) (body' i s) (by omega) (by omega)

end H2
