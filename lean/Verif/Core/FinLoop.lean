import Verif.Core.Sums
import Mathlib.Algebra.BigOperators.Fin
import Mathlib.Data.List.FinRange

/-! Loops `for (i = 0; i < n; i++)` whose body needs to know `i < n`. -/

set_option linter.unusedSectionVars false

namespace H2

/-- `for (i = 0; i < n; i++) s = f(i, s)` -/
def foldFin {σ : Type _} (n : Nat) (f : Fin n → σ → σ) (s : σ) : σ :=
  (List.finRange n).foldl (fun s i => f i s) s

/-- the same with a body that can fail -/
def foldFinM {σ : Type _} (n : Nat) (f : Fin n → σ → R σ) (s : σ) : R σ :=
  (List.finRange n).foldlM (fun s i => f i s) s

/-- `for (i = 0; i < n; i++) a[i] = f(i)` with a body that can fail -/
def seqFin {β : Type _} : (n : Nat) → (Fin n → R β) → R (Fin n → β)
  | 0, _ => .ok (fun i => i.elim0)
  | n + 1, f => do
    let a ← f 0
    let g ← seqFin n (fun i => f i.succ)
    pure (Fin.cons a g)

theorem foldFin_zero {σ : Type _} (f : Fin 0 → σ → σ) (s : σ) : foldFin 0 f s = s := rfl

theorem foldFin_succ {σ : Type _} (n : Nat) (f : Fin (n + 1) → σ → σ) (s : σ) :
    foldFin (n + 1) f s = f (Fin.last n) (foldFin n (fun i => f i.castSucc) s) := by
  unfold foldFin
  rw [List.finRange_succ_last, List.foldl_append, List.foldl_map]; rfl

theorem foldFin_succ_left {σ : Type _} (n : Nat) (f : Fin (n + 1) → σ → σ) (s : σ) :
    foldFin (n + 1) f s = foldFin n (fun i => f i.succ) (f 0 s) := by
  unfold foldFin
  rw [List.finRange_succ, List.foldl_cons, List.foldl_map]

theorem foldFin_inv {σ : Type _} (P : Nat → σ → Prop) {n : Nat} {f : Fin n → σ → σ} {s : σ}
    (h0 : P 0 s) (hs : ∀ (i : Fin n) s, P i s → P (i + 1) (f i s)) : P n (foldFin n f s) := by
  induction n with
  | zero => exact h0
  | succ n ih =>
    rw [foldFin_succ]
    exact hs (Fin.last n) _ (ih (fun i s h => hs i.castSucc s h))

theorem foldFin_sum {M : Type _} [AddCommMonoid M] (n : Nat) (f : Fin n → M) (s : M) :
    foldFin n (fun i s => s + f i) s = s + ∑ i, f i := by
  induction n with
  | zero => simp [foldFin_zero]
  | succ n ih => rw [foldFin_succ, ih, Fin.sum_univ_castSucc, add_assoc]

theorem foldFin_congr {σ : Type _} {n : Nat} {f g : Fin n → σ → σ} (h : ∀ i s, f i s = g i s) (s : σ) :
    foldFin n f s = foldFin n g s := by
  have : f = g := by funext i s; exact h i s
  rw [this]

theorem foldFinM_zero {σ : Type _} (f : Fin 0 → σ → R σ) (s : σ) : foldFinM 0 f s = .ok s := rfl

theorem foldFinM_succ {σ : Type _} (n : Nat) (f : Fin (n + 1) → σ → R σ) (s : σ) :
    foldFinM (n + 1) f s = foldFinM n (fun i => f i.castSucc) s >>= f (Fin.last n) := by
  unfold foldFinM
  rw [List.finRange_succ_last, List.foldlM_append, List.foldlM_map]
  congr 1
  funext s
  simp [List.foldlM_cons, List.foldlM_nil]

theorem foldFinM_succ_left {σ : Type _} (n : Nat) (f : Fin (n + 1) → σ → R σ) (s : σ) :
    foldFinM (n + 1) f s = f 0 s >>= foldFinM n (fun i => f i.succ) := by
  unfold foldFinM
  rw [List.finRange_succ, List.foldlM_cons]
  congr 1
  funext s
  rw [List.foldlM_map]

/-- total correctness of a loop -/
theorem foldFinM_tot {σ : Type _} (P : Nat → σ → Prop) {n : Nat} {f : Fin n → σ → R σ} {s : σ}
    (h0 : P 0 s) (hs : ∀ (i : Fin n) s, P i s → Tot (f i s) (P (i + 1))) : Tot (foldFinM n f s) (P n) := by
  induction n with
  | zero => exact ⟨s, rfl, h0⟩
  | succ n ih =>
    rw [foldFinM_succ]
    exact Tot.bind (ih (fun i s h => hs i.castSucc s h)) (fun a _ h => hs (Fin.last n) a h)

/-- partial correctness of a loop -/
theorem foldFinM_inv {σ : Type _} (P : Nat → σ → Prop) {n : Nat} {f : Fin n → σ → R σ} {s s' : σ}
    (h : foldFinM n f s = .ok s')
    (h0 : P 0 s) (hs : ∀ (i : Fin n) s s', P i s → f i s = .ok s' → P (i + 1) s') : P n s' := by
  induction n generalizing s' with
  | zero => cases h; exact h0
  | succ n ih =>
    rw [foldFinM_succ, bind_ok] at h
    obtain ⟨a, ha, hb⟩ := h
    exact hs (Fin.last n) a s' (ih ha (fun i s s' h h' => hs i.castSucc s s' h h')) hb

theorem seqFin_ok {β : Type _} {n : Nat} {f : Fin n → R β} {g : Fin n → β} :
    seqFin n f = .ok g ↔ ∀ i, f i = .ok (g i) := by
  induction n with
  | zero =>
    constructor
    · intro _ i; exact i.elim0
    · intro _; unfold seqFin; congr 1; funext i; exact i.elim0
  | succ n ih =>
    unfold seqFin
    rw [bind_ok]
    constructor
    · rintro ⟨a, ha, h⟩
      rw [bind_ok] at h
      obtain ⟨g', hg, h⟩ := h
      rw [pure_ok] at h
      subst h
      intro i
      refine Fin.cases ?_ (fun i => ?_) i
      · rw [Fin.cons_zero]; exact ha
      · rw [Fin.cons_succ]; exact ih.1 hg i
    · intro h
      refine ⟨g 0, h 0, ?_⟩
      rw [bind_ok]
      refine ⟨fun i => g i.succ, ih.2 (fun i => h i.succ), ?_⟩
      rw [pure_ok]
      funext i
      refine Fin.cases ?_ (fun i => ?_) i <;> simp

theorem seqFin_tot {β : Type _} {n : Nat} {f : Fin n → R β} {P : Fin n → β → Prop}
    (h : ∀ i, Tot (f i) (P i)) : Tot (seqFin n f) (fun g => ∀ i, P i (g i)) := by
  choose g hg using h
  exact ⟨g, seqFin_ok.2 (fun i => (hg i).1), fun i => (hg i).2⟩

end H2
