import Verif.Core.Exec
import Mathlib.Algebra.BigOperators.Group.Finset.Basic
import Mathlib.Algebra.BigOperators.Intervals

/-! Accumulation loops are finite sums; reasoning combinators for outcomes. -/

namespace H2

theorem forT_sum {M : Type _} [AddCommMonoid M] (f : Nat → M) (n : Nat) (s : M) :
    forT 0 n (fun i a => a + f i) s = s + ∑ i ∈ Finset.range n, f i := by
  induction n with
  | zero => simp [forT_self]
  | succ n ih => rw [forT_succ (Nat.zero_le _), ih, Finset.sum_range_succ, add_assoc]

/-- the call returns normally with a result satisfying `P` -/
def Tot {α : Type _} (x : R α) (P : α → Prop) : Prop := ∃ a, x = .ok a ∧ P a

/-- the call runs out of budget, or returns normally with a result satisfying `P` -/
def Dich {α : Type _} (x : R α) (P : α → Prop) : Prop := x = .error .fuel ∨ ∃ a, x = .ok a ∧ P a

theorem Tot.bind {α β : Type _} {x : R α} {k : α → R β} {P : α → Prop} {Q : β → Prop}
    (h : Tot x P) (hk : ∀ a, x = .ok a → P a → Tot (k a) Q) : Tot (x >>= k) Q := by
  obtain ⟨a, e, p⟩ := h
  rw [e, ok_bind]; exact hk a e p

theorem Tot.pure {α : Type _} {a : α} {P : α → Prop} (h : P a) : Tot (Pure.pure a : R α) P :=
  ⟨a, rfl, h⟩

theorem Tot.cassert {β : Type _} {p : Bool} {k : Unit → R β} {Q : β → Prop} (hp : p = true)
    (h : Tot (k ()) Q) : Tot (H2.cassert p >>= k) Q := by
  rw [cassert_true hp, ok_bind]; exact h

theorem Tot.mono {α : Type _} {x : R α} {P Q : α → Prop} (h : Tot x P) (hpq : ∀ a, P a → Q a) :
    Tot x Q := by
  obtain ⟨a, e, p⟩ := h; exact ⟨a, e, hpq a p⟩

theorem Dich.bind {α β : Type _} {x : R α} {k : α → R β} {P : α → Prop} {Q : β → Prop}
    (h : Dich x P) (hk : ∀ a, x = .ok a → P a → Dich (k a) Q) : Dich (x >>= k) Q := by
  rcases h with e | ⟨a, e, p⟩
  · left; rw [e]; rfl
  · rw [e, ok_bind]; exact hk a e p

theorem Dich.pure {α : Type _} {a : α} {P : α → Prop} (h : P a) : Dich (Pure.pure a : R α) P :=
  .inr ⟨a, rfl, h⟩

theorem Dich.cassert {β : Type _} {p : Bool} {k : Unit → R β} {Q : β → Prop} (hp : p = true)
    (h : Dich (k ()) Q) : Dich (H2.cassert p >>= k) Q := by
  rw [cassert_true hp, ok_bind]; exact h

theorem Tot.dich {α : Type _} {x : R α} {P : α → Prop} (h : Tot x P) : Dich x P := .inr h

end H2
