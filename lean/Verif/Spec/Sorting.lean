import Mathlib.Logic.Equiv.Defs

/-! Specification vocabulary for C01: what "sorted" and "a rearrangement" mean. -/

namespace H2.Spec

/-- `le` is a total preorder (what a caller must supply as comparison). -/
structure TotalPreorder {α : Type _} (le : α → α → Bool) : Prop where
  total : ∀ x y, le x y = true ∨ le y x = true
  trans : ∀ x y z, le x y = true → le y z = true → le x z = true

/-- The entries at positions `0 … n-1` ascend. -/
def Ascending {α : Type _} (le : α → α → Bool) (n : Nat) (a : Nat → α) : Prop :=
  ∀ i j, i < j → j < n → le (a i) (a j) = true

/-- `a'` arises from `a` by permuting positions `0 … n-1`; all other positions keep their entry. -/
def Rearranged {α : Type _} (n : Nat) (a a' : Nat → α) : Prop :=
  ∃ σ : Equiv.Perm Nat, (∀ i, n ≤ i → σ i = i) ∧ ∀ i, a' i = a (σ i)

end H2.Spec
