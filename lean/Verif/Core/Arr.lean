import Verif.Core.Sums

/-! Separately allocated C arrays with bounds checks. -/

namespace H2

/-- An array of `n` entries obtained from one of the allocators. -/
structure Arr (α : Type _) where
  n : Nat
  v : Nat → α

namespace Arr
variable {α : Type _}

/-- read `a[i]` -/
def get (a : Arr α) (i : Nat) : R α := if i < a.n then .ok (a.v i) else .error .ub
/-- write `a[i] = x` -/
def set (a : Arr α) (i : Nat) (x : α) : R (Arr α) :=
  if i < a.n then .ok ⟨a.n, fun k => if k = i then x else a.v k⟩ else .error .ub

theorem get_ok {a : Arr α} {i : Nat} (h : i < a.n) : a.get i = .ok (a.v i) := by simp [get, h]
theorem set_ok {a : Arr α} {i : Nat} {x : α} (h : i < a.n) :
    a.set i x = .ok ⟨a.n, fun k => if k = i then x else a.v k⟩ := by simp [set, h]

end Arr

/-- invariant rule in `Tot` form -/
theorem forUp_tot {σ : Type _} {lo hi : Nat} {body : Nat → σ → R σ} {s : σ}
    (I : Nat → σ → Prop) (hle : lo ≤ hi) (h0 : I lo s)
    (hb : ∀ k t, lo ≤ k → k < hi → I k t → Tot (body k t) (I (k + 1))) :
    Tot (forUp lo hi body s) (I hi) := forUp_inv I hle h0 hb

end H2
