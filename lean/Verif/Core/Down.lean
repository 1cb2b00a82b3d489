import Verif.Core.Arr
import Verif.Core.Sums

/-! # Loops running downwards -/

namespace H2

/-- C `for (i = n; i-- > 0;) body`. -/
def forDown {σ : Type _} (body : Nat → σ → R σ) : Nat → σ → R σ
  | 0, s => .ok s
  | n + 1, s => body n s >>= forDown body n

theorem forDown_tot {σ : Type _} {n : Nat} {body : Nat → σ → R σ} {s : σ} (I : Nat → σ → Prop) (h0 : I n s)
    (hb : ∀ k t, k < n → I (k + 1) t → Tot (body k t) (I k)) : Tot (forDown body n s) (I 0) := by
  induction n generalizing s with
  | zero => exact ⟨s, rfl, h0⟩
  | succ n ih =>
    exact Tot.bind (hb n s (Nat.lt_succ_self _) h0) fun t _ ht => ih ht fun k t hk h => hb k t (by omega) h

end H2
