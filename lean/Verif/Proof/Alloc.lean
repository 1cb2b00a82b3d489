import Verif.Model.Alloc
import Mathlib.Tactic.Common
import Mathlib.Algebra.BigOperators.Group.List.Basic

namespace H2.Alloc

def total (l : List (Nat × Nat)) : Nat := (l.map (·.2)).sum

theorem total_erase {l : List (Nat × Nat)} {b : Nat × Nat} (h : b ∈ l) :
    total l = b.2 + total (l.erase b) := by
  have := (List.perm_cons_erase h)
  have h2 := (this.map (·.2)).sum_eq
  simpa [total] using h2

theorem total_cons (l : List (Nat × Nat)) (b : Nat × Nat) : total (b :: l) = b.2 + total l := by
  simp [total]

def Inv (s : St) : Prop := s.counter = (total s.live + total s.releasing) % M

theorem step_inv {s s' : St} {a : Act} (h : Inv s) (hs : step s a = .ok s') : Inv s' := by
  unfold Inv at *
  cases a with
  | malloc id sz =>
    simp only [step] at hs
    split at hs
    · cases hs
    · cases hs; exact h
  | add id =>
    simp only [step] at hs
    split at hs
    · cases hs
    · cases hs
      simp only [total_cons, h]
      rw [Nat.mod_add_mod]; congr 1; omega
  | free id =>
    simp only [step] at hs
    split at hs
    · cases hs
    · rename_i b hb
      split at hs
      · cases hs
        have hm := List.mem_of_find?_eq_some hb
        simp only [total_cons]
        rw [total_erase hm] at h
        rw [h]; congr 1; omega
      · cases hs
  | sub id =>
    simp only [step] at hs
    split at hs
    · cases hs
    · rename_i b hb
      cases hs
      have hm := List.mem_of_find?_eq_some hb
      rw [total_erase hm] at h
      simp only [h]
      have : 0 < M := by decide
      unfold M at *
      omega

theorem step_no_assert {s : St} {a : Act} (h : Inv s)
    (hb : total s.live + total s.releasing < M) : step s a ≠ .error .assertFail := by
  cases a with
  | malloc id sz => simp only [step]; split <;> simp
  | add id => simp only [step]; split <;> simp
  | sub id => simp only [step]; split <;> simp
  | free id =>
    simp only [step]
    split
    · simp
    · rename_i b hb'
      have hm := List.mem_of_find?_eq_some hb'
      have h2 := total_erase hm
      rw [if_pos]
      · simp
      · rw [h, Nat.mod_eq_of_lt hb]; omega

theorem run_inv : ∀ (as : List Act) {s s' : St}, Inv s → run s as = .ok s' → Inv s'
  | [], s, s', h, hs => by cases hs; exact h
  | a :: as, s, s', h, hs => by
    simp only [run] at hs
    cases h1 : step s a with
    | error e => rw [h1] at hs; cases hs
    | ok s1 => rw [h1] at hs; exact run_inv as (step_inv h h1) hs

theorem run_append (as bs : List Act) (s : St) :
    run s (as ++ bs) = run s as >>= fun s' => run s' bs := by
  induction as generalizing s with
  | nil => rfl
  | cons a as ih =>
    simp only [List.cons_append, run]
    cases h : step s a with
    | error e => rfl
    | ok s1 => exact ih s1

theorem alloc_lt {esz sz : Nat} (he : 0 < esz) (h : ((esz * sz) % M) / esz = sz) :
    esz * sz < M := by
  have h1 : esz * (((esz * sz) % M) / esz) ≤ (esz * sz) % M := Nat.mul_div_le _ _
  rw [h] at h1
  have : (esz * sz) % M < M := Nat.mod_lt _ (by decide)
  omega

end H2.Alloc
