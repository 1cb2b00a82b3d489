import Verif.Proof.Heapsort
import Verif.Spec.Sorting

/-! # C01 heapsort sorts and permutes -/

namespace H2.Props
open H2.Heapsort H2.Spec

/-- C01: for every total preorder, every `n` and every array, `heapsort` (a total function of the
model, hence terminating) yields an ascending rearrangement of positions `0 … n-1` and leaves every
other position alone. -/
theorem C01_heapsort_sorted_permutation {α : Type _} {le : α → α → Bool} (hle : TotalPreorder le)
    (n : Nat) (a : Nat → α) :
    Ascending le n (heapsort le n a) ∧ Rearranged n a (heapsort le n a) := by
  unfold heapsort
  split
  · rename_i h
    exact ⟨fun i j h1 h2 => by omega, PermBelow.refl _ _⟩
  · constructor
    · have hb : Heap le n 0 (buildHeap le n (n / 2) a) := by
        apply buildHeap_heap hle.total hle.trans
        intro p c hp hc hcn; omega
      exact sortPhase_sorted hle.total hle.trans n n _ (Nat.le_refl _) hb
        (fun i j h1 h2 h3 => by omega)
    · exact (buildHeap_perm le n (n / 2) a).trans (sortPhase_perm le n _)

/-- Non-vacuity: `≤` on naturals is a total preorder. -/
example : TotalPreorder (fun x y : Nat => decide (x ≤ y)) where
  total := fun x y => by simp; omega
  trans := fun x y z => by simp; omega

/-- Test (not a proof of anything general): a concrete run. -/
example : (List.range 5).map (heapsort (fun x y : Nat => decide (x ≤ y)) 5
    (fun i => [3, 1, 4, 1, 5].getD i 9)) = [1, 1, 3, 4, 5] := by
  simp [heapsort, sortPhase, buildHeap, heapDown, swap, List.range, List.range.loop]

end H2.Props
