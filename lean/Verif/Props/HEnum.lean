import Verif.Proof.HEnum
import Verif.Props.HMatrix

/-!
# C91: enumeration of the submatrices of an H-matrix

`enumerateHmatrix dbg b (some h)` is `enumerate_hmatrix(b, h)`, where `dbg` states whether assertions are compiled; entry `k` of its result is `none` if it has not been
written, `some none` for the null pointer and `some (some s)` for a submatrix `s`.  `Spec.bnodes b` and `Spec.hnodes h` are the lists of all blocks and of all
submatrices, fathers before sons; `C16_enumerate` shows that `bnodes b` is the numbering of the blocks used by the library.
-/

namespace H2.Props
open Spec
variable {G : Type _}

/-- For an H-matrix with the structure of the block tree, `enumerate_hmatrix` succeeds, and entry `k` is submatrix number `k`; the array has `b->desc` entries, all of them
are written, and submatrix number `k` belongs to the clusters of block number `k`. -/
theorem C91_enumerate (dbg : Bool) {b : H2.Block G} {h : HMat G} (hs : SameBlocks b h) (hd : BDescExact b) :
    ∃ hn, HMat.enumerateHmatrix dbg b (some h) = .ok hn ∧ (∀ k, hn k = ((hnodes h)[k]?).map some) ∧ (hnodes h).length = b.desc ∧
      List.Forall₂ (fun b' h' => h'.rc = b'.rc ∧ h'.cc = b'.cc) (bnodes b) (hnodes h) := by
  have hb := hd b (mem_bnodes_self b)
  have hl := HMat.hsubs_length b (some h)
  rw [HMat.hsubs_same b h hs, List.length_map] at hl
  have hf : HMat.Fits dbg b (some h) := by
    cases dbg
    · exact HMat.fits_coarser b h (HMat.coarser_of_same b h hs)
    · exact HMat.fits_same b h hs
  refine ⟨_, HMat.henumerate_tot dbg b.desc b hd (some h) hf 0 _ (by omega), fun k => ?_, by omega, ?_⟩
  · rw [HMat.hsubs_same b h hs]
    simp only [putList, Nat.zero_le, true_and, Nat.zero_add, Nat.sub_zero, List.length_map, List.getElem?_map]
    split
    · rfl
    · rw [List.getElem?_eq_none (by omega)]; rfl
  · have := HMat.hsubs_fit b h (HMat.coarser_of_same b h hs)
    rw [HMat.hsubs_same b h hs, List.forall₂_map_right_iff] at this
    exact this.imp fun b' h' f => f h' rfl

/-- If the block tree may be finer than the H-matrix and assertions are not compiled, `enumerate_hmatrix` succeeds: all `b->desc` entries are written, those that are not null
are, in this order, the submatrices of `h`, and each of them belongs to the clusters of the block with the same number. -/
theorem C91_enumerate_coarser {b : H2.Block G} {h : HMat G} (hs : CoarserHMat b h) (hd : BDescExact b) :
    ∃ hn, HMat.enumerateHmatrix false b (some h) = .ok hn ∧ ∃ l : List (Option (HMat G)), l.length = b.desc ∧ (∀ k, hn k = l[k]?) ∧
      l.filterMap id = hnodes h ∧ List.Forall₂ (fun b' o => ∀ h', o = some h' → h'.rc = b'.rc ∧ h'.cc = b'.cc) (bnodes b) l := by
  have hb := hd b (mem_bnodes_self b)
  have hl := HMat.hsubs_length b (some h)
  refine ⟨_, HMat.henumerate_tot false b.desc b hd (some h) (HMat.fits_coarser b h hs) 0 _ (by omega), HMat.hsubs b (some h), by omega, fun k => ?_,
    HMat.hsubs_filter b h hs, HMat.hsubs_fit b h hs⟩
  simp only [putList, Nat.zero_le, true_and, Nat.zero_add, Nat.sub_zero]
  split
  · rfl
  · rw [List.getElem?_eq_none (by omega)]

/-- With assertions, the case of a finer block tree fails: `enumerate` treats null pointers for submatrices below leaves of the H-matrix, but its first assertion
dereferences them.  So, for a matrix coarser than the block tree, `enumerate_hmatrix` succeeds if and only if both have the same structure. -/
theorem C91_enumerate_assert {b : H2.Block G} {h : HMat G} (hc : CoarserHMat b h) (hd : BDescExact b) :
    (∃ hn, HMat.enumerateHmatrix true b (some h) = .ok hn) ↔ SameBlocks b h := by
  constructor
  · rintro ⟨hn, e⟩
    exact HMat.enumerate_same b hc e
  · intro hs
    obtain ⟨hn, e, -⟩ := C91_enumerate true hs hd
    exact ⟨hn, e⟩

/-- Matrices created by `build_from_block_hmatrix` have the structure of the block tree. -/
theorem C91_built (adr : CRef G → CRef G → Nat × Nat) (k : Nat) (b : H2.Block G) : SameBlocks b (HMat.buildFromBlock adr k b) :=
  HMat.same_build adr k b

/-! ### example -/

/-- a block with two times two sons -/
def enumBlock : H2.Block Nat := .mk (CRef.root bex) (CRef.root bex) false 5 2 2 fun i j => .mk (bs i) (bs j) false 1 0 0 fun i => i.elim0

/-- the matrix `hex` matches `enumBlock`; a dense matrix is coarser, and `enumerate_hmatrix` fails for it if assertions are compiled -/
example : BDescExact enumBlock ∧ SameBlocks enumBlock hex ∧ CoarserHMat enumBlock (.full (CRef.root bex) (CRef.root bex) 1 ⟨0, 5, 5, 5⟩) ∧
    ¬ SameBlocks enumBlock (.full (CRef.root bex) (CRef.root bex) 1 ⟨0, 5, 5, 5⟩) ∧
    (∃ hn, HMat.enumerateHmatrix true enumBlock (some hex) = .ok hn ∧ hn 0 = some (some hex) ∧ hn 3 = some (some (hexSon 0 1)) ∧ hn 5 = none) ∧
    ¬ ∃ hn, HMat.enumerateHmatrix true enumBlock (some (.full (CRef.root bex) (CRef.root bex) 1 ⟨0, 5, 5, 5⟩)) = .ok hn := by
  have hd : BDescExact enumBlock := by
    intro s hs
    have : s = enumBlock ∨ ∃ i j, s = .mk (bs i) (bs j) false 1 0 0 fun i => i.elim0 := by
      simp only [enumBlock, bnodes, List.mem_cons, List.mem_flatMap] at hs
      rcases hs with rfl | ⟨j, -, i, -, h⟩
      · exact .inl rfl
      · rcases h with rfl | h
        · exact .inr ⟨i, j, rfl⟩
        · simp at h
    rcases this with rfl | ⟨i, j, rfl⟩
    · rfl
    · rfl
  have hs : SameBlocks enumBlock hex := by
    refine ⟨rfl, rfl, rfl, rfl, fun i j i' j' e e' => ?_⟩
    obtain rfl : i = i' := Fin.ext e
    obtain rfl : j = j' := Fin.ext e'
    fin_cases i <;> fin_cases j <;> exact ⟨rfl, rfl, rfl⟩
  have hc : CoarserHMat enumBlock (.full (CRef.root bex) (CRef.root bex) 1 ⟨0, 5, 5, 5⟩) := ⟨rfl, rfl⟩
  have hn : ¬ SameBlocks enumBlock (.full (CRef.root bex) (CRef.root bex) 1 ⟨0, 5, 5, 5⟩) := fun h => absurd h.2.2 (by decide)
  refine ⟨hd, hs, hc, hn, ?_, fun h => hn ((C91_enumerate_assert hc hd).mp h)⟩
  obtain ⟨a, e, h, -⟩ := C91_enumerate true hs hd
  exact ⟨a, e, by rw [h]; rfl, by rw [h]; rfl, by rw [h]; rfl⟩

end H2.Props
