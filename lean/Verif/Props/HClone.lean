import Verif.Proof.HClone
import Verif.Props.HMatrix
import Verif.Props.H2Solve

/-!
# C92: copying an H-matrix

`Spec.HCopyOf m m' h h'`: the same blocks, ranks and coefficients; `Spec.dense ridx cidx m h` and `Spec.place m h` are the represented matrix in the original numbering
of the indices and in the numbering of the clusters; `Spec.HCell h` are the memory cells of the leaves of `h`.
-/

namespace H2.Props
open Spec
variable {G K : Type} [Field K] [StarRing K]

/-- `clone_hmatrix(src)` returns a complete H-matrix with exact counts of blocks and the same clusters, blocks, ranks and coefficients, all of it in new memory: the leaves of the copy
neither overlap each other nor memory that was in use before, and nothing that was in use before is changed. -/
theorem C92_clone {alloc : Mem K → Nat → Nat} (hal : FreshAlloc alloc) {junk : Nat → K} {h : HMat G} {m : Mem K} (hf : FiniteMem m) (ho : HOk h) (hv : HValid m h) :
    ∃ h' m', HMat.clone alloc junk h m = .ok (h', m') ∧ HOk h' ∧ HValid m' h' ∧ HDisj h' ∧ HDescExact h' ∧ h'.rc = h.rc ∧ h'.cc = h.cc ∧
      HCopyOf m m' h h' ∧ (∀ c, HCell h' c → m c = none) ∧ Disj (HCell h) (HCell h') ∧ ∀ c, (m c).isSome → m' c = m c := by
  obtain ⟨⟨h', m'⟩, e, -, k2, k3, k4, k5, k6, k7, k8, k9, k10⟩ := HMat.clone_tot hal (junk := junk) hf ho hv
  refine ⟨h', m', e, k3, k4, k5, k7, k8, k9, k10, k6, fun c h1 h2 => ?_, k2⟩
  have := HMat.hvalid_cell hv h1
  rw [k6 c h2] at this
  exact absurd this (by simp)

/-- The copy represents the same matrix, and keeps doing so whatever happens to the memory of the original matrix, for example if it is changed or released. -/
theorem C92_clone_matrix {alloc : Mem K → Nat → Nat} (hal : FreshAlloc alloc) {junk : Nat → K} {h : HMat G} {m : Mem K} (hf : FiniteMem m) (ho : HOk h) (hv : HValid m h) :
    ∃ h' m', HMat.clone alloc junk h m = .ok (h', m') ∧ ∀ m'', Frame (HCell h) m' m'' → HValid m'' h' ∧ (∀ r c, place m'' h' r c = place m h r c) ∧
      ∀ ridx cidx a b, dense ridx cidx m'' h' a b = dense ridx cidx m h a b := by
  obtain ⟨h', m', e, ho', hv', -, -, -, -, hc, hn, hd, -⟩ := C92_clone hal (junk := junk) hf ho hv
  refine ⟨h', m', e, fun m'' hm => ?_⟩
  have same : ∀ c, HCell h' c → m'' c = m' c := fun c h2 => hm c fun h1 => hd c h1 h2
  have v'' : HValid m'' h' := HMat.cells_valid same hv'
  have cp : HCopyOf m m'' h h' := HMat.cells_copy same ho' hv' ho hv hc
  exact ⟨v'', fun r c => HMat.place_copy cp r c, fun ridx cidx a b => HMat.dense_copy cp ridx cidx a b⟩

/-! ### example -/

/-- the matrix `hex` can be copied -/
example : ∃ alloc : Mem ℚ → Nat → Nat, FreshAlloc alloc ∧ HOk hex ∧ HValid exMemRk hex ∧
    ∃ h' m', HMat.clone alloc (fun _ => 7) hex exMemRk = .ok (h', m') ∧ HDisj h' ∧ h'.rc = CRef.root bex := by
  obtain ⟨alloc, hal⟩ := freshAlloc_exists
  have seg : Segments (CRef.root bex) bs := ⟨by decide, by decide⟩
  have ho : HOk hex := by
    refine ⟨by decide, by decide, ⟨bs, bs, ?_, seg, seg⟩, fun i j => hex_all ⟨rfl, rfl⟩ ⟨rfl, rfl⟩ ⟨rfl, rfl⟩ ⟨rfl, rfl⟩ i j⟩
    intro i j
    fin_cases i <;> fin_cases j <;> exact ⟨rfl, rfl⟩
  have hv : HValid exMemRk hex := by
    intro i j
    refine hex_all (P := HValid exMemRk) ⟨by decide, ?_⟩ ⟨⟨by decide, ?_⟩, ⟨by decide, ?_⟩, ?_, rfl, rfl⟩
      ⟨by decide, ?_⟩ ⟨by decide, ?_⟩ i j
    · intro i hi j hj; exact exMemRk_some (by simp only [Mat.addr] at *; omega)
    · intro i hi j hj; exact exMemRk_some (by simp only [Mat.addr] at *; omega)
    · intro i hi j hj; exact exMemRk_some (by simp only [Mat.addr] at *; omega)
    · rintro c ⟨i, hi, j, hj, rfl⟩ ⟨i', hi', j', hj', e⟩; simp only [Mat.addr] at *; omega
    · intro i hi j hj; exact exMemRk_some (by simp only [Mat.addr] at *; omega)
    · intro i hi j hj; exact exMemRk_some (by simp only [Mat.addr] at *; omega)
  have hf : FiniteMem exMemRk := ⟨30, fun c hc => by unfold exMemRk; rw [if_neg (by omega)]⟩
  obtain ⟨h', m', e, -, -, hd, -, hr, -⟩ := C92_clone hal (junk := fun _ => 7) hf ho hv
  exact ⟨alloc, hal, ho, hv, h', m', e, hd, hr⟩

end H2.Props
