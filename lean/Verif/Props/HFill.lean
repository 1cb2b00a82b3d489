import Verif.Proof.HFill2
import Verif.Props.HSolve
import Verif.Props.HMatrix
import Verif.Props.Rk

/-!
# C84: filling H-matrices

`clear_hmatrix`, `identity_hmatrix`, `clear_upper_hmatrix`, `copy_hmatrix` and `copy_sparsematrix_hmatrix`.
-/

namespace H2.Props
open H2 Spec Dense
variable {G K : Type} [Field K] [StarRing K]

/-- `copy_sparsematrix_hmatrix`: all accesses are legal, every position of a dense leaf receives the entry of the sparse matrix for the row and
column index of this position, all other positions keep their entries, and memory outside the H-matrix is not touched. -/
theorem C84_copy_sparse {sp : Sparse K} {ridx cidx : Arr Nat} {h : HMat G} {m : Mem K} (hs : CSR sp) (ho : HOk h) (hv : HValid m h) (hd : HDisj h)
    (hp : Packed h) (hr : ∀ p, InSeg h.rc p → p < ridx.n ∧ ridx.v p < sp.rows) (hc : ∀ p, InSeg h.cc p → p < cidx.n) :
    ∃ m', HMat.copySparse sp ridx cidx h m = .ok m' ∧ HValid m' h ∧
      (∀ r c, DensePos h r c → place m' h r c = entry sp (ridx.v r) (cidx.v c)) ∧
      (∀ r c, ¬ DensePos h r c → place m' h r c = place m h r c) ∧ ∀ c, ¬ HCell h c → m' c = m c := by
  obtain ⟨m', e, ⟨h1, h2, h3⟩, h4⟩ := HMat.copySparse_tot hs ho hv hd hp hr hc
  exact ⟨m', e, h1, h2, h3, h4⟩

/-- If the low-rank leaves represent zero and the sparse matrix has no entries there, the H-matrix represents the sparse matrix with permuted
rows and columns afterwards. -/
theorem C84_copy_sparse_exact {sp : Sparse K} {ridx cidx : Arr Nat} {h : HMat G} {m : Mem K} (hs : CSR sp) (ho : HOk h) (hv : HValid m h) (hd : HDisj h)
    (hp : Packed h) (hr : ∀ p, InSeg h.rc p → p < ridx.n ∧ ridx.v p < sp.rows) (hc : ∀ p, InSeg h.cc p → p < cidx.n)
    (hz : ∀ r c, InSeg h.rc r → InSeg h.cc c → ¬ DensePos h r c → place m h r c = 0 ∧ entry sp (ridx.v r) (cidx.v c) = 0) :
    ∃ m', HMat.copySparse sp ridx cidx h m = .ok m' ∧
      ∀ r c, InSeg h.rc r → InSeg h.cc c → place m' h r c = entry sp (ridx.v r) (cidx.v c) := by
  obtain ⟨m', e, -, h2, h3, -⟩ := C84_copy_sparse hs ho hv hd hp hr hc
  refine ⟨m', e, fun r c i1 i2 => ?_⟩
  by_cases hh : DensePos h r c
  · exact h2 r c hh
  · rw [h3 r c hh, (hz r c i1 i2 hh).1, (hz r c i1 i2 hh).2]

/-- `clear_hmatrix`: the zero matrix, with the same block structure. -/
theorem C84_clear {h : HV G K} (ho : HVOk h) : HVOk (HV.clearAll h) ∧ SameShape h (HV.clearAll h) ∧ ∀ r c, hval (HV.clearAll h) r c = 0 :=
  ⟨HV.clearAll_ok ho, HV.clearAll_shape h, fun r c => HV.clearAll_val r c h⟩

/-- `identity_hmatrix`: if all leaves that meet the diagonal are dense and belong to equal clusters, the result is the identity. -/
theorem C84_identity {h : HV G K} (ho : HVOk h) (hd : DiagDense h) : HVOk (HV.identityH h) ∧ (HV.identityH h).rc = h.rc ∧
    (HV.identityH h).cc = h.cc ∧ ∀ r c, InSeg h.rc r → InSeg h.cc c → hval (HV.identityH h) r c = if r = c then 1 else 0 :=
  ⟨HV.identityH_ok ho, (HV.identityH_cl h).1, (HV.identityH_cl h).2, fun _ _ hr hc =>
    HV.identityH_val ho hd (mem_seg.mpr hr) (mem_seg.mpr hc)⟩

/-- A low-rank leaf on the diagonal is cleared by `identity_hmatrix`: the result is not the identity. -/
theorem C84_identity_lowrank_zero (t : CRef G) (x : VRk K) (r c : Nat) : hval (HV.identityH (.rk t t x)) r c = 0 := by
  simp only [HV.identityH, hval_rk, HV.rkVal_zero, ite_self]

/-- `clear_upper_hmatrix(h, strict)`: the entries above the diagonal — and on the diagonal, if `strict` is false — become zero, the entries of
low-rank leaves on the diagonal of the block structure become zero, all others keep their values, and the block structure stays the same. -/
theorem C84_clear_upper (strict : Bool) {h : HV G K} (ho : HVOk h) (hd : DiagSquare h) : ∃ h', HV.clearUpperH strict h = .ok h' ∧
    HVOk h' ∧ SameShape h h' ∧ ∀ r c, InSeg h.rc r → InSeg h.cc c →
      (r < c ∨ (strict = false ∧ r = c) ∨ RkDiag h r c → hval h' r c = 0) ∧
      (¬ (r < c ∨ (strict = false ∧ r = c) ∨ RkDiag h r c) → hval h' r c = hval h r c) := by
  obtain ⟨h', e, ⟨-, -, h1, h2⟩, h3⟩ := HV.clearUpperH_tot (strict := strict) ho hd
  exact ⟨h', e, h1, h2, fun r c hr hc => h3 r (mem_seg.mpr hr) c (mem_seg.mpr hc)⟩

/-- `clear_upper_hmatrix` stops at a dense diagonal leaf whose row and column cluster are different objects. -/
theorem C84_clear_upper_stops (strict : Bool) {t s : CRef G} (f : VMat K) (h : t.same s = false) :
    HV.clearUpperH strict (.full t s f) = .error .assertFail := by
  simp only [HV.clearUpperH, h]
  rfl

/-- `copy_hmatrix`: if both matrices have the same block structure, the target represents the source's matrix afterwards. -/
theorem C84_copy {src trg : HV G K} (h1 : HVOk src) (h2 : HVOk trg) (h3 : SameShape src trg) : ∃ trg', HV.copyH src trg = .ok trg' ∧
    HVOk trg' ∧ trg'.rc = trg.rc ∧ trg'.cc = trg.cc ∧ ∀ r c, hval trg' r c = hval src r c := by
  obtain ⟨h', e, g1, g2, g3, g4⟩ := HV.copyH_tot h1 h2 h3
  exact ⟨h', e, g3, g1, g2, g4⟩

/-- `copy_hmatrix` with leaves of different kinds never succeeds. -/
theorem C84_copy_mismatch (t s t' s' : CRef G) (x : VRk K) (f : VMat K) :
    HV.copyH (.rk t s x) (.full t' s' f) = .error .ub ∧ HV.copyH (.full t s f) (.rk t' s' x) = .error .ub := ⟨rfl, rfl⟩

/-! ### the hypotheses can be met -/

/-- the 2 × 2 matrix with rows `(5, 0)` and `(6, 7)` -/
def sp84 : Sparse ℚ :=
  { rows := 2, cols := 2, nz := 3, row := ⟨3, fun i => if i = 0 then 0 else if i = 1 then 1 else 3⟩,
    col := ⟨3, fun k => if k = 2 then 1 else 0⟩, coeff := ⟨3, fun k => k + 5⟩ }

theorem sp84_csr : CSR sp84 := by
  refine ⟨rfl, rfl, rfl, rfl, ?_, rfl, ?_, ?_⟩
  · intro i hi
    have : i < 2 := hi
    obtain rfl | rfl : i = 0 ∨ i = 1 := by omega
    all_goals decide
  · intro k hk
    have : k < 3 := hk
    obtain rfl | rfl | rfl : k = 0 ∨ k = 1 ∨ k = 2 := by omega
    all_goals decide
  · intro i hi k l hk hl e
    have : i < 2 := hi
    simp only [InRow, sp84] at hk hl e
    obtain rfl | rfl : i = 0 ∨ i = 1 := by omega
    · simp at hk hl; omega
    · simp at hk hl
      by_cases e1 : k = 2 <;> by_cases e2 : l = 2 <;> simp_all
      omega

/-- the index arrays swap the two indices -/
def idx84 : Arr Nat := ⟨2, fun i => 1 - i⟩

theorem hM_ok : HOk hM ∧ HValid exMemRk hM ∧ HDisj hM ∧ Packed hM := by
  have seg : Segments hc2 (fun i : Fin 2 => kid hc2 i.1) := by
    constructor
    · decide
    · decide
  refine ⟨⟨by omega, by omega, ⟨fun i => kid hc2 i, fun i => kid hc2 i, fun i j => ?_, seg, seg⟩, fun i j => ?_⟩, fun i j => ?_, ⟨?_, ?_⟩, fun i j => ?_⟩
  · fin_cases i <;> fin_cases j <;> exact ⟨rfl, rfl⟩
  · fin_cases i <;> fin_cases j <;> exact ⟨rfl, rfl⟩
  · fin_cases i <;> fin_cases j
    · exact ⟨le_rfl, fun i hi j hj => exMemRk_some (by simp only [Mat.addr] at *; simp at hi hj ⊢; omega)⟩
    · exact ⟨le_rfl, fun i hi j hj => exMemRk_some (by simp only [Mat.addr] at *; simp at hi hj ⊢; omega)⟩
    · refine ⟨⟨le_rfl, fun i hi j hj => exMemRk_some ?_⟩, ⟨le_rfl, fun i hi j hj => exMemRk_some ?_⟩, ?_, rfl, rfl⟩
      · simp only [Mat.addr] at *; omega
      · simp only [Mat.addr] at *; omega
      · rintro c ⟨i, hi, j, hj, rfl⟩ ⟨i', hi', j', hj', e⟩; simp only [Mat.addr] at *; omega
    · exact ⟨le_rfl, fun i hi j hj => exMemRk_some (by simp only [Mat.addr] at *; simp at hi hj ⊢; omega)⟩
  · have key : ∀ (i j : Fin 2) (c : Nat), HCell (if i = 1 ∧ j = 0 then .rk (kid hc2 1) (kid hc2 0) 1 ⟨⟨2, 1, 1, 1⟩, ⟨3, 1, 1, 1⟩, 1⟩
        else .full (kid hc2 i) (kid hc2 j) 1 ⟨if i = 0 then (if j = 0 then 0 else 1) else 4, 1, 1, 1⟩ : HMat Nat) c →
        (i, j) = (if c = 0 then (0, 0) else if c = 1 then (0, 1) else if c = 4 then (1, 1) else (1, 0)) := by
      intro i j c h
      fin_cases i <;> fin_cases j
      · obtain ⟨a, ha, b, hb, rfl⟩ := h; simp [Mat.addr] at *; simp [ha, hb]
      · obtain ⟨a, ha, b, hb, rfl⟩ := h; simp [Mat.addr] at *; simp [ha, hb]
      · rcases h with ⟨a, ha, b, hb, rfl⟩ | ⟨a, ha, b, hb, rfl⟩ <;> (simp [Mat.addr] at *; simp [ha, hb])
      · obtain ⟨a, ha, b, hb, rfl⟩ := h; simp [Mat.addr] at *; simp [ha, hb]
    intro i j i' j' hne c h1 h2
    exact hne ((key i j c h1).trans (key i' j' c h2).symm)
  · intro i j; fin_cases i <;> fin_cases j <;> trivial
  · fin_cases i <;> fin_cases j <;> first | trivial | rfl

/-- filling `hM` with `sp84` under a permutation: entry `(0, 0)` of the H-matrix is entry `(1, 1)` of the sparse matrix, and the low-rank block is
kept -/
example : ∃ m', HMat.copySparse sp84 idx84 idx84 hM exMemRk = .ok m' ∧ place m' hM 0 0 = entry sp84 1 1 ∧ place m' hM 0 1 = entry sp84 1 0 ∧
    place m' hM 1 0 = place exMemRk hM 1 0 := by
  obtain ⟨h1, h2, h3, h4⟩ := hM_ok
  obtain ⟨m', e, -, g1, g2, -⟩ := C84_copy_sparse (sp := sp84) (ridx := idx84) (cidx := idx84) (m := exMemRk) sp84_csr h1 h2 h3 h4
    (fun p hp => by
      have : p < 2 := by have := hp.2; exact this
      exact ⟨this, show 1 - p < 2 by omega⟩)
    (fun p hp => by
      have : p < 2 := by have := hp.2; exact this
      exact this)
  refine ⟨m', e, g1 0 0 ⟨0, 0, ⟨by decide, by decide⟩, by decide, by decide⟩, g1 0 1 ⟨0, 1, ⟨by decide, by decide⟩, by decide, by decide⟩, g2 1 0 ?_⟩
  rintro ⟨i, j, h⟩
  fin_cases i <;> fin_cases j
  · exact absurd h.1.2 (by decide)
  · exact absurd h.1.2 (by decide)
  · exact h
  · exact absurd h.2.1 (by decide)

/-- the H-matrix `hA` has dense blocks on the diagonal -/
theorem hA_dd : DiagDense hA ∧ DiagSquare hA := by
  refine ⟨fun i j => ?_, rfl, rfl, fun i j h => ?_⟩
  · fin_cases i <;> fin_cases j
    · exact Or.inl rfl
    · refine Or.inr ⟨by decide, ?_⟩
      rintro r ⟨_, h1⟩ ⟨h2, _⟩
      replace h1 : r < 0 + 1 := h1
      replace h2 : 1 ≤ r := h2
      omega
    · rintro r ⟨h2, _⟩ ⟨_, h1⟩
      replace h1 : r < 0 + 1 := h1
      replace h2 : 1 ≤ r := h2
      omega
    · exact Or.inl rfl
  · obtain rfl : i = j := Fin.ext h
    fin_cases i <;> rfl

theorem hA_ok : HVOk hA := (hson2_ok _ _ _ _ ⟨rfl, rfl⟩ ⟨rfl, rfl⟩ ⟨rfl, rfl⟩ ⟨⟨rfl, rfl⟩, rfl, rfl⟩).1

example : hval (HV.identityH hA) 1 1 = 1 ∧ hval (HV.identityH hA) 1 0 = 0 := by
  have h := (C84_identity hA_ok hA_dd.1).2.2.2
  exact ⟨h 1 1 ⟨by decide, by decide⟩ ⟨by decide, by decide⟩, h 1 0 ⟨by decide, by decide⟩ ⟨by decide, by decide⟩⟩

/-- with `strict`, the diagonal and the lower triangle are kept -/
example : ∃ h', HV.clearUpperH true hA = .ok h' ∧ hval h' 0 1 = 0 ∧ hval h' 1 1 = hval hA 1 1 ∧ hval h' 1 0 = hval hA 1 0 := by
  obtain ⟨h', e, -, -, h⟩ := C84_clear_upper true hA_ok hA_dd.2
  have hn : ∀ r c, ¬ RkDiag hA r c := by
    rintro r c ⟨i, j, hij, hh⟩
    obtain rfl : i = j := Fin.ext hij
    fin_cases i <;> exact hh
  refine ⟨h', e, (h 0 1 ⟨by decide, by decide⟩ ⟨by decide, by decide⟩).1 (Or.inl (by omega)),
    (h 1 1 ⟨by decide, by decide⟩ ⟨by decide, by decide⟩).2 ?_, (h 1 0 ⟨by decide, by decide⟩ ⟨by decide, by decide⟩).2 ?_⟩
  · rintro (h | ⟨h, _⟩ | h)
    · omega
    · cases h
    · exact hn _ _ h
  · rintro (h | ⟨h, _⟩ | h)
    · omega
    · cases h
    · exact hn _ _ h

example : ∃ trg', HV.copyH hA (HV.clearAll hA) = .ok trg' ∧ ∀ r c, hval trg' r c = hval hA r c := by
  obtain ⟨h', e, -, -, -, h⟩ := C84_copy hA_ok (C84_clear hA_ok).1 (C84_clear hA_ok).2.1
  exact ⟨h', e, h⟩

/-- a dense leaf that is a window into a larger matrix (leading dimension 2, one row): the zero of the second column goes to the wrong cell, and
the old entry of the second column survives, although the sparse matrix is zero there -/
theorem C84_copy_sparse_window_wrong : ∃ m', HMat.copySparse (G := Nat) sp84 ⟨1, fun _ => 0⟩ ⟨2, fun i => i⟩ (.full (kid hc2 0) hc2 1 ⟨10, 2, 1, 2⟩) exMemRk = .ok m' ∧
    entry sp84 0 1 = 0 ∧ place m' (.full (kid hc2 0) hc2 1 ⟨10, 2, 1, 2⟩) 0 1 = 12 ∧ m' 11 = some 0 ∧
    ¬ HCell (.full (kid hc2 0) hc2 1 ⟨10, 2, 1, 2⟩) 11 := by
  refine ⟨(((exMemRk.upd 10 0).upd 11 0).upd 10 (sp84.coeff.v 0)), ?_, ?_, ?_, ?_, ?_⟩
  · rfl
  · simp [entry, sp84]
  · rw [HMat.place_full', if_pos ⟨by decide, by decide, by decide, by decide⟩]
    simp [Mat.val, Mat.addr, Mem.upd, exMemRk, kid, hc2, CRef.root]
  · simp [Mem.upd]
  · rintro ⟨i, hi, j, hj, e⟩
    simp only [Mat.addr] at *
    omega

end H2.Props
