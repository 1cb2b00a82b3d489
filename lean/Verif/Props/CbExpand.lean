import Verif.Proof.CbExpand
import Verif.Props.CbMatrix

/-!
# C90: multiplication of a matrix by one cluster basis matrix

`Spec.basis m cb r l` is entry `(r, l)` of the nested cluster basis matrix `V_t` of the root cluster `t` of `cb` in memory `m`, `r` being a position of the
index array.
-/

namespace H2.Props
open Spec

section
variable {G K : Type} [Field K] [StarRing K]

/-- `expand_clusterbasis_amatrix(cb, Yt, Yp)` adds `V_t Y` to `Yp`, where `Y` consists of the first `k` rows of `Yt`; these rows are kept, the other
rows of `Yt` are used as temporary storage, and nothing else changes. -/
theorem C90_expand {cb : CBas G} {Yt Yp : Mat} {s : VSt K} (ho : CbOk cb) (hb : BranchOk cb) (hv : CbValid s.mem cb)
    (hd : Disj (CbCell cb) Yt.Cell) (hd' : Disj (CbCell cb) Yp.Cell) (hp : Yp.Valid s.mem) (htp : Disj Yt.Cell Yp.Cell)
    (ht : Yt.Valid s.mem) (et : Yt.rows = cb.kbranch) (er : Yp.rows = cb.size) (ec : Yp.cols = Yt.cols) :
    ∃ s', CBas.expandMat cb Yt Yp s = .ok s' ∧ s'.act = s.act ∧ Yt.Valid s'.mem ∧ Yp.Valid s'.mem ∧
      Frame (fun c => Yt.Cell c ∨ Yp.Cell c) s.mem s'.mem ∧
      (∀ l < cb.k, ∀ c < Yt.cols, Yt.val s'.mem l c = Yt.val s.mem l c) ∧
      ∀ i < cb.size, ∀ c < Yt.cols, Yp.val s'.mem i c = Yp.val s.mem i c +
        ∑ l ∈ Finset.range cb.k, basis s.mem cb (cb.t.cl.off + i) l * Yt.val s.mem l c := by
  obtain ⟨s', e, h0, h1, h2, h3, h4, h5⟩ := CBas.expandMat_tot ho hb hv hd hd' hp htp ht et er ec
  exact ⟨s', e, h0, h1, h2, h3, h4, fun i hi => h5 i (by omega)⟩

/-- Applied to an identity matrix and a zero matrix, `expand_clusterbasis_amatrix` stores the cluster basis matrix `V_t` itself: the entries that the
nested representation only describes by transfer matrices. -/
theorem C90_expand_identity {cb : CBas G} {Yt Yp : Mat} {s : VSt K} (ho : CbOk cb) (hb : BranchOk cb) (hv : CbValid s.mem cb)
    (hd : Disj (CbCell cb) Yt.Cell) (hd' : Disj (CbCell cb) Yp.Cell) (hp : Yp.Valid s.mem) (htp : Disj Yt.Cell Yp.Cell)
    (ht : Yt.Valid s.mem) (et : Yt.rows = cb.kbranch) (er : Yp.rows = cb.size) (ec : Yp.cols = Yt.cols) (ek : Yt.cols = cb.k)
    (hI : ∀ l < cb.k, ∀ c < cb.k, Yt.val s.mem l c = if l = c then 1 else 0)
    (hz : ∀ i < cb.size, ∀ c < cb.k, Yp.val s.mem i c = 0) :
    ∃ s', CBas.expandMat cb Yt Yp s = .ok s' ∧ s'.act = s.act ∧
      ∀ i < cb.size, ∀ c < cb.k, Yp.val s'.mem i c = basis s.mem cb (cb.t.cl.off + i) c := by
  obtain ⟨s', e, h0, -, -, -, -, h5⟩ := C90_expand ho hb hv hd hd' hp htp ht et er ec
  refine ⟨s', e, h0, fun i hi c hc => ?_⟩
  rw [h5 i hi c (by omega), hz i hi c hc, zero_add, Finset.sum_eq_single c]
  · rw [hI c hc c hc, if_pos rfl, mul_one]
  · intro l hl hlc
    rw [hI l (Finset.mem_range.mp hl) c hc, if_neg hlc, mul_zero]
  · exact fun h => absurd (Finset.mem_range.mpr hc) h

/-- A matrix is compressed to the coefficients of the adjoint: `compress_clusterbasis_amatrix` is the adjoint of `expand_clusterbasis_amatrix`, that is,
`⟨Xp, V Y⟩ = ⟨V^* Xp, Y⟩` for the results of both functions, columnwise. -/
theorem C90_adjoint {cb : CBas G} {Yt Yp Xp Xt : Mat} {s : VSt K} (ho : CbOk cb) (hs : CbSons cb) (hb : BranchOk cb) (hv : CbValid s.mem cb)
    (hd : Disj (CbCell cb) Yt.Cell) (hd' : Disj (CbCell cb) Yp.Cell) (hp : Yp.Valid s.mem) (htp : Disj Yt.Cell Yp.Cell)
    (ht : Yt.Valid s.mem) (et : Yt.rows = cb.kbranch) (er : Yp.rows = cb.size) (ec : Yp.cols = Yt.cols)
    (hx : Disj (CbCell cb) Xt.Cell) (hxp : Xp.Valid s.mem) (hxt : Disj Xp.Cell Xt.Cell) (hXt : Xt.Valid s.mem)
    (ex : cb.kbranch ≤ Xt.rows) (exr : Xp.rows = cb.size) (exc : Xp.cols = Xt.cols)
    (hz : ∀ i < cb.size, ∀ c < Yt.cols, Yp.val s.mem i c = 0) :
    ∃ s1 s2, CBas.expandMat cb Yt Yp s = .ok s1 ∧ CBas.compressMat cb Xp Xt s = .ok s2 ∧
      ∀ c < Yt.cols, ∀ d < Xt.cols,
        ∑ i ∈ Finset.range cb.size, star (Xp.val s.mem i d) * Yp.val s1.mem i c =
        ∑ l ∈ Finset.range cb.k, star (Xt.val s2.mem l d) * Yt.val s.mem l c := by
  obtain ⟨s1, e1, -, -, -, -, -, h1⟩ := C90_expand ho hb hv hd hd' hp htp ht et er ec
  obtain ⟨s2, e2, -, -, -, h2⟩ := CBas.compressMat_tot ho hs hb hv hx hxp hxt hXt ex exr exc
  refine ⟨s1, s2, e1, e2, fun c hc d hd => ?_⟩
  rw [Finset.sum_congr rfl fun i hi => by rw [h1 i (Finset.mem_range.mp hi) c hc, hz i (Finset.mem_range.mp hi) c hc, zero_add],
    Finset.sum_congr (s₁ := Finset.range cb.k) rfl fun l hl => by rw [h2 l (Finset.mem_range.mp hl) d hd]]
  simp only [Finset.mul_sum, star_sum, Finset.sum_mul, star_mul', star_star]
  rw [Finset.sum_comm]
  refine Finset.sum_congr rfl fun l _ => Finset.sum_congr rfl fun i _ => ?_
  ring
end

/-! ### examples -/

/-- the expansion of two columns at address 20 into a 5 × 2 matrix at address 35, for the nested basis `cbex` with two sons -/
example : ∃ s', CBas.expandMat cbex ⟨20, 6, 6, 2⟩ ⟨35, 5, 5, 2⟩ ⟨cbMem, 7⟩ = .ok s' ∧ s'.act = 7 := by
  obtain ⟨h1, -, -⟩ := h2ex_ready
  have hv : CbValid cbMem cbex := h1.2.2.2.2.2.2.1
  obtain ⟨s', e, h, -⟩ := C90_expand (s := ⟨cbMem, 7⟩) (Yt := ⟨20, 6, 6, 2⟩) (Yp := ⟨35, 5, 5, 2⟩) cbex_ok cbex_branch hv
    (cbex_disj (by omega)) (cbex_disj (by omega)) (cbMem_mat (by omega)) (by
      rintro _ ⟨i, hi, j, hj, rfl⟩ ⟨i', hi', j', hj', e⟩
      simp only [Mat.addr] at *; omega) (cbMem_mat (by omega)) rfl rfl rfl
  exact ⟨s', e, h⟩

/-- memory in which the coefficients are the 1 × 1 identity matrix and the target is zero -/
def cbMemI : Mem ℚ := fun c => if 20 ≤ c ∧ c < 50 then some (if c = 20 then 1 else 0) else cbMem c

theorem cbMemI_some {c : Nat} (h : (cbMem c).isSome) : (cbMemI c).isSome := by
  unfold cbMemI
  split
  · rfl
  · exact h

theorem cbMemI_mat {A : Mat} (h : A.Valid cbMem) : A.Valid cbMemI := ⟨h.1, fun i hi j hj => cbMemI_some (h.2 i hi j hj)⟩

theorem cbMemI_cb {G : Type} : ∀ {cb : CBas G}, CbValid cbMem cb → CbValid cbMemI cb
  | .mk _ _ _ _ _ _ _ _, h => ⟨fun h0 => cbMemI_mat (h.1 h0), fun i => ⟨cbMemI_mat (h.2 i).1, cbMemI_cb (h.2 i).2⟩⟩

/-- the identity matrix at address 20 is expanded to the nested basis matrix of `cbex` at address 35; the 5 × 1 matrix at address 42 is compressed to 26 -/
example : (∃ s', CBas.expandMat cbex ⟨20, 6, 6, 1⟩ ⟨35, 5, 5, 1⟩ ⟨cbMemI, 7⟩ = .ok s' ∧ s'.act = 7 ∧
      ∀ i < 5, Mat.val ⟨35, 5, 5, 1⟩ s'.mem i 0 = basis cbMemI cbex i 0) ∧
    ∃ s1 s2, CBas.expandMat cbex ⟨20, 6, 6, 1⟩ ⟨35, 5, 5, 1⟩ ⟨cbMemI, 7⟩ = .ok s1 ∧
      CBas.compressMat cbex ⟨42, 5, 5, 1⟩ ⟨26, 6, 6, 1⟩ ⟨cbMemI, 7⟩ = .ok s2 := by
  obtain ⟨h1, -, -⟩ := h2ex_ready
  have hv : CbValid cbMemI cbex := cbMemI_cb h1.2.2.2.2.2.2.1
  have dj : Disj (Mat.Cell ⟨20, 6, 6, 1⟩) (Mat.Cell ⟨35, 5, 5, 1⟩) := by
    rintro _ ⟨i, hi, j, hj, rfl⟩ ⟨i', hi', j', hj', e⟩
    simp only [Mat.addr] at *; omega
  have hz : ∀ i < 5, ∀ c < 1, Mat.val ⟨35, 5, 5, 1⟩ cbMemI i c = 0 := by decide +kernel
  constructor
  · obtain ⟨s', e, h, h'⟩ := C90_expand_identity (s := ⟨cbMemI, 7⟩) (Yt := ⟨20, 6, 6, 1⟩) (Yp := ⟨35, 5, 5, 1⟩) cbex_ok cbex_branch hv
      (cbex_disj (by omega)) (cbex_disj (by omega)) (cbMemI_mat (cbMem_mat (by omega))) dj (cbMemI_mat (cbMem_mat (by omega))) rfl rfl rfl rfl
      (by decide +kernel) hz
    refine ⟨s', e, h, fun i hi => ?_⟩
    have := h' i hi 0 (by decide)
    rwa [show cbex.t.cl.off + i = i from Nat.zero_add i] at this
  · obtain ⟨s1, s2, e1, e2, -⟩ := C90_adjoint (s := ⟨cbMemI, 7⟩) (Yt := ⟨20, 6, 6, 1⟩) (Yp := ⟨35, 5, 5, 1⟩) (Xp := ⟨42, 5, 5, 1⟩)
      (Xt := ⟨26, 6, 6, 1⟩) cbex_ok cbex_sons cbex_branch hv
      (cbex_disj (by omega)) (cbex_disj (by omega)) (cbMemI_mat (cbMem_mat (by omega))) dj (cbMemI_mat (cbMem_mat (by omega))) rfl rfl rfl
      (cbex_disj (by omega)) (cbMemI_mat (cbMem_mat (by omega))) (by
        rintro _ ⟨i, hi, j, hj, rfl⟩ ⟨i', hi', j', hj', e⟩
        simp only [Mat.addr] at *; omega) (cbMemI_mat (cbMem_mat (by omega))) (by decide) rfl rfl hz
    exact ⟨s1, s2, e1, e2⟩

end H2.Props
