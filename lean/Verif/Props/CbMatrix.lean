import Verif.Proof.CbMatrix2
import Verif.Proof.CbMatrix3
import Verif.Props.CbBranch

/-!
# C83: transformations of matrices by cluster bases

`Spec.IsCoeffs m cb X Y`: the vector `Y` consists of the coefficients of the vector `X`; `Spec.synth m cb Y r` is entry `r` of the vector represented by the
coefficients `Y`; `Spec.op tr A` is `A` or its adjoint.
-/

namespace H2.Props
open Spec

section
variable {G K : Type} [Field K] [StarRing K]

/-- `forward_clusterbasis_amatrix(cb, Xp, Xt)` and, with `tr`, `forward_clusterbasis_trans_amatrix(cb, Xp, Xt)`: column `c` of `Xt` becomes the
vector of coefficients of column `c` of `Xp`, respectively of the adjoint of `Xp`.  Nothing but `Xt` changes. -/
theorem C83_forward (tr : Bool) {cb : CBas G} {Xp Xt : Mat} {s : VSt K} (ho : CbOk cb) (hs : CbSons cb) (hv : CbValid s.mem cb)
    (hd : Disj (CbCell cb) Xt.Cell) (hx : Xp.Valid s.mem) (hxt : Disj Xp.Cell Xt.Cell) (ht : Xt.Valid s.mem) (et : Xt.rows = cb.ktree)
    (er : opRows tr Xp = cb.size) (ec : opCols tr Xp = Xt.cols) :
    ∃ Y s', CBas.forwardMat tr cb Xp Xt s = .ok s' ∧ s'.act = s.act ∧ MatBecomes Xt s.mem Y s'.mem ∧
      ∀ c < Xt.cols, IsCoeffs s.mem cb (fun r => op tr (Xp.val s.mem) (r - cb.t.cl.off) c) (fun q => Y q c) := by
  obtain ⟨s', e, h0, h1, h2, h3⟩ := CBas.forwardMat_tot tr ho hs hv hd hx hxt ht et er ec
  exact ⟨Xt.val s'.mem, s', e, h0, ⟨h1, fun _ _ _ _ => rfl, h2⟩, h3⟩

/-- `backward_clusterbasis_amatrix(cb, Yt, Yp)` adds to column `c` of `Yp` the vector represented by column `c` of `Yt`; `Yt` is used as
temporary storage. -/
theorem C83_backward {cb : CBas G} {Yt Yp : Mat} {s : VSt K} (ho : CbOk cb) (hs : CbSons cb) (hv : CbValid s.mem cb)
    (hd : Disj (CbCell cb) Yt.Cell) (hd' : Disj (CbCell cb) Yp.Cell) (hp : Yp.Valid s.mem) (htp : Disj Yt.Cell Yp.Cell)
    (ht : Yt.Valid s.mem) (et : Yt.rows = cb.ktree) (er : Yp.rows = cb.size) (ec : Yp.cols = Yt.cols) :
    ∃ s', CBas.backwardMat cb Yt Yp s = .ok s' ∧ s'.act = s.act ∧ Yt.Valid s'.mem ∧ Yp.Valid s'.mem ∧
      Frame (fun c => Yt.Cell c ∨ Yp.Cell c) s.mem s'.mem ∧
      ∀ i < cb.size, ∀ c < Yt.cols, Yp.val s'.mem i c = Yp.val s.mem i c + synth s.mem cb (fun q => Yt.val s.mem q c) (cb.t.cl.off + i) :=
  CBas.backwardMat_tot ho hs hv hd hd' hp htp ht et er ec

/-- `backward_clusterbasis_trans_amatrix(cb, Yt, Yp)` for a cluster without sons adds to the adjoint of row `c` of `Yp` the vector represented
by column `c` of `Yt`.  The full property is the same for all cluster bases; it is false, see `C83_backward_trans_fails` and
`C83_backward_trans_wrong`. -/
theorem C83_backward_trans_partial {t : CRef G} {k kt kb : Nat} {V E : Mat} {son : Fin 0 → CBas G} {Yt Yp : Mat} {s : VSt K}
    (ho : CbOk (.mk t k kt kb V E 0 son)) (hv : CbValid s.mem (.mk t k kt kb V E 0 son))
    (hd : Disj (CbCell (.mk t k kt kb V E 0 son)) Yt.Cell) (hd' : Disj (CbCell (.mk t k kt kb V E 0 son)) Yp.Cell) (hp : Yp.Valid s.mem)
    (htp : Disj Yt.Cell Yp.Cell) (ht : Yt.Valid s.mem) (et : Yt.rows = kt) (er : Yp.cols = t.cl.size) (ec : Yp.rows = Yt.cols) :
    ∃ s', CBas.backwardTransMat (.mk t k kt kb V E 0 son) Yt Yp s = .ok s' ∧ s'.act = s.act ∧ Yt.Valid s'.mem ∧ Yp.Valid s'.mem ∧
      Frame (fun c => Yt.Cell c ∨ Yp.Cell c) s.mem s'.mem ∧
      ∀ i < t.cl.size, ∀ c < Yt.cols, star (Yp.val s'.mem c i) = star (Yp.val s.mem c i) +
        synth s.mem (.mk t k kt kb V E 0 son) (fun q => Yt.val s.mem q c) (t.cl.off + i) :=
  CBas.backwardTransMat_leaf ho ⟨fun h => absurd h (Nat.lt_irrefl 0), fun i => i.elim0⟩ hv hd hd' hp htp ht et er ec

/-- `backward_clusterbasis_trans_amatrix(cb, Yt, Yp)` for a cluster with sons and correct arguments: unless the number of rows of `Yp` happens to be
the size of the first son, an assertion fails. -/
theorem C83_backward_trans_fails {t : CRef G} {k kt kb : Nat} {V E : Mat} {n : Nat} {son : Fin n → CBas G} {Yt Yp : Mat} {s : VSt K} (h0 : 0 < n)
    (ho : CbOk (.mk t k kt kb V E n son)) (hs : CbSons (.mk t k kt kb V E n son)) (hv : CbValid s.mem (.mk t k kt kb V E n son))
    (hd : Disj (CbCell (.mk t k kt kb V E n son)) Yt.Cell) (ht : Yt.Valid s.mem) (et : Yt.rows = kt) (er : Yp.cols = t.cl.size)
    (ec : Yp.rows = Yt.cols) (hne : Yp.rows ≠ (son ⟨0, h0⟩).size) :
    CBas.backwardTransMat (.mk t k kt kb V E n son) Yt Yp s = .error .assertFail :=
  CBas.backwardTransMat_fail h0 ho hs hv hd ht et er ec hne

/-- `compress_clusterbasis_amatrix(cb, Xp, Xt)` stores `V_t^* Xp` in the first `k` rows of `Xt`.  Nothing but `Xt` changes. -/
theorem C83_compress {cb : CBas G} {Xp Xt : Mat} {s : VSt K} (ho : CbOk cb) (hs : CbSons cb) (hb : BranchOk cb) (hv : CbValid s.mem cb)
    (hd : Disj (CbCell cb) Xt.Cell) (hx : Xp.Valid s.mem) (hxt : Disj Xp.Cell Xt.Cell) (ht : Xt.Valid s.mem)
    (et : cb.kbranch ≤ Xt.rows) (er : Xp.rows = cb.size) (ec : Xp.cols = Xt.cols) :
    ∃ Y s', CBas.compressMat cb Xp Xt s = .ok s' ∧ s'.act = s.act ∧ MatBecomes Xt s.mem Y s'.mem ∧
      ∀ l < cb.k, ∀ c < Xt.cols, Y l c = ∑ i ∈ Finset.range cb.size, star (basis s.mem cb (cb.t.cl.off + i) l) * Xp.val s.mem i c := by
  obtain ⟨s', e, h0, h1, h2, h3⟩ := CBas.compressMat_tot ho hs hb hv hd hx hxt ht et er ec
  exact ⟨Xt.val s'.mem, s', e, h0, ⟨h1, fun _ _ _ _ => rfl, h2⟩, h3⟩
end

/-! ### the two functions that give wrong results, examples -/

theorem cbex_cells : ∀ c, CbCell cbex c → c < 20 := by
  rintro c (⟨h, -⟩ | ⟨i, h⟩)
  · exact absurd h (by decide)
  · fin_cases i
    all_goals
      rcases h with ⟨a, ha, b, hb, rfl⟩ | ⟨-, a, ha, b, hb, rfl⟩ | ⟨j, -⟩
      · simp only [Mat.addr, CBas.E, cbexSon, Fin.zero_eta, Fin.mk_one] at *; omega
      · simp only [Mat.addr] at *; omega
      · exact j.elim0

theorem cbex_disj {b r l c : Nat} (h : 20 ≤ b) : Disj (CbCell cbex) (Mat.Cell ⟨b, r, l, c⟩) := by
  rintro _ hc ⟨i, hi, j, hj, rfl⟩
  have := cbex_cells _ hc
  simp only [Mat.addr] at this
  omega

theorem cbMem_mat {b r c : Nat} (h : b + r * c ≤ 50) : Mat.Valid ⟨b, r, r, c⟩ cbMem := by
  refine ⟨le_rfl, fun i hi j hj => cbMem_some ?_⟩
  simp only [Mat.addr] at *
  have : (j + 1) * r ≤ c * r := Nat.mul_le_mul_right _ hj
  nlinarith

theorem cbex_sons : CbSons cbex := by
  refine ⟨fun _ => ⟨by decide, fun i => by fin_cases i <;> rfl⟩, fun i => ?_⟩
  fin_cases i <;> exact ⟨fun h => absurd h (by decide), fun i => i.elim0⟩

/-- value of a cell after a successful call -/
def cellAfter (x : R (VSt ℚ)) (c : Nat) : Option ℚ := match x with
  | .ok s => s.mem c
  | .error _ => none

/-- `compress_parallel_clusterbasis_amatrix`, even without any parallelism, does not compute `V_t^* Xp`: for the basis `cbex` and a
vector it returns without failed assertions, with a result that differs from the one of `compress_clusterbasis_amatrix`, which is correct
by `C83_compress`. -/
theorem C83_compress_parallel_wrong : CbOk cbex ∧ CbSons cbex ∧ BranchOk cbex ∧ CbValid cbMem cbex ∧
    ∃ s1 s2, CBas.compressMat cbex ⟨20, 5, 5, 1⟩ ⟨30, 6, 6, 1⟩ ⟨cbMem, 0⟩ = .ok s1 ∧
      CBas.compressPar cbex ⟨20, 5, 5, 1⟩ ⟨30, 6, 6, 1⟩ ⟨cbMem, 0⟩ = .ok s2 ∧
      Mat.val ⟨30, 6, 6, 1⟩ s1.mem 0 0 = ∑ i ∈ Finset.range 5, star (basis cbMem cbex i 0) * Mat.val ⟨20, 5, 5, 1⟩ cbMem i 0 ∧
      Mat.val ⟨30, 6, 6, 1⟩ s2.mem 0 0 ≠ Mat.val ⟨30, 6, 6, 1⟩ s1.mem 0 0 := by
  obtain ⟨h1, h2, h3⟩ := h2ex_ready
  have hv : CbValid cbMem cbex := h1.2.2.2.2.2.2.1
  refine ⟨cbex_ok, cbex_sons, cbex_branch, hv, ?_⟩
  obtain ⟨Y, s1, e1, -, h, h'⟩ := C83_compress (s := ⟨cbMem, 0⟩) (Xp := ⟨20, 5, 5, 1⟩) (Xt := ⟨30, 6, 6, 1⟩) cbex_ok cbex_sons cbex_branch hv
    (cbex_disj (by omega)) (cbMem_mat (by omega)) (by
      rintro _ ⟨i, hi, j, hj, rfl⟩ ⟨i', hi', j', hj', e⟩
      simp only [Mat.addr] at *; omega) (cbMem_mat (by omega)) (by decide) rfl rfl
  have c1 : cellAfter (CBas.compressMat cbex ⟨20, 5, 5, 1⟩ ⟨30, 6, 6, 1⟩ ⟨cbMem, 0⟩) 30 = some 6209 := by decide +kernel
  have c2 : cellAfter (CBas.compressPar cbex ⟨20, 5, 5, 1⟩ ⟨30, 6, 6, 1⟩ ⟨cbMem, 0⟩) 30 = some 7713 := by decide +kernel
  generalize CBas.compressPar cbex ⟨20, 5, 5, 1⟩ ⟨30, 6, 6, 1⟩ ⟨cbMem, 0⟩ = p at c2 ⊢
  cases p with
  | error _ => exact absurd c2 (by simp [cellAfter])
  | ok s2 =>
    rw [e1] at c1
    refine ⟨s1, s2, e1, rfl, ?_, ?_⟩
    · have := h.2.1 0 (by decide) 0 (by decide)
      rw [this, h' 0 (by decide) 0 (by decide)]
      rfl
    · have e1' : s1.mem 30 = some 6209 := c1
      have e2' : s2.mem 30 = some 7713 := c2
      show (s2.mem 30).getD 0 ≠ (s1.mem 30).getD 0
      rw [e1', e2']
      decide +kernel

/-- a cluster with one son of the same size -/
def oneSon : Cluster Nat :=
  let z : Nat → Nat := fun _ => 0
  .mk ⟨0, 2, 1, z, z, 2, 0⟩ [.mk ⟨0, 2, 1, z, z, 1, 0⟩ []]

/-- a nested basis of rank 1 over `oneSon` -/
def oneBasis : CBas Nat := .mk (CRef.root oneSon) 1 4 2 ⟨11, 2, 2, 1⟩ ⟨16, 1, 1, 1⟩ 1
  fun _ => .mk ((CRef.root oneSon).son ⟨0, by decide⟩) 1 3 1 ⟨0, 2, 2, 1⟩ ⟨8, 1, 1, 1⟩ 0 (fun i => i.elim0)

theorem oneBasis_ok : CbOk oneBasis ∧ CbSons oneBasis ∧ CbValid cbMem oneBasis ∧ ∀ c, CbCell oneBasis c → c < 20 := by
  refine ⟨⟨fun h => absurd h (by decide), fun _ => ⟨⟨by decide, by decide⟩, by decide⟩, fun i => ⟨rfl, rfl, fun _ => ⟨rfl, rfl, rfl⟩,
      fun h => absurd h (by decide), fun i => i.elim0⟩⟩,
    ⟨fun _ => ⟨rfl, fun i => by fin_cases i; rfl⟩, fun i => ⟨fun h => absurd h (by decide), fun i => i.elim0⟩⟩,
    ⟨fun h => absurd h (by decide), fun i => ⟨cbMem_mat (b := 8) (r := 1) (c := 1) (by omega),
      fun _ => cbMem_mat (b := 0) (r := 2) (c := 1) (by omega), fun i => i.elim0⟩⟩, ?_⟩
  rintro c (⟨h, -⟩ | ⟨i, h⟩)
  · exact absurd h (by decide)
  · rcases h with ⟨a, ha, b, hb, rfl⟩ | ⟨-, a, ha, b, hb, rfl⟩ | ⟨j, -⟩
    · simp only [Mat.addr, CBas.E] at *; omega
    · simp only [Mat.addr] at *; omega
    · exact j.elim0

theorem oneBasis_disj {b r l c : Nat} (h : 20 ≤ b) : Disj (CbCell oneBasis) (Mat.Cell ⟨b, r, l, c⟩) := by
  rintro _ hc ⟨i, hi, j, hj, rfl⟩
  have := oneBasis_ok.2.2.2 _ hc
  simp only [Mat.addr] at this
  omega

/-- `backward_clusterbasis_trans_amatrix` for a cluster with a son, a 4 × 2 matrix `Yt` and a 2 × 2 matrix `Yp`: no assertion fails, but entry `(0, 1)`
of `Yp` is not increased by the adjoint of the vector represented by column 0 of `Yt`. -/
theorem C83_backward_trans_wrong : CbOk oneBasis ∧ CbSons oneBasis ∧ CbValid cbMem oneBasis ∧
    ∃ s', CBas.backwardTransMat oneBasis ⟨20, 4, 4, 2⟩ ⟨30, 2, 2, 2⟩ ⟨cbMem, 0⟩ = .ok s' ∧
      star (Mat.val ⟨30, 2, 2, 2⟩ s'.mem 0 1) ≠ star (Mat.val ⟨30, 2, 2, 2⟩ cbMem 0 1) +
        synth cbMem oneBasis (fun q => Mat.val ⟨20, 4, 4, 2⟩ cbMem q 0) 1 := by
  obtain ⟨o1, o2, o3, o4⟩ := oneBasis_ok
  refine ⟨o1, o2, o3, ?_⟩
  obtain ⟨s1, e1, -, -, -, -, h⟩ := C83_backward (s := ⟨cbMem, 0⟩) (Yt := ⟨20, 4, 4, 2⟩) (Yp := ⟨30, 2, 2, 2⟩) o1 o2 o3
    (oneBasis_disj (by omega)) (oneBasis_disj (by omega)) (cbMem_mat (by omega)) (by
      rintro _ ⟨i, hi, j, hj, rfl⟩ ⟨i', hi', j', hj', e⟩
      simp only [Mat.addr] at *; omega) (cbMem_mat (by omega)) rfl rfl rfl
  have c1 : cellAfter (CBas.backwardMat oneBasis ⟨20, 4, 4, 2⟩ ⟨30, 2, 2, 2⟩ ⟨cbMem, 0⟩) 31 = some 235 := by decide +kernel
  have c2 : cellAfter (CBas.backwardTransMat oneBasis ⟨20, 4, 4, 2⟩ ⟨30, 2, 2, 2⟩ ⟨cbMem, 0⟩) 32 = some 58 := by decide +kernel
  generalize CBas.backwardTransMat oneBasis ⟨20, 4, 4, 2⟩ ⟨30, 2, 2, 2⟩ ⟨cbMem, 0⟩ = p at c2 ⊢
  cases p with
  | error _ => exact absurd c2 (by simp [cellAfter])
  | ok s2 =>
    rw [e1] at c1
    refine ⟨s2, rfl, ?_⟩
    have := h 1 (by decide) 0 (by decide)
    have e1' : s1.mem 31 = some 235 := c1
    have e2' : s2.mem 32 = some 58 := c2
    have hs : synth cbMem oneBasis (fun q => Mat.val ⟨20, 4, 4, 2⟩ cbMem q 0) 1 = 235 - 31 := by
      have a1 : Mat.val ⟨30, 2, 2, 2⟩ s1.mem 1 0 = 235 := by show (s1.mem 31).getD 0 = _; rw [e1']; rfl
      have a2 : Mat.val ⟨30, 2, 2, 2⟩ cbMem 1 0 = 31 := by decide +kernel
      rw [a1, a2] at this
      exact eq_sub_of_add_eq' this.symm
    rw [hs]
    show star ((s2.mem 32).getD 0) ≠ _
    rw [e2']
    decide +kernel

/-- the transformations of a 5 × 2 matrix at address 20 with coefficients at 30 by `cbex`, of its adjoint, and a failing call -/
example : (∀ tr, ∃ s', CBas.forwardMat tr cbex ⟨20, if tr then 2 else 5, if tr then 2 else 5, if tr then 5 else 2⟩ ⟨30, 9, 9, 2⟩ ⟨cbMem, 7⟩ = .ok s' ∧ s'.act = 7) ∧
    (∃ s', CBas.backwardMat cbex ⟨30, 9, 9, 2⟩ ⟨20, 5, 5, 2⟩ ⟨cbMem, 7⟩ = .ok s' ∧ s'.act = 7) ∧
    (∃ s', CBas.backwardTransMat (cbexSon 1) ⟨30, 5, 5, 2⟩ ⟨20, 2, 2, 3⟩ ⟨cbMem, 7⟩ = .ok s' ∧ s'.act = 7) ∧
    CBas.backwardTransMat cbex ⟨30, 9, 9, 1⟩ ⟨20, 1, 1, 5⟩ ⟨cbMem, 7⟩ = .error .assertFail := by
  obtain ⟨h1, h2, h3⟩ := h2ex_ready
  have hv : CbValid cbMem cbex := h1.2.2.2.2.2.2.1
  have dj : ∀ {r c r' c' : Nat}, 20 + r * c ≤ 30 → Disj (Mat.Cell ⟨20, r, r, c⟩) (Mat.Cell ⟨30, r', r', c'⟩) := by
    rintro r c r' c' h _ ⟨i, hi, j, hj, rfl⟩ ⟨i', hi', j', hj', e⟩
    simp only [Mat.addr] at *
    have : (j + 1) * r ≤ c * r := Nat.mul_le_mul_right _ hj
    nlinarith
  refine ⟨fun tr => ?_, ?_, ?_, ?_⟩
  · obtain ⟨-, s', e, h, -⟩ := C83_forward tr (s := ⟨cbMem, 7⟩) (Xp := ⟨20, if tr then 2 else 5, if tr then 2 else 5, if tr then 5 else 2⟩)
      (Xt := ⟨30, 9, 9, 2⟩) cbex_ok cbex_sons hv (cbex_disj (by omega)) (cbMem_mat (by cases tr <;> decide)) (dj (by cases tr <;> decide))
      (cbMem_mat (by omega)) rfl (by cases tr <;> rfl) (by cases tr <;> rfl)
    exact ⟨s', e, h⟩
  · obtain ⟨s', e, h, -⟩ := C83_backward (s := ⟨cbMem, 7⟩) (Yp := ⟨20, 5, 5, 2⟩)
      (Yt := ⟨30, 9, 9, 2⟩) cbex_ok cbex_sons hv (cbex_disj (by omega)) (cbex_disj (by omega)) (cbMem_mat (by omega))
      (fun c h1 h2 => dj (by omega) c h2 h1) (cbMem_mat (by omega)) rfl rfl rfl
    exact ⟨s', e, h⟩
  · obtain ⟨s', e, h, -⟩ := C83_backward_trans_partial (s := ⟨cbMem, 7⟩) (Yp := ⟨20, 2, 2, 3⟩) (t := bs 1) (k := 2) (kt := 5) (kb := 5)
      (V := ⟨2, 3, 3, 2⟩) (E := ⟨9, 2, 2, 1⟩) (son := fun i => i.elim0)
      (Yt := ⟨30, 5, 5, 2⟩) (cbex_ok.2.2 1).2.2 (hv.2 1).2 (fun c h => cbex_disj (by omega) c (.inr ⟨1, .inr h⟩))
      (fun c h => cbex_disj (by omega) c (.inr ⟨1, .inr h⟩)) (cbMem_mat (by omega))
      (fun c h1 h2 => dj (by omega) c h2 h1) (cbMem_mat (by omega)) rfl rfl rfl
    exact ⟨s', e, h⟩
  · exact C83_backward_trans_fails (s := ⟨cbMem, 7⟩) (Yp := ⟨20, 1, 1, 5⟩) (Yt := ⟨30, 9, 9, 1⟩) (n := 2) (by decide) cbex_ok cbex_sons hv
      (cbex_disj (by omega)) (cbMem_mat (by omega)) rfl rfl rfl (by decide)

end H2.Props
