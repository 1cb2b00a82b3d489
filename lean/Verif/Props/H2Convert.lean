import Verif.Proof.H2Convert2
import Verif.Proof.H2Scale
import Verif.Props.H2Mul

/-!
# C87: clearing, scaling and converting H2-matrices

`Spec.h2entry m h i j` is entry `(i, j)` of the matrix represented by `h` (C40), counted from the beginning of its clusters; `Spec.op tr A` is `A` or
its adjoint; `Spec.opRb tr h`, `Spec.opCb tr h` are the bases for the rows and columns of the H2-matrix or its adjoint.
-/

namespace H2.Props
open Spec

section
variable {G K : Type} [Field K] [StarRing K]

/-- `clear_h2matrix` turns the represented matrix into the zero matrix.  It changes only the matrices of the leaves. -/
theorem C87_clear {h : H2Mat G} {m : Mem K} (hr : H2Ready m h) (hs : H2Sep h) (dr : Disj (CbCell h.rb) (H2Cell h))
    (dc : Disj (CbCell h.cb) (H2Cell h)) :
    ∃ m', H2Mat.clear h m = .ok m' ∧ H2Ready m' h ∧ Frame (H2Cell h) m m' ∧ ∀ i j, h2entry m' h i j = 0 := by
  obtain ⟨o, or, oc, sr, sc, hv, vr, vc⟩ := hr
  have hf : ∀ (a : Mat) (m : Mem K), a.Valid m → Tot (Dense.clear a m) (MatBecomes a m (fun i j => 0 * a.val m i j)) := fun a m ha =>
    (Dense.clear_tot ha).mono fun m' ⟨h1, h2, h3⟩ => ⟨h1, fun i hi j hj => (h2 i hi j hj).trans (zero_mul _).symm, h3⟩
  obtain ⟨m', e, h1, h2, h3⟩ := H2Mat.walk_tot hf o or oc hv vr vc hs dr dc
  refine ⟨m', by rw [H2Mat.clear_walk]; exact e, ⟨o, or, oc, sr, sc, h1, (CBas.frame_basis h2 or vr dr).1, (CBas.frame_basis h2 oc vc dc).1⟩, h2,
    fun i j => ?_⟩
  unfold h2entry
  rw [h3, zero_mul]

/-- `scale_h2matrix(alpha, h)` multiplies the represented matrix by `alpha`.  It changes only the matrices of the leaves. -/
theorem C87_scale {h : H2Mat G} {m : Mem K} {alpha : K} (hr : H2Ready m h) (hs : H2Sep h) (dr : Disj (CbCell h.rb) (H2Cell h))
    (dc : Disj (CbCell h.cb) (H2Cell h)) :
    ∃ m', H2Mat.scale alpha h m = .ok m' ∧ H2Ready m' h ∧ Frame (H2Cell h) m m' ∧
      ∀ i j, h2entry m' h i j = alpha * h2entry m h i j := by
  obtain ⟨o, or, oc, sr, sc, hv, vr, vc⟩ := hr
  obtain ⟨m', e, h1, h2, h3⟩ := H2Mat.walk_tot (fun a m ha => Dense.scale_tot ha alpha) o or oc hv vr vc hs dr dc
  refine ⟨m', by rw [H2Mat.scale_walk]; exact e, ⟨o, or, oc, sr, sc, h1, (CBas.frame_basis h2 or vr dr).1, (CBas.frame_basis h2 oc vc dc).1⟩, h2,
    fun i j => ?_⟩
  unfold h2entry
  rw [h3]

/-- `convert_h2matrix_amatrix(h2trans, h)` returns a new dense matrix with exactly the entries of the represented matrix or, with the flag, of its
adjoint.  The unit vector and the coefficient vectors are released, nothing else in memory changes. -/
theorem C87_convert {pa pe px py : Nat} {junk : Nat → K} {tr : Bool} {h : H2Mat G} {s : VSt K} (hr : H2Ready s.mem h)
    (fa : Fresh s.mem pa ((opRb tr h).size * (opCb tr h).size)) {m1 m2 m3 : Mem K}
    (h1 : m1 = s.mem.alloc pa ((opRb tr h).size * (opCb tr h).size) junk) (fe : Fresh m1 pe (opCb tr h).size)
    (h2 : m2 = m1.alloc pe (opCb tr h).size junk) (fx : Fresh m2 px (opCb tr h).ktree)
    (h3 : m3 = m2.alloc px (opCb tr h).ktree junk) (fy : Fresh m3 py (opRb tr h).ktree) :
    ∃ A s', H2Mat.convert pa pe px py junk tr h s = .ok (A, s') ∧ s'.act = s.act ∧
      A.rows = (opRb tr h).size ∧ A.cols = (opCb tr h).size ∧ (∀ c, A.Cell c → s.mem c = none) ∧
      MatBecomes A s.mem (op tr (h2entry s.mem h)) s'.mem := by
  obtain ⟨⟨A, s'⟩, e, q1, q2, q3⟩ := H2Mat.convert_tot hr fa h1 fe h2 fx h3 fy
  simp only at q1 q2 q3
  refine ⟨A, s', e, q2, by rw [q1], by rw [q1], fun c hc => ?_, q3⟩
  rw [q1] at hc
  exact H2.fresh_none fa (H2Mat.mcell_vcell hc)
end

/-! ### examples -/

theorem h2ex_sep : H2Sep h2ex := by
  refine ⟨?_, ?_⟩
  · intro i j i' j'
    fin_cases i <;> fin_cases j <;> fin_cases i' <;> fin_cases j' <;> intro hne c h h'
    all_goals first
      | exact absurd ⟨rfl, rfl⟩ hne
      | exact absurd h id
      | exact absurd h' id
      | (obtain ⟨a, ha, b, hb, rfl⟩ := h
         obtain ⟨a', ha', b', hb', e⟩ := h'
         simp only [Mat.addr] at *
         omega)
  · intro i j; fin_cases i <;> fin_cases j <;> trivial

theorem h2ex_cells : ∀ c, H2Cell h2ex c → 16 ≤ c ∧ c < 31 := by
  rintro c ⟨i, j, h⟩
  fin_cases i <;> fin_cases j
  · obtain ⟨a, ha, b, hb, rfl⟩ := h; simp only [Mat.addr] at *; omega
  · obtain ⟨a, ha, b, hb, rfl⟩ := h; simp only [Mat.addr] at *; omega
  · exact absurd h id
  · obtain ⟨a, ha, b, hb, rfl⟩ := h; simp only [Mat.addr] at *; omega

/-- the example of C40 is scaled by two -/
example : ∃ m', H2Mat.scale 2 h2ex cbMem = .ok m' ∧ H2Ready m' h2ex ∧ Frame (H2Cell h2ex) cbMem m' ∧
    ∀ i j, h2entry m' h2ex i j = 2 * h2entry cbMem h2ex i j := by
  have d : Disj (CbCell cbex) (H2Cell h2ex) := fun c h h' => by
    have h2 := h2ex_cells c h'
    have h1 : c < 16 := by
      rcases h with ⟨h, -⟩ | ⟨i, h⟩
      · exact absurd h (by decide)
      · fin_cases i
        all_goals
          rcases h with ⟨a, ha, b, hb, rfl⟩ | ⟨-, a, ha, b, hb, rfl⟩ | ⟨j, -⟩
          · simp only [Mat.addr, CBas.E, cbexSon, Fin.zero_eta, Fin.mk_one] at *; omega
          · simp only [Mat.addr] at *; omega
          · exact j.elim0
    omega
  exact C87_scale h2ex_ready.1 h2ex_sep d d

theorem fresh_later {m : Mem ℚ} {p n q k : Nat} {junk : Nat → ℚ} (h : Fresh m q k) (h' : p + n ≤ q) : Fresh (m.alloc p n junk) q k := by
  intro c h1 h2
  have : ¬ c < p + n := by omega
  simp [Mem.alloc, this, h c h1 h2]

/-- and converted -/
example (tr : Bool) : ∃ A s', H2Mat.convert 60 90 100 120 (fun _ => 7) tr h2ex ⟨cbMem, 3⟩ = .ok (A, s') ∧ s'.act = 3 ∧
    A.rows = 5 ∧ A.cols = 5 ∧ (∀ c, A.Cell c → cbMem c = none) ∧ MatBecomes A cbMem (op tr (h2entry cbMem h2ex)) s'.mem := by
  have eb : opRb tr h2ex = cbex := by cases tr <;> rfl
  have ec : opCb tr h2ex = cbex := by cases tr <;> rfl
  have e1 : cbex.size = 5 := rfl
  have e2 : cbex.ktree = 9 := rfl
  have := C87_convert (tr := tr) (h := h2ex) (s := ⟨cbMem, 3⟩) (pa := 60) (pe := 90) (px := 100) (py := 120) (junk := fun _ => 7)
    h2ex_ready.1 (cbMem_fresh (by omega)) rfl (by rw [eb, ec, e1]; exact fresh_later (cbMem_fresh (by omega)) (by omega)) rfl
    (by rw [eb, ec, e1, e2]; exact fresh_later (fresh_later (cbMem_fresh (by omega)) (by omega)) (by omega)) rfl
    (by rw [eb, ec, e1, e2]; exact fresh_later (fresh_later (fresh_later (cbMem_fresh (by omega)) (by omega)) (by omega)) (by omega))
  rw [eb, ec] at this; exact this

end H2.Props
