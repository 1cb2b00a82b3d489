import Verif.Proof.H2Solve3
import Verif.Props.H2Matrix

/-!
# C81: triangular solves with H2-matrices

`Spec.h2entry m a i j` is entry `(i, j)` of the matrix represented by the H2-matrix `a` in memory `m` (`V S W^*` for uniform leaves
with nested bases `V`, `W`, the stored entries for dense leaves), `Spec.tri lower unit A` the lower or upper triangular part of `A`,
with ones on the diagonal for `unit`, and `Spec.op trans A` is `A` or its adjoint.
-/

namespace H2.Props
open Spec

section
variable {G K : Type} [Field K] [StarRing K]

/-- `lowersolve_h2matrix_avector(unit, atrans, a, x)` replaces `x` by the solution of the system with the lower triangular part of `a`
or, with `atrans`, with the adjoint of its upper triangular part.  It never fails if the diagonal is non-zero or counts as one, changes
nothing but `x`, and releases all temporary vectors. -/
theorem C81_lowersolve {alloc : Mem K → Nat → Nat} {junk : Nat → K} (hal : FreshAlloc alloc) {unit atrans : Bool} {a : H2Mat G}
    {x : Vec} {s : VSt K} (hb : FiniteMem s.mem) (hr : H2Ready s.mem a) (hs : H2SqOk a) (hx : x.Valid s.mem) (ha : H2Apart a x)
    (hxd : x.dim = a.rb.size) (hD : unit = false → ∀ i < a.rb.size, h2entry s.mem a i i ≠ 0) :
    ∃ X s', H2Mat.lowersolve alloc junk unit atrans a x s = .ok s' ∧ s'.act = s.act ∧ VecBecomes x s.mem X s'.mem ∧
      ∀ i < a.rb.size, ∑ j ∈ Finset.range a.rb.size, op atrans (tri (!atrans) unit (h2entry s.mem a)) i j * X j = x.val s.mem i := by
  have key : Tot (H2Mat.lowersolve alloc junk unit atrans a x s) fun s' => s'.act = s.act ∧ x.Valid s'.mem ∧ Frame x.Cell s.mem s'.mem ∧
      ∀ i < a.rb.size, ∑ j ∈ Finset.range a.rb.size, op atrans (tri (!atrans) unit (h2entry s.mem a)) i j * x.val s'.mem j =
        x.val s.mem i := by
    unfold H2Mat.lowersolve
    cases atrans
    · exact H2Mat.triSolveVec_local hal hb hr hs hx ha hxd hD
    · exact H2Mat.triSolveVec_local hal hb hr hs hx ha hxd hD
  obtain ⟨s', e, h0, h1, h2, h3⟩ := key
  exact ⟨x.val s'.mem, s', e, h0, ⟨h1, fun _ _ => rfl, h2⟩, h3⟩

/-- `uppersolve_h2matrix_avector(unit, atrans, a, x)` replaces `x` by the solution of the system with the upper triangular part of `a`
or, with `atrans`, with the adjoint of its lower triangular part. -/
theorem C81_uppersolve {alloc : Mem K → Nat → Nat} {junk : Nat → K} (hal : FreshAlloc alloc) {unit atrans : Bool} {a : H2Mat G}
    {x : Vec} {s : VSt K} (hb : FiniteMem s.mem) (hr : H2Ready s.mem a) (hs : H2SqOk a) (hx : x.Valid s.mem) (ha : H2Apart a x)
    (hxd : x.dim = a.rb.size) (hD : unit = false → ∀ i < a.rb.size, h2entry s.mem a i i ≠ 0) :
    ∃ X s', H2Mat.uppersolve alloc junk unit atrans a x s = .ok s' ∧ s'.act = s.act ∧ VecBecomes x s.mem X s'.mem ∧
      ∀ i < a.rb.size, ∑ j ∈ Finset.range a.rb.size, op atrans (tri atrans unit (h2entry s.mem a)) i j * X j = x.val s.mem i := by
  have key : Tot (H2Mat.uppersolve alloc junk unit atrans a x s) fun s' => s'.act = s.act ∧ x.Valid s'.mem ∧ Frame x.Cell s.mem s'.mem ∧
      ∀ i < a.rb.size, ∑ j ∈ Finset.range a.rb.size, op atrans (tri atrans unit (h2entry s.mem a)) i j * x.val s'.mem j =
        x.val s.mem i := by
    unfold H2Mat.uppersolve
    cases atrans
    · exact H2Mat.triSolveVec_local hal hb hr hs hx ha hxd hD
    · exact H2Mat.triSolveVec_local hal hb hr hs hx ha hxd hD
  obtain ⟨s', e, h0, h1, h2, h3⟩ := key
  exact ⟨x.val s'.mem, s', e, h0, ⟨h1, fun _ _ => rfl, h2⟩, h3⟩

/-- `lrsolve_h2matrix_avector(L, R, x)`: if the lower triangle of `L` (with unit diagonal) times the upper triangle of `R` is the
matrix `D` in the original numbering of the degrees of freedom, `x` is replaced by the solution of `D x' = x`.  Nothing but `x` changes
and no vector remains. -/
theorem C81_lrsolve {lidx ridx : Arr Nat} {alloc : Mem K → Nat → Nat} {junk : Nat → K} (hal : FreshAlloc alloc) {L U : H2Mat G}
    {x : Vec} {s : VSt K} (hb : FiniteMem s.mem) (rl : H2Ready s.mem L) (ru : H2Ready s.mem U) (sl : H2SqOk L) (su : H2SqOk U)
    (nl : L.rb.size = x.dim) (nu : U.rb.size = x.dim) (hl : IsPerm lidx L.cb.t.cl.off x.dim)
    (hr : IsPerm ridx U.rb.t.cl.off x.dim) (hx : x.Valid s.mem) (hD : ∀ i < x.dim, h2entry s.mem U i i ≠ 0) {D : Nat → Nat → K}
    (hLU : ∀ i < x.dim, ∀ j < x.dim, D (lidx.v (L.cb.t.cl.off + i)) (ridx.v (U.rb.t.cl.off + j)) =
      ∑ l ∈ Finset.range x.dim, tri true true (h2entry s.mem L) i l * tri false false (h2entry s.mem U) l j) :
    ∃ X s', H2Mat.lrsolve lidx ridx alloc junk L U x s = .ok s' ∧ s'.act = s.act ∧ VecBecomes x s.mem X s'.mem ∧
      ∀ p < x.dim, ∑ q ∈ Finset.range x.dim, D p q * X q = x.val s.mem p := by
  obtain ⟨s', e, h0, X, h1, h2⟩ := H2Mat.lrsolve_tot (junk := junk) hal hb rl ru sl su nl nu hl hr hx hD
  exact ⟨X, s', e, h0, h1, H2Mat.perm2 hl hr hLU h2⟩

/-- `cholsolve_h2matrix_avector(h2, x)`: if the lower triangle `L` of the H2-matrix satisfies `L L^* = D` in the original numbering
of the degrees of freedom, `x` is replaced by the solution of `D x' = x`. -/
theorem C81_cholsolve {cidx ridx : Arr Nat} {alloc : Mem K → Nat → Nat} {junk : Nat → K} (hal : FreshAlloc alloc) {L : H2Mat G}
    {x : Vec} {s : VSt K} (hb : FiniteMem s.mem) (rl : H2Ready s.mem L) (sl : H2SqOk L) (nl : L.rb.size = x.dim)
    (hl : IsPerm cidx L.cb.t.cl.off x.dim) (hr : IsPerm ridx L.rb.t.cl.off x.dim) (hx : x.Valid s.mem)
    (hD : ∀ i < x.dim, h2entry s.mem L i i ≠ 0) {D : Nat → Nat → K}
    (hLL : ∀ i < x.dim, ∀ j < x.dim, D (cidx.v (L.cb.t.cl.off + i)) (ridx.v (L.rb.t.cl.off + j)) =
      ∑ l ∈ Finset.range x.dim, tri true false (h2entry s.mem L) i l * star (tri true false (h2entry s.mem L) j l)) :
    ∃ X s', H2Mat.cholsolve cidx ridx alloc junk L x s = .ok s' ∧ s'.act = s.act ∧ VecBecomes x s.mem X s'.mem ∧
      ∀ p < x.dim, ∑ q ∈ Finset.range x.dim, D p q * X q = x.val s.mem p := by
  obtain ⟨s', e, h0, X, h1, h2⟩ := H2Mat.cholsolve_tot (junk := junk) hal hb rl sl nl hl hr hx hD
  exact ⟨X, s', e, h0, h1, H2Mat.perm2 hl hr hLL h2⟩

/-- A diagonal leaf that is not dense makes the assertion fail. -/
theorem C81_leaf {alloc : Mem K → Nat → Nat} {junk : Nat → K} {unit atrans : Bool} {rb cb : CBas G} {S : Mat} {x : Vec} {s : VSt K}
    (a : H2Mat G) (ha : a = .zero rb cb ∨ a = .uni rb cb S) :
    H2Mat.lowersolve alloc junk unit atrans a x s = .error .assertFail ∧
    H2Mat.uppersolve alloc junk unit atrans a x s = .error .assertFail := by
  have key : ∀ l t, H2Mat.triSolveVec alloc junk l unit t a x s = .error .assertFail := by
    intro l t
    rcases ha with rfl | rfl
    · unfold H2Mat.triSolveVec cassert
      split <;> [split <;> rfl; rfl]
    · unfold H2Mat.triSolveVec cassert
      split <;> [split <;> rfl; rfl]
  unfold H2Mat.lowersolve H2Mat.uppersolve
  constructor <;> split <;> exact key _ _
end

/-! ### example -/

/-- an allocator that always finds memory exists -/
theorem freshAlloc_exists : ∃ alloc : Mem ℚ → Nat → Nat, FreshAlloc alloc := by
  classical
  refine ⟨fun m _ => if h : FiniteMem m then h.choose else 0, fun m n h c hc _ => ?_⟩
  simp only [dif_pos h] at hc
  exact h.choose_spec c hc

theorem h2ex_ready : H2Ready cbMem h2ex ∧ H2SqOk h2ex ∧ FiniteMem cbMem := by
  have e : ∀ (P : CBas Nat → Prop), P (cbexSon 0) → P (cbexSon 1) → ∀ i, P (cbexSon i) := by
    intro P h0 h1 i; fin_cases i <;> assumption
  have hcv : CbValid cbMem cbex := by
    refine ⟨fun h => absurd h (by decide), e (fun b => b.E.Valid cbMem ∧ CbValid cbMem b) ?_ ?_⟩
    · refine ⟨⟨by decide, ?_⟩, fun _ => ⟨by decide, ?_⟩, fun i => i.elim0⟩
      · intro i hi j hj; exact cbMem_some (by simp only [Mat.addr, CBas.E, cbexSon] at *; omega)
      · intro i hi j hj; exact cbMem_some (by simp only [Mat.addr] at *; omega)
    · refine ⟨⟨by decide, ?_⟩, fun _ => ⟨by decide, ?_⟩, fun i => i.elim0⟩
      · intro i hi j hj; exact cbMem_some (by simp only [Mat.addr, CBas.E, cbexSon] at *; omega)
      · intro i hi j hj; exact cbMem_some (by simp only [Mat.addr] at *; omega)
  have hcs : CbSons cbex := by
    refine ⟨fun _ => ⟨rfl, fun i => ?_⟩, fun i => ?_⟩
    · fin_cases i <;> rfl
    · fin_cases i <;> exact ⟨fun h => absurd h (by decide), fun i => i.elim0⟩
  refine ⟨⟨h2ex_ok, cbex_ok, cbex_ok, hcs, hcs, ?_, hcv, hcv⟩, ⟨rfl, by decide, by decide, rfl, ?_⟩, 50, ?_⟩
  · intro i j
    fin_cases i <;> fin_cases j
    · refine ⟨by decide, ?_⟩
      intro i hi j hj; exact cbMem_some (by simp only [Mat.addr] at *; omega)
    · refine ⟨by decide, ?_⟩
      intro i hi j hj; exact cbMem_some (by simp only [Mat.addr] at *; omega)
    · trivial
    · refine ⟨by decide, ?_⟩
      intro i hi j hj; exact cbMem_some (by simp only [Mat.addr] at *; omega)
  · intro i; fin_cases i <;> rfl
  · intro c hc
    unfold cbMem
    rw [if_neg (by omega)]

/-- the diagonal of the example: 16, 19, 22, 26, 30 -/
theorem h2ex_diag : ∀ i < 5, h2entry cbMem h2ex i i ≠ 0 := by
  intro i hi
  unfold h2entry
  obtain rfl | rfl | rfl | rfl | rfl : i = 0 ∨ i = 1 ∨ i = 2 ∨ i = 3 ∨ i = 4 := by omega
  all_goals
    simp [h2place, h2ex, h2exSon, basis, CBas.k, Fin.sum_univ_two, Finset.sum_range_succ, cbexSon, In, Mat.val, Mat.addr, cbMem]
    decide +kernel

/-- `h2ex` has an upper triangular factor with a uniform block: `lrsolve` with `h2ex` as both factors and a vector at address 40
solves a system, with the permutation `i ↦ (i + 2) % 5`. -/
example : ∃ alloc : Mem ℚ → Nat → Nat, FreshAlloc alloc ∧ ∃ (D : Nat → Nat → ℚ) (X : Nat → ℚ) (s' : VSt ℚ), H2Mat.lrsolve hexIdx hexIdx alloc (fun _ => 7) h2ex h2ex ⟨40, 5⟩
    ⟨cbMem, 3⟩ = .ok s' ∧ s'.act = 3 ∧ VecBecomes ⟨40, 5⟩ cbMem X s'.mem ∧
      (∀ i < 5, ∀ j < 5, D ((i + 2) % 5) ((j + 2) % 5) = ∑ l ∈ Finset.range 5,
        tri true true (h2entry cbMem h2ex) i l * tri false false (h2entry cbMem h2ex) l j) ∧
      ∀ p : Nat, p < 5 → ∑ q ∈ Finset.range 5, D p q * X q = (40 + (p : ℚ)) := by
  obtain ⟨alloc, hal⟩ := freshAlloc_exists
  obtain ⟨h1, h2, h3⟩ := h2ex_ready
  have hp : IsPerm hexIdx h2ex.cb.t.cl.off 5 := by
    show IsPerm hexIdx 0 5
    exact ⟨by decide, by decide, by decide⟩
  have hD : ∀ i < 5, ∀ j < 5, (fun p q => ∑ l ∈ Finset.range 5, tri true true (h2entry cbMem h2ex) ((p + 3) % 5) l *
      tri false false (h2entry cbMem h2ex) l ((q + 3) % 5)) ((i + 2) % 5) ((j + 2) % 5) = ∑ l ∈ Finset.range 5,
        tri true true (h2entry cbMem h2ex) i l * tri false false (h2entry cbMem h2ex) l j := by
    intro i hi j hj
    beta_reduce
    rw [show ((i + 2) % 5 + 3) % 5 = i by omega, show ((j + 2) % 5 + 3) % 5 = j by omega]
  obtain ⟨X, s', e, g0, g1, g2⟩ := C81_lrsolve (s := ⟨cbMem, 3⟩) (lidx := hexIdx) (ridx := hexIdx) (x := ⟨40, 5⟩) (junk := fun _ => 7)
    (D := fun p q => ∑ l ∈ Finset.range 5, tri true true (h2entry cbMem h2ex) ((p + 3) % 5) l *
      tri false false (h2entry cbMem h2ex) l ((q + 3) % 5)) hal h3 h1 h1 h2 h2 rfl rfl hp hp
    (by intro i hi; exact cbMem_some (by simp only [Vec.addr] at *; omega)) h2ex_diag (by
      intro i hi j hj
      have := hD i hi j hj
      rw [← this]
      show _ = (fun p q => _) _ _
      have o1 : h2ex.cb.t.cl.off = 0 := rfl
      have o2 : h2ex.rb.t.cl.off = 0 := rfl
      rw [o1, o2, Nat.zero_add, Nat.zero_add]
      rfl)
  refine ⟨alloc, hal, _, X, s', e, g0, g1, hD, fun p hp => (g2 p hp).trans ?_⟩
  show Vec.val ⟨40, 5⟩ cbMem p = _
  have e0 : cbMem (40 + p) = some (((40 + p : Nat) : ℚ)) := if_pos (by omega)
  show (cbMem (40 + p)).getD 0 = _
  rw [e0]
  simp

end H2.Props
