import Verif.Proof.H2Matrix3
import Verif.Props.ClusterBasis

/-!
# C40: H2-matrices times vectors

`Spec.h2place m h r c` is entry `(r, c)` of the represented matrix, the positions counted in the order of the index arrays of
the cluster trees: `V_t S_b W_s^*` for uniform leaves (`V`, `W` the nested bases of C38), the stored matrix for dense leaves;
`Spec.h2dense` is the same matrix in the original numbering (`Spec/H2Matrix.lean`).
-/

namespace H2.Props
open Spec

section
variable {G K : Type} [Field K] [StarRing K]

/-- `addeval_h2matrix_avector`: `y += alpha G x`; nothing else changes, in particular the temporary vectors are released. -/
theorem C40_addeval {ridx cidx : Arr Nat} {px py : Nat} {junk : Nat → K} {alpha : K} {h : H2Mat G} {x y : Vec} {s : VSt K}
    (ho : H2Ok h) (hr : CbOk h.rb) (hc : CbOk h.cb) (hv : H2Valid s.mem h) (vr : CbValid s.mem h.rb)
    (vc : CbValid s.mem h.cb) (hdy : Disj (CbCell h.rb) y.Cell) (hx : x.Valid s.mem) (hy : y.Valid s.mem)
    (hci : IdxOk cidx h.cb.t x.dim) (hri : IdxOk ridx h.rb.t y.dim) (fx : Fresh s.mem px h.cb.ktree)
    (fy : Fresh (s.mem.alloc px h.cb.ktree junk) py h.rb.ktree) :
    Tot (H2Mat.addeval ridx cidx px py junk alpha h x y s) fun s' => s'.act = s.act ∧ VecBecomes y s.mem (fun p =>
      y.val s.mem p + alpha * ∑ b ∈ Finset.range x.dim, h2dense ridx.v cidx.v s.mem h p b * x.val s.mem b) s'.mem :=
  H2Mat.addeval_tot ho hr hc hv vr vc hdy hx hy hci hri fx fy

/-- `addevaltrans_h2matrix_avector`: `y += alpha G^* x`. -/
theorem C40_addevaltrans {ridx cidx : Arr Nat} {px py : Nat} {junk : Nat → K} {alpha : K} {h : H2Mat G} {x y : Vec}
    {s : VSt K} (ho : H2Ok h) (hr : CbOk h.rb) (hc : CbOk h.cb) (hv : H2Valid s.mem h) (vr : CbValid s.mem h.rb)
    (vc : CbValid s.mem h.cb) (hdy : Disj (CbCell h.cb) y.Cell) (hx : x.Valid s.mem) (hy : y.Valid s.mem)
    (hri : IdxOk ridx h.rb.t x.dim) (hci : IdxOk cidx h.cb.t y.dim) (fx : Fresh s.mem px h.rb.ktree)
    (fy : Fresh (s.mem.alloc px h.rb.ktree junk) py h.cb.ktree) :
    Tot (H2Mat.addevaltrans ridx cidx px py junk alpha h x y s) fun s' => s'.act = s.act ∧ VecBecomes y s.mem (fun p =>
      y.val s.mem p + alpha * ∑ b ∈ Finset.range x.dim, star (h2dense ridx.v cidx.v s.mem h b p) * x.val s.mem b) s'.mem :=
  H2Mat.addevaltrans_tot ho hr hc hv vr vc hdy hx hy hri hci fx fy

/-- `mvm_h2matrix_avector` chooses between the two. -/
theorem C40_mvm {ridx cidx : Arr Nat} {px py : Nat} {junk : Nat → K} {alpha : K} {trans : Bool} {h : H2Mat G} {x y : Vec}
    {s : VSt K} (ho : H2Ok h) (hr : CbOk h.rb) (hc : CbOk h.cb) (hv : H2Valid s.mem h) (vr : CbValid s.mem h.rb)
    (vc : CbValid s.mem h.cb) (hdr : Disj (CbCell h.rb) y.Cell) (hdc : Disj (CbCell h.cb) y.Cell) (hx : x.Valid s.mem)
    (hy : y.Valid s.mem) (hri : IdxOk ridx h.rb.t (if trans then x.dim else y.dim))
    (hci : IdxOk cidx h.cb.t (if trans then y.dim else x.dim))
    (fx : Fresh s.mem px (if trans then h.rb.ktree else h.cb.ktree))
    (fy : Fresh (s.mem.alloc px (if trans then h.rb.ktree else h.cb.ktree) junk) py
      (if trans then h.cb.ktree else h.rb.ktree)) :
    Tot (H2Mat.mvm ridx cidx px py junk alpha trans h x y s) fun s' => s'.act = s.act ∧ VecBecomes y s.mem (fun p =>
      y.val s.mem p + alpha * ∑ b ∈ Finset.range x.dim, op trans (h2dense ridx.v cidx.v s.mem h) p b * x.val s.mem b)
        s'.mem := by
  cases trans
  · exact H2Mat.addeval_tot ho hr hc hv vr vc hdr hx hy hci hri fx fy
  · exact H2Mat.addevaltrans_tot ho hr hc hv vr vc hdc hx hy hri hci fx fy

/-- In the original numbering the entry for two degrees of freedom is the entry of the represented matrix at their positions. -/
theorem C40_entry {ridx cidx : Arr Nat} {h : H2Mat G} {m : Mem K}
    (hr : ∀ r r', In h.rb.t r → In h.rb.t r' → ridx.v r = ridx.v r' → r = r')
    (hc : ∀ r r', In h.cb.t r → In h.cb.t r' → cidx.v r = cidx.v r' → r = r') {r c : Nat} (ir : In h.rb.t r)
    (ic : In h.cb.t c) : h2dense ridx.v cidx.v m h (ridx.v r) (cidx.v c) = h2place m h r c := by
  unfold h2dense
  have er : r = h.rb.t.cl.off + (r - h.rb.t.cl.off) := by have := ir.1; omega
  have ec : c = h.cb.t.cl.off + (c - h.cb.t.cl.off) := by have := ic.1; omega
  rw [Finset.sum_eq_single (r - h.rb.t.cl.off), Finset.sum_eq_single (c - h.cb.t.cl.off), ← er, ← ec, if_pos ⟨rfl, rfl⟩]
  · intro j hj hne
    refine if_neg fun e => hne ?_
    have := hc _ c (H2.In.add (Finset.mem_range.mp hj)) ic e.2
    omega
  · intro h'
    exact absurd (Finset.mem_range.mpr (by have := ic.2; unfold CBas.size; have := ic.1; omega)) h'
  · intro i hi hne
    refine Finset.sum_eq_zero fun j _ => if_neg fun e => hne ?_
    have := hr _ r (H2.In.add (Finset.mem_range.mp hi)) ir e.1
    omega
  · intro h'
    exact absurd (Finset.mem_range.mpr (by have := ir.2; unfold CBas.size; have := ir.1; omega)) h'

/-- The matrix of a subdivided block consists of the matrices of its sons: the entries whose positions belong to the clusters
of a son are the entries of this son. -/
theorem C40_sons {rb cb : CBas G} {rs cs : Nat} {son : Fin rs → Fin cs → H2Mat G} {m : Mem K}
    (ho : H2Ok (.super rb cb rs cs son)) (hr : CbOk rb) (hc : CbOk cb) (i : Fin rs) (j : Fin cs) {r c : Nat}
    (ir : In (son i j).rb.t r) (ic : In (son i j).cb.t c) :
    h2place m (.super rb cb rs cs son) r c = h2place m (son i j) r c := by
  obtain ⟨⟨R, C, hRC, hR, hC⟩, hs⟩ := ho
  rw [(hRC i j).1] at ir
  rw [(hRC i j).2] at ic
  rw [h2place, Finset.sum_eq_single i, Finset.sum_eq_single j]
  · intro j' _ hne
    refine H2Mat.place_zero (hs i j') ?_ ?_ (.inr ?_)
    · rw [(hRC i j').1]; exact (CBas.sonBases_son (K := K) hR hr i).1
    · rw [(hRC i j').2]; exact (CBas.sonBases_son (K := K) hC hc j').1
    · rw [(hRC i j').2]; exact fun h => hne (H2Mat.sonBases_unique hC hc h ic)
  · intro h; exact absurd (Finset.mem_univ _) h
  · intro i' _ hne
    refine Finset.sum_eq_zero fun j' _ => H2Mat.place_zero (hs i' j') ?_ ?_ (.inl ?_)
    · rw [(hRC i' j').1]; exact (CBas.sonBases_son (K := K) hR hr i').1
    · rw [(hRC i' j').2]; exact (CBas.sonBases_son (K := K) hC hc j').1
    · rw [(hRC i' j').1]; exact fun h => hne (H2Mat.sonBases_unique hR hr h ir)
  · intro h; exact absurd (Finset.mem_univ _) h

/-- The two products are adjoint: `<y, G x> = <G^* y, x>`. -/
theorem C40_adjoint (h : H2Mat G) (ridx cidx : Nat → Nat) (m : Mem K) (x y : Nat → K) (n k : Nat) :
    ∑ a ∈ Finset.range n, star (y a) * ∑ b ∈ Finset.range k, h2dense ridx cidx m h a b * x b =
      ∑ b ∈ Finset.range k, star (∑ a ∈ Finset.range n, star (h2dense ridx cidx m h a b) * y a) * x b := by
  simp only [star_sum, star_mul', star_star, Finset.mul_sum, Finset.sum_mul]
  rw [Finset.sum_comm]
  exact Finset.sum_congr rfl fun j _ => Finset.sum_congr rfl fun i _ => by ring
end

/-! ### example -/

/-- dense diagonal blocks, a uniform block above the diagonal, and nothing below -/
def h2exSon : Fin 2 → Fin 2 → H2Mat Nat
  | 0, 0 => .full (cbexSon 0) (cbexSon 0) ⟨16, 2, 2, 2⟩
  | 0, 1 => .uni (cbexSon 0) (cbexSon 1) ⟨20, 1, 1, 2⟩
  | 1, 0 => .zero (cbexSon 1) (cbexSon 0)
  | 1, 1 => .full (cbexSon 1) (cbexSon 1) ⟨22, 3, 3, 3⟩

def h2ex : H2Mat Nat := .super cbex cbex 2 2 h2exSon

theorem h2ex_ok : H2Ok h2ex := by
  refine ⟨⟨cbexSon, cbexSon, ?_, ⟨fun _ => ⟨rfl, fun i => rfl⟩, fun h => absurd h (by decide)⟩,
    ⟨fun _ => ⟨rfl, fun i => rfl⟩, fun h => absurd h (by decide)⟩⟩, ?_⟩
  · intro i j; fin_cases i <;> fin_cases j <;> exact ⟨rfl, rfl⟩
  · intro i j
    fin_cases i <;> fin_cases j
    · exact ⟨rfl, rfl, rfl, rfl⟩
    · exact ⟨rfl, rfl⟩
    · trivial
    · exact ⟨rfl, rfl, rfl, rfl⟩

/-- the hypotheses of C40 hold for `h2ex`, vectors at 35 and 40, and temporary vectors at 60 and 80 -/
example : H2Ok h2ex ∧ CbOk h2ex.rb ∧ CbOk h2ex.cb ∧ H2Valid cbMem h2ex ∧ CbValid cbMem h2ex.rb ∧ CbValid cbMem h2ex.cb ∧
    Disj (CbCell h2ex.rb) (Vec.Cell ⟨40, 5⟩) ∧ (Vec.mk 35 5).Valid cbMem ∧ (Vec.mk 40 5).Valid cbMem ∧
    IdxOk hexIdx h2ex.rb.t 5 ∧ Fresh cbMem 60 h2ex.cb.ktree ∧ Fresh (cbMem.alloc 60 h2ex.cb.ktree fun _ => 7) 80 h2ex.rb.ktree := by
  have e : ∀ (P : CBas Nat → Prop), P (cbexSon 0) → P (cbexSon 1) → ∀ i, P (cbexSon i) := by
    intro P h0 h1 i; fin_cases i <;> assumption
  have hcv : CbValid cbMem cbex := by
    refine ⟨fun h => absurd h (by decide), e (fun b => b.E.Valid cbMem ∧ CbValid cbMem b) ?_ ?_⟩
    · refine ⟨⟨by decide, ?_⟩, fun _ => ⟨by decide, ?_⟩, fun i => i.elim0⟩
      · intro i hi j hj; exact cbMem_some (by simp only [Mat.addr, CBas.E, cbexSon] at *; omega)
      · intro i hi j hj; exact cbMem_some (by simp only [Mat.addr] at *; omega)
    · refine ⟨⟨by decide, ?_⟩, fun _ => ⟨by decide, ?_⟩, fun i => i.elim0⟩
      · intro i hi j hj; exact cbMem_some (by simp only [Mat.addr, CBas.E, cbexSon] at *; omega)
      · intro i hi j hj; exact cbMem_some (by simp only [Mat.addr] at *; omega)
  refine ⟨h2ex_ok, cbex_ok, cbex_ok, ?_, hcv, hcv, ?_, ?_, ?_, ?_, ?_, ?_⟩
  · intro i j
    fin_cases i <;> fin_cases j
    · refine ⟨by decide, ?_⟩
      intro i hi j hj; exact cbMem_some (by simp only [Mat.addr] at *; omega)
    · refine ⟨by decide, ?_⟩
      intro i hi j hj; exact cbMem_some (by simp only [Mat.addr] at *; omega)
    · trivial
    · refine ⟨by decide, ?_⟩
      intro i hi j hj; exact cbMem_some (by simp only [Mat.addr] at *; omega)
  · rintro c (⟨h, -⟩ | ⟨i, hi⟩) ⟨q, hq, rfl⟩
    · exact absurd h (by decide)
    · revert i
      refine e (fun b => b.E.Cell ((Vec.mk 40 5).addr q) ∨ CbCell b ((Vec.mk 40 5).addr q) → False) ?_ ?_
      · rintro (⟨i, hi, j, hj, h⟩ | ⟨-, ⟨i, hi, j, hj, h⟩⟩ | ⟨i, -⟩)
        · simp only [Mat.addr, Vec.addr, CBas.E, cbexSon] at *; omega
        · simp only [Mat.addr, Vec.addr] at *; omega
        · exact i.elim0
      · rintro (⟨i, hi, j, hj, h⟩ | ⟨-, ⟨i, hi, j, hj, h⟩⟩ | ⟨i, -⟩)
        · simp only [Mat.addr, Vec.addr, CBas.E, cbexSon] at *; omega
        · simp only [Mat.addr, Vec.addr] at *; omega
        · exact i.elim0
  · intro i hi; exact cbMem_some (by simp only [Vec.addr] at *; omega)
  · intro i hi; exact cbMem_some (by simp only [Vec.addr] at *; omega)
  · refine ⟨by decide, fun r hr => ?_⟩
    exact Nat.mod_lt _ (by decide)
  · intro c h1 h2
    have : ¬ c < 50 := by omega
    simp [cbMem, this]
  · intro c h1 h2
    have h3 : ¬ c < 50 := by omega
    have h4 : h2ex.cb.ktree = 9 := rfl
    have h5 : ¬ c < 69 := by omega
    simp [Mem.alloc, cbMem, h3, h4, h5]

/-- the entry of the example in row 1, column 3 (in the uniform block): `V[1,0] (S[0,0] W[3,0] + S[0,1] W[3,1])` -/
example : h2place cbMem h2ex 1 3 = 1 * (20 * 3 + 21 * 6) := by
  simp [h2place, h2ex, h2exSon, basis, CBas.k, Fin.sum_univ_two, Finset.sum_range_succ, cbexSon, In, Mat.val, Mat.addr, cbMem]
  decide +kernel

end H2.Props
