import Verif.Proof.ClusterBasis6
import Verif.Props.HMatrix

/-!
# C38, C39: cluster bases

`Spec.basis m cb r l` is entry `(r, l)` of the cluster basis matrix `V_t` (nested: computed from the leaf matrices and the
transfer matrices), `Spec.IsCoeffs` says what the coefficient vector contains, `Spec.synth` is the vector represented by a
coefficient vector (`Spec/ClusterBasis.lean`).
-/

namespace H2.Props
open Spec

section
variable {G K : Type} [Field K] [StarRing K]

/-! ## C38 -/

/-- `forward_clusterbasis_avector`: the coefficient vector contains `V_t^* x|_t` for every cluster and a copy of the entries
for every leaf; nothing else changes. -/
theorem C38_forward {idx : Arr Nat} {cb : CBas G} {x xt : Vec} {s : VSt K} (ho : CbOk cb) (hv : CbValid s.mem cb)
    (hd : Disj (CbCell cb) xt.Cell) (hx : x.Valid s.mem) (hxt : Disj x.Cell xt.Cell) (ht : xt.Valid s.mem)
    (hdim : xt.dim = cb.ktree) (hidx : IdxOk idx cb.t x.dim) :
    Tot (CBas.forward idx cb x xt s) fun s' => Frame xt.Cell s.mem s'.mem ∧
      IsCoeffs s.mem cb (fun r => x.val s.mem (idx.v r)) (xt.val s'.mem) :=
  (CBas.forward_tot ho hv hd hx hxt ht hdim hidx).mono fun _ h => ⟨h.2.2.1, h.2.2.2⟩

/-- `forward_nopermutation_clusterbasis_avector`: the same for a vector in cluster numbering. -/
theorem C38_forward_nopermutation {cb : CBas G} {xp xt : Vec} {s : VSt K} (ho : CbOk cb) (hs : CbSons cb)
    (hv : CbValid s.mem cb) (hd : Disj (CbCell cb) xt.Cell) (hx : xp.Valid s.mem) (hxt : Disj xp.Cell xt.Cell)
    (ht : xt.Valid s.mem) (hdim : xt.dim = cb.ktree) (hpd : xp.dim = cb.size) :
    Tot (CBas.forwardNoperm cb xp xt s) fun s' => Frame xt.Cell s.mem s'.mem ∧
      IsCoeffs s.mem cb (fun r => xp.val s.mem (r - cb.t.cl.off)) (xt.val s'.mem) :=
  (CBas.forwardNoperm_tot ho hs hv hd hx hxt ht hdim hpd).mono fun _ h => ⟨h.2.2.1, h.2.2.2⟩

/-- `backward_clusterbasis_avector`: `y[idx[r]] += (sum over t of V_t y_t)[r]` for all positions of the cluster; the
coefficients are used as temporary storage, nothing else changes. -/
theorem C38_backward {idx : Arr Nat} {cb : CBas G} {yt y : Vec} {s : VSt K} (ho : CbOk cb) (hv : CbValid s.mem cb)
    (hd : Disj (CbCell cb) yt.Cell) (hdy : Disj (CbCell cb) y.Cell) (hy : y.Valid s.mem) (hyt : Disj yt.Cell y.Cell)
    (ht : yt.Valid s.mem) (hdim : yt.dim = cb.ktree) (hidx : IdxOk idx cb.t y.dim) :
    Tot (CBas.backward idx cb yt y s) fun s' => Frame (fun c => yt.Cell c ∨ y.Cell c) s.mem s'.mem ∧
      ∀ p < y.dim, y.val s'.mem p = y.val s.mem p + addAt idx cb.t (synth s.mem cb (yt.val s.mem)) p :=
  (CBas.backward_tot ho hv hd hdy hy hyt ht hdim hidx).mono fun _ h => ⟨h.2.2.2.1, h.2.2.2.2⟩

/-- For an index array without repetitions: the entries belonging to the cluster are increased by the represented vector,
the others do not change. -/
theorem C38_addAt_entry {idx : Arr Nat} {t : CRef G} (hinj : ∀ r r', In t r → In t r' → idx.v r = idx.v r' → r = r')
    (g : Nat → K) : (∀ r, In t r → addAt idx t g (idx.v r) = g r) ∧
      ∀ p, (∀ r, In t r → idx.v r ≠ p) → addAt idx t g p = 0 := by
  constructor
  · intro r hr
    obtain ⟨h1, h2⟩ := hr
    have e : r = t.cl.off + (r - t.cl.off) := by omega
    unfold addAt
    rw [Finset.sum_eq_single (r - t.cl.off), ← e, if_pos rfl]
    · intro i hi hne
      refine if_neg fun h => hne ?_
      have := hinj _ r (H2.In.add (Finset.mem_range.mp hi)) ⟨h1, h2⟩ h
      omega
    · intro h
      exact absurd (Finset.mem_range.mpr (by omega)) h
  · intro p hp
    exact Finset.sum_eq_zero fun i hi => if_neg (hp _ (H2.In.add (Finset.mem_range.mp hi)))

/-- `backward_nopermutation_clusterbasis_avector`. -/
theorem C38_backward_nopermutation {cb : CBas G} {yt yp : Vec} {s : VSt K} (ho : CbOk cb) (hs : CbSons cb)
    (hv : CbValid s.mem cb) (hd : Disj (CbCell cb) yt.Cell) (hdy : Disj (CbCell cb) yp.Cell) (hy : yp.Valid s.mem)
    (hyt : Disj yt.Cell yp.Cell) (ht : yt.Valid s.mem) (hdim : yt.dim = cb.ktree) (hpd : yp.dim = cb.size) :
    Tot (CBas.backwardNoperm cb yt yp s) fun s' => Frame (fun c => yt.Cell c ∨ yp.Cell c) s.mem s'.mem ∧
      ∀ i < yp.dim, yp.val s'.mem i = yp.val s.mem i + synth s.mem cb (yt.val s.mem) (cb.t.cl.off + i) :=
  (CBas.backwardNoperm_tot ho hs hv hd hdy hy hyt ht hdim hpd).mono fun _ h => ⟨h.2.2.2.1, h.2.2.2.2⟩

/-- `forward_notransfer_clusterbasis_avector` computes the coefficients with the matrices stored in all clusters. -/
theorem C38_forward_notransfer {idx : Arr Nat} {p : Nat} {junk : Nat → K} {cb : CBas G} {x xt : Vec} {s : VSt K}
    (ho : CbLay cb) (hv : CbFull s.mem cb) (hd : Disj (CbVCell cb) xt.Cell) (hx : x.Valid s.mem)
    (hxt : Disj x.Cell xt.Cell) (ht : xt.Valid s.mem) (hdim : xt.dim = cb.ktree) (hidx : IdxOk idx cb.t x.dim)
    (hf : Fresh s.mem p cb.size) :
    Tot (CBas.forwardNotransfer idx p junk cb x xt s) fun s' => Frame xt.Cell s.mem s'.mem ∧
      IsCoeffsV s.mem cb (fun r => x.val s.mem (idx.v r)) (xt.val s'.mem) :=
  (CBas.forwardNotransfer_tot ho hv hd hx hxt ht hdim hidx hf).mono fun _ h => ⟨h.2.2.1, h.2.2.2⟩

/-- `backward_notransfer_clusterbasis_avector` adds the vector represented with the matrices stored in all clusters. -/
theorem C38_backward_notransfer {idx : Arr Nat} {p : Nat} {junk : Nat → K} {cb : CBas G} {yt y : Vec} {s : VSt K}
    (ho : CbLay cb) (hv : CbFull s.mem cb) (hd : Disj (CbVCell cb) y.Cell) (hy : y.Valid s.mem)
    (hty : Disj yt.Cell y.Cell) (ht : yt.Valid s.mem) (hdim : yt.dim = cb.ktree) (hidx : IdxOk idx cb.t y.dim)
    (hf : Fresh s.mem p cb.size) :
    Tot (CBas.backwardNotransfer idx p junk cb yt y s) fun s' => VecBecomes y s.mem (fun q => y.val s.mem q +
      addAt idx cb.t (synthV s.mem cb (yt.val s.mem)) q) s'.mem :=
  (CBas.backwardNotransfer_tot ho hv hd hy hty ht hdim hidx hf).mono fun _ h => h.2

/-- The two transformations are adjoint: `<F x, y> = <x, B y>`. -/
theorem C38_adjoint {cb : CBas G} {m : Mem K} (ho : CbOk cb) {X Y Z : Nat → K} (h : IsCoeffs m cb X Y) :
    ∑ q ∈ Finset.range cb.ktree, star (Y q) * Z q =
      ∑ i ∈ Finset.range cb.size, star (X (cb.t.cl.off + i)) * synth m cb Z (cb.t.cl.off + i) :=
  CBas.adjoint ho h

/-- The segments of the clusters, in their order, enumerate the `ktree` entries of the coefficient vector: they are disjoint
and fill it. -/
theorem C38_layout {cb : CBas G} (h : CbLay cb) :
    (segs cb 0).flatMap (fun s => List.range' s.1 s.2) = List.range cb.ktree := by
  rw [CBas.segs_range h, List.range_eq_range']

/-- `update_tree_clusterbasis` changes only the numbers of coefficients and sets them correctly in all clusters. -/
theorem C38_update (cb : CBas G) : SameTree cb (CBas.updateTree cb) ∧ CountsOk (CBas.updateTree cb) :=
  ⟨(CBas.updateTree_ok cb).1, (CBas.updateTree_ok cb).2.1⟩

/-! ## C39 -/

/-- the number of active vectors is restored by `forward_clusterbasis_avector` -/
theorem C39_forward {idx : Arr Nat} {cb : CBas G} {x xt : Vec} {s : VSt K} (ho : CbOk cb) (hv : CbValid s.mem cb)
    (hd : Disj (CbCell cb) xt.Cell) (hx : x.Valid s.mem) (hxt : Disj x.Cell xt.Cell) (ht : xt.Valid s.mem)
    (hdim : xt.dim = cb.ktree) (hidx : IdxOk idx cb.t x.dim) :
    Tot (CBas.forward idx cb x xt s) fun s' => s'.act = s.act :=
  (CBas.forward_tot ho hv hd hx hxt ht hdim hidx).mono fun _ h => h.1

/-- … by `forward_nopermutation_clusterbasis_avector` -/
theorem C39_forward_nopermutation {cb : CBas G} {xp xt : Vec} {s : VSt K} (ho : CbOk cb) (hs : CbSons cb)
    (hv : CbValid s.mem cb) (hd : Disj (CbCell cb) xt.Cell) (hx : xp.Valid s.mem) (hxt : Disj xp.Cell xt.Cell)
    (ht : xt.Valid s.mem) (hdim : xt.dim = cb.ktree) (hpd : xp.dim = cb.size) :
    Tot (CBas.forwardNoperm cb xp xt s) fun s' => s'.act = s.act :=
  (CBas.forwardNoperm_tot ho hs hv hd hx hxt ht hdim hpd).mono fun _ h => h.1

/-- … by `backward_clusterbasis_avector` -/
theorem C39_backward {idx : Arr Nat} {cb : CBas G} {yt y : Vec} {s : VSt K} (ho : CbOk cb) (hv : CbValid s.mem cb)
    (hd : Disj (CbCell cb) yt.Cell) (hdy : Disj (CbCell cb) y.Cell) (hy : y.Valid s.mem) (hyt : Disj yt.Cell y.Cell)
    (ht : yt.Valid s.mem) (hdim : yt.dim = cb.ktree) (hidx : IdxOk idx cb.t y.dim) :
    Tot (CBas.backward idx cb yt y s) fun s' => s'.act = s.act :=
  (CBas.backward_tot ho hv hd hdy hy hyt ht hdim hidx).mono fun _ h => h.1

/-- … by `backward_nopermutation_clusterbasis_avector` -/
theorem C39_backward_nopermutation {cb : CBas G} {yt yp : Vec} {s : VSt K} (ho : CbOk cb) (hs : CbSons cb)
    (hv : CbValid s.mem cb) (hd : Disj (CbCell cb) yt.Cell) (hdy : Disj (CbCell cb) yp.Cell) (hy : yp.Valid s.mem)
    (hyt : Disj yt.Cell yp.Cell) (ht : yt.Valid s.mem) (hdim : yt.dim = cb.ktree) (hpd : yp.dim = cb.size) :
    Tot (CBas.backwardNoperm cb yt yp s) fun s' => s'.act = s.act :=
  (CBas.backwardNoperm_tot ho hs hv hd hdy hy hyt ht hdim hpd).mono fun _ h => h.1

/-- `forward_notransfer_clusterbasis_avector` leaves one vector registered for every leaf: `getactives_avector` grows by the
number of leaves, which is at least one, with every call. -/
theorem C39_forward_notransfer_leak {idx : Arr Nat} {p : Nat} {junk : Nat → K} {cb : CBas G} {x xt : Vec} {s : VSt K}
    (ho : CbLay cb) (hv : CbFull s.mem cb) (hd : Disj (CbVCell cb) xt.Cell) (hx : x.Valid s.mem)
    (hxt : Disj x.Cell xt.Cell) (ht : xt.Valid s.mem) (hdim : xt.dim = cb.ktree) (hidx : IdxOk idx cb.t x.dim)
    (hf : Fresh s.mem p cb.size) :
    Tot (CBas.forwardNotransfer idx p junk cb x xt s) fun s' => s'.act = s.act + cbLeaves cb :=
  (CBas.forwardNotransfer_tot ho hv hd hx hxt ht hdim hidx hf).mono fun _ h => h.1

/-- … and so does `backward_notransfer_clusterbasis_avector`. -/
theorem C39_backward_notransfer_leak {idx : Arr Nat} {p : Nat} {junk : Nat → K} {cb : CBas G} {yt y : Vec} {s : VSt K}
    (ho : CbLay cb) (hv : CbFull s.mem cb) (hd : Disj (CbVCell cb) y.Cell) (hy : y.Valid s.mem)
    (hty : Disj yt.Cell y.Cell) (ht : yt.Valid s.mem) (hdim : yt.dim = cb.ktree) (hidx : IdxOk idx cb.t y.dim)
    (hf : Fresh s.mem p cb.size) :
    Tot (CBas.backwardNotransfer idx p junk cb yt y s) fun s' => s'.act = s.act + cbLeaves cb :=
  (CBas.backwardNotransfer_tot ho hv hd hy hty ht hdim hidx hf).mono fun _ h => h.1

/-- the number of leaves is positive -/
theorem C39_leaves_pos : ∀ cb : CBas G, 0 < cbLeaves cb
  | .mk t k kt kb V E n son => by
    rw [cbLeaves]
    by_cases h : n = 0
    · rw [if_pos h]; exact Nat.one_pos
    · rw [if_neg h]
      have i : Fin n := ⟨0, by omega⟩
      exact lt_of_lt_of_le (C39_leaves_pos (son i))
        (Finset.single_le_sum (f := fun i => cbLeaves (son i)) (fun _ _ => Nat.zero_le _) (Finset.mem_univ i))
end

/-! ### examples -/

/-- leaves of ranks 1 and 2 -/
def cbexSon : Fin 2 → CBas Nat
  | 0 => .mk (bs 0) 1 3 3 ⟨0, 2, 2, 1⟩ ⟨8, 1, 1, 1⟩ 0 (fun i => i.elim0)
  | 1 => .mk (bs 1) 2 5 5 ⟨2, 3, 3, 2⟩ ⟨9, 2, 2, 1⟩ 0 (fun i => i.elim0)

/-- a nested basis of rank 1 over `bex`, with nine coefficients -/
def cbex : CBas Nat := .mk (CRef.root bex) 1 9 6 ⟨11, 5, 5, 1⟩ ⟨16, 1, 1, 1⟩ 2 cbexSon

def cbMem : Mem ℚ := fun c => if c < 50 then some c else none

theorem cbMem_some {c : Nat} (h : c < 50) : (cbMem c).isSome := by simp [cbMem, h]

theorem bs_seg : Segments (CRef.root bex) bs := by
  constructor
  · decide
  · decide

theorem cbex_ok : CbOk cbex := by
  refine ⟨fun h => absurd h (by decide), fun _ => ⟨?_, by decide⟩, ?_⟩
  · convert bs_seg using 1
    funext i; fin_cases i <;> rfl
  · intro i
    fin_cases i
    · exact ⟨rfl, rfl, fun _ => ⟨rfl, rfl, rfl⟩, fun h => absurd h (by decide), fun i => i.elim0⟩
    · exact ⟨rfl, rfl, fun _ => ⟨rfl, rfl, rfl⟩, fun h => absurd h (by decide), fun i => i.elim0⟩

/-- the hypotheses of C38 and C39 hold for `cbex`, a vector at 20, coefficients at 30 and a temporary vector at 60 -/
example : CbOk cbex ∧ CbSons cbex ∧ CbLay cbex ∧ CbValid cbMem cbex ∧ CbFull cbMem cbex ∧
    Disj (CbCell cbex) (Vec.Cell ⟨30, 9⟩) ∧ Disj (CbVCell cbex) (Vec.Cell ⟨30, 9⟩) ∧ (Vec.mk 20 5).Valid cbMem ∧
    (Vec.mk 30 9).Valid cbMem ∧ Disj (Vec.Cell ⟨20, 5⟩) (Vec.Cell ⟨30, 9⟩) ∧ IdxOk hexIdx cbex.t 5 ∧
    Fresh cbMem 60 cbex.size ∧ cbLeaves cbex = 2 ∧ cbex.ktree = 9 := by
  have e : ∀ (P : CBas Nat → Prop), P (cbexSon 0) → P (cbexSon 1) → ∀ i, P (cbexSon i) := by
    intro P h0 h1 i; fin_cases i <;> assumption
  refine ⟨cbex_ok, ⟨fun _ => ⟨by decide, fun i => by fin_cases i <;> rfl⟩, e _ ?_ ?_⟩, CBas.lay_of_ok cbex_ok, ?_, ?_, ?_,
    ?_, ?_, ?_, ?_, ?_, ?_, ?_, rfl⟩
  · exact ⟨fun h => absurd h (by decide), fun i => i.elim0⟩
  · exact ⟨fun h => absurd h (by decide), fun i => i.elim0⟩
  · refine ⟨fun h => absurd h (by decide), e (fun b => b.E.Valid cbMem ∧ CbValid cbMem b) ?_ ?_⟩
    · refine ⟨⟨by decide, ?_⟩, fun _ => ⟨by decide, ?_⟩, fun i => i.elim0⟩
      · intro i hi j hj; exact cbMem_some (by simp only [Mat.addr, CBas.E, cbexSon] at *; omega)
      · intro i hi j hj; exact cbMem_some (by simp only [Mat.addr] at *; omega)
    · refine ⟨⟨by decide, ?_⟩, fun _ => ⟨by decide, ?_⟩, fun i => i.elim0⟩
      · intro i hi j hj; exact cbMem_some (by simp only [Mat.addr, CBas.E, cbexSon] at *; omega)
      · intro i hi j hj; exact cbMem_some (by simp only [Mat.addr] at *; omega)
  · refine ⟨rfl, rfl, ⟨by decide, ?_⟩, e _ ⟨rfl, rfl, ⟨by decide, ?_⟩, fun i => i.elim0⟩
      ⟨rfl, rfl, ⟨by decide, ?_⟩, fun i => i.elim0⟩⟩
    · intro i hi j hj; exact cbMem_some (by simp only [Mat.addr] at *; omega)
    · intro i hi j hj; exact cbMem_some (by simp only [Mat.addr] at *; omega)
    · intro i hi j hj; exact cbMem_some (by simp only [Mat.addr] at *; omega)
  · rintro c (⟨h, -⟩ | ⟨i, hi⟩) ⟨q, hq, rfl⟩
    · exact absurd h (by decide)
    · revert i
      refine e (fun b => b.E.Cell ((Vec.mk 30 9).addr q) ∨ CbCell b ((Vec.mk 30 9).addr q) → False) ?_ ?_
      · rintro (⟨i, hi, j, hj, h⟩ | ⟨-, ⟨i, hi, j, hj, h⟩⟩ | ⟨i, -⟩)
        · simp only [Mat.addr, Vec.addr, CBas.E, cbexSon] at *; omega
        · simp only [Mat.addr, Vec.addr] at *; omega
        · exact i.elim0
      · rintro (⟨i, hi, j, hj, h⟩ | ⟨-, ⟨i, hi, j, hj, h⟩⟩ | ⟨i, -⟩)
        · simp only [Mat.addr, Vec.addr, CBas.E, cbexSon] at *; omega
        · simp only [Mat.addr, Vec.addr] at *; omega
        · exact i.elim0
  · rintro c (⟨i, hi, j, hj, rfl⟩ | ⟨i, hi⟩) ⟨q, hq, h'⟩
    · simp only [Mat.addr, Vec.addr] at *; omega
    · revert i
      refine e (fun b => CbVCell b c → False) ?_ ?_
      · rintro (⟨i, hi, j, hj, h⟩ | ⟨i, -⟩)
        · simp only [Mat.addr, Vec.addr] at *; omega
        · exact i.elim0
      · rintro (⟨i, hi, j, hj, h⟩ | ⟨i, -⟩)
        · simp only [Mat.addr, Vec.addr] at *; omega
        · exact i.elim0
  · intro i hi; exact cbMem_some (by simp only [Vec.addr] at *; omega)
  · intro i hi; exact cbMem_some (by simp only [Vec.addr] at *; omega)
  · rintro c ⟨i, hi, rfl⟩ ⟨j, hj, h⟩; simp only [Vec.addr] at *; omega
  · refine ⟨by decide, fun r _ => ?_⟩
    show (r + 2) % 5 < 5
    omega
  · intro c h1 h2
    have : ¬ c < 50 := by omega
    simp [cbMem, this]
  · simp [cbLeaves, cbex, cbexSon]

/-- the layout of the example: root, first son and its entries, second son and its entries -/
example : segs cbex 0 = [(0, 1), (1, 1), (2, 2), (4, 2), (6, 3)] := by decide

end H2.Props
