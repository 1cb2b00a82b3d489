import Verif.Proof.CbBranch2
import Verif.Proof.ClusterBasis6
import Verif.Props.H2Solve

/-!
# C82: multiplication by one cluster basis matrix and by uniform matrices

`Spec.basis m cb r l` is entry `(r, l)` of the nested cluster basis matrix `V_t` of the root cluster `t` of `cb` in memory `m`, `r` being a position of the
index array, `Spec.h2entry m (.uni rb cb S)` the matrix `V S W^*`.
-/

namespace H2.Props
open Spec

section
variable {G K : Type} [Field K] [StarRing K]

/-- `compress_clusterbasis_avector(cb, xp, xt)` stores `V_t^* xp` in the first `k` entries of `xt`.  Nothing but `xt` changes. -/
theorem C82_compress {cb : CBas G} {xp xt : Vec} {s : VSt K} (ho : CbOk cb) (hb : BranchOk cb) (hv : CbValid s.mem cb)
    (hd : Disj (CbCell cb) xt.Cell) (hx : xp.Valid s.mem) (hxt : Disj xp.Cell xt.Cell) (ht : xt.Valid s.mem)
    (et : xt.dim = cb.kbranch) (ep : xp.dim = cb.size) :
    ∃ Y s', CBas.compress cb xp xt s = .ok s' ∧ s'.act = s.act ∧ VecBecomes xt s.mem Y s'.mem ∧
      ∀ l < cb.k, Y l = ∑ i ∈ Finset.range cb.size, star (basis s.mem cb (cb.t.cl.off + i) l) * xp.val s.mem i := by
  obtain ⟨s', e, h0, h1, h2, h3⟩ := CBas.compress_tot ho hb hv hd hx hxt ht et ep
  exact ⟨xt.val s'.mem, s', e, h0, ⟨h1, fun _ _ => rfl, h2⟩, h3⟩

/-- `expand_clusterbasis_avector(cb, yt, yp)` adds `V_t y` to `yp`, where `y` consists of the first `k` entries of `yt`; these entries
are kept, the other entries of `yt` are used as temporary storage. -/
theorem C82_expand {cb : CBas G} {yt yp : Vec} {s : VSt K} (ho : CbOk cb) (hb : BranchOk cb) (hv : CbValid s.mem cb)
    (hd : Disj (CbCell cb) yt.Cell) (hd' : Disj (CbCell cb) yp.Cell) (hp : yp.Valid s.mem) (htp : Disj yt.Cell yp.Cell)
    (ht : yt.Valid s.mem) (et : yt.dim = cb.kbranch) (ep : yp.dim = cb.size) :
    ∃ s', CBas.expand cb yt yp s = .ok s' ∧ s'.act = s.act ∧ yt.Valid s'.mem ∧ yp.Valid s'.mem ∧
      Frame (fun c => yt.Cell c ∨ yp.Cell c) s.mem s'.mem ∧ (∀ l < cb.k, yt.val s'.mem l = yt.val s.mem l) ∧
      ∀ i < cb.size, yp.val s'.mem i = yp.val s.mem i +
        ∑ l ∈ Finset.range cb.k, basis s.mem cb (cb.t.cl.off + i) l * yt.val s.mem l := by
  obtain ⟨s', e, h0, h1, h2, h3, h4, h5⟩ := CBas.expand_tot ho hb hv hd hd' hp htp ht et ep
  exact ⟨s', e, h0, h1, h2, h3, h4, fun i hi => h5 i (by omega)⟩

/-- `addeval_clusterbasis_avector(alpha, cb, yc, yp)` computes `yp += alpha V_t yc`.  The two vectors may overlap. -/
theorem C82_addeval {alloc : Mem K → Nat → Nat} {junk : Nat → K} {alpha : K} {cb : CBas G} {yc yp : Vec} {s : VSt K}
    (hal : FreshAlloc alloc) (hm : FiniteMem s.mem) (ho : CbOk cb) (hb : BranchOk cb) (hv : CbValid s.mem cb)
    (hd : Disj (CbCell cb) yp.Cell) (hc : yc.Valid s.mem) (hp : yp.Valid s.mem) (ec : yc.dim = cb.k) (ep : yp.dim = cb.size) :
    ∃ s', CBas.addeval alloc junk alpha cb yc yp s = .ok s' ∧ s'.act = s.act ∧ VecBecomes yp s.mem (fun i => yp.val s.mem i +
      alpha * ∑ l ∈ Finset.range cb.k, basis s.mem cb (cb.t.cl.off + i) l * yc.val s.mem l) s'.mem :=
  CBas.addeval_tot hal hm ho hb hv hd hc hp ec ep

/-- `addevaltrans_clusterbasis_avector(alpha, cb, xp, xc)` computes `xc += alpha V_t^* xp`.  The two vectors may overlap. -/
theorem C82_addevaltrans {alloc : Mem K → Nat → Nat} {junk : Nat → K} {alpha : K} {cb : CBas G} {xp xc : Vec} {s : VSt K}
    (hal : FreshAlloc alloc) (hm : FiniteMem s.mem) (ho : CbOk cb) (hb : BranchOk cb) (hv : CbValid s.mem cb)
    (hc : xc.Valid s.mem) (hp : xp.Valid s.mem) (ec : xc.dim = cb.k) (ep : xp.dim = cb.size) :
    ∃ s', CBas.addevaltrans alloc junk alpha cb xp xc s = .ok s' ∧ s'.act = s.act ∧ VecBecomes xc s.mem (fun l => xc.val s.mem l +
      alpha * ∑ i ∈ Finset.range cb.size, star (basis s.mem cb (cb.t.cl.off + i) l) * xp.val s.mem i) s'.mem :=
  CBas.addevaltrans_tot hal hm ho hb hv hc hp ec ep

private theorem three_sums (a b n : Nat) (v : Nat → K) (S w : Nat → Nat → K) (x : Nat → K) :
    ∑ l ∈ Finset.range a, v l * ∑ q ∈ Finset.range b, S l q * ∑ j ∈ Finset.range n, w j q * x j =
    ∑ j ∈ Finset.range n, (∑ l ∈ Finset.range a, ∑ q ∈ Finset.range b, v l * S l q * w j q) * x j := by
  simp only [Finset.sum_mul, Finset.mul_sum]
  rw [Finset.sum_comm (s := Finset.range n)]
  refine Finset.sum_congr rfl fun l _ => ?_
  rw [Finset.sum_comm (s := Finset.range n)]
  refine Finset.sum_congr rfl fun q _ => Finset.sum_congr rfl fun j _ => ?_
  ring

/-- `mvm_uniform_avector(alpha, trans, u, x, y)` computes `y += alpha V S W^* x` or, with `trans`, `y += alpha (V S W^*)^* x`.  The
vectors `x` and `y` may overlap. -/
theorem C82_uniform {alloc : Mem K → Nat → Nat} {junk : Nat → K} {alpha : K} {trans : Bool} {rb cb : CBas G} {S : Mat}
    {x y : Vec} {s : VSt K} (hal : FreshAlloc alloc) (hm : FiniteMem s.mem) (or : CbOk rb) (oc : CbOk cb) (br : BranchOk rb)
    (bc : BranchOk cb) (vr : CbValid s.mem rb) (vc : CbValid s.mem cb) (hS : S.Valid s.mem) (rS : S.rows = rb.k) (cS : S.cols = cb.k)
    (hd : Disj (CbCell (if trans then cb else rb)) y.Cell) (hx : x.Valid s.mem) (hy : y.Valid s.mem)
    (ex : x.dim = (if trans then rb else cb).size) (ey : y.dim = (if trans then cb else rb).size) :
    ∃ s', CBas.mvmUniform alloc junk alpha trans rb cb S x y s = .ok s' ∧ s'.act = s.act ∧ VecBecomes y s.mem (fun i => y.val s.mem i +
      alpha * ∑ j ∈ Finset.range x.dim, op trans (h2entry s.mem (.uni rb cb S)) i j * x.val s.mem j) s'.mem := by
  obtain ⟨s', e, h0, h1⟩ := CBas.mvmUniform_tot (junk := junk) (alpha := alpha) (trans := trans) hal hm rfl rfl
    (by split <;> assumption) (by split <;> assumption) (by split <;> assumption) (by split <;> assumption)
    (by split <;> assumption) (by split <;> assumption) hS rS cS hd hx hy ex ey
  refine ⟨s', e, h0, Dense.vbecomes_congr h1 fun i _ => ?_⟩
  congr 2
  rw [ex]
  cases trans
  · exact three_sums _ _ _ _ _ _ _
  · refine (three_sums _ _ _ _ _ _ _).trans (Finset.sum_congr rfl fun j _ => ?_)
    congr 1
    show _ = star (h2entry s.mem (.uni rb cb S) j i)
    unfold h2entry h2place
    rw [star_sum, Finset.sum_comm]
    refine Finset.sum_congr rfl fun q _ => ?_
    rw [star_sum]
    refine Finset.sum_congr rfl fun l _ => ?_
    simp only [if_true, op, star_mul', star_star, H2Mat.rb, H2Mat.cb]
    ring

/-- The counts computed by `update_tree_clusterbasis` satisfy `BranchOk`. -/
theorem C82_counts (cb : CBas G) : BranchOk (CBas.updateTree cb) := CBas.branchOk_of_counts (CBas.updateTree_ok cb).2.1
end

/-! ### example -/

theorem cbex_branch : BranchOk cbex := by
  refine ⟨by decide, fun i => ?_⟩
  fin_cases i <;> exact ⟨by decide, by decide, fun j => j.elim0⟩

/-- `mvm_uniform_avector` with `cbex` as row and column basis, the 1 × 1 coupling matrix at address 17, the vector `x` at 30 and `y` at 40;
`addeval` and `addevaltrans` with the same basis -/
example : ∃ alloc : Mem ℚ → Nat → Nat, FreshAlloc alloc ∧
    (∀ trans, ∃ s', CBas.mvmUniform alloc (fun _ => 7) 2 trans cbex cbex ⟨17, 1, 1, 1⟩ ⟨30, 5⟩ ⟨40, 5⟩ ⟨cbMem, 3⟩ = .ok s' ∧ s'.act = 3) ∧
    (∃ s', CBas.addeval alloc (fun _ => 7) 2 cbex ⟨20, 1⟩ ⟨40, 5⟩ ⟨cbMem, 3⟩ = .ok s' ∧ s'.act = 3) ∧
    ∃ s', CBas.addevaltrans alloc (fun _ => 7) 2 cbex ⟨40, 5⟩ ⟨20, 1⟩ ⟨cbMem, 3⟩ = .ok s' ∧ s'.act = 3 := by
  obtain ⟨alloc, hal⟩ := freshAlloc_exists
  obtain ⟨h1, h2, h3⟩ := h2ex_ready
  have hv : CbValid cbMem cbex := h1.2.2.2.2.2.2.1
  have vec : ∀ b d, b + d ≤ 50 → Vec.Valid ⟨b, d⟩ cbMem := fun b d h i hi => cbMem_some (by simp only [Vec.addr] at *; omega)
  have cells : ∀ c, CbCell cbex c → c < 20 := by
    rintro c (⟨h, -⟩ | ⟨i, h⟩)
    · exact absurd h (by decide)
    · fin_cases i
      all_goals
        rcases h with ⟨a, ha, b, hb, rfl⟩ | ⟨-, a, ha, b, hb, rfl⟩ | ⟨j, -⟩
        · simp only [Mat.addr, CBas.E, cbexSon, Fin.zero_eta, Fin.mk_one] at *; omega
        · simp only [Mat.addr] at *; omega
        · exact j.elim0
  have hd : Disj (CbCell cbex) (Vec.Cell ⟨40, 5⟩) := by
    rintro c h ⟨i, hi, rfl⟩
    have := cells _ h
    simp only [Vec.addr] at this
    omega
  refine ⟨alloc, hal, fun trans => ?_, ?_, ?_⟩
  · obtain ⟨s', e, h, -⟩ := C82_uniform (s := ⟨cbMem, 3⟩) (junk := fun _ => 7) (alpha := 2) (trans := trans) (rb := cbex) (cb := cbex)
      (S := ⟨17, 1, 1, 1⟩) (x := ⟨30, 5⟩) (y := ⟨40, 5⟩) hal h3 cbex_ok cbex_ok cbex_branch cbex_branch hv hv
      ⟨by decide, fun i hi j hj => cbMem_some (by simp only [Mat.addr] at *; omega)⟩ rfl rfl (by rw [ite_self]; exact hd)
      (vec _ _ (by omega)) (vec _ _ (by omega)) (by rw [ite_self]; rfl) (by rw [ite_self]; rfl)
    exact ⟨s', e, h⟩
  · obtain ⟨s', e, h, -⟩ := C82_addeval (s := ⟨cbMem, 3⟩) (junk := fun _ => 7) (alpha := 2) (cb := cbex) (yc := ⟨20, 1⟩) (yp := ⟨40, 5⟩)
      hal h3 cbex_ok cbex_branch hv hd (vec _ _ (by omega)) (vec _ _ (by omega)) rfl rfl
    exact ⟨s', e, h⟩
  · obtain ⟨s', e, h, -⟩ := C82_addevaltrans (s := ⟨cbMem, 3⟩) (junk := fun _ => 7) (alpha := 2) (cb := cbex) (xc := ⟨20, 1⟩) (xp := ⟨40, 5⟩)
      hal h3 cbex_ok cbex_branch hv (vec _ _ (by omega)) (vec _ _ (by omega)) rfl rfl
    exact ⟨s', e, h⟩

end H2.Props
