import Verif.Proof.HMatrix2
import Verif.Props.Block
import Verif.Props.Rk
import Mathlib.Tactic.FinCases
import Mathlib.Algebra.Star.BigOperators

/-!
# C32, C33, C34: H-matrices

`Spec.dense ridx cidx m h a b` is entry `(a, b)` of the represented matrix in the original numbering of the degrees of
freedom (`Spec/HMatrix.lean`).
-/

namespace H2.Props
open Spec

section
variable {G K : Type} [Field K] [StarRing K]

/-! ## C32 -/

/-- `addeval_hmatrix_avector`: `y += alpha H x` with the dense matrix `H` represented by the H-matrix; the temporary
vectors are released and no other memory changes. -/
theorem C32_addeval {h : HMat G} {ridx cidx : Arr Nat} {px py : Nat} {junk : Nat → K} {x y : Vec} {m : Mem K}
    (ho : HOk h) (hv : HValid m h) (hr : IsPerm ridx h.rc.cl.off h.rsize) (hc : IsPerm cidx h.cc.cl.off h.csize)
    (hx : x.Valid m) (hy : y.Valid m) (hxd : x.dim = h.csize) (hyd : y.dim = h.rsize) (hfx : Fresh m px x.dim)
    (hfy : Fresh (m.alloc px x.dim junk) py y.dim) (alpha : K) :
    Tot (HMat.addeval ridx cidx px py junk alpha h x y m) (VecBecomes y m fun a => y.val m a + alpha *
      ∑ b ∈ Finset.range h.csize, dense ridx.v cidx.v m h a b * x.val m b) :=
  HMat.addeval_tot ho hv hr hc hx hy hxd hyd hfx hfy alpha

/-- `addevaltrans_hmatrix_avector`: `y += alpha H^* x`. -/
theorem C32_addevaltrans {h : HMat G} {ridx cidx : Arr Nat} {px py : Nat} {junk : Nat → K} {x y : Vec} {m : Mem K}
    (ho : HOk h) (hv : HValid m h) (hr : IsPerm ridx h.rc.cl.off h.rsize) (hc : IsPerm cidx h.cc.cl.off h.csize)
    (hx : x.Valid m) (hy : y.Valid m) (hxd : x.dim = h.rsize) (hyd : y.dim = h.csize) (hfx : Fresh m px x.dim)
    (hfy : Fresh (m.alloc px x.dim junk) py y.dim) (alpha : K) :
    Tot (HMat.addevaltrans ridx cidx px py junk alpha h x y m) (VecBecomes y m fun b => y.val m b + alpha *
      ∑ a ∈ Finset.range h.rsize, star (dense ridx.v cidx.v m h a b) * x.val m a) :=
  HMat.addevaltrans_tot ho hv hr hc hx hy hxd hyd hfx hfy alpha

/-- `mvm_hmatrix_avector`: `y += alpha op(H) x`. -/
theorem C32_mvm {h : HMat G} {ridx cidx : Arr Nat} {px py : Nat} {junk : Nat → K} {x y : Vec} {m : Mem K}
    (ho : HOk h) (hv : HValid m h) (hr : IsPerm ridx h.rc.cl.off h.rsize) (hc : IsPerm cidx h.cc.cl.off h.csize)
    (hx : x.Valid m) (hy : y.Valid m) (trans : Bool) (hxd : x.dim = if trans then h.rsize else h.csize)
    (hyd : y.dim = if trans then h.csize else h.rsize) (hfx : Fresh m px x.dim)
    (hfy : Fresh (m.alloc px x.dim junk) py y.dim) (alpha : K) :
    Tot (HMat.mvm ridx cidx px py junk alpha trans h x y m) (VecBecomes y m fun a => y.val m a + alpha *
      ∑ b ∈ Finset.range x.dim, op trans (dense ridx.v cidx.v m h) a b * x.val m b) := by
  cases trans
  · simp only [Bool.false_eq_true, if_false] at hxd hyd
    simp only [HMat.mvm, Bool.false_eq_true, if_false, op, hxd]
    exact C32_addeval ho hv hr hc hx hy hxd hyd hfx hfy alpha
  · simp only [if_true] at hxd hyd
    simp only [HMat.mvm, if_true, op, hxd]
    exact C32_addevaltrans ho hv hr hc hx hy hxd hyd hfx hfy alpha

/-- The two products are adjoint: `<y, H x> = <H^* y, x>`. -/
theorem C32_adjoint (h : HMat G) (ridx cidx : Nat → Nat) (m : Mem K) (x y : Nat → K) :
    ∑ a ∈ Finset.range h.rsize, star (y a) * ∑ b ∈ Finset.range h.csize, dense ridx cidx m h a b * x b =
      ∑ b ∈ Finset.range h.csize, star (∑ a ∈ Finset.range h.rsize, star (dense ridx cidx m h a b) * y a) * x b := by
  simp only [star_sum, star_mul', star_star, Finset.mul_sum, Finset.sum_mul]
  rw [Finset.sum_comm]
  exact Finset.sum_congr rfl fun j _ => Finset.sum_congr rfl fun i _ => by ring

/-- `scale_hmatrix` scales the represented matrix and writes to its leaves only. -/
theorem C32_scale {h : HMat G} {m : Mem K} (ho : HOk h) (hv : HValid m h) (hd : HDisj h) {ridx cidx : Arr Nat}
    (hr : IsPerm ridx h.rc.cl.off h.rsize) (hc : IsPerm cidx h.cc.cl.off h.csize) (alpha : K) :
    Tot (HMat.scale alpha h m) fun m' => HValid m' h ∧ Frame (HCell h) m m' ∧
      ∀ a < h.rsize, ∀ b < h.csize, dense ridx.v cidx.v m' h a b = alpha * dense ridx.v cidx.v m h a b := by
  refine (HMat.scale_tot alpha ho hv hd).mono fun m' ⟨⟨g1, g2⟩, g3⟩ => ⟨g1, g3, fun a ha b hb => ?_⟩
  obtain ⟨i, hi, rfl⟩ := hr.surj ha
  obtain ⟨j, hj, rfl⟩ := hc.surj hb
  rw [HMat.dense_place ho hr hc m' hi hj, HMat.dense_place ho hr hc m hi hj, g2]

/-- A matrix built from a block tree over consistent cluster trees has the structure assumed in C32. -/
theorem C32_built_ok (adr : CRef G → CRef G → Nat × Nat) (k : Nat) {b : Block G} (h : BlockOK b) :
    HOk (HMat.buildFromBlock adr k b) := HMat.hok_build adr k h.tree h.rcons h.ccons

/-! ## C33 -/

/-- `addevalsymm_hmatrix_avector`: `y += alpha S x`, where `S` is the self-adjoint matrix whose lower triangle (in the
order of the index array of the cluster tree) is the lower triangle of the represented matrix. -/
theorem C33_addevalsymm {h : HMat G} {idx : Arr Nat} {px py : Nat} {junk : Nat → K} {x y : Vec} {m : Mem K}
    (ho : HOk h) (hs : SymmOk h) (hv : HValid m h) (hr : IsPerm idx h.rc.cl.off h.rsize)
    (hx : x.Valid m) (hy : y.Valid m) (hxd : x.dim = h.rsize) (hyd : y.dim = h.rsize) (hfx : Fresh m px x.dim)
    (hfy : Fresh (m.alloc px x.dim junk) py y.dim) (alpha : K) :
    Tot (HMat.addevalsymm idx px py junk alpha h x y m) fun m' => y.Valid m' ∧ Frame y.Cell m m' ∧
      ∀ i < h.rsize, y.val m' (idx.v (h.rc.cl.off + i)) = y.val m (idx.v (h.rc.cl.off + i)) + alpha *
        ∑ j ∈ Finset.range h.rsize,
          lowerSymm (fun i j => dense idx.v idx.v m h (idx.v (h.rc.cl.off + i)) (idx.v (h.rc.cl.off + j))) i j *
            x.val m (idx.v (h.rc.cl.off + j)) := by
  have hrc : h.cc = h.rc := by
    cases h with
    | rk => exact absurd hs (by simp [SymmOk])
    | full => exact Eq.symm hs
    | super => exact Eq.symm hs.1
  have hcs : h.csize = h.rsize := by unfold HMat.csize HMat.rsize; rw [hrc]
  have hr' : IsPerm idx h.cc.cl.off h.csize := by rw [hcs, hrc]; exact hr
  refine (HMat.addevalsymm_tot ho hs hv hr hx hy hxd hyd hfx hfy alpha).mono fun m' ⟨g1, g2, g3⟩ =>
    ⟨g1, g2, fun i hi => ?_⟩
  rw [g3 i hi]
  congr 2
  refine Finset.sum_congr rfl fun j hj => ?_
  rw [Finset.mem_range] at hj
  have e := fun a b (ha : a < h.rsize) (hb : b < h.rsize) =>
    HMat.dense_place ho hr hr' m (i := a) (j := b) ha (by rw [hcs]; exact hb)
  rw [hrc] at e
  congr 1
  unfold lowerSymm
  by_cases hji : j ≤ i
  · rw [if_pos hji, if_pos (by omega)]; exact (e i j hi hj).symm
  · rw [if_neg hji, if_neg (by omega)]; exact congrArg star (e j i hj hi).symm

/-- A matrix built from a nonstrict or strict block tree of one cluster tree can be multiplied symmetrically if no
diagonal block is admissible (e.g. because a cluster has distance zero from itself). -/
theorem C33_built_ok (adr : CRef G → CRef G → Nat × Nat) (k : Nat) (admis : Cluster G → Cluster G → Bool)
    (hna : ∀ t, admis t t = false) (t : CRef G) :
    SymmOk (HMat.buildFromBlock adr k (Block.buildNonstrict admis t t)) ∧
    SymmOk (HMat.buildFromBlock adr k (Block.buildStrict admis t t)) :=
  ⟨HMat.symmOk_nonstrict adr k admis hna _ t (Nat.lt_succ_self _),
    HMat.symmOk_strict adr k admis hna _ t (Nat.lt_succ_self _)⟩

/-- The restriction is needed: for a matrix consisting of a low-rank block an assertion of the code fails. -/
theorem C33_lowrank_diagonal_fails (t s : CRef G) (d : Nat) (r : Rk) (alpha : K) (x y : Vec) (m : Mem K) :
    HMat.fastaddevalsymm alpha (.rk t s d r) x y m = .error .assertFail := by
  unfold HMat.fastaddevalsymm
  by_cases h : t.same s = true
  · simp only [HMat.rc, HMat.cc, HMat.addevalsymmDiag]
    rw [cassert_true h, ok_bind, ok_bind]
  · simp only [HMat.rc, HMat.cc]
    simp [cassert, h]
    rfl

/-! ## C34 -/

/-- Converting a block tree to an H-matrix and back reproduces the block tree exactly iff subdivided blocks are not
flagged admissible (`build_from_hmatrix_block` never sets this flag for them); `desc` is preserved in any case. -/
theorem C34_roundtrip (adr : CRef G → CRef G → Nat × Nat) (k : Nat) {rc cc : CRef G} {b : Block G}
    (h : BlockTree rc cc b) (hd : BDescExact b) :
    ((HMat.buildFromBlock adr k b).toBlock = b ↔ ∀ s ∈ bnodes b, 0 < s.rsons → s.a = false) ∧
    (HMat.buildFromBlock adr k b).desc = b.desc ∧ HDescExact (HMat.buildFromBlock adr k b) := by
  have hz : ∀ s ∈ bnodes b, s.rsons * s.csons = 0 → s.rsons = 0 ∧ s.csons = 0 := HMat.blockTree_zero h
  refine ⟨⟨fun e s hs => ?_, fun hl => HMat.toBlock_build adr k hd fun s hs => ?_⟩, HMat.desc_build adr k hd hz,
    HMat.hdesc_build adr k b⟩
  · rw [← e] at hs
    exact HMat.toBlock_a _ s hs
  · split
    · rename_i e; exact hz s hs e
    · rename_i e; exact hl s hs (Nat.pos_of_ne_zero fun h0 => e (by rw [h0, Nat.zero_mul]))

/-- All four block tree builders deliver trees that survive the round trip. -/
theorem C34_roundtrip_built (adr : CRef G → CRef G → Nat × Nat) (k : Nat) (admis : Cluster G → Cluster G → Bool)
    (rc cc : CRef G) :
    (HMat.buildFromBlock adr k (Block.buildNonstrict admis rc cc)).toBlock = Block.buildNonstrict admis rc cc ∧
    (HMat.buildFromBlock adr k (Block.buildStrict admis rc cc)).toBlock = Block.buildStrict admis rc cc ∧
    (Consistent rc.cl → 0 < rc.cl.size → ∀ b, Block.buildNonstrictLower admis rc rc = .ok b ∨
      Block.buildStrictLower admis rc rc = .ok b → (HMat.buildFromBlock adr k b).toBlock = b) := by
  have pos : ∀ {rc cc : CRef G} {b s : Block G}, BlockTree rc cc b → s ∈ bnodes b → 0 < s.rsons →
      s.rsons * s.csons ≠ 0 := fun h hs h0 e => by have := HMat.blockTree_zero h _ hs e; omega
  refine ⟨(C34_roundtrip adr k (nonstrict_blockTree admis rc cc) (nonstrict_desc _ _ _)).1.mpr fun s hs h0 => ?_,
    (C34_roundtrip adr k (strict_blockTree admis rc cc) (strict_desc _ _ _)).1.mpr fun s hs h0 => ?_,
    fun hr hp b hb => ?_⟩
  · have hl := nonstrict_label admis rc cc s hs
    by_contra ha
    exact pos (nonstrict_blockTree admis rc cc) hs h0 (hl.2.mpr (Or.inl (by simpa using ha)))
  · have hl := strict_label admis rc cc s hs
    by_contra ha
    exact pos (strict_blockTree admis rc cc) hs h0 (hl.2.mpr (Or.inl (by simpa using ha)))
  · have hbt := C15_lower_partition admis rc rc b hr hr hb
    refine (C34_roundtrip adr k hbt.1 hbt.2.1).1.mpr fun s hs h0 => ?_
    have hl := C15_lower_labels admis rc b hr hp
    by_contra ha
    have ha : s.a = true := by simpa using ha
    refine pos hbt.1 hs h0 ?_
    rcases hb with hb | hb
    · have := hl.1 hb s hs
      by_cases h : Above s
      · exact (this.1 h).1
      · exact (this.2 h).2.mpr (Or.inl ha)
    · have := hl.2 hb s hs
      by_cases h : Above s
      · exact (this.1 h).1
      · exact (this.2 h).2.mpr (Or.inl ha)

end

/-! ### examples -/

/-- the sons of the root of `bex` -/
def bs (i : Fin 2) : CRef Nat := (CRef.root bex).son ⟨i.1, i.2⟩

/-- dense diagonal blocks, rank 1 below, dense above -/
def hexSon : Fin 2 → Fin 2 → HMat Nat
  | 0, 0 => .full (bs 0) (bs 0) 1 ⟨0, 2, 2, 2⟩
  | 1, 0 => .rk (bs 1) (bs 0) 1 ⟨⟨4, 3, 3, 1⟩, ⟨7, 2, 2, 1⟩, 1⟩
  | 0, 1 => .full (bs 0) (bs 1) 1 ⟨9, 2, 2, 3⟩
  | 1, 1 => .full (bs 1) (bs 1) 1 ⟨15, 3, 3, 3⟩

/-- a 5 x 5 matrix over `bex` -/
def hex : HMat Nat := .super (CRef.root bex) (CRef.root bex) 5 2 2 hexSon

theorem hex_all {P : HMat Nat → Prop} (h1 : P (.full (bs 0) (bs 0) 1 ⟨0, 2, 2, 2⟩))
    (h2 : P (.rk (bs 1) (bs 0) 1 ⟨⟨4, 3, 3, 1⟩, ⟨7, 2, 2, 1⟩, 1⟩)) (h3 : P (.full (bs 0) (bs 1) 1 ⟨9, 2, 2, 3⟩))
    (h4 : P (.full (bs 1) (bs 1) 1 ⟨15, 3, 3, 3⟩)) (i j : Fin 2) : P (hexSon i j) := by
  fin_cases i <;> fin_cases j <;> assumption

def hexIdx : Arr Nat := ⟨5, fun i => (i + 2) % 5⟩

/-- the hypotheses of C32 and C33 hold for `hex`, vectors at 24 and 100, and temporary vectors at 200 and 300 -/
example : HOk hex ∧ SymmOk hex ∧ HValid exMemRk hex ∧ IsPerm hexIdx 0 5 ∧ hex.rsize = 5 ∧ hex.csize = 5 ∧
    (Vec.mk 24 5).Valid exMemRk ∧ Fresh exMemRk 200 5 ∧ Fresh (exMemRk.alloc 200 5 fun _ => 1) 300 5 := by
  have seg : Segments (CRef.root bex) bs := by
    constructor
    · decide
    · decide
  refine ⟨⟨by decide, by decide, ⟨bs, bs, ?_, seg, seg⟩, ?_⟩,
    ⟨rfl, rfl, rfl, ?_, ?_⟩, ?_, ⟨le_rfl, ?_, ?_⟩, rfl, rfl, ?_, ?_, ?_⟩
  · intro i j
    fin_cases i <;> fin_cases j <;> exact ⟨rfl, rfl⟩
  · intro i j
    exact hex_all ⟨rfl, rfl⟩ ⟨rfl, rfl⟩ ⟨rfl, rfl⟩ ⟨rfl, rfl⟩ i j
  · intro i h
    match i with
    | ⟨0, _⟩ => rfl
    | ⟨1, _⟩ => rfl
  · intro i; fin_cases i <;> rfl
  · intro i j
    refine hex_all (P := HValid exMemRk) ⟨by decide, ?_⟩ ⟨⟨by decide, ?_⟩, ⟨by decide, ?_⟩, ?_, rfl, rfl⟩
      ⟨by decide, ?_⟩ ⟨by decide, ?_⟩ i j
    · intro i hi j hj; exact exMemRk_some (by simp only [Mat.addr] at *; omega)
    · intro i hi j hj; exact exMemRk_some (by simp only [Mat.addr] at *; omega)
    · intro i hi j hj; exact exMemRk_some (by simp only [Mat.addr] at *; omega)
    · rintro c ⟨i, hi, j, hj, rfl⟩ ⟨i', hi', j', hj', e⟩; simp only [Mat.addr] at *; omega
    · intro i hi j hj; exact exMemRk_some (by simp only [Mat.addr] at *; omega)
    · intro i hi j hj; exact exMemRk_some (by simp only [Mat.addr] at *; omega)
  · decide
  · decide
  · intro i hi; exact exMemRk_some (by simp only [Vec.addr] at *; omega)
  · intro c h1 h2; have : ¬ c < 30 := by omega
    simp [exMemRk, this]
  · intro c h1 h2; have : ¬ c < 30 := by omega
    have h3 : ¬ c < 205 := by omega
    simp [Mem.alloc, exMemRk, this, h3]

/-- a strict tree with five blocks, none of the diagonal ones admissible -/
example : (HMat.buildFromBlock (fun _ _ => (0, 0)) 3 (Block.buildNonstrict (fun _ _ => false) (.root bex) (.root bex))).desc
    = 5 := by
  rw [(C34_roundtrip _ 3 (nonstrict_blockTree _ _ _) (nonstrict_desc _ _ _)).2.1]
  rw [Block.buildNonstrict, if_neg (by decide), if_neg (by decide)]
  have : ∀ i j, Block.buildNonstrict (fun _ _ => false) ((CRef.root bex).son i) ((CRef.root bex).son j) =
      Block.leaf ((CRef.root bex).son i) ((CRef.root bex).son j) false := by
    intro i j
    rw [Block.buildNonstrict, if_neg (by decide), if_pos]
    have : ∀ i : Fin (CRef.root bex).nsons, ((CRef.root bex).son i).nsons = 0 := by decide
    rw [this]; simp
  simp only [this]
  decide

end H2.Props
