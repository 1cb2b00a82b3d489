import Verif.Proof.Collect3
import Verif.Props.Project

/-!
# C60: orthogonal projection of dense matrices and H-matrices into H²-matrix spaces

`coupling rb cb A` is `V_t^* A|_{t×s} W_s`, `ProjectionOf A h` says that the leaves of `h` are the projections of the submatrices of `A`, `errSq A h` is the squared
Frobenius norm of the error (Spec/Collect.lean).  Rows and columns of `A` are positions in the index arrays `ridx` and `cidx` of the cluster trees.
-/

set_option linter.unusedSectionVars false

namespace H2.Props
open Spec
variable {G 𝕜 : Type} [RCLike 𝕜]

/-- `collectdense_h2matrix` computes `V_t^* A|_{t×s} W_s` for arbitrary nested bases, also if one of the two trees ends before the other, and for any initial content of `s`. -/
theorem C60_collect {ridx cidx : Arr Nat} {junk : Nat → 𝕜} {a : VMat 𝕜} {rb cb : CBV G 𝕜} (hr : CBVOk rb) (hri : IdxOk ridx rb.t a.rows) (hc : CBVOk cb) (hci : IdxOk cidx cb.t a.cols)
    {s : VMat 𝕜} (h1 : s.rows = rb.k) (h2 : s.cols = cb.k) :
    ∃ s', collectDense ridx cidx junk a rb cb s = .ok s' ∧ s'.rows = rb.k ∧ s'.cols = cb.k ∧
      ∀ x < rb.k, ∀ y < cb.k, s'.e x y = coupling rb cb (fun r c => a.e (ridx.v r) (cidx.v c)) x y :=
  collectDense_tot hr hri hc hci h1 h2

/-- `project_amatrix_h2matrix`: bases and structure of the H²-matrix are kept, the leaves become the projections of the dense matrix. -/
theorem C60_project_dense {ridx cidx : Arr Nat} {junk : Nat → 𝕜} {a : VMat 𝕜} {h : H2V G 𝕜} (ho : H2VOk h) (hz : NoZero h)
    (hr : CBVOk h.rb.cb) (hri : IdxOk ridx h.rb.cb.t a.rows) (hc : CBVOk h.cb.cb) (hci : IdxOk cidx h.cb.cb.t a.cols) :
    ∃ h', H2V.projectDense ridx cidx junk a h = .ok h' ∧ SameForm h h' ∧ ProjectionOf (fun r c => a.e (ridx.v r) (cidx.v c)) h' := by
  obtain ⟨h', e, p1, p2⟩ := projectDense_tot (junk := junk) ho hz ⟨hr, hri⟩ ⟨hc, hci⟩
  exact ⟨h', e, p2, p1⟩

/-- Blocks without content have to be excluded: for a leaf that has neither sons nor a dense nor a uniform matrix, a null pointer is dereferenced. -/
theorem C60_project_dense_zero {ridx cidx : Arr Nat} {junk : Nat → 𝕜} {a : VMat 𝕜} {rb cb : BRef G 𝕜} : H2V.projectDense ridx cidx junk a (.zero rb cb) = .error .ub := rfl

/-- `build_projected_amatrix_h2matrix`: for every block tree and every pair of bases for complete cluster trees, a consistent H²-matrix with the structure of the block tree is built, and
its leaves are the projections of the dense matrix. -/
theorem C60_build_dense {ridx cidx : Arr Nat} {junk : Nat → 𝕜} {a : VMat 𝕜} {rb cb : BRef G 𝕜} {b : Block G} (hb : BlockTree rb.cb.t cb.cb.t b)
    (hr : CBVOk rb.cb) (hri : IdxOk ridx rb.cb.t a.rows) (hrf : FullBasis rb.cb) (hc : CBVOk cb.cb) (hci : IdxOk cidx cb.cb.t a.cols) (hcf : FullBasis cb.cb) :
    ∃ h, H2V.buildDense ridx cidx junk a b rb cb = .ok h ∧ h.rb = rb ∧ h.cb = cb ∧ H2VOk h ∧ H2VTiles h ∧ FormOf b h ∧ ProjectionOf (fun r c => a.e (ridx.v r) (cidx.v c)) h :=
  buildDense_tot hb ⟨rfl, hr, hri, hrf⟩ ⟨rfl, hc, hci, hcf⟩

/-- `project_hmatrix_h2matrix`: for an H-matrix of the same structure, the leaves become the projections of the matrix represented by the H-matrix. -/
theorem C60_project_h {junk : Nat → 𝕜} {h2 : H2V G 𝕜} {h : HV G 𝕜} (ho : H2VOk h2) (hv : HVOk h) (hm : HMatch h2 h)
    (hr : CBVOk h2.rb.cb) (hrk : VCounts h2.rb.cb) (hrs : CBVSons h2.rb.cb) (hc : CBVOk h2.cb.cb) (hck : VCounts h2.cb.cb) (hcs : CBVSons h2.cb.cb) :
    ∃ h', H2V.projectH junk h2 h = .ok h' ∧ SameForm h2 h' ∧ ProjectionOf (hval h) h' := by
  obtain ⟨h', e, p1, p2⟩ := projectH_tot (junk := junk) (A := hval h) ho hv hm ⟨hr, hrk, hrs⟩ ⟨hc, hck, hcs⟩ fun _ _ _ _ => rfl
  exact ⟨h', e, p2, p1⟩

/-- `build_projected_hmatrix_h2matrix`: for every H-matrix subdivided according to the cluster trees, a consistent H²-matrix of the same structure is built (low-rank leaves of rank zero
become leaves without content), and its leaves are the projections of the matrix represented by the H-matrix. -/
theorem C60_build_h {junk : Nat → 𝕜} {h : HV G 𝕜} (hv : HVOk h) (hs : HVSons h) {rb cb : BRef G 𝕜} (hrt : rb.cb.t = h.rc) (hct : cb.cb.t = h.cc)
    (hr : CBVOk rb.cb) (hrk : VCounts rb.cb) (hrs : CBVSons rb.cb) (hrf : FullBasis rb.cb) (hc : CBVOk cb.cb) (hck : VCounts cb.cb) (hcs : CBVSons cb.cb) (hcf : FullBasis cb.cb) :
    ∃ h', H2V.buildH junk h rb cb = .ok h' ∧ h'.rb = rb ∧ h'.cb = cb ∧ H2VOk h' ∧ H2VTiles h' ∧ HBuilt h h' ∧ ProjectionOf (hval h) h' :=
  buildH_tot hv hs ⟨hrt, ⟨hr, hrk, hrs⟩, hrf⟩ ⟨hct, ⟨hc, hck, hcs⟩, hcf⟩ fun _ _ _ _ => rfl

/-- The projection is the best approximation: with orthonormal bases, no consistent H²-matrix with the same bases and the same structure is closer to the matrix in the Frobenius norm. -/
theorem C60_best {A : Nat → Nat → 𝕜} {h : H2V G 𝕜} (ho : H2VOk h) (ht : H2VTiles h) (hr : CBVOk h.rb.cb) (hc : CBVOk h.cb.cb) (hrq : Orthonormal h.rb.cb) (hcq : Orthonormal h.cb.cb)
    (hp : ProjectionOf A h) {h' : H2V G 𝕜} (hf : SameForm h h') (ho' : H2VOk h') : errSq A h ≤ errSq A h' :=
  projection_best ho ht hr hc hrq hcq hp hf ho'

/-- Matrices that can be represented in the H²-matrix space are reproduced. -/
theorem C60_exact {A : Nat → Nat → 𝕜} {h : H2V G 𝕜} (ho : H2VOk h) (ht : H2VTiles h) (hr : CBVOk h.rb.cb) (hc : CBVOk h.cb.cb) (hrq : Orthonormal h.rb.cb) (hcq : Orthonormal h.cb.cb)
    (hp : ProjectionOf A h) {h0 : H2V G 𝕜} (hf : SameForm h h0) (ho0 : H2VOk h0) (hA : ∀ r c, In h.rb.cb.t r → In h.cb.cb.t c → A r c = h2vplace h0 r c) :
    ∀ r c, In h.rb.cb.t r → In h.cb.cb.t c → h2vplace h r c = A r c := by
  have h1 := projection_best ho ht hr hc hrq hcq hp hf ho0
  have h2 : errSq A h0 = 0 := by
    rw [errSq_zero, (sameForm_refs hf).1, (sameForm_refs hf).2]
    exact fun r c k1 k2 => (hA r c k1 k2).symm
  exact errSq_zero.mp (le_antisymm (h1.trans h2.le) (errSq_nonneg _ _))

/-! ### examples -/

/-- an index array for `bex` -/
def idxEx : Arr Nat := ⟨5, fun i => 4 - i⟩

theorem idxEx_ok : IdxOk idxEx (CRef.root bex) 5 := ⟨by decide, fun r hr => by unfold In at hr; have : (CRef.root bex).cl.size = 5 := rfl; show 4 - r < 5; omega⟩

/-- dense projection into the space of `h2vEx`, where the column basis has no sons -/
example : ∃ h', H2V.projectDense idxEx idxEx (fun _ => 7) (⟨5, 5, fun i j => i * i + j⟩ : VMat ℝ) h2vEx = .ok h' ∧ SameForm h2vEx h' := by
  have hz : NoZero h2vEx := fun i j => by fin_cases i <;> trivial
  have h3 : CBVOk cbvFlat := ⟨fun _ => ⟨rfl, rfl⟩, fun h => absurd h (by decide), fun i => i.elim0⟩
  obtain ⟨h', e, p, -⟩ := C60_project_dense (junk := fun _ => 7) (a := (⟨5, 5, fun i j => i * i + j⟩ : VMat ℝ)) h2vEx_ok hz cbvEx_ok idxEx_ok h3 idxEx_ok
  exact ⟨h', e, p⟩

theorem cbvEx_full : FullBasis cbvEx := by
  refine ⟨⟨rfl, fun i => ?_⟩, fun i => ?_⟩
  · fin_cases i <;> rfl
  · fin_cases i <;> exact ⟨⟨rfl, fun i => i.elim0⟩, fun i => i.elim0⟩

theorem cbvEx_comp : VCounts cbvEx ∧ CBVSons cbvEx := by
  refine ⟨⟨?_, ?_, fun i => ?_⟩, ⟨fun _ => ⟨by decide, fun i => by fin_cases i <;> rfl⟩, fun i => ?_⟩⟩
  · simp [vCoeffs, cbvSon, Fin.sum_univ_two]; rfl
  · simp [vBranch, cbvSon, Fin.univ_succ]; rfl
  · fin_cases i
    · exact ⟨by simp [vCoeffs]; rfl, by simp [vBranch]; rfl, fun i => i.elim0⟩
    · exact ⟨by simp [vCoeffs]; rfl, by simp [vBranch]; rfl, fun i => i.elim0⟩
  · fin_cases i <;> exact ⟨fun h => absurd h (by decide), fun i => i.elim0⟩

/-- an H-matrix with dense leaves, a leaf of rank one and a leaf of rank zero -/
def hvEx : HV Nat ℝ := .super (CRef.root bex) (CRef.root bex) 2 2 fun i j => match i, j with
  | 0, 0 => .full (bs 0) (bs 0) ⟨2, 2, fun i j => i + j⟩
  | 0, 1 => .rk (bs 0) (bs 1) ⟨⟨2, 1, fun i _ => i⟩, ⟨3, 1, fun i _ => i + 1⟩, 1⟩
  | 1, 0 => .rk (bs 1) (bs 0) ⟨⟨3, 0, fun _ _ => 0⟩, ⟨2, 0, fun _ _ => 0⟩, 0⟩
  | 1, 1 => .full (bs 1) (bs 1) ⟨3, 3, fun i j => i * j⟩

theorem hvEx_ok : HVOk hvEx ∧ HVSons hvEx := by
  constructor
  · refine ⟨by decide, by decide, ⟨bs, bs, fun i j => ?_, bs_seg, bs_seg⟩, fun i j => ?_⟩
    · fin_cases i <;> fin_cases j <;> exact ⟨rfl, rfl⟩
    · fin_cases i <;> fin_cases j
      · exact ⟨rfl, rfl⟩
      · exact ⟨⟨rfl, rfl⟩, rfl, rfl⟩
      · exact ⟨⟨rfl, rfl⟩, rfl, rfl⟩
      · exact ⟨rfl, rfl⟩
  · refine ⟨by decide, by decide, .inr ⟨rfl, fun i j => ?_⟩, .inr ⟨rfl, fun i j => ?_⟩, fun i j => ?_⟩
    · fin_cases i <;> fin_cases j <;> rfl
    · fin_cases i <;> fin_cases j <;> rfl
    · fin_cases i <;> fin_cases j <;> trivial

/-- construction of an H²-matrix for `hvEx` with the basis `cbvEx` for rows and columns -/
example : ∃ h', H2V.buildH (fun _ => 7) hvEx ⟨0, [], cbvEx⟩ ⟨0, [], cbvEx⟩ = .ok h' ∧ HBuilt hvEx h' ∧ ProjectionOf (hval hvEx) h' := by
  obtain ⟨h', e, -, -, -, -, p1, p2⟩ := C60_build_h (junk := fun _ => 7) hvEx_ok.1 hvEx_ok.2 (rb := ⟨0, [], cbvEx⟩) (cb := ⟨0, [], cbvEx⟩) rfl rfl
    cbvEx_ok cbvEx_comp.1 cbvEx_comp.2 cbvEx_full cbvEx_ok cbvEx_comp.1 cbvEx_comp.2 cbvEx_full
  exact ⟨h', e, p1, p2⟩

/-- construction of an H²-matrix for a dense matrix and the block tree of the standard strategy, where all blocks are inadmissible or all leaves are admissible -/
example (adm : Cluster Nat → Cluster Nat → Bool) : ∃ h, H2V.buildDense idxEx idxEx (fun _ => 7) (⟨5, 5, fun i j => i * i + j⟩ : VMat ℝ) (Block.buildNonstrict adm (CRef.root bex) (CRef.root bex)) ⟨0, [], cbvEx⟩ ⟨0, [], cbvEx⟩ = .ok h ∧
    FormOf (Block.buildNonstrict adm (CRef.root bex) (CRef.root bex)) h := by
  obtain ⟨h, e, -, -, -, -, p, -⟩ := C60_build_dense (junk := fun _ => 7) (a := (⟨5, 5, fun i j => i * i + j⟩ : VMat ℝ)) (rb := ⟨0, [], cbvEx⟩) (cb := ⟨0, [], cbvEx⟩)
    (nonstrict_blockTree adm _ _) cbvEx_ok idxEx_ok cbvEx_full cbvEx_ok idxEx_ok cbvEx_full
  exact ⟨h, e, p⟩

theorem cbvUnit_ok : CBVOk cbvUnit ∧ Orthonormal cbvUnit := by
  refine ⟨⟨fun _ => ⟨rfl, rfl⟩, fun h => absurd h (by decide), fun i => i.elim0⟩, fun a ha b hb => ?_, fun i => i.elim0⟩
  have hs : (CRef.root bex).cl.size = 5 := rfl
  show ∑ i ∈ Finset.range (CRef.root bex).cl.size, star (vbasis cbvUnit ((CRef.root bex).cl.off + i) a) * vbasis cbvUnit ((CRef.root bex).cl.off + i) b = _
  rw [hs, Finset.sum_congr rfl fun i hi => by rw [cbvUnit_e i (Finset.mem_range.mp hi), cbvUnit_e i (Finset.mem_range.mp hi)]]
  rw [if_pos (show a = b by omega)]
  simp

/-- orthonormal bases, to which C60_best and C60_exact apply: the projection of a 5 × 5 matrix onto the span of one unit vector -/
example (a : VMat ℝ) (h1 : a.rows = 5) (h2 : a.cols = 5) : ∃ h, H2V.projectDense idxEx idxEx (fun _ => 7) a (.uni ⟨0, [], cbvUnit⟩ ⟨0, [], cbvUnit⟩ ⟨1, 1, fun _ _ => 3⟩) = .ok h ∧
    ∀ Z : VMat ℝ, Z.rows = 1 → Z.cols = 1 → errSq (fun r c => a.e (4 - r) (4 - c)) h ≤ errSq (fun r c => a.e (4 - r) (4 - c)) (.uni ⟨0, [], cbvUnit⟩ ⟨0, [], cbvUnit⟩ Z) := by
  have hi : IdxOk idxEx (CRef.root bex) a.rows := by rw [h1]; exact idxEx_ok
  have hj : IdxOk idxEx (CRef.root bex) a.cols := by rw [h2]; exact idxEx_ok
  obtain ⟨h, e, p1, p2⟩ := C60_project_dense (junk := fun _ => 7) (a := a) (h := .uni ⟨0, [], cbvUnit⟩ ⟨0, [], cbvUnit⟩ ⟨1, 1, fun _ _ => 3⟩) ⟨rfl, rfl⟩ trivial
    cbvUnit_ok.1 hi cbvUnit_ok.1 hj
  obtain ⟨S, rfl⟩ := p1
  exact ⟨_, e, fun Z z1 z2 => C60_best (h := .uni ⟨0, [], cbvUnit⟩ ⟨0, [], cbvUnit⟩ S) (h' := .uni ⟨0, [], cbvUnit⟩ ⟨0, [], cbvUnit⟩ Z) ⟨p2.1, p2.2.1⟩ trivial cbvUnit_ok.1 cbvUnit_ok.1 cbvUnit_ok.2 cbvUnit_ok.2 p2 ⟨Z, rfl⟩ ⟨z1, z2⟩⟩

end H2.Props
