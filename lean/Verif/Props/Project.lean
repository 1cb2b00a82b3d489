import Verif.Proof.Project
import Verif.Proof.Project2
import Verif.Props.Ortho

/-!
# C59: projection of uniform matrices and H²-matrices into other cluster bases

`vbasis b` is the matrix `V_t` of a nested basis (Spec/Ortho.lean), `h2vplace h` the matrix represented by `h` (Spec/Project.lean).  Bases are
references `BRef`, so that the functions can compare pointers; `𝕜` is `ℝ` or `ℂ`.
-/

set_option linter.unusedSectionVars false

namespace H2.Props
open Spec
variable {G 𝕜 : Type} [RCLike 𝕜]

/-- `add_projected_uniform`: for all combinations of equal and different bases, `T_r S T_c^*` is added to the coupling matrix, `T_r` and `T_c` being the matrices of the operators
(the identity for a basis that is not changed). -/
theorem C59_uniform_add {rb cb : BRef G 𝕜} {S : VMat 𝕜} {ro co : Option (COp G 𝕜)} {rb' cb' : BRef G 𝕜} {S' : VMat 𝕜} (hr : BChange rb rb' ro) (hc : BChange cb cb' co)
    (h1 : S.rows = rb.cb.k) (h2 : S.cols = cb.cb.k) (h3 : S'.rows = rb'.cb.k) (h4 : S'.cols = cb'.cb.k) :
    ∃ Y, addProjected rb cb S ro co rb' cb' S' = .ok Y ∧ Y.rows = rb'.cb.k ∧ Y.cols = cb'.cb.k ∧ ∀ a < rb'.cb.k, ∀ b < cb'.cb.k,
      Y.e a b = S'.e a b + ∑ i ∈ Finset.range rb.cb.k, ∑ j ∈ Finset.range cb.cb.k, chg rb rb' ro a i * S.e i j * star (chg cb cb' co b j) :=
  addProjected_tot hr hc h1 h2 h3 h4

/-- `project_inplace_uniform`: afterwards the uniform matrix uses the new bases and the coupling matrix `T_r S T_c^*`. -/
theorem C59_uniform_inplace {rb cb : BRef G 𝕜} {S : VMat 𝕜} {ro co : Option (COp G 𝕜)} {rb' cb' : BRef G 𝕜} (hr : BChange rb rb' ro) (hc : BChange cb cb' co)
    (h1 : S.rows = rb.cb.k) (h2 : S.cols = cb.cb.k) :
    ∃ Y, projectInplace rb cb S rb' ro cb' co = .ok (rb', cb', Y) ∧ Y.rows = rb'.cb.k ∧ Y.cols = cb'.cb.k ∧ ∀ a < rb'.cb.k, ∀ b < cb'.cb.k,
      Y.e a b = ∑ i ∈ Finset.range rb.cb.k, ∑ j ∈ Finset.range cb.cb.k, chg rb rb' ro a i * S.e i j * star (chg cb cb' co b j) := by
  obtain ⟨⟨a, b, Y⟩, h, h3, h4, h5, h6, h7⟩ := projectInplace_tot hr hc h1 h2
  replace h3 : a = rb' := h3
  replace h4 : b = cb' := h4
  subst h3; subst h4
  exact ⟨Y, h, h5, h6, h7⟩

/-- If the old basis is contained in the new one and the operator describes the change, both functions preserve the matrix. -/
theorem C59_uniform_exact {rb cb : BRef G 𝕜} {S : VMat 𝕜} {ro co : Option (COp G 𝕜)} {rb' cb' : BRef G 𝕜} (hr : BChange rb rb' ro) (hc : BChange cb cb' co)
    (h1 : S.rows = rb.cb.k) (h2 : S.cols = cb.cb.k) (hr' : SpansOld rb rb' ro) (hc' : SpansOld cb cb' co) :
    ∃ Y, projectInplace rb cb S rb' ro cb' co = .ok (rb', cb', Y) ∧ ∀ r c, h2vplace (.uni rb' cb' Y) r c = h2vplace (.uni rb cb S) r c := by
  obtain ⟨Y, h, -, -, h3⟩ := C59_uniform_inplace hr hc h1 h2
  exact ⟨Y, h, fun r c => uni_place hr' hc' h3 r c⟩

/-- `build_projected_h2matrix`: for every consistent H²-matrix, new bases and operators the function succeeds; the result is a consistent H²-matrix with the new bases,
the same block structure and the same dense matrices, and the coupling matrices are replaced by `T_r S T_c^*`. -/
theorem C59_build {h : H2V G 𝕜} (ho : H2VOk h) {rb cb : BRef G 𝕜} {ro co : Option (COp G 𝕜)} (hr : BChange h.rb rb ro) (hc : BChange h.cb cb co) :
    ∃ h', H2V.buildProjected h rb ro cb co = .ok h' ∧ H2VOk h' ∧ h'.rb = rb ∧ h'.cb = cb ∧ ProjectedTo h rb ro cb co h' := by
  obtain ⟨h', e, p⟩ := buildProjected_tot ho hr hc
  obtain ⟨p1, p2, p3⟩ := projected_ok ho hr hc p
  exact ⟨h', e, p1, p2, p3, p⟩

/-- If the old bases are contained in the new ones, the represented matrix does not change. -/
theorem C59_exact {h : H2V G 𝕜} (ho : H2VOk h) {rb cb : BRef G 𝕜} {ro co : Option (COp G 𝕜)} (hr : BChange h.rb rb ro) (hc : BChange h.cb cb co)
    (hr' : SpansOld h.rb rb ro) (hc' : SpansOld h.cb cb co) :
    ∃ h', H2V.buildProjected h rb ro cb co = .ok h' ∧ h'.rb = rb ∧ h'.cb = cb ∧ ∀ r c, h2vplace h' r c = h2vplace h r c := by
  obtain ⟨h', e, _, p2, p3, p⟩ := C59_build ho hr hc
  exact ⟨h', e, p2, p3, projected_place ho hr.t hc.t hr hc hr' hc' p⟩

/-- Orthogonalizing both bases with `ortho_clusterbasis` and switching to the new bases by `build_projected_h2matrix` (as `compress` functions do) does not change the matrix:
exact arithmetic, exact zero test and sign function; `rt` and `ct` are the numbers of the trees of the new bases. -/
theorem C59_ortho {q : QrEnv 𝕜} (hs : SignFn 0 q.sgn) (ht : q.tiny = 0) {h : H2V G 𝕜} (ho : H2VOk h) (h1 : CBVOk h.rb.cb) (h2 : CBVOk h.cb.cb)
    (h1' : h.rb.cb.E.rows = h.rb.cb.k) (h2' : h.cb.cb.E.rows = h.cb.cb.k) {ro co : COp G 𝕜} (hro : OpTree ro h.rb.cb) (hco : OpTree co h.cb.cb)
    {rt ct : Nat} (hrt : h.rb.tree ≠ rt) (hct : h.cb.tree ≠ ct) :
    ∃ rb cb ro' co' h', CBV.ortho q h.rb.cb (some ro) = .ok (rb, some ro') ∧ CBV.ortho q h.cb.cb (some co) = .ok (cb, some co') ∧ Orthonormal rb ∧ Orthonormal cb ∧
      H2V.buildProjected h ⟨rt, [], rb⟩ (some ro') ⟨ct, [], cb⟩ (some co') = .ok h' ∧ ∀ r c, h2vplace h' r c = h2vplace h r c := by
  have key : ∀ {b : BRef G 𝕜} (_ : CBVOk b.cb) (_ : b.cb.E.rows = b.cb.k) {o : COp G 𝕜} (_ : OpTree o b.cb) {n : Nat} (_ : b.tree ≠ n),
      ∃ b' o', CBV.ortho q b.cb (some o) = .ok (b', some o') ∧ Orthonormal b' ∧ BChange b ⟨n, [], b'⟩ (some o') ∧ SpansOld b ⟨n, [], b'⟩ (some o') := by
    intro b k1 k2 o k3 n k4
    obtain ⟨b1, o1, e1, -, e2, e3, -⟩ := C58_ortho hs ht.ge k1 k2 (old2new := some o) (fun _ h => by cases h; exact k3)
    obtain ⟨b2, o2, x, e4, e5, e6, -⟩ := C58_ortho_exact hs ht k1 k2 (old2new := some o) (fun _ h => by cases h; exact k3)
    have e7 : (b1, o1) = (b2, o2) := Except.ok.inj (e1.symm.trans e4)
    have e8 : b1 = b2 := congrArg Prod.fst e7
    have e9 := e6 o rfl
    subst e8
    rw [e9] at e4
    exact ⟨b1, x, e4, e2, .inr ⟨k4, x, rfl, opDims_of e3 e5⟩, .inr ⟨x, rfl, k4, e5⟩⟩
  obtain ⟨rb, ro', a1, a2, a3, a4⟩ := key h1 h1' hro hrt
  obtain ⟨cb, co', b1, b2, b3, b4⟩ := key h2 h2' hco hct
  obtain ⟨h', e, -, -, p⟩ := C59_exact ho a3 b3 a4 b4
  exact ⟨rb, cb, ro', co', h', a1, b1, a2, b2, e, p⟩

/-- With orthonormal new bases and the products `V'^* V`, `W'^* W` computed by `basisproduct_clusteroperator` as operators, every leaf is replaced by its
best approximation in the Frobenius norm: no other coupling matrix for the new bases leads to a smaller error. -/
theorem C59_best {rb cb : BRef G 𝕜} {S : VMat 𝕜} {ro co : COp G 𝕜} {rb' cb' : BRef G 𝕜} (ht : rb'.cb.t = rb.cb.t) (ht' : cb'.cb.t = cb.cb.t)
    (hro : OpDims rb.cb rb'.cb ro) (hco : OpDims cb.cb cb'.cb co) (hr : rb.tree ≠ rb'.tree) (hc : cb.tree ≠ cb'.tree)
    (hp : Products rb'.cb rb.cb ro) (hp' : Products cb'.cb cb.cb co) (hq : Orthonormal rb'.cb) (hq' : Orthonormal cb'.cb)
    (h1 : S.rows = rb.cb.k) (h2 : S.cols = cb.cb.k) :
    ∃ Y, projectInplace rb cb S rb' (some ro) cb' (some co) = .ok (rb', cb', Y) ∧ ∀ Z : VMat 𝕜,
      ∑ i ∈ Finset.range rb.cb.t.cl.size, ∑ j ∈ Finset.range cb.cb.t.cl.size,
        ‖h2vplace (.uni rb cb S) (rb.cb.t.cl.off + i) (cb.cb.t.cl.off + j) - h2vplace (.uni rb' cb' Y) (rb.cb.t.cl.off + i) (cb.cb.t.cl.off + j)‖ ^ 2 ≤
      ∑ i ∈ Finset.range rb.cb.t.cl.size, ∑ j ∈ Finset.range cb.cb.t.cl.size,
        ‖h2vplace (.uni rb cb S) (rb.cb.t.cl.off + i) (cb.cb.t.cl.off + j) - h2vplace (.uni rb' cb' Z) (rb.cb.t.cl.off + i) (cb.cb.t.cl.off + j)‖ ^ 2 := by
  obtain ⟨Y, h, -, -, h3⟩ := C59_uniform_inplace (.inr ⟨hr, ro, rfl, hro⟩) (.inr ⟨hc, co, rfl, hco⟩) h1 h2
  refine ⟨Y, h, fun Z => ?_⟩
  refine best_frob (V := fun i a => vbasis rb'.cb (rb.cb.t.cl.off + i) a) (W := fun j b => vbasis cb'.cb (cb.cb.t.cl.off + j) b) (S := Y.e) (X := Z.e)
    (fun a ha b hb => ?_) (fun a ha b hb => ?_) (fun a ha b hb => ?_)
  · have := orthonormal_top hq a ha b hb
    unfold cross at this
    rw [ht] at this
    exact this
  · have := orthonormal_top hq' a ha b hb
    unfold cross at this
    rw [ht'] at this
    exact this
  · rw [h3 a ha b hb]
    have e1 : ∀ i < rb.cb.k, chg rb rb' (some ro) a i = ∑ r ∈ Finset.range rb.cb.t.cl.size, star (vbasis rb'.cb (rb.cb.t.cl.off + r) a) * vbasis rb.cb (rb.cb.t.cl.off + r) i := by
      intro i hi
      rw [chg_ne hr, products_top hp a ha i hi]
      unfold cross
      rw [ht]
    have e2 : ∀ j < cb.cb.k, chg cb cb' (some co) b j = ∑ r ∈ Finset.range cb.cb.t.cl.size, star (vbasis cb'.cb (cb.cb.t.cl.off + r) b) * vbasis cb.cb (cb.cb.t.cl.off + r) j := by
      intro j hj
      rw [chg_ne hc, products_top hp' b hb j hj]
      unfold cross
      rw [ht']
    refine (Finset.sum_congr rfl fun i hi => Finset.sum_congr rfl fun j hj => by
      rw [e1 i (Finset.mem_range.mp hi), e2 j (Finset.mem_range.mp hj)]).trans ?_
    exact project_entry _ _ _ _ _ _ _ _ _

/-! ### examples -/

/-- a block with two row sons (uniform and dense) using `cbvEx` for the rows and `cbvFlat` for the columns -/
def h2vEx : H2V Nat ℝ := .super ⟨0, [], cbvEx⟩ ⟨1, [], cbvFlat⟩ 2 1 fun i _ => match i with
  | 0 => .uni ⟨0, [0], cbvSon 0⟩ ⟨1, [], cbvFlat⟩ ⟨2, 2, fun i j => 1 + i + j⟩
  | 1 => .full ⟨0, [1], cbvSon 1⟩ ⟨1, [], cbvFlat⟩ ⟨3, 5, fun i j => i * j⟩

theorem h2vEx_ok : H2VOk h2vEx := by
  refine ⟨by decide, by decide, ⟨fun i => ⟨0, [i.1], cbvSon i⟩, fun _ => ⟨1, [], cbvFlat⟩, fun i j => ?_, .inr ⟨rfl, fun i => rfl⟩, .inl fun _ => rfl⟩, fun i j => ?_⟩
  · fin_cases i <;> exact ⟨rfl, rfl⟩
  · fin_cases i <;> exact ⟨rfl, rfl⟩

/-- the hypotheses of C59_ortho and therefore of the other theorems hold for `h2vEx`: the row basis has sons, the column basis does not -/
example : ∃ rb cb ro' co' h', CBV.ortho qrEx cbvEx (some coEx) = .ok (rb, some ro') ∧ CBV.ortho qrEx cbvFlat (some coFlat) = .ok (cb, some co') ∧ Orthonormal rb ∧ Orthonormal cb ∧
    H2V.buildProjected h2vEx ⟨2, [], rb⟩ (some ro') ⟨3, [], cb⟩ (some co') = .ok h' ∧ ∀ r c, h2vplace h' r c = h2vplace h2vEx r c := by
  have h1 : OpTree coEx cbvEx := ⟨rfl, fun i => by fin_cases i <;> exact ⟨rfl, fun i => i.elim0⟩⟩
  have h2 : OpTree coFlat cbvFlat := ⟨rfl, fun i => i.elim0⟩
  have h3 : CBVOk cbvFlat := ⟨fun _ => ⟨rfl, rfl⟩, fun h => absurd h (by decide), fun i => i.elim0⟩
  exact C59_ortho (h := h2vEx) C56_sign_real rfl h2vEx_ok cbvEx_ok h3 rfl rfl h1 h2 (rt := 2) (ct := 3) (by decide) (by decide)

/-- an orthonormal basis of rank 1 for the same cluster as `cbvFlat`, and the product with `cbvFlat` -/
def cbvUnit : CBV Nat ℝ := .mk (CRef.root bex) 1 6 6 ⟨5, 1, fun i _ => if i = 2 then 1 else 0⟩ ⟨1, 0, fun _ _ => 0⟩ 0 (fun i => i.elim0)
def coUnit : COp Nat ℝ := .mk (CRef.root bex) 1 2 ⟨1, 2, fun _ j => 2 * j⟩ 0 (fun i => i.elim0)

theorem cbvUnit_e (i : Nat) (hi : i < 5) (l : Nat) : vbasis cbvUnit ((CRef.root bex).cl.off + i) l = if i = 2 then 1 else 0 := by
  have h1 : (CRef.root bex).cl.off = 0 := rfl
  have h2 : (CRef.root bex).cl.size = 5 := rfl
  simp only [cbvUnit, vbasis, if_true, In, h1, h2]
  rw [if_pos (by omega)]
  simp
theorem cbvFlat_e (i : Nat) (hi : i < 5) (l : Nat) : vbasis cbvFlat ((CRef.root bex).cl.off + i) l = i * l := by
  have h1 : (CRef.root bex).cl.off = 0 := rfl
  have h2 : (CRef.root bex).cl.size = 5 := rfl
  simp only [cbvFlat, vbasis, if_true, In, h1, h2]
  rw [if_pos (by omega)]
  simp

/-- the hypotheses of C59_best hold for this case, where the projection loses information -/
example : ∃ Y, projectInplace (⟨0, [], cbvFlat⟩ : BRef Nat ℝ) ⟨0, [], cbvFlat⟩ ⟨2, 2, fun i j => 1 + i + j⟩ ⟨1, [], cbvUnit⟩ (some coUnit) ⟨1, [], cbvUnit⟩ (some coUnit) = .ok (⟨1, [], cbvUnit⟩, ⟨1, [], cbvUnit⟩, Y) := by
  have hd : OpDims cbvFlat cbvUnit coUnit := ⟨rfl, rfl, rfl, rfl, rfl, rfl, rfl, fun i => i.elim0⟩
  have hs : (CRef.root bex).cl.size = 5 := rfl
  have hp : Products cbvUnit cbvFlat coUnit := by
    refine ⟨rfl, rfl, rfl, rfl, fun a ha b hb => ?_, fun i => i.elim0⟩
    show _ = ∑ i ∈ Finset.range (CRef.root bex).cl.size, star (vbasis cbvUnit ((CRef.root bex).cl.off + i) a) * vbasis cbvFlat ((CRef.root bex).cl.off + i) b
    rw [hs, Finset.sum_congr rfl fun i hi => by rw [cbvUnit_e i (Finset.mem_range.mp hi), cbvFlat_e i (Finset.mem_range.mp hi)]]
    simp
  have hq : Orthonormal cbvUnit := by
    refine ⟨fun a ha b hb => ?_, fun i => i.elim0⟩
    show ∑ i ∈ Finset.range (CRef.root bex).cl.size, star (vbasis cbvUnit ((CRef.root bex).cl.off + i) a) * vbasis cbvUnit ((CRef.root bex).cl.off + i) b = _
    rw [hs, Finset.sum_congr rfl fun i hi => by rw [cbvUnit_e i (Finset.mem_range.mp hi), cbvUnit_e i (Finset.mem_range.mp hi)]]
    rw [if_pos (show a = b by omega)]
    simp
  obtain ⟨Y, h, -⟩ := C59_best (rb := ⟨0, [], cbvFlat⟩) (cb := ⟨0, [], cbvFlat⟩) (rb' := ⟨1, [], cbvUnit⟩) (cb' := ⟨1, [], cbvUnit⟩) (S := ⟨2, 2, fun i j => 1 + i + j⟩)
    rfl rfl hd hd (by decide) (by decide) hp hp hq hq rfl rfl
  exact ⟨Y, h⟩

end H2.Props
