import Verif.Proof.Ortho5
import Verif.Props.ClusterBasis

/-!
# C58: orthogonalization of cluster bases, weights, products of cluster bases

The matrices `V_t` of a nested cluster basis are given by `vbasis` (Spec/Ortho.lean): the stored matrix for a leaf, the blocks `V_{t'} E_{t'}` for the sons `t'`
of other clusters.  `𝕜` is `ℝ` or `ℂ`; `q.tiny` is `H2_ALMOST_ZERO`, `q.sgn` the function `SIGN1`, `q.junk` the content of new memory.
-/

set_option linter.unusedSectionVars false

namespace H2.Props
open Spec Dense
variable {G 𝕜 : Type} [RCLike 𝕜]

/-- `ortho_clusterbasis`, with or without a cluster operator: for every nested basis the function succeeds, and the new basis is a nested basis for the same
cluster tree with matching dimensions, all its matrices are orthonormal, no rank has become larger, no rank exceeds the size of the cluster, and the counters
`ktree` and `kbranch` are correct. -/
theorem C58_ortho {q : QrEnv 𝕜} {e : ℝ} (hs : SignFn e q.sgn) (ht : 0 ≤ q.tiny) {cb : CBV G 𝕜} (ho : CBVOk cb) (hE : cb.E.rows = cb.k) {old2new : Option (COp G 𝕜)}
    (hc : ∀ o, old2new = some o → OpTree o cb) :
    ∃ cb' co', CBV.ortho q cb old2new = .ok (cb', co') ∧ CBVOk cb' ∧ Orthonormal cb' ∧ Reduced cb cb' ∧ VCounts cb' ∧ cb'.E.rows = cb'.k ∧ cb'.E.cols = cb.E.cols ∧
      (co' = none ↔ old2new = none) := by
  obtain ⟨⟨cb', co'⟩, h, p⟩ := ortho_tot hs ht ho hE (given := old2new) hc
  obtain ⟨co, h1, h2, h3, h4, h5, h6⟩ := p.op
  refine ⟨cb', co', h, p.ok, p.orth, p.red, p.counts, p.erows, p.ecols, fun hn => ?_, h5⟩
  cases e : old2new with
  | none => rfl
  | some o =>
    have h7 : co' = some co := h6 o e
    rw [h7] at hn; cases hn

/-- With an exact zero test and an exact sign function, the new basis spans the old one: `V_t = V'_t C_t` for all clusters, the transfer matrix of the root
is replaced by `C E`, and if a cluster operator is given, it is filled with the matrices `C_t`. -/
theorem C58_ortho_exact {q : QrEnv 𝕜} (hs : SignFn 0 q.sgn) (ht : q.tiny = 0) {cb : CBV G 𝕜} (ho : CBVOk cb) (hE : cb.E.rows = cb.k) {old2new : Option (COp G 𝕜)}
    (hc : ∀ o, old2new = some o → OpTree o cb) :
    ∃ cb' co' co, CBV.ortho q cb old2new = .ok (cb', co') ∧ Changes cb cb' co ∧ (∀ o, old2new = some o → co' = some co) ∧
      ∀ i < cb'.k, ∀ j < cb.E.cols, cb'.E.e i j = ∑ l ∈ Finset.range cb.k, co.C.e i l * cb.E.e l j := by
  obtain ⟨⟨cb', co'⟩, h, p⟩ := ortho_tot hs ht.ge ho hE (given := old2new) hc
  obtain ⟨co, h1, h2, h3, h4, h5, h6⟩ := p.op
  exact ⟨cb', co', co, h, h4 (by rw [ht, max_self]), h6, h3⟩

/-- `weight_clusterbasis_clusteroperator`: for every nested basis and every operator with the same tree the function succeeds, the matrices of the result have at most
as many rows as the cluster has indices or the basis has columns, … -/
theorem C58_weight_dims {q : QrEnv 𝕜} {e : ℝ} (hs : SignFn e q.sgn) (ht : 0 ≤ q.tiny) {cb : CBV G 𝕜} (ho : CBVOk cb) {co : COp G 𝕜} (hc : OpTree co cb) :
    ∃ co', CBV.weight q cb co = .ok co' ∧ OpTree co' cb ∧ co'.C.rows = co'.krow ∧ co'.C.cols = cb.k ∧ co'.kcol = cb.k ∧ co'.krow ≤ cb.k ∧ co'.krow ≤ cb.t.cl.size := by
  obtain ⟨co', h, p⟩ := weight_tot hs ht ho hc
  exact ⟨co', h, p.tree, p.crows, p.ccols, p.kcol, p.krow, p.size⟩

/-- … and with an exact zero test and sign function they are weights: `C_t^* C_t = V_t^* V_t`. -/
theorem C58_weight {q : QrEnv 𝕜} (hs : SignFn 0 q.sgn) (ht : q.tiny = 0) {cb : CBV G 𝕜} (ho : CBVOk cb) {co : COp G 𝕜} (hc : OpTree co cb) :
    ∃ co', CBV.weight q cb co = .ok co' ∧ Weights cb co' := by
  obtain ⟨co', h, p⟩ := weight_tot hs ht.ge ho hc
  exact ⟨co', h, p.w (by rw [ht, max_self])⟩

/-- Weights preserve norms: `‖C_t x‖ = ‖V_t x‖`. -/
theorem C58_weight_norm {cb : CBV G 𝕜} {co : COp G 𝕜} (h : Weights cb co) (x : Nat → 𝕜) :
    ∑ i ∈ Finset.range co.krow, ‖∑ l ∈ Finset.range cb.k, co.C.e i l * x l‖ ^ 2 =
      ∑ i ∈ Finset.range cb.t.cl.size, ‖∑ l ∈ Finset.range cb.k, vbasis cb (cb.t.cl.off + i) l * x l‖ ^ 2 := by
  have key : ∀ (n : Nat) (F : Nat → Nat → 𝕜), ((∑ i ∈ Finset.range n, ‖∑ l ∈ Finset.range cb.k, F i l * x l‖ ^ 2 : ℝ) : 𝕜) =
      ∑ a ∈ Finset.range cb.k, ∑ b ∈ Finset.range cb.k, star (x a) * (∑ i ∈ Finset.range n, star (F i a) * F i b) * x b := by
    intro n F
    push_cast
    rw [Finset.sum_congr rfl fun i _ => by rw [← RCLike.conj_mul, ← RCLike.star_def, star_sum, Finset.sum_mul_sum]]
    rw [Finset.sum_comm]
    refine Finset.sum_congr rfl fun a _ => ?_
    rw [Finset.sum_comm]
    refine Finset.sum_congr rfl fun b _ => ?_
    rw [Finset.mul_sum, Finset.sum_mul]
    refine Finset.sum_congr rfl fun i _ => ?_
    rw [star_mul']
    ring
  apply RCLike.ofReal_injective (K := 𝕜)
  rw [key, key]
  refine Finset.sum_congr rfl fun a ha => Finset.sum_congr rfl fun b hb => ?_
  rw [h.gram a (Finset.mem_range.mp ha) b (Finset.mem_range.mp hb)]
  rfl

/-- `check_ortho_clusterbasis` returns the largest deviation: the result is at most `eps` if and only if for all clusters the matrix formed by the transfer matrices
of the sons, or the leaf matrix, is orthonormal up to `eps` in the Frobenius norm, … -/
theorem C58_check {cb : CBV G 𝕜} (ho : CBVOk cb) : ∃ v, CBV.checkOrtho cb = .ok v ∧ 0 ≤ v ∧ ∀ eps, 0 ≤ eps → (v ≤ eps ↔ LocalDev eps cb) :=
  checkOrtho_tot ho

/-- … and zero if and only if all matrices `V_t` are orthonormal, … -/
theorem C58_check_zero {cb : CBV G 𝕜} (ho : CBVOk cb) : ∃ v, CBV.checkOrtho cb = .ok v ∧ (v = 0 ↔ Orthonormal cb) := by
  obtain ⟨v, h, h0, h1⟩ := checkOrtho_tot ho
  refine ⟨v, h, ?_⟩
  rw [← localDev_ortho ho, ← h1 0 le_rfl]
  exact ⟨fun h => h.le, fun h => le_antisymm h h0⟩

/-- … thus zero after orthogonalization. -/
theorem C58_ortho_check {q : QrEnv 𝕜} {e : ℝ} (hs : SignFn e q.sgn) (ht : 0 ≤ q.tiny) {cb : CBV G 𝕜} (ho : CBVOk cb) (hE : cb.E.rows = cb.k) :
    ∃ cb', CBV.ortho q cb none = .ok (cb', none) ∧ CBV.checkOrtho cb' = .ok 0 := by
  obtain ⟨cb', co', h1, h2, h3, -, -, -, -, h4⟩ := C58_ortho hs ht ho hE (old2new := none) (fun _ h => by cases h)
  obtain ⟨v, h5, h6⟩ := C58_check_zero h2
  refine ⟨cb', by rw [h1, h4.mpr rfl], ?_⟩
  rw [h5, h6.mpr h3]

/-- `compress_clusterbasis_amatrix` computes `V_t^* X` for the root cluster. -/
theorem C58_compress {cb : CBV G 𝕜} (ho : CBVOk cb) (hk : VCounts cb) (hs : CBVSons cb) {Xp Xt : VMat 𝕜} (h1 : Xp.rows = cb.t.cl.size) (h2 : cb.kbranch ≤ Xt.rows) (h3 : Xp.cols = Xt.cols) :
    ∃ X, CBV.compress cb Xp Xt = .ok X ∧ X.rows = Xt.rows ∧ X.cols = Xt.cols ∧
      ∀ a < cb.k, ∀ l < Xt.cols, X.e a l = ∑ r ∈ Finset.range cb.t.cl.size, star (vbasis cb (cb.t.cl.off + r) a) * Xp.e r l :=
  compress_tot ho hk hs h1 h2 h3

/-- `basisproduct_clusteroperator` computes `V_t^* W_t` for all clusters of the tree of the operator, also if one of the trees ends before the other. -/
theorem C58_basisproduct {junk : Nat → 𝕜} {cb : CBV G 𝕜} (ho : CBVOk cb) (hk : VCounts cb) (hs : CBVSons cb) {cb' : CBV G 𝕜} (ho' : CBVOk cb') (hk' : VCounts cb') (hs' : CBVSons cb')
    {pr : COp G 𝕜} (hp : ProdTree cb cb' pr) : ∃ pr', CBV.basisproduct junk cb cb' pr = .ok pr' ∧ Products cb cb' pr' :=
  basisproduct_tot ho hk hs ho' hk' hs' hp

/-! ### examples -/

/-- leaves of ranks 2 and 1 -/
def cbvSon : Fin 2 → CBV Nat ℝ
  | 0 => .mk (bs 0) 2 4 4 ⟨2, 2, fun i j => i + 2 * j⟩ ⟨2, 3, fun i j => if i = j then 1 else 0⟩ 0 (fun i => i.elim0)
  | 1 => .mk (bs 1) 1 4 4 ⟨3, 1, fun i _ => i⟩ ⟨1, 3, fun _ j => j⟩ 0 (fun i => i.elim0)
/-- a nested basis of rank 3 over `bex` -/
def cbvEx : CBV Nat ℝ := .mk (CRef.root bex) 3 11 7 ⟨0, 0, fun _ _ => 0⟩ ⟨3, 1, fun i _ => i⟩ 2 cbvSon
/-- a basis without sons -/
def cbvFlat : CBV Nat ℝ := .mk (CRef.root bex) 2 7 7 ⟨5, 2, fun i j => i * j⟩ ⟨2, 0, fun _ _ => 0⟩ 0 (fun i => i.elim0)
/-- an operator for the tree -/
def coEx : COp Nat ℝ := .mk (CRef.root bex) 0 0 ⟨0, 0, fun _ _ => 0⟩ 2 (fun i => .mk (bs i) 0 0 ⟨0, 0, fun _ _ => 0⟩ 0 (fun i => i.elim0))
/-- an operator without sons -/
def coFlat : COp Nat ℝ := .mk (CRef.root bex) 0 0 ⟨0, 0, fun _ _ => 0⟩ 0 (fun i => i.elim0)
noncomputable def qrEx : QrEnv ℝ := ⟨sgnReal, 0, fun _ => 7⟩

theorem cbvEx_ok : CBVOk cbvEx := by
  refine ⟨fun h => absurd h (by decide), fun _ => ?_, fun i => ?_⟩
  · convert bs_seg using 1
    funext i; fin_cases i <;> rfl
  · fin_cases i
    · exact ⟨rfl, rfl, fun _ => ⟨rfl, rfl⟩, fun h => absurd h (by decide), fun i => i.elim0⟩
    · exact ⟨rfl, rfl, fun _ => ⟨rfl, rfl⟩, fun h => absurd h (by decide), fun i => i.elim0⟩

/-- the hypotheses hold for a basis with two leaves of ranks 2 and 1, where the rank 3 of the root is the largest possible one -/
example : SignFn 0 qrEx.sgn ∧ qrEx.tiny = 0 ∧ CBVOk cbvEx ∧ cbvEx.E.rows = cbvEx.k ∧ OpTree coEx cbvEx ∧ VCounts cbvEx ∧ CBVSons cbvEx ∧ ProdTree cbvEx cbvEx coEx ∧
    CBVOk cbvFlat ∧ VCounts cbvFlat ∧ CBVSons cbvFlat ∧ ProdTree cbvEx cbvFlat coFlat ∧ ProdTree cbvFlat cbvEx coFlat ∧ cbvEx.t.cl.size = 5 := by
  refine ⟨C56_sign_real, rfl, cbvEx_ok, rfl, ⟨rfl, fun i => ?_⟩, ⟨?_, ?_, fun i => ?_⟩, ⟨fun _ => ⟨by decide, fun i => by fin_cases i <;> rfl⟩, fun i => ?_⟩,
    ⟨rfl, rfl, fun h => absurd h (by decide), fun _ => ⟨rfl, rfl⟩, fun i => ⟨i.2, i.2, ?_⟩⟩, ?_, ?_, ?_, ?_, ?_, rfl⟩
  · fin_cases i <;> exact ⟨rfl, fun i => i.elim0⟩
  · simp [vCoeffs, cbvSon, Fin.sum_univ_two]; rfl
  · simp [vBranch, cbvSon, Fin.univ_succ]; rfl
  · fin_cases i
    · exact ⟨by simp [vCoeffs]; rfl, by simp [vBranch]; rfl, fun i => i.elim0⟩
    · exact ⟨by simp [vCoeffs]; rfl, by simp [vBranch]; rfl, fun i => i.elim0⟩
  · fin_cases i <;> exact ⟨fun h => absurd h (by decide), fun i => i.elim0⟩
  · fin_cases i <;> exact ⟨rfl, rfl, fun _ => .inl rfl, fun h => absurd h (by decide), fun i => i.elim0⟩
  · exact ⟨fun _ => ⟨rfl, rfl⟩, fun h => absurd h (by decide), fun i => i.elim0⟩
  · exact ⟨by simp [vCoeffs]; rfl, by simp [vBranch]; rfl, fun i => i.elim0⟩
  · exact ⟨fun h => absurd h (by decide), fun i => i.elim0⟩
  · exact ⟨rfl, rfl, fun _ => .inr rfl, fun h => absurd h (by decide), fun i => i.elim0⟩
  · exact ⟨rfl, rfl, fun _ => .inl rfl, fun h => absurd h (by decide), fun i => i.elim0⟩

end H2.Props
