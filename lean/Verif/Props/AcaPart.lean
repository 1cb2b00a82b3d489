import Verif.Proof.AcaPart
import Verif.Props.Aca
import Mathlib.LinearAlgebra.Matrix.Rank
import Mathlib.LinearAlgebra.Matrix.Block
import Mathlib.Data.Fintype.EquivFin

/-! # C50: partial cross approximation, rank and exactness -/

set_option linter.unusedSectionVars false

namespace H2.Props
open Spec Aca Dense
variable {𝕜 : Type} [RCLike 𝕜]

/-! ### consequences of the cross property -/

theorem pivots_surj {p : Arr Nat} {n : Nat} (h : Pivots p n n) {x : Nat} (hx : x < n) : ∃ l < n, p.v l = x := by
  have hinj : Function.Injective (fun i : Fin n => (⟨p.v i, h.2.1 i i.2⟩ : Fin n)) := fun i j e =>
    Fin.ext (h.2.2 i i.2 j j.2 (congrArg Fin.val e))
  obtain ⟨l, hl⟩ := Finite.surjective_of_injective hinj ⟨x, hx⟩
  exact ⟨l, l.2, congrArg Fin.val hl⟩

/-- A cross approximation with as many crosses as there are rows or columns reproduces the matrix. -/
theorem C50_full_rank_exact {A0 : Nat → Nat → 𝕜} {rows cols : Nat} {r : Rk} {ri ci : Arr Nat} {m : Mem 𝕜} (h : IsCross A0 rows cols r ri ci m)
    (hk : r.k = rows ∨ r.k = cols) : ∀ x < rows, ∀ y < cols, rkEntry r m x y = A0 x y := by
  intro x hx y hy
  rcases hk with hk | hk
  · have hp := h.rpiv
    rw [hk] at hp
    obtain ⟨l, hl, rfl⟩ := pivots_surj hp hx
    exact h.row l (by omega) y hy
  · have hp := h.cpiv
    rw [hk] at hp
    obtain ⟨l, hl, rfl⟩ := pivots_surj hp hy
    exact h.col l (by omega) x hx

/-- The number of crosses never exceeds the rank of the matrix. -/
theorem C50_rank {A0 : Nat → Nat → 𝕜} {rows cols : Nat} {r : Rk} {ri ci : Arr Nat} {m : Mem 𝕜} (h : IsCross A0 rows cols r ri ci m) :
    r.k ≤ (Matrix.of fun (x : Fin rows) (y : Fin cols) => A0 x y).rank := by
  let L : Matrix (Fin r.k) (Fin r.k) 𝕜 := Matrix.of fun i l => r.A.val m (ri.v i) l
  let U : Matrix (Fin r.k) (Fin r.k) 𝕜 := Matrix.of fun l j => star (r.B.val m (ci.v j) l)
  have hL : L.det ≠ 0 := by
    rw [Matrix.det_of_lowerTriangular L fun i j hij => by
      have hij : i < j := hij
      show r.A.val m (ri.v i) j = 0
      rw [h.lower i i.2 j j.2 (Fin.le_iff_val_le_val.mp hij.le), if_neg (fun e => hij.ne (Fin.ext e))], Finset.prod_ne_zero_iff]
    intro i _
    show r.A.val m (ri.v i) i ≠ 0
    rw [h.lower i i.2 i i.2 le_rfl, if_pos rfl]; exact one_ne_zero
  have hU : U.det ≠ 0 := by
    rw [Matrix.det_of_upperTriangular (M := U) fun i j hij => by
      have hij : j < i := hij
      show star (r.B.val m (ci.v j) i) = 0
      rw [star_eq_zero, h.upper j j.2 i i.2 (Fin.le_iff_val_le_val.mp hij.le)]
      exact fun e => hij.ne (Fin.ext e), Finset.prod_ne_zero_iff]
    intro i _
    show star (r.B.val m (ci.v i) i) ≠ 0
    rw [Ne, star_eq_zero, h.upper i i.2 i i.2 le_rfl]; simp
  have hsub : (Matrix.of fun (x : Fin rows) (y : Fin cols) => A0 x y).submatrix (fun i : Fin r.k => (⟨ri.v i, h.rpiv.2.1 i i.2⟩ : Fin rows))
      (fun j : Fin r.k => (⟨ci.v j, h.cpiv.2.1 j j.2⟩ : Fin cols)) = L * U := by
    ext i j
    rw [Matrix.mul_apply]
    show A0 (ri.v i) (ci.v j) = ∑ l : Fin r.k, r.A.val m (ri.v i) l * star (r.B.val m (ci.v j) l)
    rw [← h.row i i.2 (ci.v j) (h.cpiv.2.1 j j.2), rkEntry, Finset.sum_range]
  have hr : (L * U).rank = r.k := by
    rw [Matrix.rank_of_isUnit _ (by rw [Matrix.isUnit_iff_isUnit_det, Matrix.det_mul]; exact (mul_ne_zero hL hU).isUnit), Fintype.card_fin]
  rw [← hr, ← hsub]
  exact Matrix.rank_submatrix_le _ _ _

/-- With `accur = 0`, `decomp_fullaca_rkmatrix` computes an exact factorization whose rank is the rank of the matrix. -/
theorem C50_fullaca_exact {al : Alloc 𝕜} (hal : GoodAlloc al) (junk : Nat → 𝕜) {a : Mat} {r : Rk} {m : Mem 𝕜} (ha : a.Valid m)
    (hr : RkOwns r m) (hm : BoundedMem m) (hd : ∀ c, a.Cell c → ¬ Block r.A c ∧ ¬ Block r.B c) :
    Tot (fullaca al junk a 0 r m) fun res =>
      (∀ x < a.rows, ∀ y < a.cols, rkEntry res.r res.mem x y = a.val m x y) ∧
      res.r.k = (Matrix.of fun (x : Fin a.rows) (y : Fin a.cols) => a.val m x y).rank := by
  refine (C50_fullaca hal junk ha hr hm hd 0).mono ?_
  rintro res ⟨hc, he, -, -⟩
  have hex : ∀ x < a.rows, ∀ y < a.cols, rkEntry res.r res.mem x y = a.val m x y := by
    intro x hx y hy
    have := he (∑ x ∈ Finset.range a.rows, ∑ y ∈ Finset.range a.cols, ‖a.val m x y‖) (fun x hx y hy =>
      (Finset.single_le_sum (f := fun y => ‖a.val m x y‖) (fun _ _ => norm_nonneg _) (Finset.mem_range.mpr hy)).trans
        (Finset.single_le_sum (f := fun x => ∑ y ∈ Finset.range a.cols, ‖a.val m x y‖)
          (fun _ _ => Finset.sum_nonneg fun _ _ => norm_nonneg _) (Finset.mem_range.mpr hx))) x hx y hy
    rw [abs_zero, zero_mul] at this
    exact (sub_eq_zero.mp (norm_eq_zero.mp (le_antisymm this (norm_nonneg _)))).symm
  refine ⟨hex, le_antisymm (C50_rank hc) ?_⟩
  have : (Matrix.of fun (x : Fin a.rows) (y : Fin a.cols) => a.val m x y) =
      (Matrix.of fun (x : Fin a.rows) (l : Fin res.r.k) => res.r.A.val res.mem x l) *
      (Matrix.of fun (l : Fin res.r.k) (y : Fin a.cols) => star (res.r.B.val res.mem y l)) := by
    ext x y
    rw [Matrix.mul_apply]
    show a.val m x y = ∑ l : Fin res.r.k, res.r.A.val res.mem x l * star (res.r.B.val res.mem y l)
    rw [← hex x x.2 y y.2, rkEntry, Finset.sum_range]
  rw [this]
  refine (Matrix.rank_mul_le_left _ _).trans ((Matrix.rank_le_card_width _).trans ?_)
  rw [Fintype.card_fin]

/-! ### the partial cross approximation -/

theorem rem_dependent {A0 : Nat → Nat → 𝕜} {ridx cidx : Nat → Nat} {rows cols : Nat} {r : Rk} {m0 : Mem 𝕜} {FA FB : Nat → Nat → 𝕜} {s : PartSt 𝕜}
    (h : PInv A0 ridx cidx rows cols r m0 FA FB s)
    (hz : ∃ i, s.k ≤ i ∧ i < rows ∧ ∀ j < cols, rem A0 s.rpiv.v s.cpiv.v FA FB s.k i j = 0) :
    ¬ LinearIndependent 𝕜 (fun (x : Fin rows) (y : Fin cols) => A0 (ridx x) (cidx y)) := by
  obtain ⟨i0, h1, h2, hz⟩ := hz
  intro hli
  have hPlt := perms_lt h.kr h.rlt
  have hQlt := perms_lt h.kc h.clt
  -- the rows 0, …, k - 1 and i0
  let ρ : Fin (s.k + 1) → Nat := fun l => if l.val < s.k then l else i0
  have hρ : ∀ l, ρ l < rows := fun l => by
    simp only [ρ]; split
    · have := h.kr; omega
    · exact h2
  have hρz : ∀ l, ∀ j < cols, rem A0 s.rpiv.v s.cpiv.v FA FB s.k (ρ l) j = 0 := fun l j hj => by
    simp only [ρ]; split
    · rename_i e; exact h.vrow _ e j hj
    · exact hz j hj
  have hρi : Function.Injective ρ := fun a b e => by
    simp only [ρ] at e
    have ha := a.2
    have hb := b.2
    apply Fin.ext
    split at e <;> split at e <;> omega
  let σ : Fin (s.k + 1) → Fin rows := fun l => ⟨perms s.rperm.v s.k (ρ l), (hPlt _).mpr (hρ l)⟩
  have hσ : Function.Injective σ := fun a b e => hρi ((perms s.rperm.v s.k).injective (congrArg Fin.val e))
  let w : Fin s.k → Fin cols → 𝕜 := fun l y => FB ((perms s.cperm.v s.k)⁻¹ y) l
  have hsub : Set.range ((fun (x : Fin rows) (y : Fin cols) => A0 (ridx x) (cidx y)) ∘ σ) ≤ Submodule.span 𝕜 (Set.range w) := by
    rintro _ ⟨l, rfl⟩
    have : ((fun (x : Fin rows) (y : Fin cols) => A0 (ridx x) (cidx y)) ∘ σ) l = ∑ t : Fin s.k, FA (ρ l) t • w t := by
      funext y
      have hy : (perms s.cperm.v s.k)⁻¹ y < cols := by rw [← hQlt]; simp
      have := hρz l _ hy
      rw [rem, sub_eq_zero, h.rp, h.cp] at this
      rw [show perms s.cperm.v s.k ((perms s.cperm.v s.k)⁻¹ y) = y by simp, Finset.sum_range] at this
      rw [Finset.sum_apply]
      exact this
    rw [this]
    exact Submodule.sum_mem _ fun t _ => Submodule.smul_mem _ _ (Submodule.subset_span ⟨t, rfl⟩)
  have hc := linearIndependent_le_span' _ (hli.comp σ hσ) (Set.range w) hsub
  have h3 : Fintype.card (Set.range w) ≤ s.k := by
    have := Fintype.card_range_le w
    rwa [Fintype.card_fin] at this
  rw [Cardinal.mk_fin] at hc
  have h4 : s.k + 1 ≤ Fintype.card (Set.range w) := by exact_mod_cast hc
  omega

open Classical in
theorem partLoop_out {al : Alloc 𝕜} (hal : GoodAlloc al) (junk : Nat → 𝕜) {f : Entry 𝕜} {A0 : Nat → Nat → 𝕜} (hf : IsEntry f A0)
    {ridx cidx : Nat → Nat} {rows cols : Nat} {r : Rk} {m0 : Mem 𝕜} (accur : ℝ) (n : Nat) {FA FB : Nat → Nat → 𝕜} {s : PartSt 𝕜}
    (h : PInv A0 ridx cidx rows cols r m0 FA FB s) (hn : min rows cols ≤ s.k + n) :
    Out (whileF (fun s => decide (s.error > accur ∧ s.k < rows ∧ s.k < cols)) (partStep al junk f rows cols) n s)
      (¬ LinearIndependent 𝕜 (fun (x : Fin rows) (y : Fin cols) => A0 (ridx x) (cidx y))) fun s' =>
      (∃ FA FB, PInv A0 ridx cidx rows cols r m0 FA FB s') ∧ (s'.error ≤ accur ∨ s'.k = min rows cols) ∧
      (s.error > accur ∧ s.k < rows ∧ s.k < cols → s.k < s'.k) := by
  have done : ∀ {FA FB} {s : PartSt 𝕜}, PInv A0 ridx cidx rows cols r m0 FA FB s → ¬ (s.error > accur ∧ s.k < rows ∧ s.k < cols) →
      (s.error ≤ accur ∨ s.k = min rows cols) := by
    intro FA FB s h hc
    by_cases e : s.error ≤ accur
    · exact .inl e
    · have := h.kr; have := h.kc
      have : ¬ (s.k < rows ∧ s.k < cols) := fun h' => hc ⟨not_le.mp e, h'⟩
      right; omega
  induction n generalizing FA FB s with
  | zero =>
    unfold whileF
    have hc : ¬ (s.error > accur ∧ s.k < rows ∧ s.k < cols) := by omega
    rw [if_neg (by simpa using hc)]
    exact .inr ⟨s, rfl, ⟨FA, FB, h⟩, done h hc, fun h => absurd h hc⟩
  | succ n ih =>
    unfold whileF
    by_cases hc : s.error > accur ∧ s.k < rows ∧ s.k < cols
    · rw [if_pos (by simpa using hc)]
      rcases partStep_out hal junk hf h hc.2.1 hc.2.2 with ⟨e1, e2⟩ | ⟨s', hs', ⟨FA', FB', h'⟩, hk, -⟩
      · left
        exact ⟨rem_dependent h e1, by rw [e2]; rfl⟩
      · rw [hs', ok_bind]
        rcases ih h' (by omega) with e | ⟨s2, hs2, g1, g2, g3⟩
        · exact .inl e
        · refine .inr ⟨s2, hs2, g1, g2, fun _ => ?_⟩
          by_cases hc' : s'.error > accur ∧ s'.k < rows ∧ s'.k < cols
          · have := g3 hc'; omega
          · have : n = n := rfl
            have e : s2 = s' := by
              have hw : whileF (fun s => decide (s.error > accur ∧ s.k < rows ∧ s.k < cols)) (partStep al junk f rows cols) n s' = .ok s' := by
                cases n <;> (unfold whileF; rw [if_neg (by simpa using hc')])
              rw [hw] at hs2
              exact (Except.ok.inj hs2).symm
            rw [e]; omega
    · rw [if_neg (by simpa using hc)]
      exact .inr ⟨s, rfl, ⟨FA, FB, h⟩, done h hc, fun h => absurd h hc⟩

theorem partInit (A0 : Nat → Nat → 𝕜) (ridx cidx : Nat → Nat) (rows cols : Nat) {r : Rk} {m : Mem 𝕜} (hr : RkOwns r m) (ha : r.A.rows = r.A.ld)
    (hb : r.B.rows = r.B.ld) (hm : BoundedMem m) (FA FB : Nat → Nat → 𝕜) :
    PInv A0 ridx cidx rows cols r m FA FB
      (⟨m, r.A, r.B, idxArr rows ridx, idxArr cols cidx, ⟨rows, fun _ => 0⟩, ⟨cols, fun _ => 0⟩, 0, 1, 1⟩ : PartSt 𝕜) where
  kr := Nat.zero_le _
  kc := Nat.zero_le _
  la := ha
  lb := hb
  da h := absurd h (lt_irrefl _)
  db h := absurd h (lt_irrefl _)
  oa := hr.oa
  ob := hr.ob
  disj := hr.disj
  bnd := hm
  va _ _ l hl := absurd hl (Nat.not_lt_zero _)
  vb _ _ l hl := absurd hl (Nat.not_lt_zero _)
  nr := rfl
  nc := rfl
  nrp := rfl
  ncp := rfl
  rlt l hl := absurd hl (Nat.not_lt_zero _)
  clt l hl := absurd hl (Nat.not_lt_zero _)
  rp i := rfl
  cp j := rfl
  vrow l hl := absurd hl (Nat.not_lt_zero _)
  vcol _ _ l hl := absurd hl (Nat.not_lt_zero _)
  za l hl := absurd hl (Nat.not_lt_zero _)
  ea l hl := absurd hl (Nat.not_lt_zero _)
  zb l hl := absurd hl (Nat.not_lt_zero _)
  eb l hl := absurd hl (Nat.not_lt_zero _)
  fresh c hc := hc.elim .inl fun h => .inr (.inl h)
  frame c _ _ _ _ := rfl
  e0 _ := rfl
  e1 h := absurd h (lt_irrefl _)

/-- For every matrix given by its entries, every accuracy below one and every allocator, `decomp_partialaca_rkmatrix` either divides by
zero, which can only happen if the rows of the matrix are linearly dependent, or returns a cross approximation of the submatrix given by
`ridx` and `cidx`: it agrees with the matrix in all pivot rows and columns, and the returned index arrays are the global indices of the
pivots.  If it stops early, the last cross is at most `accur` times as large as the first one. -/
theorem C50_partialaca {al : Alloc 𝕜} (hal : GoodAlloc al) (junk : Nat → 𝕜) {f : Entry 𝕜} {A0 : Nat → Nat → 𝕜} (hf : IsEntry f A0)
    (ridx cidx : Nat → Nat) {rows cols : Nat} (h0 : 0 < rows) (h1 : 0 < cols) {accur : ℝ} (hacc : accur < 1) {r : Rk} {m : Mem 𝕜}
    (hr : RkOwns r m) (ha : r.A.rows = r.A.ld) (hb : r.B.rows = r.B.ld) (hm : BoundedMem m) :
    (¬ LinearIndependent 𝕜 (fun (x : Fin rows) (y : Fin cols) => A0 (ridx x) (cidx y)) ∧
      partialaca al junk f ridx rows cidx cols accur r m = .error .nan) ∨
    Tot (partialaca al junk f ridx rows cidx cols accur r m) fun res =>
      (∃ pr pc, IsCross (fun x y => A0 (ridx x) (cidx y)) rows cols res.r pr pc res.mem ∧
        res.ridx.n = res.r.k ∧ (∀ l < res.r.k, res.ridx.v l = ridx (pr.v l)) ∧
        res.cidx.n = res.r.k ∧ (∀ l < res.r.k, res.cidx.v l = cidx (pc.v l))) ∧
      0 < res.r.k ∧
      (res.r.k < rows → res.r.k < cols → 0 < accur ∧
        colNorm res.r.A res.mem (res.r.k - 1) * colNorm res.r.B res.mem (res.r.k - 1) ≤
          accur * (colNorm res.r.A res.mem 0 * colNorm res.r.B res.mem 0)) ∧
      RkOwns res.r res.mem ∧
      ∀ c, ¬ Block r.A c → ¬ Block r.B c → ¬ Block res.r.A c → ¬ Block res.r.B c → res.mem c = m c := by
  unfold partialaca
  have hinit := partInit A0 ridx cidx rows cols hr ha hb hm 0 0
  rcases partLoop_out hal junk hf accur (min rows cols) hinit (by simp) with ⟨e1, e2⟩ | ⟨s, hs, ⟨FA, FB, h⟩, hend, hpos⟩
  · left
    exact ⟨e1, by rw [e2]; rfl⟩
  right
  have hk : 0 < s.k := hpos ⟨hacc, h0, h1⟩
  rw [hs, ok_bind]
  obtain ⟨ra, ca⟩ := h.da hk
  obtain ⟨rb, cb⟩ := h.db hk
  have eA : (⟨s.A.base, rows, rows, s.k⟩ : Mat) = s.A := by
    have h1 := h.la
    have h2 := h.da hk
    cases hA : s.A
    rw [hA] at h1 h2
    simp only at h1 h2 ⊢
    rw [← h1, h2.1, h2.2]
  have eB : (⟨s.B.base, cols, cols, s.k⟩ : Mat) = s.B := by
    have h1 := h.lb
    have h2 := h.db hk
    cases hA : s.B
    rw [hA] at h1 h2
    simp only at h1 h2 ⊢
    rw [← h1, h2.1, h2.2]
  rw [eA, eB]
  have lA := h.la.le
  have lB := h.lb.le
  have hAB : Disj s.A.Cell s.B.Cell := fun c h1 h2 => h.disj c (cell_block lA h1) (cell_block lB h2)
  have hv := owns_valid lA h.oa
  have hw := owns_valid lB h.ob
  have b1 : Both s.A s.B s.mem FA FB s.mem :=
    ⟨fun i hi j hj => by rw [hv.some hi hj, h.va i (by omega) j (by omega)], fun i hi j hj => by rw [hw.some hi hj, h.vb i (by omega) j (by omega)], fun _ _ => rfl⟩
  have kr := h.kr
  have kc := h.kc
  refine Tot.bind (reversePerm_tot lA lB hAB ca.ge cb.ge (by omega) (by omega) (by rw [h.nr]; exact kr) (by rw [h.nc]; exact kc) (by rw [ra]; exact h.rlt)
    (by rw [rb]; exact h.clt) b1) ?_
  rintro m2 - ⟨CA, CB, b2, hCA, hCB⟩
  refine Tot.bind (conjugate_tot (b2.symm.validL lB)) fun m3 _ h3 => ?_
  have b3 := (b2.symm.of_becomes (fun c h1 h2 => hAB c h2 h1) h3).symm
  refine Tot.bind (copyIdx_tot (by rw [h.nrp]; exact kr)) fun ri _ hri => Tot.bind (copyIdx_tot (by rw [h.ncp]; exact kc)) fun ci _ hci => Tot.pure ?_
  have hPlt := perms_lt h.kr h.rlt
  have hQlt := perms_lt h.kc h.clt
  have valA : ∀ i < rows, ∀ l < s.k, s.A.val m3 (perms s.rperm.v s.k i) l = FA i l := fun i hi l hl => by
    unfold Mat.val; rw [b3.1 _ (by rw [ra]; exact (hPlt i).mpr hi) l (by omega), ← hCA i (by omega) l hl]; rfl
  have valB : ∀ j < cols, ∀ l < s.k, s.B.val m3 (perms s.cperm.v s.k j) l = star (FB j l) := fun j hj l hl => by
    have hlt : perms s.cperm.v s.k j < s.B.rows := by rw [rb]; exact (hQlt j).mpr hj
    unfold Mat.val
    rw [b3.2.1 _ hlt l (by omega), ← hCB j (by omega) l hl]
    unfold Mat.val
    simp only
    rw [b2.2.1 _ hlt l (by omega)]; rfl
  have hrem : ∀ i < rows, ∀ j < cols, A0 (ridx (perms s.rperm.v s.k i)) (cidx (perms s.cperm.v s.k j)) -
      rkEntry ⟨s.A, s.B, s.k⟩ m3 (perms s.rperm.v s.k i) (perms s.cperm.v s.k j) = rem A0 s.rpiv.v s.cpiv.v FA FB s.k i j := fun i hi j hj => by
    rw [rem, h.rp, h.cp, rkEntry]
    congr 1
    refine Finset.sum_congr rfl fun l hl => ?_
    rw [Finset.mem_range] at hl
    rw [valA i hi l hl, valB j hj l hl, star_star]
  have nA : ∀ l < s.k, colNorm s.A m3 l = Real.sqrt (nrm rows FA l) := fun l hl => by
    unfold colNorm nrm
    rw [ra]
    congr 1
    symm
    refine Finset.sum_nbij' (perms s.rperm.v s.k) (perms s.rperm.v s.k).symm (fun i hi => ?_) (fun i hi => ?_) (fun i _ => by simp) (fun i _ => by simp) fun i hi => ?_
    · rw [Finset.mem_range] at hi ⊢; exact (hPlt i).mpr hi
    · rw [Finset.mem_range] at hi ⊢; rw [← hPlt]; simpa using hi
    · rw [valA i (Finset.mem_range.mp hi) l hl, RCLike.normSq_eq_def']
  have nB : ∀ l < s.k, colNorm s.B m3 l = Real.sqrt (nrm cols FB l) := fun l hl => by
    unfold colNorm nrm
    rw [rb]
    congr 1
    symm
    refine Finset.sum_nbij' (perms s.cperm.v s.k) (perms s.cperm.v s.k).symm (fun i hi => ?_) (fun i hi => ?_) (fun i _ => by simp) (fun i _ => by simp) fun i hi => ?_
    · rw [Finset.mem_range] at hi ⊢; exact (hQlt i).mpr hi
    · rw [Finset.mem_range] at hi ⊢; rw [← hQlt]; simpa using hi
    · rw [valB i (Finset.mem_range.mp hi) l hl, norm_star, RCLike.normSq_eq_def']
  have pA : ∀ l < s.k, 0 < nrm rows FA l := fun l hl => sq_pos (f := fun i => FA i l) (show l < rows by omega) (by rw [h.ea l hl]; exact one_ne_zero)
  have pB : ∀ l < s.k, 0 < nrm cols FB l := fun l hl => sq_pos (f := fun i => FB i l) (show l < cols by omega) (h.eb l hl)
  refine ⟨⟨⟨s.k, perms s.rperm.v s.k⟩, ⟨s.k, perms s.cperm.v s.k⟩, ⟨⟨b3.validL lA, b3.symm.validL lB⟩, ⟨ra, rb, ca, cb⟩, ⟨kr, kc⟩, ?_, ?_, ?_, ?_, ?_, ?_⟩,
    hri.1, fun l hl => ?_, hci.1, fun l hl => ?_⟩, hk, ?_, ?_, ?_⟩
  · exact ⟨rfl, fun i hi => (hPlt i).mpr (lt_of_lt_of_le hi kr), fun i _ j _ e => (perms s.rperm.v s.k).injective e⟩
  · exact ⟨rfl, fun i hi => (hQlt i).mpr (lt_of_lt_of_le hi kc), fun i _ j _ e => (perms s.cperm.v s.k).injective e⟩
  · intro l hl y hy
    obtain ⟨j, hj, rfl⟩ := perms_inv h.kc h.clt hy
    have e := hrem l (lt_of_lt_of_le hl kr) j hj
    rw [h.vrow l hl j hj] at e
    exact (sub_eq_zero.mp e).symm
  · intro l hl x hx
    obtain ⟨i, hi, rfl⟩ := perms_inv h.kr h.rlt hx
    have e := hrem i hi l (lt_of_lt_of_le hl kc)
    rw [h.vcol i hi l hl] at e
    exact (sub_eq_zero.mp e).symm
  · intro i hi l hl hil
    show s.A.val m3 (perms s.rperm.v s.k i) l = _
    rw [valA i (lt_of_lt_of_le hi kr) l hl]
    by_cases e : i = l
    · rw [if_pos e, e, h.ea l hl]
    · rw [if_neg e, h.za l hl i (by omega)]
  · intro i hi l hl hil
    show s.B.val m3 (perms s.cperm.v s.k i) l = 0 ↔ _
    rw [valB i (lt_of_lt_of_le hi kc) l hl, star_eq_zero]
    by_cases e : i = l
    · rw [e]; simp [h.eb l hl]
    · simp [e, h.zb l hl i (by omega)]
  · show ri.v l = _
    rw [hri.2 l hl, h.rp]
  · show ci.v l = _
    rw [hci.2 l hl, h.cp]
  · intro e1 e2
    rcases hend with hend | hend
    · obtain ⟨g1, g2⟩ := h.e1 hk
      rw [g2, g1] at hend
      have q0 : 0 < Real.sqrt (nrm rows FA 0 * nrm cols FB 0) := Real.sqrt_pos.mpr (mul_pos (pA 0 hk) (pB 0 hk))
      have q1 : 0 < Real.sqrt (nrm rows FA (s.k - 1) * nrm cols FB (s.k - 1)) := Real.sqrt_pos.mpr (mul_pos (pA _ (by omega)) (pB _ (by omega)))
      rw [mul_one_div, div_le_iff₀ q0] at hend
      show 0 < accur ∧ colNorm s.A m3 (s.k - 1) * colNorm s.B m3 (s.k - 1) ≤ accur * (colNorm s.A m3 0 * colNorm s.B m3 0)
      rw [nA _ (by omega), nB _ (by omega), nA _ hk, nB _ hk, ← Real.sqrt_mul (pA _ (by omega)).le, ← Real.sqrt_mul (pA _ hk).le]
      refine ⟨?_, hend⟩
      by_contra hn
      have := mul_nonpos_of_nonpos_of_nonneg (not_lt.mp hn) q0.le
      linarith
    · have e1 : s.k < rows := e1
      have e2 : s.k < cols := e2
      omega
  · refine ⟨lA, lB, fun c c1 c2 => ?_, fun c c1 c2 => ?_, h.disj⟩
    · show (m3 c).isSome
      by_cases hc : s.A.Cell c
      · obtain ⟨i, hi, j, hj, rfl⟩ := hc; rw [b3.1 i hi j hj]; rfl
      · rw [b3.2.2 c (fun e => e.elim hc fun e => h.disj c ⟨c1, c2⟩ (cell_block lB e))]; exact h.oa c c1 c2
    · show (m3 c).isSome
      by_cases hc : s.B.Cell c
      · obtain ⟨i, hi, j, hj, rfl⟩ := hc; rw [b3.2.1 i hi j hj]; rfl
      · rw [b3.2.2 c (fun e => e.elim (fun e => h.disj c (cell_block lA e) ⟨c1, c2⟩) hc)]; exact h.ob c c1 c2
  · intro c c1 c2 c3 c4
    show m3 c = m c
    rw [b3.2.2 c (fun e => e.elim (fun e => c3 (cell_block lA e)) fun e => c4 (cell_block lB e)), h.frame c c1 c2 c3 c4]

/-- `decomp_partialaca_rkmatrix` divides by zero for every zero matrix. -/
theorem C50_partialaca_zero {al : Alloc 𝕜} (hal : GoodAlloc al) (junk : Nat → 𝕜) {f : Entry 𝕜} (hf : IsEntry f fun _ _ => 0)
    (ridx cidx : Nat → Nat) {rows cols : Nat} (h0 : 0 < rows) (h1 : 0 < cols) {accur : ℝ} (hacc : accur < 1) {r : Rk} {m : Mem 𝕜}
    (hr : RkOwns r m) (ha : r.A.rows = r.A.ld) (hb : r.B.rows = r.B.ld) (hm : BoundedMem m) :
    partialaca al junk f ridx rows cidx cols accur r m = .error .nan := by
  have hinit := partInit (fun _ _ => (0 : 𝕜)) ridx cidx rows cols hr ha hb hm 0 0
  unfold partialaca
  obtain ⟨n, hn⟩ : ∃ n, min rows cols = n + 1 := ⟨min rows cols - 1, by omega⟩
  rw [hn]
  unfold whileF
  rw [if_pos (by simpa using ⟨hacc, h0, h1⟩)]
  rcases partStep_out hal junk hf hinit h0 h1 with ⟨-, e⟩ | ⟨s', -, -, -, i, -, j, -, e⟩
  · rw [e]; rfl
  · simp [rem] at e

/-! ### copying triangular parts along pivots -/

/-- `copy_lower_aca_amatrix` copies the rows given by the pivot indices: the part of `B` below the diagonal, and the diagonal, which is
replaced by ones if `unit` is set. -/
theorem C50_copy_lower (unit : Bool) {a b : Mat} {xi : Arr Nat} {m : Mem 𝕜} (ha : a.Valid m) (hb : b.Valid m) (hd : Disj a.Cell b.Cell)
    (h1 : b.rows ≤ a.rows) (h2 : b.cols = a.cols) (h3 : b.cols ≤ b.rows) (hx : b.rows ≤ xi.n) (hxi : ∀ i < b.rows, xi.v i < a.rows) :
    Tot (copyLower unit a xi b m) (MatBecomes b m fun i j =>
      if i < j then b.val m i j else if i = j ∧ unit then 1 else a.val m (xi.v i) j) := by
  unfold copyLower
  rw [cassert_true (by simpa using h1), ok_bind, cassert_true (by simpa using h2), ok_bind]
  have rd : ∀ {G : Nat → Nat → 𝕜} {m' : Mem 𝕜}, MatBecomes b m G m' → ∀ i < a.rows, ∀ j < a.cols, m'.read (a.addr i j) = .ok (a.val m i j) :=
    fun hG i hi j hj => becomes_read_cell hG (ha.some hi hj) (hd _ ⟨i, hi, j, hj, rfl⟩)
  refine (forUp_tot (fun q m' => MatBecomes b m (fun i j => if j < q then (if i < j then b.val m i j else if i = j ∧ unit then 1 else a.val m (xi.v i) j)
    else b.val m i j) m') (Nat.zero_le _) (becomes_congr (valid_becomes hb) fun _ _ _ _ => by rw [if_neg (Nat.not_lt_zero _)]) fun j m1 _ hj g1 => ?_).mono
    fun m' h => becomes_congr h fun i hi j hj => by rw [if_pos (by omega)]
  have hjc : j < b.cols := by omega
  have hjr : j < b.rows := by omega
  refine Tot.bind (P := MatBecomes b m (fset (fun i l => if l < j then (if i < l then b.val m i l else if i = l ∧ unit then 1 else a.val m (xi.v i) l)
    else b.val m i l) j j (if unit then 1 else a.val m (xi.v j) j))) ?_ fun m2 _ g2 => ?_
  · by_cases hu : unit = true
    · rw [if_pos hu, if_pos hu]; exact becomes_write g1 hjr hjc 1
    · rw [if_neg hu, if_neg hu, Arr.get_ok (by omega), ok_bind, cassert_true (by simpa using hxi j hjr), ok_bind, rd g1 _ (hxi j hjr) j hj, ok_bind]
      exact becomes_write g1 hjr hjc _
  refine (colLineLoop g2 hjc (show j + 1 ≤ b.rows by omega) le_rfl (new := fun i => a.val m (xi.v i) j) fun i h4 h5 m4 G hG _ => ?_).mono
    fun m4 h4 => becomes_congr h4 fun i hi l hl => ?_
  · rw [Arr.get_ok (show i < xi.n by omega), ok_bind, cassert_true (by simpa using hxi i h5), ok_bind, rd hG _ (hxi i h5) j hj, ok_bind]
  · simp only [fset]
    by_cases e : l = j
    · subst e
      rw [if_pos (show l < l + 1 by omega)]
      rcases Nat.lt_trichotomy i l with g | g | g
      · rw [if_neg (by omega), if_neg (by omega), if_neg (lt_irrefl _), if_pos g]
      · subst g
        rw [if_neg (by omega), if_pos ⟨rfl, rfl⟩, if_neg (lt_irrefl _)]
        cases unit <;> simp
      · rw [if_pos ⟨rfl, g, by omega⟩, if_neg (show ¬ i < l by omega), if_neg (fun h => by omega)]
    · rw [if_neg (fun h => e h.1), if_neg (fun h => e h.2)]
      by_cases e' : l < j
      · rw [if_pos e', if_pos (show l < j + 1 by omega)]
      · rw [if_neg e', if_neg (show ¬ l < j + 1 by omega)]

/-- `copy_upper_aca_amatrix` fills the upper triangular part of `B` with the transposed rows given by the pivot indices; the diagonal is
replaced by ones if `unit` is set. -/
theorem C50_copy_upper (unit : Bool) {a b : Mat} {xi : Arr Nat} {m : Mem 𝕜} (ha : a.Valid m) (hb : b.Valid m) (hd : Disj a.Cell b.Cell)
    (h1 : b.rows ≤ a.rows) (h2 : b.rows = a.cols) (h3 : b.rows ≤ b.cols) (hx : b.rows ≤ xi.n) (hxi : ∀ i < b.rows, xi.v i < a.rows) :
    Tot (copyUpper unit a xi b m) (MatBecomes b m fun i j =>
      if j < i ∨ b.rows ≤ j then b.val m i j else if i = j ∧ unit then 1 else a.val m (xi.v j) i) := by
  unfold copyUpper
  rw [cassert_true (by simpa using h1), ok_bind, cassert_true (by simpa using h2), ok_bind]
  have rd : ∀ {G : Nat → Nat → 𝕜} {m' : Mem 𝕜}, MatBecomes b m G m' → ∀ i < a.rows, ∀ j < a.cols, m'.read (a.addr i j) = .ok (a.val m i j) :=
    fun hG i hi j hj => becomes_read_cell hG (ha.some hi hj) (hd _ ⟨i, hi, j, hj, rfl⟩)
  refine (forUp_tot (fun q m' => MatBecomes b m (fun i j => if j < q ∧ i ≤ j then (if i = j ∧ unit then 1 else a.val m (xi.v j) i)
    else b.val m i j) m') (Nat.zero_le _) (becomes_congr (valid_becomes hb) fun _ _ _ _ => by rw [if_neg (by omega)]) fun j m1 _ hj g1 => ?_).mono
    fun m' h => becomes_congr h fun i hi j hj => ?_
  · have hjc : j < b.cols := by omega
    rw [Arr.get_ok (show j < xi.n by omega), ok_bind, cassert_true (by simpa using hxi j hj), ok_bind]
    refine Tot.bind (colLineLoop g1 hjc (Nat.zero_le j) hj.le (new := fun i => a.val m (xi.v j) i) fun i h4 h5 m4 G hG _ => ?_) fun m2 _ g2 => ?_
    · rw [rd hG _ (hxi j hj) i (by omega), ok_bind]
    obtain ⟨F2, hF2⟩ : ∃ F : Nat → Nat → 𝕜, F = fun i l => if l = j ∧ 0 ≤ i ∧ i < j then a.val m (xi.v j) i else
      if l < j ∧ i ≤ l then (if i = l ∧ unit then 1 else a.val m (xi.v l) i) else b.val m i l := ⟨_, rfl⟩
    replace g2 : MatBecomes b m F2 m2 := by rw [hF2]; exact g2
    have fin : ∀ x : 𝕜, x = (if unit then 1 else a.val m (xi.v j) j) → ∀ i < b.rows, ∀ l < b.cols, fset F2 j j x i l =
        if l < j + 1 ∧ i ≤ l then (if i = l ∧ unit then 1 else a.val m (xi.v l) i) else b.val m i l := fun x hx i hi l hl => by
      simp only [fset, hF2]
      by_cases e : l = j
      · subst e
        rcases Nat.lt_trichotomy i l with g | g | g
        · rw [if_neg (by omega), if_pos (by omega), if_pos (by omega), if_neg (fun h => by omega)]
        · subst g
          rw [if_pos ⟨rfl, rfl⟩, if_pos (by omega), hx]
          cases unit <;> simp
        · rw [if_neg (by omega), if_neg (by omega), if_neg (by omega), if_neg (by omega)]
      · rw [if_neg (fun h => e h.2), if_neg (fun h => e h.1)]
        by_cases e' : l < j ∧ i ≤ l
        · rw [if_pos e', if_pos (show l < j + 1 ∧ i ≤ l by omega)]
        · rw [if_neg e', if_neg (show ¬ (l < j + 1 ∧ i ≤ l) by omega)]
    by_cases hu : unit = true
    · rw [if_pos hu]
      exact (becomes_write g2 hj hjc 1).mono fun m3 g3 => becomes_congr g3 (fin 1 (by rw [if_pos hu]))
    · rw [if_neg hu, rd g2 _ (hxi j hj) j (by omega), ok_bind]
      exact (becomes_write g2 hj hjc _).mono fun m3 g3 => becomes_congr g3 (fin _ (by rw [if_neg hu]))
  · by_cases e : j < b.rows ∧ i ≤ j
    · rw [if_pos e, if_neg (show ¬ (j < i ∨ b.rows ≤ j) by omega)]
    · rw [if_neg e, if_pos (show j < i ∨ b.rows ≤ j by omega)]

/-! ### the hypotheses can be met -/

theorem goodAlloc_exists : ∃ al : Alloc 𝕜, GoodAlloc al := by
  classical
  refine ⟨fun m _ => if h : BoundedMem m then h.choose else 0, fun m hm n c h1 _ => ?_⟩
  simp only [dif_pos hm] at h1
  exact hm.choose_spec c h1

theorem isEntry_exists (A0 : Nat → Nat → 𝕜) : ∃ f, IsEntry f A0 := by
  classical
  refine ⟨fun ri ci t N m => .ok fun c => if h : ∃ p : Nat × Nat, p.1 < N.rows ∧ p.2 < N.cols ∧ c = N.addr p.1 p.2 then
    some (op t (fun i j => A0 (ri i) (ci j)) h.choose.1 h.choose.2) else m c, fun ri ci t N m hN => ⟨_, rfl, ?_⟩⟩
  have key : ∀ i < N.rows, ∀ j < N.cols, (fun c => if h : ∃ p : Nat × Nat, p.1 < N.rows ∧ p.2 < N.cols ∧ c = N.addr p.1 p.2 then
    some (op t (fun i j => A0 (ri i) (ci j)) h.choose.1 h.choose.2) else m c) (N.addr i j) = some (op t (fun i j => A0 (ri i) (ci j)) i j) := by
    intro i hi j hj
    have h : ∃ p : Nat × Nat, p.1 < N.rows ∧ p.2 < N.cols ∧ N.addr i j = N.addr p.1 p.2 := ⟨(i, j), hi, hj, rfl⟩
    simp only [dif_pos h]
    obtain ⟨e1, e2⟩ := Mat.addr_inj hN.1 hi h.choose_spec.1 h.choose_spec.2.2
    rw [← e1, ← e2]
  refine ⟨⟨hN.1, fun i hi j hj => ?_⟩, fun i hi j hj => ?_, fun c hc => ?_⟩
  · rw [key i hi j hj]; rfl
  · unfold Mat.val; rw [key i hi j hj]; rfl
  · have : ¬ ∃ p : Nat × Nat, p.1 < N.rows ∧ p.2 < N.cols ∧ c = N.addr p.1 p.2 := fun ⟨p, h1, h2, h3⟩ => hc ⟨p.1, h1, p.2, h2, h3⟩
    simp only [dif_neg this]

/-- the matrix `(1 3; 2 4)` at address 0 -/
def mem22 : Mem ℝ := fun c => if c < 4 then some (c + 1) else none

theorem mem22_valid : (⟨0, 2, 2, 2⟩ : Mat).Valid mem22 :=
  ⟨le_rfl, fun i hi j hj => by
    simp only at hi hj
    have : (⟨0, 2, 2, 2⟩ : Mat).addr i j < 4 := by simp only [Mat.addr]; omega
    simp only [mem22, if_pos this, Option.isSome_some]⟩

theorem rk_empty_owns (m : Mem 𝕜) : RkOwns ⟨⟨0, 0, 0, 0⟩, ⟨0, 0, 0, 0⟩, 0⟩ m :=
  ⟨le_rfl, le_rfl, fun c _ h => absurd h (by simp), fun c _ h => absurd h (by simp), fun c h => absurd h.2 (by simp)⟩

theorem mem22_bounded : BoundedMem mem22 := ⟨4, fun c hc => if_neg (by omega)⟩

/-- the full cross approximation of a regular 2 by 2 matrix with accuracy zero is exact -/
example : ∃ (al : Alloc ℝ) (res : AcaRes ℝ), fullaca al (fun _ => 7) ⟨0, 2, 2, 2⟩ 0 ⟨⟨0, 0, 0, 0⟩, ⟨0, 0, 0, 0⟩, 0⟩ mem22 = .ok res ∧
    rkEntry res.r res.mem 1 0 = 2 := by
  obtain ⟨al, hal⟩ := goodAlloc_exists (𝕜 := ℝ)
  obtain ⟨res, h, e, -⟩ := C50_fullaca_exact hal (fun _ => 7) mem22_valid (rk_empty_owns _) mem22_bounded
    (fun c _ => ⟨fun h => absurd h.2 (by simp), fun h => absurd h.2 (by simp)⟩)
  refine ⟨al, res, h, ?_⟩
  rw [e 1 (by norm_num) 0 (by norm_num)]
  simp only [Mat.val, Mat.addr, mem22]
  norm_num

/-- the partial cross approximation of the identity is defined and exact, since its rows are linearly independent -/
example (n : Nat) (hn : 0 < n) : ∃ (al : Alloc ℝ) (f : Entry ℝ) (res : AcaRes ℝ), IsEntry f (fun i j => if i = j then 1 else 0) ∧
    partialaca al (fun _ => 7) f id n id n 0 ⟨⟨0, 0, 0, 0⟩, ⟨0, 0, 0, 0⟩, 0⟩ mem22 = .ok res ∧ res.r.k = n ∧
    ∀ x < n, ∀ y < n, rkEntry res.r res.mem x y = if x = y then 1 else 0 := by
  obtain ⟨al, hal⟩ := goodAlloc_exists (𝕜 := ℝ)
  obtain ⟨f, hf⟩ := isEntry_exists (𝕜 := ℝ) fun i j => if i = j then 1 else 0
  have hli : LinearIndependent ℝ (fun (x : Fin n) (y : Fin n) => if (id x.val : Nat) = id y.val then (1 : ℝ) else 0) := by
    rw [Fintype.linearIndependent_iff]
    intro g hg i
    have := congrFun hg i
    simpa [Finset.sum_apply, Fin.val_inj] using this
  rcases C50_partialaca hal (fun _ => 7) hf id id hn hn (accur := 0) one_pos (rk_empty_owns mem22) rfl rfl mem22_bounded with
    ⟨h, -⟩ | ⟨res, h, ⟨pr, pc, hc, -⟩, hk, hs, -⟩
  · exact absurd hli h
  · have hkn : res.r.k = n := by
      rcases Nat.lt_or_ge res.r.k n with e | e
      · exact absurd (hs e e).1 (lt_irrefl _)
      · exact le_antisymm hc.rank.1 e
    exact ⟨al, f, res, hf, h, hkn, C50_full_rank_exact hc (.inl hkn)⟩

/-- the zero matrix exists -/
example : ∃ (al : Alloc ℝ) (f : Entry ℝ), IsEntry f (fun _ _ => 0) ∧
    partialaca al (fun _ => 7) f id 3 id 3 0 ⟨⟨0, 0, 0, 0⟩, ⟨0, 0, 0, 0⟩, 0⟩ mem22 = .error .nan := by
  obtain ⟨al, hal⟩ := goodAlloc_exists (𝕜 := ℝ)
  obtain ⟨f, hf⟩ := isEntry_exists (𝕜 := ℝ) fun _ _ => 0
  exact ⟨al, f, hf, C50_partialaca_zero hal _ hf id id (by norm_num) (by norm_num) one_pos (rk_empty_owns mem22) rfl rfl mem22_bounded⟩

/-- both copy functions run on matrices in memory -/
example : ∃ m', copyLower true ⟨0, 2, 2, 1⟩ ⟨1, fun _ => 1⟩ ⟨2, 2, 1, 1⟩ mem22 = .ok m' := by
  obtain ⟨m', h, -⟩ := C50_copy_lower true (a := ⟨0, 2, 2, 1⟩) (b := ⟨2, 2, 1, 1⟩) (xi := ⟨1, fun _ => 1⟩) (m := mem22)
    ⟨le_rfl, fun i hi j hj => by
      simp only at hi hj
      have : (⟨0, 2, 2, 1⟩ : Mat).addr i j < 4 := by simp only [Mat.addr]; omega
      simp only [mem22, if_pos this, Option.isSome_some]⟩
    ⟨by norm_num, fun i hi j hj => by
      simp only at hi hj
      have : (⟨2, 2, 1, 1⟩ : Mat).addr i j < 4 := by simp only [Mat.addr]; omega
      simp only [mem22, if_pos this, Option.isSome_some]⟩
    (by
      rintro c ⟨i, hi, j, hj, rfl⟩ ⟨i', hi', j', hj', e⟩
      simp only [Mat.addr] at hi hj hi' hj' e
      omega) (by norm_num) rfl (by norm_num) (by norm_num) (by norm_num)
  exact ⟨m', h⟩

end H2.Props
