import Verif.Proof.Compress

/-! Error of the compression of H²-matrices: all blocks. -/

set_option linter.unusedSectionVars false

namespace H2.TB
open Spec Svd
variable {G 𝕜 : Type} [RCLike 𝕜]

/-- the errors of the new basis in all clusters, weighted by the energy `f` -/
def ErrT (frob : Bool) (q zl : ℝ) (f : List Nat → (Nat → 𝕜) → ℝ) : CBV G 𝕜 → List Nat → ℝ → CBV G 𝕜 → Prop
  | .mk t k kt kb V E n son, p, eps, cb' =>
    (∃ (m : Nat) (C : Nat → Nat → 𝕜), (∀ x, en k m C x = f p x) ∧ ErrLe frob t.cl.size m (dz (dErr (.mk t k kt kb V E n son) cb') k C) (eps ^ 2 * treeSum q (.mk t k kt kb V E n son))) ∧
    ∀ (i : Fin n) (h : i.1 < cb'.sons), ErrT frob q zl f (son i) (p ++ [i.1]) (eps * zl) (cb'.son ⟨i, h⟩)

theorem ErrT.root {frob : Bool} {q zl : ℝ} {f : List Nat → (Nat → 𝕜) → ℝ} {cb cb' : CBV G 𝕜} {p : List Nat} {eps : ℝ} (h : ErrT frob q zl f cb p eps cb') :
    ∃ (m : Nat) (C : Nat → Nat → 𝕜), (∀ x, en cb.k m C x = f p x) ∧ ErrLe frob cb.t.cl.size m (dz (dErr cb cb') cb.k C) (eps ^ 2 * treeSum q cb) := by cases cb; exact h.1
theorem ErrT.son {frob : Bool} {q zl : ℝ} {f : List Nat → (Nat → 𝕜) → ℝ} {cb cb' : CBV G 𝕜} {p : List Nat} {eps : ℝ} (h : ErrT frob q zl f cb p eps cb') (i : Fin cb.sons) (h' : i.1 < cb'.sons) :
    ErrT frob q zl f (cb.son i) (p ++ [i.1]) (eps * zl) (cb'.son ⟨i, h'⟩) := by cases cb; exact h.2 i h'

/-- local weights and the accuracy of the truncation -/
theorem errT_of {frob : Bool} {q zl : ℝ} {f : List Nat → (Nat → 𝕜) → ℝ} : ∀ {b : BRef G 𝕜} {old new : COp G 𝕜} {cb' : CBV G 𝕜} {eps : ℝ} {cw : Option (COp G 𝕜)} {un : Prop}, OpFull old b.cb →
    Contrib f b old new → (∀ p, old.nodeAt p = none ∨ ∃ nd, old.nodeAt p = some nd ∧ nd.krow = 0) → Accurate frob un q zl eps b.cb cb' (some new) cw → ErrT frob q zl f b.cb b.path eps cb' := by
  intro b
  obtain ⟨tr, p, cb⟩ := b
  induction cb generalizing p with
  | mk t k kt kb V E n son ih =>
    intro old new cb' eps cw un hf hc hz ha
    cases old with
    | mk ot okr okc oC on oson =>
    cases new with
    | mk nt nkr nkc nC nn nson =>
    obtain ⟨-, -, -, -, ef, hf2⟩ := hf
    obtain ⟨c1, c2, c3, c4, c5, c6, c7⟩ := hc
    replace c6 : nn = on := c6
    replace ef : on = n := ef
    subst c6 ef
    replace ha : Accurate frob un q zl eps (.mk t k kt kb V E nn son) cb' (some (.mk nt nkr nkc nC nn nson)) cw := ha
    rw [Accurate] at ha
    refine ⟨⟨nC.rows, nC.e, fun x => ?_, ?_⟩, fun i h => ?_⟩
    · have h0 : okr = 0 := by
        rcases hz [] with h | ⟨nd, h, h'⟩
        · cases h
        · rw [← Option.some.inj (show some _ = some nd from h)] at h'; exact h'
      have h1 := c5 x
      subst h0
      replace c3 : nC.rows = nkr := c3
      replace h1 : vecSq nkr (matVec k nC.e x) = vecSq 0 (matVec k oC.e x) + f p x := h1
      rw [show vecSq 0 (matVec k oC.e x) = 0 from Finset.sum_range_zero _, zero_add] at h1
      unfold en
      rw [c3, h1]
    · have h1 := ha.1 _ rfl
      unfold WeightedErr projErr at h1
      exact h1
    · obtain ⟨e, ha4⟩ := ha.2.2.2
      have h2 := ha4 i
      rw [show opSon (some (COp.mk nt nkr nkc nC nn nson)) i.1 = some (nson i) from dif_pos i.2] at h2
      refine ih i (p ++ [i.1]) (hf2 i) (c7 i i.2) (fun q => ?_) h2
      have h3 := hz (i.1 :: q)
      rwa [show COp.nodeAt (COp.mk ot okr okc oC nn oson) (i.1 :: q) = COp.nodeAt (oson i) q from dif_pos i.2] at h3

theorem ofBasis_zero (junk : Nat → 𝕜) : ∀ (cb : CBV G 𝕜) (p : List Nat), (COp.ofBasis junk cb).nodeAt p = none ∨ ∃ nd, (COp.ofBasis junk cb).nodeAt p = some nd ∧ nd.krow = 0 := by
  intro cb
  induction cb with
  | mk t k kt kb V E n son ih =>
    intro p
    cases p with
    | nil => exact .inr ⟨_, rfl, rfl⟩
    | cons i p =>
      by_cases h : i < n
      · rw [show (COp.ofBasis junk (.mk t k kt kb V E n son)).nodeAt (i :: p) = (COp.ofBasis junk (son ⟨i, h⟩)).nodeAt p from dif_pos h]
        exact ih _ p
      · exact .inl (dif_neg h)

/-- one direction: the change from the basis `b` to the basis `b'` -/
structure Half (frob : Bool) (q zl eps : ℝ) (f : List Nat → (Nat → 𝕜) → ℝ) (b b' : BRef G 𝕜) (o : Option (COp G 𝕜)) : Prop where
  tree : b.tree ≠ b'.tree
  op : ∃ x, o = some x ∧ OpDims b.cb b'.cb x ∧ Products b'.cb b.cb x
  orth : Spec.Orthonormal b'.cb
  ok : CBVOk b'.cb
  red : Reduced b.cb b'.cb
  err : ErrT frob q zl f b.cb b.path (eps * zl ^ b.path.length) b'.cb

theorem products_son {cb cb' : CBV G 𝕜} {x : COp G 𝕜} (h : Products cb' cb x) (i : Fin cb.sons) (h1 : i.1 < cb'.sons) (h2 : i.1 < x.sons) :
    Products (cb'.son ⟨i, h1⟩) (cb.son i) (x.son ⟨i, h2⟩) := by
  cases x with
  | mk xt xkr xkc xC xn xson => exact (h.2.2.2.2.2 ⟨i, h2⟩).2.2
theorem orth_son {cb : CBV G 𝕜} (h : Spec.Orthonormal cb) (i : Fin cb.sons) : Spec.Orthonormal (cb.son i) := by cases cb; exact h.2 i
theorem red_son {cb cb' : CBV G 𝕜} (h : Reduced cb cb') (i : Fin cb.sons) (h1 : i.1 < cb'.sons) : Reduced (cb.son i) (cb'.son ⟨i, h1⟩) := by
  cases cb; cases cb'; exact h.2.2.2.2 ⟨i.1, h1⟩
theorem red_k {cb cb' : CBV G 𝕜} (h : Reduced cb cb') : cb'.k ≤ cb.k := by cases cb; cases cb'; exact h.2.1

namespace Half
variable {frob : Bool} {q zl eps : ℝ} {f : List Nat → (Nat → 𝕜) → ℝ} {b b' : BRef G 𝕜} {o : Option (COp G 𝕜)}

theorem change (h : Half frob q zl eps f b b' o) : BChange b b' o := .inr ⟨h.tree, h.op.imp fun _ h => ⟨h.1, h.2.1⟩⟩

theorem son (h : Half frob q zl eps f b b' o) (i : Fin b.cb.sons) : ∃ h1 : i.1 < b'.cb.sons, Half frob q zl eps f (b.son i) (b'.son ⟨i, h1⟩) (opSon o i) := by
  obtain ⟨h1, h2, -⟩ := h.change.son i
  refine ⟨h1, ?_⟩
  obtain ⟨x, rfl, hd, hp⟩ := h.op
  obtain ⟨-, -, -, -, -, -, hx⟩ := hd.top
  have hxi : i.1 < x.sons := by rw [hx]; exact i.2
  refine ⟨h.tree, ⟨x.son ⟨i, hxi⟩, ?_, hd.son i h1 hxi, ?_⟩, ?_, ?_, ?_, ?_⟩
  · simp only [opSon]; rw [dif_pos hxi]
  · exact products_son hp i h1 hxi
  · exact orth_son h.orth _
  · exact h.ok.son _
  · exact red_son h.red i h1
  · have h5 := h.err.son i h1
    have h6 : eps * zl ^ b.path.length * zl = eps * zl ^ (b.son i).path.length := by
      show _ = eps * zl ^ (b.path ++ [i.1]).length
      rw [List.length_append, List.length_singleton, pow_succ, mul_assoc]
    rw [h6] at h5
    exact h5

theorem t_eq (h : Half frob q zl eps f b b' o) : b'.cb.t = b.cb.t := h.change.t
theorem k_le (h : Half frob q zl eps f b b' o) : b'.cb.k ≤ b.cb.k := red_k h.red
theorem orth_root (h : Half frob q zl eps f b b' o) : ∀ a < b'.cb.k, ∀ c < b'.cb.k, cross b'.cb b'.cb a c = if a = c then 1 else 0 := orthonormal_top h.orth
theorem chg_eq (h : Half frob q zl eps f b b' o) : ∀ a < b'.cb.k, ∀ c < b.cb.k, chg b b' o a c = cross b'.cb b.cb a c := by
  intro a ha c hc
  obtain ⟨x, rfl, -, hp⟩ := h.op
  rw [chg_ne h.tree]
  exact products_top hp a ha c hc

theorem mono {g : List Nat → (Nat → 𝕜) → ℝ} (hfg : f = g) (h : Half frob q zl eps f b b' o) : Half frob q zl eps g b b' o := hfg ▸ h

/-- the sons of a block in one direction -/
theorem refs (h : Half frob q zl eps f b b' o) {n : Nat} {R : Fin n → BRef G 𝕜} (hR : SonRefs b R) (i : Fin n) (N : BRef G 𝕜 × Option (COp G 𝕜))
    (n1 : R i = b → N = (b', o)) (n2 : R i ≠ b → ∃ h : i.1 < b'.cb.sons, N = (b'.son ⟨i, h⟩, opSon o i)) : Half frob q zl eps f (R i) N.1 N.2 := by
  rcases hR with hR | ⟨e, hR⟩
  · rw [n1 (hR i), hR i]; exact h
  · subst e
    obtain ⟨h3, rfl⟩ := n2 (by rw [hR]; exact bref_son_ne b _)
    rw [hR]
    exact (h.son i).2
end Half

theorem isProj_of {fr fc : List Nat → (Nat → 𝕜) → ℝ} {frob : Bool} {q zl eps : ℝ} {rb cb rb' cb' : BRef G 𝕜} {ro co : Option (COp G 𝕜)} (hr : Half frob q zl eps fr rb rb' ro)
    (hc : Half frob q zl eps fc cb cb' co) {S S' : VMat 𝕜} (h : ∀ a < rb'.cb.k, ∀ b < cb'.cb.k,
      S'.e a b = ∑ i ∈ Finset.range rb.cb.k, ∑ j ∈ Finset.range cb.cb.k, chg rb rb' ro a i * S.e i j * star (chg cb cb' co b j)) : IsProj rb.cb cb.cb rb'.cb cb'.cb S S' := by
  intro a ha b hb
  rw [h a ha b hb]
  refine Finset.sum_congr rfl fun i hi => Finset.sum_congr rfl fun j hj => ?_
  rw [hr.chg_eq a ha i (Finset.mem_range.mp hi), hc.chg_eq b hb j (Finset.mem_range.mp hj)]

theorem nodeBound_nonneg {q zl eps : ℝ} (hq : 0 ≤ q) (b : BRef G 𝕜) : 0 ≤ nodeBound q zl eps b := mul_nonneg (sq_nonneg _) (treeSum_nonneg hq _)

/-- the error of a uniform block -/
theorem uni_err {fr fc : List Nat → (Nat → 𝕜) → ℝ} {frob : Bool} {q zl eps : ℝ} (hq : 0 ≤ q) {tm : Option CMode} {rb cb rb' cb' : BRef G 𝕜} {ro co : Option (COp G 𝕜)}
    (hr : Half frob q zl eps fr rb rb' ro) (hc : Half frob q zl eps fc cb cb' co) {S S' : VMat 𝕜} (h : IsProj rb.cb cb.cb rb'.cb cb'.cb S S')
    (h1 : ∀ x, rowSum tm (.uni rb cb S) rb.path x ≤ fr rb.path x) (h2 : ∀ x, colSum tm (.uni rb cb S) cb.path x ≤ fc cb.path x) :
    ErrLe frob rb.cb.t.cl.size cb.cb.t.cl.size (bErr (blockScale tm rb.cb cb.cb S) rb.cb cb.cb rb'.cb cb'.cb S S') (nodeBound q zl eps rb + nodeBound q zl eps cb) := by
  obtain ⟨m1, C1, e1, b1⟩ := hr.err.root
  obtain ⟨m2, C2, e2, b2⟩ := hc.err.root
  refine errLe_add_le (block_le hr.t_eq hc.t_eq h hr.orth_root) ?_ (errLe_adj (nodeBound_nonneg hq _) ?_)
  · exact errLe_energy (nodeBound_nonneg hq _) (fun x => by rw [yMat_en, e1]; exact h1 x) b1
  · exact errLe_energy (nodeBound_nonneg hq _) (fun x => by rw [xMat_en, e2]; exact h2 x) b2

theorem rowSum_nonneg (tm : Option CMode) : ∀ (h : H2V G 𝕜) (p : List Nat) (x : Nat → 𝕜), 0 ≤ rowSum tm h p x := by
  intro h
  induction h with
  | zero rb cb => intro p x; exact le_rfl
  | full rb cb f => intro p x; exact le_rfl
  | uni rb cb S => intro p x; unfold rowSum; split; exacts [mul_nonneg (sq_nonneg _) (vecSq_nonneg _ _), le_rfl]
  | super rb cb m n son ih => intro p x; exact Finset.sum_nonneg fun i _ => Finset.sum_nonneg fun j _ => ih i j p x
theorem colSum_nonneg (tm : Option CMode) : ∀ (h : H2V G 𝕜) (p : List Nat) (x : Nat → 𝕜), 0 ≤ colSum tm h p x := by
  intro h
  induction h with
  | zero rb cb => intro p x; exact le_rfl
  | full rb cb f => intro p x; exact le_rfl
  | uni rb cb S => intro p x; unfold colSum; split; exacts [mul_nonneg (sq_nonneg _) (vecSq_nonneg _ _), le_rfl]
  | super rb cb m n son ih => intro p x; exact Finset.sum_nonneg fun i _ => Finset.sum_nonneg fun j _ => ih i j p x

theorem le_double {m n : Nat} {f : Fin m → Fin n → ℝ} (h : ∀ i j, 0 ≤ f i j) (i : Fin m) (j : Fin n) : f i j ≤ ∑ i, ∑ j, f i j :=
  (Finset.single_le_sum (f := fun j => f i j) (fun j _ => h i j) (Finset.mem_univ j)).trans
    (Finset.single_le_sum (f := fun i => ∑ j, f i j) (fun i _ => Finset.sum_nonneg fun j _ => h i j) (Finset.mem_univ i))

/-- all blocks -/
theorem blocks_close {fr fc : List Nat → (Nat → 𝕜) → ℝ} {frob : Bool} {q zl eps : ℝ} (hq : 0 ≤ q) {tm : Option CMode} : ∀ {h : H2V G 𝕜}, H2VOk h → ∀ {rb cb : BRef G 𝕜} {ro co : Option (COp G 𝕜)} {h' : H2V G 𝕜},
    Half frob q zl eps fr h.rb rb ro → Half frob q zl eps fc h.cb cb co → (∀ p x, rowSum tm h p x ≤ fr p x) → (∀ p x, colSum tm h p x ≤ fc p x) →
    ProjectedTo h rb ro cb co h' → BlocksClose frob tm (nodeBound q zl eps) (nodeBound q zl eps) h h' := by
  intro h
  induction h with
  | zero hrb hcb => intro _ rb cb ro co h' _ _ _ _ hp; exact ⟨rb, cb, hp⟩
  | uni hrb hcb S =>
    intro ho rb cb ro co h' hr hc h1 h2 hp
    obtain ⟨S', rfl, -, -, h3⟩ := hp
    exact ⟨rb, cb, S', rfl, hr.t_eq, hc.t_eq, hr.k_le, hc.k_le, uni_err hq hr hc (isProj_of hr hc h3) (h1 _) (h2 _)⟩
  | full hrb hcb f =>
    intro ho rb cb ro co h' hr hc _ _ hp
    obtain ⟨f', rfl, h1, h2, h3⟩ := hp
    exact ⟨rb, cb, f', rfl, hr.t_eq, hc.t_eq, h1, h2, h3⟩
  | super hrb hcb m n son ih =>
    intro ho rb cb ro co h' hr hc h1 h2 hp
    obtain ⟨_, _, ⟨R, C, hRC, hR, hC⟩, hson⟩ := ho
    obtain ⟨son', rfl, NR, NC, hN, hs⟩ := hp
    refine ⟨rb, cb, son', rfl, fun i j => ?_⟩
    obtain ⟨n1, n2, n3, n4⟩ := hN i j
    rw [(hRC i j).1] at n1 n2
    rw [(hRC i j).2] at n3 n4
    refine ih i j (hson i j) ?_ ?_ (fun p x => ?_) (fun p x => ?_) (hs i j)
    · rw [(hRC i j).1]; exact hr.refs hR i _ n1 n2
    · rw [(hRC i j).2]; exact hc.refs hC j _ n3 n4
    · exact (le_double (fun i j => rowSum_nonneg tm (son i j) p x) i j).trans (h1 p x)
    · exact (le_double (fun i j => colSum_nonneg tm (son i j) p x) i j).trans (h2 p x)

end H2.TB
