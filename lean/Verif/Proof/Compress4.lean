import Verif.Proof.Compress3

/-! Compression of H²-matrices: structure of the new bases, lost blocks. -/

set_option linter.unusedSectionVars false

namespace H2.TB
open Spec Svd
variable {G 𝕜 : Type} [RCLike 𝕜]

theorem cloneStructure_tot (q : QrEnv 𝕜) : ∀ {cb : CBV G 𝕜}, CBVFull cb → Tot (CBV.cloneStructure q cb) fun r => SameClusters cb r := by
  intro cb
  induction cb with
  | mk t k kt kb V E n son ih =>
    intro hf
    obtain ⟨e, hf2⟩ := hf
    unfold CBV.cloneStructure
    by_cases hn : 0 < n
    · rw [if_pos hn]
      refine Tot.cassert (by simpa using e.symm) ?_
      refine Tot.bind (seqFin_tot (P := fun i r => SameClusters (son i) r) fun i => ih i (hf2 i).2) fun s _ hs => Tot.pure ⟨rfl, rfl, fun i => hs i⟩
    · rw [if_neg hn]
      have : n = 0 := by omega
      subst this
      exact Tot.pure ⟨rfl, rfl, fun i => i.elim0⟩

theorem opFull_for : ∀ {co : COp G 𝕜} {cb : CBV G 𝕜}, OpFull co cb → OpFor co cb := by
  intro co
  induction co with
  | mk ct kr kc C m cson ih =>
    intro cb h
    obtain ⟨h1, h2, h3, h4, e, h5⟩ := h
    exact ⟨h1, h2, h3, h4, fun i hi => ih i (h5 i)⟩

/-- clusters without weights get the rank zero -/
def ZeroT (f : List Nat → (Nat → 𝕜) → ℝ) : CBV G 𝕜 → List Nat → CBV G 𝕜 → Prop
  | .mk _ _ _ _ _ _ n son, p, cb' => (∀ x, f p x = 0) → cb'.k = 0 ∧ ∀ (i : Fin n) (h : i.1 < cb'.sons), ZeroT f (son i) (p ++ [i.1]) (cb'.son ⟨i, h⟩)

theorem zeroT_of {f : List Nat → (Nat → 𝕜) → ℝ} : ∀ {b : BRef G 𝕜} {old new : COp G 𝕜} {cb' : CBV G 𝕜}, OpFull old b.cb →
    Contrib f b old new → (∀ p, old.nodeAt p = none ∨ ∃ nd, old.nodeAt p = some nd ∧ nd.krow = 0) → Lost b.cb (some new) cb' → ZeroT f b.cb b.path cb' := by
  intro b
  obtain ⟨tr, p, cb⟩ := b
  induction cb generalizing p with
  | mk t k kt kb V E n son ih =>
    intro old new cb' hf hc hz ha hzero
    cases old with
    | mk ot okr okc oC on oson =>
    cases new with
    | mk nt nkr nkc nC nn nson =>
    obtain ⟨-, -, -, -, ef, hf2⟩ := hf
    obtain ⟨c1, c2, c3, c4, c5, c6, c7⟩ := hc
    replace c6 : nn = on := c6
    replace ef : on = n := ef
    subst c6 ef
    replace ha : Lost (.mk t k kt kb V E nn son) (some (.mk nt nkr nkc nC nn nson)) cb' := ha
    obtain ⟨h1, h2⟩ := ha fun x => by
      have h0 : okr = 0 := by
        rcases hz [] with h | ⟨nd, h, h'⟩
        · cases h
        · rw [← Option.some.inj (show some _ = some nd from h)] at h'; exact h'
      have h1 := c5 x
      subst h0
      replace c3 : nC.rows = nkr := c3
      replace h1 : vecSq nkr (matVec k nC.e x) = vecSq 0 (matVec k oC.e x) + f p x := h1
      rw [show vecSq 0 (matVec k oC.e x) = 0 from Finset.sum_range_zero _, zero_add, hzero x] at h1
      show vecSq nC.rows (matVec k nC.e x) = 0
      rw [c3, h1]
    refine ⟨h1, fun i h => ?_⟩
    have h3 := h2 i h
    rw [show opSon (some (COp.mk nt nkr nkc nC nn nson)) i.1 = some (nson i) from dif_pos i.2] at h3
    refine ih i (p ++ [i.1]) (hf2 i) (c7 i i.2) (fun q => ?_) h3
    have h3 := hz (i.1 :: q)
    rwa [show COp.nodeAt (COp.mk ot okr okc oC nn oson) (i.1 :: q) = COp.nodeAt (oson i) q from dif_pos i.2] at h3

/-- a basis below the root -/
def ZeroB (f : List Nat → (Nat → 𝕜) → ℝ) (b b' : BRef G 𝕜) : Prop := (∀ q, q <+: b.path → q ≠ b.path → ∀ x, f q x = 0) → ZeroT f b.cb b.path b'.cb

theorem ZeroB.son {f : List Nat → (Nat → 𝕜) → ℝ} {b b' : BRef G 𝕜} (h : ZeroB f b b') (i : Fin b.cb.sons) (h1 : i.1 < b'.cb.sons) : ZeroB f (b.son i) (b'.son ⟨i, h1⟩) := by
  intro hq
  replace hq : ∀ q, q <+: b.path ++ [i.1] → q ≠ b.path ++ [i.1] → ∀ x, f q x = 0 := hq
  have h2 : ∀ q, q <+: b.path → ∀ x, f q x = 0 := fun q hp => hq q (hp.trans (List.prefix_append _ _)) fun e => by
    have := hp.length_le
    rw [e] at this
    simp at this
  have h3 := h fun q hp _ => h2 q hp
  show ZeroT f (b.cb.son i) (b.path ++ [i.1]) (b'.cb.son ⟨i, h1⟩)
  have h4 := h2 b.path (List.prefix_rfl)
  obtain ⟨tr, p, cb⟩ := b
  cases cb with
  | mk t k kt kb V E n son => exact (h3 h4).2 i h1

theorem rows_lost {f : List Nat → (Nat → 𝕜) → ℝ} : ∀ {h : H2V G 𝕜}, H2VOk h → ∀ {rb cb : BRef G 𝕜} {ro co : Option (COp G 𝕜)} {h' : H2V G 𝕜}, BChange h.rb rb ro → BChange h.cb cb co →
    ZeroB f h.rb rb → ProjectedTo h rb ro cb co h' → RowsLost f h h' := by
  intro h
  induction h with
  | zero hrb hcb =>
    intro _ rb cb ro co h' _ _ _ hp r c
    rw [show h' = .zero rb cb from hp]
    rfl
  | full hrb hcb f => intro _ rb cb ro co h' _ _ _ _; trivial
  | uni hrb hcb S =>
    intro ho rb cb ro co h' hr hc hz hp hq r c
    obtain ⟨S', rfl, -⟩ := hp
    have h1 : rb.cb.k = 0 := by
      have h2 := hz fun q hq' _ => hq q hq'
      have h3 := hq hrb.path List.prefix_rfl
      obtain ⟨tr, p, cb0⟩ := hrb
      cases cb0
      exact (h2 h3).1
    unfold h2vplace
    rw [h1, Finset.sum_range_zero]
  | super hrb hcb m n son ih =>
    intro ho rb cb ro co h' hr hc hz hp
    obtain ⟨_, _, ⟨R, C, hRC, hR, hC⟩, hson⟩ := ho
    obtain ⟨son', rfl, NR, NC, hN, hs⟩ := hp
    refine ⟨rb, cb, son', rfl, fun i j => ?_⟩
    obtain ⟨n1, n2, n3, n4⟩ := hN i j
    rw [(hRC i j).1] at n1 n2
    rw [(hRC i j).2] at n3 n4
    have key : ∀ {b b' : BRef G 𝕜} {o : Option (COp G 𝕜)} {n : Nat} {R : Fin n → BRef G 𝕜}, BChange b b' o → SonRefs b R → ∀ (i : Fin n) (N : BRef G 𝕜 × Option (COp G 𝕜)),
        (R i = b → N = (b', o)) → (R i ≠ b → ∃ h : i.1 < b'.cb.sons, N = (b'.son ⟨i, h⟩, opSon o i)) → BChange (R i) N.1 N.2 ∧ (ZeroB f b b' → ZeroB f (R i) N.1) := by
      intro b b' o n R hb hR i N n1 n2
      rcases hR with hR | ⟨e, hR⟩
      · rw [n1 (hR i), hR i]; exact ⟨hb, id⟩
      · subst e
        obtain ⟨h3, rfl⟩ := n2 (by rw [hR]; exact bref_son_ne b _)
        rw [hR]
        obtain ⟨h4, h5, -⟩ := hb.son i
        exact ⟨h5, fun h => h.son i h3⟩
    have k1 := key hr hR i _ n1 n2
    have k2 := key hc hC j _ n3 n4
    rw [← (hRC i j).1] at k1
    rw [← (hRC i j).2] at k2
    exact ih i j (hson i j) k1.1 k2.1 (k1.2 hz) (hs i j)

end H2.TB
