import Verif.Model.DdCluster
import Verif.Spec.DdCluster
import Verif.Spec.Block
import Verif.Proof.ClusterTerm
import Verif.Proof.Block

set_option linter.unusedSectionVars false

namespace H2.CB
open H2 Spec
variable {K : Type} [Field K] [LinearOrder K] {F : Type}

/-! ### flags -/

theorem setFlags_tot (v : Nat) (idx : Nat → Nat) (off n : Nat) (flag : Arr Nat) (h : ∀ i < n, idx (off + i) < flag.n) :
    Tot (setFlags v idx off n flag) (fun fl => fl.n = flag.n ∧ (∀ i < n, fl.v (idx (off + i)) = v) ∧
      ∀ c, (∀ i < n, c ≠ idx (off + i)) → fl.v c = flag.v c) := by
  unfold setFlags
  refine forUp_tot (fun k (fl : Arr Nat) => fl.n = flag.n ∧ (∀ i < k, fl.v (idx (off + i)) = v) ∧
      ∀ c, (∀ i < k, c ≠ idx (off + i)) → fl.v c = flag.v c) (Nat.zero_le _) ⟨rfl, fun i hi => absurd hi (Nat.not_lt_zero _), fun _ _ => rfl⟩ ?_
  rintro k fl - hk ⟨h1, h2, h3⟩
  rw [Arr.set_ok (by rw [h1]; exact h k hk)]
  refine ⟨_, rfl, h1, fun i hi => ?_, fun c hc => ?_⟩
  · dsimp only
    split
    · rfl
    · rename_i hne
      refine h2 i ?_
      rcases Nat.lt_succ_iff_lt_or_eq.1 hi with h | h
      · exact h
      · subst h; exact absurd rfl hne
  · dsimp only
    rw [if_neg (hc k (Nat.lt_succ_self k))]
    exact h3 c (fun i hi => hc i (by omega))

/-- row `r` has an entry with flag 1 -/
def Touch (sp : Sparse F) (flag : Arr Nat) (r : Nat) : Prop := ∃ k, InRow sp r k ∧ flag.v (sp.col.v k) = 1

theorem touches_tot (sp : Sparse F) (flag : Arr Nat) : ∀ (n j : Nat), j + n ≤ sp.col.n → (∀ k < sp.col.n, sp.col.v k < flag.n) →
    ∃ b, touches sp flag n j = .ok b ∧ (b = true ↔ ∃ k, j ≤ k ∧ k < j + n ∧ flag.v (sp.col.v k) = 1) := by
  intro n
  induction n with
  | zero => intro j _ _; exact ⟨false, rfl, by simp; intro k h1 h2; omega⟩
  | succ n ih =>
    intro j hj hc
    rw [touches, Arr.get_ok (by omega), ok_bind, Arr.get_ok (hc j (by omega)), ok_bind]
    split
    · rename_i h
      exact ⟨true, rfl, by simp only [true_iff]; exact ⟨j, le_refl _, by omega, h⟩⟩
    · rename_i h
      obtain ⟨b, e, hb⟩ := ih (j + 1) (by omega) hc
      refine ⟨b, e, hb.trans ⟨fun ⟨k, h1, h2, h3⟩ => ⟨k, by omega, by omega, h3⟩, fun ⟨k, h1, h2, h3⟩ => ⟨k, ?_, by omega, h3⟩⟩⟩
      by_contra hk
      have : k = j := by omega
      subst this
      exact h h3

/-- what `separate` and the builders need from the matrix and the flags -/
structure Safe (sp : Sparse F) (flag : Arr Nat) : Prop where
  csr : CSR sp
  len : sp.cols ≤ flag.n
  len' : sp.rows ≤ flag.n

theorem row_le {sp : Sparse F} (h : CSR sp) : ∀ i ≤ sp.rows, sp.row.v i ≤ sp.nz := by
  have key : ∀ n i, i + n = sp.rows → sp.row.v i ≤ sp.nz := by
    intro n
    induction n with
    | zero => intro i hi; rw [← h.last]; rw [show i = sp.rows by omega]
    | succ n ih => intro i hi; exact le_trans (h.mono i (by omega)) (ih (i + 1) (by omega))
  intro i hi
  exact key (sp.rows - i) i (by omega)

theorem row_touch {sp : Sparse F} {flag : Arr Nat} (h : CSR sp) (hl : sp.cols ≤ flag.n) {r : Nat} (hr : r < sp.rows) :
    ∃ b, (do let lo ← sp.row.get r; let hi ← sp.row.get (r + 1); touches sp flag (hi - lo) lo) = .ok b ∧ (b = true ↔ Touch sp flag r) := by
  rw [Arr.get_ok (by rw [h.nrow]; omega), ok_bind, Arr.get_ok (by rw [h.nrow]; omega), ok_bind]
  have h1 := h.mono r hr
  have h2 := row_le h (r + 1) (by omega)
  obtain ⟨b, e, hb⟩ := touches_tot sp flag (sp.row.v (r + 1) - sp.row.v r) (sp.row.v r) (by rw [h.ncol]; omega)
    (fun k hk => lt_of_lt_of_le (h.inCols k (by rw [← h.ncol]; exact hk)) hl)
  refine ⟨b, e, hb.trans ⟨fun ⟨k, h3, h4, h5⟩ => ⟨k, ⟨h3, by omega⟩, h5⟩, fun ⟨k, ⟨h3, h4⟩, h5⟩ => ⟨k, h3, by omega, h5⟩⟩⟩

theorem sepLoop_tot {sp : Sparse F} {flag : Arr Nat} (h : CSR sp) (hl : sp.cols ≤ flag.n) (off size : Nat) :
    ∀ (n i s2 : Nat) (idx : Nat → Nat), i + n + s2 = size → (∀ k, i ≤ k → k < i + n → idx (off + k) < sp.rows) →
    Tot (sepLoop sp flag off size n i s2 idx) (fun r => r.2.1 + r.2.2 = size ∧ i ≤ r.2.1 ∧ s2 ≤ r.2.2 ∧ SegRearranged (off + i) n idx r.1 ∧
      (∀ k, i ≤ k → k < r.2.1 → ¬ Touch sp flag (r.1 (off + k))) ∧ (∀ k, r.2.1 ≤ k → k < i + n → Touch sp flag (r.1 (off + k)))) := by
  intro n
  induction n with
  | zero =>
    intro i s2 idx hs _
    exact ⟨_, rfl, by simp only; omega, le_refl _, le_refl _, SegRearranged.refl _ _ _, fun k h1 h2 => by simp only at h2; omega, fun k h1 h2 => by simp only at h1; omega⟩
  | succ n ih =>
    intro i s2 idx hs hb
    obtain ⟨b, e, hbt⟩ := row_touch (flag := flag) h hl (hb i (le_refl _) (by omega))
    have e2 : sepLoop sp flag off size (n + 1) i s2 idx = (if b then sepLoop sp flag off size n i (s2 + 1) (swapIdx idx (off + i) (off + (size - s2 - 1)))
        else sepLoop sp flag off size n (i + 1) s2 idx) := by
      rw [sepLoop]
      rw [Arr.get_ok (by have := hb i (le_refl _) (by omega); rw [h.nrow]; omega), ok_bind, Arr.get_ok (by have := hb i (le_refl _) (by omega); rw [h.nrow]; omega), ok_bind] at e ⊢
      rw [e, ok_bind]
    rw [e2]
    cases hbb : b with
    | true =>
      simp only [if_true]
      have hlast : size - s2 - 1 = i + n := by omega
      rw [hlast]
      obtain ⟨r, er, r1, r2, r3, r4, r5, r6⟩ := ih i (s2 + 1) (swapIdx idx (off + i) (off + (i + n))) (by omega) (by
        intro k h1 h2
        unfold swapIdx
        rw [if_neg (by omega)]
        split
        · have := hb (i + n) (by omega) (by omega); exact this
        · exact hb k h1 (by omega))
      refine ⟨r, er, r1, r2, by omega, ?_, r5, ?_⟩
      · exact (SegRearranged.swap idx ⟨by omega, by omega⟩ ⟨by omega, by omega⟩).trans (r4.mono (le_refl _) (by omega))
      · intro k h1 h2
        by_cases hk : k = i + n
        · subst hk
          rw [r4.outside (by omega)]
          unfold swapIdx
          rw [if_pos rfl]
          exact hbt.1 hbb
        · exact r6 k h1 (by omega)
    | false =>
      simp only [Bool.false_eq_true, if_false]
      obtain ⟨r, er, r1, r2, r3, r4, r5, r6⟩ := ih (i + 1) s2 idx (by omega) (fun k h1 h2 => hb k (by omega) (by omega))
      refine ⟨r, er, r1, by omega, r3, r4.mono (by omega) (by omega), ?_, fun k h1 h2 => r6 k h1 (by omega)⟩
      intro k h1 h2
      by_cases hk : k = i
      · subst hk
        rw [r4.outside (by omega)]
        intro ht
        rw [hbt.2 ht] at hbb; cases hbb
      · exact r5 k (by omega) h2

/-- the separator is found and the flags are restored -/
structure SepOK (sp : Sparse F) (flag : Arr Nat) (off size size0 size1 : Nat) (a : Nat → Nat) (r : (Nat → Nat) × Nat × Nat × Arr Nat) : Prop where
  perm : SegRearranged (off + size0) size1 a r.1
  sum : size0 + r.2.1 + r.2.2.1 = size
  flags : r.2.2.2 = flag
  sep : ∀ i < r.2.1, ∀ k < size0, ¬ HasPos sp (r.1 (off + size0 + i)) (r.1 (off + k))
  conn : ∀ i < r.2.2.1, ∃ k < size0, HasPos sp (r.1 (off + size0 + r.2.1 + i)) (r.1 (off + k))

theorem separate_tot {sp : Sparse F} {flag : Arr Nat} (hs : Safe sp flag) (h0 : ∀ c, flag.v c = 0) {off size size0 size1 : Nat} {a : Nat → Nat}
    (hsum : size0 + size1 = size) (hb : ∀ i < size, a (off + i) < sp.rows) :
    Tot (separate sp flag off size size0 size1 a) (SepOK sp flag off size size0 size1 a) := by
  unfold separate
  refine Tot.bind (setFlags_tot 1 a off size0 flag (fun i hi => lt_of_lt_of_le (hb i (by omega)) hs.len')) ?_
  rintro fl - ⟨f1, f2, f3⟩
  have hflag : ∀ c, fl.v c = 1 ↔ ∃ i < size0, c = a (off + i) := by
    intro c
    constructor
    · intro hc
      by_contra hn
      push Not at hn
      rw [f3 c hn, h0] at hc
      cases hc
    · rintro ⟨i, hi, rfl⟩; exact f2 i hi
  refine Tot.bind (sepLoop_tot hs.csr (by rw [f1]; exact hs.len) off size size1 size0 0 a (by omega) (fun k h1 h2 => hb k (by omega))) ?_
  rintro r - ⟨r1, r2, -, r4, r5, r6⟩
  have hsame : ∀ i < size0, r.1 (off + i) = a (off + i) := fun i hi => r4.outside (by omega)
  refine Tot.bind (setFlags_tot 0 r.1 off size0 fl (fun i hi => by rw [hsame i hi, f1]; exact lt_of_lt_of_le (hb i (by omega)) hs.len')) ?_
  rintro fl2 - ⟨g1, g2, g3⟩
  have hrow : ∀ k, size0 ≤ k → k < size → r.1 (off + k) < sp.rows := by
    intro k h1 h2
    obtain ⟨m, hm, e⟩ := r4.inside (i := k - size0) (by omega)
    rw [show off + size0 + (k - size0) = off + k by omega] at e
    rw [e, Nat.add_assoc]
    exact hb _ (by omega)
  refine Tot.pure ⟨r4, by simp only; omega, ?_, ?_, ?_⟩
  · cases flag with
    | mk n v =>
      cases fl2 with
      | mk n2 v2 =>
        simp only at f1 g1 h0 ⊢
        have : v2 = v := by
          funext c
          rw [h0]
          by_cases hc : ∃ i < size0, c = r.1 (off + i)
          · obtain ⟨i, hi, rfl⟩ := hc; exact g2 i hi
          · push Not at hc
            have := g3 c hc
            simp only at this
            rw [this, f3 c (fun i hi => by rw [← hsame i hi]; exact hc i hi)]
            exact h0 c
        rw [this, g1, f1]
  · intro i hi k hk hp
    simp only at hi hp
    rw [Nat.add_assoc] at hp
    apply r5 (size0 + i) (by omega) (by omega)
    obtain ⟨-, e, he, hc⟩ := hp
    refine ⟨e, he, (hflag _).2 ⟨k, hk, ?_⟩⟩
    rw [hc, hsame k hk]
  · intro i hi
    simp only at hi ⊢
    rw [show off + size0 + (r.2.1 - size0) + i = off + (r.2.1 + i) by omega]
    obtain ⟨e, he, hc⟩ := r6 (r.2.1 + i) (by omega) (by omega)
    obtain ⟨k, hk, hk2⟩ := (hflag _).1 hc
    exact ⟨k, hk, hrow _ (by omega) (by omega), e, he, by rw [hk2, hsame k hk]⟩

end H2.CB
