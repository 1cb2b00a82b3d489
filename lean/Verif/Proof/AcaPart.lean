import Verif.Proof.Aca
import Verif.Proof.FactorBlocks
import Mathlib.LinearAlgebra.Dimension.StrongRankCondition

/-! # Partial cross approximation -/

set_option linter.unusedSectionVars false

namespace H2.Aca
open Spec Dense Krylov
variable {𝕜 : Type} [RCLike 𝕜]

/-! ### resizing with copy -/

theorem resizecopy_fst {b : Mat} {rows cols nb : Nat} {junk : Nat → 𝕜} {m : Mem 𝕜} {p : Mat × Mem 𝕜}
    (h : resizecopy b rows cols nb junk m = .ok p) : p.1 = if rows ≠ b.rows ∨ cols ≠ b.cols then ⟨nb, rows, rows, cols⟩ else b := by
  unfold resizecopy at h
  by_cases hne : rows ≠ b.rows ∨ cols ≠ b.cols
  · rw [if_pos hne] at h ⊢
    simp only at h
    rw [bind_ok] at h
    obtain ⟨m1, _, h⟩ := h
    rw [bind_ok] at h
    obtain ⟨m2, _, h⟩ := h
    rw [pure_ok] at h
    rw [← h]
  · rw [if_neg hne] at h ⊢
    rw [pure_ok] at h
    rw [← h]

theorem resizecopy_post {al : Alloc 𝕜} (hal : GoodAlloc al) {b : Mat} {m : Mem 𝕜} (hb : b.rows = b.ld) (ho : Owns b m) (hm : BoundedMem m)
    (rows cols : Nat) (junk : Nat → 𝕜) :
    Tot (resizecopy b rows cols (al m (rows * cols)) junk m) fun p =>
      (∃ nb, p.1 = ⟨nb, rows, rows, cols⟩) ∧ Owns p.1 p.2 ∧ BoundedMem p.2 ∧
      (∀ i < rows, ∀ j < cols, p.1.val p.2 i j = if i < b.rows ∧ j < b.cols then b.val m i j else 0) ∧
      (∀ c, Block p.1 c → Block b c ∨ m c = none) ∧ (∀ c, ¬ Block b c → ¬ Block p.1 c → p.2 c = m c) ∧
      ∀ c, Block b c → ¬ Block p.1 c → p.2 c = none := by
  have hf := hal m hm (rows * cols)
  obtain ⟨p, hp, e1, e2, e3, e4, e5, e6, e7⟩ := resizecopy_tot hb.le ho rows cols (al m (rows * cols)) junk hf
  have h1 := resizecopy_fst hp
  refine ⟨p, hp, ?_, e4, ?_, e5, fun c hc => ?_, e6, fun c hc hn => ?_⟩
  · by_cases hne : rows ≠ b.rows ∨ cols ≠ b.cols
    · rw [if_pos hne] at h1; exact ⟨_, h1⟩
    · rw [if_neg hne] at h1
      push Not at hne
      refine ⟨b.base, ?_⟩
      rw [h1, hne.1, hne.2]
      cases b; simp only at hb; simp [hb]
  · refine bounded_of_frame hm (S := fun c => Block b c ∨ Block p.1 c) (fun c hc => e6 c (fun h => hc (.inl h)) fun h => hc (.inr h))
      (N := max (b.base + b.ld * b.cols) (p.1.base + p.1.ld * p.1.cols)) ?_
    rintro c (h | h)
    · exact lt_of_lt_of_le h.2 (le_max_left _ _)
    · exact lt_of_lt_of_le h.2 (le_max_right _ _)
  · by_cases hne : rows ≠ b.rows ∨ cols ≠ b.cols
    · rw [if_pos hne] at h1
      rw [h1] at hc
      exact .inr (hf c hc.1 hc.2)
    · rw [if_neg hne] at h1
      rw [h1] at hc
      exact .inl hc
  · by_cases hne : rows ≠ b.rows ∨ cols ≠ b.cols
    · exact e7 hne c hc
    · rw [if_neg hne] at h1
      rw [h1] at hn
      exact absurd hc hn

/-! ### loops -/

variable {m0 m : Mem 𝕜} {F : Nat → Nat → 𝕜}

theorem findMaxCol_tot {x : Mat} (h : MatBecomes x m0 F m) {k q : Nat} (hk : k < x.rows) (hq : q < x.cols) :
    Tot (findMaxCol x k x.rows q m) fun p => k ≤ p ∧ p < x.rows ∧ ∀ i, k ≤ i → i < x.rows → RCLike.normSq (F i q) ≤ RCLike.normSq (F p q) := by
  unfold findMaxCol
  rw [becomes_read h hk hq, ok_bind]
  refine Tot.bind (forUp_tot (fun r (s : ℝ × Nat) => s.1 = RCLike.normSq (F s.2 q) ∧ k ≤ s.2 ∧ s.2 < x.rows ∧
    ∀ i, k ≤ i → i < r → RCLike.normSq (F i q) ≤ s.1) (show k + 1 ≤ x.rows by omega) ⟨rfl, le_rfl, hk, fun i h1 h2 => ?_⟩ ?_) ?_
  · rw [show i = k by omega]
  · rintro i s h1 h2 ⟨s1, s2, s3, s4⟩
    rw [becomes_read h h2 hq, ok_bind]
    refine Tot.pure ?_
    by_cases e : RCLike.normSq (F i q) > s.1
    · rw [if_pos e]
      refine ⟨rfl, by simp only; omega, h2, fun i' h3 h4 => ?_⟩
      by_cases e' : i' = i
      · rw [e']
      · exact (s4 i' h3 (by omega)).trans e.le
    · rw [if_neg e]
      refine ⟨s1, s2, s3, fun i' h3 h4 => ?_⟩
      by_cases e' : i' = i
      · rw [e']; exact not_lt.mp e
      · exact s4 i' h3 (by omega)
  · rintro ⟨M, p⟩ - ⟨s1, s2, s3, s4⟩
    simp only at s1 s2 s3 s4
    exact Tot.pure ⟨s2, s3, fun i h1 h2 => by rw [← s1]; exact s4 i h1 h2⟩

theorem subtractRk_tot {a b : Mat} (h : MatBecomes b m0 F m) {k p : Nat} {al : Nat → 𝕜}
    (hA : ∀ mu < k, m0 (a.addr p mu) = some (al mu) ∧ ¬ b.Cell (a.addr p mu)) (hk : k ≤ b.rows) (hkc : k < b.cols) :
    Tot (subtractRk a b b.rows k p m) (MatBecomes b m0 fun j l => if l = k then (if j < k then 0 else
      F j k - ∑ mu ∈ Finset.range k, F j mu * al mu) else F j l) := by
  unfold subtractRk
  refine Tot.bind (colLineLoop h hkc (Nat.zero_le k) hk (new := fun _ => 0) fun i _ _ m2 G _ _ => rfl) fun m1 _ h1 => ?_
  refine forUp_tot (fun r (m' : Mem 𝕜) => MatBecomes b m0 (fun j l => if l = k then (if j < k then 0 else
      F j k - ∑ mu ∈ Finset.range r, F j mu * al mu) else F j l) m') (Nat.zero_le k) (becomes_congr h1 fun j hj l hl => ?_) ?_
  · by_cases e : l = k
    · subst e
      by_cases e' : j < l
      · rw [if_pos (by omega), if_pos rfl, if_pos e']
      · rw [if_neg (by omega), if_pos rfl, if_neg e']; simp
    · rw [if_neg (by omega), if_neg e]
  · intro r m2 _ hr h2
    rw [becomes_read_cell h2 (hA r hr).1 (hA r hr).2, ok_bind]
    refine (colLineLoop h2 hkc hk le_rfl (new := fun j => F j k - ∑ mu ∈ Finset.range (r + 1), F j mu * al mu) fun j h3 h4 m3 G hG hGF => ?_).mono
      fun m3 h3 => becomes_congr h3 fun j hj l hl => ?_
    · rw [becomes_read hG h4 hkc, ok_bind, becomes_read hG h4 (show r < b.cols by omega), ok_bind, hGF j k (by omega), hGF j r (by omega),
        if_pos rfl, if_neg (show ¬ j < k by omega), if_neg (show ¬ r = k by omega), Finset.sum_range_succ]
      congr 1
      ring
    · by_cases e : l = k
      · subst e
        by_cases e' : j < l
        · rw [if_neg (by omega), if_pos rfl, if_pos e', if_pos rfl, if_pos e']
        · rw [if_pos (by omega), if_pos rfl, if_neg e']
      · rw [if_neg (by omega), if_neg e, if_neg e]

theorem colSq_tot {x : Mat} (h : MatBecomes x m0 F m) {k q : Nat} (hk : k ≤ x.rows) (hq : q < x.cols) (hz : ∀ i < k, F i q = 0) :
    Tot (colSq x k x.rows q m) fun s => s = ∑ i ∈ Finset.range x.rows, RCLike.normSq (F i q) := by
  unfold colSq
  refine forUp_tot (fun r (s : ℝ) => s = ∑ i ∈ Finset.range r, RCLike.normSq (F i q)) hk ?_ ?_
  · rw [Finset.sum_eq_zero]
    intro i hi
    rw [hz i (Finset.mem_range.mp hi), map_zero]
  rintro i s h1 h2 s1
  rw [becomes_read h h2 hq, ok_bind]
  exact Tot.pure (by rw [s1, Finset.sum_range_succ])

theorem sq_pos {n k : Nat} {f : Nat → 𝕜} (hk : k < n) (h : f k ≠ 0) : 0 < ∑ i ∈ Finset.range n, RCLike.normSq (f i) :=
  Finset.sum_pos' (fun _ _ => RCLike.normSq_nonneg _) ⟨k, Finset.mem_range.mpr hk, lt_of_le_of_ne (RCLike.normSq_nonneg _)
    fun e => h (RCLike.normSq_eq_zero.mp e.symm)⟩

theorem sum_swap {n k p : Nat} (hk : k < n) (hp : p < n) (f : Nat → ℝ) :
    ∑ i ∈ Finset.range n, f (Equiv.swap k p i) = ∑ i ∈ Finset.range n, f i :=
  Finset.sum_nbij' (Equiv.swap k p) (Equiv.swap k p) (fun i hi => Finset.mem_range.mpr ((swap_lt hk hp i).mpr (Finset.mem_range.mp hi)))
    (fun i hi => Finset.mem_range.mpr ((swap_lt hk hp i).mpr (Finset.mem_range.mp hi))) (fun i _ => Equiv.swap_apply_self _ _ _)
    (fun i _ => Equiv.swap_apply_self _ _ _) fun i _ => rfl

/-! ### one step -/

/-- division by zero, which happens only under the condition `c`, or a normal end -/
def Out {α : Type _} (x : R α) (c : Prop) (P : α → Prop) : Prop := (c ∧ x = .error .nan) ∨ Tot x P

theorem Out.bind {α β : Type _} {x : R α} {f : α → R β} {Q : α → Prop} {c : Prop} {P : β → Prop} (h : Tot x Q)
    (hf : ∀ a, x = .ok a → Q a → Out (f a) c P) : Out (x >>= f) c P := by
  obtain ⟨a, ha, hq⟩ := h
  rw [ha, ok_bind]
  exact hf a ha hq

/-- the remainder of the permuted matrix -/
def rem (A1 : Nat → Nat → 𝕜) (P Q : Nat → Nat) (FA FB : Nat → Nat → 𝕜) (k i j : Nat) : 𝕜 :=
  A1 (P i) (Q j) - ∑ l ∈ Finset.range k, FA i l * FB j l

/-- square of the norm of a column -/
noncomputable def nrm (n : Nat) (F : Nat → Nat → 𝕜) (l : Nat) : ℝ := ∑ i ∈ Finset.range n, RCLike.normSq (F i l)

/-- invariant of the main loop of `decomp_partialaca_rkmatrix` -/
structure PInv (A0 : Nat → Nat → 𝕜) (ridx cidx : Nat → Nat) (rows cols : Nat) (r : Rk) (m0 : Mem 𝕜) (FA FB : Nat → Nat → 𝕜)
    (s : PartSt 𝕜) : Prop where
  kr : s.k ≤ rows
  kc : s.k ≤ cols
  la : s.A.rows = s.A.ld
  lb : s.B.rows = s.B.ld
  da : 0 < s.k → s.A.rows = rows ∧ s.A.cols = s.k
  db : 0 < s.k → s.B.rows = cols ∧ s.B.cols = s.k
  oa : Owns s.A s.mem
  ob : Owns s.B s.mem
  disj : Disj (Block s.A) (Block s.B)
  bnd : BoundedMem s.mem
  va : ∀ i < rows, ∀ l < s.k, s.A.val s.mem i l = FA i l
  vb : ∀ j < cols, ∀ l < s.k, s.B.val s.mem j l = FB j l
  nr : s.rperm.n = rows
  nc : s.cperm.n = cols
  nrp : s.rpiv.n = rows
  ncp : s.cpiv.n = cols
  rlt : ∀ l < s.k, s.rperm.v l < rows
  clt : ∀ l < s.k, s.cperm.v l < cols
  rp : ∀ i, s.rpiv.v i = ridx (perms s.rperm.v s.k i)
  cp : ∀ j, s.cpiv.v j = cidx (perms s.cperm.v s.k j)
  vrow : ∀ i < s.k, ∀ j < cols, rem A0 s.rpiv.v s.cpiv.v FA FB s.k i j = 0
  vcol : ∀ i < rows, ∀ j < s.k, rem A0 s.rpiv.v s.cpiv.v FA FB s.k i j = 0
  za : ∀ l < s.k, ∀ i < l, FA i l = 0
  ea : ∀ l < s.k, FA l l = 1
  zb : ∀ l < s.k, ∀ j < l, FB j l = 0
  eb : ∀ l < s.k, FB l l ≠ 0
  fresh : ∀ c, Block s.A c ∨ Block s.B c → Block r.A c ∨ Block r.B c ∨ m0 c = none
  frame : ∀ c, ¬ Block r.A c → ¬ Block r.B c → ¬ Block s.A c → ¬ Block s.B c → s.mem c = m0 c
  e0 : s.k = 0 → s.error = 1
  e1 : 0 < s.k → s.starterror = 1 / Real.sqrt (nrm rows FA 0 * nrm cols FB 0) ∧
    s.error = Real.sqrt (nrm rows FA (s.k - 1) * nrm cols FB (s.k - 1)) * s.starterror

/-- both factors get another column -/
theorem resizeTwo {al : Alloc 𝕜} (hal : GoodAlloc al) (junk : Nat → 𝕜) {A0 : Nat → Nat → 𝕜} {ridx cidx : Nat → Nat} {rows cols : Nat} {r : Rk}
    {m0 : Mem 𝕜} {FA FB : Nat → Nat → 𝕜} {s : PartSt 𝕜} (h : PInv A0 ridx cidx rows cols r m0 FA FB s) :
    Tot (resizecopy s.A rows (s.k + 1) (al s.mem (rows * (s.k + 1))) junk s.mem) fun p =>
    Tot (resizecopy s.B cols (s.k + 1) (al p.2 (cols * (s.k + 1))) junk p.2) fun q =>
      (∃ ba, p.1 = ⟨ba, rows, rows, s.k + 1⟩) ∧ (∃ bb, q.1 = ⟨bb, cols, cols, s.k + 1⟩) ∧ Owns p.1 q.2 ∧ Owns q.1 q.2 ∧ Disj (Block p.1) (Block q.1) ∧
      BoundedMem q.2 ∧ (∀ i < rows, ∀ l < s.k, p.1.val q.2 i l = FA i l) ∧ (∀ j < cols, ∀ l < s.k, q.1.val q.2 j l = FB j l) ∧
      (∀ c, Block p.1 c ∨ Block q.1 c → Block r.A c ∨ Block r.B c ∨ m0 c = none) ∧
      (∀ c, ¬ Block r.A c → ¬ Block r.B c → ¬ Block p.1 c → ¬ Block q.1 c → q.2 c = m0 c) := by
  obtain ⟨p, hp, ⟨ba, p1⟩, p2, p3, p4, p5, p6, p7⟩ := resizecopy_post hal h.la h.oa h.bnd rows (s.k + 1) junk
  have hBA : Disj (Block s.B) (Block p.1) := fun c hc hA => by
    rcases p5 c hA with e | e
    · exact h.disj c e hc
    · have := h.ob c hc.1 hc.2; rw [e] at this; cases this
  have ob1 : Owns s.B p.2 := fun c c1 c2 => by
    rw [p6 c (fun e => h.disj c e ⟨c1, c2⟩) (hBA c ⟨c1, c2⟩)]; exact h.ob c c1 c2
  obtain ⟨q, hq, ⟨bb, q1⟩, q2, q3, q4, q5, q6, q7⟩ := resizecopy_post hal h.lb ob1 p3 cols (s.k + 1) junk
  have hAB : Disj (Block p.1) (Block q.1) := fun c hA hB => by
    rcases q5 c hB with e | e
    · exact hBA c e hA
    · have := p2 c hA.1 hA.2; rw [e] at this; cases this
  have oa2 : Owns p.1 q.2 := fun c c1 c2 => by
    rw [q6 c (fun e => hBA c e ⟨c1, c2⟩) (hAB c ⟨c1, c2⟩)]; exact p2 c c1 c2
  have none0 : ∀ c, s.mem c = none → Block r.A c ∨ Block r.B c ∨ m0 c = none := fun c e => by
    by_cases c1 : Block r.A c
    · exact .inl c1
    by_cases c2 : Block r.B c
    · exact .inr (.inl c2)
    by_cases c3 : Block s.A c
    · exact h.fresh c (.inl c3)
    by_cases c4 : Block s.B c
    · exact h.fresh c (.inr c4)
    · exact .inr (.inr (by rw [← h.frame c c1 c2 c3 c4]; exact e))
  have freshA : ∀ c, Block p.1 c → Block r.A c ∨ Block r.B c ∨ m0 c = none := fun c hc => by
    rcases p5 c hc with e | e
    · exact h.fresh c (.inl e)
    · exact none0 c e
  refine ⟨p, hp, q, hq, ⟨ba, p1⟩, ⟨bb, q1⟩, oa2, q2, hAB, q3, fun i hi l hl => ?_, fun j hj l hl => ?_, ?_, fun c c1 c2 c3 c4 => ?_⟩
  · have hr : p.1.rows = rows := by rw [p1]
    have hc : p.1.cols = s.k + 1 := by rw [p1]
    have hcell : p.1.Cell (p.1.addr i l) := ⟨i, by rw [hr]; exact hi, l, by rw [hc]; omega, rfl⟩
    have hblk := cell_block (by rw [p1]) hcell
    have : q.2 (p.1.addr i l) = p.2 (p.1.addr i l) := q6 _ (fun e => hBA _ e hblk) (hAB _ hblk)
    unfold Mat.val
    rw [this]
    have h3 := p4 i hi l (by omega)
    obtain ⟨d1, d2⟩ := h.da (by omega)
    rw [if_pos (by rw [d1, d2]; exact ⟨hi, hl⟩), h.va i hi l hl] at h3
    exact h3
  · obtain ⟨d1, d2⟩ := h.db (by omega)
    rw [q4 j hj l (by omega), if_pos (by rw [d1, d2]; exact ⟨hj, hl⟩), ← h.vb j hj l hl]
    have hcell : s.B.Cell (s.B.addr j l) := ⟨j, by rw [d1]; exact hj, l, by rw [d2]; exact hl, rfl⟩
    have hblk := cell_block h.lb.le hcell
    unfold Mat.val
    rw [p6 _ (fun e => h.disj _ e hblk) (hBA _ hblk)]
  · rintro c (hc | hc)
    · exact freshA c hc
    · rcases q5 c hc with e | e
      · exact h.fresh c (.inr e)
      · by_cases c1 : Block p.1 c
        · exact freshA c c1
        by_cases c2 : Block s.A c
        · exact h.fresh c (.inl c2)
        · rw [p6 c c2 c1] at e; exact none0 c e
  · by_cases b1 : Block s.B c
    · have e : q.2 c = none := q7 c b1 c4
      rcases h.fresh c (.inr b1) with f | f | f
      · exact absurd f c1
      · exact absurd f c2
      · rw [e, f]
    · rw [q6 c b1 c4]
      by_cases b2 : Block s.A c
      · have e : p.2 c = none := p7 c b2 c3
        rcases h.fresh c (.inl b2) with f | f | f
        · exact absurd f c1
        · exact absurd f c2
        · rw [e, f]
      · rw [p6 c b2 c3, h.frame c c1 c2 b2 b1]

/-- a window of the last column is filled by the callback -/
theorem fillCol {f : Entry 𝕜} {A0 : Nat → Nat → 𝕜} (hf : IsEntry f A0) {x : Mat} {m : Mem 𝕜} {F : Nat → Nat → 𝕜} (h : MatBecomes x m F m) {k : Nat}
    (hk : k ≤ x.rows) (hc : k < x.cols) (ri ci : Nat → Nat) :
    Tot (f ri ci false (win x (x.rows - k) k 1 k) m) (MatBecomes x m fun i l => if l = k ∧ k ≤ i then A0 (ri (i - k)) (ci 0) else F i l) := by
  refine (hf ri ci false _ m (win_valid h.1 (show k + (x.rows - k) ≤ x.rows by omega) (show k + 1 ≤ x.cols by omega))).mono fun m1 h1 => ?_
  have h2 := win_lift h h1 (show k + (x.rows - k) ≤ x.rows by omega) (show k + 1 ≤ x.cols by omega)
  refine becomes_congr h2 fun i hi j hj => ?_
  by_cases e : j = k ∧ k ≤ i
  · rw [if_pos e, if_pos (by omega)]
    simp [op, e.1]
  · rw [if_neg e, if_neg (by omega)]

theorem fillColAdj {f : Entry 𝕜} {A0 : Nat → Nat → 𝕜} (hf : IsEntry f A0) {x : Mat} {m : Mem 𝕜} {F : Nat → Nat → 𝕜} (h : MatBecomes x m F m) {k : Nat}
    (hk : k ≤ x.rows) (hc : k < x.cols) (ri ci : Nat → Nat) :
    Tot (f ri ci true (win x (x.rows - k) k 1 k) m >>= fun m => conjugate (win x (x.rows - k) k 1 k) m)
      (MatBecomes x m fun i l => if l = k ∧ k ≤ i then A0 (ri 0) (ci (i - k)) else F i l) := by
  refine Tot.bind (hf ri ci true _ m (win_valid h.1 (show k + (x.rows - k) ≤ x.rows by omega) (show k + 1 ≤ x.cols by omega))) fun m1 _ h1 => ?_
  refine (conjugate_tot h1.1).mono fun m2 h2 => ?_
  have h3 : MatBecomes (win x (x.rows - k) k 1 k) m (fun i j => A0 (ri j) (ci i)) m2 := by
    refine ⟨h2.1, fun i hi j hj => ?_, fun c hc => (h2.2.2 c hc).trans (h1.2.2 c hc)⟩
    rw [h2.2.1 i hi j hj]
    simp only
    rw [h1.2.1 i hi j hj]
    simp [op]
  have h4 := win_lift h h3 (show k + (x.rows - k) ≤ x.rows by omega) (show k + 1 ≤ x.cols by omega)
  refine becomes_congr h4 fun i hi j hj => ?_
  by_cases e : j = k ∧ k ≤ i
  · rw [if_pos e, if_pos (by omega)]
    simp [e.1]
  · rw [if_neg e, if_neg (by omega)]

theorem partStep_out {al : Alloc 𝕜} (hal : GoodAlloc al) (junk : Nat → 𝕜) {f : Entry 𝕜} {A0 : Nat → Nat → 𝕜} (hf : IsEntry f A0)
    {ridx cidx : Nat → Nat} {rows cols : Nat} {r : Rk}
    {m0 : Mem 𝕜} {FA FB : Nat → Nat → 𝕜} {s : PartSt 𝕜} (h : PInv A0 ridx cidx rows cols r m0 FA FB s) (hkr : s.k < rows) (hkc : s.k < cols) :
    Out (partStep al junk f rows cols s) (∃ i, s.k ≤ i ∧ i < rows ∧ ∀ j < cols, rem A0 s.rpiv.v s.cpiv.v FA FB s.k i j = 0) fun s' =>
      (∃ FA' FB', PInv A0 ridx cidx rows cols r m0 FA' FB' s') ∧ s'.k = s.k + 1 ∧
      (∃ i < rows, ∃ j < cols, rem A0 s.rpiv.v s.cpiv.v FA FB s.k i j ≠ 0) := by
  obtain ⟨k, hk⟩ : ∃ k, k = s.k := ⟨_, rfl⟩
  unfold partStep
  refine Out.bind (resizeTwo hal junk h) ?_
  rintro ⟨A, m1⟩ - hB
  refine Out.bind hB ?_
  rintro ⟨B, m2⟩ - ⟨⟨ba, eA⟩, ⟨bb, eB⟩, oa, ob, hdis, hbnd, va, vb, fresh, frame⟩
  simp only at eA eB oa ob hdis hbnd va vb fresh frame
  simp only [← hk] at eA eB va vb hkr hkc ⊢
  have lA : A.rows ≤ A.ld := by rw [eA]
  have lB : B.rows ≤ B.ld := by rw [eB]
  have rA : A.rows = rows := by rw [eA]
  have rB : B.rows = cols := by rw [eB]
  have cA : A.cols = k + 1 := by rw [eA]
  have cB : B.cols = k + 1 := by rw [eB]
  have eA' : (⟨A.base, rows, rows, k + 1⟩ : Mat) = A := by rw [eA]
  have eB' : (⟨B.base, cols, cols, k + 1⟩ : Mat) = B := by rw [eB]
  simp only [eA', eB']
  have hAB : Disj A.Cell B.Cell := fun c h1 h2 => hdis c (cell_block lA h1) (cell_block lB h2)
  have hBA : Disj B.Cell A.Cell := fun c h1 h2 => hAB c h2 h1
  have hv := owns_valid lA oa
  have hw := owns_valid lB ob
  have b2 : Both A B m2 (A.val m2) (B.val m2) m2 :=
    ⟨fun i hi j hj => hv.some hi hj, fun i hi j hj => hw.some hi hj, fun _ _ => rfl⟩
  replace b2 : Both A B m2 (fun i l => if l < k then FA i l else A.val m2 i l) (fun j l => if l < k then FB j l else B.val m2 j l) m2 := by
    refine b2.congr (fun i hi l hl => ?_) (fun j hj l hl => ?_)
    · by_cases e : l < k
      · rw [if_pos e]; exact va i (by omega) l e
      · rw [if_neg e]
    · by_cases e : l < k
      · rw [if_pos e]; exact vb j (by omega) l e
      · rw [if_neg e]
  obtain ⟨GA, hGA⟩ : ∃ G, G = fun i l => if l < k then FA i l else A.val m2 i l := ⟨_, rfl⟩
  obtain ⟨GB, hGB⟩ : ∃ G, G = fun i l => if l < k then FB i l else B.val m2 i l := ⟨_, rfl⟩
  rw [← hGA, ← hGB] at b2
  have gA : ∀ i, ∀ l < k, GA i l = FA i l := fun i l hl => by rw [hGA]; exact if_pos hl
  have gB : ∀ i, ∀ l < k, GB i l = FB i l := fun i l hl => by rw [hGB]; exact if_pos hl
  rw [initSub_win (show k + (rows - k) ≤ A.rows by omega) (show k + 1 ≤ A.cols by omega), ok_bind,
    initSub_win (show k + (cols - k) ≤ B.rows by omega) (show k + 1 ≤ B.cols by omega), ok_bind]
  refine Out.bind (Q := fun i => k ≤ i ∧ i < rows) ?_ ?_
  · by_cases e : k > 0
    · rw [if_pos e, ← rA]
      exact (findMaxCol_tot (b2.becomes lA) (show k < A.rows by omega) (show k - 1 < A.cols by omega)).mono fun p hp => ⟨hp.1, hp.2.1⟩
    · rw [if_neg e]
      exact Tot.pure ⟨by omega, by omega⟩
  rintro p - ⟨hp1, hp2⟩
  -- the row
  have t1 := fillColAdj hf (b2.symm.becomes lB) (show k ≤ B.rows by omega) (show k < B.cols by omega) (fun i => s.rpiv.v (p + i)) (fun j => s.cpiv.v (k + j))
  rw [rB] at t1
  rw [← bind_assoc]
  refine Out.bind t1 fun m3 _ h3 => ?_
  have b3 := (b2.symm.of_becomes hBA h3).symm
  have t2 := subtractRk_tot (a := A) (p := p) (k := k) (al := FA p) (b3.symm.becomes lB) (fun mu hmu => ⟨by
    rw [b3.1 p (by omega) mu (by omega), gA p mu hmu], hAB _ ⟨p, by omega, mu, by omega, rfl⟩⟩) (show k ≤ B.rows by omega) (show k < B.cols by omega)
  rw [rB] at t2
  refine Out.bind t2 fun m4 _ h4 => ?_
  have b4 := (b3.symm.of_becomes hBA h4).symm
  obtain ⟨R, hR⟩ : ∃ R, R = rem A0 s.rpiv.v s.cpiv.v FA FB k := ⟨_, rfl⟩
  rw [← hR]
  have hRow : ∀ i < k, ∀ j < cols, R i j = 0 := by rw [hR, hk]; exact h.vrow
  have hCol : ∀ i < rows, ∀ j < k, R i j = 0 := by rw [hR, hk]; exact h.vcol
  obtain ⟨HB, hHB⟩ : ∃ H : Nat → Nat → 𝕜, H = fun j l => if l = k then R p j else FB j l := ⟨_, rfl⟩
  replace b4 : Both A B m2 GA HB m4 := by
    refine b4.congr (fun _ _ _ _ => rfl) fun j hj l hl => ?_
    rw [hHB]
    simp only
    by_cases e : l = k
    · subst e
      rw [if_pos rfl, if_pos rfl]
      by_cases e' : j < l
      · rw [if_pos e', hCol p hp2 j e']
      · rw [if_neg e', if_pos ⟨trivial, by omega⟩, hR, rem, show l + (j - l) = j by omega, Nat.add_zero]
        congr 1
        refine Finset.sum_congr rfl fun mu hmu => ?_
        rw [Finset.mem_range] at hmu
        rw [if_neg (by omega), gB j mu hmu, mul_comm]
    · rw [if_neg e, if_neg e, if_neg (fun h => e h.1), gB j l (by omega)]
  -- the column
  have t3 := findMaxCol_tot (b4.symm.becomes lB) (show k < B.rows by omega) (show k < B.cols by omega)
  rw [rB] at t3
  refine Out.bind t3 ?_
  rintro q - ⟨hq1, hq2, hq3⟩
  have t5 := fillCol hf (b4.becomes lA) (show k ≤ A.rows by omega) (show k < A.cols by omega) (fun i => s.rpiv.v (k + i)) (fun j => s.cpiv.v (q + j))
  rw [rA] at t5
  refine Out.bind t5 fun m5 _ h5 => ?_
  have b5 := b4.of_becomes hAB h5
  have t6 := subtractRk_tot (a := B) (p := q) (k := k) (al := FB q) (b5.becomes lA) (fun mu hmu => ⟨by
    rw [b5.2.1 q (by omega) mu (by omega), hHB]; simp only; rw [if_neg (by omega)], hBA _ ⟨q, by omega, mu, by omega, rfl⟩⟩) (show k ≤ A.rows by omega) (show k < A.cols by omega)
  rw [rA] at t6
  refine Out.bind t6 fun m6 _ h6 => ?_
  have b6 := b5.of_becomes hAB h6
  obtain ⟨HA, hHA⟩ : ∃ H : Nat → Nat → 𝕜, H = fun i l => if l = k then R i q else FA i l := ⟨_, rfl⟩
  replace b6 : Both A B m2 HA HB m6 := by
    refine b6.congr (fun i hi l hl => ?_) (fun _ _ _ _ => rfl)
    rw [hHA]
    simp only
    by_cases e : l = k
    · subst e
      rw [if_pos rfl, if_pos rfl]
      by_cases e' : i < l
      · rw [if_pos e', hRow i e' q hq2]
      · rw [if_neg e', if_pos ⟨trivial, by omega⟩, hR, rem, show l + (i - l) = i by omega, Nat.add_zero]
        congr 1
        refine Finset.sum_congr rfl fun mu hmu => ?_
        rw [Finset.mem_range] at hmu
        rw [if_neg (by omega), gA i mu hmu]
    · rw [if_neg e, if_neg e, if_neg (fun h => e h.1), gA i l (by omega)]
  have hbq : HB q k = R p q := by rw [hHB]; exact if_pos rfl
  rw [b6.readR (show q < B.rows by omega) (show k < B.cols by omega), ok_bind, hbq]
  by_cases hv0 : R p q = 0
  · left
    refine ⟨⟨p, hp1, hp2, fun j hj => ?_⟩, by simp [cdiv, hv0]; rfl⟩
    by_cases e : j < k
    · exact hCol p hp2 j e
    · have := hq3 j (by omega) (by omega)
      rw [hHB] at this
      simp only [if_true] at this
      rw [hv0, map_zero] at this
      exact RCLike.normSq_eq_zero.mp (le_antisymm this (RCLike.normSq_nonneg _))
  right
  simp only [cdiv, if_neg hv0]
  rw [ok_bind]
  -- scaling
  have t7 := colLineLoop (b6.becomes lA) (show k < A.cols by omega) (Nat.zero_le A.rows) le_rfl (new := fun i => R i q * (1 / R p q))
    (body := fun i m => do
      let v ← m.read (A.addr i k)
      m.write (A.addr i k) (v * (1 / R p q))) fun i _ h2 m7 G hG hGF => by
      rw [becomes_read hG h2 (show k < A.cols by omega), ok_bind, hGF i k (by omega), hHA]; simp
  rw [rA] at t7
  refine Tot.bind t7 fun m7 _ h7 => ?_
  have b7 := b6.of_becomes hAB h7
  rw [swapArr_ok (by rw [h.nrp]; exact hkr) (by rw [h.nrp]; exact hp2), ok_bind, Arr.set_ok (by rw [h.nr]; exact hkr), ok_bind,
    swapArr_ok (by rw [h.ncp]; exact hkc) (by rw [h.ncp]; exact hq2), ok_bind, Arr.set_ok (by rw [h.nc]; exact hkc), ok_bind]
  obtain ⟨JA, hJA⟩ : ∃ H : Nat → Nat → 𝕜, H = fun i l => if l = k then R i q * (1 / R p q) else FA i l := ⟨_, rfl⟩
  replace b7 : Both A B m2 JA HB m7 := by
    refine b7.congr (fun i hi l hl => ?_) (fun _ _ _ _ => rfl)
    rw [hJA, hHA]
    simp only
    by_cases e : l = k
    · rw [if_pos ⟨e, Nat.zero_le _, by omega⟩, if_pos e]
    · rw [if_neg (fun h => e h.1), if_neg e, if_neg e]
  refine Tot.bind (swapRows_tot (b7.becomes lA) (show k + 1 ≤ A.cols by omega) (show k < A.rows by omega) (show p < A.rows by omega)) fun m8 _ h8 => ?_
  have b8 := b7.of_becomes hAB h8
  refine Tot.bind (swapRows_tot (b8.symm.becomes lB) (show k + 1 ≤ B.cols by omega) (show k < B.rows by omega) (show q < B.rows by omega)) fun m9 _ h9 => ?_
  have b9 := (b8.symm.of_becomes hBA h9).symm
  obtain ⟨FA', hFA'⟩ : ∃ F : Nat → Nat → 𝕜, F = fun i l => JA (Equiv.swap k p i) l := ⟨_, rfl⟩
  obtain ⟨FB', hFB'⟩ : ∃ F : Nat → Nat → 𝕜, F = fun i l => HB (Equiv.swap k q i) l := ⟨_, rfl⟩
  replace b9 : Both A B m2 FA' FB' m9 := b9.congr (fun i _ l hl => by rw [hFA']; exact if_pos (by omega)) (fun i _ l hl => by rw [hFB']; exact if_pos (by omega))
  -- the factors
  have fA : ∀ i l, FA' i l = if l = k then R (Equiv.swap k p i) q * (1 / R p q) else FA (Equiv.swap k p i) l := fun i l => by rw [hFA', hJA]
  have fB : ∀ j l, FB' j l = if l = k then R p (Equiv.swap k q j) else FB (Equiv.swap k q j) l := fun j l => by rw [hFB', hHB]
  have za : ∀ l < k + 1, ∀ i < l, FA' i l = 0 := fun l hl i hi => by
    rw [fA, swap_small hp1 (by omega)]
    by_cases e : l = k
    · rw [if_pos e, hRow i (by omega) q hq2, zero_mul]
    · rw [if_neg e]; exact h.za l (by omega) i hi
  have zb : ∀ l < k + 1, ∀ i < l, FB' i l = 0 := fun l hl i hi => by
    rw [fB, swap_small hq1 (by omega)]
    by_cases e : l = k
    · rw [if_pos e, hCol p hp2 i (by omega)]
    · rw [if_neg e]; exact h.zb l (by omega) i hi
  have ea : ∀ l < k + 1, FA' l l = 1 := fun l hl => by
    rw [fA]
    by_cases e : l = k
    · rw [if_pos e, e, Equiv.swap_apply_left, mul_one_div, div_self hv0]
    · rw [if_neg e, swap_small hp1 (by omega)]; exact h.ea l (by omega)
  have eb : ∀ l < k + 1, FB' l l ≠ 0 := fun l hl => by
    rw [fB]
    by_cases e : l = k
    · rw [if_pos e, e, Equiv.swap_apply_left]; exact hv0
    · rw [if_neg e, swap_small hq1 (by omega)]; exact h.eb l (by omega)
  have nA : ∀ l < k, nrm rows FA' l = nrm rows FA l := fun l hl => by
    unfold nrm
    rw [← sum_swap (show k < rows by omega) hp2 fun i => RCLike.normSq (FA i l)]
    exact Finset.sum_congr rfl fun i _ => by rw [fA, if_neg (by omega)]
  have nB : ∀ l < k, nrm cols FB' l = nrm cols FB l := fun l hl => by
    unfold nrm
    rw [← sum_swap (show k < cols by omega) hq2 fun i => RCLike.normSq (FB i l)]
    exact Finset.sum_congr rfl fun i _ => by rw [fB, if_neg (by omega)]
  have pA : ∀ l < k + 1, 0 < nrm rows FA' l := fun l hl => sq_pos (f := fun i => FA' i l) (show l < rows by omega) (by rw [ea l hl]; exact one_ne_zero)
  have pB : ∀ l < k + 1, 0 < nrm cols FB' l := fun l hl => sq_pos (f := fun i => FB' i l) (show l < cols by omega) (eb l hl)
  -- the norms
  have cq : ∀ k0 l, k0 ≤ l → l < k + 1 → Tot (colSq A k0 rows l m9) (fun s => s = nrm rows FA' l) := fun k0 l h1 h2 => by
    have := colSq_tot (b9.becomes lA) (show k0 ≤ A.rows by omega) (show l < A.cols by omega) fun i hi => za l h2 i (by omega)
    rw [rA] at this
    exact this
  have cr : ∀ k0 l, k0 ≤ l → l < k + 1 → Tot (colSq B k0 cols l m9) (fun s => s = nrm cols FB' l) := fun k0 l h1 h2 => by
    have := colSq_tot (b9.symm.becomes lB) (show k0 ≤ B.rows by omega) (show l < B.cols by omega) fun i hi => zb l h2 i (by omega)
    rw [rB] at this
    exact this
  refine Tot.bind (P := fun e => e = 1 / Real.sqrt (nrm rows FA' 0 * nrm cols FB' 0)) ?_ fun se _ hse => ?_
  · by_cases e : k + 1 = 1
    · rw [if_pos e]
      refine Tot.bind (cq 0 0 le_rfl (by omega)) fun e1 _ he1 => Tot.bind (cr 0 0 le_rfl (by omega)) fun e2 _ he2 => ?_
      have : Real.sqrt (e1 * e2) ≠ 0 := by
        rw [he1, he2]
        exact (Real.sqrt_pos.mpr (mul_pos (pA 0 (by omega)) (pB 0 (by omega)))).ne'
      simp only [cdiv, if_neg this]
      exact ⟨_, rfl, by rw [he1, he2]⟩
    · rw [if_neg e]
      exact Tot.pure (by rw [(h.e1 (by omega)).1, nA 0 (by omega), nB 0 (by omega)])
  refine Tot.bind (cq k k le_rfl (by omega)) fun e1 _ he1 => Tot.bind (cr k k le_rfl (by omega)) fun e2 _ he2 => Tot.pure ?_
  refine ⟨⟨FA', FB', ?_⟩, rfl, p, hp2, q, hq2, hv0⟩
  have hr : perms (fun l => if l = k then p else s.rperm.v l) k = perms s.rperm.v k :=
    perms_congr fun l hl => if_neg (by omega)
  have hcq : perms (fun l => if l = k then q else s.cperm.v l) k = perms s.cperm.v k :=
    perms_congr fun l hl => if_neg (by omega)
  have hrem : ∀ i j, rem A0 (fun x => s.rpiv.v (Equiv.swap k p x)) (fun x => s.cpiv.v (Equiv.swap k q x)) FA' FB' (k + 1) i j =
      R (Equiv.swap k p i) (Equiv.swap k q j) - R (Equiv.swap k p i) q * (1 / R p q) * R p (Equiv.swap k q j) := fun i j => by
    rw [rem, Finset.sum_range_succ, fA, fB, if_pos rfl, if_pos rfl, ← sub_sub]
    congr 1
    rw [hR, rem]
    congr 1
    refine Finset.sum_congr rfl fun l hl => ?_
    rw [Finset.mem_range] at hl
    rw [fA, fB, if_neg (by omega), if_neg (by omega)]
  have ownAll : ∀ x : Mat, Owns x m2 → Owns x m9 := fun x hx c c1 c2 => by
    by_cases e1 : A.Cell c
    · obtain ⟨i, hi, j, hj, rfl⟩ := e1
      rw [b9.1 i hi j hj]; rfl
    by_cases e2 : B.Cell c
    · obtain ⟨i, hi, j, hj, rfl⟩ := e2
      rw [b9.2.1 i hi j hj]; rfl
    · rw [b9.2.2 c fun h => h.elim e1 e2]; exact hx c c1 c2
  refine ⟨hkr, hkc, by rw [eA], by rw [eB], fun _ => ⟨rA, cA⟩, fun _ => ⟨rB, cB⟩, ownAll A oa, ownAll B ob, hdis, ?_, ?_, ?_, h.nr, h.nc, h.nrp, h.ncp, ?_, ?_, ?_, ?_,
    ?_, ?_, za, ea, zb, eb, fresh, ?_, fun e => absurd e (Nat.succ_ne_zero _), fun _ => ⟨hse, ?_⟩⟩
  · refine bounded_of_frame hbnd b9.2.2 (N := max (A.base + A.ld * A.cols) (B.base + B.ld * B.cols)) ?_
    rintro c (e | e)
    · exact lt_of_lt_of_le (cell_block lA e).2 (le_max_left _ _)
    · exact lt_of_lt_of_le (cell_block lB e).2 (le_max_right _ _)
  · intro i hi l hl
    simp only at hl ⊢
    unfold Mat.val
    rw [b9.1 i (by omega) l (by omega)]; rfl
  · intro i hi l hl
    simp only at hl ⊢
    unfold Mat.val
    rw [b9.2.1 i (by omega) l (by omega)]; rfl
  · intro l hl
    simp only at hl ⊢
    by_cases e : l = k
    · rw [if_pos e]; exact hp2
    · rw [if_neg e]; exact h.rlt l (by omega)
  · intro l hl
    simp only at hl ⊢
    by_cases e : l = k
    · rw [if_pos e]; exact hq2
    · rw [if_neg e]; exact h.clt l (by omega)
  · intro i
    simp only [perms, hr, if_true, Equiv.Perm.mul_apply]
    rw [h.rp, hk]
  · intro i
    simp only [perms, hcq, if_true, Equiv.Perm.mul_apply]
    rw [h.cp, hk]
  · intro i hi j hj
    simp only at hi ⊢
    rw [hrem]
    by_cases e : i = k
    · rw [e, Equiv.swap_apply_left, mul_one_div, div_self hv0, one_mul, sub_self]
    · rw [swap_small hp1 (by omega), hRow i (by omega) _ ((swap_lt (by omega) hq2 j).mpr hj), hRow i (by omega) q hq2]; ring
  · intro i hi j hj
    simp only at hj ⊢
    rw [hrem]
    by_cases e : j = k
    · rw [e, Equiv.swap_apply_left, one_div, inv_mul_cancel_right₀ hv0, sub_self]
    · rw [swap_small hq1 (by omega), hCol _ ((swap_lt (by omega) hp2 i).mpr hi) j (by omega), hCol p hp2 j (by omega)]; ring
  · intro c c1 c2 c3 c4
    show m9 c = m0 c
    rw [b9.2.2 c fun e => e.elim (fun e => c3 (cell_block lA e)) fun e => c4 (cell_block lB e)]
    exact frame c c1 c2 c3 c4
  · simp only [Nat.add_sub_cancel]
    rw [he1, he2]

end H2.Aca
