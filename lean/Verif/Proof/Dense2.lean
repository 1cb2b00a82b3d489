import Verif.Proof.DenseSim

set_option linter.unusedSectionVars false

namespace H2.Dense
open Spec
variable {K : Type _} [Field K] [StarRing K]

/-! ### views -/

theorem initSub_ok {src v : Mat} {rows roff cols coff : Nat} :
    initSub src rows roff cols coff = .ok v ↔
      roff + rows ≤ src.rows ∧ coff + cols ≤ src.cols ∧ v = ⟨src.base + roff + src.ld * coff, src.ld, rows, cols⟩ := by
  unfold initSub
  simp only [bind_ok, cassert_ok, decide_eq_true_eq, pure_ok, exists_and_left, exists_const]
  constructor
  · rintro ⟨h1, h2, h3⟩; exact ⟨h1, h2, h3.symm⟩
  · rintro ⟨h1, h2, h3⟩; exact ⟨h1, h2, h3.symm⟩

theorem initSub_addr {src v : Mat} {rows roff cols coff : Nat} (h : initSub src rows roff cols coff = .ok v)
    (i j : Nat) : v.addr i j = src.addr (i + roff) (j + coff) := by
  obtain ⟨_, _, rfl⟩ := initSub_ok.mp h
  simp only [Mat.addr]
  ring

theorem initSubVec_ok {src v : Vec} {dim off : Nat} :
    initSubVec src dim off = .ok v ↔ dim + off ≤ src.dim ∧ v = ⟨src.base + off, dim⟩ := by
  unfold initSubVec
  simp only [bind_ok, cassert_ok, decide_eq_true_eq, pure_ok, exists_and_left, exists_const]
  constructor
  · rintro ⟨h1, h2⟩; exact ⟨h1, h2.symm⟩
  · rintro ⟨h1, h2⟩; exact ⟨h1, h2.symm⟩

theorem initColumn_ok {src : Mat} {v : Vec} {col : Nat} :
    initColumn src col = .ok v ↔ col < src.cols ∧ v = ⟨src.base + col * src.ld, src.rows⟩ := by
  unfold initColumn
  simp only [bind_ok, cassert_ok, decide_eq_true_eq, pure_ok, exists_and_left, exists_const]
  constructor
  · rintro ⟨h1, h2⟩; exact ⟨h1, h2.symm⟩
  · rintro ⟨h1, h2⟩; exact ⟨h1, h2.symm⟩

/-! ### more kernels -/

theorem forUp_congr {σ : Type _} {lo hi : Nat} {f g : Nat → σ → R σ} (h : ∀ k, lo ≤ k → k < hi → ∀ s, f k s = g k s)
    (s : σ) : forUp lo hi f s = forUp lo hi g s := by
  unfold forUp
  suffices ∀ n k, lo ≤ k → k + n ≤ max lo hi → ∀ s, loopN f n k s = loopN g n k s from
    this _ _ le_rfl (by omega) s
  intro n
  induction n with
  | zero => intros; rfl
  | succ n ih =>
    intro k h1 h2 s
    simp only [loopN]
    rw [h k h1 (by omega) s]
    congr 1
    funext s'
    exact ih _ (by omega) (by omega) s'

theorem copyColpiv_tot {a b : Mat} {m : Mem K} {colpiv : Arr Nat} (ha : a.Valid m) (hb : b.Valid m)
    (hd : Disj a.Cell b.Cell) (trans : Bool) (hr : b.rows = opRows trans a) (hc : b.cols = opCols trans a)
    (hp : a.cols ≤ colpiv.n) (hlt : ∀ j < a.cols, colpiv.v j < a.cols) :
    Tot (copyColpiv trans a colpiv b m) (MatBecomes b m (op trans fun i j => a.val m i (colpiv.v j))) := by
  unfold copyColpiv
  cases trans
  · simp only [opRows, opCols, Bool.false_eq_true, if_false] at hr hc ⊢
    refine Tot.cassert (by simp [hr]) (Tot.cassert (by simp [hc]) ?_)
    rw [forUp_congr (g := fun j m => forUp 0 a.rows (fun i m => do
      let x ← m.read (a.addr i (colpiv.v j))
      m.write (b.addr i j) x) m)]
    · refine (colLoop hb (lo := fun _ => 0) (hi := fun _ => a.rows) (n := a.cols)
        (G := fun i j => a.val m i (colpiv.v j)) (by omega) (fun _ _ => by omega) (fun _ _ => Nat.zero_le _)
        fun j hj i _ hi m' hm h => ?_).mono fun m' h => becomes_congr h fun i hi j hj => ?_
      · rw [read_other (S := fun c => ∃ j' ≤ j, ∃ i', 0 ≤ i' ∧ i' < a.rows ∧ (j' < j ∨ i' < i) ∧
            c = b.addr i' j') ha hd ?_ ?_ (show i < a.rows by omega) (hlt j hj), ok_bind,
            Mem.write_ok h]
        · rintro c ⟨j', h1, i', _, h2, _, rfl⟩
          exact Mat.cell_addr (by omega) (by omega)
        · intro c hc
          exact hm c fun j' h1 i' h2 h3 h4 e => hc ⟨j', h1, i', h2, h3, h4, e⟩
      · rw [if_pos (by omega)]; rfl
    · intro j _ hj s
      rw [Arr.get_ok (by omega), ok_bind, cassert_true (by simpa using hlt j hj), ok_bind]
  · simp only [opRows, opCols, if_true] at hr hc ⊢
    refine Tot.cassert (by simp [hr]) (Tot.cassert (by simp [hc]) ?_)
    rw [forUp_congr (g := fun j m => forUp 0 a.rows (fun i m => do
      let x ← m.read (a.addr i (colpiv.v j))
      m.write (b.addr j i) (star x)) m)]
    · refine (rowLoop hb (n := a.cols) (k := a.rows)
        (G := fun i j => star (a.val m j (colpiv.v i))) (by omega) (by omega) fun i hi j hj m' hm h => ?_).mono
        fun m' h => becomes_congr h fun i hi j hj => ?_
      · rw [read_other (S := fun c => ∃ i' ≤ i, ∃ j' < a.rows, (i' < i ∨ j' < j) ∧
            c = b.addr i' j') ha hd ?_ ?_ (show j < a.rows by omega) (hlt i hi), ok_bind, Mem.write_ok h]
        · rintro c ⟨i', h1, j', h2, _, rfl⟩
          exact Mat.cell_addr (by omega) (by omega)
        · intro c hc
          exact hm c fun i' h1 j' h3 h4 e => hc ⟨i', h1, j', h3, h4, e⟩
      · rw [if_pos (by omega)]; rfl
    · intro j _ hj s
      rw [Arr.get_ok (by omega), ok_bind, cassert_true (by simpa using hlt j hj), ok_bind]

theorem bidiag_sum {n : Nat} (d l A : Nat → K) {j : Nat} (hj : j < n) :
    ∑ k ∈ Finset.range n, A k * bidiag d l k j = d j * A j + if j + 1 < n then l j * A (j + 1) else 0 := by
  have e : ∀ k ∈ Finset.range n, A k * bidiag d l k j =
      (if k = j then d j * A j else 0) + (if k = j + 1 then l j * A (j + 1) else 0) := by
    intro k _
    unfold bidiag
    by_cases h : k = j
    · subst h; simp [mul_comm]
    · by_cases h' : k = j + 1
      · subst h'; simp [mul_comm]
      · simp [h, h']
  rw [Finset.sum_congr rfl e, Finset.sum_add_distrib, Finset.sum_ite_eq', Finset.sum_ite_eq']
  simp [hj]

/-- the state after `r` rounds of `bidiagmul`: columns `< r` are done -/
theorem bidiagmul_false_tot {a : Mat} {d l : Vec} {m : Mem K} (ha : a.Valid m) (hd : d.Valid m) (hl : l.Valid m)
    (had : Disj d.Cell a.Cell) (hal : Disj l.Cell a.Cell) (h1 : a.cols = d.dim) (h2 : l.dim + 1 = d.dim) (alpha : K) :
    Tot (bidiagmul alpha false a d l m) (MatBecomes a m (fun i j => alpha *
      ∑ k ∈ Finset.range a.cols, a.val m i k * bidiag (d.val m) (l.val m) k j)) := by
  simp only [bidiagmul, Bool.false_eq_true, if_false]
  refine Tot.cassert (by simpa using h1) (Tot.cassert (by simpa using h2) ?_)
  by_cases hz : a.rows < 1 ∨ a.cols < 1
  · rw [if_pos hz]
    exact Tot.pure (becomes_congr (becomes_self ha) fun i hi j hj => by omega)
  rw [if_neg hz]
  have hcol : 0 < a.cols := by omega
  refine Tot.bind (P := MatBecomes a m (fun i j => if j < a.cols - 1 then
      alpha * d.val m j * a.val m i j + alpha * l.val m j * a.val m i (j + 1) else a.val m i j)) ?_ ?_
  · refine forUp_tot (fun r (m' : Mem K) => MatBecomes a m (fun i j => if j < r then
      alpha * d.val m j * a.val m i j + alpha * l.val m j * a.val m i (j + 1) else a.val m i j) m') (Nat.zero_le _)
      (by simpa using becomes_self ha) ?_
    intro j m1 _ hj hm1
    rw [becomes_read_vec hm1 hd had (by omega), ok_bind, becomes_read_vec hm1 hl hal (by omega), ok_bind]
    refine (forUp_tot (fun s (m' : Mem K) => MatBecomes a m (fun i' j' => if j' < j ∨ (j' = j ∧ i' < s) then
      alpha * d.val m j' * a.val m i' j' + alpha * l.val m j' * a.val m i' (j' + 1) else a.val m i' j') m')
      (Nat.zero_le _) (by simpa using hm1) ?_).mono ?_
    · intro i m2 _ hi hm2
      rw [becomes_read hm2 hi (by omega), ok_bind, becomes_read hm2 hi (by omega), ok_bind]
      refine (becomes_write hm2 hi (show j < a.cols by omega) _).mono fun m3 h3 =>
        becomes_congr h3 fun i' hi' j' hj' => ?_
      simp only [fset]
      by_cases e : i' = i ∧ j' = j
      · rw [if_pos e, if_neg (by omega), if_neg (by omega), if_pos (by omega), e.1, e.2]
      · rw [if_neg e]
        by_cases e' : j' < j ∨ (j' = j ∧ i' < i)
        · rw [if_pos e', if_pos (by omega)]
        · rw [if_neg e', if_neg (by omega)]
    · intro m2 hm2
      refine becomes_congr hm2 fun i hi j' hj' => ?_
      by_cases e : j' < j + 1
      · rw [if_pos e, if_pos (by omega)]
      · rw [if_neg e, if_neg (by omega)]
  · intro m1 _ hm1
    rw [becomes_read_vec hm1 hd had (by omega), ok_bind]
    refine (forUp_tot (fun s (m' : Mem K) => MatBecomes a m (fun i' j' => if j' = a.cols - 1 ∧ i' < s then
      a.val m i' j' * (alpha * d.val m j') else if j' < a.cols - 1 then
      alpha * d.val m j' * a.val m i' j' + alpha * l.val m j' * a.val m i' (j' + 1) else a.val m i' j') m')
      (Nat.zero_le _) (by simpa using hm1) ?_).mono ?_
    · intro i m2 _ hi hm2
      rw [becomes_read hm2 hi (by omega), ok_bind]
      refine (becomes_write hm2 hi (show a.cols - 1 < a.cols by omega) _).mono fun m3 h3 =>
        becomes_congr h3 fun i' hi' j' hj' => ?_
      simp only [fset]
      by_cases e : i' = i ∧ j' = a.cols - 1
      · rw [if_pos e, if_neg (by omega), if_neg (by omega), if_pos (by omega), e.1, e.2]
      · rw [if_neg e]
        by_cases e' : j' = a.cols - 1 ∧ i' < i
        · rw [if_pos e', if_pos (by omega)]
        · rw [if_neg e', if_neg (c := j' = a.cols - 1 ∧ i' < i + 1) (by omega)]
    · intro m2 hm2
      refine becomes_congr hm2 fun i hi j hj => ?_
      rw [bidiag_sum _ _ _ hj]
      by_cases e : j = a.cols - 1
      · rw [if_pos ⟨e, hi⟩, if_neg (by omega)]; ring
      · rw [if_neg (by omega), if_pos (by omega), if_pos (by omega)]; ring

theorem bidiagmul_true_tot {a : Mat} {d l : Vec} {m : Mem K} (ha : a.Valid m) (hd : d.Valid m) (hl : l.Valid m)
    (had : Disj d.Cell a.Cell) (hal : Disj l.Cell a.Cell) (h1 : a.rows = d.dim) (h2 : l.dim + 1 = d.dim) (alpha : K) :
    Tot (bidiagmul alpha true a d l m) (MatBecomes a m (fun i j => star alpha *
      ∑ k ∈ Finset.range a.rows, star (bidiag (d.val m) (l.val m) k i) * a.val m k j)) := by
  simp only [bidiagmul, if_true]
  refine Tot.cassert (by simpa using h1) (Tot.cassert (by simpa using h2) ?_)
  by_cases hz : a.rows < 1 ∨ a.cols < 1
  · rw [if_pos hz]
    exact Tot.pure (becomes_congr (becomes_self ha) fun i hi j hj => by omega)
  rw [if_neg hz]
  refine Tot.bind (P := MatBecomes a m (fun j i => if j < a.rows - 1 then
      star (alpha * d.val m j) * a.val m j i + star (alpha * l.val m j) * a.val m (j + 1) i else a.val m j i)) ?_ ?_
  · refine forUp_tot (fun r (m' : Mem K) => MatBecomes a m (fun j i => if j < r then
      star (alpha * d.val m j) * a.val m j i + star (alpha * l.val m j) * a.val m (j + 1) i else a.val m j i) m')
      (Nat.zero_le _) (by simpa using becomes_self ha) ?_
    intro j m1 _ hj hm1
    rw [becomes_read_vec hm1 hd had (by omega), ok_bind, becomes_read_vec hm1 hl hal (by omega), ok_bind]
    refine (forUp_tot (fun s (m' : Mem K) => MatBecomes a m (fun j' i' => if j' < j ∨ (j' = j ∧ i' < s) then
      star (alpha * d.val m j') * a.val m j' i' + star (alpha * l.val m j') * a.val m (j' + 1) i'
      else a.val m j' i') m')
      (Nat.zero_le _) (by simpa using hm1) ?_).mono ?_
    · intro i m2 _ hi hm2
      rw [becomes_read hm2 (by omega) hi, ok_bind, becomes_read hm2 (by omega) hi, ok_bind]
      refine (becomes_write hm2 (show j < a.rows by omega) hi _).mono fun m3 h3 =>
        becomes_congr h3 fun j' hj' i' hi' => ?_
      simp only [fset]
      by_cases e : j' = j ∧ i' = i
      · rw [if_pos e, if_neg (by omega), if_neg (by omega), if_pos (by omega), e.1, e.2]
      · rw [if_neg e]
        by_cases e' : j' < j ∨ (j' = j ∧ i' < i)
        · rw [if_pos e', if_pos (by omega)]
        · rw [if_neg e', if_neg (by omega)]
    · intro m2 hm2
      refine becomes_congr hm2 fun j' hj' i hi => ?_
      by_cases e : j' < j + 1
      · rw [if_pos e, if_pos (by omega)]
      · rw [if_neg e, if_neg (by omega)]
  · intro m1 _ hm1
    rw [becomes_read_vec hm1 hd had (by omega), ok_bind]
    refine (forUp_tot (fun s (m' : Mem K) => MatBecomes a m (fun j' i' => if j' = a.rows - 1 ∧ i' < s then
      a.val m j' i' * star (alpha * d.val m j') else if j' < a.rows - 1 then
      star (alpha * d.val m j') * a.val m j' i' + star (alpha * l.val m j') * a.val m (j' + 1) i'
      else a.val m j' i') m')
      (Nat.zero_le _) (by simpa using hm1) ?_).mono ?_
    · intro i m2 _ hi hm2
      rw [becomes_read hm2 (by omega) hi, ok_bind]
      refine (becomes_write hm2 (show a.rows - 1 < a.rows by omega) hi _).mono fun m3 h3 =>
        becomes_congr h3 fun j' hj' i' hi' => ?_
      simp only [fset]
      by_cases e : j' = a.rows - 1 ∧ i' = i
      · rw [if_pos e, if_neg (by omega), if_neg (by omega), if_pos (by omega), e.1, e.2]
      · rw [if_neg e]
        by_cases e' : j' = a.rows - 1 ∧ i' < i
        · rw [if_pos e', if_pos (by omega)]
        · rw [if_neg e', if_neg (c := j' = a.rows - 1 ∧ i' < i + 1) (by omega)]
    · intro m2 hm2
      refine becomes_congr hm2 fun j hj i hi => ?_
      have e : ∀ k, star (bidiag (d.val m) (l.val m) k j) * a.val m k i =
          a.val m k i * bidiag (fun j => star (d.val m j)) (fun j => star (l.val m j)) k j := by
        intro k
        unfold bidiag
        rw [mul_comm]
        congr 1
        split
        · rfl
        · split
          · rfl
          · simp
      rw [Finset.sum_congr rfl fun k _ => e k, bidiag_sum _ _ (fun k => a.val m k i) hj]
      simp only [star_mul']
      by_cases e : j = a.rows - 1
      · rw [if_pos ⟨e, hi⟩, if_neg (by omega)]; ring
      · rw [if_neg (by omega), if_pos (by omega), if_pos (by omega)]; ring

/-! ### resizing -/

theorem resizecopy_tot {a : Mat} {m : Mem K} (hld : a.rows ≤ a.ld) (hown : Owns a m) (rows cols nb : Nat)
    (junk : Nat → K) (hfresh : Fresh m nb (rows * cols)) :
    Tot (resizecopy a rows cols nb junk m) (fun p =>
      p.1.rows = rows ∧ p.1.cols = cols ∧ p.1.Valid p.2 ∧ Owns p.1 p.2 ∧
      (∀ i < rows, ∀ j < cols, p.1.val p.2 i j = if i < a.rows ∧ j < a.cols then a.val m i j else 0) ∧
      (∀ c, ¬ Block a c → ¬ Block p.1 c → p.2 c = m c) ∧
      ((rows ≠ a.rows ∨ cols ≠ a.cols) → ∀ c, Block a c → p.2 c = none)) := by
  have cellBlock : ∀ (b : Mat), b.rows ≤ b.ld → ∀ i < b.rows, ∀ j < b.cols, Block b (b.addr i j) := by
    intro b hb i hi j hj
    refine ⟨by unfold Mat.addr; omega, ?_⟩
    unfold Mat.addr
    have : (j + 1) * b.ld ≤ b.cols * b.ld := Nat.mul_le_mul_right _ hj
    rw [Nat.succ_mul] at this
    rw [Nat.mul_comm b.ld]
    omega
  have ha : a.Valid m := ⟨hld, fun i hi j hj => by
    obtain ⟨h1, h2⟩ := cellBlock a hld i hi j hj
    exact hown _ h1 h2⟩
  unfold resizecopy
  by_cases hne : rows ≠ a.rows ∨ cols ≠ a.cols
  · rw [if_pos hne]
    set n : Mat := ⟨nb, rows, rows, cols⟩ with hn
    set m1 := m.alloc nb (rows * cols) junk with hm1
    have nBlock : ∀ c, Block n c ↔ nb ≤ c ∧ c < nb + rows * cols := fun c => Iff.rfl
    have hn1 : n.Valid m1 := ⟨le_rfl, fun i hi j hj => by
      have := (nBlock _).mp (cellBlock n le_rfl i hi j hj)
      simp only [hm1, Mem.alloc, if_pos this]; rfl⟩
    have hdis : ∀ c, Block a c → ¬ Block n c := by
      intro c h1 h2
      have := hown c h1.1 h1.2
      rw [hfresh c h2.1 h2.2] at this
      exact absurd this (by simp)
    have ha1 : ∀ c, ¬ Block n c → m1 c = m c := by
      intro c hc
      rw [nBlock] at hc
      simp only [hm1, Mem.alloc, if_neg hc]
    have hrd : ∀ {m' : Mem K} {F : Nat → Nat → K}, MatBecomes n m1 F m' → ∀ i < a.rows, ∀ j < a.cols,
        m'.read (a.addr i j) = .ok (a.val m i j) := by
      intro m' F h i hi j hj
      have hb := hdis _ (cellBlock a hld i hi j hj)
      apply Mem.read_ok
      rw [h.2.2, ha1 _ hb, ha.some hi hj]
      rintro ⟨i', hi', j', hj', e⟩
      exact hb (e ▸ cellBlock n le_rfl i' hi' j' hj')
    -- the loops
    have step1 : Tot (forUp 0 (min cols a.cols) (fun j m => do
        let m ← forUp 0 (min rows a.rows) (fun i m => do
          let x ← m.read (a.addr i j)
          m.write (n.addr i j) x) m
        forUp (min rows a.rows) rows (fun i m => m.write (n.addr i j) 0) m) m1)
        (MatBecomes n m1 (fun i j => if j < min cols a.cols then (if i < a.rows then a.val m i j else 0)
          else n.val m1 i j)) := by
      refine forUp_tot (fun r (m' : Mem K) => MatBecomes n m1 (fun i j => if j < r then
        (if i < a.rows then a.val m i j else 0) else n.val m1 i j) m') (Nat.zero_le _)
        (by simpa using becomes_self hn1) ?_
      intro j m2 _ hj h2
      refine Tot.bind (P := MatBecomes n m1 (fun i' j' => if j' = j ∧ i' < min rows a.rows then a.val m i' j' else
        if j' < j then (if i' < a.rows then a.val m i' j' else 0) else n.val m1 i' j')) ?_ ?_
      · refine forUp_tot (fun s (m' : Mem K) => MatBecomes n m1 (fun i' j' => if j' = j ∧ i' < s then a.val m i' j' else
          if j' < j then (if i' < a.rows then a.val m i' j' else 0) else n.val m1 i' j') m') (Nat.zero_le _)
          (by simpa using h2) ?_
        intro i m3 _ hi h3
        rw [hrd h3 i (by omega) j (by omega), ok_bind]
        refine (becomes_write h3 (show i < n.rows from (by simp only [hn]; omega))
          (show j < n.cols from (by simp only [hn]; omega)) _).mono
          fun m4 h4 => becomes_congr h4 fun i' hi' j' hj' => ?_
        simp only [fset]
        by_cases e : i' = i ∧ j' = j
        · rw [if_pos e, if_pos (by omega), e.1, e.2]
        · rw [if_neg e]
          by_cases e' : j' = j ∧ i' < i
          · rw [if_pos e', if_pos (by omega)]
          · rw [if_neg e', if_neg (c := j' = j ∧ i' < i + 1) (by omega)]
      · intro m3 _ h3
        refine (forUp_tot (fun s (m' : Mem K) => MatBecomes n m1 (fun i' j' => if j' = j ∧ i' < s then
          (if i' < a.rows then a.val m i' j' else 0) else
          if j' < j then (if i' < a.rows then a.val m i' j' else 0) else n.val m1 i' j') m') (by omega) ?_ ?_).mono ?_
        · refine becomes_congr h3 fun i' hi' j' hj' => ?_
          by_cases e' : j' = j ∧ i' < min rows a.rows
          · rw [if_pos e', if_pos e', if_pos (by omega)]
          · rw [if_neg e', if_neg e']
        · intro i m4 h1 hi h4
          refine (becomes_write h4 (show i < n.rows from hi)
            (show j < n.cols from (by simp only [hn]; omega)) _).mono
            fun m5 h5 => becomes_congr h5 fun i' hi' j' hj' => ?_
          simp only [fset]
          by_cases e : i' = i ∧ j' = j
          · rw [if_pos e, if_pos (by omega), if_neg (by omega)]
          · rw [if_neg e]
            by_cases e' : j' = j ∧ i' < i
            · rw [if_pos e', if_pos (c := j' = j ∧ i' < i + 1) (by omega)]
            · rw [if_neg e', if_neg (c := j' = j ∧ i' < i + 1) (by omega)]
        · intro m4 h4
          refine becomes_congr h4 fun i' hi' j' hj' => ?_
          have hi'' : i' < rows := hi'
          by_cases e : j' = j
          · rw [if_pos ⟨e, hi''⟩, if_pos (c := j' < j + 1) (by omega)]
          · rw [if_neg (by omega)]
            by_cases e2 : j' < j
            · rw [if_pos e2, if_pos (c := j' < j + 1) (by omega)]
            · rw [if_neg e2, if_neg (by omega)]
    refine Tot.bind step1 fun m2 _ h2 => ?_
    refine Tot.bind (P := MatBecomes n m1 (fun i j => if i < a.rows ∧ j < a.cols then a.val m i j else 0)) ?_ ?_
    · refine (forUp_tot (fun r (m' : Mem K) => MatBecomes n m1 (fun i j => if j < r then
        (if i < a.rows ∧ j < a.cols then a.val m i j else 0) else n.val m1 i j) m') (by omega) ?_ ?_).mono ?_
      · refine becomes_congr h2 fun i hi j hj => ?_
        by_cases e : j < min cols a.cols
        · rw [if_pos e, if_pos e]
          by_cases e' : i < a.rows
          · rw [if_pos e', if_pos (by omega)]
          · rw [if_neg e', if_neg (by omega)]
        · rw [if_neg e, if_neg e]
      · intro j m3 hj1 hj h3
        refine (forUp_tot (fun s (m' : Mem K) => MatBecomes n m1 (fun i' j' => if j' = j ∧ i' < s then 0 else
          if j' < j then (if i' < a.rows ∧ j' < a.cols then a.val m i' j' else 0) else n.val m1 i' j') m')
          (Nat.zero_le _) (by simpa using h3) ?_).mono ?_
        · intro i m4 _ hi h4
          refine (becomes_write h4 (show i < n.rows from hi) (show j < n.cols from hj) _).mono
            fun m5 h5 => becomes_congr h5 fun i' hi' j' hj' => ?_
          simp only [fset]
          by_cases e : i' = i ∧ j' = j
          · rw [if_pos e, if_pos (by omega)]
          · rw [if_neg e]
            by_cases e' : j' = j ∧ i' < i
            · rw [if_pos e', if_pos (c := j' = j ∧ i' < i + 1) (by omega)]
            · rw [if_neg e', if_neg (c := j' = j ∧ i' < i + 1) (by omega)]
        · intro m4 h4
          refine becomes_congr h4 fun i' hi' j' hj' => ?_
          have hi'' : i' < rows := hi'
          by_cases e : j' = j
          · rw [if_pos ⟨e, hi''⟩, if_pos (by omega), if_neg (by omega)]
          · rw [if_neg (by omega)]
            by_cases e2 : j' < j
            · rw [if_pos e2, if_pos (c := j' < j + 1) (by omega)]
            · rw [if_neg e2, if_neg (by omega)]
      · intro m3 h3
        refine becomes_congr h3 fun i hi j hj => ?_
        rw [if_pos (show j < cols from hj)]
    · intro m3 _ h3
      have hfree : ∀ c, ¬ Block a c → (m3.free a.base (a.ld * a.cols)) c = m3 c := by
        intro c hc
        have : ¬ (a.base ≤ c ∧ c < a.base + a.ld * a.cols) := hc
        simp only [Mem.free, if_neg this]
      have hnfree : ∀ i < n.rows, ∀ j < n.cols, (m3.free a.base (a.ld * a.cols)) (n.addr i j) = m3 (n.addr i j) :=
        fun i hi j hj => hfree _ fun h => hdis _ h (cellBlock n le_rfl i hi j hj)
      refine ⟨_, rfl, rfl, rfl, ⟨le_rfl, ?_⟩, ?_, ?_, ?_, ?_⟩
      · intro i hi j hj
        show (m3.free a.base (a.ld * a.cols) (n.addr i j)).isSome
        rw [hnfree i hi j hj]; exact h3.1.2 i hi j hj
      · intro c h1 h2
        show (m3.free a.base (a.ld * a.cols) c).isSome
        rw [hfree c fun h => hdis _ h ⟨h1, h2⟩]
        -- every cell of the block of n is an entry of n
        by_cases hc : n.Cell c
        · obtain ⟨i, hi, j, hj, rfl⟩ := hc
          exact h3.1.2 i hi j hj
        · rw [h3.2.2 c hc]
          have : nb ≤ c ∧ c < nb + rows * cols := ⟨h1, h2⟩
          simp only [hm1, Mem.alloc, if_pos this]; rfl
      · intro i hi j hj
        refine Eq.trans ?_ (h3.2.1 i hi j hj)
        show ((m3.free a.base (a.ld * a.cols) (n.addr i j))).getD 0 = (m3 (n.addr i j)).getD 0
        rw [hnfree i hi j hj]
      · intro c h1 h2
        show m3.free a.base (a.ld * a.cols) c = m c
        rw [hfree c h1, h3.2.2, ha1 c h2]
        rintro ⟨i, hi, j, hj, rfl⟩
        exact h2 (cellBlock n le_rfl i hi j hj)
      · intro _ c hc
        show m3.free a.base (a.ld * a.cols) c = none
        have : a.base ≤ c ∧ c < a.base + a.ld * a.cols := hc
        simp only [Mem.free, if_pos this]
  · rw [if_neg hne]
    push Not at hne
    refine Tot.pure ⟨hne.1.symm, hne.2.symm, ha, hown, ?_, fun _ _ _ => rfl, fun h => ?_⟩
    · intro i hi j hj
      rw [if_pos (by omega)]
    · rcases h with h | h
      · exact absurd hne.1 h
      · exact absurd hne.2 h

end H2.Dense
