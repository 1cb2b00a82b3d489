import Verif.Model.FactorTasks
import Verif.Proof.FactorBlocks

/-! # Task-parallel factorizations: every schedule gives the sequential result -/

set_option linter.unusedSectionVars false

namespace H2.Dense
open Spec
variable {K : Type} [Field K] [StarRing K]

/-! ### the access sequences are the kernels -/

theorem run_read1 (p : Nat) (k : K → Prog K) (m : Mem K) : (Prog.read p k).run m = m.read p >>= fun x => (k x).run m := rfl
theorem run_write1 (p : Nat) (x : K) (m : Mem K) : (Prog.write p x .ret).run m = m.write p x := by
  simp only [Prog.run]
  cases m.write p x <;> rfl

theorem run_forDown (body : Nat → Prog K) (n : Nat) (m : Mem K) :
    (Prog.forDown body n).run m = forDown (fun i m => (body i).run m) n m := by
  induction n generalizing m with
  | zero => rfl
  | succ n ih =>
    simp only [Prog.forDown, forDown]
    rw [Prog.run_seq]
    exact congrArg _ (funext fun m => ih m)

theorem run_rowStepP (c : K → K) (ad : Nat → Nat → Nat) (unit : Bool) (x : Mat) (k lo hi : Nat) (m : Mem K) :
    (rowStepP c ad unit x k lo hi).run m = rowStep c ad unit x k lo hi m := by
  unfold rowStepP rowStep
  rw [Prog.run_seq]
  cases unit <;> simp only [Bool.false_eq_true, if_false, if_true, run_read1, run_write1, Prog.run_forUp, Prog.run_pure]
  · rfl

theorem run_colStepP (c : K → K) (ad : Nat → Nat → Nat) (unit : Bool) (x : Mat) (k lo hi : Nat) (m : Mem K) :
    (colStepP c ad unit x k lo hi).run m = colStep c ad unit x k lo hi m := by
  unfold colStepP colStep
  rw [Prog.run_seq]
  cases unit <;> simp only [Bool.false_eq_true, if_false, if_true, run_read1, run_write1, Prog.run_forUp, Prog.run_pure]
  · rfl

theorem run_trisolveP (lower unit trans : Bool) (a : Mat) (xtrans : Bool) (x : Mat) (m : Mem K) :
    (trisolveP lower unit trans a xtrans x).run m = trisolve lower unit trans a xtrans x m := by
  unfold trisolveP trisolve lowersolveP lowersolve uppersolveP uppersolve
  cases lower <;> cases trans <;> cases xtrans <;>
    simp only [Bool.false_eq_true, if_false, if_true, Prog.run_assert, run_forDown, Prog.run_forUp, run_rowStepP, run_colStepP]

theorem run_addmulP (alpha : K) (a : Mat) (btrans : Bool) (b c : Mat) (m : Mem K) :
    (addmulP alpha a btrans b c).run m = addmul alpha false a btrans b c m := by
  unfold addmulP addmul
  by_cases e : a.rows = 0 ∨ a.cols = 0 ∨ b.rows = 0 ∨ b.cols = 0
  · rw [if_pos e, if_pos e]; rfl
  · rw [if_neg e, if_neg e]
    cases btrans <;>
      simp only [Bool.false_eq_true, if_false, if_true, Prog.run_assert, Prog.run_forUp, run_read1, run_write1, incrP, incr]

/-! ### footprints -/

theorem within_rowStepP {c : K → K} {ad : Nat → Nat → Nat} {unit : Bool} {x : Mat} {k lo hi : Nat} {D : Nat → Prop}
    (hk : k < x.rows) (hhi : hi ≤ x.rows) (h1 : D (ad k k)) (h2 : ∀ i, lo ≤ i → i < hi → D (ad i k)) :
    (rowStepP c ad unit x k lo hi).Within (fun c => D c ∨ x.Cell c) x.Cell := by
  unfold rowStepP
  refine .seq ?_ (.forUp fun i hi1 hi2 => .forUp fun j _ hj => .read (.inr (Mat.cell_addr (by omega) hj)) fun _ =>
    .read (.inl (h2 i hi1 hi2)) fun _ => .read (.inr (Mat.cell_addr hk hj)) fun _ => .write (Mat.cell_addr (by omega) hj) .ret)
  cases unit
  · exact .read (.inl h1) fun _ => .forUp fun j _ hj => .read (.inr (Mat.cell_addr hk hj)) fun _ =>
      .write (Mat.cell_addr hk hj) .ret
  · exact .ret

theorem within_colStepP {c : K → K} {ad : Nat → Nat → Nat} {unit : Bool} {x : Mat} {k lo hi : Nat} {D : Nat → Prop}
    (hk : k < x.cols) (hhi : hi ≤ x.cols) (h1 : D (ad k k)) (h2 : ∀ i, lo ≤ i → i < hi → D (ad i k)) :
    (colStepP c ad unit x k lo hi).Within (fun c => D c ∨ x.Cell c) x.Cell := by
  unfold colStepP
  refine .seq ?_ (.forUp fun i _ hi => .forUp fun j hj1 hj2 => .read (.inr (Mat.cell_addr hi (by omega))) fun _ =>
    .read (.inr (Mat.cell_addr hi hk)) fun _ => .read (.inl (h2 j hj1 hj2)) fun _ => .write (Mat.cell_addr hi (by omega)) .ret)
  cases unit
  · exact .read (.inl h1) fun _ => .forUp fun j _ hj => .read (.inr (Mat.cell_addr hj hk)) fun _ =>
      .write (Mat.cell_addr hj hk) .ret
  · exact .ret

theorem within_assert {Rd Wr : Nat → Prop} {b : Bool} {q : Prog K} (h : b = true → q.Within Rd Wr) :
    ((Prog.assert b).seq q).Within Rd Wr := by
  cases b
  · exact .fail _
  · exact h rfl

theorem within_trisolveP (lower unit trans : Bool) (a : Mat) (xtrans : Bool) (x : Mat) :
    (trisolveP lower unit trans a xtrans x : Prog K).Within (fun c => a.Cell c ∨ x.Cell c) x.Cell := by
  have hr := Nat.min_le_left a.rows a.cols
  have hc := Nat.min_le_right a.rows a.cols
  unfold trisolveP lowersolveP uppersolveP
  cases lower <;> cases trans <;> cases xtrans <;> simp only [Bool.false_eq_true, if_false, if_true] <;>
    refine within_assert fun h => ?_ <;> replace h := of_decide_eq_true h
  · exact .forDown fun k hk => within_rowStepP (by omega) (by omega) (Mat.cell_addr (by omega) (by omega))
      fun i _ _ => Mat.cell_addr (by omega) (by omega)
  · exact .forDown fun k hk => within_colStepP (by omega) (by omega) (Mat.cell_addr (by omega) (by omega))
      fun i _ _ => Mat.cell_addr (by omega) (by omega)
  · exact .forUp fun k _ hk => within_rowStepP (by omega) (by omega) (Mat.cell_addr (by omega) (by omega))
      fun i _ _ => Mat.cell_addr (by omega) (by omega)
  · exact .forUp fun k _ hk => within_colStepP (by omega) (by omega) (Mat.cell_addr (by omega) (by omega))
      fun i _ _ => Mat.cell_addr (by omega) (by omega)
  · exact .forUp fun k _ hk => within_rowStepP (by omega) (by omega) (Mat.cell_addr (by omega) (by omega))
      fun i _ _ => Mat.cell_addr (by omega) (by omega)
  · exact .forUp fun k _ hk => within_colStepP (by omega) (by omega) (Mat.cell_addr (by omega) (by omega))
      fun i _ _ => Mat.cell_addr (by omega) (by omega)
  · exact .forDown fun k hk => within_rowStepP (by omega) (by omega) (Mat.cell_addr (by omega) (by omega))
      fun i _ _ => Mat.cell_addr (by omega) (by omega)
  · exact .forDown fun k hk => within_colStepP (by omega) (by omega) (Mat.cell_addr (by omega) (by omega))
      fun i _ _ => Mat.cell_addr (by omega) (by omega)

theorem within_addmulP (alpha : K) (a : Mat) (btrans : Bool) (b c : Mat) :
    (addmulP alpha a btrans b c).Within (fun p => a.Cell p ∨ b.Cell p ∨ c.Cell p) c.Cell := by
  unfold addmulP incrP
  by_cases e : a.rows = 0 ∨ a.cols = 0 ∨ b.rows = 0 ∨ b.cols = 0
  · rw [if_pos e]; exact .ret
  · rw [if_neg e]
    cases btrans <;> simp only [Bool.false_eq_true, if_false, if_true] <;>
      refine within_assert fun h1 => within_assert fun h2 => within_assert fun h3 => ?_ <;>
      replace h1 := of_decide_eq_true h1 <;> replace h2 := of_decide_eq_true h2 <;> replace h3 := of_decide_eq_true h3 <;>
      refine .forUp fun j _ hj => .forUp fun k _ hk => .forUp fun i _ hi => ?_
    · exact .read (.inl (Mat.cell_addr hi hk)) fun _ => .read (.inr (.inl (Mat.cell_addr (by omega) hj))) fun _ =>
        .read (.inr (.inr (Mat.cell_addr (by omega) (by omega)))) fun _ => .write (Mat.cell_addr (by omega) (by omega)) .ret
    · exact .read (.inl (Mat.cell_addr hi hj)) fun _ => .read (.inr (.inl (Mat.cell_addr hk (by omega)))) fun _ =>
        .read (.inr (.inr (Mat.cell_addr (by omega) (by omega)))) fun _ => .write (Mat.cell_addr (by omega) (by omega)) .ret

/-! ### the phases -/

section
variable {a : Mat} {blocks : Nat}
  (hO : Off a.rows blocks (blockOff a.rows blocks) (blockSize a.rows blocks)) (hsq : a.rows = a.cols)
include hO hsq

theorem sub_eq {i j : Nat} (hi : i < blocks) (hj : j < blocks) :
    sub a blocks i j = blk a (blockOff a.rows blocks) (blockSize a.rows blocks) i j := by
  rfl

theorem subBlocks_tot (m : Mem K) : subBlocks a blocks m = .ok m := by
  unfold subBlocks
  obtain ⟨m', h1, h2⟩ := forUp_tot (fun _ m' => m' = m) (Nat.zero_le blocks) rfl
    (body := fun j (m : Mem K) => forUp 0 blocks (fun i m => do
      let _ ← subBlock a blocks i j
      pure m) m) (s := m) (fun j m' _ hj e => by
    subst e
    exact forUp_tot (fun _ m'' => m'' = m') (Nat.zero_le blocks) rfl fun i m'' _ hi e => by
      subst e
      exact ⟨m'', by rw [subBlock_win hO hsq hi hj]; rfl, rfl⟩)
  rw [h1, h2]

theorem sub_disj (hld : a.rows ≤ a.ld) {i j i' j' : Nat} (hi : i < blocks) (hj : j < blocks) (hi' : i' < blocks) (hj' : j' < blocks)
    (hne : i ≠ i' ∨ j ≠ j') {c : Nat} (h : (sub a blocks i j).Cell c) : ¬ (sub a blocks i' j').Cell c := by
  rw [sub_eq hO hsq hi hj] at h
  rw [sub_eq hO hsq hi' hj']
  exact blk_disj hO hsq hi hj hi' hj' hne hld c h

theorem free_R (hld : a.rows ≤ a.ld) {k : Nat} (hk : k < blocks) (lower unit trans xtrans : Bool) : ∃ rd wr,
    Free ((List.range' (k + 1) (blocks - (k + 1))).map fun j =>
      (trisolveP lower unit trans (sub a blocks k k) xtrans (sub a blocks k j) : Prog K)) rd wr := by
  refine ⟨_, _, free_map List.nodup_range' _ (fun j c => (sub a blocks k k).Cell c ∨ (sub a blocks k j).Cell c)
    (fun j => (sub a blocks k j).Cell) (fun j _ => within_trisolveP ..) ?_⟩
  intro x hx y hy hxy c hc
  rw [List.mem_range'_1] at hx hy
  refine ⟨fun h => ?_, sub_disj hO hsq hld hk (by omega) hk (by omega) (.inr hxy) hc⟩
  rcases h with h | h
  · exact sub_disj hO hsq hld hk (by omega) hk hk (.inr (by omega)) hc h
  · exact sub_disj hO hsq hld hk (by omega) hk (by omega) (.inr hxy) hc h

theorem free_L (hld : a.rows ≤ a.ld) {k : Nat} (hk : k < blocks) (lower unit trans xtrans : Bool) : ∃ rd wr,
    Free ((List.range' (k + 1) (blocks - (k + 1))).map fun i =>
      (trisolveP lower unit trans (sub a blocks k k) xtrans (sub a blocks i k) : Prog K)) rd wr := by
  refine ⟨_, _, free_map List.nodup_range' _ (fun j c => (sub a blocks k k).Cell c ∨ (sub a blocks j k).Cell c)
    (fun j => (sub a blocks j k).Cell) (fun j _ => within_trisolveP ..) ?_⟩
  intro x hx y hy hxy c hc
  rw [List.mem_range'_1] at hx hy
  refine ⟨fun h => ?_, sub_disj hO hsq hld (by omega) hk (by omega) hk (.inl hxy) hc⟩
  rcases h with h | h
  · exact sub_disj hO hsq hld (by omega) hk hk hk (.inl (by omega)) hc h
  · exact sub_disj hO hsq hld (by omega) hk (by omega) hk (.inl hxy) hc h

theorem free_U (hld : a.rows ≤ a.ld) {k : Nat} (hk : k < blocks) : ∃ rd wr,
    Free ((List.range' (k + 1) (blocks - (k + 1))).flatMap fun j => (List.range' (k + 1) (blocks - (k + 1))).map fun i =>
      (addmulP (-1) (sub a blocks i k) false (sub a blocks k j) (sub a blocks i j) : Prog K)) rd wr := by
  have e : ((List.range' (k + 1) (blocks - (k + 1))).flatMap fun j => (List.range' (k + 1) (blocks - (k + 1))).map fun i =>
      (addmulP (-1) (sub a blocks i k) false (sub a blocks k j) (sub a blocks i j) : Prog K)) =
      ((List.range' (k + 1) (blocks - (k + 1))).product (List.range' (k + 1) (blocks - (k + 1)))).map
        fun p => addmulP (-1) (sub a blocks p.2 k) false (sub a blocks k p.1) (sub a blocks p.2 p.1) := by
    rw [List.product, List.map_flatMap]
    simp only [List.map_map]
    rfl
  rw [e]
  refine ⟨_, _, free_map (List.Nodup.product List.nodup_range' List.nodup_range') _
    (fun p c => (sub a blocks p.2 k).Cell c ∨ (sub a blocks k p.1).Cell c ∨ (sub a blocks p.2 p.1).Cell c)
    (fun p => (sub a blocks p.2 p.1).Cell) (fun p _ => within_addmulP ..) ?_⟩
  rintro ⟨j, i⟩ hx ⟨j', i'⟩ hy hxy c hc
  replace hx := List.mem_product.mp hx
  replace hy := List.mem_product.mp hy
  simp only [List.mem_range'_1] at hx hy hc ⊢
  have hne : i ≠ i' ∨ j ≠ j' := by
    by_cases e : i = i'
    · exact .inr fun e' => hxy (by rw [e, e'])
    · exact .inl e
  refine ⟨fun h => ?_, sub_disj hO hsq hld (by omega) (by omega) (by omega) (by omega) hne hc⟩
  rcases h with h | h | h
  · exact sub_disj hO hsq hld (by omega) (by omega) (by omega) hk (.inr (by omega)) hc h
  · exact sub_disj hO hsq hld (by omega) (by omega) hk (by omega) (.inl (by omega)) hc h
  · exact sub_disj hO hsq hld (by omega) (by omega) (by omega) (by omega) hne hc h

theorem phaseR_seq {k : Nat} (hk : k < blocks) {m m1 : Mem K} {F : Nat → Nat → K} (h : MatBecomes a m F m1) :
    Tot (seqRun ((List.range' (k + 1) (blocks - (k + 1))).map fun j =>
      trisolveP true true false (sub a blocks k k) false (sub a blocks k j)) m1) (fun m2 => ∃ F', MatBecomes a m F' m2 ∧
      (∀ r c, ¬ (blockOff a.rows blocks k ≤ r ∧ r < blockOff a.rows blocks (k + 1) ∧ blockOff a.rows blocks (k + 1) ≤ c ∧
        c < a.rows) → F' r c = F r c) ∧
      ∀ r, blockOff a.rows blocks k ≤ r → r < blockOff a.rows blocks (k + 1) → ∀ c, blockOff a.rows blocks (k + 1) ≤ c →
        c < a.rows → ∑ l ∈ Finset.Ico (blockOff a.rows blocks k) (blockOff a.rows blocks (k + 1)),
          tri true true F r l * F' l c = F r c) := by
  have := phaseR_tot hO hsq hk h
  rw [seqRun_range']
  refine (congrArg (fun r => Tot r _) ?_).mp this
  exact forUp_congr (lo := k + 1) (hi := blocks) (fun j h1 h2 s => by
    rw [run_trisolveP, sub_eq hO hsq hk hk, sub_eq hO hsq hk h2]) m1

theorem phaseL_seq {k : Nat} (hk : k < blocks) {m m1 : Mem K} {F : Nat → Nat → K} (h : MatBecomes a m F m1)
    (hD : ∀ r, blockOff a.rows blocks k ≤ r → r < blockOff a.rows blocks (k + 1) → F r r ≠ 0) :
    Tot (seqRun ((List.range' (k + 1) (blocks - (k + 1))).map fun i =>
      trisolveP false false true (sub a blocks k k) true (sub a blocks i k)) m1) (fun m2 => ∃ F', MatBecomes a m F' m2 ∧
      (∀ r c, ¬ (blockOff a.rows blocks (k + 1) ≤ r ∧ r < a.rows ∧ blockOff a.rows blocks k ≤ c ∧
        c < blockOff a.rows blocks (k + 1)) → F' r c = F r c) ∧
      ∀ r, blockOff a.rows blocks (k + 1) ≤ r → r < a.rows → ∀ c, blockOff a.rows blocks k ≤ c →
        c < blockOff a.rows blocks (k + 1) →
        ∑ l ∈ Finset.Ico (blockOff a.rows blocks k) (blockOff a.rows blocks (k + 1)), F' r l * tri false false F l c = F r c) := by
  have := phaseL_tot hO hsq hk h hD
  rw [seqRun_range']
  refine (congrArg (fun r => Tot r _) ?_).mp this
  exact forUp_congr (lo := k + 1) (hi := blocks) (fun j h1 h2 s => by
    rw [run_trisolveP, sub_eq hO hsq hk hk, sub_eq hO hsq h2 hk]) m1

theorem phaseU_seq {k : Nat} (hk : k < blocks) {m m1 : Mem K} {F : Nat → Nat → K} (h : MatBecomes a m F m1) :
    Tot (seqRun ((List.range' (k + 1) (blocks - (k + 1))).flatMap fun j => (List.range' (k + 1) (blocks - (k + 1))).map fun i =>
      addmulP (-1) (sub a blocks i k) false (sub a blocks k j) (sub a blocks i j)) m1) (MatBecomes a m fun r c =>
      if blockOff a.rows blocks (k + 1) ≤ r ∧ r < a.rows ∧ blockOff a.rows blocks (k + 1) ≤ c ∧ c < a.rows then
        F r c - ∑ l ∈ Finset.Ico (blockOff a.rows blocks k) (blockOff a.rows blocks (k + 1)), F r l * F l c else F r c) := by
  have := phaseU_tot hO hsq hk h
  rw [seqRun_flatMap]
  refine (congrArg (fun r => Tot r _) ?_).mp this
  exact forUp_congr (lo := k + 1) (hi := blocks) (fun j h1 h2 s => by
    rw [seqRun_range']
    exact forUp_congr (lo := k + 1) (hi := blocks) (fun i h3 h4 s => by
      rw [run_addmulP, sub_eq hO hsq h4 hk, sub_eq hO hsq hk h2, sub_eq hO hsq h4 h2]) s) m1

end

theorem lrTaskRound_all {a : Mat} {blocks k : Nat}
    (hO : Off a.rows blocks (blockOff a.rows blocks) (blockSize a.rows blocks)) (hsq : a.rows = a.cols)
    (hlt : a.rows < 2 ^ 32) (hk : k < blocks) {m m' : Mem K} {A F : Nat → Nat → K} (hm : ∀ k ≤ a.rows, minor A k ≠ 0)
    (h : MatBecomes a m F m') (hinv : LRInv A a.rows (blockOff a.rows blocks k) F) :
    Beh.All (lrTaskRound a blocks k) m' (fun m2 => ∃ F', MatBecomes a m F' m2 ∧
      LRInv A a.rows (blockOff a.rows blocks (k + 1)) F') := by
  have hld : a.rows ≤ a.ld := h.1.1
  unfold lrTaskRound
  refine Beh.All.seq (Q := fun m1 => ∃ F', MatBecomes a m F' m1 ∧
      (∀ r c, ¬ (blockOff a.rows blocks k ≤ r ∧ r < blockOff a.rows blocks (k + 1) ∧ blockOff a.rows blocks k ≤ c ∧
        c < blockOff a.rows blocks (k + 1)) → F' r c = F r c) ∧
      LRInv A (blockOff a.rows blocks (k + 1)) (blockOff a.rows blocks (k + 1)) F') (Beh.All.det ?_) ?_
  · rw [sub_eq hO hsq hk hk]
    refine Tot.bind (diag_tot hO hsq hk hlt h hinv) ?_
    rintro ⟨p, m1⟩ - ⟨F1, b1, b2, b3, b4, b5⟩
    refine Tot.pure ⟨F1, b1, b3, b4 ?_⟩
    by_contra hp
    rcases b5 (by simp only at hp ⊢; omega) with g | g
    · have := g.1; simp only at this hp; omega
    · exact hm _ g.2.1 g.2.2.1
  · rintro m1 ⟨F1, b1, b3, hdec⟩
    obtain ⟨rd, wr, hf⟩ := free_R (K := K) hO hsq hld hk true true false false
    refine Beh.All.seq (Beh.All.par hf (phaseR_seq hO hsq hk b1)) ?_
    rintro m2 ⟨F2, c1, c2, c3⟩
    obtain ⟨rd, wr, hf⟩ := free_L (K := K) hO hsq hld hk false false true true
    refine Beh.All.seq (Beh.All.par hf (phaseL_seq hO hsq hk c1
      fun r hr1 hr2 => by rw [c2 r r (by omega)]; exact hdec.1 r hr2)) ?_
    rintro m3 ⟨F3, d1, d2, d3⟩
    obtain ⟨rd, wr, hf⟩ := free_U (K := K) hO hsq hld hk
    refine Beh.All.par hf ((phaseU_seq hO hsq hk d1).mono fun m4 e1 => ?_)
    exact ⟨_, e1, phases_lrInv hO hsq hk hinv hdec b3 c2 c3 d2 d3 fun r hr c hc => rfl⟩

theorem lrTasks_exists (a : Mat) (blocksize : Nat) (m : Mem K) : ∃ r, lrdecompTasks a blocksize m r := by
  refine Beh.seq_exists (Beh.det_exists _) (Beh.loop_exists (fun k => ?_) _ _) m
  exact Beh.seq_exists (Beh.det_exists _) (Beh.seq_exists (Beh.par_exists _) (Beh.seq_exists (Beh.par_exists _) (Beh.par_exists _)))

theorem lrTasks_large {a : Mat} {m : Mem K} (ha : a.Valid m) (hsq : a.rows = a.cols) (blocksize : Nat)
    (hb : 0 < blocksize) (hlt : a.rows < 2 ^ 32) (hw : a.rows * (a.rows / blocksize) < 2 ^ 32) (hbig : blocksize < a.rows)
    (hm : ∀ k ≤ a.rows, minor (a.val m) k ≠ 0) :
    Beh.All (lrdecompTasks a blocksize) m (fun m' => ∃ F', MatBecomes a m F' m' ∧ LRInv (a.val m) a.rows a.rows F') := by
  have hdiv : 0 < a.rows / blocksize := Nat.div_pos (by omega) hb
  have hO := off_of hdiv (Nat.div_le_self _ _) hw
  unfold lrdecompTasks
  refine Beh.All.seq (Q := fun m' => m' = m) (Beh.All.det ?_) ?_
  · refine Tot.cassert (by simpa using hsq) ?_
    rw [if_neg (show ¬ a.rows ≤ blocksize by omega)]
    rw [show (pure m : R (Mem K)) = .ok m from rfl, ok_bind, if_neg (by omega)]
    exact ⟨m, subBlocks_tot hO hsq m, rfl⟩
  · rintro m' rfl
    refine (Beh.All.loop (fun k m1 => ∃ F', MatBecomes a m' F' m1 ∧ LRInv (a.val m') a.rows (blockOff a.rows (a.rows / blocksize) k) F')
      ⟨_, becomes_self ha, by rw [hO.zero]; exact lrInv_init _ _⟩ ?_).mono ?_
    · rintro k m1 - hk ⟨F, h1, h2⟩
      exact lrTaskRound_all hO hsq hlt (by omega) hm h1 h2
    · rintro m1 ⟨F, h1, h2⟩
      rw [show 0 + a.rows / blocksize = a.rows / blocksize by omega, hO.last] at h2
      exact ⟨F, h1, h2⟩

theorem lrTasks_small {a : Mat} {m : Mem K} (ha : a.Valid m) (hsq : a.rows = a.cols) (h0 : 0 < a.rows) (blocksize : Nat)
    (hlt : a.rows < 2 ^ 32) (hsmall : a.rows < blocksize) :
    Beh.All (lrdecompTasks a blocksize) m (fun m' => ∃ p, lrdecomp a m = .ok (p, m')) := by
  unfold lrdecompTasks
  rw [Nat.div_eq_of_lt hsmall]
  refine Beh.All.seq (Q := fun m' => ∃ p, lrdecomp a m = .ok (p, m')) (Beh.All.det ?_) ?_
  · refine Tot.cassert (by simpa using hsq) ?_
    rw [if_pos (by omega)]
    obtain ⟨⟨p, m'⟩, h1, _⟩ := lrdecomp_tot ha hsq h0 hlt
    rw [h1]
    refine ⟨m', ?_, p, rfl⟩
    rw [ok_bind]
    simp only
    rw [show (pure m' : R (Mem K)) = .ok m' from rfl, ok_bind, if_neg (by omega)]
    rfl
  · exact fun m' h => Beh.All.det ⟨m', rfl, h⟩

theorem lrTasks_equal {a : Mat} {m : Mem K} (ha : a.Valid m) (hsq : a.rows = a.cols) (h0 : 0 < a.rows) (hlt : a.rows < 2 ^ 32) :
    Beh.All (lrdecompTasks a a.rows) m (fun m' => ∃ p q m1, lrdecomp a m = .ok (p, m1) ∧ lrdecomp a m1 = .ok (q, m')) := by
  unfold lrdecompTasks
  rw [Nat.div_self h0]
  have hO := off_of (n := a.rows) (blocks := 1) (by omega) (by omega) (by omega)
  have hs : sub a 1 0 0 = a := by
    have h1 := hO.zero
    have h2 := hO.next 0 (by omega)
    have h3 := hO.last
    unfold sub
    have h4 : blockSize a.rows 1 0 = a.rows := by rw [← h2, h1] at h3; omega
    rw [h1, h4]
    cases a
    simp_all
  refine Beh.All.seq (Q := fun m' => ∃ p, lrdecomp a m = .ok (p, m')) (Beh.All.det ?_) ?_
  · refine Tot.cassert (by simpa using hsq) ?_
    rw [if_pos (by omega)]
    obtain ⟨⟨p, m'⟩, h1, _⟩ := lrdecomp_tot ha hsq h0 hlt
    rw [h1]
    refine ⟨m', ?_, p, rfl⟩
    rw [ok_bind]
    simp only
    rw [show (pure m' : R (Mem K)) = .ok m' from rfl, ok_bind, if_neg (by omega)]
    exact subBlocks_tot hO hsq m'
  · rintro m1 ⟨p, hp⟩
    have ha1 : a.Valid m1 := by
      obtain ⟨st, h1, F, h2, _⟩ := lrdecomp_tot ha hsq h0 hlt
      obtain rfl := Except.ok.inj (h1.symm.trans hp)
      exact h2.1
    refine Beh.All.seq (Q := fun m' => ∃ p q m1, lrdecomp a m = .ok (p, m1) ∧ lrdecomp a m1 = .ok (q, m')) ?_
      fun m' h => Beh.All.det ⟨m', rfl, h⟩
    unfold lrTaskRound
    refine Beh.All.seq (Q := fun m' => ∃ p q m1, lrdecomp a m = .ok (p, m1) ∧ lrdecomp a m1 = .ok (q, m')) (Beh.All.det ?_)
      fun m2 h2 => Beh.All.seq (Q := fun m' => ∃ p q m1, lrdecomp a m = .ok (p, m1) ∧ lrdecomp a m1 = .ok (q, m'))
        (Beh.All.par (rd := fun _ _ => True) (wr := fun _ _ => False)
          ⟨fun i p h => by simp at h, fun i j h => by simp at h⟩ ⟨m2, rfl, h2⟩)
        fun m3 h3 => Beh.All.seq (Q := fun m' => ∃ p q m1, lrdecomp a m = .ok (p, m1) ∧ lrdecomp a m1 = .ok (q, m'))
          (Beh.All.par (rd := fun _ _ => True) (wr := fun _ _ => False)
            ⟨fun i p h => by simp at h, fun i j h => by simp at h⟩ ⟨m3, rfl, h3⟩)
          fun m4 h4 => Beh.All.par (rd := fun _ _ => True) (wr := fun _ _ => False)
            ⟨fun i p h => by simp at h, fun i j h => by simp at h⟩ ⟨m4, rfl, h4⟩
    rw [hs]
    obtain ⟨⟨q, m'⟩, h1, _⟩ := lrdecomp_tot ha1 hsq h0 hlt
    rw [h1]
    exact ⟨m', rfl, p, q, m1, hp, h1⟩

end H2.Dense
