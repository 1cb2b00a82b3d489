import Verif.Proof.KrylovSolve

/-!
# C62: solvers based on the conjugate gradient method

`Solved n A N b x eps maxiter m iter m'` (Spec/KrylovSolve.lean) says that the number of steps is at most the number of unknowns and respects the limit, that the requested accuracy of the
true residual has been reached or the limit is met, that the result is the optimal vector in the Krylov space, that fewer steps would not have been sufficient, and that only `x` has changed.
-/

set_option linter.unusedSectionVars false

namespace H2.Props
open Spec Krylov Dense
variable {𝕜 : Type} [RCLike 𝕜] {C : Nat → Prop} {n : Nat} {A : Nat → Nat → 𝕜} {f : AddEval 𝕜} {m : Mem 𝕜}

open scoped ComplexOrder in
/-- `solve_cg_avector` for positive definite matrices: no division by zero, at most `n` steps. -/
theorem C62_cg (hn : n < 2 ^ 32) (hf : IsAddEval f n A C m) (hC : ∀ c, C c → (m c).isSome) (hA : (mat n A).PosDef) {b x : Vec} (hb : b.Valid m) (hx : x.Valid m) (db : b.dim = n) (dx : x.dim = n)
    (hbx : Disj b.Cell x.Cell) (hbC : Disj b.Cell C) (hxC : Disj x.Cell C) {nr np na : Nat} (fr : FreshVecs m [⟨nr, n⟩, ⟨np, n⟩, ⟨na, n⟩]) (junk : Nat → 𝕜) {eps : ℝ} (he : 0 ≤ eps)
    (maxiter fuel : Nat) (hfuel : n ≤ fuel) :
    ∃ iter m', solveCg f b x nr np na junk eps maxiter fuel m = .ok (iter, m') ∧ Solved n A id b x eps maxiter m iter m' := by
  obtain ⟨fr1, fr2⟩ := fr
  simp only [List.forall_mem_cons, List.pairwise_cons, List.not_mem_nil, IsEmpty.forall_iff, implies_true, and_true, List.Pairwise.nil] at fr1 fr2
  obtain ⟨f1, f2, f3⟩ := fr1
  obtain ⟨⟨d1, d2⟩, d3⟩ := fr2
  obtain ⟨m1, hm1⟩ : ∃ m1, m1 = ((m.alloc nr n junk).alloc np n junk).alloc na n junk := ⟨_, rfl⟩
  have keep : ∀ c, ¬ (Vec.mk nr n).Cell c → ¬ (Vec.mk np n).Cell c → ¬ (Vec.mk na n).Cell c → m1 c = m c := fun c h1 h2 h3 => by
    rw [hm1, alloc_out h3, alloc_out h2, alloc_out h1]
  have some : ∀ c, (m c).isSome → ¬ (Vec.mk nr n).Cell c ∧ ¬ (Vec.mk np n).Cell c ∧ ¬ (Vec.mk na n).Cell c := fun c h =>
    ⟨fun h' => by rw [f1 c h'] at h; simp at h, fun h' => by rw [f2 c h'] at h; simp at h, fun h' => by rw [f3 c h'] at h; simp at h⟩
  have same : ∀ c, (m c).isSome → m1 c = m c := fun c h => keep c (some c h).1 (some c h).2.1 (some c h).2.2
  have cellsome : ∀ {v : Vec}, v.Valid m → ∀ c, v.Cell c → (m c).isSome := by
    rintro v hv c ⟨i, hi, rfl⟩; exact hv i hi
  obtain ⟨v, hv⟩ : ∃ v : CgVar → Vec, v = fun | .b => b | .x => x | .r => ⟨nr, n⟩ | .p => ⟨np, n⟩ | .a => ⟨na, n⟩ := ⟨_, rfl⟩
  have hs : Separate C v (fun _ => n) m1 := by
    rw [hv]
    refine ⟨fun i => ?_, fun i j hij => ?_⟩
    · cases i
      · exact ⟨⟨valid_keep (fun c h => same c (cellsome hb c h)) hb, hbC⟩, db⟩
      · exact ⟨⟨valid_keep (fun c h => same c (cellsome hx c h)) hx, hxC⟩, dx⟩
      · refine ⟨⟨?_, fun c h h' => (some c (hC c h')).1 h⟩, rfl⟩
        rw [hm1]
        exact valid_keep (fun c h => by rw [alloc_out (d2 c h), alloc_out (d1 c h)]) alloc_in
      · refine ⟨⟨?_, fun c h h' => (some c (hC c h')).2.1 h⟩, rfl⟩
        rw [hm1]
        exact valid_keep (fun c h => by rw [alloc_out (d3 c h)]) alloc_in
      · refine ⟨⟨?_, fun c h h' => (some c (hC c h')).2.2 h⟩, rfl⟩
        rw [hm1]
        exact alloc_in
    · have sy : ∀ {S T : Nat → Prop}, Disj S T → Disj T S := fun h c h1 h2 => h c h2 h1
      cases i <;> cases j <;> first | exact absurd rfl hij | skip
      all_goals first
        | assumption
        | (apply sy; assumption)
        | exact valid_fresh hb (by assumption)
        | exact valid_fresh hx (by assumption)
        | exact sy (valid_fresh hb (by assumption))
        | exact sy (valid_fresh hx (by assumption))
  have hf1 : IsAddEval f n A C m1 := fun alpha y z m' h => hf alpha y z m' fun c hc => by rw [h c hc, same c (hC c hc)]
  obtain ⟨K, M, hrun⟩ := C48_cg hf1 hA hs
  have h47 : ∀ k ≤ K, Separate C v (fun _ => n) (M k) ∧ OnlyVectors v m1 (M k) ∧ ∀ i < n, (v .b).val (M k) i = (v .b).val m1 i := by
    intro k hk
    have h := C47_cg hf1 hs k
    rw [hrun.ok k hk] at h
    rcases h with h | ⟨m', e, h1, h2, h3, -⟩
    · cases h
    · obtain rfl : M k = m' := Except.ok.inj e
      exact ⟨h1, h2, h3⟩
  simp only [hv] at hrun h47
  have hbv : ∀ i < n, b.val m1 i = b.val m i := fun i hi => val_keep (fun c h => same c (cellsome hb c h)) (by rw [db]; exact hi)
  have hxv : ∀ i < n, x.val m1 i = x.val m i := fun i hi => val_keep (fun c h => same c (cellsome hx c h)) (by rw [dx]; exact hi)
  obtain ⟨g1, e0, g2, j, hj, error, g3, g4⟩ := solved_of_run (b := b) hrun hn (fun k hk => ((h47 k hk).1.1 .r).1.1) rfl he maxiter fuel hfuel
  obtain ⟨m', hm'⟩ : ∃ m', m' = (((M j).free na n).free np n).free nr n := ⟨_, rfl⟩
  have hfr : Frame x.Cell m m' := by
    intro c hc
    rw [hm']
    by_cases c1 : (Vec.mk nr n).Cell c
    · rw [free_in c1, f1 c c1]
    by_cases c2 : (Vec.mk np n).Cell c
    · rw [free_out c1, free_in c2, f2 c c2]
    by_cases c3 : (Vec.mk na n).Cell c
    · rw [free_out c1, free_out c2, free_in c3, f3 c c3]
    rw [free_out c1, free_out c2, free_out c3]
    by_cases c4 : b.Cell c
    · obtain ⟨i, hi, rfl⟩ := c4
      have e1 := (h47 j hj).2.2 i (by rw [← db]; exact hi)
      have s1 := ((h47 j hj).1.1 .b).1.1 i hi
      have s2 := hb i hi
      replace e1 : b.val (M j) i = b.val m1 i := e1
      rw [hbv i (by rw [← db]; exact hi)] at e1
      exact cell_eq s1 s2 e1
    · rw [← keep c c1 c2 c3]
      refine (h47 j hj).2.1 c ?_
      rintro ⟨⟩ <;> assumption
  have hxk : ∀ c, x.Cell c → m' c = M j c := fun c h => by
    have := some c (cellsome hx c h)
    rw [hm', free_out this.1, free_out this.2.1, free_out this.2.2]
  obtain ⟨m2, hm2⟩ : ∃ m2 : Mem 𝕜, m2 = open Classical in fun c => if x.Cell c then M j c else m1 c := ⟨_, rfl⟩
  have hx2 : ∀ i < n, x.val m2 i = x.val (M j) i := fun i hi => val_keep (fun c h => by rw [hm2]; exact if_pos h) (by rw [dx]; exact hi)
  have hsol := g4 m2 (fun c hc => by rw [hm2]; exact if_neg hc) hx2
  refine ⟨j, m', ?_, solved_congr hbv hxv (fun i hi => ?_) hfr hsol⟩
  · unfold solveCg
    rw [dx]
    simp only
    rw [cassert_true (show decide (b.dim = n) = true from decide_eq_true db), ok_bind]
    rw [← hm1, norm2Vec_tot (valid_keep (fun c h => same c (cellsome hb c h)) hb), ok_bind, g1, ok_bind, g2, ok_bind, db, g3, ok_bind, hm']
    rfl
  · rw [hx2 i hi]
    exact val_keep hxk (by rw [dx]; exact hi)

open scoped ComplexOrder in
/-- `solve_pcg_avector` for positive definite matrices and positive definite preconditioners. -/
theorem C62_pcg (hn : n < 2 ^ 32) (hf : IsAddEval f n A C m) (hC : ∀ c, C c → (m c).isSome) (hA : (mat n A).PosDef)
    {N : Matrix (Fin n) (Fin n) 𝕜} (hN : N.PosDef) {prcd : Option (Prcd 𝕜)} (hp : IsPrcdOpt prcd n N.mulVec C m) {b x : Vec} (hb : b.Valid m) (hx : x.Valid m) (db : b.dim = n) (dx : x.dim = n)
    (hbx : Disj b.Cell x.Cell) (hbC : Disj b.Cell C) (hxC : Disj x.Cell C) {nr nq np na : Nat} (fr : FreshVecs m [⟨nr, n⟩, ⟨nq, n⟩, ⟨np, n⟩, ⟨na, n⟩]) (junk : Nat → 𝕜) {eps : ℝ} (he : 0 ≤ eps)
    (maxiter fuel : Nat) (hfuel : n ≤ fuel) :
    ∃ iter m', solvePcg f prcd b x nr nq np na junk eps maxiter fuel m = .ok (iter, m') ∧ Solved n A N.mulVec b x eps maxiter m iter m' := by
  obtain ⟨fr1, fr2⟩ := fr
  simp only [List.forall_mem_cons, List.pairwise_cons, List.not_mem_nil, IsEmpty.forall_iff, implies_true, and_true, List.Pairwise.nil] at fr1 fr2
  obtain ⟨f1, f4, f2, f3⟩ := fr1
  obtain ⟨⟨d4, d1, d2⟩, ⟨d5, d6⟩, d3⟩ := fr2
  obtain ⟨m1, hm1⟩ : ∃ m1, m1 = (((m.alloc nr n junk).alloc nq n junk).alloc np n junk).alloc na n junk := ⟨_, rfl⟩
  have keep : ∀ c, ¬ (Vec.mk nr n).Cell c → ¬ (Vec.mk np n).Cell c → ¬ (Vec.mk na n).Cell c → ¬ (Vec.mk nq n).Cell c → m1 c = m c := fun c h1 h2 h3 h4 => by
    rw [hm1, alloc_out h3, alloc_out h2, alloc_out h4, alloc_out h1]
  have some : ∀ c, (m c).isSome → ¬ (Vec.mk nr n).Cell c ∧ ¬ (Vec.mk np n).Cell c ∧ ¬ (Vec.mk na n).Cell c ∧ ¬ (Vec.mk nq n).Cell c := fun c h =>
    ⟨fun h' => by rw [f1 c h'] at h; simp at h, fun h' => by rw [f2 c h'] at h; simp at h, fun h' => by rw [f3 c h'] at h; simp at h, fun h' => by rw [f4 c h'] at h; simp at h⟩
  have same : ∀ c, (m c).isSome → m1 c = m c := fun c h => keep c (some c h).1 (some c h).2.1 (some c h).2.2.1 (some c h).2.2.2
  have cellsome : ∀ {v : Vec}, v.Valid m → ∀ c, v.Cell c → (m c).isSome := by
    rintro v hv c ⟨i, hi, rfl⟩; exact hv i hi
  obtain ⟨v, hv⟩ : ∃ v : PcgVar → Vec, v = fun | .b => b | .x => x | .r => ⟨nr, n⟩ | .q => ⟨nq, n⟩ | .p => ⟨np, n⟩ | .a => ⟨na, n⟩ := ⟨_, rfl⟩
  have hs : Separate C v (fun _ => n) m1 := by
    rw [hv]
    refine ⟨fun i => ?_, fun i j hij => ?_⟩
    · cases i
      · exact ⟨⟨valid_keep (fun c h => same c (cellsome hb c h)) hb, hbC⟩, db⟩
      · exact ⟨⟨valid_keep (fun c h => same c (cellsome hx c h)) hx, hxC⟩, dx⟩
      · refine ⟨⟨?_, fun c h h' => (some c (hC c h')).1 h⟩, rfl⟩
        rw [hm1]
        exact valid_keep (fun c h => by rw [alloc_out (d2 c h), alloc_out (d1 c h), alloc_out (d4 c h)]) alloc_in
      · refine ⟨⟨?_, fun c h h' => (some c (hC c h')).2.2.2 h⟩, rfl⟩
        rw [hm1]
        exact valid_keep (fun c h => by rw [alloc_out (d6 c h), alloc_out (d5 c h)]) alloc_in
      · refine ⟨⟨?_, fun c h h' => (some c (hC c h')).2.1 h⟩, rfl⟩
        rw [hm1]
        exact valid_keep (fun c h => by rw [alloc_out (d3 c h)]) alloc_in
      · refine ⟨⟨?_, fun c h h' => (some c (hC c h')).2.2.1 h⟩, rfl⟩
        rw [hm1]
        exact alloc_in
    · have sy : ∀ {S T : Nat → Prop}, Disj S T → Disj T S := fun h c h1 h2 => h c h2 h1
      cases i <;> cases j <;> first | exact absurd rfl hij | skip
      all_goals first
        | assumption
        | (apply sy; assumption)
        | exact valid_fresh hb (by assumption)
        | exact valid_fresh hx (by assumption)
        | exact sy (valid_fresh hb (by assumption))
        | exact sy (valid_fresh hx (by assumption))
  have hf1 : IsAddEval f n A C m1 := fun alpha y z m' h => hf alpha y z m' fun c hc => by rw [h c hc, same c (hC c hc)]
  have hp1 : IsPrcdOpt prcd n N.mulVec C m1 := by
    cases prcd with
    | none => exact hp
    | some q => exact fun y m' h => hp y m' fun c hc => by rw [h c hc, same c (hC c hc)]
  obtain ⟨K, M, hrun⟩ := C48_pcg hf1 hA hN hp1 hs
  have h47 : ∀ k ≤ K, Separate C v (fun _ => n) (M k) ∧ OnlyVectors v m1 (M k) ∧ ∀ i < n, (v .b).val (M k) i = (v .b).val m1 i := by
    intro k hk
    have h := C47_pcg hf1 hp1 hs k
    rw [hrun.ok k hk] at h
    rcases h with h | ⟨m', e, h1, h2, h3, -⟩
    · cases h
    · obtain rfl : M k = m' := Except.ok.inj e
      exact ⟨h1, h2, h3⟩
  simp only [hv] at hrun h47
  have hbv : ∀ i < n, b.val m1 i = b.val m i := fun i hi => val_keep (fun c h => same c (cellsome hb c h)) (by rw [db]; exact hi)
  have hxv : ∀ i < n, x.val m1 i = x.val m i := fun i hi => val_keep (fun c h => same c (cellsome hx c h)) (by rw [dx]; exact hi)
  obtain ⟨g1, e0, g2, j, hj, error, g3, g4⟩ := solved_of_run (b := b) hrun hn (fun k hk => ((h47 k hk).1.1 .r).1.1) rfl he maxiter fuel hfuel
  obtain ⟨m', hm'⟩ : ∃ m', m' = ((((M j).free na n).free np n).free nq n).free nr n := ⟨_, rfl⟩
  have hfr : Frame x.Cell m m' := by
    intro c hc
    rw [hm']
    by_cases c1 : (Vec.mk nr n).Cell c
    · rw [free_in c1, f1 c c1]
    by_cases c5 : (Vec.mk nq n).Cell c
    · rw [free_out c1, free_in c5, f4 c c5]
    by_cases c2 : (Vec.mk np n).Cell c
    · rw [free_out c1, free_out c5, free_in c2, f2 c c2]
    by_cases c3 : (Vec.mk na n).Cell c
    · rw [free_out c1, free_out c5, free_out c2, free_in c3, f3 c c3]
    rw [free_out c1, free_out c5, free_out c2, free_out c3]
    by_cases c4 : b.Cell c
    · obtain ⟨i, hi, rfl⟩ := c4
      have e1 := (h47 j hj).2.2 i (by rw [← db]; exact hi)
      have s1 := ((h47 j hj).1.1 .b).1.1 i hi
      have s2 := hb i hi
      replace e1 : b.val (M j) i = b.val m1 i := e1
      rw [hbv i (by rw [← db]; exact hi)] at e1
      exact cell_eq s1 s2 e1
    · rw [← keep c c1 c2 c3 c5]
      refine (h47 j hj).2.1 c ?_
      rintro ⟨⟩ <;> assumption
  have hxk : ∀ c, x.Cell c → m' c = M j c := fun c h => by
    have := some c (cellsome hx c h)
    rw [hm', free_out this.1, free_out this.2.2.2, free_out this.2.1, free_out this.2.2.1]
  obtain ⟨m2, hm2⟩ : ∃ m2 : Mem 𝕜, m2 = open Classical in fun c => if x.Cell c then M j c else m1 c := ⟨_, rfl⟩
  have hx2 : ∀ i < n, x.val m2 i = x.val (M j) i := fun i hi => val_keep (fun c h => by rw [hm2]; exact if_pos h) (by rw [dx]; exact hi)
  have hsol := g4 m2 (fun c hc => by rw [hm2]; exact if_neg hc) hx2
  refine ⟨j, m', ?_, solved_congr hbv hxv (fun i hi => ?_) hfr hsol⟩
  · unfold solvePcg
    rw [dx]
    simp only
    rw [cassert_true (show decide (b.dim = n) = true from decide_eq_true db), ok_bind]
    rw [← hm1, norm2Vec_tot (valid_keep (fun c h => same c (cellsome hb c h)) hb), ok_bind, g1, ok_bind, g2, ok_bind, db, g3, ok_bind, hm']
    rfl
  · rw [hx2 i hi]
    exact val_keep hxk (by rw [dx]; exact hi)

/-! ### the hypotheses are met -/

theorem exFresh62 : FreshVecs exMem47 [⟨22, 2⟩, ⟨24, 2⟩, ⟨26, 2⟩] ∧ FreshVecs exMem47 [⟨22, 2⟩, ⟨24, 2⟩, ⟨26, 2⟩, ⟨28, 2⟩] := by
  have k : ∀ a, 22 ≤ a → ∀ c, (Vec.mk a 2).Cell c → exMem47 c = none := by
    rintro a ha c ⟨i, -, rfl⟩
    exact if_neg (by show ¬ a + i < 22; omega)
  have d : ∀ a b, a + 2 ≤ b → Disj (Vec.mk a 2).Cell (Vec.mk b 2).Cell := by
    rintro a b hab c ⟨i, hi, rfl⟩ ⟨j, hj, h⟩
    replace hi : i < 2 := hi
    replace h : a + i = b + j := h
    omega
  constructor
  · refine ⟨?_, ?_⟩
    · simp only [List.forall_mem_cons, List.not_mem_nil, IsEmpty.forall_iff, implies_true, and_true]
      exact ⟨k _ (by omega), k _ (by omega), k _ (by omega)⟩
    · simp only [List.pairwise_cons, List.forall_mem_cons, List.not_mem_nil, IsEmpty.forall_iff, implies_true, and_true, List.Pairwise.nil]
      exact ⟨⟨d _ _ (by omega), d _ _ (by omega)⟩, d _ _ (by omega)⟩
  · refine ⟨?_, ?_⟩
    · simp only [List.forall_mem_cons, List.not_mem_nil, IsEmpty.forall_iff, implies_true, and_true]
      exact ⟨k _ (by omega), k _ (by omega), k _ (by omega), k _ (by omega)⟩
    · simp only [List.pairwise_cons, List.forall_mem_cons, List.not_mem_nil, IsEmpty.forall_iff, implies_true, and_true, List.Pairwise.nil]
      exact ⟨⟨d _ _ (by omega), d _ _ (by omega), d _ _ (by omega)⟩, ⟨d _ _ (by omega), d _ _ (by omega)⟩, d _ _ (by omega)⟩

/-- With tolerance zero and no limit, the system with the matrix `[5 2; 2 1]` is solved exactly within two steps. -/
example : ∃ iter m', solveCg (fun alpha => addeval alpha (Mat.mk 0 2 2 2)) (exVec47 0) (exVec47 1) 22 24 26 (fun _ => 7) 0 0 2 exMem47 = .ok (iter, m') ∧ iter ≤ 2 ∧
    ∀ i < 2, mv 2 ((Mat.mk 0 2 2 2).val exMem47) ((exVec47 1).val m') i = (exVec47 0).val exMem47 i := by
  have hs := exSep47 (ι := Fin 2) (fun i => i.1) (fun i j h => Fin.ext h) (fun i => by omega)
  obtain ⟨iter, m', e, h⟩ := C62_cg (C := (Mat.mk 0 2 2 2).Cell) (by norm_num) (C47_callback_addeval exValid47 rfl) (fun c ⟨i, hi, j, hj, e⟩ => by rw [e]; exact exValid47.2 i hi j hj) exPos47
    (hs.1 0).1.1 (hs.1 1).1.1 rfl rfl (hs.2 0 1 (by decide)) (hs.1 0).1.2 (hs.1 1).1.2 exFresh62.1 (fun _ => 7) (eps := 0) le_rfl 0 2 le_rfl
  refine ⟨iter, m', e, h.steps, fun i hi => ?_⟩
  have hz : nrm 2 (fun i => (exVec47 0).val exMem47 i - mv 2 ((Mat.mk 0 2 2 2).val exMem47) ((exVec47 1).val m') i) ≤ 0 := by
    rcases h.stop with h | h
    · rw [zero_mul] at h; exact h
    · omega
  have h0 := (Real.sqrt_eq_zero (Finset.sum_nonneg fun i _ => by positivity)).mp (le_antisymm hz (Real.sqrt_nonneg _))
  have := (Finset.sum_eq_zero_iff_of_nonneg fun i _ => by positivity).mp h0 i (Finset.mem_range.mpr hi)
  exact (sub_eq_zero.mp (norm_eq_zero.mp (by simpa using this))).symm

open scoped ComplexOrder in
/-- PCG with the preconditioner `2 I` -/
example (eps : ℝ) (he : 0 ≤ eps) (maxiter : Nat) : ∃ iter m', solvePcg (fun alpha => addeval alpha (Mat.mk 0 2 2 2)) (some fun x => scaleVec (2 : ℝ) x) (exVec47 0) (exVec47 1) 22 24 26 28 (fun _ => 7) eps maxiter 2 exMem47 =
    .ok (iter, m') ∧ iter ≤ 2 := by
  have hs := exSep47 (ι := Fin 2) (fun i => i.1) (fun i j h => Fin.ext h) (fun i => by omega)
  have hp : IsPrcdOpt (some fun x => scaleVec (2 : ℝ) x) 2 ((2 : ℝ) • (1 : Matrix (Fin 2) (Fin 2) ℝ)).mulVec (Mat.mk 0 2 2 2).Cell exMem47 := by
    intro x m' _ _ hx dx
    have e : ((2 : ℝ) • (1 : Matrix (Fin 2) (Fin 2) ℝ)).mulVec = fun u => (2 : ℝ) • u := by
      funext u; rw [Matrix.smul_mulVec, Matrix.one_mulVec]
    rw [e]
    exact scale_isPrcd 2 2 (m := exMem47) x m' (fun _ h => h.elim) (fun _ _ h => h) hx dx
  obtain ⟨iter, m', e, h⟩ := C62_pcg (C := (Mat.mk 0 2 2 2).Cell) (by norm_num) (C47_callback_addeval exValid47 rfl) (fun c ⟨i, hi, j, hj, e⟩ => by rw [e]; exact exValid47.2 i hi j hj) exPos47
    (Matrix.PosDef.smul Matrix.PosDef.one (by norm_num)) hp
    (hs.1 0).1.1 (hs.1 1).1.1 rfl rfl (hs.2 0 1 (by decide)) (hs.1 0).1.2 (hs.1 1).1.2 exFresh62.2 (fun _ => 7) he maxiter 2 le_rfl
  exact ⟨iter, m', e, h.steps⟩

end H2.Props
