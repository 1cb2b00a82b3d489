import Verif.Proof.KrylovRun

/-!
# C47, C48: Krylov methods

`iterate init step m k` is the memory after `init` and `k` steps (Model/Krylov.lean).  `mv n A f` is the product with the leading
`n` columns of `A`, `ip n f g` the inner product of the first `n` entries, `CgRun` describes a run of a conjugate gradient method
(Spec/Krylov.lean).  The callbacks are only assumed to do what krylov.h documents (`IsAddEval`, `IsMvm`, `IsPrcd`).
-/

set_option linter.unusedSectionVars false

namespace H2.Props
open Spec Dense Krylov

section steps
variable {K : Type} [Field K] [StarRing K] {C : Nat → Prop} {n : Nat} {A At : Nat → Nat → K} {f ft : AddEval K} {m : Mem K}

theorem iterate_inv {ι : Type} [DecidableEq ι] {v : ι → Vec} {init step : Mem K → R (Mem K)} {I : (ι → Nat → K) → Prop}
    (h0 : Tot (init m) fun m' => ∃ F, I F ∧ Holds v m F m')
    (hst : ∀ F m', I F → Holds v m F m' → NanOr (step m') fun m' => ∃ F, I F ∧ Holds v m F m') (k : Nat) :
    NanOr (iterate init step m k) fun m' => ∃ F, I F ∧ Holds v m F m' := by
  induction k with
  | zero => exact .inr h0
  | succ k ih => exact ih.bind fun m' ⟨F, hI, h⟩ => hst F m' hI h

theorem mv_lin (A : Nat → Nat → K) (f g : Nat → K) (c : K) (i : Nat) :
    mv n A (fun j => f j + c * g j) i = mv n A f i + c * mv n A g i := by
  unfold mv
  rw [Finset.mul_sum, ← Finset.sum_add_distrib]
  exact Finset.sum_congr rfl fun j _ => by ring

theorem mv_congr (A : Nat → Nat → K) {f g : Nat → K} (h : ∀ j < n, f j = g j) (i : Nat) : mv n A f i = mv n A g i :=
  Finset.sum_congr rfl fun j hj => by rw [h j (Finset.mem_range.mp hj)]

/-- the residual of the iterate -/
def Res (n : Nat) (A : Nat → Nat → K) (b x r : Nat → K) : Prop := ∀ i, r i = b i - mv n A x i

theorem res_final {ι : Type} [DecidableEq ι] {v : ι → Vec} (hs : Separate C v (fun _ => n) m) {b x r : ι} {m' : Mem K}
    (h : ∃ F : ι → Nat → K, (F b = (v b).val m ∧ Res n A (F b) (F x) (F r)) ∧ Holds v m F m') :
    Separate C v (fun _ => n) m' ∧ OnlyVectors v m m' ∧ (∀ i < n, (v b).val m' i = (v b).val m i) ∧
      ∀ i < n, (v r).val m' i = (v b).val m i - mv n A ((v x).val m') i := by
  obtain ⟨F, ⟨e, hr⟩, h⟩ := h
  have hd : ∀ s, (v s).dim = n := fun s => (hs.1 s).2
  refine ⟨h.sep hs, h.2, fun i hi => by rw [h.val b (by rw [hd]; exact hi), e], fun i hi => ?_⟩
  rw [h.val r (by rw [hd]; exact hi), hr i, e, mv_congr A fun j hj => h.val x (by rw [hd]; exact hj)]

theorem sub_lin (A : Nat → Nat → K) (f g : Nat → K) (c : K) (i : Nat) :
    mv n A (fun j => f j - c * g j) i = mv n A f i - c * mv n A g i := by
  have := mv_lin (n := n) A f g (-c) i
  simp only [neg_mul, ← sub_eq_add_neg] at this
  exact this

/-- After `init_cg` and any number of calls of `step_cg`, either a coefficient was undefined (division by zero), or the residual
vector is the residual of the current iterate, the right-hand side is unchanged, and nothing but the vectors was written. -/
theorem C47_cg (hf : IsAddEval f n A C m) {v : CgVar → Vec} (hs : Separate C v (fun _ => n) m) (k : Nat) :
    NanOr (iterate (initCg f (v .b) (v .x) (v .r) (v .p)) (stepCg f (v .x) (v .r) (v .p) (v .a)) m k) fun m' =>
      Separate C v (fun _ => n) m' ∧ OnlyVectors v m m' ∧ (∀ i < n, (v .b).val m' i = (v .b).val m i) ∧
        ∀ i < n, (v .r).val m' i = (v .b).val m i - mv n A ((v .x).val m') i := by
  refine (iterate_inv (v := v) (I := fun (F : CgVar → Nat → K) => F .b = (v .b).val m ∧ Res n A (F .b) (F .x) (F .r)) ?_ ?_ k).mono fun m' h => res_final hs h
  · exact (initCg_tot hf hs (.init hs)).mono fun m' h => ⟨_, ⟨rfl, fun i => rfl⟩, h⟩
  · rintro F m' ⟨e, hI⟩ h
    rcases stepCg_tot hf hs h _ rfl with h | h
    · exact .inl h.2
    · refine .inr (h.2.mono fun m'' h => ⟨cgStepF n A F _ _, ⟨e, fun i => ?_⟩, h⟩)
      simp only [cgStepF, mv_lin, hI i]
      ring

/-- `step_cg` divides by zero iff the direction `p` is zero in the energy inner product, and changes nothing but the vectors
otherwise. -/
theorem C47_cg_defined (hf : IsAddEval f n A C m) {v : CgVar → Vec} (hs : Separate C v (fun _ => n) m) :
    NanIff (stepCg f (v .x) (v .r) (v .p) (v .a) m) (ip n ((v .p).val m) (mv n A ((v .p).val m)) = 0)
      fun m' => Separate C v (fun _ => n) m' ∧ OnlyVectors v m m' :=
  (stepCg_tot hf hs (.init hs) _ rfl).imp id fun h => ⟨h.1, h.2.mono fun _ h => ⟨h.sep hs, h.2⟩⟩

/-- The same for `init_pcg` and `step_pcg`. -/
theorem C47_pcg (hf : IsAddEval f n A C m) {N : (Fin n → K) → Fin n → K} {prcd : Option (Prcd K)} (hN : IsPrcdOpt prcd n N C m)
    {v : PcgVar → Vec} (hs : Separate C v (fun _ => n) m) (k : Nat) :
    NanOr (iterate (initPcg f prcd (v .b) (v .x) (v .r) (v .q) (v .p)) (stepPcg f prcd (v .x) (v .r) (v .q) (v .p) (v .a)) m k)
      fun m' => Separate C v (fun _ => n) m' ∧ OnlyVectors v m m' ∧ (∀ i < n, (v .b).val m' i = (v .b).val m i) ∧
        (∀ i < n, (v .r).val m' i = (v .b).val m i - mv n A ((v .x).val m') i) ∧
        ∀ i < n, (v .q).val m' i = ext N ((v .r).val m') i := by
  refine (iterate_inv (v := v) (I := fun (F : PcgVar → Nat → K) => F .b = (v .b).val m ∧ Res n A (F .b) (F .x) (F .r) ∧ F .q = ext N (F .r)) ?_ ?_ k).mono
    fun m' h => ?_
  · exact (initPcg_tot hf hN hs (.init hs)).mono fun m' h => ⟨_, ⟨rfl, fun i => rfl, rfl⟩, h⟩
  · rintro F m' ⟨e, hI, _⟩ h
    rcases stepPcg_tot hf hN hs h _ rfl with h | h
    · exact .inl h.2
    · refine .inr (h.2.mono fun m'' h => ⟨pcgStepF n A N F _ _, ⟨e, fun i => ?_, rfl⟩, h⟩)
      simp only [pcgStepF, mv_lin, hI i]
      ring
  · obtain ⟨F, ⟨h1, h2, h3⟩, h4⟩ := h
    obtain ⟨g1, g2, g3, g4⟩ := res_final hs ⟨F, ⟨h1, h2⟩, h4⟩
    have hd : ∀ s, (v s).dim = n := fun s => (hs.1 s).2
    refine ⟨g1, g2, g3, g4, fun i hi => ?_⟩
    rw [h4.val .q (by rw [hd]; exact hi), h3]
    unfold ext
    rw [dif_pos hi, dif_pos hi]
    congr 1
    funext j
    exact (h4.val .r (by rw [hd]; exact j.2)).symm

/-- `step_pcg` divides by zero iff the direction `p` is zero in the energy inner product. -/
theorem C47_pcg_defined (hf : IsAddEval f n A C m) {N : (Fin n → K) → Fin n → K} {prcd : Option (Prcd K)} (hN : IsPrcdOpt prcd n N C m)
    {v : PcgVar → Vec} (hs : Separate C v (fun _ => n) m) :
    NanIff (stepPcg f prcd (v .x) (v .r) (v .q) (v .p) (v .a) m) (ip n ((v .p).val m) (mv n A ((v .p).val m)) = 0)
      fun m' => Separate C v (fun _ => n) m' ∧ OnlyVectors v m m' :=
  (stepPcg_tot hf hN hs (.init hs) _ rfl).imp id fun h => ⟨h.1, h.2.mono fun _ h => ⟨h.sep hs, h.2⟩⟩

/-- The same for `init_bicg` and `step_bicg`; in addition the second residual is the residual of some vector for the matrix of
the second callback and the same initial residual. -/
theorem C47_bicg (hf : IsAddEval f n A C m) (hft : IsAddEval ft n At C m) {v : BicgVar → Vec} (hs : Separate C v (fun _ => n) m) (k : Nat) :
    NanOr (iterate (initBicg f (v .b) (v .x) (v .r) (v .rt) (v .p) (v .pt))
        (stepBicg f ft (v .x) (v .r) (v .rt) (v .p) (v .pt) (v .a) (v .at')) m k)
      fun m' => Separate C v (fun _ => n) m' ∧ OnlyVectors v m m' ∧ (∀ i < n, (v .b).val m' i = (v .b).val m i) ∧
        (∀ i < n, (v .r).val m' i = (v .b).val m i - mv n A ((v .x).val m') i) ∧
        ∃ z, ∀ i < n, (v .rt).val m' i = (v .b).val m i - mv n A ((v .x).val m) i - mv n At z i := by
  refine (iterate_inv (v := v) (I := fun (F : BicgVar → Nat → K) => F .b = (v .b).val m ∧ Res n A (F .b) (F .x) (F .r) ∧
    ∃ z, ∀ i, F .rt i = (v .b).val m i - mv n A ((v .x).val m) i - mv n At z i) ?_ ?_ k).mono fun m' h => ?_
  · exact (initBicg_tot hf hs (.init hs)).mono fun m' h => ⟨_, ⟨rfl, fun i => rfl, fun _ => 0, fun i => by
      simp [mv, bicgInitF]⟩, h⟩
  · rintro F m' ⟨e, hI, z, hz⟩ h
    refine (stepBicg_nan hf hft hs h).nanOr.mono ?_
    rintro m'' ⟨l, beta, _, _, h⟩
    refine ⟨bicgStepF n A At F l beta, ⟨e, fun i => ?_, fun j => z j + l * F .pt j, fun i => ?_⟩, h⟩
    · simp only [bicgStepF, mv_lin, hI i]
      ring
    · simp only [bicgStepF, mv_lin, hz i]
      ring
  · obtain ⟨F, ⟨h1, h2, z, hz⟩, h4⟩ := h
    obtain ⟨g1, g2, g3, g4⟩ := res_final hs ⟨F, ⟨h1, h2⟩, h4⟩
    have hd : ∀ s, (v s).dim = n := fun s => (hs.1 s).2
    exact ⟨g1, g2, g3, g4, z, fun i hi => by rw [h4.val .rt (by rw [hd]; exact hi), hz]⟩

/-- `step_bicg` divides by zero iff `⟨A p, pt⟩` or `⟨r, rt⟩` vanishes. -/
theorem C47_bicg_defined (hf : IsAddEval f n A C m) (hft : IsAddEval ft n At C m) {v : BicgVar → Vec} (hs : Separate C v (fun _ => n) m) :
    NanIff (stepBicg f ft (v .x) (v .r) (v .rt) (v .p) (v .pt) (v .a) (v .at') m)
      (ip n (mv n A ((v .p).val m)) ((v .pt).val m) = 0 ∨ ip n ((v .r).val m) ((v .rt).val m) = 0)
      fun m' => Separate C v (fun _ => n) m' ∧ OnlyVectors v m m' :=
  (stepBicg_nan hf hft hs (.init hs)).mono fun _ ⟨_, _, _, _, h⟩ => ⟨h.sep hs, h.2⟩

/-- The same for `init_bicgstab` and `step_bicgstab`; the shadow residual is never changed. -/
theorem C47_bicgstab (hf : IsAddEval f n A C m) {v : StabVar → Vec} (hs : Separate C v (fun _ => n) m) (k : Nat) :
    NanOr (iterate (initBicgstab f (v .b) (v .x) (v .r) (v .rt) (v .p)) (stepBicgstab f (v .x) (v .r) (v .rt) (v .p) (v .a) (v .as')) m k)
      fun m' => Separate C v (fun _ => n) m' ∧ OnlyVectors v m m' ∧ (∀ i < n, (v .b).val m' i = (v .b).val m i) ∧
        (∀ i < n, (v .r).val m' i = (v .b).val m i - mv n A ((v .x).val m') i) ∧
        ∀ i < n, (v .rt).val m' i = (v .b).val m i - mv n A ((v .x).val m) i := by
  refine (iterate_inv (v := v) (I := fun (F : StabVar → Nat → K) => F .b = (v .b).val m ∧ Res n A (F .b) (F .x) (F .r) ∧
    ∀ i, F .rt i = (v .b).val m i - mv n A ((v .x).val m) i) ?_ ?_ k).mono fun m' h => ?_
  · exact (initBicgstab_tot hf hs (.init hs)).mono fun m' h => ⟨_, ⟨rfl, fun i => rfl, fun _ => rfl⟩, h⟩
  · rintro F m' ⟨e, hI, hz⟩ h
    refine (stepBicgstab_nan hf hs h).nanOr.mono ?_
    rintro m'' ⟨l, omega, beta, _, _, h⟩
    refine ⟨stabStepF n A F l omega beta, ⟨e, fun i => ?_, fun i => hz i⟩, h⟩
    have e1 := sub_lin (n := n) A (F .r) (mv n A (F .p)) l i
    have e2 := mv_lin (n := n) A (fun j => F .x j + l * F .p j) (fun j => F .r j - l * mv n A (F .p) j) omega i
    simp only [stabStepF]
    rw [e2, mv_lin, hI i]
    ring
  · obtain ⟨F, ⟨h1, h2, hz⟩, h4⟩ := h
    obtain ⟨g1, g2, g3, g4⟩ := res_final hs ⟨F, ⟨h1, h2⟩, h4⟩
    have hd : ∀ s, (v s).dim = n := fun s => (hs.1 s).2
    exact ⟨g1, g2, g3, g4, fun i hi => by rw [h4.val .rt (by rw [hd]; exact hi), hz]⟩

/-- `step_bicgstab` divides by zero iff `⟨A p, rt⟩`, `⟨A s, A s⟩`, `⟨r, rt⟩` or `⟨A s, s⟩` vanishes, where `s` is the residual
after the first half step. -/
theorem C47_bicgstab_defined (hf : IsAddEval f n A C m) {v : StabVar → Vec} (hs : Separate C v (fun _ => n) m) (s : Nat → K)
    (hsd : s = fun i => (v .r).val m i - ip n ((v .r).val m) ((v .rt).val m) / ip n (mv n A ((v .p).val m)) ((v .rt).val m) *
      mv n A ((v .p).val m) i) :
    NanIff (stepBicgstab f (v .x) (v .r) (v .rt) (v .p) (v .a) (v .as') m)
      (ip n (mv n A ((v .p).val m)) ((v .rt).val m) = 0 ∨ ip n (mv n A s) (mv n A s) = 0 ∨ ip n ((v .r).val m) ((v .rt).val m) = 0 ∨
        ip n (mv n A s) s = 0)
      fun m' => Separate C v (fun _ => n) m' ∧ OnlyVectors v m m' := by
  subst hsd
  exact (stepBicgstab_nan hf hs (.init hs)).mono fun _ ⟨_, _, _, _, _, h⟩ => ⟨h.sep hs, h.2⟩

/-! ### saddle point problems -/

variable {n1 n2 : Nat} {A11 B : Nat → Nat → K} {mvm : MvmCb K} {S : (Fin n1 → K) → Fin n1 → K} {solve : Prcd K}

theorem mv_ext (hS : ∀ u, (mat n1 A11).mulVec (S u) = u) (g : Nat → K) {i : Nat} (hi : i < n1) : mv n1 A11 (ext S g) i = g i := by
  have := congrFun (hS (vec n1 g)) ⟨i, hi⟩
  unfold mv
  rw [← Fin.sum_univ_eq_sum_range (fun j => A11 i j * ext S g j)]
  refine Eq.trans (Finset.sum_congr rfl fun j _ => ?_) this
  simp [ext, mat]

/-- the first row of the saddle point problem holds, and `r` is the residual of the second -/
def Saddle (n1 n2 : Nat) (A11 B : Nat → Nat → K) (b1 b2 x1 x2 r2 : Nat → K) : Prop :=
  (∀ i < n1, mv n1 A11 x1 i + mv n2 (op true B) x2 i = b1 i) ∧ ∀ i < n2, r2 i = mv n1 B x1 i - b2 i

theorem saddle_congr {b1 b2 x1 x2 r2 b1' b2' x1' x2' r2' : Nat → K} (h : Saddle n1 n2 A11 B b1 b2 x1 x2 r2)
    (e1 : ∀ i < n1, b1' i = b1 i) (e2 : ∀ i < n2, b2' i = b2 i) (e3 : ∀ i < n1, x1' i = x1 i) (e4 : ∀ i < n2, x2' i = x2 i)
    (e5 : ∀ i < n2, r2' i = r2 i) : Saddle n1 n2 A11 B b1' b2' x1' x2' r2' := by
  refine ⟨fun i hi => ?_, fun i hi => ?_⟩
  · rw [e1 i hi, mv_congr _ e3, mv_congr _ e4, h.1 i hi]
  · rw [e2 i hi, e5 i hi, mv_congr _ e3, h.2 i hi]

theorem saddle_init (hS : ∀ u, (mat n1 A11).mulVec (S u) = u) (b1 b2 x2 : Nat → K) :
    Saddle n1 n2 A11 B b1 b2 (ext S fun i => b1 i - mv n2 (op true B) x2 i) x2
      (fun i => mv n1 B (ext S fun i => b1 i - mv n2 (op true B) x2 i) i - b2 i) :=
  ⟨fun i hi => by rw [mv_ext hS _ hi]; ring, fun _ _ => rfl⟩

theorem saddle_step (hS : ∀ u, (mat n1 A11).mulVec (S u) = u) {b1 b2 x1 x2 r2 : Nat → K} (p2 : Nat → K) (l : K)
    (h : Saddle n1 n2 A11 B b1 b2 x1 x2 r2) :
    Saddle n1 n2 A11 B b1 b2 (fun i => x1 i - l * ext S (mv n2 (op true B) p2) i) (fun i => x2 i + l * p2 i)
      (fun i => r2 i - l * mv n1 B (ext S (mv n2 (op true B) p2)) i) := by
  refine ⟨fun i hi => ?_, fun i hi => ?_⟩
  · rw [sub_lin, mv_lin, mv_ext hS _ hi, ← h.1 i hi]; ring
  · rw [sub_lin]; beta_reduce; rw [h.2 i hi]; ring

/-- After `init_uzawa` and any number of calls of `step_uzawa`, with a callback solving systems with `A11`, either a
coefficient was undefined (division by zero), or the iterates satisfy the first row `A11 x1 + A21^* x2 = b1` of the saddle point
problem and `r2` is the residual `A21 x1 - b2` of the second; the right-hand sides are unchanged. -/
theorem C47_uzawa (hf : IsMvm mvm n2 n1 B C m) (hs' : IsPrcd solve n1 S C m) (hS : ∀ u, (mat n1 A11).mulVec (S u) = u) {v : UzVar → Vec}
    (hs : Separate C v (uzDim n1 n2) m) (k : Nat) :
    NanOr (iterate (initUzawa solve mvm (v .b1) (v .b2) (v .x1) (v .x2) (v .r2) (v .p2))
        (stepUzawa solve mvm (v .x1) (v .x2) (v .r2) (v .p2) (v .a1) (v .s2)) m k)
      fun m' => Separate C v (uzDim n1 n2) m' ∧ OnlyVectors v m m' ∧ (∀ i < n1, (v .b1).val m' i = (v .b1).val m i) ∧
        (∀ i < n2, (v .b2).val m' i = (v .b2).val m i) ∧
        (∀ i < n1, mv n1 A11 ((v .x1).val m') i + mv n2 (op true B) ((v .x2).val m') i = (v .b1).val m i) ∧
        ∀ i < n2, (v .r2).val m' i = mv n1 B ((v .x1).val m') i - (v .b2).val m i := by
  refine (iterate_inv (v := v) (I := fun (F : UzVar → Nat → K) => F .b1 = (v .b1).val m ∧ F .b2 = (v .b2).val m ∧
    Saddle n1 n2 A11 B (F .b1) (F .b2) (F .x1) (F .x2) (F .r2)) ?_ ?_ k).mono fun m' h => ?_
  · exact (initUzawa_tot hf hs' hs (.init hs)).mono fun m' h => ⟨_, ⟨rfl, rfl, saddle_init hS _ _ _⟩, h⟩
  · rintro F m' ⟨e1, e2, hI⟩ h
    refine (stepUzawa_nan hf hs' hs h).nanOr.mono ?_
    rintro m'' ⟨l, mu, s, _, _, _, h⟩
    exact ⟨uzStepF n1 n2 B S F l mu, ⟨e1, e2, saddle_step hS _ _ hI⟩, h⟩
  · obtain ⟨F, ⟨h1, h2, h3⟩, h4⟩ := h
    have hd : ∀ s, (v s).dim = uzDim n1 n2 s := fun s => (hs.1 s).2
    have hv : ∀ s, ∀ i < uzDim n1 n2 s, (v s).val m' i = F s i := fun s i hi => h4.val s (by rw [hd]; exact hi)
    have := saddle_congr h3 (fun i _ => by rw [h1]) (fun i _ => by rw [h2]) (hv .x1) (hv .x2) (hv .r2)
    exact ⟨h4.sep hs, h4.2, fun i hi => by rw [hv .b1 i hi, h1], fun i hi => by rw [hv .b2 i hi, h2], this.1, this.2⟩

/-- `step_uzawa` divides by zero iff `⟨A21 A11^{-1} A21^* p2, p2⟩` vanishes. -/
theorem C47_uzawa_defined (hf : IsMvm mvm n2 n1 B C m) (hs' : IsPrcd solve n1 S C m) {v : UzVar → Vec} (hs : Separate C v (uzDim n1 n2) m) :
    NanIff (stepUzawa solve mvm (v .x1) (v .x2) (v .r2) (v .p2) (v .a1) (v .s2) m)
      (ip n2 (mv n1 B (ext S (mv n2 (op true B) ((v .p2).val m)))) ((v .p2).val m) = 0)
      fun m' => Separate C v (uzDim n1 n2) m' ∧ OnlyVectors v m m' :=
  (stepUzawa_nan hf hs' hs (.init hs)).mono fun _ ⟨_, _, _, _, _, _, h⟩ => ⟨h.sep hs, h.2⟩

/-- The same for `init_puzawa` and `step_puzawa`. -/
theorem C47_puzawa (hf : IsMvm mvm n2 n1 B C m) (hs' : IsPrcd solve n1 S C m) (hS : ∀ u, (mat n1 A11).mulVec (S u) = u)
    {N : (Fin n2 → K) → Fin n2 → K} {prcd : Option (Prcd K)} (hN : IsPrcdOpt prcd n2 N C m) {v : PuzVar → Vec}
    (hs : Separate C v (puzDim n1 n2) m) (k : Nat) :
    NanOr (iterate (initPuzawa solve mvm prcd (v .b1) (v .b2) (v .x1) (v .x2) (v .r2) (v .q2) (v .p2))
        (stepPuzawa solve mvm prcd (v .x1) (v .x2) (v .r2) (v .q2) (v .p2) (v .a1) (v .s2)) m k)
      fun m' => Separate C v (puzDim n1 n2) m' ∧ OnlyVectors v m m' ∧ (∀ i < n1, (v .b1).val m' i = (v .b1).val m i) ∧
        (∀ i < n2, (v .b2).val m' i = (v .b2).val m i) ∧
        (∀ i < n1, mv n1 A11 ((v .x1).val m') i + mv n2 (op true B) ((v .x2).val m') i = (v .b1).val m i) ∧
        ∀ i < n2, (v .r2).val m' i = mv n1 B ((v .x1).val m') i - (v .b2).val m i := by
  refine (iterate_inv (v := v) (I := fun (F : PuzVar → Nat → K) => F .b1 = (v .b1).val m ∧ F .b2 = (v .b2).val m ∧
    Saddle n1 n2 A11 B (F .b1) (F .b2) (F .x1) (F .x2) (F .r2)) ?_ ?_ k).mono fun m' h => ?_
  · exact (initPuzawa_tot hf hs' hN hs (.init hs)).mono fun m' h => ⟨_, ⟨rfl, rfl, saddle_init hS _ _ _⟩, h⟩
  · rintro F m' ⟨e1, e2, hI⟩ h
    refine (stepPuzawa_nan hf hs' hN hs h).nanOr.mono ?_
    rintro m'' ⟨l, mu, s, _, _, _, h⟩
    exact ⟨puzStepF n1 n2 B S N F l mu, ⟨e1, e2, saddle_step hS _ _ hI⟩, h⟩
  · obtain ⟨F, ⟨h1, h2, h3⟩, h4⟩ := h
    have hd : ∀ s, (v s).dim = puzDim n1 n2 s := fun s => (hs.1 s).2
    have hv : ∀ s, ∀ i < puzDim n1 n2 s, (v s).val m' i = F s i := fun s i hi => h4.val s (by rw [hd]; exact hi)
    have := saddle_congr h3 (fun i _ => by rw [h1]) (fun i _ => by rw [h2]) (hv .x1) (hv .x2) (hv .r2)
    exact ⟨h4.sep hs, h4.2, fun i hi => by rw [hv .b1 i hi, h1], fun i hi => by rw [hv .b2 i hi, h2], this.1, this.2⟩

/-- `step_puzawa` divides by zero iff `⟨A21 A11^{-1} A21^* p2, p2⟩` vanishes. -/
theorem C47_puzawa_defined (hf : IsMvm mvm n2 n1 B C m) (hs' : IsPrcd solve n1 S C m) {N : (Fin n2 → K) → Fin n2 → K}
    {prcd : Option (Prcd K)} (hN : IsPrcdOpt prcd n2 N C m) {v : PuzVar → Vec} (hs : Separate C v (puzDim n1 n2) m) :
    NanIff (stepPuzawa solve mvm prcd (v .x1) (v .x2) (v .r2) (v .q2) (v .p2) (v .a1) (v .s2) m)
      (ip n2 (mv n1 B (ext S (mv n2 (op true B) ((v .p2).val m)))) ((v .p2).val m) = 0)
      fun m' => Separate C v (puzDim n1 n2) m' ∧ OnlyVectors v m m' :=
  (stepPuzawa_nan hf hs' hN hs (.init hs)).mono fun _ ⟨_, _, _, _, _, _, h⟩ => ⟨h.sep hs, h.2⟩

end steps

/-! ### conjugate gradients -/

section cg
variable {𝕜 : Type} [RCLike 𝕜] {C : Nat → Prop} {n : Nat} {A : Nat → Nat → 𝕜} {f : AddEval 𝕜} {m : Mem 𝕜}

theorem one_mulVec_id (n : Nat) : (1 : Matrix (Fin n) (Fin n) 𝕜).mulVec = id := by
  funext u; exact Matrix.one_mulVec u

open scoped ComplexOrder in
/-- For a positive definite matrix the conjugate gradient method finds the exact solution after `K ≤ n` steps and divides by
zero in step `K + 1`.  Until then the directions are pairwise conjugate and non-zero, the residuals are orthogonal, each iterate
is the minimiser of the energy in the Krylov space, and the energy decreases strictly (see `CgRun`). -/
theorem C48_cg (hf : IsAddEval f n A C m) (hA : (mat n A).PosDef) {v : CgVar → Vec} (hs : Separate C v (fun _ => n) m) :
    ∃ K M, CgRun n A id (iterate (initCg f (v .b) (v .x) (v .r) (v .p)) (stepCg f (v .x) (v .r) (v .p) (v .a)) m) ((v .b).val m)
      (v .x) (v .r) (v .p) m K M := by
  have hd : ∀ s, (v s).dim = n := fun s => (hs.1 s).2
  obtain ⟨K, M, _, h⟩ := cgRun (v := v) (N := 1) (x := .x) (r := .r) (p := .p) (S := cgSeq n A fun i => (v i).val m) hA Matrix.PosDef.one
    (hd .x) (hd .r) (hd .p) (initCg_tot hf hs (.init hs)) (fun k m' h => stepCg_tot hf hs h _ rfl) rfl rfl (cgSeq_pcg A _)
  rw [one_mulVec_id] at h
  exact ⟨K, M, h⟩

open scoped ComplexOrder in
/-- The same for the preconditioned method, if the preconditioner is the multiplication by a positive definite matrix. -/
theorem C48_pcg (hf : IsAddEval f n A C m) (hA : (mat n A).PosDef) {N : Matrix (Fin n) (Fin n) 𝕜} (hN : N.PosDef) {prcd : Option (Prcd 𝕜)}
    (hp : IsPrcdOpt prcd n N.mulVec C m) {v : PcgVar → Vec} (hs : Separate C v (fun _ => n) m) :
    ∃ K M, CgRun n A N.mulVec (iterate (initPcg f prcd (v .b) (v .x) (v .r) (v .q) (v .p))
      (stepPcg f prcd (v .x) (v .r) (v .q) (v .p) (v .a)) m) ((v .b).val m) (v .x) (v .r) (v .p) m K M := by
  have hd : ∀ s, (v s).dim = n := fun s => (hs.1 s).2
  obtain ⟨K, M, _, h⟩ := cgRun (v := v) (x := .x) (r := .r) (p := .p) (S := pcgSeq n A N.mulVec fun i => (v i).val m) hA hN
    (hd .x) (hd .r) (hd .p) (initPcg_tot hf hp hs (.init hs)) (fun k m' h => stepPcg_tot hf hp hs h _ rfl) rfl rfl (pcgSeq_pcg A N _)
  exact ⟨K, M, h⟩

/-- `evalfunctional_cg` evaluates the energy functional, if `r` holds the residual (which C47 guarantees). -/
theorem C48_evalfunctional {b x r : Vec} (hb : b.Valid m) (hx : x.Valid m) (hr : r.Valid m) (db : b.dim = n) (dx : x.dim = n)
    (dr : r.dim = n) (res : ∀ i < n, r.val m i = b.val m i - mv n A (x.val m) i) :
    Tot (evalfunctionalCg b x r m) fun e => RCLike.re e = energy n A (b.val m) (x.val m) := by
  unfold evalfunctionalCg
  rw [dotprodVec_tot hr hx (by rw [dr, dx]), ok_bind, dotprodVec_tot hb hx (by rw [db, dx]), ok_bind]
  refine Tot.pure ?_
  rw [dr, db]
  have e : ∑ i ∈ Finset.range n, star (r.val m i) * x.val m i =
      ip n (b.val m) (x.val m) - ip n (mv n A (x.val m)) (x.val m) := by
    unfold ip
    rw [← Finset.sum_sub_distrib]
    exact Finset.sum_congr rfl fun i hi => by rw [res i (Finset.mem_range.mp hi), star_sub, sub_mul]
  have e2 : ∑ i ∈ Finset.range n, star (b.val m i) * x.val m i = ip n (b.val m) (x.val m) := rfl
  rw [e, e2]
  have h2 : (-(1 / 2) : 𝕜) = ((-(1 / 2) : ℝ) : 𝕜) := by push_cast; rfl
  rw [h2, RCLike.re_ofReal_mul]
  unfold energy
  simp only [map_add, map_sub]
  ring

variable {n1 n2 : Nat} {A11 B : Nat → Nat → 𝕜} {mvm : MvmCb 𝕜} {solve : Prcd 𝕜}

theorem ext_sub (X : Matrix (Fin n1) (Fin n1) 𝕜) (f g : Nat → 𝕜) (i : Nat) (hi : i < n1) :
    ext X.mulVec (fun i => f i - g i) i = ext X.mulVec f i - ext X.mulVec g i := by
  unfold ext
  rw [dif_pos hi, dif_pos hi, dif_pos hi]
  have : vec n1 (fun i => f i - g i) = vec n1 f - vec n1 g := rfl
  rw [this, Matrix.mulVec_sub, Pi.sub_apply]

theorem uz_rhs (X : Matrix (Fin n1) (Fin n1) 𝕜) (b1 b2 x2 : Nat → 𝕜) :
    (fun i => mv n1 B (ext X.mulVec fun i => b1 i - mv n2 (op true B) x2 i) i - b2 i) =
      fun i => (mv n1 B (ext X.mulVec b1) i - b2 i) - mv n2 (schur B X) x2 i := by
  funext i
  rw [← schur_mv]
  have : mv n1 B (ext X.mulVec fun i => b1 i - mv n2 (op true B) x2 i) i =
      mv n1 B (fun j => ext X.mulVec b1 j - 1 * ext X.mulVec (mv n2 (op true B) x2) j) i :=
    mv_congr B (fun j hj => by rw [ext_sub X _ _ j hj, one_mul]) i
  rw [this, sub_lin]
  ring

theorem inv_solve {A : Matrix (Fin n1) (Fin n1) 𝕜} (h : IsUnit A) (u : Fin n1 → 𝕜) : A.mulVec (A⁻¹.mulVec u) = u := by
  rw [Matrix.mulVec_mulVec, Matrix.mul_nonsing_inv _ ((Matrix.isUnit_iff_isUnit_det _).mp h), Matrix.one_mulVec]

open scoped ComplexOrder in
/-- For a positive definite `A11` and an `A21` with linearly independent rows, the Uzawa method is the conjugate gradient method
for the Schur complement `A21 A11^{-1} A21^*`, and finds the exact solution of the saddle point problem after at most `n2`
steps. -/
theorem C48_uzawa (hf : IsMvm mvm n2 n1 B C m) (hA : (mat n1 A11).PosDef) (hs' : IsPrcd solve n1 (mat n1 A11)⁻¹.mulVec C m)
    (hB : LinearIndependent 𝕜 fun (i : Fin n2) (j : Fin n1) => B i j) {v : UzVar → Vec} (hs : Separate C v (uzDim n1 n2) m) :
    ∃ K M, CgRun n2 (schur B (mat n1 A11)⁻¹) id (iterate (initUzawa solve mvm (v .b1) (v .b2) (v .x1) (v .x2) (v .r2) (v .p2))
        (stepUzawa solve mvm (v .x1) (v .x2) (v .r2) (v .p2) (v .a1) (v .s2)) m)
        (fun i => mv n1 B (ext (mat n1 A11)⁻¹.mulVec ((v .b1).val m)) i - (v .b2).val m i) (v .x2) (v .r2) (v .p2) m K M ∧
      (∀ i < n1, mv n1 A11 ((v .x1).val (M K)) i + mv n2 (op true B) ((v .x2).val (M K)) i = (v .b1).val m i) ∧
      ∀ i < n2, mv n1 B ((v .x1).val (M K)) i = (v .b2).val m i := by
  have hd : ∀ s, (v s).dim = uzDim n1 n2 s := fun s => (hs.1 s).2
  have hsp := schur_posDef (n2 := n2) hA hB
  obtain ⟨K, M, _, h⟩ := cgRun (v := v) (N := 1) (x := .x2) (r := .r2) (p := .p2)
    (S := uzSeq n1 n2 B (mat n1 A11)⁻¹.mulVec fun i => (v i).val m) hsp Matrix.PosDef.one (hd .x2) (hd .r2) (hd .p2)
    (initUzawa_tot hf hs' hs (.init hs)) (fun k m' h => by
      refine (stepUzawa_nan hf hs' hs h).imp (fun h => ?_) (fun h => ?_)
      · rw [funext (schur_mv _), ip_herm hsp] at h; exact h
      · refine ⟨by rw [← ip_herm hsp, ← funext (schur_mv _)]; exact h.1, h.2.mono ?_⟩
        rintro m'' ⟨l, mu, s, rfl, rfl, rfl, h⟩
        exact h) rfl (uz_rhs _ _ _ _) (uzSeq_pcg hsp _)
  rw [one_mulVec_id] at h
  have hu := inv_solve hA.isUnit
  have h47 := (C47_uzawa hf hs' hu hs K)
  rw [h.ok K le_rfl] at h47
  rcases h47 with h47 | ⟨m', e, h47⟩
  · cases h47
  · obtain rfl : M K = m' := Except.ok.inj e
    refine ⟨K, M, h, h47.2.2.2.2.1, fun i hi => ?_⟩
    have h1 := h47.2.2.2.2.2 i hi
    rw [h.res K le_rfl i hi, h.solved i hi, sub_self] at h1
    exact (sub_eq_zero.mp h1.symm)

open scoped ComplexOrder in
/-- The same for the preconditioned Uzawa method. -/
theorem C48_puzawa (hf : IsMvm mvm n2 n1 B C m) (hA : (mat n1 A11).PosDef) (hs' : IsPrcd solve n1 (mat n1 A11)⁻¹.mulVec C m)
    (hB : LinearIndependent 𝕜 fun (i : Fin n2) (j : Fin n1) => B i j) {N : Matrix (Fin n2) (Fin n2) 𝕜} (hN : N.PosDef)
    {prcd : Option (Prcd 𝕜)} (hp : IsPrcdOpt prcd n2 N.mulVec C m) {v : PuzVar → Vec} (hs : Separate C v (puzDim n1 n2) m) :
    ∃ K M, CgRun n2 (schur B (mat n1 A11)⁻¹) N.mulVec
        (iterate (initPuzawa solve mvm prcd (v .b1) (v .b2) (v .x1) (v .x2) (v .r2) (v .q2) (v .p2))
        (stepPuzawa solve mvm prcd (v .x1) (v .x2) (v .r2) (v .q2) (v .p2) (v .a1) (v .s2)) m)
        (fun i => mv n1 B (ext (mat n1 A11)⁻¹.mulVec ((v .b1).val m)) i - (v .b2).val m i) (v .x2) (v .r2) (v .p2) m K M ∧
      (∀ i < n1, mv n1 A11 ((v .x1).val (M K)) i + mv n2 (op true B) ((v .x2).val (M K)) i = (v .b1).val m i) ∧
      ∀ i < n2, mv n1 B ((v .x1).val (M K)) i = (v .b2).val m i := by
  have hd : ∀ s, (v s).dim = puzDim n1 n2 s := fun s => (hs.1 s).2
  have hsp := schur_posDef (n2 := n2) hA hB
  obtain ⟨K, M, _, h⟩ := cgRun (v := v) (x := .x2) (r := .r2) (p := .p2)
    (S := puzSeq n1 n2 B (mat n1 A11)⁻¹.mulVec N.mulVec fun i => (v i).val m) hsp hN (hd .x2) (hd .r2) (hd .p2)
    (initPuzawa_tot hf hs' hp hs (.init hs)) (fun k m' h => by
      refine (stepPuzawa_nan hf hs' hp hs h).imp (fun h => ?_) (fun h => ?_)
      · rw [funext (schur_mv _), ip_herm hsp] at h; exact h
      · refine ⟨by rw [← ip_herm hsp, ← funext (schur_mv _)]; exact h.1, h.2.mono ?_⟩
        rintro m'' ⟨l, mu, s, rfl, rfl, rfl, h⟩
        exact h) rfl (uz_rhs _ _ _ _) (puzSeq_pcg hsp N _)
  have hu := inv_solve hA.isUnit
  have h47 := (C47_puzawa hf hs' hu hp hs K)
  rw [h.ok K le_rfl] at h47
  rcases h47 with h47 | ⟨m', e, h47⟩
  · cases h47
  · obtain rfl : M K = m' := Except.ok.inj e
    refine ⟨K, M, h, h47.2.2.2.2.1, fun i hi => ?_⟩
    have h1 := h47.2.2.2.2.2 i hi
    rw [h.res K le_rfl i hi, h.solved i hi, sub_self] at h1
    exact (sub_eq_zero.mp h1.symm)

end cg
end H2.Props
