import Verif.Proof.Krylov
import Verif.Proof.KrylovCG
import Mathlib.Analysis.InnerProductSpace.PiL2

/-! # Conjugate gradients: from sequences of vectors to an inner product space -/

set_option linter.unusedSectionVars false

namespace H2.Krylov
open Spec Dense

theorem iterate_run {K : Type} [Field K] [StarRing K] {ι : Type} [DecidableEq ι] {v : ι → Vec} {m : Mem K} {init step : Mem K → R (Mem K)}
    {S : Nat → ι → Nat → K} {g : Nat → K} (h0 : Tot (init m) (Holds v m (S 0)))
    (hst : ∀ k m', Holds v m (S k) m' →
      (g k = 0 ∧ step m' = .error .nan) ∨ (g k ≠ 0 ∧ Tot (step m') (Holds v m (S (k + 1)))))
    (L : Nat) (hL : ∀ k < L, g k ≠ 0) (hz : g L = 0) :
    ∃ M : Nat → Mem K, (∀ k ≤ L, iterate init step m k = .ok (M k) ∧ Holds v m (S k) (M k)) ∧
      ∀ k > L, iterate init step m k = .error .nan := by
  have h : ∀ k ≤ L, ∃ m', iterate init step m k = .ok m' ∧ Holds v m (S k) m' := fun k => by
    induction k with
    | zero => exact fun _ => h0
    | succ k ih =>
      intro hk
      obtain ⟨m', e, h⟩ := ih (by omega)
      obtain ⟨m'', e', h'⟩ := ((hst k m' h).resolve_left fun h => hL k (by omega) h.1).2
      exact ⟨m'', by rw [iterate, e, ok_bind, e'], h'⟩
  choose M hM using h
  refine ⟨fun k => if h : k ≤ L then M k h else m, fun k hk => by simp only [dif_pos hk]; exact hM k hk, fun k hk => ?_⟩
  obtain ⟨d, rfl⟩ := Nat.exists_eq_add_of_lt hk
  induction d with
  | zero =>
    obtain ⟨e, h⟩ := hM L le_rfl
    show (iterate init step m L >>= step) = _
    rw [e, ok_bind]
    exact ((hst L _ h).resolve_right fun h => h.1 hz).2
  | succ d ih =>
    show (iterate init step m (L + d + 1) >>= step) = _
    rw [ih (by omega)]; rfl

variable {𝕜 : Type} [RCLike 𝕜] {n : Nat}

/-- the first `n` entries as an element of the Euclidean space -/
noncomputable def E (n : Nat) (f : Nat → 𝕜) : EuclideanSpace 𝕜 (Fin n) := WithLp.toLp 2 (vec n f)

theorem E_inner (f g : Nat → 𝕜) : inner 𝕜 (E n f) (E n g) = ip n f g := by
  unfold E ip vec
  rw [EuclideanSpace.inner_eq_star_dotProduct, dotProduct, ← Fin.sum_univ_eq_sum_range (fun i => star (f i) * g i)]
  exact Finset.sum_congr rfl fun i _ => by simp [mul_comm]

theorem E_ext (N : Matrix (Fin n) (Fin n) 𝕜) (f : Nat → 𝕜) : E n (ext N.mulVec f) = Matrix.toEuclideanLin N (E n f) := by
  unfold E
  rw [Matrix.toLpLin_toLp]
  congr 1
  funext i
  simp [vec, ext]

theorem E_mv (A : Nat → Nat → 𝕜) (f : Nat → 𝕜) : E n (mv n A f) = Matrix.toEuclideanLin (mat n A) (E n f) := by
  unfold E
  rw [Matrix.toLpLin_toLp]
  congr 1
  funext i
  simp only [Matrix.toLin'_apply, vec, mv, Matrix.mulVec, dotProduct, mat, Matrix.of_apply]
  rw [← Fin.sum_univ_eq_sum_range (fun j => A i j * f j)]

theorem E_lin (c : 𝕜) (f g : Nat → 𝕜) : E n (fun i => f i + c * g i) = E n f + c • E n g := by
  ext i; simp [E, vec]

theorem E_sub (c : 𝕜) (f g : Nat → 𝕜) : E n (fun i => f i - c * g i) = E n f - c • E n g := by
  ext i; simp [E, vec]

theorem E_sub' (f g : Nat → 𝕜) : E n (fun i => f i - g i) = E n f - E n g := by
  ext i; simp [E, vec]

theorem E_congr {f g : Nat → 𝕜} (h : ∀ i < n, f i = g i) : E n f = E n g := by
  ext i; simp [E, vec, h i i.2]

theorem E_inj {f g : Nat → 𝕜} (h : E n f = E n g) : ∀ i < n, f i = g i := fun i hi => by
  have := congrArg (fun w => w.ofLp ⟨i, hi⟩) h
  simpa [E, vec] using this

theorem E_zero {f : Nat → 𝕜} : E n f = 0 ↔ ∀ i < n, f i = 0 :=
  ⟨fun h i hi => by have := congrArg (fun w => w.ofLp ⟨i, hi⟩) h; simpa [E, vec] using this,
   fun h => by ext i; simp [E, vec, h i i.2]⟩

theorem E_ne {f : Nat → 𝕜} (h : E n f ≠ 0) : ∃ i < n, f i ≠ 0 := by
  by_contra hc
  push Not at hc
  exact h (E_zero.mpr hc)

theorem E_surj (w : EuclideanSpace 𝕜 (Fin n)) : ∃ f : Nat → 𝕜, E n f = w := by
  refine ⟨fun i => if h : i < n then w.ofLp ⟨i, h⟩ else 0, ?_⟩
  ext i
  simp [E, vec]

open scoped ComplexOrder in
theorem posDef_spd {A : Matrix (Fin n) (Fin n) 𝕜} (h : A.PosDef) : IsSPD (Matrix.toEuclideanLin A) := by
  refine ⟨fun u w => ?_, fun u hu => ?_⟩
  · have e := h.isHermitian.eq
    rw [EuclideanSpace.inner_eq_star_dotProduct, EuclideanSpace.inner_eq_star_dotProduct, Matrix.ofLp_toLpLin, Matrix.ofLp_toLpLin]
    simp only [Matrix.toLin'_apply]
    rw [Matrix.star_mulVec, e, dotProduct_comm, ← Matrix.dotProduct_mulVec, dotProduct_comm]
  · rw [EuclideanSpace.inner_eq_star_dotProduct, Matrix.ofLp_toLpLin, Matrix.toLin'_apply, dotProduct_comm]
    refine (RCLike.pos_iff.mp (Matrix.PosDef.dotProduct_mulVec_pos h (x := u.ofLp) fun hz => hu ?_)).1
    ext i; exact congrFun hz i

/-- the two functionals agree -/
theorem E_energy (A : Nat → Nat → 𝕜) (b x : Nat → 𝕜) :
    functional (Matrix.toEuclideanLin (mat n A)) (E n b) (E n x) = energy n A b x := by
  unfold functional energy
  rw [← E_mv, E_inner, E_inner]

theorem E_kry (A : Nat → Nat → 𝕜) (N : Matrix (Fin n) (Fin n) 𝕜) (r : Nat → 𝕜) (l : Nat) :
    E n (kry n A N.mulVec r l) = ((Matrix.toEuclideanLin N ∘ₗ Matrix.toEuclideanLin (mat n A)) ^ l) (Matrix.toEuclideanLin N (E n r)) := by
  induction l with
  | zero => rw [kry, E_ext]; rfl
  | succ l ih => rw [kry, E_ext, E_mv, ih, pow_succ', Module.End.mul_apply, LinearMap.comp_apply]

theorem inAffine_iff {k : Nat} {x y : Nat → 𝕜} {w : Nat → Nat → 𝕜} :
    InAffine n k x w y ↔ E n y - E n x ∈ dirs 𝕜 (fun l => E n (w l)) k := by
  have es : ∀ c : Nat → 𝕜, E n (fun i => x i + ∑ l ∈ Finset.range k, c l * w l i) = E n x + ∑ l ∈ Finset.range k, c l • E n (w l) := by
    intro c
    ext i
    simp [E, vec]
  rw [dirs_iff]
  refine exists_congr fun c => ⟨fun h => ?_, fun h => ?_⟩
  · rw [E_congr h, es, add_sub_cancel_left]
  · refine E_inj ?_
    rw [es, ← h]; abel

open scoped ComplexOrder in
theorem cgRun {ι : Type} [DecidableEq ι] {v : ι → Vec} {m : Mem 𝕜} {init step : Mem 𝕜 → R (Mem 𝕜)} {A : Nat → Nat → 𝕜}
    {N : Matrix (Fin n) (Fin n) 𝕜} (hA : (mat n A).PosDef) (hN : N.PosDef) {x r p : ι} (hdx : (v x).dim = n) (hdr : (v r).dim = n)
    (hdp : (v p).dim = n) {bf : Nat → 𝕜}
    {S : Nat → ι → Nat → 𝕜}
    (h0 : Tot (init m) (Holds v m (S 0)))
    (hst : ∀ k m', Holds v m (S k) m' →
      (ip n (S k p) (mv n A (S k p)) = 0 ∧ step m' = .error .nan) ∨
      (ip n (S k p) (mv n A (S k p)) ≠ 0 ∧ Tot (step m') (Holds v m (S (k + 1)))))
    (hx0 : S 0 x = (v x).val m) (hr0 : S 0 r = fun i => bf i - mv n A ((v x).val m) i)
    (hseq : IsPCG (Matrix.toEuclideanLin (mat n A)) (Matrix.toEuclideanLin N) (fun k => E n (S k x)) (fun k => E n (S k r))
      (fun k => E n (S k p))) :
    ∃ K M, (∀ k ≤ K, iterate init step m k = .ok (M k) ∧ Holds v m (S k) (M k)) ∧ CgRun n A N.mulVec (iterate init step m) bf (v x) (v r) (v p) m K M := by
  have sA := posDef_spd hA
  have sN := posDef_spd hN
  have ht := hseq.terminates sA sN
  have ht' : ∃ k, E n (S k r) = 0 := let ⟨k, _, h⟩ := ht; ⟨k, h⟩
  classical
  set K := Nat.find ht' with hK
  have rK : E n (S K r) = 0 := Nat.find_spec ht'
  have rk : ∀ k < K, E n (S k r) ≠ 0 := fun k hk => Nat.find_min ht' hk
  have hKn : K ≤ n := by
    obtain ⟨k, hk, h⟩ := ht
    rw [finrank_euclideanSpace_fin] at hk
    exact (Nat.find_min' ht' h).trans hk
  have o := hseq.orth sA sN K rk
  have hg : ∀ k, ip n (S k p) (mv n A (S k p)) = inner 𝕜 (E n (S k p)) (Matrix.toEuclideanLin (mat n A) (E n (S k p))) := fun k => by
    rw [← E_mv, E_inner]
  obtain ⟨M, hM, hnan⟩ := iterate_run h0 hst K (fun k hk => by rw [hg]; exact IsPCG.gamma_ne sA sN o hk.le (rk k hk))
    (by rw [hg, hseq.p_zero rK, inner_zero_left])
  have ev' : ∀ s, (v s).dim = n → ∀ k ≤ K, E n ((v s).val (M k)) = E n (S k s) := fun s hs k hk => E_congr fun i hi =>
    (hM k hk).2.val s (by rw [hs]; exact hi)
  have ev := ev' x hdx
  have evr := ev' r hdr
  have evp := ev' p hdp
  have eb : E n (S 0 r) = E n bf - Matrix.toEuclideanLin (mat n A) (E n (S 0 x)) := by
    rw [hr0, hx0, E_sub', E_mv]
  have ex0 : E n (S 0 x) = E n ((v x).val m) := by rw [hx0]
  have res : ∀ k, E n (S k r) = E n bf - Matrix.toEuclideanLin (mat n A) (E n (S k x)) := hseq.residual eb
  have kr : ∀ k ≤ K, dirs 𝕜 (fun l => E n (kry n A N.mulVec (fun i => bf i - mv n A ((v x).val m) i) l)) k =
      dirs 𝕜 (fun k => E n (S k p)) k := fun k hk => by
    rw [← hr0, ← hseq.dirs_eq sA sN fun j hj => rk j (by omega)]
    congr 1
    funext l
    exact E_kry A N _ l
  have minim : ∀ k ≤ K, ∀ y, E n y - E n (S 0 x) ∈ dirs 𝕜 (fun k => E n (S k p)) k → E n y ≠ E n (S k x) →
      energy n A bf ((v x).val (M k)) < energy n A bf y := fun k hk y hy hne => by
    rw [← E_energy, ← E_energy, ev k hk]
    have e : E n y = E n (S 0 x) + (E n y - E n (S 0 x)) := by abel
    rw [e] at hne ⊢
    exact hseq.minimal sA sN eb (fun j hj => rk j (by omega)) hy hne
  refine ⟨K, M, hM, hKn, fun k hk => (hM k hk).1, hnan, ?_, ?_, ?_, ?_, ?_, ?_, ?_, ?_, ?_⟩
  · refine E_inj ?_
    rw [E_mv, ev K le_rfl]
    exact (sub_eq_zero.mp ((res K).symm.trans rK)).symm
  · intro k hk
    by_contra hc
    push Not at hc
    have := E_congr hc
    rw [E_mv, ev k hk.le] at this
    exact rk k hk (by rw [res k, this, sub_self])
  · intro k hk
    refine E_inj ?_
    rw [E_sub', E_mv, ev k hk, evr k hk]
    exact res k
  · intro i j hij hj
    rw [← E_inner, E_mv, evp j hj, evp i (by omega)]
    exact o.conj i j hij hj
  · intro i j hij hj
    rw [← E_inner, E_ext, evr j hj, evr i (by omega)]
    exact o.qr i j hij hj
  · intro k hk
    refine E_ne fun hz => ?_
    rw [evp k hk.le] at hz
    exact IsPCG.pr_ne sN o hk.le (rk k hk) (by rw [hz, inner_zero_left])
  · intro k hk
    rw [inAffine_iff, kr k hk, ev k hk, ← ex0]
    exact hseq.x_mem k
  · intro k hk y hy hne
    rw [inAffine_iff, kr k hk, ← ex0] at hy
    refine minim k hk y hy fun he => ?_
    obtain ⟨i, hi, h⟩ := hne
    rw [← ev k hk] at he
    exact h (E_inj he i hi)
  · intro k hk
    refine minim (k + 1) hk _ ?_ ?_
    · rw [ev k hk.le]
      exact dirs_mono (by omega) (hseq.x_mem k)
    · rw [ev k hk.le]
      intro he
      have h1 : E n (S (k + 1) x) = _ := hseq.hx k
      rw [← he, left_eq_add, smul_eq_zero] at h1
      rcases h1 with h1 | h1
      · exact div_ne_zero (IsPCG.pr_ne sN o hk.le (rk k hk)) (IsPCG.gamma_ne sA sN o hk.le (rk k hk)) h1
      · exact IsPCG.pr_ne sN o hk.le (rk k hk) (by rw [h1, inner_zero_left])

/-- the sequences of `init_cg`, `step_cg` -/
noncomputable def cgSeq (n : Nat) (A : Nat → Nat → 𝕜) (F : CgVar → Nat → 𝕜) : Nat → CgVar → Nat → 𝕜
  | 0 => cgInitF n A F
  | k + 1 => let G := cgSeq n A F k
    let l := ip n (G .p) (G .r) / ip n (G .p) (mv n A (G .p))
    cgStepF n A G l (ip n (mv n A (G .p)) (fun i => G .r i - l * mv n A (G .p) i) / ip n (G .p) (mv n A (G .p)))

/-- the sequences of `init_pcg`, `step_pcg` -/
noncomputable def pcgSeq (n : Nat) (A : Nat → Nat → 𝕜) (N : (Fin n → 𝕜) → Fin n → 𝕜) (F : PcgVar → Nat → 𝕜) : Nat → PcgVar → Nat → 𝕜
  | 0 => pcgInitF n A N F
  | k + 1 => let G := pcgSeq n A N F k
    let l := ip n (G .p) (G .r) / ip n (G .p) (mv n A (G .p))
    pcgStepF n A N G l (ip n (mv n A (G .p)) (ext N fun i => G .r i - l * mv n A (G .p) i) / ip n (G .p) (mv n A (G .p)))

theorem cgSeq_pcg (A : Nat → Nat → 𝕜) (F : CgVar → Nat → 𝕜) :
    IsPCG (Matrix.toEuclideanLin (mat n A)) (Matrix.toEuclideanLin (1 : Matrix (Fin n) (Fin n) 𝕜)) (fun k => E n (cgSeq n A F k .x))
      (fun k => E n (cgSeq n A F k .r)) (fun k => E n (cgSeq n A F k .p)) := by
  have e1 : ∀ f : Nat → 𝕜, Matrix.toEuclideanLin (1 : Matrix (Fin n) (Fin n) 𝕜) (E n f) = E n f := fun f => by
    rw [← E_ext]
    refine E_congr fun i hi => ?_
    simp [ext, hi, vec]
  refine ⟨?_, fun k => ?_, fun k => ?_, fun k => ?_⟩
  · rw [e1]; rfl
  · simp only [← E_mv, E_inner, ← E_lin]; rfl
  · simp only [← E_mv, E_inner, ← E_sub]; rfl
  · simp only [e1, ← E_mv, E_inner, ← E_sub]; rfl

theorem pcgSeq_pcg (A : Nat → Nat → 𝕜) (N : Matrix (Fin n) (Fin n) 𝕜) (F : PcgVar → Nat → 𝕜) :
    IsPCG (Matrix.toEuclideanLin (mat n A)) (Matrix.toEuclideanLin N) (fun k => E n (pcgSeq n A N.mulVec F k .x))
      (fun k => E n (pcgSeq n A N.mulVec F k .r)) (fun k => E n (pcgSeq n A N.mulVec F k .p)) := by
  refine ⟨?_, fun k => ?_, fun k => ?_, fun k => ?_⟩
  · simp only [← E_ext]; rfl
  · simp only [← E_mv, E_inner, ← E_lin]; rfl
  · simp only [← E_mv, E_inner, ← E_sub]; rfl
  · simp only [← E_mv]; simp only [← E_ext, E_inner, ← E_sub]; rfl

/-! ### Uzawa -/

section uzawa
variable {n1 n2 : Nat} {B : Nat → Nat → 𝕜} {X : Matrix (Fin n1) (Fin n1) 𝕜}

theorem schur_mv (f : Nat → 𝕜) (i : Nat) :
    mv n1 B (ext X.mulVec (mv n2 (op true B) f)) i = mv n2 (schur B X) f i := by
  unfold mv schur
  rw [← Fin.sum_univ_eq_sum_range (fun k => B i k * ext X.mulVec (fun i => ∑ j ∈ Finset.range n2, op true B i j * f j) k)]
  have e : ∀ k : Fin n1, ext X.mulVec (fun i => ∑ j ∈ Finset.range n2, op true B i j * f j) k =
      ∑ l, X k l * ∑ j ∈ Finset.range n2, star (B j l) * f j := fun k => by
    simp [ext, vec, Matrix.mulVec, dotProduct, op]
  simp only [e, Finset.mul_sum, Finset.sum_mul]
  symm
  rw [Finset.sum_comm]
  refine Finset.sum_congr rfl fun k _ => ?_
  rw [Finset.sum_comm]
  exact Finset.sum_congr rfl fun l _ => Finset.sum_congr rfl fun j _ => by ring

theorem mat_schur : mat n2 (schur B X) = (Matrix.of fun (i : Fin n2) (j : Fin n1) => B i j) * X *
    (Matrix.of fun (i : Fin n2) (j : Fin n1) => B i j).conjTranspose := by
  ext i j
  simp only [mat, schur, Matrix.of_apply, Matrix.mul_apply, Matrix.conjTranspose_apply, Finset.sum_mul]
  exact Finset.sum_comm

open scoped ComplexOrder in
theorem schur_posDef {A : Matrix (Fin n1) (Fin n1) 𝕜} (hA : A.PosDef)
    (hB : LinearIndependent 𝕜 fun (i : Fin n2) (j : Fin n1) => B i j) : (mat n2 (schur B A⁻¹)).PosDef := by
  rw [mat_schur]
  refine Matrix.PosDef.mul_mul_conjTranspose_same hA.inv ?_
  exact Matrix.vecMul_injective_iff.mpr hB

/-- the sequences of `init_puzawa`, `step_puzawa` -/
noncomputable def puzSeq (n1 n2 : Nat) (B : Nat → Nat → 𝕜) (S : (Fin n1 → 𝕜) → Fin n1 → 𝕜) (N : (Fin n2 → 𝕜) → Fin n2 → 𝕜)
    (F : PuzVar → Nat → 𝕜) : Nat → PuzVar → Nat → 𝕜
  | 0 => puzInitF n1 n2 B S N F
  | k + 1 => let G := puzSeq n1 n2 B S N F k
    let s := mv n1 B (ext S (mv n2 (op true B) (G .p2)))
    let l := ip n2 (G .p2) (G .r2) / ip n2 s (G .p2)
    puzStepF n1 n2 B S N G l (ip n2 s (ext N fun i => G .r2 i - l * s i) / star (ip n2 s (G .p2)))

/-- the sequences of `init_uzawa`, `step_uzawa` -/
noncomputable def uzSeq (n1 n2 : Nat) (B : Nat → Nat → 𝕜) (S : (Fin n1 → 𝕜) → Fin n1 → 𝕜) (F : UzVar → Nat → 𝕜) :
    Nat → UzVar → Nat → 𝕜
  | 0 => uzInitF n1 n2 B S F
  | k + 1 => let G := uzSeq n1 n2 B S F k
    let s := mv n1 B (ext S (mv n2 (op true B) (G .p2)))
    let l := ip n2 (G .p2) (G .r2) / ip n2 s (G .p2)
    uzStepF n1 n2 B S G l (ip n2 s (fun i => G .r2 i - l * s i) / star (ip n2 s (G .p2)))

theorem ip_star (n : Nat) (f g : Nat → 𝕜) : star (ip n f g) = ip n g f := by
  unfold ip
  rw [star_sum]
  exact Finset.sum_congr rfl fun i _ => by rw [star_mul, star_star]

open scoped ComplexOrder in
theorem ip_herm {n : Nat} {A : Nat → Nat → 𝕜} (hA : (mat n A).PosDef) (f g : Nat → 𝕜) : ip n (mv n A f) g = ip n f (mv n A g) := by
  rw [← E_inner, ← E_inner, E_mv, E_mv]
  exact (posDef_spd hA).sym _ _

open scoped ComplexOrder in
theorem puzSeq_pcg (hA : (mat n2 (schur B X)).PosDef) (N : Matrix (Fin n2) (Fin n2) 𝕜) (F : PuzVar → Nat → 𝕜) :
    IsPCG (Matrix.toEuclideanLin (mat n2 (schur B X))) (Matrix.toEuclideanLin N)
      (fun k => E n2 (puzSeq n1 n2 B X.mulVec N.mulVec F k .x2)) (fun k => E n2 (puzSeq n1 n2 B X.mulVec N.mulVec F k .r2))
      (fun k => E n2 (puzSeq n1 n2 B X.mulVec N.mulVec F k .p2)) := by
  have es : ∀ f : Nat → 𝕜, mv n1 B (ext X.mulVec (mv n2 (op true B) f)) = mv n2 (schur B X) f := fun f => funext (schur_mv f)
  refine ⟨?_, fun k => ?_, fun k => ?_, fun k => ?_⟩
  · simp only [← E_ext]; rfl
  · simp only [← E_mv, E_inner, ← E_lin]
    simp only [puzSeq, puzStepF, es, ip_herm hA]
  · simp only [← E_mv, E_inner, ← E_sub]
    simp only [puzSeq, puzStepF, es, ip_herm hA]
  · simp only [← E_mv]
    simp only [← E_ext, E_inner, ← E_sub]
    simp only [puzSeq, puzStepF, es, ip_star]

open scoped ComplexOrder in
theorem uzSeq_pcg (hA : (mat n2 (schur B X)).PosDef) (F : UzVar → Nat → 𝕜) :
    IsPCG (Matrix.toEuclideanLin (mat n2 (schur B X))) (Matrix.toEuclideanLin (1 : Matrix (Fin n2) (Fin n2) 𝕜))
      (fun k => E n2 (uzSeq n1 n2 B X.mulVec F k .x2)) (fun k => E n2 (uzSeq n1 n2 B X.mulVec F k .r2))
      (fun k => E n2 (uzSeq n1 n2 B X.mulVec F k .p2)) := by
  have es : ∀ f : Nat → 𝕜, mv n1 B (ext X.mulVec (mv n2 (op true B) f)) = mv n2 (schur B X) f := fun f => funext (schur_mv f)
  have e1 : ∀ f : Nat → 𝕜, Matrix.toEuclideanLin (1 : Matrix (Fin n2) (Fin n2) 𝕜) (E n2 f) = E n2 f := fun f => by
    rw [← E_ext]
    refine E_congr fun i hi => ?_
    simp [ext, hi, vec]
  refine ⟨?_, fun k => ?_, fun k => ?_, fun k => ?_⟩
  · simp only [e1]; rfl
  · simp only [← E_mv, E_inner, ← E_lin]
    simp only [uzSeq, uzStepF, es, ip_herm hA]
  · simp only [← E_mv, E_inner, ← E_sub]
    simp only [uzSeq, uzStepF, es, ip_herm hA]
  · simp only [← E_mv, e1]
    simp only [E_inner, ← E_sub]
    simp only [uzSeq, uzStepF, es, ip_star]

end uzawa

end H2.Krylov
