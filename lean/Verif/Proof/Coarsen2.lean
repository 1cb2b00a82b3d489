import Verif.Proof.Coarsen

set_option linter.unusedSectionVars false

namespace H2.Svd
open Spec
variable {𝕜 : Type} [RCLike 𝕜] {rows cols : Nat}

/-- the Frobenius norm as a norm -/
noncomputable def fvec (rows cols : Nat) (M : Nat → Nat → 𝕜) : EuclideanSpace 𝕜 (Fin cols × Fin rows) := WithLp.toLp 2 fun p => M p.2 p.1

theorem fvec_norm (M : Nat → Nat → 𝕜) : ‖fvec rows cols M‖ ^ 2 = frobSq rows cols M := by
  rw [EuclideanSpace.norm_sq_eq, Fintype.sum_prod_type]
  unfold frobSq vecSq
  rw [← Fin.sum_univ_eq_sum_range (fun j => ∑ i ∈ Finset.range rows, ‖M i j‖ ^ 2)]
  refine Finset.sum_congr rfl fun j _ => ?_
  rw [← Fin.sum_univ_eq_sum_range (fun i => ‖M i j‖ ^ 2)]
  rfl

theorem within_congr {frob : Bool} {e : ℝ} {E F : Nat → Nat → 𝕜} (h : ∀ i < rows, ∀ j < cols, E i j = F i j) (hE : Within frob e rows cols E) : Within frob e rows cols F := by
  unfold Within at *
  split at hE
  · rwa [if_pos ‹_›, ← frobSq_congr h]
  · rwa [if_neg ‹_›, ← specBound_congr h]

theorem within_zero {frob : Bool} {e : ℝ} {E : Nat → Nat → 𝕜} (h : ∀ i < rows, ∀ j < cols, E i j = 0) : Within frob e rows cols E := by
  have hf : frobSq rows cols E = 0 := by
    rw [frobSq_congr h]
    simp [frobSq, vecSq]
  have hs : ∀ B, 0 ≤ B → SpecBound rows cols E B := fun B hB x => by
    refine (spec_frob rows cols E x).trans ?_
    rw [hf, zero_mul]
    exact mul_nonneg hB (vecSq_nonneg _ _)
  unfold Within
  split
  · rw [hf]; positivity
  · exact hs _ (sq_nonneg _)

theorem within_add {frob : Bool} {e f : ℝ} {E F : Nat → Nat → 𝕜} (he : 0 ≤ e) (hf : 0 ≤ f) (hE : Within frob e rows cols E) (hF : Within frob f rows cols F) :
    Within frob (e + f) rows cols fun i j => E i j + F i j := by
  unfold Within at *
  split at hE
  · rw [if_pos ‹_›] at hF ⊢
    rw [← fvec_norm] at hE hF ⊢
    have h1 := (le_abs_self _).trans (abs_le_of_sq_le_sq hE he)
    have h2 := (le_abs_self _).trans (abs_le_of_sq_le_sq hF hf)
    have h3 : fvec rows cols (fun i j => E i j + F i j) = fvec rows cols E + fvec rows cols F := rfl
    rw [h3]
    exact pow_le_pow_left₀ (norm_nonneg _) ((norm_add_le _ _).trans (add_le_add h1 h2)) 2
  · rw [if_neg ‹_›] at hF ⊢
    intro x
    have h1 := hE x
    have h2 := hF x
    rw [← vec_norm, ← vec_norm, ← mul_pow] at h1 h2 ⊢
    have h3 := (le_abs_self _).trans (abs_le_of_sq_le_sq h1 (mul_nonneg he (norm_nonneg _)))
    have h4 := (le_abs_self _).trans (abs_le_of_sq_le_sq h2 (mul_nonneg hf (norm_nonneg _)))
    have h5 : vec rows (matVec cols (fun i j => E i j + F i j) x) = vec rows (matVec cols E x) + vec rows (matVec cols F x) := by
      have : matVec cols (fun i j => E i j + F i j) x = fun i => matVec cols E x i + matVec cols F x i := by
        funext i
        unfold matVec
        rw [← Finset.sum_add_distrib]
        exact Finset.sum_congr rfl fun j _ => by ring
      rw [this]; rfl
    rw [h5]
    refine pow_le_pow_left₀ (norm_nonneg _) ((norm_add_le _ _).trans ?_) 2
    rw [add_mul]
    exact add_le_add h3 h4

theorem within_sum {ι : Type} {frob : Bool} (s : Finset ι) {e : ι → ℝ} {E : ι → Nat → Nat → 𝕜} (he : ∀ a ∈ s, 0 ≤ e a) (hE : ∀ a ∈ s, Within frob (e a) rows cols (E a)) :
    Within frob (∑ a ∈ s, e a) rows cols fun i j => ∑ a ∈ s, E a i j := by
  induction s using Finset.cons_induction with
  | empty => exact within_zero fun i _ j _ => by simp
  | cons a s ha ih =>
    simp only [Finset.sum_cons]
    exact within_add (he a (by simp)) (Finset.sum_nonneg fun b hb => he b (by simp [hb])) (hE a (by simp)) (ih (fun b hb => he b (by simp [hb])) fun b hb => hE b (by simp [hb]))

theorem sum_window {n a m : Nat} (h : a + m ≤ n) {M : Type*} [AddCommMonoid M] {f : Nat → M} (h0 : ∀ i < n, ¬ (a ≤ i ∧ i < a + m) → f i = 0) :
    ∑ i ∈ Finset.range n, f i = ∑ i ∈ Finset.range m, f (a + i) := by
  rw [show n = a + (m + (n - a - m)) by omega, Finset.sum_range_add, Finset.sum_range_add]
  rw [Finset.sum_eq_zero (s := Finset.range a) fun i hi => h0 i (by have := Finset.mem_range.mp hi; omega) (by have := Finset.mem_range.mp hi; omega), zero_add]
  rw [Finset.sum_eq_zero (s := Finset.range (n - a - m)) fun i hi => h0 _ (by have := Finset.mem_range.mp hi; omega) (by omega), add_zero]

/-- a matrix that vanishes outside of a window -/
theorem within_window {frob : Bool} {e : ℝ} {E : Nat → Nat → 𝕜} {a m b n : Nat} (hr : a + m ≤ rows) (hc : b + n ≤ cols)
    (h0 : ∀ i < rows, ∀ j < cols, ¬ ((a ≤ i ∧ i < a + m) ∧ b ≤ j ∧ j < b + n) → E i j = 0) (hE : Within frob e m n fun i j => E (a + i) (b + j)) : Within frob e rows cols E := by
  unfold Within at *
  split at hE
  · rw [if_pos ‹_›]
    refine le_of_eq_of_le ?_ hE
    unfold frobSq
    rw [sum_window hc]
    · refine Finset.sum_congr rfl fun j hj => ?_
      have hj := Finset.mem_range.mp hj
      unfold vecSq
      exact sum_window hr fun i hi hn => by beta_reduce; rw [h0 i hi (b + j) (by omega) (by omega)]; simp
    · intro j hj hn
      unfold vecSq
      exact Finset.sum_eq_zero fun i hi => by beta_reduce; rw [h0 i (Finset.mem_range.mp hi) j hj (by omega)]; simp
  · rw [if_neg ‹_›]
    intro x
    have h1 := hE fun j => x (b + j)
    have hv : ∀ i < rows, matVec cols E x i = ∑ j ∈ Finset.range n, E i (b + j) * x (b + j) := fun i hi => by
      unfold matVec
      exact sum_window hc fun j hj hn => by rw [h0 i hi j hj (by omega), zero_mul]
    have h2 : vecSq rows (matVec cols E x) = vecSq m (matVec n (fun i j => E (a + i) (b + j)) fun j => x (b + j)) := by
      unfold vecSq
      rw [sum_window hr]
      · exact Finset.sum_congr rfl fun i hi => by rw [hv (a + i) (by have := Finset.mem_range.mp hi; omega)]; rfl
      · intro i hi hn
        rw [hv i hi, Finset.sum_eq_zero fun j hj => by rw [h0 i hi (b + j) (by have := Finset.mem_range.mp hj; omega) (by omega), zero_mul]]
        simp
    rw [h2]
    refine h1.trans (mul_le_mul_of_nonneg_left ?_ (sq_nonneg _))
    unfold vecSq
    rw [show cols = b + (n + (cols - b - n)) by omega, Finset.sum_range_add, Finset.sum_range_add]
    have p1 : 0 ≤ ∑ i ∈ Finset.range b, ‖x i‖ ^ 2 := Finset.sum_nonneg fun _ _ => by positivity
    have p2 : 0 ≤ ∑ i ∈ Finset.range (cols - b - n), ‖x (b + (n + i))‖ ^ 2 := Finset.sum_nonneg fun _ _ => by positivity
    linarith

theorem close_congr {tm : Option Trunc.Mode} {eps : ℝ} {M M' N : Nat → Nat → 𝕜} (h : ∀ i < rows, ∀ j < cols, M i j = M' i j) (hc : CloseTo tm eps rows cols M N) :
    CloseTo tm eps rows cols M' N := by
  have h2 : ∀ i < rows, ∀ j < cols, M i j - N i j = M' i j - N i j := fun i hi j hj => by rw [h i hi j hj]
  match tm, hc with
  | some ⟨true, true⟩, hc =>
    show frobSq _ _ _ ≤ _
    rw [← frobSq_congr h2]; exact hc
  | some ⟨true, false⟩, hc =>
    show frobSq _ _ _ ≤ _ * frobSq _ _ _
    rw [← frobSq_congr h2, ← frobSq_congr h]; exact hc
  | some ⟨false, true⟩, hc =>
    show SpecBound _ _ _ _
    rw [← specBound_congr h2]; exact hc
  | some ⟨false, false⟩, hc => exact fun B hB hM => by rw [← specBound_congr h2]; exact hc B hB (by rw [specBound_congr h]; exact hM)
  | none, hc => exact fun B hB hM => by rw [← specBound_congr h2]; exact hc B hB (by rw [specBound_congr h]; exact hM)

end H2.Svd

namespace H2.HV
open Spec Svd
variable {G 𝕜 : Type} [RCLike 𝕜]

theorem coarser_refl (same : CRef G → CRef G → Bool) : ∀ h : HV G 𝕜, Coarser same h h := by
  intro h
  induction h with
  | rk => exact rfl
  | full => exact rfl
  | super t s m n son ih => exact ⟨rfl, rfl, rfl, rfl, fun i j => ih i j⟩

theorem foldFin_nat {m n : Nat} (f : Fin m → Fin n → Nat) : foldFin n (fun j (l : Nat) => foldFin m (fun i (l : Nat) => l + f i j) l) 0 = ∑ j, ∑ i, f i j := by
  rw [foldFin_congr (g := fun j l => l + ∑ i, f i j) fun j l => foldFin_sum m (fun i => f i j) l, foldFin_sum, zero_add]

variable (same : CRef G → CRef G → Bool) (z : Sizeof) (tm : Option Trunc.Mode) (eps : ℝ)

/-- an error relation compatible with the operations of the algorithm -/
structure ErrRel (Err : HV G 𝕜 → HV G 𝕜 → Prop) : Prop where
  refl : ∀ h, Err h h
  sons : ∀ {t s : CRef G} {m n : Nat} {son son' : Fin m → Fin n → HV G 𝕜}, HVOk (super t s m n son) → HVOk (super t s m n son') →
    (∀ i j, (son' i j).rc = (son i j).rc ∧ (son' i j).cc = (son i j).cc) → (∀ i j, Err (son i j) (son' i j)) → Err (super t s m n son) (super t s m n son')
  merge : ∀ {t s : CRef G} {m n : Nat} {son son' : Fin m → Fin n → HV G 𝕜} {r : VRk 𝕜}, HVOk (super t s m n son) → HVOk (super t s m n son') →
    (∀ i j, (son' i j).rc = (son i j).rc ∧ (son' i j).cc = (son i j).cc) → (∀ i j, Err (son i j) (son' i j)) →
    CloseTo tm eps t.cl.size s.cl.size (hentry (super t s m n son')) (rkVal r) → Err (super t s m n son) (rk t s r)

/-- properties of the result -/
structure CoarseRes (recursive : Bool) (Err : HV G 𝕜 → HV G 𝕜 → Prop) (h h' : HV G 𝕜) : Prop where
  ok : HVOk h'
  rc : h'.rc = h.rc
  cc : h'.cc = h.cc
  coarser : Coarser same h h'
  size : storage z h' ≤ storage z h
  err : Err h h'
  one : recursive = false → h' = h ∨ ∃ r, h' = rk h.rc h.cc r
  settled : Settled same z tm eps h'
  all : recursive = true → AllSettled same z tm eps h'

variable {same z tm eps}

theorem trunc_k_unique {rows cols : Nat} {M : Nat → Nat → 𝕜} {r r' : VRk 𝕜} (h : Truncated tm eps rows cols M r) (h' : Truncated tm eps rows cols M r') : r.k = r'.k := by
  rcases Nat.lt_trichotomy r.k r'.k with hl | hl | hl
  · exact absurd h.close (h'.least _ hl r.A.e r.B.e)
  · exact hl
  · exact absurd h'.close (h.least _ hl r'.A.e r'.B.e)

theorem coarsen_tot {env : TrEnv 𝕜} (he : ExactEnv env) (heps : 0 ≤ eps) (recursive : Bool)
    {Err : HV G 𝕜 → HV G 𝕜 → Prop} (hE : ErrRel tm eps Err) :
    ∀ {h : HV G 𝕜}, HVOk h → Tot (coarsen env tm eps z same recursive h) (CoarseRes same z tm eps recursive Err h) := by
  intro h
  induction h with
  | rk t s r => exact fun ho => Tot.pure ⟨ho, rfl, rfl, coarser_refl same _, le_rfl, hE.refl _, fun _ => .inl rfl, trivial, fun _ => trivial⟩
  | full t s r => exact fun ho => Tot.pure ⟨ho, rfl, rfl, coarser_refl same _, le_rfl, hE.refl _, fun _ => .inl rfl, trivial, fun _ => trivial⟩
  | super t s m n son ih =>
    intro ho
    unfold coarsen
    rw [if_pos (Nat.mul_pos ho.1 ho.2.1)]
    refine Tot.bind (P := fun (sons : Fin n → Fin m → HV G 𝕜) => ∀ j i, HVOk (sons j i) ∧ (sons j i).rc = (son i j).rc ∧ (sons j i).cc = (son i j).cc ∧
      Coarser same (son i j) (sons j i) ∧ storage z (sons j i) ≤ storage z (son i j) ∧ Err (son i j) (sons j i) ∧ (recursive = false → sons j i = son i j) ∧
      (recursive = true → AllSettled same z tm eps (sons j i))) ?_ ?_
    · cases recursive
      · exact Tot.pure fun j i => ⟨ho.2.2.2 i j, rfl, rfl, coarser_refl same _, le_rfl, hE.refl _, fun _ => rfl, fun h => by cases h⟩
      · rw [if_pos rfl]
        refine seqFin_tot fun j => seqFin_tot (P := fun i (h' : HV G 𝕜) => HVOk h' ∧ h'.rc = (son i j).rc ∧ h'.cc = (son i j).cc ∧
          Coarser same (son i j) h' ∧ storage z h' ≤ storage z (son i j) ∧ Err (son i j) h' ∧ (true = false → h' = son i j) ∧
          (true = true → AllSettled same z tm eps h')) fun i => (ih i j (ho.2.2.2 i j)).mono fun h' h => ⟨h.ok, h.rc, h.cc, h.coarser, h.size, h.err, (fun hf => by cases hf), h.all⟩
    · intro sons _ hsons
      simp only
      obtain ⟨son', hson'⟩ : ∃ son' : Fin m → Fin n → HV G 𝕜, son' = fun i j => sons j i := ⟨_, rfl⟩
      have hres := fun i j => hsons j i
      have hs' : ∀ i j, sons j i = son' i j := fun i j => by rw [hson']
      simp only [hs'] at hres
      rw [← hson']
      obtain ⟨hm, hn, ⟨Rf, Cf, hRC, hR, hC⟩, hs⟩ := id ho
      have hrefs : ∀ i j, (son' i j).rc = (son i j).rc ∧ (son' i j).cc = (son i j).cc := fun i j => ⟨(hres i j).2.1, (hres i j).2.2.1⟩
      have g1 : HVOk (super t s m n son') := ⟨hm, hn, ⟨Rf, Cf, fun i j => ⟨(hrefs i j).1.trans (hRC i j).1, (hrefs i j).2.trans (hRC i j).2⟩, hR, hC⟩, fun i j => (hres i j).1⟩
      have g3 : storage z (super t s m n son') ≤ storage z (super t s m n son) := by
        unfold storage
        exact Finset.sum_le_sum fun i _ => Finset.sum_le_sum fun j _ => (hres i j).2.2.2.2.1
      have keep : Settled same z tm eps (super t s m n son') → CoarseRes same z tm eps recursive Err (super t s m n son) (super t s m n son') := fun hset =>
        ⟨g1, rfl, rfl, ⟨rfl, rfl, rfl, rfl, fun i j => (hres i j).2.2.2.1⟩, g3, hE.sons ho g1 hrefs fun i j => (hres i j).2.2.2.2.2.1,
          fun hr => .inl (by rw [show son' = son from funext fun i => funext fun j => (hres i j).2.2.2.2.2.2.1 hr]), hset, fun hr => ⟨hset, fun i j => (hres i j).2.2.2.2.2.2.2 hr⟩⟩
      rw [show (fun j l => foldFin m (fun i l => l + (sons j i).nsons) l) = fun j (l : Nat) => foldFin m (fun i (l : Nat) => l + (son' i j).nsons) l by rw [hson'], foldFin_nat]
      split
      · rename_i hleaf
        refine Tot.pure (keep fun _ hno => ?_)
        rw [Finset.sum_eq_zero fun j _ => Finset.sum_eq_zero fun i _ => ?_] at hleaf
        · omega
        · have := hno i j
          revert this
          cases son' i j with
          | rk => intro _; rfl
          | full => intro _; rfl
          | super => exact fun h => h.elim
      · rename_i hleaf
        split
        · rename_i hsame
          exact Tot.pure (keep fun hne => by rw [hsame] at hne; cases hne)
        · rename_i hsame
          have hl0 : ∀ i j, (son' i j).nsons = 0 := fun i j => by
            have h1 : ∑ j, ∑ i, (son' i j).nsons = 0 := by omega
            have h2 := (Finset.sum_eq_zero_iff.mp h1) j (Finset.mem_univ _)
            exact (Finset.sum_eq_zero_iff.mp h2) i (Finset.mem_univ _)
          refine Tot.bind (joinSons_tot z g1 fun i j => isLeaf_of (hres i j).1 (hl0 i j)) ?_
          rintro ⟨r, old⟩ - ⟨r1, r2, r3, r4, r5⟩
          simp only at r1 r2 r3 r4 r5 ⊢
          refine Tot.bind (Tr.trunc_tot tm eps he r1) ?_
          intro r' _ hr'
          have ht := hr'.truncated heps
          rw [r2, r3] at ht
          have hcl : Truncated tm eps t.cl.size s.cl.size (hentry (super t s m n son')) r' :=
            ⟨ht.ok, ht.rows_eq, ht.cols_eq, ht.rank, close_congr r5 ht.close, fun k hk X Y hc => ht.least k hk X Y (close_congr (fun i hi j hj => (r5 i hi j hj).symm) hc)⟩
          have hst : storage z (rk t s r') = sizeRk z r' := by
            unfold storage sizeRk
            simp only [Nat.mul_assoc]
          split
          · rename_i hsz
            refine Tot.pure ⟨⟨ht.ok, ht.rows_eq, ht.cols_eq⟩, rfl, rfl, ⟨rfl, rfl, by simpa using hsame⟩, ?_, hE.merge ho g1 hrefs (fun i j => (hres i j).2.2.2.2.2.1) hcl.close, fun _ => .inr ⟨r', rfl⟩, trivial, fun _ => trivial⟩
            refine le_trans (le_of_lt ?_) g3
            rw [← r4, hst]
            exact hsz
          · rename_i hsz
            refine Tot.pure (keep fun _ _ r'' hr'' => ?_)
            have hk := trunc_k_unique hcl hr''
            have hst' : storage z (rk t s r'') = storage z (rk t s r') := by
              unfold storage
              rw [hr''.ok.1, hr''.ok.2, hr''.rows_eq, hr''.cols_eq, ht.ok.1, ht.ok.2, ht.rows_eq, ht.cols_eq, hk]
            rw [hst', hst, ← r4]
            omega

end H2.HV
