import Verif.Proof.TruncBasis

/-! From the errors in the individual clusters to the errors of the nested basis. -/

set_option linter.unusedSectionVars false

namespace H2.TB
open Spec Svd
variable {G 𝕜 : Type} [RCLike 𝕜]

/-- `V_t - Q_t Q_t^* V_t` -/
def dErr (cb cb' : CBV G 𝕜) (i l : Nat) : 𝕜 := vbasis cb (cb.t.cl.off + i) l - projected cb cb' i l

/-- squared norm of the product with the local weight -/
def locE (clw : Option (COp G 𝕜)) (k : Nat) (x : Nat → 𝕜) : ℝ := match clw with | none => 0 | some z => en k z.C.rows z.C.e x

theorem locE_nonneg (clw : Option (COp G 𝕜)) (k : Nat) (x : Nat → 𝕜) : 0 ≤ locE clw k x := by
  cases clw with
  | none => exact le_rfl
  | some z => exact en_nonneg _ _ _ _

theorem totalSq_nonneg (un : Prop) [Decidable un] (cw : Option (COp G 𝕜)) (k : Nat) (x : Nat → 𝕜) : 0 ≤ totalSq un cw k x := by
  cases cw with
  | none =>
    show 0 ≤ if un then vecSq k x else 0
    split
    · exact vecSq_nonneg _ _
    · exact le_rfl
  | some z => exact vecSq_nonneg _ _

/-- product with the adjoint of a transfer matrix -/
def adjE (E : VMat 𝕜) (k1 : Nat) (x : Nat → 𝕜) (l : Nat) : 𝕜 := ∑ a ∈ Finset.range k1, star (E.e a l) * x a

/-- what the algorithm achieves in each cluster: `L` is the error of the local projection, `Z` the weight used for the singular value decomposition -/
def Cert (frob : Bool) (un : Prop) [Decidable un] (za zl : ℝ) : ((Nat → 𝕜) → ℝ) → ℝ → CBV G 𝕜 → CBV G 𝕜 → Option (COp G 𝕜) → Option (COp G 𝕜) → Prop
  | Ein, eps, .mk t k kt kb V E n son, cb', clw, cw =>
    ∃ (p : Nat) (Z : Nat → Nat → 𝕜) (m : Nat) (L : Nat → Nat → 𝕜) (e : cb'.sons = n),
      (∀ x, Ein x + locE clw k x + totalSq un cw k x ≤ en k p Z x) ∧ ErrLe frob m p (dz L k Z) (eps ^ 2) ∧
      (∀ x, vecSq t.cl.size (matVec k (dErr (.mk t k kt kb V E n son) cb') x) =
        ∑ i, vecSq (son i).t.cl.size (matVec (son i).k (dErr (son i) (cb'.son (Fin.cast e.symm i))) (matVec k (son i).E.e x)) + vecSq m (matVec k L x)) ∧
      ∀ i, Cert frob un za zl (fun x => za ^ 2 * (Ein (adjE (son i).E (son i).k x) + locE clw k (adjE (son i).E (son i).k x))) (eps * zl) (son i)
        (cb'.son (Fin.cast e.symm i)) (opSon clw i) (opSon cw i)

theorem treeSum_nonneg {q : ℝ} (hq : 0 ≤ q) : ∀ cb : CBV G 𝕜, 0 ≤ treeSum q cb := by
  intro cb
  induction cb with
  | mk t k kt kb V E n son ih =>
    unfold treeSum
    exact add_nonneg zero_le_one (Finset.sum_nonneg fun i _ => mul_nonneg hq (ih i))

theorem matVec_dz (D : Nat → Nat → 𝕜) (k p : Nat) (Y : Nat → Nat → 𝕜) (x : Nat → 𝕜) : matVec p (dz D k Y) x = matVec k D (fun l => ∑ j ∈ Finset.range p, star (Y j l) * x j) := by
  funext i
  unfold matVec dz
  simp only [Finset.sum_mul, Finset.mul_sum]
  rw [Finset.sum_comm]
  exact Finset.sum_congr rfl fun a _ => Finset.sum_congr rfl fun j _ => by ring

theorem cert_acc {frob : Bool} {un : Prop} [Decidable un] {za zl : ℝ} (hza : 0 < za) : ∀ (cb : CBV G 𝕜) {Ein : (Nat → 𝕜) → ℝ} {eps : ℝ} {cb' : CBV G 𝕜} {clw cw : Option (COp G 𝕜)},
    Cert frob un za zl Ein eps cb cb' clw cw → Inherits un za cb cw → ∀ (p : Nat) (Y : Nat → Nat → 𝕜),
    (∀ x, en cb.k p Y x ≤ Ein x + locE clw cb.k x + totalSq un cw cb.k x) →
    ErrLe frob cb.t.cl.size p (dz (dErr cb cb') cb.k Y) (eps ^ 2 * treeSum ((zl / za) ^ 2) cb) := by
  intro cb
  induction cb with
  | mk t k kt kb V E n son ih =>
    intro Ein eps cb' clw cw hc hi p Y hY
    obtain ⟨p0, Z, m, L, e, h1, h2, h3, h4⟩ := hc
    replace hY : ∀ x, en k p Y x ≤ Ein x + locE clw k x + totalSq un cw k x := hY
    show ErrLe frob t.cl.size p (dz (dErr (.mk t k kt kb V E n son) cb') k Y) _
    have hL := errLe_energy (sq_nonneg eps) (fun x => (hY x).trans (h1 x)) h2
    -- the sons
    obtain ⟨Yi, hYi⟩ : ∃ Yi : Fin n → Nat → Nat → 𝕜, Yi = fun i j a => (za : 𝕜) * ∑ l ∈ Finset.range k, Y j l * star ((son i).E.e a l) := ⟨_, rfl⟩
    have hen : ∀ i x, en (son i).k p (Yi i) x = za ^ 2 * en k p Y (adjE (son i).E (son i).k x) := by
      intro i x
      unfold en vecSq matVec adjE
      rw [Finset.mul_sum]
      refine Finset.sum_congr rfl fun j _ => ?_
      rw [← sq_abs za, ← mul_pow, show |za| = ‖(za : 𝕜)‖ from (RCLike.norm_ofReal za).symm, ← norm_mul, hYi]
      congr 2
      simp only [Finset.mul_sum, Finset.sum_mul]
      rw [Finset.sum_comm]
      exact Finset.sum_congr rfl fun a _ => Finset.sum_congr rfl fun l _ => by ring
    have hs : ∀ i, ErrLe frob (son i).t.cl.size p (dz (dErr (son i) (cb'.son (Fin.cast e.symm i))) (son i).k (Yi i)) ((eps * zl) ^ 2 * treeSum ((zl / za) ^ 2) (son i)) := by
      intro i
      refine ih i (h4 i) (hi i).2 p (Yi i) fun x => ?_
      rw [hen]
      have a1 := hY (adjE (son i).E (son i).k x)
      have a2 := (hi i).1 x
      have a3 := locE_nonneg (opSon clw i) (son i).k x
      have a4 : za ^ 2 * totalSq un cw k (adjE (son i).E (son i).k x) ≤ totalSq un (opSon cw i) (son i).k x := a2
      have a5 := mul_le_mul_of_nonneg_left a1 (sq_nonneg za)
      beta_reduce
      nlinarith
    have key := errLe_add (frob := frob) (rows := t.cl.size) (p := p) (m := m) (rows' := fun i => (son i).t.cl.size) (M := dz (dErr (.mk t k kt kb V E n son) cb') k Y) (L := dz L k Y)
      (M' := fun i r j => dz (dErr (son i) (cb'.son (Fin.cast e.symm i))) (son i).k (Yi i) r j * ((za⁻¹ : ℝ) : 𝕜)) (B := eps ^ 2)
      (B' := fun i => za⁻¹ ^ 2 * ((eps * zl) ^ 2 * treeSum ((zl / za) ^ 2) (son i))) ?_ hL fun i => errLe_scale (fun _ _ => rfl) (hs i)
    · refine errLe_nonneg key (le_of_eq ?_)
      rw [show treeSum ((zl / za) ^ 2) (.mk t k kt kb V E n son) = 1 + ∑ i : Fin n, (zl / za) ^ 2 * treeSum ((zl / za) ^ 2) (son i) by rw [treeSum]]
      rw [mul_add, mul_one, Finset.mul_sum, add_comm]
      congr 1
      refine Finset.sum_congr rfl fun i _ => ?_
      generalize treeSum ((zl / za) ^ 2) (son i) = T
      field_simp
    · intro x
      rw [matVec_dz, matVec_dz, h3]
      congr 1
      refine Finset.sum_congr rfl fun i _ => ?_
      refine vecSq_congr fun r _ => ?_
      have hz : (za : 𝕜) ≠ 0 := by exact_mod_cast hza.ne'
      have hconj : star (za : 𝕜) = (za : 𝕜) := RCLike.conj_ofReal za
      have hinv : ((za⁻¹ : ℝ) : 𝕜) = (za : 𝕜)⁻¹ := by push_cast; rfl
      have hst : ∀ a j, star (Yi i j a) = (za : 𝕜) * ∑ l ∈ Finset.range k, (son i).E.e a l * star (Y j l) := by
        intro a j
        rw [hYi, star_mul', hconj, star_sum]
        congr 1
        exact Finset.sum_congr rfl fun l _ => by rw [star_mul', star_star, mul_comm]
      have hx : matVec k (son i).E.e (fun l => ∑ j ∈ Finset.range p, star (Y j l) * x j) = fun a => ((za⁻¹ : ℝ) : 𝕜) * ∑ j ∈ Finset.range p, star (Yi i j a) * x j := by
        funext a
        simp only [hst]
        unfold matVec
        simp only [Finset.mul_sum, Finset.sum_mul]
        rw [Finset.sum_comm]
        refine Finset.sum_congr rfl fun j _ => Finset.sum_congr rfl fun l _ => ?_
        rw [hinv]
        field_simp
      have hm : ∀ (D : Nat → Nat → 𝕜) (y : Nat → 𝕜) (c : 𝕜), matVec (son i).k D (fun a => c * y a) r = c * matVec (son i).k D y r := fun D y c => by
        unfold matVec
        rw [Finset.mul_sum]
        exact Finset.sum_congr rfl fun a _ => by ring
      rw [hx, hm, ← matVec_dz]
      unfold matVec
      rw [Finset.mul_sum]
      exact Finset.sum_congr rfl fun j _ => by ring

theorem opSon_none (i : Nat) : opSon (none : Option (COp G 𝕜)) i = none := rfl

theorem cert_accurate {frob : Bool} {un : Prop} [Decidable un] {za zl : ℝ} (hza : 0 < za) : ∀ (cb : CBV G 𝕜) {Ein : (Nat → 𝕜) → ℝ} {eps : ℝ} {cb' : CBV G 𝕜} {clw cw : Option (COp G 𝕜)},
    (∀ x, 0 ≤ Ein x) → (un → cw = none) → Cert frob un za zl Ein eps cb cb' clw cw → Inherits un za cb cw → Accurate frob un ((zl / za) ^ 2) zl eps cb cb' clw cw := by
  intro cb
  induction cb with
  | mk t k kt kb V E n son ih =>
    intro Ein eps cb' clw cw h0 hun hc hi
    have key := cert_acc hza _ hc hi
    obtain ⟨p0, Z, m, L, e, h1, h2, h3, h4⟩ := hc
    refine ⟨fun x hx => ?_, fun x hx => ?_, fun hu => ?_, e, fun i => ?_⟩
    · refine key x.C.rows x.C.e fun y => ?_
      have a1 := totalSq_nonneg un cw k y
      have a2 : locE clw k y = en k x.C.rows x.C.e y := by rw [hx]; rfl
      have a3 := h0 y
      show en k x.C.rows x.C.e y ≤ Ein y + locE clw k y + totalSq un cw k y
      linarith
    · refine key x.C.rows x.C.e fun y => ?_
      have a1 := locE_nonneg clw k y
      have a2 : totalSq un cw k y = en k x.C.rows x.C.e y := by rw [hx]; rfl
      have a3 := h0 y
      show en k x.C.rows x.C.e y ≤ Ein y + locE clw k y + totalSq un cw k y
      linarith
    · have := key k (fun j l => if l = j then 1 else 0) fun y => ?_
      · refine errLe_congr (fun i _ j _ => ?_) this
        unfold projErr dz
        refine Finset.sum_congr rfl fun l _ => ?_
        show dErr _ _ _ _ * (if l = j then (1 : 𝕜) else 0) = dErr _ _ _ _ * star (if l = j then (1 : 𝕜) else 0)
        by_cases hl : l = j
        · rw [if_pos hl, star_one]
        · rw [if_neg hl, star_zero]
      · have a1 := locE_nonneg clw k y
        have a2 : totalSq un cw k y = vecSq k y := by rw [hun hu]; exact if_pos hu
        have a3 := h0 y
        have a4 : en k k (fun j l => if l = j then (1 : 𝕜) else 0) y = vecSq k y := by
          unfold en
          refine vecSq_congr fun j hj => ?_
          unfold matVec
          rw [Finset.sum_eq_single j]
          · beta_reduce; rw [if_pos rfl, one_mul]
          · intro l _ hl; beta_reduce; rw [if_neg hl, zero_mul]
          · intro h; exact absurd (Finset.mem_range.mpr hj) h
        show en k k _ y ≤ Ein y + locE clw k y + totalSq un cw k y
        linarith
    · refine ih i (fun x => ?_) (fun hu => by rw [hun hu]; rfl) (h4 i) (hi i).2
      exact mul_nonneg (sq_nonneg _) (add_nonneg (h0 _) (locE_nonneg _ _ _))

end H2.TB
