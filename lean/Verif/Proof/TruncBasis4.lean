import Verif.Proof.TruncBasis3
import Verif.Proof.Ortho5
import Verif.Proof.Trunc4

/-! The truncation of a cluster basis: induction over the tree. -/

set_option linter.unusedSectionVars false

namespace H2.TB
open Spec Svd
variable {G 𝕜 : Type} [RCLike 𝕜]

/-- Pythagoras -/
theorem vecSq_pyth {n k : Nat} {U : Nat → Nat → 𝕜} (hU : OrthCols n k U) {u : Nat → 𝕜} (hu : ∀ l < k, ∑ i ∈ Finset.range n, star (U i l) * u i = 0) (c : Nat → 𝕜) :
    vecSq n (fun i => u i + ∑ l ∈ Finset.range k, U i l * c l) = vecSq n u + vecSq k c := by
  have h1 := vecSq_cols hU (S := Finset.range k) lt_range c
  rw [show vecSq k c = ∑ l ∈ Finset.range k, ‖c l‖ ^ 2 from rfl, ← h1]
  obtain ⟨w, hw⟩ : ∃ w : Nat → 𝕜, w = fun i => ∑ l ∈ Finset.range k, U i l * c l := ⟨_, rfl⟩
  have h2 : ∑ i ∈ Finset.range n, star (w i) * u i = 0 := by
    rw [hw]
    simp only [star_sum, star_mul', Finset.sum_mul]
    rw [Finset.sum_comm]
    refine Finset.sum_eq_zero fun l hl => ?_
    rw [← mul_zero (star (c l)), ← hu l (Finset.mem_range.mp hl), Finset.mul_sum]
    exact Finset.sum_congr rfl fun i _ => by ring
  have h6 : (fun i => u i + ∑ l ∈ Finset.range k, U i l * c l) = fun i => u i + w i := by rw [hw]
  rw [h6, ← hw]
  have h3 : ∀ z : 𝕜, ((‖z‖ ^ 2 : ℝ) : 𝕜) = star z * z := fun z => by rw [RCLike.ofReal_pow]; exact (RCLike.conj_mul z).symm
  have h4 : ((vecSq n (fun i => u i + w i) : ℝ) : 𝕜) = ((vecSq n u + vecSq n w : ℝ) : 𝕜) := by
    unfold vecSq
    push_cast
    simp only [← RCLike.ofReal_pow, h3]
    have h5 : ∑ i ∈ Finset.range n, star (u i) * w i = 0 := by
      have := congrArg star h2
      rw [star_sum, star_zero] at this
      rw [← this]
      exact Finset.sum_congr rfl fun i _ => by rw [star_mul', star_star, mul_comm]
    have : ∀ i, star (u i + w i) * (u i + w i) = star (u i) * u i + star (w i) * w i + star (w i) * u i + star (u i) * w i := fun i => by rw [star_add]; ring
    simp only [this, Finset.sum_add_distrib]
    rw [h2, h5, add_zero, add_zero]
  exact_mod_cast h4

/-- an orthonormal basis, its range is annihilated by the error -/
theorem dErr_orth {cb cb' : CBV G 𝕜} (ht : cb'.t = cb.t) (ho : ∀ a < cb'.k, ∀ b < cb'.k, cross cb' cb' a b = if a = b then 1 else 0) (x : Nat → 𝕜) {a : Nat} (ha : a < cb'.k) :
    ∑ i ∈ Finset.range cb.t.cl.size, star (vbasis cb' (cb.t.cl.off + i) a) * matVec cb.k (dErr cb cb') x i = 0 := by
  have h1 : ∀ l, ∑ i ∈ Finset.range cb.t.cl.size, star (vbasis cb' (cb.t.cl.off + i) a) * dErr cb cb' i l = 0 := by
    intro l
    unfold dErr projected
    simp only [mul_sub, Finset.sum_sub_distrib, Finset.mul_sum]
    rw [sub_eq_zero]
    have h2 : ∀ b ∈ Finset.range cb'.k, ∑ i ∈ Finset.range cb.t.cl.size, star (vbasis cb' (cb.t.cl.off + i) a) * (vbasis cb' (cb.t.cl.off + i) b * cross cb' cb b l) =
        (if a = b then 1 else 0) * cross cb' cb b l := by
      intro b hb
      rw [← ho a ha b (Finset.mem_range.mp hb)]
      show _ = (∑ i ∈ Finset.range cb'.t.cl.size, star (vbasis cb' (cb'.t.cl.off + i) a) * vbasis cb' (cb'.t.cl.off + i) b) * _
      rw [ht, Finset.sum_mul]
      exact Finset.sum_congr rfl fun i _ => by ring
    refine Eq.symm ?_
    rw [Finset.sum_comm, Finset.sum_congr rfl h2, Finset.sum_eq_single a]
    · rw [if_pos rfl, one_mul]
      show ∑ i ∈ Finset.range cb'.t.cl.size, star (vbasis cb' (cb'.t.cl.off + i) a) * vbasis cb (cb'.t.cl.off + i) l = _
      rw [ht]
    · intro b _ hb; rw [if_neg (Ne.symm hb), zero_mul]
    · intro h; exact absurd (Finset.mem_range.mpr ha) h
  unfold matVec
  simp only [Finset.mul_sum]
  rw [Finset.sum_comm]
  refine Finset.sum_eq_zero fun l _ => ?_
  rw [← zero_mul (x l), ← h1 l, Finset.sum_mul]
  exact Finset.sum_congr rfl fun i _ => by ring

/-- the error in a node consists of the errors of the sons and the local error -/
theorem pyth_node {t : CRef G} {k kt kb k' kt' kb' : Nat} {V E V' E' : VMat 𝕜} {n : Nat} {son son' : Fin n → CBV G 𝕜} (hn : 0 < n)
    (ho : CBVOk (.mk t k kt kb V E n son)) (ho' : CBVOk (.mk t k' kt' kb' V' E' n son')) (ht : ∀ i, (son' i).t = (son i).t) (hO : ∀ i, Orthonormal (son' i))
    {Vh Qh C : Nat → Nat → 𝕜} (hV : ∀ i, ∀ a < (son' i).k, ∀ l < k, Vh (ofs (fun i => (son' i).k) i + a) l = ∑ b ∈ Finset.range (son i).k, cross (son' i) (son i) a b * (son i).E.e b l)
    (hQ : ∀ i a l, (son' i).E.e a l = Qh (ofs (fun i => (son' i).k) i + a) l)
    (hC : ∀ a < k', ∀ l < k, C a l = cross (.mk t k' kt' kb' V' E' n son') (.mk t k kt kb V E n son) a l) (x : Nat → 𝕜) :
    vecSq t.cl.size (matVec k (dErr (.mk t k kt kb V E n son) (.mk t k' kt' kb' V' E' n son')) x) =
      ∑ i, vecSq (son i).t.cl.size (matVec (son i).k (dErr (son i) (son' i)) (matVec k (son i).E.e x)) +
        vecSq (∑ i, (son' i).k) (matVec k (fun i l => Vh i l - ∑ a ∈ Finset.range k', Qh i a * C a l) x) := by
  obtain ⟨L, hL⟩ : ∃ L : Nat → Nat → 𝕜, L = fun i l => Vh i l - ∑ a ∈ Finset.range k', Qh i a * C a l := ⟨_, rfl⟩
  rw [← hL]
  obtain ⟨cb, hcb⟩ : ∃ cb : CBV G 𝕜, cb = .mk t k kt kb V E n son := ⟨_, rfl⟩
  obtain ⟨cb', hcb'⟩ : ∃ cb' : CBV G 𝕜, cb' = .mk t k' kt' kb' V' E' n son' := ⟨_, rfl⟩
  have hct : cb.t = t := by rw [hcb]; rfl
  have hck' : cb'.k = k' := by rw [hcb']; rfl
  have hent : ∀ i, ∀ r, In (son i).t r → ∀ l < k, vbasis cb r l - ∑ a ∈ Finset.range k', vbasis cb' r a * cross cb' cb a l =
      ∑ b ∈ Finset.range (son i).k, (vbasis (son i) r b - ∑ a ∈ Finset.range (son' i).k, vbasis (son' i) r a * cross (son' i) (son i) a b) * (son i).E.e b l +
        ∑ a ∈ Finset.range (son' i).k, vbasis (son' i) r a * L (ofs (fun i => (son' i).k) i + a) l := by
    intro i r hr l hl
    rw [hcb, hcb', vbasis_son ho i hr, ← hcb, ← hcb']
    have h1 : ∀ a ∈ Finset.range k', vbasis cb' r a * cross cb' cb a l = ∑ b ∈ Finset.range (son' i).k, vbasis (son' i) r b * (Qh (ofs (fun i => (son' i).k) i + b) a * C a l) := by
      intro a ha
      rw [hcb', vbasis_son ho' i (by rw [ht]; exact hr), ← hcb', hcb', hcb, ← hC a (Finset.mem_range.mp ha) l hl, Finset.sum_mul]
      exact Finset.sum_congr rfl fun b _ => by rw [hQ, mul_assoc]
    rw [Finset.sum_congr rfl h1, Finset.sum_comm]
    simp only [hL, mul_sub, sub_mul, Finset.sum_sub_distrib]
    have h2 : ∑ a ∈ Finset.range (son' i).k, vbasis (son' i) r a * Vh (ofs (fun i => (son' i).k) i + a) l =
        ∑ b ∈ Finset.range (son i).k, (∑ a ∈ Finset.range (son' i).k, vbasis (son' i) r a * cross (son' i) (son i) a b) * (son i).E.e b l := by
      rw [Finset.sum_congr rfl fun a ha => by rw [hV i a (Finset.mem_range.mp ha) l hl, Finset.mul_sum], Finset.sum_comm]
      refine Finset.sum_congr rfl fun b _ => ?_
      rw [Finset.sum_mul]
      exact Finset.sum_congr rfl fun a _ => by ring
    rw [h2]
    simp only [Finset.mul_sum]
    ring
  -- the rows of the sons
  unfold vecSq
  have h1 : ∀ i ∈ Finset.range t.cl.size, ‖matVec k (dErr cb cb') x i‖ ^ 2 =
      (fun r => ‖∑ l ∈ Finset.range k, (vbasis cb r l - ∑ a ∈ Finset.range k', vbasis cb' r a * cross cb' cb a l) * x l‖ ^ 2) (t.cl.off + i) := by
    intro i _
    unfold matVec dErr projected
    rw [hct, hck']
  rw [← hcb, ← hcb', Finset.sum_congr rfl h1, sum_segments (ho.2.1 hn) (fun r => ‖∑ l ∈ Finset.range k, (vbasis cb r l - ∑ a ∈ Finset.range k', vbasis cb' r a * cross cb' cb a l) * x l‖ ^ 2), sum_concat (fun i => (son' i).k), ← Finset.sum_add_distrib]
  refine Finset.sum_congr rfl fun i _ => ?_
  have hU : OrthCols (son i).t.cl.size (son' i).k (fun r a => vbasis (son' i) ((son i).t.cl.off + r) a) := by
    intro a ha b hb
    have := (hO i).root a ha b hb
    unfold cross at this
    rw [ht] at this
    exact this
  have h2 := vecSq_pyth hU (u := matVec (son i).k (dErr (son i) (son' i)) (matVec k (son i).E.e x)) (fun a ha => dErr_orth (ht i) (hO i).root _ ha)
    (fun a => matVec k L x (ofs (fun i => (son' i).k) i + a))
  refine Eq.trans (Finset.sum_congr rfl fun r hr => ?_) h2
  beta_reduce
  congr 2
  have hr := Finset.mem_range.mp hr
  have hin : In (son i).t ((son i).t.cl.off + r) := In.add hr
  rw [Finset.sum_congr rfl fun l hl => by rw [hent i _ hin l (Finset.mem_range.mp hl), add_mul], Finset.sum_add_distrib]
  congr 1
  · unfold matVec dErr projected
    simp only [Finset.sum_mul, Finset.mul_sum]
    rw [Finset.sum_comm]
    exact Finset.sum_congr rfl fun b _ => Finset.sum_congr rfl fun l _ => by ring
  · unfold matVec
    simp only [Finset.sum_mul, Finset.mul_sum]
    rw [Finset.sum_comm]
    exact Finset.sum_congr rfl fun b _ => Finset.sum_congr rfl fun l _ => by ring

/-- the error of the local projection -/
theorem errLe_local {frob : Bool} {tm : Option CMode} {eps : ℝ} (hm : (∃ b zl za, tm = some ⟨⟨frob, true⟩, b, zl, za⟩) ∨ eps = 0) {m k p : Nat} {Vh Q C X Z : Nat → Nat → 𝕜} {kn : Nat}
    (hX : ∀ i < m, ∀ j < p, X i j = dz Vh k Z i j) (hC : ∀ b < kn, ∀ l < k, C b l = ∑ i ∈ Finset.range m, star (Q i b) * Vh i l)
    (hc : CloseTo (tm.map CMode.mode) eps m p X (fun i j => ∑ b ∈ Finset.range kn, Q i b * ∑ i' ∈ Finset.range m, star (Q i' b) * X i' j)) :
    ErrLe frob m p (dz (fun i l => Vh i l - ∑ a ∈ Finset.range kn, Q i a * C a l) k Z) (eps ^ 2) := by
  have key : ∀ i < m, ∀ j < p, dz (fun i l => Vh i l - ∑ a ∈ Finset.range kn, Q i a * C a l) k Z i j =
      X i j - ∑ b ∈ Finset.range kn, Q i b * ∑ i' ∈ Finset.range m, star (Q i' b) * X i' j := by
    intro i hi j hj
    have h1 : ∀ b ∈ Finset.range kn, Q i b * ∑ i' ∈ Finset.range m, star (Q i' b) * X i' j = ∑ l ∈ Finset.range k, Q i b * C b l * star (Z j l) := by
      intro b hb
      rw [Finset.sum_congr rfl fun i' hi' => by rw [hX i' (Finset.mem_range.mp hi') j hj]]
      unfold dz
      refine Eq.symm ?_
      rw [Finset.sum_congr rfl fun l hl => by rw [hC b (Finset.mem_range.mp hb) l (Finset.mem_range.mp hl)]]
      simp only [Finset.mul_sum, Finset.sum_mul]
      rw [Finset.sum_comm]
      exact Finset.sum_congr rfl fun l _ => Finset.sum_congr rfl fun i' _ => by ring
    rw [hX i hi j hj, Finset.sum_congr rfl h1, Finset.sum_comm]
    unfold dz
    rw [← Finset.sum_sub_distrib]
    exact Finset.sum_congr rfl fun l _ => by rw [sub_mul, Finset.sum_mul]
  refine errLe_congr key ?_
  rcases hm with ⟨b, zl, za, hm⟩ | hm
  · rw [hm] at hc
    unfold ErrLe
    cases frob
    · exact hc
    · exact hc
  · rw [hm] at hc ⊢
    refine errLe_congr (M := fun _ _ => 0) (fun i hi j hj => by rw [close_zero hc hi hj, sub_self]) ?_
    unfold ErrLe
    have hz : ∀ x : Nat → 𝕜, vecSq m (matVec p (fun _ _ => (0 : 𝕜)) x) = 0 := fun x => by unfold vecSq matVec; simp
    split
    · unfold frobSq vecSq; simp
    · intro x; rw [hz]; simp

end H2.TB
