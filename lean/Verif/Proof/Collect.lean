import Verif.Spec.Collect
import Verif.Proof.Project2
import Verif.Proof.Ortho5

/-! Projection of dense matrices. -/

set_option linter.unusedSectionVars false

namespace H2
open Spec
variable {G 𝕜 : Type} [RCLike 𝕜]

theorem gather_tot {ridx cidx : Arr Nat} {a : VMat 𝕜} {row col : CRef G} {f : VMat 𝕜} (hr : IdxOk ridx row a.rows) (hc : IdxOk cidx col a.cols)
    (h1 : f.rows = row.cl.size) (h2 : f.cols = col.cl.size) :
    Tot (gather ridx cidx a row col f) fun f' => f'.rows = row.cl.size ∧ f'.cols = col.cl.size ∧
      ∀ i < row.cl.size, ∀ j < col.cl.size, f'.e i j = a.e (ridx.v (row.cl.off + i)) (cidx.v (col.cl.off + j)) := by
  unfold gather
  refine Tot.mono (forUp_inv (fun q (f' : VMat 𝕜) => f'.rows = row.cl.size ∧ f'.cols = col.cl.size ∧
      ∀ i < row.cl.size, ∀ j < q, f'.e i j = a.e (ridx.v (row.cl.off + i)) (cidx.v (col.cl.off + j))) (Nat.zero_le _)
    ⟨h1, h2, fun _ _ j hj => absurd hj (Nat.not_lt_zero _)⟩ ?_) fun f' h => h
  rintro q g - hq ⟨g1, g2, g3⟩
  have h := forUp_inv (lo := 0) (hi := row.cl.size) (s := g) (body := fun i (f : VMat 𝕜) => do
    let r ← ridx.get (row.cl.off + i)
    let c ← cidx.get (col.cl.off + q)
    if r < a.rows ∧ c < a.cols ∧ i < f.rows ∧ q < f.cols then pure ⟨f.rows, f.cols, fun i' j' => if i' = i ∧ j' = q then a.e r c else f.e i' j'⟩
    else .error .ub) (fun p (f' : VMat 𝕜) => f'.rows = row.cl.size ∧ f'.cols = col.cl.size ∧
      (∀ i < row.cl.size, ∀ j < q, f'.e i j = a.e (ridx.v (row.cl.off + i)) (cidx.v (col.cl.off + j))) ∧
      ∀ i < p, f'.e i q = a.e (ridx.v (row.cl.off + i)) (cidx.v (col.cl.off + q))) (Nat.zero_le _) ⟨g1, g2, g3, fun _ h => absurd h (Nat.not_lt_zero _)⟩ ?_
  · obtain ⟨s', e, s1, s2, s3, s4⟩ := h
    refine ⟨s', e, s1, s2, fun i hi j hj => ?_⟩
    rcases Nat.lt_succ_iff_lt_or_eq.mp hj with hj | rfl
    · exact s3 i hi j hj
    · exact s4 i hi
  · rintro p f' - hp ⟨f1, f2, f3, f4⟩
    have e1 : ridx.get (row.cl.off + p) = .ok (ridx.v (row.cl.off + p)) := if_pos (by have := hr.1; omega)
    have e2 : cidx.get (col.cl.off + q) = .ok (cidx.v (col.cl.off + q)) := if_pos (by have := hc.1; omega)
    refine ⟨⟨f'.rows, f'.cols, fun i' j' => if i' = p ∧ j' = q then a.e (ridx.v (row.cl.off + p)) (cidx.v (col.cl.off + q)) else f'.e i' j'⟩, ?_, f1, f2, ?_, ?_⟩
    · rw [e1, ok_bind, e2, ok_bind, if_pos ⟨hr.2 _ (In.add hp), hc.2 _ (In.add hq), by omega, by omega⟩]
      rfl
    · intro i hi j hj
      show (if i = p ∧ j = q then _ else _) = _
      rw [if_neg (by omega)]
      exact f3 i hi j hj
    · intro i hi
      show (if i = p ∧ q = q then _ else _) = _
      by_cases h : i = p
      · subst h; rw [if_pos ⟨rfl, rfl⟩]
      · rw [if_neg (fun h' => h h'.1)]
        exact f4 i (by omega)

/-- product with `V_t^*` -/
def lsum (rb : CBV G 𝕜) (a : Nat) (F : Nat → 𝕜) : 𝕜 := ∑ i ∈ Finset.range rb.t.cl.size, star (vbasis rb (rb.t.cl.off + i) a) * F (rb.t.cl.off + i)
/-- product with `W_s` -/
def rsum (cb : CBV G 𝕜) (b : Nat) (F : Nat → 𝕜) : 𝕜 := ∑ j ∈ Finset.range cb.t.cl.size, F (cb.t.cl.off + j) * vbasis cb (cb.t.cl.off + j) b

theorem coupling_eq (rb cb : CBV G 𝕜) (A : Nat → Nat → 𝕜) (a b : Nat) : coupling rb cb A a b = lsum rb a fun r => rsum cb b (A r) := by
  unfold coupling lsum rsum
  refine Finset.sum_congr rfl fun i _ => ?_
  rw [Finset.mul_sum]
  exact Finset.sum_congr rfl fun j _ => by ring

theorem lsum_sum {ι : Type} (rb : CBV G 𝕜) (a : Nat) (s : Finset ι) (F : ι → Nat → 𝕜) : lsum rb a (fun r => ∑ x ∈ s, F x r) = ∑ x ∈ s, lsum rb a (F x) := by
  unfold lsum
  rw [Finset.sum_comm]
  exact Finset.sum_congr rfl fun i _ => by rw [Finset.mul_sum]
theorem lsum_mul (rb : CBV G 𝕜) (a : Nat) (F : Nat → 𝕜) (c : 𝕜) : lsum rb a (fun r => F r * c) = lsum rb a F * c := by
  unfold lsum
  rw [Finset.sum_mul]
  exact Finset.sum_congr rfl fun i _ => by ring

theorem lsum_leaf {t : CRef G} {k kt kb : Nat} {V E : VMat 𝕜} {n : Nat} {son : Fin n → CBV G 𝕜} (hn : n = 0) (a : Nat) (F : Nat → 𝕜) :
    lsum (.mk t k kt kb V E n son) a F = ∑ i ∈ Finset.range t.cl.size, star (V.e i a) * F (t.cl.off + i) := by
  subst hn
  unfold lsum
  refine Finset.sum_congr rfl fun i hi => ?_
  show star (vbasis (.mk t k kt kb V E 0 son) (t.cl.off + i) a) * _ = _
  rw [vbasis_leaf, if_pos (In.add (Finset.mem_range.mp hi)), Nat.add_sub_cancel_left]
  rfl
theorem rsum_leaf {t : CRef G} {k kt kb : Nat} {V E : VMat 𝕜} {n : Nat} {son : Fin n → CBV G 𝕜} (hn : n = 0) (a : Nat) (F : Nat → 𝕜) :
    rsum (.mk t k kt kb V E n son) a F = ∑ i ∈ Finset.range t.cl.size, F (t.cl.off + i) * V.e i a := by
  subst hn
  unfold rsum
  refine Finset.sum_congr rfl fun i hi => ?_
  show _ * vbasis (.mk t k kt kb V E 0 son) (t.cl.off + i) a = _
  rw [vbasis_leaf, if_pos (In.add (Finset.mem_range.mp hi)), Nat.add_sub_cancel_left]
  rfl

theorem lsum_node {t : CRef G} {k kt kb : Nat} {V E : VMat 𝕜} {n : Nat} {son : Fin n → CBV G 𝕜} (hn : 0 < n) (ho : CBVOk (.mk t k kt kb V E n son)) (a : Nat) (F : Nat → 𝕜) :
    lsum (.mk t k kt kb V E n son) a F = ∑ i, ∑ nu ∈ Finset.range (son i).k, star ((son i).E.e nu a) * lsum (son i) nu F := by
  have h1 : lsum (.mk t k kt kb V E n son) a F = ∑ i ∈ Finset.range t.cl.size, (fun r => star (vbasis (.mk t k kt kb V E n son) r a) * F r) (t.cl.off + i) := rfl
  rw [h1, sum_segments (ho.2.1 hn) (fun r => star (vbasis (.mk t k kt kb V E n son) r a) * F r)]
  refine Finset.sum_congr rfl fun i _ => ?_
  unfold lsum
  simp only [Finset.mul_sum]
  rw [Finset.sum_comm]
  refine Finset.sum_congr rfl fun r hr => ?_
  rw [vbasis_son ho i (In.add (Finset.mem_range.mp hr)) a, star_sum, Finset.sum_mul]
  exact Finset.sum_congr rfl fun nu _ => by rw [star_mul']; ring
theorem rsum_node {t : CRef G} {k kt kb : Nat} {V E : VMat 𝕜} {n : Nat} {son : Fin n → CBV G 𝕜} (hn : 0 < n) (ho : CBVOk (.mk t k kt kb V E n son)) (a : Nat) (F : Nat → 𝕜) :
    rsum (.mk t k kt kb V E n son) a F = ∑ i, ∑ nu ∈ Finset.range (son i).k, rsum (son i) nu F * (son i).E.e nu a := by
  have h1 : rsum (.mk t k kt kb V E n son) a F = ∑ i ∈ Finset.range t.cl.size, (fun r => F r * vbasis (.mk t k kt kb V E n son) r a) (t.cl.off + i) := rfl
  rw [h1, sum_segments (ho.2.1 hn) (fun r => F r * vbasis (.mk t k kt kb V E n son) r a)]
  refine Finset.sum_congr rfl fun i _ => ?_
  unfold rsum
  simp only [Finset.sum_mul]
  rw [Finset.sum_comm]
  refine Finset.sum_congr rfl fun r hr => ?_
  rw [vbasis_son ho i (In.add (Finset.mem_range.mp hr)) a, Finset.mul_sum]
  exact Finset.sum_congr rfl fun nu _ => by ring

/-- accumulating contributions in a loop -/
theorem accumFin {n : Nat} {rows cols : Nat} {step : Fin n → VMat 𝕜 → R (VMat 𝕜)} {F : Fin n → Nat → Nat → 𝕜}
    (hs : ∀ i (s : VMat 𝕜), s.rows = rows → s.cols = cols → Tot (step i s) fun s' => s'.rows = rows ∧ s'.cols = cols ∧ ∀ a < rows, ∀ b < cols, s'.e a b = s.e a b + F i a b) :
    Tot (foldFinM n step (VMat.zero rows cols)) fun s => s.rows = rows ∧ s.cols = cols ∧ ∀ a < rows, ∀ b < cols, s.e a b = ∑ i, F i a b := by
  refine Tot.mono (foldFinM_tot (fun q (s : VMat 𝕜) => s.rows = rows ∧ s.cols = cols ∧ ∀ a < rows, ∀ b < cols, s.e a b = ∑ i : Fin n, if i.1 < q then F i a b else 0) ?_ ?_) ?_
  · exact ⟨rfl, rfl, fun a _ b _ => by simp [VMat.zero]⟩
  · rintro i s ⟨s1, s2, s3⟩
    refine Tot.mono (hs i s s1 s2) ?_
    rintro s' ⟨h1, h2, h3⟩
    refine ⟨h1, h2, fun a ha b hb => ?_⟩
    rw [h3 a ha b hb, s3 a ha b hb]
    exact (pre_succ (fun i => F i a b) i).symm
  · rintro s ⟨s1, s2, s3⟩
    refine ⟨s1, s2, fun a ha b hb => ?_⟩
    rw [s3 a ha b hb]
    exact Finset.sum_congr rfl fun i _ => if_pos i.2

theorem collectCol_tot {ridx cidx : Arr Nat} {junk : Nat → 𝕜} {a : VMat 𝕜} {t : CRef G} {k kt kb : Nat} {V E : VMat 𝕜} {n : Nat} {son : Fin n → CBV G 𝕜}
    {rec : Fin n → CBV G 𝕜 → VMat 𝕜 → R (VMat 𝕜)} (ho : CBVOk (.mk t k kt kb V E n son)) (hr : IdxOk ridx t a.rows)
    (hrec : ∀ i (cb : CBV G 𝕜), CBVOk cb → IdxOk cidx cb.t a.cols → ∀ s : VMat 𝕜, s.rows = (son i).k → s.cols = cb.k →
      Tot (rec i cb s) fun s' => s'.rows = (son i).k ∧ s'.cols = cb.k ∧ ∀ x < (son i).k, ∀ y < cb.k, s'.e x y = lsum (son i) x fun r => rsum cb y fun c => a.e (ridx.v r) (cidx.v c)) :
    ∀ cb : CBV G 𝕜, CBVOk cb → IdxOk cidx cb.t a.cols → ∀ s : VMat 𝕜, s.rows = k → s.cols = cb.k →
      Tot (collectCol ridx cidx junk a t k V son rec cb s) fun s' => s'.rows = k ∧ s'.cols = cb.k ∧
        ∀ x < k, ∀ y < cb.k, s'.e x y = lsum (.mk t k kt kb V E n son) x fun r => rsum cb y fun c => a.e (ridx.v r) (cidx.v c) := by
  intro cb
  induction cb with
  | mk t' k' kt' kb' V' E' n' son' ih =>
    intro ho' hc s hs1 hs2
    replace hs2 : s.cols = k' := hs2
    show Tot _ fun (s' : VMat 𝕜) => s'.rows = k ∧ s'.cols = k' ∧ ∀ x < k, ∀ y < k', _
    unfold collectCol
    refine Tot.cassert (by simpa using hs1) (Tot.cassert (by simpa using hs2) ?_)
    rw [hs1, hs2]
    have hE : ∀ i, (son i).E.rows = (son i).k ∧ (son i).E.cols = k ∧ CBVOk (son i) := ho.2.2
    have hE' : ∀ i, (son' i).E.rows = (son' i).k ∧ (son' i).E.cols = k' ∧ CBVOk (son' i) := ho'.2.2
    have hcs : ∀ i, IdxOk cidx (son' i).t a.cols := fun i => CBas.IdxOk.son hc (ho'.2.1 (by have := i.2; omega)) i
    by_cases hn : 0 < n
    · rw [if_pos hn]
      by_cases hn' : 0 < n'
      · rw [if_pos hn']
        refine Tot.mono (accumFin (F := fun j x y => ∑ mu ∈ Finset.range (son' j).k, (∑ i, ∑ nu ∈ Finset.range (son i).k, star ((son i).E.e nu x) * lsum (son i) nu fun r => rsum (son' j) mu fun c => a.e (ridx.v r) (cidx.v c)) * (son' j).E.e mu y) fun j s g1 g2 => ?_) ?_
        · refine Tot.bind (accumFin (F := fun i x mu => ∑ nu ∈ Finset.range (son i).k, star ((son i).E.e nu x) * lsum (son i) nu fun r => rsum (son' j) mu fun c => a.e (ridx.v r) (cidx.v c)) fun i s1 g1 g2 => ?_) ?_
          · refine Tot.bind (hrec i (son' j) (hE' j).2.2 (hcs j) _ rfl rfl) ?_
            rintro s2 - ⟨e1, e2, e3⟩
            refine Tot.mono (HV.addmul_tot (alpha := 1) (c := s1) (show VMat.ocols true (son i).E = VMat.orows false s2 by simp [VMat.ocols, VMat.orows, e1, (hE i).1])
              (show s1.rows = VMat.orows true (son i).E by simp [VMat.orows, g1, (hE i).2.1]) (show s1.cols = VMat.ocols false s2 by simp [VMat.ocols, g2, e2])) ?_
            rintro Y ⟨y1, y2, y3⟩
            refine ⟨y1.trans g1, y2.trans g2, fun x hx mu hmu => ?_⟩
            rw [y3 x (by omega) mu (by omega), one_mul]
            simp only [VMat.ocols, VMat.oe, if_true, Bool.false_eq_true, if_false]
            rw [(hE i).1]
            congr 1
            exact Finset.sum_congr rfl fun nu hnu => by rw [e3 nu (Finset.mem_range.mp hnu) mu hmu]
          · rintro s1 - ⟨e1, e2, e3⟩
            refine Tot.mono (HV.addmul_tot (alpha := 1) (c := s) (show VMat.ocols false s1 = VMat.orows false (son' j).E by simp [VMat.ocols, VMat.orows, e2, (hE' j).1])
              (show s.rows = VMat.orows false s1 by simp [VMat.orows, g1, e1]) (show s.cols = VMat.ocols false (son' j).E by simp [VMat.ocols, g2, (hE' j).2.1])) ?_
            rintro Y ⟨y1, y2, y3⟩
            refine ⟨y1.trans g1, y2.trans g2, fun x hx y hy => ?_⟩
            rw [y3 x (by omega) y (by omega), one_mul]
            simp only [VMat.ocols, VMat.oe, Bool.false_eq_true, if_false]
            rw [e2]
            congr 1
            exact Finset.sum_congr rfl fun mu hmu => by rw [e3 x hx mu (Finset.mem_range.mp hmu)]
        · rintro S ⟨z1, z2, z3⟩
          refine ⟨z1, z2, fun x hx y hy => ?_⟩
          rw [z3 x hx y hy, lsum_node hn ho]
          have h3 : ∀ i nu, (lsum (son i) nu fun r => rsum (.mk t' k' kt' kb' V' E' n' son') y fun c => a.e (ridx.v r) (cidx.v c)) =
              ∑ j, ∑ mu ∈ Finset.range (son' j).k, (lsum (son i) nu fun r => rsum (son' j) mu fun c => a.e (ridx.v r) (cidx.v c)) * (son' j).E.e mu y := by
            intro i nu
            simp only [rsum_node hn' ho', lsum_sum, lsum_mul]
          simp only [h3, Finset.sum_mul, Finset.mul_sum]
          have h4 : ∀ j, (∑ mu ∈ Finset.range (son' j).k, ∑ i, ∑ nu ∈ Finset.range (son i).k, (star ((son i).E.e nu x) * lsum (son i) nu fun r => rsum (son' j) mu fun c => a.e (ridx.v r) (cidx.v c)) * (son' j).E.e mu y) =
              ∑ i, ∑ nu ∈ Finset.range (son i).k, ∑ mu ∈ Finset.range (son' j).k, star ((son i).E.e nu x) * ((lsum (son i) nu fun r => rsum (son' j) mu fun c => a.e (ridx.v r) (cidx.v c)) * (son' j).E.e mu y) := by
            intro j
            rw [Finset.sum_comm]
            refine Finset.sum_congr rfl fun i _ => ?_
            rw [Finset.sum_comm]
            exact Finset.sum_congr rfl fun nu _ => Finset.sum_congr rfl fun mu _ => mul_assoc _ _ _
          rw [Finset.sum_congr rfl fun j _ => h4 j, Finset.sum_comm]
          refine Finset.sum_congr rfl fun i _ => ?_
          rw [Finset.sum_comm]
      · rw [if_neg hn']
        refine Tot.mono (accumFin (F := fun i x y => ∑ nu ∈ Finset.range (son i).k, star ((son i).E.e nu x) * lsum (son i) nu fun r => rsum (.mk t' k' kt' kb' V' E' n' son') y fun c => a.e (ridx.v r) (cidx.v c)) fun i s1 g1 g2 => ?_) ?_
        · refine Tot.bind (hrec i _ ho' hc _ rfl rfl) ?_
          rintro s2 - ⟨e1, e2, e3⟩
          replace e2 : s2.cols = k' := e2
          refine Tot.mono (HV.addmul_tot (alpha := 1) (c := s1) (show VMat.ocols true (son i).E = VMat.orows false s2 by simp [VMat.ocols, VMat.orows, e1, (hE i).1])
            (show s1.rows = VMat.orows true (son i).E by simp [VMat.orows, g1, (hE i).2.1]) (show s1.cols = VMat.ocols false s2 by simp [VMat.ocols, g2, e2])) ?_
          rintro Y ⟨y1, y2, y3⟩
          refine ⟨y1.trans g1, y2.trans g2, fun x hx mu hmu => ?_⟩
          rw [y3 x (by omega) mu (by omega), one_mul]
          simp only [VMat.ocols, VMat.oe, if_true, Bool.false_eq_true, if_false]
          rw [(hE i).1]
          congr 1
          exact Finset.sum_congr rfl fun nu hnu => by rw [e3 nu (Finset.mem_range.mp hnu) mu hmu]
        · rintro S ⟨z1, z2, z3⟩
          refine ⟨z1, z2, fun x hx y hy => ?_⟩
          rw [z3 x hx y hy, lsum_node hn ho]
    · rw [if_neg hn]
      by_cases hn' : 0 < n'
      · rw [if_pos hn']
        refine Tot.mono (accumFin (F := fun j x y => ∑ mu ∈ Finset.range (son' j).k, (lsum (.mk t k kt kb V E n son) x fun r => rsum (son' j) mu fun c => a.e (ridx.v r) (cidx.v c)) * (son' j).E.e mu y) fun j s g1 g2 => ?_) ?_
        · refine Tot.bind (ih j (hE' j).2.2 (hcs j) _ rfl rfl) ?_
          rintro s1 - ⟨e1, e2, e3⟩
          refine Tot.mono (HV.addmul_tot (alpha := 1) (c := s) (show VMat.ocols false s1 = VMat.orows false (son' j).E by simp [VMat.ocols, VMat.orows, e2, (hE' j).1])
            (show s.rows = VMat.orows false s1 by simp [VMat.orows, g1, e1]) (show s.cols = VMat.ocols false (son' j).E by simp [VMat.ocols, g2, (hE' j).2.1])) ?_
          rintro Y ⟨y1, y2, y3⟩
          refine ⟨y1.trans g1, y2.trans g2, fun x hx y hy => ?_⟩
          rw [y3 x (by omega) y (by omega), one_mul]
          simp only [VMat.ocols, VMat.oe, Bool.false_eq_true, if_false]
          rw [e2]
          congr 1
          exact Finset.sum_congr rfl fun mu hmu => by rw [e3 x hx mu (Finset.mem_range.mp hmu)]
        · rintro S ⟨z1, z2, z3⟩
          refine ⟨z1, z2, fun x hx y hy => ?_⟩
          rw [z3 x hx y hy]
          simp only [rsum_node hn' ho', lsum_sum, lsum_mul]
      · rw [if_neg hn']
        have hV := ho.1 (by omega)
        have hV' := ho'.1 (by omega)
        refine Tot.bind (gather_tot hr hc rfl rfl) ?_
        rintro s2 - ⟨e1, e2, e3⟩
        replace e2 : s2.cols = t'.cl.size := e2
        refine Tot.bind (HV.addmul_tot (alpha := 1) (c := VMat.zero k t'.cl.size) (show VMat.ocols true V = VMat.orows false s2 by simp [VMat.ocols, VMat.orows, e1, hV.1])
          (show k = VMat.orows true V by simp [VMat.orows, hV.2]) (show t'.cl.size = VMat.ocols false s2 by simp [VMat.ocols, e2])) ?_
        rintro s1 - ⟨f1, f2, f3⟩
        replace f1 : s1.rows = k := f1
        replace f2 : s1.cols = t'.cl.size := f2
        replace f3 : ∀ x < k, ∀ j < t'.cl.size, s1.e x j = _ := f3
        refine Tot.mono (HV.addmul_tot (alpha := 1) (c := VMat.zero k k') (show VMat.ocols false s1 = VMat.orows false V' by simp [VMat.ocols, VMat.orows, f2, hV'.1])
          (show k = VMat.orows false s1 by simp [VMat.orows, f1]) (show k' = VMat.ocols false V' by simp [VMat.ocols, hV'.2])) ?_
        rintro Y ⟨y1, y2, y3⟩
        refine ⟨y1, y2, fun x hx y hy => ?_⟩
        rw [y3 x hx y hy, lsum_leaf (by omega)]
        simp only [VMat.zero, VMat.ocols, VMat.oe, Bool.false_eq_true, if_false, one_mul, zero_add, rsum_leaf (show n' = 0 by omega)]
        rw [f2]
        simp only [Finset.mul_sum]
        rw [Finset.sum_comm]
        refine Finset.sum_congr rfl fun j hj => ?_
        rw [f3 x hx j (Finset.mem_range.mp hj)]
        simp only [VMat.zero, VMat.ocols, VMat.oe, Bool.false_eq_true, if_false, if_true, one_mul, zero_add, Finset.sum_mul]
        rw [hV.1]
        refine Finset.sum_congr rfl fun i hi => ?_
        rw [e3 i (Finset.mem_range.mp hi) j (Finset.mem_range.mp hj)]
        exact mul_assoc _ _ _

theorem collectDense_tot {ridx cidx : Arr Nat} {junk : Nat → 𝕜} {a : VMat 𝕜} : ∀ {rb : CBV G 𝕜}, CBVOk rb → IdxOk ridx rb.t a.rows → ∀ {cb : CBV G 𝕜}, CBVOk cb → IdxOk cidx cb.t a.cols →
    ∀ {s : VMat 𝕜}, s.rows = rb.k → s.cols = cb.k → Tot (collectDense ridx cidx junk a rb cb s) fun s' => s'.rows = rb.k ∧ s'.cols = cb.k ∧
      ∀ x < rb.k, ∀ y < cb.k, s'.e x y = coupling rb cb (fun r c => a.e (ridx.v r) (cidx.v c)) x y := by
  intro rb
  induction rb with
  | mk t k kt kb V E n son ih =>
    intro ho hr cb ho' hc s h1 h2
    have := collectCol_tot (kt := kt) (kb := kb) (E := E) (junk := junk) (rec := fun i => collectDense ridx cidx junk a (son i)) ho hr (fun i cb g1 g2 s g3 g4 => by
      have hi := i.2
      refine Tot.mono (ih i (ho.2.2 i).2.2 (CBas.IdxOk.son hr (ho.2.1 (by omega)) i) g1 g2 g3 g4) ?_
      rintro s' ⟨q1, q2, q3⟩
      exact ⟨q1, q2, fun x hx y hy => by rw [q3 x hx y hy, coupling_eq]⟩) cb ho' hc s h1 h2
    refine Tot.mono this ?_
    rintro s' ⟨q1, q2, q3⟩
    exact ⟨q1, q2, fun x hx y hy => by rw [q3 x hx y hy, coupling_eq]⟩

end H2
