import Verif.Proof.Interp2

/-! Normal derivatives of Lagrange polynomials, and consequences for interpolation. -/

set_option linter.unusedSectionVars false

namespace H2.Interp
open Spec Dense Finset
variable {K : Type} [Field K] [LinearOrder K] [DecidableEq K]

theorem basisAt_ok {p : Arr K} (hp : DistinctPts p.n p.v) {j : Nat} (hj : j < p.n) (x : K) : basisAt p j x = .ok (lagrPoly p.n p.v j x) := by
  unfold basisAt
  rw [Arr.get_ok hj, ok_bind]
  have hb : ∀ k < p.n, k ≠ j → ∀ d : K, (do
      let v ← p.get k
      if p.v j - v = 0 then throw .nan else pure (d * ((x - v) / (p.v j - v))) : R K) = .ok (d * ((x - p.v k) / (p.v j - p.v k))) := by
    intro k hk hkj d
    rw [Arr.get_ok hk, ok_bind, if_neg]
    · rfl
    · intro e
      exact hkj (hp j hj k hk (sub_eq_zero.mp e)).symm
  have h1 : Tot (forUp 0 j (fun l (d : K) => do
      let v ← p.get l
      if p.v j - v = 0 then throw .nan else pure (d * ((x - v) / (p.v j - v)))) 1) (fun d => d = ∏ l ∈ range j, (x - p.v l) / (p.v j - p.v l)) := by
    refine forUp_tot (fun k (d : K) => d = ∏ l ∈ range k, (x - p.v l) / (p.v j - p.v l)) (Nat.zero_le _) (by simp) ?_
    rintro k d _ hk rfl
    exact ⟨_, hb k (by omega) (by omega) _, by rw [prod_range_succ]⟩
  obtain ⟨d, e, rfl⟩ := h1
  dsimp only
  rw [e, ok_bind]
  have h2 : Tot (forUp (j + 1) p.n (fun l (d : K) => do
      let v ← p.get l
      if p.v j - v = 0 then throw .nan else pure (d * ((x - v) / (p.v j - v)))) (∏ l ∈ range j, (x - p.v l) / (p.v j - p.v l)))
      (fun d => d = (∏ l ∈ range j, (x - p.v l) / (p.v j - p.v l)) * ∏ l ∈ Ico (j + 1) p.n, (x - p.v l) / (p.v j - p.v l)) := by
    refine forUp_tot (fun k (d : K) => d = (∏ l ∈ range j, (x - p.v l) / (p.v j - p.v l)) * ∏ l ∈ Ico (j + 1) k, (x - p.v l) / (p.v j - p.v l))
      (by omega) (by simp) ?_
    rintro k d hk1 hk rfl
    exact ⟨_, hb k (by omega) (by omega) _, by rw [prod_Ico_succ_top hk1]; ring⟩
  obtain ⟨d, e, rfl⟩ := h2
  rw [e]
  unfold lagrPoly
  rw [erase_split hj, prod_disjUnion]

theorem logDeriv_ok {p : Arr K} {j : Nat} (hj : j < p.n) {x : K} (hx : ∀ l < p.n, x ≠ p.v l) (c : K) :
    logDeriv p j x c = .ok (∑ l ∈ (range p.n).erase j, c / (x - p.v l)) := by
  unfold logDeriv
  have hb : ∀ k < p.n, ∀ d : K, (do
      let v ← p.get k
      if x - v = 0 then throw .nan else pure (d + c / (x - v)) : R K) = .ok (d + c / (x - p.v k)) := by
    intro k hk d
    rw [Arr.get_ok hk, ok_bind, if_neg]
    · rfl
    · intro e
      exact hx k hk (sub_eq_zero.mp e)
  have h1 : Tot (forUp 0 j (fun l (d : K) => do
      let v ← p.get l
      if x - v = 0 then throw .nan else pure (d + c / (x - v))) 0) (fun d => d = ∑ l ∈ range j, c / (x - p.v l)) := by
    refine forUp_tot (fun k (d : K) => d = ∑ l ∈ range k, c / (x - p.v l)) (Nat.zero_le _) (by simp) ?_
    rintro k d _ hk rfl
    exact ⟨_, hb k (by omega) _, by rw [sum_range_succ]⟩
  obtain ⟨d, e, rfl⟩ := h1
  dsimp only
  rw [e, ok_bind]
  have h2 : Tot (forUp (j + 1) p.n (fun l (d : K) => do
      let v ← p.get l
      if x - v = 0 then throw .nan else pure (d + c / (x - v))) (∑ l ∈ range j, c / (x - p.v l)))
      (fun d => d = (∑ l ∈ range j, c / (x - p.v l)) + ∑ l ∈ Ico (j + 1) p.n, c / (x - p.v l)) := by
    refine forUp_tot (fun k (d : K) => d = (∑ l ∈ range j, c / (x - p.v l)) + ∑ l ∈ Ico (j + 1) k, c / (x - p.v l))
      (by omega) (by simp) ?_
    rintro k d hk1 hk rfl
    exact ⟨_, hb k (by omega) _, by rw [sum_Ico_succ_top hk1]; ring⟩
  obtain ⟨d, e, rfl⟩ := h2
  rw [e, erase_split hj, sum_disjUnion]

theorem lagrDeriv_log {n : Nat} {p : Nat → K} (j : Nat) {x : K} (hx : ∀ l < n, x ≠ p l) :
    ∑ l ∈ (range n).erase j, lagrPoly n p j x / (x - p l) = lagrDeriv n p j x := by
  unfold lagrDeriv
  refine sum_congr rfl fun k hk => ?_
  unfold lagrPoly
  rw [← mul_prod_erase _ _ hk]
  have : x - p k ≠ 0 := sub_ne_zero.mpr (hx k (by simp at hk; exact hk.2))
  field_simp

/-- the sum of derivatives is the derivative of the polynomial -/
theorem lagrDeriv_eval (n : Nat) (p : Nat → K) (j : Nat) (x : K) :
    Polynomial.eval x (Polynomial.derivative (Lagrange.basis (range n) p j)) = lagrDeriv n p j x := by
  unfold Lagrange.basis lagrDeriv
  rw [Polynomial.derivative_prod_finset, Polynomial.eval_finset_sum]
  refine sum_congr rfl fun k hk => ?_
  rw [Polynomial.eval_mul, Polynomial.eval_prod, mul_comm]
  congr 1
  · simp [Lagrange.basisDivisor]
  · refine prod_congr rfl fun l _ => ?_
    simp [Lagrange.basisDivisor, div_eq_mul_inv, mul_comm]

/-- the entry of the matrix of normal derivatives for row `t` and the Lagrange polynomials `jx`, `jy` -/
theorem dnSum_ok {gr : Geo K} {idx : Option (Arr Nat)} {px py : Arr K} {rows t jx jy : Nat} (hg : GeoOk gr idx rows) (ht : t < rows)
    (hx : DistinctPts px.n px.v) (hy : DistinctPts py.n py.v) (hn : NoHit gr idx rows px py) (hjx : jx < px.n) (hjy : jy < py.n) (a b nt : K × K)
    (ha : a = gr.x.v (gr.e.v (edgeOf idx t)).1) (hb : b = gr.x.v (gr.e.v (edgeOf idx t)).2) :
    forUp 0 gr.nq (fun q (sum : K) => do
        let tx ← gr.xx.get q
        let x := a.1 * (1 - tx) + b.1 * tx
        let y := a.2 * (1 - tx) + b.2 * tx
        let lagrx ← basisAt px jx x
        let lagry ← basisAt py jy y
        let l0 ← logDeriv px jx x lagrx
        let l1 ← logDeriv py jy y lagry
        let w ← gr.ww.get q
        pure (sum + w * (nt.1 * (l0 * lagry) + nt.2 * (l1 * lagrx)))) 0 =
      (.ok (∑ q ∈ range gr.nq, gr.ww.v q * (nt.1 * (lagrDeriv px.n px.v jx (quadPt gr (edgeOf idx t) q).1 * lagrPoly py.n py.v jy (quadPt gr (edgeOf idx t) q).2) +
        nt.2 * (lagrDeriv py.n py.v jy (quadPt gr (edgeOf idx t) q).2 * lagrPoly px.n px.v jx (quadPt gr (edgeOf idx t) q).1))) : R K) := by
  subst ha hb
  refine sumLoop ?_
  intro q hq s
  rw [Arr.get_ok (by have := hg.xx; omega), ok_bind]
  dsimp only
  have hq1 := (hn t ht q hq).1
  have hq2 := (hn t ht q hq).2
  unfold quadPt at *
  dsimp only at hq1 hq2 ⊢
  rw [basisAt_ok hx hjx, ok_bind, basisAt_ok hy hjy, ok_bind, logDeriv_ok hjx hq1, ok_bind, logDeriv_ok hjy hq2, ok_bind, Arr.get_ok (by have := hg.ww; omega), ok_bind,
    lagrDeriv_log _ hq1, lagrDeriv_log _ hq2]
  rfl

theorem dnLagrangeConst_tot {gr : Geo K} {idx : Option (Arr Nat)} {px py : Arr K} {V : Mat} {m : Mem K} (hg : GeoOk gr idx V.rows)
    (hx : DistinctPts px.n px.v) (hy : DistinctPts py.n py.v) (hn : NoHit gr idx V.rows px py) (hv : V.Valid m) (hc : V.cols = px.n * py.n) :
    Tot (dnLagrangeConst gr idx px py V m) (MatBecomes V m (fun t c => -(
      gr.g.v (edgeOf idx t) * ∑ q ∈ range gr.nq, gr.ww.v q *
        ((gr.n.v (edgeOf idx t)).1 * (lagrDeriv px.n px.v (c / py.n) (quadPt gr (edgeOf idx t) q).1 * lagrPoly py.n py.v (c % py.n) (quadPt gr (edgeOf idx t) q).2) +
        (gr.n.v (edgeOf idx t)).2 * (lagrDeriv py.n py.v (c % py.n) (quadPt gr (edgeOf idx t) q).2 * lagrPoly px.n px.v (c / py.n) (quadPt gr (edgeOf idx t) q).1))))) := by
  unfold dnLagrangeConst
  rw [cassert_true (by simp [hc]), ok_bind]
  set E : Nat → Nat → Nat → K := fun t jx jy => -(gr.g.v (edgeOf idx t) * ∑ q ∈ range gr.nq, gr.ww.v q *
        ((gr.n.v (edgeOf idx t)).1 * (lagrDeriv px.n px.v jx (quadPt gr (edgeOf idx t) q).1 * lagrPoly py.n py.v jy (quadPt gr (edgeOf idx t) q).2) +
        (gr.n.v (edgeOf idx t)).2 * (lagrDeriv py.n py.v jy (quadPt gr (edgeOf idx t) q).2 * lagrPoly px.n px.v jx (quadPt gr (edgeOf idx t) q).1))) with hE
  refine (forUp_tot (fun k (s : Mem K) => MatBecomes V m (fun t c => if t < k then E t (c / py.n) (c % py.n) else V.val m t c) s) (Nat.zero_le _) ?_ ?_).mono ?_
  · simp only [Nat.not_lt_zero, if_false]
    exact ⟨hv, fun _ _ _ _ => rfl, fun _ _ => rfl⟩
  · intro t s _ ht hs
    rw [index_ok hg ht, ok_bind, Arr.get_ok (hg.g t ht), ok_bind, Arr.get_ok (hg.n t ht), ok_bind, ends_ok hg ht, ok_bind]
    dsimp only
    refine Tot.bind (P := fun (st : Mem K × Nat) => MatBecomes V m (fun i c => if i < t + 1 then E i (c / py.n) (c % py.n) else V.val m i c) st.1) ?_ ?_
    · refine (forUp_tot (fun jx (st : Mem K × Nat) => st.2 = jx * py.n ∧ MatBecomes V m
        (fun i c => if i < t ∨ (i = t ∧ c < jx * py.n) then E i (c / py.n) (c % py.n) else V.val m i c) st.1) (Nat.zero_le _) ⟨by simp, by simpa using hs⟩ ?_).mono ?_
      · rintro jx ⟨m1, ix⟩ _ hjx ⟨e, h1⟩
        refine (forUp_tot (fun jy (st : Mem K × Nat) => st.2 = jx * py.n + jy ∧ MatBecomes V m
          (fun i c => if i < t ∨ (i = t ∧ c < jx * py.n + jy) then E i (c / py.n) (c % py.n) else V.val m i c) st.1) (Nat.zero_le _) ⟨e, h1⟩ ?_).mono ?_
        · rintro jy ⟨m2, ix⟩ _ hjy ⟨e, h2⟩
          replace e : ix = jx * py.n + jy := e
          subst e
          rw [dnSum_ok hg ht hx hy hn hjx hjy _ _ (gr.n.v (edgeOf idx t)) rfl rfl, ok_bind]
          have hcol : jx * py.n + jy < V.cols := by
            rw [hc]
            calc jx * py.n + jy < jx * py.n + py.n := by omega
              _ = (jx + 1) * py.n := by ring
              _ ≤ px.n * py.n := Nat.mul_le_mul_right _ hjx
          refine Tot.bind (HMat.write_entry h2 ht hcol _) ?_
          rintro m3 - h3
          refine Tot.pure ⟨rfl, mb_congr h3 fun i hi c hcc => ?_⟩
          beta_reduce
          by_cases e : i = t ∧ c = jx * py.n + jy
          · rw [if_pos e, if_pos (by omega), e.1, e.2, Nat.mul_comm jx py.n, Nat.mul_add_div (by omega), Nat.mul_add_mod, Nat.div_eq_of_lt hjy,
              Nat.mod_eq_of_lt hjy, add_zero]
            simp only [hE]
            ring
          · rw [if_neg e]
            have : (i < t ∨ (i = t ∧ c < jx * py.n + jy)) ↔ (i < t ∨ (i = t ∧ c < jx * py.n + (jy + 1))) := by omega
            simp only [this]
        · rintro ⟨m3, ix⟩ ⟨e3, h3⟩
          have : jx * py.n + py.n = (jx + 1) * py.n := by ring
          rw [this] at e3 h3
          exact ⟨e3, h3⟩
      · rintro ⟨m3, ix⟩ ⟨_, h3⟩
        refine mb_congr h3 fun i hi c hcc => ?_
        beta_reduce
        have : (i < t ∨ (i = t ∧ c < px.n * py.n)) ↔ i < t + 1 := by rw [← hc]; omega
        simp only [this]
    · rintro ⟨m3, ix⟩ - h3
      exact Tot.pure h3
  · intro s hs
    exact mb_congr hs fun i hi c _ => by beta_reduce; rw [if_pos hi]

end H2.Interp
