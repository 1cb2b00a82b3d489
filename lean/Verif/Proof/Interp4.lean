import Verif.Proof.Interp3

/-! Runs of bem2d.c that end with a division by zero, exactness and nested cluster bases. -/

set_option linter.unusedSectionVars false

namespace H2.Interp
open Spec Dense Finset

/-- the run divides by zero, or ends with a result satisfying `P` -/
def NTot {α : Type} (x : R α) (P : α → Prop) : Prop := x = .error .nan ∨ Tot x P

theorem NTot.bind {α β : Type} {x : R α} {f : α → R β} {P : α → Prop} {Q : β → Prop} (h : NTot x P) (g : ∀ a, P a → NTot (f a) Q) : NTot (x >>= f) Q := by
  rcases h with rfl | ⟨a, rfl, ha⟩
  · exact Or.inl rfl
  · rw [ok_bind]; exact g a ha

theorem NTot.pure {α : Type} {a : α} {P : α → Prop} (h : P a) : NTot (Pure.pure a : R α) P := Or.inr ⟨a, rfl, h⟩

theorem NTot.mono {α : Type} {x : R α} {P Q : α → Prop} (h : NTot x P) (g : ∀ a, P a → Q a) : NTot x Q := by
  rcases h with h | ⟨a, e, ha⟩
  · exact Or.inl h
  · exact Or.inr ⟨a, e, g a ha⟩

theorem bind_nan {α β : Type} {x : R α} {f : α → R β} {P : α → Prop} (h : NTot x P) (g : ∀ a, P a → f a = .error .nan) : x >>= f = .error .nan := by
  rcases h with rfl | ⟨a, rfl, ha⟩
  · rfl
  · rw [ok_bind]; exact g a ha

theorem loopN_ntot {σ : Type} {body : Nat → σ → R σ} {I : Nat → σ → Prop} : ∀ (c i : Nat) (s : σ), I i s →
    (∀ k, i ≤ k → k < i + c → ∀ s, I k s → NTot (body k s) (I (k + 1))) → NTot (loopN body c i s) (I (i + c))
  | 0, i, s, h, _ => Or.inr ⟨s, rfl, h⟩
  | c + 1, i, s, h, hb => by
    show NTot (body i s >>= fun s' => loopN body c (i + 1) s') _
    refine NTot.bind (hb i le_rfl (by omega) s h) fun s' h' => ?_
    rw [show i + (c + 1) = i + 1 + c by omega]
    exact loopN_ntot c (i + 1) s' h' fun k h1 h2 => hb k (by omega) (by omega)

theorem forUp_ntot {σ : Type} {body : Nat → σ → R σ} {lo hi : Nat} {I : Nat → σ → Prop} {s : σ} (hle : lo ≤ hi) (h0 : I lo s)
    (hb : ∀ k, lo ≤ k → k < hi → ∀ s, I k s → NTot (body k s) (I (k + 1))) : NTot (forUp lo hi body s) (I hi) := by
  unfold forUp
  have := loopN_ntot (hi - lo) lo s h0 (body := body) (fun k h1 h2 => hb k h1 (by omega))
  rwa [show lo + (hi - lo) = hi by omega] at this

theorem forUp_nan {σ : Type} {body : Nat → σ → R σ} {lo hi k : Nat} {I : Nat → σ → Prop} {s : σ} (h0 : I lo s) (hk1 : lo ≤ k) (hk2 : k < hi)
    (hb : ∀ j, lo ≤ j → j < k → ∀ s, I j s → NTot (body j s) (I (j + 1))) (he : ∀ s, I k s → body k s = .error .nan) :
    forUp lo hi body s = .error .nan := by
  unfold forUp
  obtain ⟨d, hd⟩ : ∃ d, hi - lo = (k - lo) + (d + 1) := ⟨hi - k - 1, by omega⟩
  rw [hd, P1.loop_split]
  have h := loopN_ntot (k - lo) lo s h0 (body := body) (fun j h1 h2 => hb j h1 (by omega))
  refine bind_nan h fun s' h' => ?_
  rw [show lo + (k - lo) = k by omega] at h' ⊢
  show (body k s' >>= _) = _
  rw [he s' h']
  rfl

variable {K : Type} [Field K] [LinearOrder K] [DecidableEq K]

theorem logDeriv_body {p : Arr K} {x c : K} {k : Nat} (hk : k < p.n) (d : K) : NTot (do
      let v ← p.get k
      if x - v = 0 then throw .nan else pure (d + c / (x - v)) : R K) (fun _ => True) := by
  rw [Arr.get_ok hk, ok_bind]
  split
  · exact Or.inl rfl
  · exact NTot.pure trivial

theorem logDeriv_ntot {p : Arr K} {j : Nat} (hj : j < p.n) (x c : K) : NTot (logDeriv p j x c) (fun _ => True) := by
  unfold logDeriv
  refine NTot.bind (P := fun _ => True) (forUp_ntot (I := fun _ _ => True) (Nat.zero_le _) trivial ?_) fun d _ => ?_
  · intro k _ hk s _
    exact logDeriv_body (by omega) s
  · refine forUp_ntot (I := fun _ _ => True) (by omega) trivial ?_
    intro k _ hk s _
    exact logDeriv_body hk s

theorem logDeriv_nan {p : Arr K} {j l : Nat} (hj : j < p.n) (hl : l < p.n) (hne : l ≠ j) {x : K} (hx : x = p.v l) (c : K) :
    logDeriv p j x c = .error .nan := by
  unfold logDeriv
  have hbad : ∀ d : K, (do
      let v ← p.get l
      if x - v = 0 then throw .nan else pure (d + c / (x - v)) : R K) = .error .nan := by
    intro d
    rw [Arr.get_ok hl, ok_bind, if_pos (by rw [hx, sub_self])]
    rfl
  by_cases h : l < j
  · refine bind_nan (P := fun _ => False) (Or.inl ?_) (fun _ h => h.elim)
    exact forUp_nan (I := fun _ _ => True) trivial (Nat.zero_le _) h (fun k _ hk s _ => logDeriv_body (by omega) s) (fun s _ => hbad s)
  · refine bind_nan (P := fun _ => True) (forUp_ntot (I := fun _ _ => True) (Nat.zero_le _) trivial fun k _ hk s _ => logDeriv_body (by omega) s) fun d _ => ?_
    exact forUp_nan (I := fun _ _ => True) trivial (by omega) hl (fun k _ hk s _ => logDeriv_body (by omega) s) (fun s _ => hbad s)

/-- some quadrature point shares a coordinate with an interpolation point, and there are at least two of them in this direction -/
theorem dnLagrangeConst_nan {gr : Geo K} {idx : Option (Arr Nat)} {px py : Arr K} {V : Mat} {m : Mem K} (hg : GeoOk gr idx V.rows)
    (hx : DistinctPts px.n px.v) (hy : DistinctPts py.n py.v) (hv : V.Valid m) (hc : V.cols = px.n * py.n) {t0 q0 : Nat} (ht0 : t0 < V.rows) (hq0 : q0 < gr.nq)
    (hit : (2 ≤ px.n ∧ 1 ≤ py.n ∧ ∃ l < px.n, (quadPt gr (edgeOf idx t0) q0).1 = px.v l) ∨
      (1 ≤ px.n ∧ 2 ≤ py.n ∧ ∃ l < py.n, (quadPt gr (edgeOf idx t0) q0).2 = py.v l)) :
    dnLagrangeConst gr idx px py V m = .error .nan := by
  obtain ⟨jx0, hjx0, jy0, hjy0, hit⟩ : ∃ jx0 < px.n, ∃ jy0 < py.n, (∃ l < px.n, l ≠ jx0 ∧ (quadPt gr (edgeOf idx t0) q0).1 = px.v l) ∨
      ∃ l < py.n, l ≠ jy0 ∧ (quadPt gr (edgeOf idx t0) q0).2 = py.v l := by
    rcases hit with ⟨h1, h2, l, hl, e⟩ | ⟨h1, h2, l, hl, e⟩
    · by_cases h : l = 0
      · exact ⟨1, by omega, 0, by omega, Or.inl ⟨l, hl, by omega, e⟩⟩
      · exact ⟨0, by omega, 0, by omega, Or.inl ⟨l, hl, by omega, e⟩⟩
    · by_cases h : l = 0
      · exact ⟨0, by omega, 1, by omega, Or.inr ⟨l, hl, by omega, e⟩⟩
      · exact ⟨0, by omega, 0, by omega, Or.inr ⟨l, hl, by omega, e⟩⟩
  unfold dnLagrangeConst
  rw [cassert_true (by simp [hc]), ok_bind]
  -- the sum over the quadrature points
  set S : Nat → Nat → Nat → R K := fun t jx jy => forUp 0 gr.nq (fun q (sum : K) => do
        let tx ← gr.xx.get q
        let lagrx ← basisAt px jx ((gr.x.v (gr.e.v (edgeOf idx t)).1).1 * (1 - tx) + (gr.x.v (gr.e.v (edgeOf idx t)).2).1 * tx)
        let lagry ← basisAt py jy ((gr.x.v (gr.e.v (edgeOf idx t)).1).2 * (1 - tx) + (gr.x.v (gr.e.v (edgeOf idx t)).2).2 * tx)
        let l0 ← logDeriv px jx ((gr.x.v (gr.e.v (edgeOf idx t)).1).1 * (1 - tx) + (gr.x.v (gr.e.v (edgeOf idx t)).2).1 * tx) lagrx
        let l1 ← logDeriv py jy ((gr.x.v (gr.e.v (edgeOf idx t)).1).2 * (1 - tx) + (gr.x.v (gr.e.v (edgeOf idx t)).2).2 * tx) lagry
        let w ← gr.ww.get q
        pure (sum + w * ((gr.n.v (edgeOf idx t)).1 * (l0 * lagry) + (gr.n.v (edgeOf idx t)).2 * (l1 * lagrx)))) 0 with hS
  have hS1 : ∀ t < V.rows, ∀ jx < px.n, ∀ jy < py.n, NTot (S t jx jy) fun _ => True := by
    intro t ht jx hjx jy hjy
    refine forUp_ntot (I := fun _ _ => True) (Nat.zero_le _) trivial ?_
    intro q _ hq s _
    rw [Arr.get_ok (by have := hg.xx; omega), ok_bind, basisAt_ok hx hjx, ok_bind, basisAt_ok hy hjy, ok_bind]
    refine (logDeriv_ntot hjx _ _).bind fun l0 _ => (logDeriv_ntot hjy _ _).bind fun l1 _ => ?_
    rw [Arr.get_ok (by have := hg.ww; omega), ok_bind]
    exact NTot.pure trivial
  have hS2 : S t0 jx0 jy0 = .error .nan := by
    refine forUp_nan (I := fun _ _ => True) trivial (Nat.zero_le _) hq0 ?_ ?_
    · intro q _ hq s _
      rw [Arr.get_ok (by have := hg.xx; omega), ok_bind, basisAt_ok hx hjx0, ok_bind, basisAt_ok hy hjy0, ok_bind]
      refine (logDeriv_ntot hjx0 _ _).bind fun l0 _ => (logDeriv_ntot hjy0 _ _).bind fun l1 _ => ?_
      rw [Arr.get_ok (by have := hg.ww; omega), ok_bind]
      exact NTot.pure trivial
    · intro s _
      rw [Arr.get_ok (by have := hg.xx; omega), ok_bind, basisAt_ok hx hjx0, ok_bind, basisAt_ok hy hjy0, ok_bind]
      rcases hit with ⟨l, hl, hne, e⟩ | ⟨l, hl, hne, e⟩
      · exact bind_nan (P := fun _ => False) (Or.inl (logDeriv_nan hjx0 hl hne e _)) (fun _ h => h.elim)
      · refine bind_nan (logDeriv_ntot hjx0 _ _) fun l0 _ => ?_
        exact bind_nan (P := fun _ => False) (Or.inl (logDeriv_nan hjy0 hl hne e _)) (fun _ h => h.elim)
  have hcol : ∀ jx < px.n, ∀ jy < py.n, jx * py.n + jy < V.cols := by
    intro jx hjx jy hjy
    rw [hc]
    calc jx * py.n + jy < jx * py.n + py.n := by omega
      _ = (jx + 1) * py.n := by ring
      _ ≤ px.n * py.n := Nat.mul_le_mul_right _ hjx
  -- one column
  have hC : ∀ t < V.rows, ∀ jx < px.n, ∀ jy < py.n, ∀ st : Mem K × Nat, st.2 = jx * py.n + jy ∧ V.Valid st.1 → NTot (do
      let sum ← S t jx jy
      let m ← st.1.write (V.addr t st.2) (-1 * gr.g.v (edgeOf idx t) * sum)
      pure (m, st.2 + 1)) fun (st : Mem K × Nat) => st.2 = jx * py.n + (jy + 1) ∧ V.Valid st.1 := by
    rintro t ht jx hjx jy hjy ⟨m1, ix⟩ ⟨e, h1⟩
    replace e : ix = jx * py.n + jy := e
    subst e
    refine (hS1 t ht jx hjx jy hjy).bind fun s _ => ?_
    refine NTot.bind (P := fun m2 => V.Valid m2) (Or.inr ?_) fun m2 h2 => NTot.pure ⟨rfl, h2⟩
    exact (HMat.write_entry (F := V.val m1) (m := m1) ⟨h1, fun _ _ _ _ => rfl, fun _ _ => rfl⟩ ht (hcol jx hjx jy hjy) _).mono fun m2 h2 => h2.1
  have hL : ∀ t < V.rows, ∀ jx < px.n, ∀ st : Mem K × Nat, st.2 = jx * py.n ∧ V.Valid st.1 → NTot (forUp 0 py.n (fun jy (st : Mem K × Nat) => do
      let sum ← S t jx jy
      let m ← st.1.write (V.addr t st.2) (-1 * gr.g.v (edgeOf idx t) * sum)
      pure (m, st.2 + 1)) st) fun (st : Mem K × Nat) => st.2 = (jx + 1) * py.n ∧ V.Valid st.1 := by
    intro t ht jx hjx st hst
    refine (forUp_ntot (I := fun jy (st : Mem K × Nat) => st.2 = jx * py.n + jy ∧ V.Valid st.1) (Nat.zero_le _) hst fun jy _ hjy st h => hC t ht jx hjx jy hjy st h).mono ?_
    rintro st ⟨e, h⟩
    exact ⟨by rw [e]; ring, h⟩
  have hpre : ∀ t < V.rows, ∀ s : Mem K, (do
      let tt ← index idx t
      let gt ← gr.g.get tt
      let nt ← gr.n.get tt
      let (a, b) ← ends gr tt
      let (m, _) ← forUp 0 px.n (fun jx st => forUp 0 py.n (fun jy (st : Mem K × Nat) => do
        let sum ← forUp 0 gr.nq (fun q (sum : K) => do
          let tx ← gr.xx.get q
          let x := a.1 * (1 - tx) + b.1 * tx
          let y := a.2 * (1 - tx) + b.2 * tx
          let lagrx ← basisAt px jx x
          let lagry ← basisAt py jy y
          let l0 ← logDeriv px jx x lagrx
          let l1 ← logDeriv py jy y lagry
          let w ← gr.ww.get q
          pure (sum + w * (nt.1 * (l0 * lagry) + nt.2 * (l1 * lagrx)))) 0
        let m ← st.1.write (V.addr t st.2) (-1 * gt * sum)
        pure (m, st.2 + 1)) st) (s, 0)
      pure m : R (Mem K)) = (do
        let st ← forUp 0 px.n (fun jx st => forUp 0 py.n (fun jy (st : Mem K × Nat) => do
          let sum ← S t jx jy
          let m ← st.1.write (V.addr t st.2) (-1 * gr.g.v (edgeOf idx t) * sum)
          pure (m, st.2 + 1)) st) (s, 0)
        pure st.1) := by
    intro t ht s
    rw [index_ok hg ht, ok_bind, Arr.get_ok (hg.g t ht), ok_bind, Arr.get_ok (hg.n t ht), ok_bind, ends_ok hg ht, ok_bind]
  refine forUp_nan (I := fun _ (s : Mem K) => V.Valid s) hv (Nat.zero_le _) ht0 ?_ ?_
  · intro t _ ht s hs
    rw [hpre t (by omega) s]
    refine NTot.bind (P := fun (st : Mem K × Nat) => st.2 = px.n * py.n ∧ V.Valid st.1) ?_ fun st h => NTot.pure h.2
    exact forUp_ntot (I := fun jx (st : Mem K × Nat) => st.2 = jx * py.n ∧ V.Valid st.1) (Nat.zero_le _) ⟨by simp, hs⟩ fun jx _ hjx st h => hL t (by omega) jx hjx st h
  · intro s hs
    rw [hpre t0 ht0 s, forUp_nan (I := fun jx (st : Mem K × Nat) => st.2 = jx * py.n ∧ V.Valid st.1) ⟨by simp, hs⟩ (Nat.zero_le _) hjx0
      (fun jx _ hjx st h => hL t0 ht0 jx (by omega) st h)]
    · rfl
    · intro st hst
      refine forUp_nan (I := fun jy (st : Mem K × Nat) => st.2 = jx0 * py.n + jy ∧ V.Valid st.1) hst (Nat.zero_le _) hjy0
        (fun jy _ hjy st h => hC t0 ht0 jx0 hjx0 jy (by omega) st h) ?_
      intro st _
      rw [hS2]
      rfl

end H2.Interp
