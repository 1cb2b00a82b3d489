import Verif.Proof.TruncSvd
import Verif.Proof.Ortho
import Verif.Proof.Rk
import Verif.Proof.FactorBlocks

set_option linter.unusedSectionVars false

namespace H2
open Spec Dense Matrix
variable {𝕜 : Type} [RCLike 𝕜]

theorem fetch_e (a : Mat) (m : Mem 𝕜) (i j : Nat) : (VMat.fetch a m).e i j = a.val m i j := rfl

/-- two matrices loaded one behind the other -/
theorem load2 (a x : VMat 𝕜) (m : Mem 𝕜) :
    ((a.window 0).Valid (x.load (a.rows * a.cols) (a.load 0 m)) ∧ ∀ i < a.rows, ∀ j < a.cols, (a.window 0).val (x.load (a.rows * a.cols) (a.load 0 m)) i j = a.e i j) ∧
    ((x.window (a.rows * a.cols)).Valid (x.load (a.rows * a.cols) (a.load 0 m)) ∧
      ∀ i < x.rows, ∀ j < x.cols, (x.window (a.rows * a.cols)).val (x.load (a.rows * a.cols) (a.load 0 m)) i j = x.e i j) ∧
    Disj (a.window 0).Cell (x.window (a.rows * a.cols)).Cell := by
  have hb : ∀ c, (a.window 0).Cell c → c < a.rows * a.cols := fun c h => by have := (cell_lt h).2; omega
  obtain ⟨h1, h2⟩ := load_tot 0 a m
  obtain ⟨h3, h4⟩ := alloc_keep (p := a.rows * a.cols) (n := x.rows * x.cols) (junk := fun c => x.e ((c - a.rows * a.cols) % x.rows) ((c - a.rows * a.cols) / x.rows)) hb h1
  refine ⟨⟨h3, fun i hi j hj => (h4 i hi j hj).trans (h2 i hi j hj)⟩, load_tot _ x _, disj_blocks hb fun c h => (cell_lt h).1⟩

theorem diagevalReal_tot {x : Mat} {m : Mem 𝕜} (hx : x.Valid m) (atrans xtrans : Bool) (a : Arr ℝ) (h : (if xtrans then x.cols else x.rows) ≤ a.n) :
    Tot (diagevalReal 1 atrans a xtrans x m) (MatBecomes x m fun i j => x.val m i j * ((a.v (if xtrans then j else i) : ℝ) : 𝕜)) := by
  have hb : ∀ s : ℝ, (if atrans then star (1 : 𝕜) * (s : 𝕜) else star ((1 : 𝕜) * (s : 𝕜))) = (s : 𝕜) := fun s => by
    cases atrans <;> simp
  have hb' : ∀ s : ℝ, (if atrans then (1 : 𝕜) * star (s : 𝕜) else (1 : 𝕜) * (s : 𝕜)) = (s : 𝕜) := fun s => by
    cases atrans <;> simp
  unfold diagevalReal
  cases xtrans
  · rw [if_neg (by simp)]
    simp only [Bool.false_eq_true, if_false] at h ⊢
    refine Tot.cassert (by simpa using h) ?_
    by_cases h0 : a.n < 1 ∨ x.cols < 1
    · rw [if_pos h0]
      refine Tot.pure (becomes_congr (becomes_self hx) fun i hi j hj => ?_)
      omega
    · rw [if_neg h0]
      rw [forUp_congr (g := fun i m => forUp 0 x.cols (fun j m => do
        let y ← m.read (x.addr i j)
        m.write (x.addr i j) (y * ((a.v i : ℝ) : 𝕜))) m) (fun i _ hi s => by rw [Arr.get_ok (by omega), ok_bind, hb'])]
      refine (rectLoop (becomes_self hx) (Nat.zero_le _) le_rfl (Nat.zero_le _) le_rfl (new := fun i j => x.val m i j * ((a.v i : ℝ) : 𝕜)) fun i _ hi j _ hj m1 G h1 h2 => ?_).mono
        fun m1 h1 => becomes_congr h1 fun i hi j hj => if_pos ⟨Nat.zero_le _, hi, Nat.zero_le _, hj⟩
      rw [becomes_read h1 hi hj, ok_bind, h2 i j (by omega)]
  · rw [if_pos rfl]
    simp only [if_true] at h ⊢
    refine Tot.cassert (by simpa using h) ?_
    by_cases h0 : a.n < 1 ∨ x.rows < 1
    · rw [if_pos h0]
      refine Tot.pure (becomes_congr (becomes_self hx) fun i hi j hj => ?_)
      omega
    · rw [if_neg h0]
      rw [forUp_congr (g := fun i m => forUp 0 x.rows (fun j m => do
        let y ← m.read (x.addr j i)
        m.write (x.addr j i) (y * ((a.v i : ℝ) : 𝕜))) m) (fun i _ hi s => by rw [Arr.get_ok (by omega), ok_bind, hb])]
      refine (colLoop hx (lo := fun _ => 0) (hi := fun _ => x.rows) (G := fun i j => x.val m i j * ((a.v j : ℝ) : 𝕜)) le_rfl
        (fun _ _ => le_rfl) (fun _ _ => Nat.zero_le _) fun j hj i _ hi m' _ h => ?_).mono fun m' h =>
        becomes_congr h fun i hi j hj => by simp [hi, hj]
      rw [Mem.read_ok h, ok_bind, Mem.write_ok h]

theorem vdiageval_tot (atrans xtrans : Bool) (sigma : Arr ℝ) (x : VMat 𝕜) (h : (if xtrans then x.cols else x.rows) ≤ sigma.n) :
    Tot (VMat.diageval atrans sigma xtrans x) fun y => y.rows = x.rows ∧ y.cols = x.cols ∧
      ∀ i < x.rows, ∀ j < x.cols, y.e i j = x.e i j * ((sigma.v (if xtrans then j else i) : ℝ) : 𝕜) := by
  unfold VMat.diageval
  obtain ⟨h1, h2⟩ := load_tot 0 x (fun _ => (none : Option 𝕜))
  refine Tot.bind (diagevalReal_tot h1 atrans xtrans sigma h) fun m _ hm => Tot.pure ⟨rfl, rfl, fun i hi j hj => ?_⟩
  rw [fetch_e, hm.2.1 i hi j hj]
  beta_reduce
  rw [h2 i hi j hj]

theorem vtriaddmul_tot (a b : VMat 𝕜) (h : a.cols = b.cols) :
    Tot (VMat.triaddmulT a b (VMat.zero a.rows b.rows)) fun c => c.rows = a.rows ∧ c.cols = b.rows ∧
      ∀ i < a.rows, ∀ j < b.rows, c.e i j = ∑ l ∈ Finset.range a.cols, tri false false a.e i l * star (tri false false b.e j l) := by
  unfold VMat.triaddmulT
  simp only
  obtain ⟨⟨ha, ha'⟩, ⟨hb, hb'⟩, -⟩ := load2 a b (fun _ => (none : Option 𝕜))
  obtain ⟨m, hm⟩ : ∃ m, m = b.load (a.rows * a.cols) (a.load 0 fun _ => none) := ⟨_, rfl⟩
  rw [← hm] at ha ha' hb hb' ⊢
  obtain ⟨p, hp⟩ : ∃ p, p = a.rows * a.cols + b.rows * b.cols := ⟨_, rfl⟩
  rw [← hp]
  have b1 : ∀ c, (a.window 0).Cell c → c < p := fun c h => by have := (cell_lt h).2; omega
  have b2 : ∀ c, (b.window (a.rows * a.cols)).Cell c → c < p := fun c h => by have := (cell_lt h).2; omega
  obtain ⟨c, hc⟩ : ∃ c : VMat 𝕜, c = VMat.zero a.rows b.rows := ⟨_, rfl⟩
  have hcr : c.rows = a.rows := by rw [hc]; rfl
  have hcc : c.cols = b.rows := by rw [hc]; rfl
  rw [← hc]
  obtain ⟨v1, v1'⟩ := alloc_keep (p := p) (n := c.rows * c.cols) (junk := fun x => c.e ((x - p) % c.rows) ((x - p) / c.rows)) b1 ha
  obtain ⟨v2, v2'⟩ := alloc_keep (p := p) (n := c.rows * c.cols) (junk := fun x => c.e ((x - p) % c.rows) ((x - p) / c.rows)) b2 hb
  obtain ⟨w, w'⟩ := load_tot p c m
  replace v1 : (a.window 0).Valid (c.load p m) := v1
  replace v2 : (b.window (a.rows * a.cols)).Valid (c.load p m) := v2
  have hlow : ∀ y, (c.window p).Cell y → p ≤ y := fun y h => (cell_lt h).1
  refine Tot.bind (triaddmul_tot v1 v2 w (disj_blocks b1 hlow) (disj_blocks b2 hlow) 1 false false false true (by simpa [opRows, VMat.window] using hcr)
    (by simpa [opRows, opCols, VMat.window] using h) (by simpa [opCols, VMat.window] using hcc)) fun m1 _ h1 => Tot.pure ⟨hcr, hcc, fun i hi j hj => ?_⟩
  rw [fetch_e, h1.2.1 i (by rw [← hcr] at hi; exact hi) j (by rw [← hcc] at hj; exact hj)]
  beta_reduce
  rw [w' i (by omega) j (by omega), one_mul]
  have : c.e i j = 0 := by rw [hc]; rfl
  rw [this, zero_add]
  refine Finset.sum_congr rfl fun l hl => ?_
  have hl : l < a.cols := Finset.mem_range.mp hl
  simp only [op, Bool.false_eq_true, if_false, if_true]
  congr 1
  · exact tri_congr _ _ ((v1' i hi l hl).trans (ha' i hi l hl))
  · congr 1
    exact tri_congr _ _ ((v2' j hj l (by rw [h] at hl; exact hl)).trans (hb' j hj l (by omega)))

theorem vtrieval_tot (a x : VMat 𝕜) (h1 : a.rows ≤ x.cols) (h2 : a.cols = x.cols) :
    Tot (VMat.trievalT a x) fun y => y.rows = x.rows ∧ y.cols = x.cols ∧
      ∀ i < x.rows, ∀ j < a.rows, y.e i j = ∑ l ∈ Finset.range a.cols, x.e i l * star (tri false false a.e j l) := by
  unfold VMat.trievalT
  simp only
  obtain ⟨⟨ha, ha'⟩, ⟨hx, hx'⟩, hd⟩ := load2 a x (fun _ => (none : Option 𝕜))
  refine Tot.bind (trieval_tot ha hx hd false false false true (by simpa [opRows, VMat.window] using h1) (by simpa [opRows, VMat.window] using h2.le)) ?_
  rintro m - ⟨X, hX, hX'⟩
  refine Tot.pure ⟨rfl, rfl, fun i hi j hj => ?_⟩
  have h3 := hX' j i
  simp only [op, opRows, opCols, Bool.false_eq_true, if_false, if_true] at h3
  rw [if_pos (show j < (a.window 0).rows from hj)] at h3
  have h4 := congrArg star h3
  rw [star_star, star_sum] at h4
  rw [fetch_e, hX.2.1 i hi j (show j < x.cols by omega), h4]
  refine Finset.sum_congr rfl fun l hl => ?_
  have hl : l < a.cols := Finset.mem_range.mp hl
  rw [star_mul', star_star, hx' i hi l (by omega), mul_comm]
  congr 2
  exact tri_congr _ _ (ha' j hj l hl)

theorem vupper_tot (q : QrEnv 𝕜) (a : VMat 𝕜) {rows cols : Nat} (hr : rows ≤ a.rows) (hc : cols ≤ a.cols) :
    Tot (VMat.upper q a rows cols) fun y => y.rows = rows ∧ y.cols = cols ∧ ∀ i < rows, ∀ j < cols, y.e i j = tri false false a.e i j := by
  unfold VMat.upper
  simp only
  obtain ⟨⟨ha, ha'⟩, ⟨hx, hx'⟩, hd⟩ := load2 a (VMat.fresh q rows cols) (fun _ => (none : Option 𝕜))
  refine Tot.bind (copyUpper_tot ha hx hd false) fun m _ hm => Tot.pure ⟨rfl, rfl, fun i hi j hj => ?_⟩
  rw [fetch_e, hm.2.1 i hi j hj]
  beta_reduce
  rw [if_pos (show j < (a.window 0).cols from by show j < a.cols; omega), if_pos (show i < (a.window 0).rows from by show i < a.rows; omega)]
  exact tri_congr _ _ (ha' i (by omega) j (by omega))

/-- `W` and `tau` represent a factorization of `A` -/
structure QrFac (A W : VMat 𝕜) (tau : Arr 𝕜) (Q : Nat → Nat → 𝕜) : Prop where
  rows : W.rows = A.rows
  cols : W.cols = A.cols
  orth : OrthCols A.rows A.rows Q
  fac : ∀ i < A.rows, ∀ j < A.cols, A.e i j = ∑ p ∈ Finset.range (min A.rows A.cols), Q i p * tri false false W.e p j
  eval : ∀ x : VMat 𝕜, x.rows = A.rows → Tot (VMat.qreval W tau x) fun y => y.rows = x.rows ∧ y.cols = x.cols ∧
    ∀ i < A.rows, ∀ l < x.cols, y.e i l = ∑ p ∈ Finset.range A.rows, Q i p * x.e p l

theorem vqr_tot {q : QrEnv 𝕜} (hs : SignFn 0 q.sgn) (ht : q.tiny = 0) (A : VMat 𝕜) (dim : Nat) :
    Tot (VMat.qrdecomp q A dim) fun r => ∃ Q, QrFac A r.1 r.2 Q := by
  unfold VMat.qrdecomp
  obtain ⟨hv, hv'⟩ := load_tot 0 A (fun _ => (none : Option 𝕜))
  obtain ⟨tau, m1, e1, v1, -, ht1, -, hQ, herr, -⟩ := Props.C56_qr hs ht.ge q.junk ⟨dim, q.junk⟩ hv
  rw [e1, ok_bind]
  refine Tot.pure ?_
  obtain ⟨n, c, e⟩ := A
  obtain ⟨U, hU⟩ : ∃ U, U = qprod n ((VMat.window 0 (⟨n, c, e⟩ : VMat 𝕜)).val m1) tau.v (min n c) := ⟨_, rfl⟩
  replace hQ : U ∈ unitaryGroup (Fin n) 𝕜 := hU ▸ hQ
  obtain ⟨Q, hQd⟩ : ∃ Q : Nat → Nat → 𝕜, Q = fun i j => if h : i < n ∧ j < n then U ⟨i, h.1⟩ ⟨j, h.2⟩ else 0 := ⟨_, rfl⟩
  have hQe : ∀ i j : Fin n, Q i j = U i j := fun i j => by rw [hQd]; simp only [i.2, j.2, and_self, dif_pos]
  refine ⟨Q, rfl, rfl, fun l hl l' hl' => ?_, fun i hi j hj => ?_, fun x hx => ?_⟩
  · have hu := congrFun (congrFun (mem_unitaryGroup_iff'.mp hQ) ⟨l, hl⟩) ⟨l', hl'⟩
    rw [mul_apply, one_apply] at hu
    simp only [Fin.mk.injEq] at hu
    rw [← hu, ← Fin.sum_univ_eq_sum_range (fun i => star (Q i l) * Q i l')]
    refine Finset.sum_congr rfl fun i _ => ?_
    rw [hQe i ⟨l, hl⟩, hQe i ⟨l', hl'⟩]
    rfl
  · have h5 := herr ⟨j, hj⟩
    rw [ht, max_self] at h5
    have h6 := le_antisymm h5 (Finset.sum_nonneg fun _ _ => sq_nonneg _)
    have h7 := (Finset.sum_eq_zero_iff_of_nonneg fun _ _ => sq_nonneg _).mp h6 ⟨i, hi⟩ (Finset.mem_univ _)
    rw [pow_eq_zero_iff two_ne_zero, norm_eq_zero, sub_eq_zero] at h7
    have h8 : toMat n c ((VMat.window 0 (⟨n, c, e⟩ : VMat 𝕜)).val (VMat.load 0 ⟨n, c, e⟩ fun _ => none)) ⟨i, hi⟩ ⟨j, hj⟩ = e i j := hv' i hi j hj
    show e i j = _
    rw [← h8]
    refine h7.trans ?_
    rw [mul_apply]
    show ∑ l : Fin n, qprod n ((VMat.window 0 (⟨n, c, e⟩ : VMat 𝕜)).val m1) tau.v (min n c) ⟨i, hi⟩ l * tri false false ((VMat.window 0 (⟨n, c, e⟩ : VMat 𝕜)).val m1) l j = _
    rw [← hU]
    have h9 : ∀ l : Fin n, U ⟨i, hi⟩ l * tri false false ((VMat.window 0 (⟨n, c, e⟩ : VMat 𝕜)).val m1) l j = (fun l => Q i l * tri false false ((VMat.window 0 (⟨n, c, e⟩ : VMat 𝕜)).val m1) l j) l.1 := fun l => by
      simp only
      rw [hQe ⟨i, hi⟩ l]
    rw [Finset.sum_congr rfl fun l _ => h9 l, Fin.sum_univ_eq_sum_range (fun l => Q i l * tri false false ((VMat.window 0 (⟨n, c, e⟩ : VMat 𝕜)).val m1) l j)]
    rw [← Finset.sum_subset (Finset.range_subset_range.mpr (Nat.min_le_left n c))]
    · rfl
    · intro l hl hl'
      have hl := Finset.mem_range.mp hl
      have hl' : ¬ l < min n c := fun h => hl' (Finset.mem_range.mpr h)
      have hj : j < c := hj
      rw [tri_upper, if_neg (by omega), if_neg (by omega), mul_zero]
  · unfold VMat.qreval
    simp only
    obtain ⟨W, hW⟩ : ∃ W : VMat 𝕜, W = VMat.fetch (VMat.window 0 ⟨n, c, e⟩) m1 := ⟨_, rfl⟩
    have hWr : W.rows = n := by rw [hW]; rfl
    have hWc : W.cols = c := by rw [hW]; rfl
    have hWe : ∀ i j, W.e i j = (VMat.window 0 (⟨n, c, e⟩ : VMat 𝕜)).val m1 i j := fun i j => by rw [hW]; rfl
    rw [← hW]
    obtain ⟨⟨ha, ha'⟩, ⟨hx1, hx'⟩, hd⟩ := load2 W x (fun _ => (none : Option 𝕜))
    obtain ⟨m2, e2, -, -, h2, -⟩ := Props.C56_eval_mat ha hx1 hd (show W.rows ≤ x.rows by rw [hWr, hx]) tau false
    rw [e2, ok_bind]
    refine Tot.pure ⟨rfl, rfl, fun i hi l hl => ?_⟩
    have h3 := congrFun (congrFun h2 ⟨i, show i < W.rows by omega⟩) ⟨l, hl⟩
    simp only [Bool.false_eq_true, if_false] at h3
    rw [fetch_e]
    refine Eq.trans h3 ?_
    rw [mul_apply]
    have h4 : ∀ {n' : Nat} (hn : n' = n) (k : Nat) (hk : k = min n c) (i' l' : Fin n'), qprod n' ((W.window 0).val (x.load (W.rows * W.cols) (W.load 0 fun _ => none))) tau.v k i' l' = Q i' l' := by
      intro n' hn k hk i' l'
      subst hn
      subst hk
      rw [hQe, hU]
      rw [qprod_congr (min n' c) fun i hi j hj => (ha' i (by omega) j (by omega)).trans (hWe i j)]
    have hk : min (min W.rows W.cols) tau.n = min n c := by
      rw [hWr, hWc]
      exact Nat.min_eq_left ht1
    rw [show (Finset.range (⟨n, c, e⟩ : VMat 𝕜).rows) = Finset.range W.rows by rw [hWr], ← Fin.sum_univ_eq_sum_range (fun p => Q i p * x.e p l)]
    refine Finset.sum_congr rfl fun p _ => ?_
    rw [← h4 (n' := (W.window 0).rows) hWr _ hk ⟨i, show i < W.rows by omega⟩ p]
    congr 1
    exact hx' p (by have h := p.2; replace h : p.1 < W.rows := h; rw [hWr] at h; rw [hx]; exact h) l hl

end H2
