import Verif.Model.Ortho
import Verif.Proof.FactorTri
import Verif.Proof.Harith
import Verif.Props.QR
import Verif.Proof.ClusterBasis

set_option linter.unusedSectionVars false

namespace H2
open Spec Dense Matrix
variable {𝕜 : Type} [RCLike 𝕜]

theorem cell_lt {p r c x : Nat} (h : (Mat.mk p r r c).Cell x) : p ≤ x ∧ x < p + r * c := Rk.cell_block (a := Mat.mk p r r c) le_rfl h

theorem alloc_keep {a : Mat} {m : Mem 𝕜} {p n : Nat} {junk : Nat → 𝕜} (hb : ∀ c, a.Cell c → c < p) (ha : a.Valid m) :
    a.Valid (m.alloc p n junk) ∧ ∀ i < a.rows, ∀ j < a.cols, a.val (m.alloc p n junk) i j = a.val m i j := by
  have h : ∀ i < a.rows, ∀ j < a.cols, m.alloc p n junk (a.addr i j) = m (a.addr i j) := fun i hi j hj =>
    Rk.alloc_of_not (by have := hb _ (Mat.cell_addr hi hj); omega)
  exact ⟨⟨ha.1, fun i hi j hj => by rw [h i hi j hj]; exact ha.2 i hi j hj⟩, fun i hi j hj => by unfold Mat.val; rw [h i hi j hj]⟩

theorem load_tot (p : Nat) (a : VMat 𝕜) (m : Mem 𝕜) : (a.window p).Valid (a.load p m) ∧ ∀ i < a.rows, ∀ j < a.cols, (a.window p).val (a.load p m) i j = a.e i j := by
  refine ⟨Rk.alloc_valid, fun i hi j hj => ?_⟩
  have h := cell_lt (p := p) (r := a.rows) (c := a.cols) (Mat.cell_addr (a := a.window p) hi hj)
  unfold Mat.val VMat.load Mem.alloc
  rw [if_pos h, Option.getD_some]
  unfold Mat.addr VMat.window
  simp only
  have e : p + (i + j * a.rows) - p = i + a.rows * j := by rw [Nat.mul_comm]; omega
  have e1 : (i + a.rows * j) % a.rows = i := by rw [Nat.add_mul_mod_self_left, Nat.mod_eq_of_lt hi]
  have e2 : (i + a.rows * j) / a.rows = j := by rw [Nat.add_mul_div_left _ _ (by omega), Nat.div_eq_of_lt hi, Nat.zero_add]
  first | rw [e, e1, e2] | (rw [← Nat.add_assoc] at e; rw [e, e1, e2])

/-- keep the content of a matrix -/
theorem frame_keep {a : Mat} {m m' : Mem 𝕜} {S : Nat → Prop} (hf : Frame S m m') (hd : Disj a.Cell S) (ha : a.Valid m) :
    a.Valid m' ∧ ∀ i < a.rows, ∀ j < a.cols, a.val m' i j = a.val m i j := by
  have h : ∀ i < a.rows, ∀ j < a.cols, m' (a.addr i j) = m (a.addr i j) := fun i hi j hj => hf _ (hd _ (Mat.cell_addr hi hj))
  exact ⟨⟨ha.1, fun i hi j hj => by rw [h i hi j hj]; exact ha.2 i hi j hj⟩, fun i hi j hj => by unfold Mat.val; rw [h i hi j hj]⟩

theorem disj_blocks {a b : Mat} {p : Nat} (ha : ∀ c, a.Cell c → c < p) (hb : ∀ c, b.Cell c → p ≤ c) : Disj a.Cell b.Cell :=
  fun c h h' => absurd (ha c h) (by have := hb c h'; omega)

theorem tri_congr {A B : Nat → Nat → 𝕜} {i j : Nat} (lower unit : Bool) (h : A i j = B i j) : tri lower unit A i j = tri lower unit B i j := by
  unfold tri
  by_cases e : i = j
  · subst e
    rw [h]
  · rw [if_neg e, if_neg e, h]

theorem qprod_congr {n : Nat} {V V' : Nat → Nat → 𝕜} {t : Nat → 𝕜} : ∀ k, (∀ i < n, ∀ j < k, V i j = V' i j) → qprod n V t k = qprod n V' t k := by
  intro k
  induction k with
  | zero => intro _; rfl
  | succ k ih =>
    intro h
    unfold qprod
    rw [ih fun i hi j hj => h i hi j (by omega)]
    congr 2
    funext i
    unfold hvec
    rw [h i i.2 k (by omega)]

/-- the triangular factor of a `QR` factorization -/
structure QRLocal (e : ℝ) (Vhat Q C : VMat 𝕜) : Prop where
  qrows : Q.rows = Vhat.rows
  qcols : Q.cols = min Vhat.rows Vhat.cols
  crows : C.rows = Q.cols
  ccols : C.cols = Vhat.cols
  orth : ∀ a < Q.cols, ∀ b < Q.cols, ∑ i ∈ Finset.range Q.rows, star (Q.e i a) * Q.e i b = if a = b then 1 else 0
  err : ∀ j < Vhat.cols, ∑ i ∈ Finset.range Vhat.rows, ‖Vhat.e i j - ∑ l ∈ Finset.range Q.cols, Q.e i l * C.e l j‖ ^ 2 ≤ e

theorem QRLocal.exact {Vhat Q C : VMat 𝕜} (h : QRLocal 0 Vhat Q C) : ∀ i < Vhat.rows, ∀ j < Vhat.cols, Vhat.e i j = ∑ l ∈ Finset.range Q.cols, Q.e i l * C.e l j := by
  intro i hi j hj
  have h1 := le_antisymm (h.err j hj) (Finset.sum_nonneg fun _ _ => sq_nonneg _)
  have h2 := (Finset.sum_eq_zero_iff_of_nonneg fun _ _ => sq_nonneg _).mp h1 i (Finset.mem_range.mpr hi)
  rwa [pow_eq_zero_iff two_ne_zero, norm_eq_zero, sub_eq_zero] at h2

theorem QRLocal.of_unitary {n c : Nat} {e : ℝ} {A : Nat → Nat → 𝕜} {U : Matrix (Fin n) (Fin n) 𝕜} (hU : U ∈ unitaryGroup (Fin n) 𝕜) {W : Nat → Nat → 𝕜}
    (herr : ∀ j, colErr (toMat n c A) (U * toMat n c (tri false false W)) j ≤ e) {Q C : VMat 𝕜} (h1 : Q.rows = n) (h2 : Q.cols = min n c) (h3 : C.rows = min n c) (h4 : C.cols = c)
    (hQ : ∀ (i j : Nat) (hi : i < n) (hj : j < n), j < min n c → Q.e i j = U ⟨i, hi⟩ ⟨j, hj⟩) (hC : ∀ i < min n c, ∀ j < c, C.e i j = tri false false W i j) :
    QRLocal e ⟨n, c, A⟩ Q C := by
  refine ⟨h1, h2, by rw [h3, h2], h4, fun a ha b hb => ?_, fun j hj => ?_⟩
  · rw [h2] at ha hb
    have hu := congrFun (congrFun (mem_unitaryGroup_iff'.mp hU) ⟨a, by omega⟩) ⟨b, by omega⟩
    rw [mul_apply, one_apply] at hu
    rw [h1, ← Fin.sum_univ_eq_sum_range (fun i => star (Q.e i a) * Q.e i b)]
    rw [show (if a = b then (1 : 𝕜) else 0) = if (⟨a, by omega⟩ : Fin n) = ⟨b, by omega⟩ then 1 else 0 by simp [Fin.ext_iff]]
    rw [← hu]
    refine Finset.sum_congr rfl fun i _ => ?_
    rw [hQ i a i.2 (by omega) ha, hQ i b i.2 (by omega) hb]
    rfl
  · have h5 := herr ⟨j, hj⟩
    unfold colErr at h5
    refine le_trans (le_of_eq ?_) h5
    rw [← Fin.sum_univ_eq_sum_range (fun i => ‖A i j - ∑ l ∈ Finset.range Q.cols, Q.e i l * C.e l j‖ ^ 2)]
    refine Finset.sum_congr rfl fun i _ => ?_
    congr 2
    show A i j - _ = A i j - _
    congr 1
    rw [mul_apply, h2]
    show _ = ∑ l : Fin n, U i l * tri false false W l j
    have : ∀ l : Fin n, U i l * tri false false W l j = (fun l => if h : l < n then U i ⟨l, h⟩ * tri false false W l j else 0) l.1 := fun l => by
      simp only [l.2, dif_pos]
    rw [Finset.sum_congr rfl fun l _ => this l, Fin.sum_univ_eq_sum_range (fun l => if h : l < n then U i ⟨l, h⟩ * tri false false W l j else 0)]
    rw [← Finset.sum_subset (Finset.range_subset_range.mpr (Nat.min_le_left n c))]
    · refine Finset.sum_congr rfl fun l hl => ?_
      have hl := Finset.mem_range.mp hl
      rw [dif_pos (by omega), hQ i l i.2 (by omega) hl, hC l hl j hj]
    · intro l hl hl'
      have hl := Finset.mem_range.mp hl
      have hl' : ¬ l < min n c := fun h => hl' (Finset.mem_range.mpr h)
      have hj : j < c := hj
      rw [dif_pos hl, tri_upper, if_neg (by omega), if_neg (by omega), mul_zero]

theorem qrLoaded {q : QrEnv 𝕜} {e : ℝ} (hs : SignFn e q.sgn) (ht : 0 ≤ q.tiny) (n c : Nat) (A : Nat → Nat → 𝕜) :
    ∃ tau m1, qrdecomp q.sgn q.tiny q.junk (VMat.window 0 ⟨n, c, A⟩) ⟨min n c, q.junk⟩ (VMat.load 0 ⟨n, c, A⟩ fun _ => none) = .ok (tau, m1) ∧
      (VMat.window 0 (⟨n, c, A⟩ : VMat 𝕜)).Valid m1 ∧ min n c ≤ tau.n ∧ qprod n ((VMat.window 0 (⟨n, c, A⟩ : VMat 𝕜)).val m1) tau.v (min n c) ∈ unitaryGroup (Fin n) 𝕜 ∧
      ∀ j, colErr (toMat n c A) (qprod n ((VMat.window 0 (⟨n, c, A⟩ : VMat 𝕜)).val m1) tau.v (min n c) *
        toMat n c (tri false false ((VMat.window 0 (⟨n, c, A⟩ : VMat 𝕜)).val m1))) j ≤ max q.tiny e := by
  obtain ⟨hv0, hvv0⟩ := load_tot 0 ⟨n, c, A⟩ (fun _ => (none : Option 𝕜))
  obtain ⟨tau, m1, e1, v1, -, ht1, -, hQ, herr, -⟩ := Props.C56_qr hs ht q.junk ⟨min n c, q.junk⟩ hv0
  refine ⟨tau, m1, e1, v1, ht1, hQ, fun j => le_of_eq_of_le ?_ (herr j)⟩
  unfold colErr
  refine Finset.sum_congr rfl fun i _ => ?_
  congr 2
  show A i j - _ = Mat.val _ _ i j - _
  rw [hvv0 i i.2 j j.2]
  rfl

theorem orthoLocal_tot {q : QrEnv 𝕜} {e : ℝ} (hs : SignFn e q.sgn) (ht : 0 ≤ q.tiny) {Vhat E : VMat 𝕜} (hE : E.rows = Vhat.cols) :
    Tot (orthoLocal q Vhat E) fun r => QRLocal (max q.tiny e) Vhat r.1 r.2.2 ∧ r.2.1.rows = r.1.cols ∧ r.2.1.cols = E.cols ∧
      ∀ i < r.1.cols, ∀ j < E.cols, r.2.1.e i j = ∑ l ∈ Finset.range Vhat.cols, r.2.2.e i l * E.e l j := by
  obtain ⟨n, c, A⟩ := Vhat
  simp only at hE
  unfold orthoLocal
  simp only
  obtain ⟨tau, m1, e1, v1, ht1, hQ, herr'⟩ := qrLoaded hs ht n c A
  rw [e1, ok_bind]
  simp only
  rw [HV.copy_tot (show E.orows false = c by simpa [VMat.orows] using hE) (show E.ocols false = E.cols by simp [VMat.ocols]), ok_bind]
  obtain ⟨a, ha⟩ : ∃ a, a = VMat.window 0 (⟨n, c, A⟩ : VMat 𝕜) := ⟨_, rfl⟩
  rw [← ha] at v1 hQ herr' ⊢
  have har : a.rows = n := by rw [ha]; rfl
  have hac : a.cols = c := by rw [ha]; rfl
  have hab : ∀ x, a.Cell x → x < n * c := fun x h => by rw [ha] at h; have h' := (cell_lt h).2; rw [Nat.zero_add] at h'; exact h'
  obtain ⟨Eo, hEo⟩ : ∃ Eo : VMat 𝕜, Eo = ⟨c, E.cols, E.oe false⟩ := ⟨_, rfl⟩
  rw [← hEo]
  have hEor : Eo.rows = c := by rw [hEo]
  have hEoc : Eo.cols = E.cols := by rw [hEo]
  have hEoe : ∀ i j, Eo.e i j = E.e i j := fun i j => by rw [hEo]; simp [VMat.oe]
  obtain ⟨v2, vv2⟩ := alloc_keep (m := m1) (p := n * c) (n := Eo.rows * Eo.cols) (junk := fun x => Eo.e ((x - n * c) % Eo.rows) ((x - n * c) / Eo.rows)) hab v1
  obtain ⟨w2, ww2⟩ := load_tot (n * c) Eo m1
  obtain ⟨m2, hm2⟩ : ∃ m2, m2 = Eo.load (n * c) m1 := ⟨_, rfl⟩
  rw [← hm2] at w2 ww2 ⊢
  replace v2 : a.Valid m2 := by rw [hm2]; exact v2
  replace vv2 : ∀ i < a.rows, ∀ j < a.cols, a.val m2 i j = a.val m1 i j := by rw [hm2]; exact vv2
  obtain ⟨x, hx⟩ : ∃ x, x = Eo.window (n * c) := ⟨_, rfl⟩
  rw [← hx] at w2 ww2 ⊢
  have hxr : x.rows = c := by rw [hx, ← hEor]; rfl
  have hxc : x.cols = E.cols := by rw [hx, ← hEoc]; rfl
  have hxb : ∀ y, x.Cell y → n * c ≤ y ∧ y < n * c + Eo.rows * Eo.cols := fun y h => by rw [hx] at h; exact cell_lt h
  rw [initSub_ok.mpr ⟨by omega, by omega, rfl⟩, ok_bind]
  obtain ⟨a1, ha1⟩ : ∃ a1 : Mat, a1 = ⟨a.base + 0 + a.ld * 0, a.ld, min n c, c⟩ := ⟨_, rfl⟩
  have ea1 : (⟨a.base + 0 + a.ld * 0, a.ld, min n c, c⟩ : Mat) = a1 := ha1.symm
  have ha1r : a1.rows = min n c := by rw [ha1]
  have ha1c : a1.cols = c := by rw [ha1]
  have hadr : ∀ i j, a1.addr i j = a.addr i j := fun i j => by rw [ha1]; unfold Mat.addr; simp
  have ha1v : ∀ m i j, a1.val (K := 𝕜) m i j = a.val m i j := fun m i j => by unfold Mat.val; rw [hadr]
  have ha1V : a1.Valid m2 := ⟨by have := v2.1; rw [har] at this; rw [ha1]; simp only; omega, fun i hi j hj => by rw [hadr]; exact v2.2 i (by omega) j (by omega)⟩
  have ha1b : ∀ y, a1.Cell y → y < n * c := by
    rintro y ⟨i, hi, j, hj, rfl⟩
    rw [hadr]
    exact hab _ (Mat.cell_addr (by omega) (by omega))
  rw [ea1]
  refine Tot.bind (trieval_tot ha1V w2 (disj_blocks ha1b fun y h => (hxb y h).1) false false false false (show a1.rows ≤ x.rows by omega) (show a1.cols ≤ x.rows by omega)) ?_
  rintro m3 - ⟨X, h3, hX⟩
  rw [initSub_ok.mpr ⟨by omega, by omega, rfl⟩, ok_bind]
  obtain ⟨v3, vv3⟩ := frame_keep h3.2.2 (disj_blocks hab fun y h => (hxb y h).1) v2
  obtain ⟨v4, vv4⟩ := alloc_keep (m := m3) (p := n * c + Eo.rows * Eo.cols) (n := min n c * c) (junk := q.junk) (fun y h => by have := hab y h; omega) v3
  have w4 : (Mat.mk (n * c + Eo.rows * Eo.cols) (min n c) (min n c) c).Valid (m3.alloc (n * c + Eo.rows * Eo.cols) (min n c * c) q.junk) := Rk.alloc_valid
  obtain ⟨m4, hm4⟩ : ∃ m4, m4 = m3.alloc (n * c + Eo.rows * Eo.cols) (min n c * c) q.junk := ⟨_, rfl⟩
  rw [← hm4] at v4 vv4 w4 ⊢
  obtain ⟨p2, hp2⟩ : ∃ p2, p2 = n * c + Eo.rows * Eo.cols := ⟨_, rfl⟩
  rw [← hp2] at w4 ⊢
  refine Tot.bind (copyUpper_tot v4 w4 (disj_blocks (p := p2) (fun y h => by have := hab y h; omega) fun y h => (cell_lt h).1) false) fun m5 _ h5 => ?_
  obtain ⟨v5, vv5⟩ := frame_keep h5.2.2 (disj_blocks (p := p2) (fun y h => by have := hab y h; omega) fun y h => (cell_lt h).1) v4
  obtain ⟨v6, vv6⟩ := alloc_keep (m := m5) (p := p2 + min n c * c) (n := n * min n c) (junk := q.junk) (fun y h => by have := hab y h; omega) v5
  have w6 : (Mat.mk (p2 + min n c * c) n n (min n c)).Valid (m5.alloc (p2 + min n c * c) (n * min n c) q.junk) := Rk.alloc_valid
  obtain ⟨m7, e7, -, -, hm7, -⟩ := Props.C56_expand v6 w6 (disj_blocks (p := p2 + min n c * c) (fun y h => by have := hab y h; omega) fun y h => (cell_lt h).1) (show a.rows ≤ n by omega)
    (show min n c ≤ a.rows by omega) tau
  rw [e7, ok_bind]
  refine Tot.pure ?_
  simp only
  have eW : ∀ i < n, ∀ j < c, a.val (m5.alloc (p2 + min n c * c) (n * min n c) q.junk) i j = a.val m1 i j := fun i hi j hj => by
    rw [vv6 i (by omega) j (by omega), vv5 i (by omega) j (by omega), vv4 i (by omega) j (by omega), vv3 i (by omega) j (by omega), vv2 i (by omega) j (by omega)]
  have eC : ∀ i < min n c, ∀ j < c, (VMat.fetch (Mat.mk p2 (min n c) (min n c) c) m5).e i j = tri false false (a.val m1) i j := by
    intro i hi j hj
    show Mat.val _ m5 i j = _
    rw [h5.2.1 i hi j hj]
    beta_reduce
    rw [if_pos (show j < a.cols by omega), if_pos (show i < a.rows by omega)]
    exact tri_congr _ _ (by rw [vv4 i (by omega) j (by omega), vv3 i (by omega) j (by omega), vv2 i (by omega) j (by omega)])
  refine ⟨QRLocal.of_unitary hQ herr' rfl rfl rfl rfl (fun i j hi hj hjk => ?_) eC, rfl, hxc, fun i hi j hj => ?_⟩
  · have h8 := hm7 ⟨i, by omega⟩ ⟨j, hjk⟩
    show Mat.val _ m7 i j = _
    rw [h8]
    have h9 : ∀ {n' : Nat} (hn : n' = n) (hi' : i < n') (hj' : j < n') (k : Nat), k = min n c → qprod n' (a.val (m5.alloc (p2 + min n c * c) (n * min n c) q.junk)) tau.v k ⟨i, hi'⟩ ⟨j, hj'⟩
        = qprod n (a.val m1) tau.v (min n c) ⟨i, hi⟩ ⟨j, hj⟩ := by
      intro n' hn hi' hj' k hk
      subst hn
      subst hk
      rw [qprod_congr _ fun i hi j hj => eW i hi j (by omega)]
    exact h9 har _ (by omega) _ (by omega)
  · have hi : i < min n c := hi
    have h8 := h3.2.1 i (show i < x.rows by omega) j (show j < x.cols by omega)
    have h9 := hX i j
    simp only [op, opRows, opCols, Bool.false_eq_true, if_false] at h9
    rw [if_pos (show i < a1.rows by omega)] at h9
    show (m3 (Mat.addr _ i j)).getD 0 = _
    have h10 : (m3 (x.addr i j)).getD 0 = x.val m3 i j := rfl
    have h11 : Mat.addr ⟨x.base + 0 + x.ld * 0, x.ld, min n c, x.cols⟩ i j = x.addr i j := by unfold Mat.addr; simp
    rw [h11, h10, h8, h9, ha1c]
    refine Finset.sum_congr rfl fun l hl => ?_
    have hl := Finset.mem_range.mp hl
    rw [eC i hi l hl, ww2 l (by omega) j (by omega), hEoe]
    congr 1
    exact tri_congr _ _ (by rw [ha1v, vv2 i (by omega) l (by omega)])

theorem weightLocal_tot {q : QrEnv 𝕜} {e : ℝ} (hs : SignFn e q.sgn) (ht : 0 ≤ q.tiny) (Vhat : VMat 𝕜) :
    Tot (weightLocal q Vhat) fun C => ∃ Q, QRLocal (max q.tiny e) Vhat Q C := by
  obtain ⟨n, c, A⟩ := Vhat
  unfold weightLocal
  simp only
  obtain ⟨tau, m1, e1, v1, ht1, hQ, herr'⟩ := qrLoaded hs ht n c A
  rw [e1, ok_bind]
  simp only
  obtain ⟨a, ha⟩ : ∃ a, a = VMat.window 0 (⟨n, c, A⟩ : VMat 𝕜) := ⟨_, rfl⟩
  rw [← ha] at v1 hQ herr' ⊢
  have har : a.rows = n := by rw [ha]; rfl
  have hac : a.cols = c := by rw [ha]; rfl
  have hab : ∀ x, a.Cell x → x < n * c := fun x h => by rw [ha] at h; have h' := (cell_lt h).2; rw [Nat.zero_add] at h'; exact h'
  obtain ⟨v4, vv4⟩ := alloc_keep (m := m1) (p := n * c) (n := min n c * c) (junk := q.junk) hab v1
  have w4 : (Mat.mk (n * c) (min n c) (min n c) c).Valid (m1.alloc (n * c) (min n c * c) q.junk) := Rk.alloc_valid
  refine Tot.bind (copyUpper_tot v4 w4 (disj_blocks (p := n * c) hab fun y h => (cell_lt h).1) false) fun m5 _ h5 => Tot.pure ?_
  refine ⟨⟨n, min n c, fun i j => if h : i < n ∧ j < n then qprod n (a.val m1) tau.v (min n c) ⟨i, h.1⟩ ⟨j, h.2⟩ else 0⟩, QRLocal.of_unitary hQ herr' rfl rfl rfl rfl (fun i j hi hj hjk => ?_) ?_⟩
  · simp only
    rw [dif_pos ⟨hi, hj⟩]
  · intro i hi j hj
    show Mat.val _ m5 i j = _
    rw [h5.2.1 i hi j hj]
    beta_reduce
    rw [if_pos (show j < a.cols by omega), if_pos (show i < a.rows by omega)]
    exact tri_congr _ _ (by rw [vv4 i (by omega) j (by omega)])

end H2
