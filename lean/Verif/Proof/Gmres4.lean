import Verif.Proof.Gmres3
import Verif.Proof.Krylov
import Verif.Proof.Dense2

/-! # GMRES: from the memory to the values -/

set_option linter.unusedSectionVars false

namespace H2.Gm
open Spec Dense Matrix QR Krylov
variable {n : Nat} {C : Nat → Prop} {b x rhat q : Vec} {qr : Mat} {m0 m : Mem ℝ} {F : GVar qr.cols → Nat → ℝ}

/-- the matrix `qr` -/
def wof (qr : Mat) (F : GVar qr.cols → Nat → ℝ) (i j : Nat) : ℝ := if h : j < qr.cols then F (.col ⟨j, h⟩) i else 0

theorem wof_col (j : Fin qr.cols) (i : Nat) : wof qr F i j = F (.col j) i := dif_pos j.2

theorem gaddr (j : Fin qr.cols) (i : Nat) : (gvec b x rhat q qr (.col j)).addr i = qr.addr i j := by
  show qr.base + j * qr.ld + i = qr.base + (i + j * qr.ld)
  omega

theorem gdim (hv : GmresVars n C b x rhat q qr m0) (s : GVar qr.cols) : (gvec b x rhat q qr s).dim = n := (hv.sep.1 s).2

/-- reading and writing an entry -/
theorem _root_.H2.Krylov.Holds.readAt {ι : Type} [DecidableEq ι] {v : ι → Vec} {F : ι → Nat → ℝ} (h : Holds v m0 F m) (s : ι) {i : Nat} (hi : i < (v s).dim) :
    m.read ((v s).addr i) = .ok (F s i) := Mem.read_ok (h.1 s i hi)

theorem _root_.H2.Krylov.Holds.writeAt {ι : Type} [DecidableEq ι] {v : ι → Vec} {F : ι → Nat → ℝ} {dim : ι → Nat} (hs : Separate C v dim m0) (h : Holds v m0 F m) (s : ι) {i : Nat}
    (hi : i < (v s).dim) (y : ℝ) : Tot (m.write ((v s).addr i) y) (Holds v m0 (Function.update F s fun l => if l = i then y else F s l)) := by
  refine ⟨_, Mem.write_ok (h.1 s i hi), h.set hs ⟨?_, ?_, ?_⟩⟩
  · intro l hl
    by_cases e : l = i
    · subst e; rw [Mem.upd_same]; rfl
    · rw [Mem.upd_ne (fun e' => e (Vec.addr_inj e')), h.1 s l hl]; rfl
  · intro l hl
    unfold Vec.val
    by_cases e : l = i
    · subst e; rw [Mem.upd_same]; exact (if_pos rfl).symm
    · rw [Mem.upd_ne (fun e' => e (Vec.addr_inj e')), h.1 s l hl]; exact (if_neg e).symm
  · intro c hc
    exact Mem.upd_ne fun e => hc (e ▸ Vec.cell_addr hi)

/-- the leading `p` columns as a matrix -/
theorem lead_valid (hv : GmresVars n C b x rhat q qr m0) (h : Holds (gvec b x rhat q qr) m0 F m) {p : Nat} (hp : p ≤ qr.cols) :
    (Mat.mk (qr.base + 0 + qr.ld * 0) qr.ld qr.rows p).Valid m ∧ ∀ i < n, ∀ j < p, (Mat.mk (qr.base + 0 + qr.ld * 0) qr.ld qr.rows p).val m i j = wof qr F i j := by
  have key : ∀ i < n, ∀ j, j < p → m ((Mat.mk (qr.base + 0 + qr.ld * 0) qr.ld qr.rows p).addr i j) = some (wof qr F i j) := fun i hi j hj => by
    have := h.1 (.col ⟨j, by omega⟩) i (by rw [gdim hv]; exact hi)
    rw [gaddr] at this
    rw [wof, dif_pos (show j < qr.cols by omega), ← this]
    congr 1
  refine ⟨⟨hv.ld, fun i hi j hj => by rw [key i (hv.rows ▸ hi) j hj]; rfl⟩, fun i hi j hj => ?_⟩
  unfold Mat.val
  rw [key i hi j hj]; rfl

theorem lead_disj (hv : GmresVars n C b x rhat q qr m0) {p : Nat} (hp : p ≤ qr.cols) {s : GVar qr.cols} (hs : ∀ j : Fin qr.cols, j.1 < p → s ≠ .col j) :
    Disj (Mat.mk (qr.base + 0 + qr.ld * 0) qr.ld qr.rows p).Cell (gvec b x rhat q qr s).Cell := by
  rintro c ⟨i, hi, j, hj, rfl⟩ hc
  replace hj : j < p := hj
  replace hi : i < qr.rows := hi
  refine hv.sep.2 s (.col ⟨j, by omega⟩) (hs ⟨j, by omega⟩ hj) _ hc ⟨i, hi, ?_⟩
  rw [gaddr]
  rfl

/-- a multiplication by the product of reflections -/
theorem qreval_holds (hv : GmresVars n C b x rhat q qr m0) (h : Holds (gvec b x rhat q qr) m0 F m) {p : Nat} (hp : p ≤ qr.cols) (hpn : p ≤ n) {tau : Arr ℝ} (ht : p ≤ tau.n)
    {s : GVar qr.cols} (hs : ∀ j : Fin qr.cols, j.1 < p → s ≠ .col j) (qtrans : Bool) :
    Tot (qrevalVec qtrans ⟨qr.base + 0 + qr.ld * 0, qr.ld, qr.rows, p⟩ tau (gvec b x rhat q qr s) m) fun m' => ∃ X : Nat → ℝ, (Holds (gvec b x rhat q qr) m0 (Function.update F s X) m' ∧
      fv n X = (if qtrans then (qprod n (wof qr F) tau.v p)ᴴ else qprod n (wof qr F) tau.v p) *ᵥ fv n (F s)) := by
  obtain ⟨h1, h2⟩ := lead_valid hv h hp
  refine (qrevalVec_tot h1 (h.valid s) (lead_disj hv hp hs) (by show qr.rows ≤ _; rw [gdim hv, hv.rows]) tau qtrans).mono fun m' ⟨X, e1, _, e3⟩ => ?_
  refine ⟨X, h.set hv.sep e1, ?_⟩
  have hr := hv.rows
  subst hr
  have eq : min (min qr.rows p) tau.n = p := by omega
  have eQ : qprod qr.rows ((Mat.mk (qr.base + 0 + qr.ld * 0) qr.ld qr.rows p).val m) tau.v p = qprod qr.rows (wof qr F) tau.v p :=
    qprod_congr (fun l hl i hi _ => h2 i hi l hl) fun _ _ => rfl
  have ev : (fun i : Fin qr.rows => (gvec b x rhat q qr s).val m i) = fv qr.rows (F s) := by
    funext i; exact h.val s (by rw [gdim hv]; exact i.2)
  refine Eq.trans e3 ?_
  show (if qtrans then (qprod qr.rows _ tau.v (min (min qr.rows p) tau.n))ᴴ else qprod qr.rows _ tau.v (min (min qr.rows p) tau.n)) *ᵥ (fun i : Fin qr.rows => (gvec b x rhat q qr s).val m i) = _
  rw [ev, eq, eQ]

/-- from a part of a column to the column -/
theorem colpart_holds (hv : GmresVars n C b x rhat q qr m0) (h : Holds (gvec b x rhat q qr) m0 F m) (j : Fin qr.cols) {o : Nat} (ho : o ≤ n) {Y : Nat → Nat → ℝ} {m' : Mem ℝ}
    (hb : MatBecomes ⟨qr.base + o + qr.ld * j, qr.ld, qr.rows - o, 1⟩ m Y m') :
    Holds (gvec b x rhat q qr) m0 (Function.update F (.col j) fun i => if o ≤ i then Y (i - o) 0 else F (.col j) i) m' := by
  have hr := hv.rows
  have ea : ∀ i, o ≤ i → (gvec b x rhat q qr (.col j)).addr i = (Mat.mk (qr.base + o + qr.ld * j) qr.ld (qr.rows - o) 1).addr (i - o) 0 := fun i hi => by
    show qr.base + j * qr.ld + i = qr.base + o + qr.ld * j + (i - o + 0 * qr.ld)
    rw [Nat.mul_comm qr.ld]; omega
  have e1 : ∀ i < n, m' ((gvec b x rhat q qr (.col j)).addr i) = some (if o ≤ i then Y (i - o) 0 else F (.col j) i) := fun i hi => by
    by_cases e : o ≤ i
    · rw [if_pos e, ea i e, hb.1.some (show i - o < qr.rows - o by omega) (show 0 < 1 by omega), hb.2.1 _ (show i - o < qr.rows - o by omega) 0 (show 0 < 1 by omega)]
    · rw [if_neg e, hb.2.2, h.1 _ i (by rw [gdim hv]; exact hi)]
      rintro ⟨i', hi', j', hj', e'⟩
      replace hj' : j' < 1 := hj'
      obtain rfl : j' = 0 := by omega
      replace e' : qr.base + j * qr.ld + i = qr.base + o + qr.ld * j + (i' + 0 * qr.ld) := e'
      rw [Nat.mul_comm qr.ld] at e'; omega
  refine h.set hv.sep ⟨fun i hi => ?_, fun i hi => ?_, fun c hc => hb.2.2 c ?_⟩
  · rw [e1 i (by rwa [gdim hv] at hi)]; rfl
  · unfold Vec.val; rw [e1 i (by rwa [gdim hv] at hi)]; rfl
  · rintro ⟨i', hi', j', hj', e'⟩
    replace hj' : j' < 1 := hj'
    replace hi' : i' < qr.rows - o := hi'
    obtain rfl : j' = 0 := by omega
    refine hc ⟨i' + o, by rw [gdim hv]; omega, ?_⟩
    rw [ea _ (by omega), e', Nat.add_sub_cancel]

/-- a rotation of two entries -/
theorem givens_holds (hv : GmresVars n C b x rhat q qr m0) (h : Holds (gvec b x rhat q qr) m0 F m) (s : GVar qr.cols) {i : Nat} (hi : i + 1 < n) (rho : ℝ) :
    Tot (applyGivens rho ((gvec b x rhat q qr s).addr i) ((gvec b x rhat q qr s).addr (i + 1)) m) 
      (Holds (gvec b x rhat q qr) m0 (Function.update F s (rot i (givensCS rho).1 (givensCS rho).2 (F s)))) := by
  have hd := gdim hv s
  unfold applyGivens
  rw [h.readAt s (by omega), ok_bind, h.readAt s (by omega), ok_bind]
  refine Tot.bind (h.writeAt hv.sep s (by omega) _) fun m1 _ h1 => ?_
  refine (h1.writeAt hv.sep s (by omega) _).mono fun m2 h2 => h2.congr fun s' l _ => ?_
  by_cases e : s' = s
  · subst e
    simp only [Function.update_self, rot_apply]
    by_cases e1 : l = i + 1
    · rw [if_pos e1, if_neg (by omega), if_pos e1]
    · rw [if_neg e1]
      split_ifs <;> rfl
  · simp only [Function.update_of_ne e]

end H2.Gm
