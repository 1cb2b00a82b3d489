import Verif.Proof.Harith8
import Verif.Proof.FactorUse
import Verif.Spec.Factor
import Verif.Model.HSolve

/-! Triangular solves with H-matrices: sweeps over the blocks. -/

set_option linter.unusedSectionVars false

namespace H2
open Spec Dense
variable {G K : Type} [Field K] [StarRing K]

/-! ### loops in both directions -/

/-- boundary before round `i` -/
def bprev (fwd : Bool) (i : Nat) : Nat := if fwd then i else i + 1
/-- boundary after round `i` -/
def bnext (fwd : Bool) (i : Nat) : Nat := if fwd then i + 1 else i
def bstart (fwd : Bool) (n : Nat) : Nat := if fwd then 0 else n
def bend (fwd : Bool) (n : Nat) : Nat := if fwd then n else 0
/-- `j` comes after `i` -/
def after (fwd : Bool) (i j : Nat) : Prop := if fwd then i < j else j < i

theorem sweep_tot {σ : Type} {fwd : Bool} {n : Nat} {body : Nat → σ → R σ} {s : σ} (I : Nat → σ → Prop)
    (h0 : I (bstart fwd n) s) (hb : ∀ i < n, ∀ t, I (bprev fwd i) t → Tot (body i t) (I (bnext fwd i))) :
    Tot (HV.sweep fwd n body s) (I (bend fwd n)) := by
  unfold HV.sweep
  cases fwd
  · rw [if_neg (by simp)]
    exact forDown_tot I h0 fun k t hk h => hb k hk t h
  · rw [if_pos rfl]
    exact forUp_tot I (Nat.zero_le _) h0 fun k t _ hk h => hb k hk t h

theorem sweepRest_tot {σ : Type} {fwd : Bool} {i n : Nat} (hi : i < n) {body : Nat → σ → R σ} {s : σ} (I : Nat → σ → Prop)
    (h0 : I (bnext fwd i) s)
    (hb : ∀ j < n, after fwd i j → ∀ t, I (bprev fwd j) t → Tot (body j t) (I (bnext fwd j))) :
    Tot (HV.sweepRest fwd i n body s) (I (bend fwd n)) := by
  unfold HV.sweepRest
  cases fwd
  · rw [if_neg (by simp)]
    exact forDown_tot I h0 fun k t hk h => hb k (by omega) hk t h
  · rw [if_pos rfl]
    exact forUp_tot I (by omega) h0 fun k t h1 hk h => hb k hk (show i < k by omega) t h

theorem offAt_ok {fwd : Bool} {n : Nat} (sz : Fin n → Nat) (i : Fin n) :
    HV.offAt fwd (pre sz (bprev fwd i.1)) (sz i) = .ok (pre sz i.1) := by
  unfold HV.offAt bprev
  cases fwd
  · simp only [Bool.false_eq_true, if_false]
    rw [pre_succ, if_pos (by omega), Nat.add_sub_cancel]
  · rfl

theorem offNext_eq {fwd : Bool} {n : Nat} (sz : Fin n → Nat) (i : Fin n) :
    HV.offNext fwd (pre sz i.1) (sz i) = pre sz (bnext fwd i.1) := by
  unfold HV.offNext bnext
  cases fwd
  · rfl
  · simp only [if_true]; rw [pre_succ]

/-! ### the part of the index set that has been treated -/

/-- the positions of the blocks treated when the boundary `p` has been reached -/
def Done (fwd : Bool) (t : CRef G) {n : Nat} (R : Fin n → CRef G) (p : Nat) : Finset Nat :=
  if fwd then Finset.Ico t.cl.off (t.cl.off + pre (fun k => (R k).cl.size) p)
  else Finset.Ico (t.cl.off + pre (fun k => (R k).cl.size) p) (t.cl.off + t.cl.size)

section
variable {t : CRef G} {n : Nat} {R : Fin n → CRef G} (hR : Segments t R) {fwd : Bool}
include hR

theorem done_start : Done fwd t R (bstart fwd n) = ∅ := by
  unfold Done bstart
  cases fwd
  · simp only [Bool.false_eq_true, if_false]
    rw [pre_all, hR.2, Finset.Ico_self]
  · simp only [if_true]
    rw [pre_zero, Nat.add_zero, Finset.Ico_self]

theorem done_end : Done fwd t R (bend fwd n) = seg t := by
  unfold Done bend seg
  cases fwd
  · simp only [Bool.false_eq_true, if_false]
    rw [pre_zero, Nat.add_zero]
  · simp only [if_true]
    rw [pre_all, hR.2]

theorem done_next (i : Fin n) {r : Nat} :
    r ∈ Done fwd t R (bnext fwd i.1) ↔ r ∈ Done fwd t R (bprev fwd i.1) ∨ r ∈ seg (R i) := by
  have e1 := segments_off hR i
  have e2 := segments_end hR i
  have e3 := pre_succ (fun k => (R k).cl.size) i
  unfold Done bnext bprev
  rw [mem_seg]
  cases fwd
  · simp only [Bool.false_eq_true, if_false, Finset.mem_Ico]
    omega
  · simp only [if_true, Finset.mem_Ico]
    omega

theorem done_not (i : Fin n) {r : Nat} (h : r ∈ seg (R i)) : r ∉ Done fwd t R (bprev fwd i.1) := by
  have e1 := segments_off hR i
  have e2 := segments_end hR i
  have e3 := pre_succ (fun k => (R k).cl.size) i
  rw [mem_seg] at h
  unfold Done bprev
  cases fwd
  · simp only [Bool.false_eq_true, if_false, Finset.mem_Ico]
    omega
  · simp only [if_true, Finset.mem_Ico]
    omega

theorem done_sub (p : Nat) (hp : p ≤ n) : Done fwd t R p ⊆ seg t := by
  have e : pre (fun k => (R k).cl.size) p ≤ t.cl.size := by
    rw [← hR.2, ← pre_all]; exact pre_mono _ hp
  intro r hr
  rw [mem_seg]
  unfold Done at hr
  cases fwd
  · simp only [Bool.false_eq_true, if_false, Finset.mem_Ico] at hr
    omega
  · simp only [if_true, Finset.mem_Ico] at hr
    omega

/-- blocks treated later are treated later -/
theorem after_not (i j : Fin n) (h : after fwd i.1 j.1) {r : Nat} (hr : r ∈ seg (R j)) : r ∉ Done fwd t R (bnext fwd i.1) := by
  intro h'
  have e1 := segments_off hR j
  have e2 := segments_end hR j
  rw [mem_seg] at hr
  unfold Done bnext at h'
  unfold after at h
  cases fwd
  · simp only [Bool.false_eq_true, if_false, Finset.mem_Ico] at h' h
    have := pre_mono (fun k => (R k).cl.size) (show j.1 + 1 ≤ i.1 by omega)
    rw [pre_succ] at this
    omega
  · simp only [if_true, Finset.mem_Ico] at h' h
    have := pre_mono (fun k => (R k).cl.size) (show i.1 + 1 ≤ j.1 by omega)
    omega

theorem seg_mem_some {r : Nat} (h : r ∈ seg t) : ∃ i, r ∈ seg (R i) := by
  by_contra hn
  have := sum_pick_seg hR r (1 : Nat)
  rw [if_pos h, Finset.sum_eq_zero] at this
  · omega
  · intro i _
    exact if_neg fun h' => hn ⟨i, h'⟩

end

theorem op_tri_zero {lower unit trans : Bool} {A : Nat → Nat → K} {t : CRef G} {n : Nat} {R : Fin n → CRef G} (hR : Segments t R)
    (i : Fin n) {r c : Nat} (hr : r ∈ Done (lower != trans) t R (bprev (lower != trans) i.1)) (hc : c ∈ seg (R i)) :
    op trans (tri lower unit A) r c = 0 := by
  have e1 := segments_off hR i
  have e3 := pre_succ (fun k => (R k).cl.size) i
  rw [mem_seg] at hc
  rw [op_tri]
  generalize (lower != trans) = fwd at hr ⊢
  unfold Done bprev at hr
  cases fwd
  · simp only [Bool.false_eq_true, if_false, Finset.mem_Ico] at hr ⊢
    rw [if_neg (by omega), if_neg (by omega)]
  · simp only [if_true, Finset.mem_Ico] at hr ⊢
    rw [if_neg (by omega), if_neg (by omega)]

/-- rows before the diagonal block and columns behind it, resp. the other way around -/
theorem op_tri_after {lower unit trans : Bool} {A : Nat → Nat → K} {t : CRef G} {n : Nat} {R : Fin n → CRef G} (hR : Segments t R)
    (i j : Fin n) (h : after (lower != trans) i.1 j.1) {r c : Nat} (hr : r ∈ seg (R j)) (hc : c ∈ seg (R i)) :
    op trans (tri lower unit A) r c = op trans A r c := by
  have e1 := segments_off hR i
  have e2 := segments_off hR j
  rw [mem_seg] at hr hc
  rw [op_tri]
  generalize (lower != trans) = fwd at h ⊢
  unfold after at h
  cases fwd
  · simp only [Bool.false_eq_true, if_false] at h ⊢
    have := pre_mono (fun k => (R k).cl.size) (show j.1 + 1 ≤ i.1 by omega)
    rw [pre_succ] at this
    rw [if_neg (by omega), if_pos (by omega)]
  · simp only [if_true] at h ⊢
    have := pre_mono (fun k => (R k).cl.size) (show i.1 + 1 ≤ j.1 by omega)
    rw [pre_succ] at this
    rw [if_neg (by omega), if_pos (by omega)]

/-! ### block substitution -/

/-- The rows in `S` have been solved for, the remaining ones contain the updated right-hand side. -/
def SInv (T : Nat → Nat → K) (all S : Finset Nat) (X0 X : Nat → Nat → K) : Prop :=
  (∀ r ∈ S, ∀ q, ∑ c ∈ S, T r c * X c q = X0 r q) ∧
  ∀ r ∈ all, r ∉ S → ∀ q, X r q = X0 r q - ∑ c ∈ S, T r c * X c q

theorem sinv_start {T : Nat → Nat → K} {all : Finset Nat} {X0 X : Nat → Nat → K} (h : ∀ r ∈ all, ∀ q, X r q = X0 r q) :
    SInv T all ∅ X0 X :=
  ⟨fun r hr => absurd hr (Finset.notMem_empty r), fun r hr _ q => by rw [h r hr, Finset.sum_empty, sub_zero]⟩

theorem sinv_step {T : Nat → Nat → K} {all S S' B : Finset Nat} {X0 X X' : Nat → Nat → K} (h : SInv T all S X0 X)
    (hS : ∀ r, r ∈ S' ↔ r ∈ S ∨ r ∈ B) (hd : ∀ r ∈ B, r ∉ S) (hB : B ⊆ all) (hT : ∀ r ∈ S, ∀ c ∈ B, T r c = 0)
    (h1 : ∀ r ∈ S, ∀ q, X' r q = X r q) (h2 : ∀ r ∈ B, ∀ q, ∑ c ∈ B, T r c * X' c q = X r q)
    (h3 : ∀ r ∈ all, r ∉ S' → ∀ q, X' r q = X r q - ∑ c ∈ B, T r c * X' c q) : SInv T all S' X0 X' := by
  have hS' : S' = S ∪ B := Finset.ext fun r => by rw [hS, Finset.mem_union]
  have hdj : Disjoint S B := Finset.disjoint_left.mpr fun r hr hr' => hd r hr' hr
  subst hS'
  have e : ∀ r q, ∑ c ∈ S ∪ B, T r c * X' c q = ∑ c ∈ S, T r c * X c q + ∑ c ∈ B, T r c * X' c q := by
    intro r q
    rw [Finset.sum_union hdj]
    congr 1
    exact Finset.sum_congr rfl fun c hc => by rw [h1 c hc]
  constructor
  · intro r hr q
    rw [e]
    rcases Finset.mem_union.mp hr with hr | hr
    · rw [h.1 r hr, Finset.sum_eq_zero (fun c hc => by rw [hT r hr c hc, zero_mul]), add_zero]
    · rw [h2 r hr, h.2 r (hB hr) (hd r hr), add_sub_cancel]
  · intro r hr hn q
    rw [e, h3 r hr hn, h.2 r hr (fun h' => hn (Finset.mem_union_left _ h')), sub_sub]

end H2
