import Verif.Proof.Dense

/-!
# From memory to functions

A memory-level loop over the entries of one matrix is simulated by a loop on functions `Nat → Nat → K`.
-/

set_option linter.unusedSectionVars false

namespace H2

/-- a loop simulates a pure loop -/
theorem forUp_sim {σ τ : Type _} (Rel : τ → σ → Prop) {lo hi : Nat} {body : Nat → σ → R σ} {fb : Nat → τ → τ}
    (hb : ∀ k, lo ≤ k → k < hi → ∀ t s, Rel t s → Tot (body k s) (Rel (fb k t))) {t : τ} {s : σ} (h : Rel t s) :
    Tot (forUp lo hi body s) (Rel (forT lo hi fb t)) := by
  unfold forUp forT
  suffices ∀ n k, lo ≤ k → k + n ≤ max lo hi → ∀ t s, Rel t s →
      Tot (loopN body n k s) (Rel (loopT fb n k t)) from this _ _ le_rfl (by omega) t s h
  intro n
  induction n with
  | zero => intro k _ _ t s h; exact ⟨s, rfl, h⟩
  | succ n ih =>
    intro k hk1 hk2 t s h
    exact Tot.bind (hb k hk1 (by omega) t s h) fun s' _ h' => ih (k + 1) (by omega) (by omega) _ _ h'

/-- a loop on pure state is the identity if every round is -/
theorem forT_id {τ : Type _} {lo hi : Nat} {fb : Nat → τ → τ} {t : τ} (h : ∀ k, lo ≤ k → k < hi → fb k t = t)
    (hle : lo ≤ hi) : forT lo hi fb t = t :=
  forT_inv (fun _ s => s = t) hle rfl fun k s h1 h2 hs => by rw [hs]; exact h k h1 h2

/-- entry update on functions -/
def fset {K : Type _} (F : Nat → Nat → K) (i j : Nat) (x : K) : Nat → Nat → K :=
  fun i' j' => if i' = i ∧ j' = j then x else F i' j'

theorem fset_same {K : Type _} (F : Nat → Nat → K) (i j : Nat) (x : K) : fset F i j x i j = x := by simp [fset]
theorem fset_ne {K : Type _} {F : Nat → Nat → K} {i j i' j' : Nat} {x : K} (h : ¬ (i' = i ∧ j' = j)) :
    fset F i j x i' j' = F i' j' := by simp [fset, h]

namespace Dense
open Spec
variable {K : Type _} [Field K] [StarRing K]

theorem becomes_self {a : Mat} {m : Mem K} (ha : a.Valid m) : MatBecomes a m (a.val m) m :=
  ⟨ha, fun _ _ _ _ => rfl, fun _ _ => rfl⟩

theorem becomes_read {a : Mat} {m0 m : Mem K} {F : Nat → Nat → K} (h : MatBecomes a m0 F m) {i j : Nat}
    (hi : i < a.rows) (hj : j < a.cols) : m.read (a.addr i j) = .ok (F i j) := by
  apply Mem.read_ok
  rw [h.1.some hi hj, h.2.1 i hi j hj]

theorem becomes_write {a : Mat} {m0 m : Mem K} {F : Nat → Nat → K} (h : MatBecomes a m0 F m) {i j : Nat}
    (hi : i < a.rows) (hj : j < a.cols) (x : K) :
    Tot (m.write (a.addr i j) x) (MatBecomes a m0 (fset F i j x)) := by
  refine ⟨_, Mem.write_ok (h.1.some hi hj), ⟨h.1.1, ?_⟩, ?_, ?_⟩
  · intro i' hi' j' hj'
    by_cases e : i' = i ∧ j' = j
    · rw [e.1, e.2, Mem.upd_same]; rfl
    · rw [Mem.upd_ne fun e' => e (Mat.addr_inj h.1.1 hi' hi e')]
      exact h.1.2 i' hi' j' hj'
  · intro i' hi' j' hj'
    by_cases e : i' = i ∧ j' = j
    · rw [e.1, e.2, fset_same]; simp [Mat.val, Mem.upd_same]
    · rw [fset_ne e, ← h.2.1 i' hi' j' hj']
      simp only [Mat.val]
      rw [Mem.upd_ne fun e' => e (Mat.addr_inj h.1.1 hi' hi e')]
  · intro c hc
    rw [Mem.upd_ne]
    · exact h.2.2 c hc
    · rintro rfl; exact hc (Mat.cell_addr hi hj)

theorem becomes_rw {a : Mat} {m0 m : Mem K} {F : Nat → Nat → K} (h : MatBecomes a m0 F m) {i j : Nat}
    (hi : i < a.rows) (hj : j < a.cols) (g : K → K) :
    Tot (m.read (a.addr i j) >>= fun x => m.write (a.addr i j) (g x)) (MatBecomes a m0 (fset F i j (g (F i j)))) := by
  rw [becomes_read h hi hj, ok_bind]
  exact becomes_write h hi hj _

/-- reading another matrix -/
theorem becomes_read_other {a b : Mat} {m0 m : Mem K} {F : Nat → Nat → K} (h : MatBecomes a m0 F m)
    (hb : b.Valid m0) (hd : Disj b.Cell a.Cell) {i j : Nat} (hi : i < b.rows) (hj : j < b.cols) :
    m.read (b.addr i j) = .ok (b.val m0 i j) := by
  apply Mem.read_ok
  rw [h.2.2 _ (hd _ (Mat.cell_addr hi hj)), hb.some hi hj]

/-- reading a vector -/
theorem becomes_read_vec {a : Mat} {v : Vec} {m0 m : Mem K} {F : Nat → Nat → K} (h : MatBecomes a m0 F m)
    (hv : v.Valid m0) (hd : Disj v.Cell a.Cell) {i : Nat} (hi : i < v.dim) :
    m.read (v.addr i) = .ok (v.val m0 i) := by
  apply Mem.read_ok
  rw [h.2.2 _ (hd _ (Vec.cell_addr hi)), hv.some hi]

end Dense
end H2
