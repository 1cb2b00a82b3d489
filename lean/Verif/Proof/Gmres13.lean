import Verif.Proof.Gmres12

/-! # GMRES: memory of the solvers -/

set_option linter.unusedSectionVars false

namespace H2.Gm
open Spec Dense Matrix QR Krylov
variable {n : Nat} {C : Nat → Prop} {b x : Vec} {m m1 : Mem ℝ} {nrhat nr nq nqr kmax : Nat}

/-- the cells of the new arrays -/
def NewCell (n nrhat nr nq nqr kmax c : Nat) : Prop := (Vec.mk nrhat n).Cell c ∨ (Vec.mk nr n).Cell c ∨ (Vec.mk nq n).Cell c ∨ (Vec.mk nqr (n * kmax)).Cell c

theorem col_cell (j : Fin kmax) {c : Nat} (h : (Vec.mk (nqr + j * n) n).Cell c) : (Vec.mk nqr (n * kmax)).Cell c := by
  obtain ⟨i, hi, rfl⟩ := h
  replace hi : i < n := hi
  refine ⟨j * n + i, ?_, by show nqr + j * n + i = nqr + (j * n + i); omega⟩
  have := Nat.mul_le_mul_right n (show j.1 + 1 ≤ kmax from j.2)
  rw [Nat.add_mul, Nat.mul_comm kmax] at this
  show j * n + i < n * kmax
  omega

theorem col_disj {i j : Fin kmax} (h : i ≠ j) : Disj (Vec.mk (nqr + i * n) n).Cell (Vec.mk (nqr + j * n) n).Cell := by
  rintro c ⟨p, hp, rfl⟩ ⟨p', hp', e⟩
  replace hp : p < n := hp
  replace hp' : p' < n := hp'
  replace e : nqr + i * n + p = nqr + j * n + p' := e
  apply h
  have : (i.1 * n + p) / n = (j.1 * n + p') / n := by rw [show i.1 * n + p = j.1 * n + p' by omega]
  rw [Nat.mul_comm i.1, Nat.mul_comm j.1, Nat.mul_add_div (by omega), Nat.mul_add_div (by omega), Nat.div_eq_of_lt hp, Nat.div_eq_of_lt hp', Nat.add_zero, Nat.add_zero] at this
  exact Fin.ext this

theorem alloc_new {junk : Nat → ℝ} {c : Nat} (h : NewCell n nrhat nr nq nqr kmax c) :
    ((((m.alloc nrhat n junk).alloc nr n junk).alloc nq n junk).alloc nqr (n * kmax) junk c).isSome := by
  have ke : ∀ (m : Mem ℝ) (a p : Nat), (m c).isSome → (m.alloc a p junk c).isSome := fun m a p h => by
    unfold Mem.alloc
    split_ifs
    · rfl
    · exact h
  have inn : ∀ (m : Mem ℝ) (a p : Nat), (Vec.mk a p).Cell c → (m.alloc a p junk c).isSome := by
    rintro m a p ⟨i, hi, rfl⟩
    exact alloc_in i hi
  rcases h with h | h | h | h
  · exact ke _ _ _ (ke _ _ _ (ke _ _ _ (inn _ _ _ h)))
  · exact ke _ _ _ (ke _ _ _ (inn _ _ _ h))
  · exact ke _ _ _ (inn _ _ _ h)
  · exact inn _ _ _ h

/-- the vectors of the method in the memory of the solvers -/
theorem gmres_vars (hC : ∀ c, C c → (m c).isSome) (hb : b.Valid m) (hx : x.Valid m) (db : b.dim = n) (dx : x.dim = n)
    (hbx : Disj b.Cell x.Cell) (hbC : Disj b.Cell C) (hxC : Disj x.Cell C) (fr : FreshVecs m [⟨nrhat, n⟩, ⟨nr, n⟩, ⟨nq, n⟩, ⟨nqr, n * kmax⟩])
    (keep : ∀ c, ¬ NewCell n nrhat nr nq nqr kmax c → m1 c = m c) (new : ∀ c, NewCell n nrhat nr nq nqr kmax c → (m1 c).isSome) :
    GmresVars n C b x ⟨nrhat, n⟩ ⟨nq, n⟩ ⟨nqr, n, n, kmax⟩ m1 := by
  obtain ⟨fr1, fr2⟩ := fr
  simp only [List.forall_mem_cons, List.pairwise_cons, List.not_mem_nil, IsEmpty.forall_iff, implies_true, and_true, List.Pairwise.nil] at fr1 fr2
  obtain ⟨f1, f2, f3, f4⟩ := fr1
  obtain ⟨⟨d1, d2, d3⟩, ⟨d4, d5⟩, d6⟩ := fr2
  have none : ∀ c, NewCell n nrhat nr nq nqr kmax c → m c = none := by
    rintro c (h | h | h | h)
    · exact f1 c h
    · exact f2 c h
    · exact f3 c h
    · exact f4 c h
  have old : ∀ c, (m c).isSome → ¬ NewCell n nrhat nr nq nqr kmax c := fun c h h' => by rw [none c h'] at h; cases h
  have vold : ∀ {v : Vec}, v.Valid m → v.Valid m1 := fun hv i hi => by rw [keep _ (old _ (hv i hi))]; exact hv i hi
  have dold : ∀ {v w : Vec}, v.Valid m → (∀ c, w.Cell c → NewCell n nrhat nr nq nqr kmax c) → Disj v.Cell w.Cell := by
    rintro v w hv hw c ⟨i, hi, rfl⟩ h
    exact old _ (hv i hi) (hw _ h)
  have sy : ∀ {S T : Nat → Prop}, Disj S T → Disj T S := fun h c h1 h2 => h c h2 h1
  have vnew : ∀ {w : Vec}, (∀ c, w.Cell c → NewCell n nrhat nr nq nqr kmax c) → w.Valid m1 := fun hw i hi => new _ (hw _ ⟨i, hi, rfl⟩)
  have c1 : ∀ c, (Vec.mk nrhat n).Cell c → NewCell n nrhat nr nq nqr kmax c := fun c h => .inl h
  have c2 : ∀ c, (Vec.mk nq n).Cell c → NewCell n nrhat nr nq nqr kmax c := fun c h => .inr (.inr (.inl h))
  have c3 : ∀ (j : Fin kmax) c, (Vec.mk (nqr + j * n) n).Cell c → NewCell n nrhat nr nq nqr kmax c := fun j c h => .inr (.inr (.inr (col_cell j h)))
  refine ⟨rfl, le_rfl, fun s => ?_, fun s t hst => ?_⟩
  · match s with
    | .b => exact ⟨⟨vold hb, hbC⟩, db⟩
    | .x => exact ⟨⟨vold hx, hxC⟩, dx⟩
    | .rhat => exact ⟨⟨vnew c1, fun c h h' => old c (hC c h') (c1 c h)⟩, rfl⟩
    | .q => exact ⟨⟨vnew c2, fun c h h' => old c (hC c h') (c2 c h)⟩, rfl⟩
    | .col j => exact ⟨⟨vnew (c3 j), fun c h h' => old c (hC c h') (c3 j c h)⟩, rfl⟩
  · match s, t with
    | .b, .b | .x, .x | .rhat, .rhat | .q, .q => exact absurd rfl hst
    | .b, .x => exact hbx
    | .x, .b => exact sy hbx
    | .b, .rhat => exact dold hb c1
    | .rhat, .b => exact sy (dold hb c1)
    | .x, .rhat => exact dold hx c1
    | .rhat, .x => exact sy (dold hx c1)
    | .b, .q => exact dold hb c2
    | .q, .b => exact sy (dold hb c2)
    | .x, .q => exact dold hx c2
    | .q, .x => exact sy (dold hx c2)
    | .b, .col j => exact dold hb (c3 j)
    | .col j, .b => exact sy (dold hb (c3 j))
    | .x, .col j => exact dold hx (c3 j)
    | .col j, .x => exact sy (dold hx (c3 j))
    | .rhat, .q => exact d2
    | .q, .rhat => exact sy d2
    | .rhat, .col j => exact fun c h h' => d3 c h (col_cell j h')
    | .col j, .rhat => exact fun c h h' => d3 c h' (col_cell j h)
    | .q, .col j => exact fun c h h' => d6 c h (col_cell j h')
    | .col j, .q => exact fun c h h' => d6 c h' (col_cell j h)
    | .col i, .col j => exact col_disj fun e => hst (e ▸ rfl)

/-- the memory after the release of the new arrays -/
theorem gmres_frame (hb : b.Valid m) (hx : x.Valid m) (db : b.dim = n) (dx : x.dim = n)
    (hbx : Disj b.Cell x.Cell) (fr : FreshVecs m [⟨nrhat, n⟩, ⟨nr, n⟩, ⟨nq, n⟩, ⟨nqr, n * kmax⟩])
    (keep : ∀ c, ¬ NewCell n nrhat nr nq nqr kmax c → m1 c = m c) {F : GVar kmax → Nat → ℝ} {m2 : Mem ℝ}
    (hh : Holds (gvec b x ⟨nrhat, n⟩ ⟨nq, n⟩ ⟨nqr, n, n, kmax⟩) m1 F m2) (hF : ∀ i < n, F .b i = b.val m i) :
    Frame x.Cell m ((((m2.free nqr (n * kmax)).free nq n).free nr n).free nrhat n) ∧
    ∀ i < n, x.val ((((m2.free nqr (n * kmax)).free nq n).free nr n).free nrhat n) i = F .x i := by
  obtain ⟨fr1, fr2⟩ := fr
  simp only [List.forall_mem_cons, List.not_mem_nil, IsEmpty.forall_iff, implies_true, and_true] at fr1
  obtain ⟨f1, f2, f3, f4⟩ := fr1
  constructor
  · intro c hc
    by_cases c1 : (Vec.mk nrhat n).Cell c
    · rw [free_in c1, f1 c c1]
    by_cases c2 : (Vec.mk nr n).Cell c
    · rw [free_out c1, free_in c2, f2 c c2]
    by_cases c3 : (Vec.mk nq n).Cell c
    · rw [free_out c1, free_out c2, free_in c3, f3 c c3]
    by_cases c4 : (Vec.mk nqr (n * kmax)).Cell c
    · rw [free_out c1, free_out c2, free_out c3, free_in c4, f4 c c4]
    rw [free_out c1, free_out c2, free_out c3, free_out c4]
    by_cases c5 : b.Cell c
    · obtain ⟨i, hi, rfl⟩ := c5
      have e1 := hh.1 .b i hi
      replace e1 : m2 (b.addr i) = some (F .b i) := e1
      rw [e1, hF i (by omega)]
      exact (hb.some hi).symm
    · rw [hh.2 c, keep c]
      · rintro (h | h | h | h)
        · exact c1 h
        · exact c2 h
        · exact c3 h
        · exact c4 h
      · intro s h
        match s with
        | .b => exact c5 h
        | .x => exact hc h
        | .rhat => exact c1 h
        | .q => exact c3 h
        | .col j => exact c4 (col_cell j h)
  · intro i hi
    have hs : (m (x.addr i)).isSome := hx i (by omega)
    have ns : ∀ {w : Vec}, (∀ c, w.Cell c → m c = none) → ¬ w.Cell (x.addr i) := fun hw h => by rw [hw _ h] at hs; cases hs
    unfold Vec.val
    rw [free_out (ns f1), free_out (ns f2), free_out (ns f3), free_out (ns f4)]
    have e1 := hh.1 .x i (show i < x.dim by omega)
    replace e1 : m2 (x.addr i) = some (F .x i) := e1
    rw [e1]; rfl

end H2.Gm
