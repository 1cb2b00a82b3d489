import Verif.Proof.BlockEnum
import Verif.Model.HEnum
import Verif.Spec.HEnum

set_option linter.unusedSectionVars false

namespace H2
open Spec

/-- the concatenation of the lists `L i j` column by column -/
def colCat {α : Type _} {m n : Nat} (L : Fin m → Fin n → List α) : List α :=
  (List.finRange n).flatMap fun j => (List.finRange m).flatMap fun i => L i j

def colPre {α : Type _} {m n : Nat} (L : Fin m → Fin n → List α) (j : Nat) : List α :=
  ((List.finRange n).take j).flatMap fun j => (List.finRange m).flatMap fun i => L i j
def rowPre {α : Type _} {m n : Nat} (L : Fin m → Fin n → List α) (j : Fin n) (i : Nat) : List α :=
  ((List.finRange m).take i).flatMap fun i => L i j

theorem rowPre_succ {α : Type _} {m n : Nat} (L : Fin m → Fin n → List α) (j : Fin n) (i : Fin m) : rowPre L j (i.1 + 1) = rowPre L j i.1 ++ L i j := by
  unfold rowPre; rw [take_finRange_succ, List.flatMap_append]; simp
theorem colPre_succ {α : Type _} {m n : Nat} (L : Fin m → Fin n → List α) (j : Fin n) : colPre L (j.1 + 1) = colPre L j.1 ++ rowPre L j m := by
  unfold colPre rowPre
  rw [take_finRange_succ, List.flatMap_append, List.take_of_length_le (i := m) (l := List.finRange m) (by simp)]; simp
theorem colPre_all {α : Type _} {m n : Nat} (L : Fin m → Fin n → List α) : colPre L n = colCat L := by
  unfold colPre colCat; rw [List.take_of_length_le (by simp)]
theorem rowPre_le {α : Type _} {m n : Nat} (L : Fin m → Fin n → List α) (j : Fin n) (i : Fin m) : (rowPre L j (i.1 + 1)).length ≤ (rowPre L j m).length := by
  have e : (List.finRange m).take m = (List.finRange m).take (i.1 + 1) ++ ((List.finRange m).take m).drop (i.1 + 1) := by
    have := (List.take_append_drop (i.1 + 1) ((List.finRange m).take m)).symm
    rwa [List.take_take, Nat.min_eq_left (by have := i.2; omega)] at this
  unfold rowPre
  rw [e, List.flatMap_append, List.length_append]; omega
theorem colPre_le {α : Type _} {m n : Nat} (L : Fin m → Fin n → List α) (j : Fin n) : (colPre L (j.1 + 1)).length ≤ (colPre L n).length := by
  have e : (List.finRange n).take n = (List.finRange n).take (j.1 + 1) ++ ((List.finRange n).take n).drop (j.1 + 1) := by
    have := (List.take_append_drop (j.1 + 1) ((List.finRange n).take n)).symm
    rwa [List.take_take, Nat.min_eq_left (by have := j.2; omega)] at this
  unfold colPre
  rw [e, List.flatMap_append, List.length_append]; omega

/-- a double loop that writes lists one after the other into an array -/
theorem fold_putList {α : Type _} {m n : Nat} (L : Fin m → Fin n → List α) {cap : Nat}
    {step : Fin n → Fin m → (Nat → Option α) × Nat → R ((Nat → Option α) × Nat)}
    (hstep : ∀ j i a k, k + (L i j).length ≤ cap → step j i (a, k) = .ok (putList (L i j) k a, k + (L i j).length))
    {a : Nat → Option α} {k : Nat} (hc : k + (colCat L).length ≤ cap) :
    foldFinM n (fun j st => foldFinM m (fun i st => step j i st) st) (a, k) = .ok (putList (colCat L) k a, k + (colCat L).length) := by
  rw [← colPre_all] at hc ⊢
  have H : Tot (foldFinM n (fun j st => foldFinM m (fun i st => step j i st) st) (a, k)) fun st => st = (putList (colPre L n) k a, k + (colPre L n).length) := by
    refine foldFinM_tot (P := fun j (st : (Nat → Option α) × Nat) => st = (putList (colPre L j) k a, k + (colPre L j).length)) ?_ ?_
    · simp [colPre, putList_nil]
    · rintro j _ rfl
      rw [colPre_succ]
      refine foldFinM_tot (P := fun i (st : (Nat → Option α) × Nat) => st = (putList (colPre L j ++ rowPre L j i) k a, k + (colPre L j ++ rowPre L j i).length)) ?_ ?_
      · simp [rowPre]
      · rintro i _ rfl
        have h1 := rowPre_le L j i
        have h2 := colPre_le L j
        rw [colPre_succ, List.length_append] at h2
        rw [rowPre_succ, List.length_append] at h1
        refine ⟨_, hstep j i _ _ (by rw [List.length_append]; omega), ?_⟩
        rw [putList_append, rowPre_succ]
        simp [Nat.add_assoc]
  obtain ⟨_, e, rfl⟩ := H
  exact e

namespace HMat
variable {G : Type _}

/-- the entries of the array, in the order of the blocks -/
def hsubs : H2.Block G → Option (HMat G) → List (Option (HMat G))
  | .mk _ _ _ _ _ _ son, hm => hm :: colCat fun i j => hsubs (son i j) (sonPtr hm i.1 j.1)

/-- the function succeeds -/
def Fits (dbg : Bool) : H2.Block G → Option (HMat G) → Prop
  | .mk rc cc _ _ m n son, hm => entryCheck dbg rc cc hm = .ok () ∧ sonCheck m n hm = .ok () ∧ ∀ i j, Fits dbg (son i j) (sonPtr hm i.1 j.1)

theorem hsubs_length (b : H2.Block G) : ∀ hm, (hsubs b hm).length = (bnodes b).length := by
  induction b with
  | mk rc cc a d m n son ih =>
    intro hm
    rw [hsubs, bnodes]
    simp only [List.length_cons, colCat, List.length_flatMap, ih]

theorem henumerate_tot (dbg : Bool) (cap : Nat) (b : H2.Block G) : BDescExact b → ∀ hm, Fits dbg b hm → ∀ k hn, k + (bnodes b).length ≤ cap →
    enumerate dbg cap b k hm hn = .ok (putList (hsubs b hm) k hn) := by
  induction b with
  | mk rc cc a d m n son ih =>
    intro hd hm hf k hn hcap
    obtain ⟨hd1, hd2⟩ := bdesc_son hd
    obtain ⟨f1, f2, f3⟩ := hf
    have hl := hsubs_length (.mk rc cc a d m n son) hm
    rw [hsubs, List.length_cons] at hl
    have hd1' : d = (bnodes (.mk rc cc a d m n son)).length := by rw [bnodes_cols, List.length_cons]; exact hd1
    rw [enumerate, f1]
    simp only [bind, Except.bind, pure, Except.pure]
    rw [if_neg (by omega)]
    simp only [f2]
    have := fold_putList (fun i j => hsubs (son i j) (sonPtr hm i.1 j.1)) (cap := cap)
      (step := fun j i (st : (Nat → Option (Option (HMat G))) × Nat) => do
          let hn ← enumerate dbg cap (son i j) st.2 (sonPtr hm i j) st.1
          pure (hn, st.2 + (son i j).desc))
      (fun j i a k hk => by
        rw [hsubs_length] at hk
        simp only
        rw [ih i j (hd2 i j) _ (f3 i j) k a hk, hsubs_length, ← hd2 i j _ (mem_bnodes_self _)]
        rfl)
      (a := fun i => if i = k then some hm else hn i) (k := k + 1) (by omega)
    simp only [bind, Except.bind, pure, Except.pure] at this
    rw [this]
    simp only
    rw [cassert, if_pos (by simp; omega), putList_single]
    simp only
    congr 1
    exact putList_append [hm] _ k hn

theorem sonPtr_none (i j : Nat) : sonPtr (none : Option (HMat G)) i j = none := rfl

theorem fits_none (b : H2.Block G) : Fits false b none := by
  induction b with
  | mk rc cc a d m n son ih => exact ⟨rfl, rfl, fun i j => ih i j⟩

theorem sonPtr_super {t s : CRef G} {d m n : Nat} {son : Fin m → Fin n → HMat G} (i : Fin m) (j : Fin n) :
    sonPtr (some (.super t s d m n son)) i.1 j.1 = some (son i j) := by
  unfold sonPtr
  simp only
  rw [dif_pos ⟨i.2, j.2⟩]

theorem entryCheck_ok {dbg : Bool} {rc cc : CRef G} {h : HMat G} (h1 : h.rc = rc) (h2 : h.cc = cc) : entryCheck dbg rc cc (some h) = .ok () := by
  unfold entryCheck
  split
  · subst h1 h2; simp [CRef.same, cassert, bind, Except.bind]
  · rfl

theorem fits_coarser (b : H2.Block G) : ∀ h, CoarserHMat b h → Fits false b (some h) := by
  induction b with
  | mk rc cc a d m n son ih =>
    rintro (⟨t, s, d', r⟩ | ⟨t, s, d', f⟩ | ⟨t, s, d', m', n', hson⟩) hc
    · exact ⟨rfl, rfl, fun i j => fits_none _⟩
    · exact ⟨rfl, rfl, fun i j => fits_none _⟩
    · obtain ⟨h1, h2, rfl, rfl, h3⟩ := hc
      refine ⟨rfl, by simp [sonCheck, cassert, bind, Except.bind], fun i j => ?_⟩
      rw [sonPtr_super]
      exact ih i j _ (h3 i j i j rfl rfl)

theorem fits_same (b : H2.Block G) : ∀ h, SameBlocks b h → Fits true b (some h) := by
  induction b with
  | mk rc cc a d m n son ih =>
    have z : m * n = 0 → ∀ P : Fin m → Fin n → Prop, ∀ i j, P i j := fun h0 P i j => by
      have := i.2; have := j.2
      exact absurd h0 (Nat.mul_ne_zero (by omega) (by omega))
    rintro (⟨t, s, d', r⟩ | ⟨t, s, d', f⟩ | ⟨t, s, d', m', n', hson⟩) hc
    · exact ⟨entryCheck_ok hc.1 hc.2.1, rfl, z hc.2.2 _⟩
    · exact ⟨entryCheck_ok hc.1 hc.2.1, rfl, z hc.2.2 _⟩
    · obtain ⟨h1, h2, rfl, rfl, h3⟩ := hc
      refine ⟨entryCheck_ok h1 h2, by simp [sonCheck, cassert, bind, Except.bind], fun i j => ?_⟩
      rw [sonPtr_super]
      exact ih i j _ (h3 i j i j rfl rfl)

theorem coarser_of_same (b : H2.Block G) : ∀ h, SameBlocks b h → CoarserHMat b h := by
  induction b with
  | mk rc cc a d m n son ih =>
    rintro (⟨t, s, d', r⟩ | ⟨t, s, d', f⟩ | ⟨t, s, d', m', n', hson⟩) hc
    · exact ⟨hc.1, hc.2.1⟩
    · exact ⟨hc.1, hc.2.1⟩
    · exact ⟨hc.1, hc.2.1, hc.2.2.1, hc.2.2.2.1, fun i j i' j' e e' => ih i j _ (hc.2.2.2.2 i j i' j' e e')⟩

theorem hsubs_same (b : H2.Block G) : ∀ h, SameBlocks b h → hsubs b (some h) = (hnodes h).map some := by
  induction b with
  | mk rc cc a d m n son ih =>
    have z : m * n = 0 → ∀ L : Fin m → Fin n → List (Option (HMat G)), colCat L = [] := fun h0 L => by
      unfold colCat
      rcases Nat.mul_eq_zero.mp h0 with rfl | rfl <;> simp
    rintro (⟨t, s, d', r⟩ | ⟨t, s, d', f⟩ | ⟨t, s, d', m', n', hson⟩) hc
    · rw [hsubs, z hc.2.2]; rfl
    · rw [hsubs, z hc.2.2]; rfl
    · obtain ⟨h1, h2, rfl, rfl, h3⟩ := hc
      rw [hsubs, hnodes, List.map_cons, List.map_flatMap]
      congr 1
      unfold colCat
      refine List.flatMap_congr fun j _ => ?_
      rw [List.map_flatMap]
      refine List.flatMap_congr fun i _ => ?_
      beta_reduce
      rw [sonPtr_super, ih i j _ (h3 i j i j rfl rfl)]

theorem filterMap_id_some {α : Type _} (x : α) (l : List (Option α)) : (some x :: l).filterMap id = x :: l.filterMap id := rfl
theorem filterMap_id_none {α : Type _} (l : List (Option α)) : ((none : Option α) :: l).filterMap id = l.filterMap id := rfl

theorem hsubs_none (b : H2.Block G) : (hsubs b none).filterMap id = [] := by
  induction b with
  | mk rc cc a d m n son ih =>
    rw [hsubs, filterMap_id_none]
    unfold colCat
    simp only [List.filterMap_flatMap]
    simp only [sonPtr_none, ih]
    simp

theorem hsubs_filter (b : H2.Block G) : ∀ h, CoarserHMat b h → (hsubs b (some h)).filterMap id = hnodes h := by
  induction b with
  | mk rc cc a d m n son ih =>
    have z : ∀ h : HMat G, (∀ i j, sonPtr (some h) i j = none) → (hsubs (.mk rc cc a d m n son) (some h)).filterMap id = [h] := fun h h0 => by
      rw [hsubs, filterMap_id_some]
      unfold colCat
      simp only [List.filterMap_flatMap, h0, hsubs_none]
      simp
    rintro (⟨t, s, d', r⟩ | ⟨t, s, d', f⟩ | ⟨t, s, d', m', n', hson⟩) hc
    · exact z _ fun _ _ => rfl
    · exact z _ fun _ _ => rfl
    · obtain ⟨h1, h2, rfl, rfl, h3⟩ := hc
      rw [hsubs, hnodes, filterMap_id_some]
      congr 1
      unfold colCat
      rw [List.filterMap_flatMap]
      refine List.flatMap_congr fun j _ => ?_
      rw [List.filterMap_flatMap]
      refine List.flatMap_congr fun i _ => ?_
      beta_reduce
      rw [sonPtr_super, ih i j _ (h3 i j i j rfl rfl)]

theorem forall2_flatMap {α β γ : Type _} {r : β → γ → Prop} {l : List α} {f : α → List β} {g : α → List γ}
    (h : ∀ x ∈ l, List.Forall₂ r (f x) (g x)) : List.Forall₂ r (l.flatMap f) (l.flatMap g) := by
  induction l with
  | nil => exact .nil
  | cons x l ih =>
    rw [List.flatMap_cons, List.flatMap_cons]
    exact List.rel_append (h x (by simp)) (ih fun y hy => h y (by simp [hy]))

/-- a matrix belongs to the clusters of its block -/
def Fit (b : H2.Block G) (o : Option (HMat G)) : Prop := ∀ h, o = some h → h.rc = b.rc ∧ h.cc = b.cc

theorem hsubs_fit_none (b : H2.Block G) : List.Forall₂ Fit (bnodes b) (hsubs b none) := by
  induction b with
  | mk rc cc a d m n son ih =>
    rw [bnodes, hsubs]
    refine .cons (fun h e => by cases e) ?_
    exact forall2_flatMap fun j _ => forall2_flatMap fun i _ => ih i j

theorem hsubs_fit (b : H2.Block G) : ∀ h, CoarserHMat b h → List.Forall₂ Fit (bnodes b) (hsubs b (some h)) := by
  induction b with
  | mk rc cc a d m n son ih =>
    rintro (⟨t, s, d', r⟩ | ⟨t, s, d', f⟩ | ⟨t, s, d', m', n', hson⟩) hc
    all_goals rw [bnodes, hsubs]
    · exact .cons (fun h e => by cases e; exact hc) (forall2_flatMap fun j _ => forall2_flatMap fun i _ => hsubs_fit_none _)
    · exact .cons (fun h e => by cases e; exact hc) (forall2_flatMap fun j _ => forall2_flatMap fun i _ => hsubs_fit_none _)
    · obtain ⟨h1, h2, rfl, rfl, h3⟩ := hc
      refine .cons (fun h e => by cases e; exact ⟨h1, h2⟩) (forall2_flatMap fun j _ => forall2_flatMap fun i _ => ?_)
      beta_reduce
      rw [sonPtr_super]
      exact ih i j _ (h3 i j i j rfl rfl)

theorem enumerate_null {cap : Nat} {b : H2.Block G} {k : Nat} {a x : Nat → Option (Option (HMat G))} : enumerate true cap b k none a ≠ .ok x := by
  cases b with
  | mk rc cc a d m n son =>
    rw [enumerate]
    intro h
    cases h

theorem enumerate_sons {cap : Nat} {rc cc : CRef G} {ad : Bool} {d m n : Nat} {son : Fin m → Fin n → H2.Block G} {k : Nat} {hm : Option (HMat G)}
    {a x : Nat → Option (Option (HMat G))} (h : enumerate true cap (.mk rc cc ad d m n son) k hm a = .ok x) :
    ∀ i j, ∃ k a x, enumerate true cap (son i j) k (sonPtr hm i.1 j.1) a = .ok x := by
  rw [enumerate, bind_ok] at h
  obtain ⟨_, -, h⟩ := h
  split at h
  · cases h
  · simp only [pure_bind] at h
    rw [bind_ok] at h
    obtain ⟨_, -, h⟩ := h
    rw [bind_ok] at h
    obtain ⟨st, h, -⟩ := h
    have := foldFinM_inv (P := fun j (_ : (Nat → Option (Option (HMat G))) × Nat) => ∀ j' : Fin n, j'.1 < j → ∀ i : Fin m,
      ∃ k a x, enumerate true cap (son i j') k (sonPtr hm i.1 j'.1) a = .ok x) h (fun j' hj => absurd hj (Nat.not_lt_zero _)) (by
      intro j s s' h0 h1 j' hj'
      by_cases hlt : j'.1 < j.1
      · exact h0 j' hlt
      · obtain rfl : j' = j := Fin.ext (by omega)
        have := foldFinM_inv (P := fun i (_ : (Nat → Option (Option (HMat G))) × Nat) => ∀ i' : Fin m, i'.1 < i →
          ∃ k a x, enumerate true cap (son i' j') k (sonPtr hm i'.1 j'.1) a = .ok x) h1 (fun i' hi => absurd hi (Nat.not_lt_zero _)) (by
          intro i s s' h2 h3 i' hi'
          by_cases hlt : i'.1 < i.1
          · exact h2 i' hlt
          · obtain rfl : i' = i := Fin.ext (by omega)
            rw [bind_ok] at h3
            obtain ⟨y, hy, -⟩ := h3
            exact ⟨_, _, y, hy⟩)
        exact fun i => this i i.2)
    exact fun i j => this j j.2 i

theorem enumerate_same (b : H2.Block G) : ∀ {cap : Nat} {k : Nat} {h : HMat G} {a x : Nat → Option (Option (HMat G))}, CoarserHMat b h →
    enumerate true cap b k (some h) a = .ok x → SameBlocks b h := by
  induction b with
  | mk rc cc ad d m n son ih =>
    intro cap k h a x hc he
    have hs := enumerate_sons he
    have z : (∀ i j, sonPtr (some h) i j = none) → m * n = 0 := fun h0 => by
      by_contra hne
      obtain ⟨h1, h2⟩ := Nat.mul_ne_zero_iff.mp hne
      obtain ⟨k', a', x', e⟩ := hs ⟨0, by omega⟩ ⟨0, by omega⟩
      rw [h0] at e
      exact enumerate_null e
    cases h with
    | rk t s d' r => exact ⟨hc.1, hc.2, z fun _ _ => rfl⟩
    | full t s d' f => exact ⟨hc.1, hc.2, z fun _ _ => rfl⟩
    | super t s d' m' n' hson =>
      obtain ⟨h1, h2, rfl, rfl, h3⟩ := hc
      refine ⟨h1, h2, rfl, rfl, fun i j i' j' e e' => ?_⟩
      obtain rfl : i = i' := Fin.ext e
      obtain rfl : j = j' := Fin.ext e'
      obtain ⟨k', a', x', e⟩ := hs i j
      rw [sonPtr_super] at e
      exact ih i j (h3 i j i j rfl rfl) e

theorem same_build (adr : CRef G → CRef G → Nat × Nat) (k : Nat) (b : H2.Block G) : SameBlocks b (buildFromBlock adr k b) := by
  induction b with
  | mk rc cc ad d m n son ih =>
    rw [buildFromBlock]
    split
    · refine ⟨rfl, rfl, rfl, rfl, fun i j i' j' e e' => ?_⟩
      obtain rfl : i = i' := Fin.ext e
      obtain rfl : j = j' := Fin.ext e'
      exact ih i j
    · rename_i h0
      split
      · exact ⟨rfl, rfl, by omega⟩
      · exact ⟨rfl, rfl, by omega⟩

end HMat
end H2
