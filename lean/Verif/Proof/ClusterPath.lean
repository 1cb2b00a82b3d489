import Verif.Proof.Cluster

/-! Exact shapes after structure adaptation, by paths. -/

set_option linter.unusedSectionVars false

namespace H2
open Spec
variable {K : Type _}

@[simp] theorem atPath_nil (t : Cluster K) : atPath t [] = some t := by cases t; rfl

theorem atPath_cons (i : CInfo K) (ss : List (Cluster K)) (n : Nat) (p : List Nat) :
    atPath (.mk i ss) (n :: p) = (ss[n]?).bind (fun s => atPath s p) := by
  rw [atPath]; cases ss[n]? <;> rfl

theorem dataAt_cons (i : CInfo K) (ss : List (Cluster K)) (n : Nat) (p : List Nat) :
    dataAt (.mk i ss) (n :: p) = (ss[n]?).bind (fun s => dataAt s p) := by
  rw [dataAt, atPath_cons]; cases ss[n]? <;> rfl

theorem dataAt_nil (t : Cluster K) :
    dataAt t [] = some (t.info.off, t.info.size, t.info.dim, t.info.bmin, t.info.bmax) := by simp [dataAt]

theorem dataAt_update (t : Cluster K) (p : List Nat) : dataAt t.update p = dataAt t p := by
  cases t with
  | mk i ss =>
    cases p with
    | nil => simp [dataAt_nil, Cluster.update, Cluster.info]
    | cons n p => rw [Cluster.update, dataAt_cons, dataAt_cons]

theorem cut_path (t : Cluster K) : ∀ d p,
    dataAt (t.cut d) p = if p.length ≤ d then dataAt t p else none := by
  induction t using Cluster.ind with
  | h i ss ih =>
    intro d p
    cases p with
    | nil =>
      cases d <;> rw [Cluster.cut, dataAt_update, dataAt_nil, dataAt_nil, if_pos (by simp)] <;> rfl
    | cons n p =>
      cases d with
      | zero => rw [Cluster.cut, dataAt_update, dataAt_cons]; simp
      | succ d =>
        rw [Cluster.cut, cutL_eq, dataAt_update, dataAt_cons, dataAt_cons, List.getElem?_map]
        cases hs : ss[n]? with
        | none => simp
        | some s =>
          simp only [Option.map_some, Option.bind_some]
          rw [ih s (List.mem_of_getElem? hs) d p]
          simp

theorem coarsen_path (m : Nat) (t : Cluster K) : ∀ p,
    (dataAt (t.coarsen m) p).isSome → dataAt (t.coarsen m) p = dataAt t p := by
  induction t using Cluster.ind with
  | h i ss ih =>
    intro p h
    rw [Cluster.coarsen] at h ⊢
    split at h
    · rename_i hc
      rw [if_pos hc]
      cases p with
      | nil => rw [dataAt_update, dataAt_nil, dataAt_nil]; rfl
      | cons n p => rw [dataAt_update, dataAt_cons] at h; simp at h
    · rename_i hc
      rw [if_neg hc]
      cases p with
      | nil => rw [dataAt_update, dataAt_nil, dataAt_nil]; rfl
      | cons n p =>
        rw [coarsenL_eq, dataAt_update, dataAt_cons, List.getElem?_map] at h ⊢
        rw [dataAt_cons]
        cases hs : ss[n]? with
        | none => rfl
        | some s =>
          rw [hs] at h
          exact ih s (List.mem_of_getElem? hs) p h

theorem coarsen_path_iff (m : Nat) (t : Cluster K) : ∀ p,
    (dataAt (t.coarsen m) p).isSome ↔ (dataAt t p).isSome ∧
      ∀ k < p.length, ∀ u, atPath t (p.take k) = some u → ∀ c ∈ u.sons, m ≤ c.size := by
  induction t using Cluster.ind with
  | h i ss ih =>
    intro p
    rw [Cluster.coarsen]
    cases p with
    | nil => split <;> simp [dataAt_nil]
    | cons n p =>
      split
      · rename_i hc
        rw [dataAt_update, dataAt_cons]
        simp only [List.getElem?_nil, Option.bind_none, Option.isSome_none, Bool.false_eq_true, false_iff]
        rintro ⟨-, h⟩
        simp only [List.any_eq_true, decide_eq_true_eq] at hc
        obtain ⟨c, hc, hlt⟩ := hc
        have := h 0 (by simp) (.mk i ss) (by simp) c hc
        omega
      · rename_i hc
        simp only [List.any_eq_true, decide_eq_true_eq, not_exists, not_and, not_lt] at hc
        rw [coarsenL_eq, dataAt_update, dataAt_cons, dataAt_cons, List.getElem?_map]
        cases hs : ss[n]? with
        | none => simp
        | some s =>
          simp only [Option.map_some, Option.bind_some]
          rw [ih s (List.mem_of_getElem? hs) p]
          constructor
          · rintro ⟨h1, h2⟩
            refine ⟨h1, fun k hk u hu => ?_⟩
            cases k with
            | zero => simp at hu; subst hu; exact hc
            | succ k =>
              rw [List.take_succ_cons, atPath_cons, hs] at hu
              exact h2 k (by simpa using hk) u hu
          · rintro ⟨h1, h2⟩
            refine ⟨h1, fun k hk u hu => ?_⟩
            apply h2 (k + 1) (by simpa using hk) u
            rw [List.take_succ_cons, atPath_cons, hs]
            exact hu

theorem extendLeaf_path : ∀ (d : Nat) (i : CInfo K) (p : List Nat),
    dataAt (Cluster.extendLeaf i d) p =
      if p.length ≤ d ∧ p = List.replicate p.length 0 then
        some (i.off, i.size, i.dim, i.bmin, i.bmax) else none
  | 0, i, [] => by rw [Cluster.extendLeaf, dataAt_update, dataAt_nil]; simp [Cluster.info]
  | 0, i, n :: p => by rw [Cluster.extendLeaf, dataAt_update, dataAt_cons]; simp
  | d + 1, i, [] => by rw [Cluster.extendLeaf, dataAt_update, dataAt_nil]; simp [Cluster.info]
  | d + 1, i, n :: p => by
    rw [Cluster.extendLeaf, dataAt_update, dataAt_cons]
    cases n with
    | zero =>
      simp only [List.length_cons, List.getElem?_cons_zero, Option.bind_some]
      rw [extendLeaf_path d _ p]
      simp [List.replicate_succ]
    | succ n => simp [List.replicate_succ]

/-- exact shape after `extend_cluster`: the old paths remain, and a leaf at a path `q` gets the paths
`q ++ [0,…,0]` up to length `d`. -/
theorem extend_path (t : Cluster K) : ∀ d p x,
    dataAt (t.extend d) p = some x ↔ dataAt t p = some x ∨
      ∃ q u k, atPath t q = some u ∧ u.sons = [] ∧ p = q ++ List.replicate k 0 ∧ p.length ≤ d ∧
        dataAt t q = some x := by
  induction t using Cluster.ind with
  | h i ss ih =>
    intro d p x
    match ss, d with
    | ss, 0 =>
      rw [Cluster.extend, dataAt_update]
      constructor
      · exact .inl
      · rintro (h | ⟨q, u, k, h1, h2, h3, h4, h5⟩)
        · exact h
        · have hp : p = [] := by simpa using h4
          subst hp
          have : q = [] := by
            have := congrArg List.length h3; simp at this; exact List.length_eq_zero_iff.1 (by omega)
          rw [this] at h5; exact h5
    | [], d + 1 =>
      rw [Cluster.extend, extendLeaf_path]
      constructor
      · intro h
        split at h
        · rename_i hc
          right
          refine ⟨[], _, p.length, atPath_nil _, rfl, ?_, hc.1, ?_⟩
          · simpa using hc.2
          · rw [dataAt_nil]; exact h
        · cases h
      · rintro (h | ⟨q, u, k, h1, h2, h3, h4, h5⟩)
        · cases p with
          | nil => rw [dataAt_nil] at h; simpa using h
          | cons n p => rw [dataAt_cons] at h; simp at h
        · cases q with
          | nil =>
            rw [List.nil_append] at h3
            rw [dataAt_nil] at h5
            rw [if_pos ⟨h4, by rw [h3]; simp⟩]; exact h5
          | cons n q => rw [dataAt_cons] at h5; simp at h5
    | s :: ss, d + 1 =>
      rw [Cluster.extend, extendL_eq, dataAt_update]
      cases p with
      | nil =>
        rw [dataAt_nil, dataAt_nil]
        constructor
        · exact .inl
        · rintro (h | ⟨q, u, k, h1, h2, h3, h4, h5⟩)
          · exact h
          · have : q = [] := by
              have := congrArg List.length h3; simp at this; exact List.length_eq_zero_iff.1 (by omega)
            rw [this, dataAt_nil] at h5; exact h5
      | cons n p =>
        rw [dataAt_cons, dataAt_cons, List.getElem?_map]
        cases hs : (s :: ss)[n]? with
        | none =>
          simp only [Option.map_none, Option.bind_none, reduceCtorEq, false_or, false_iff]
          rintro ⟨q, u, k, h1, h2, h3, h4, h5⟩
          cases q with
          | nil => rw [atPath_nil, Option.some_inj] at h1; subst h1; cases h2
          | cons m q =>
            rw [List.cons_append] at h3
            injection h3 with e1 e2
            rw [atPath_cons, ← e1, hs] at h1; cases h1
        | some c =>
          simp only [Option.map_some, Option.bind_some]
          rw [ih c (List.mem_of_getElem? hs) d p x]
          apply or_congr Iff.rfl
          constructor
          · rintro ⟨q, u, k, h1, h2, h3, h4, h5⟩
            refine ⟨n :: q, u, k, ?_, h2, ?_, ?_, ?_⟩
            · rw [atPath_cons, hs]; exact h1
            · rw [h3, List.cons_append]
            · simpa using h4
            · rw [dataAt_cons, hs]; exact h5
          · rintro ⟨q, u, k, h1, h2, h3, h4, h5⟩
            cases q with
            | nil => rw [atPath_nil, Option.some_inj] at h1; subst h1; cases h2
            | cons m q =>
              rw [List.cons_append] at h3
              injection h3 with e1 e2
              subst e1
              rw [atPath_cons, hs] at h1
              rw [dataAt_cons, hs] at h5
              exact ⟨q, u, k, h1, h2, e2, by simpa using h4, h5⟩

theorem balance_path (t : Cluster K) : ∀ d p,
    dataAt (t.balance d) p = if p.length ≤ d then dataAt (t.extend d) p else none := by
  induction t using Cluster.ind with
  | h i ss ih =>
    intro d p
    match ss, d with
    | [], 0 =>
      rw [Cluster.balance, Cluster.extend, dataAt_update]
      cases p with
      | nil => simp
      | cons n p => rw [dataAt_cons]; simp
    | s :: ss, 0 =>
      rw [Cluster.balance, dataAt_update, cut_path, Cluster.extend, dataAt_update]
    | [], d + 1 =>
      rw [Cluster.balance, dataAt_update, Cluster.extend, extendLeaf_path]
      split <;> rename_i h
      · rw [if_pos h.1]
      · simp
    | s :: ss, d + 1 =>
      rw [Cluster.balance, balanceL_eq, dataAt_update, Cluster.extend, extendL_eq, dataAt_update]
      cases p with
      | nil => rw [dataAt_nil, dataAt_nil]; rfl
      | cons n p =>
        rw [dataAt_cons, dataAt_cons, List.getElem?_map, List.getElem?_map]
        cases hs : (s :: ss)[n]? with
        | none => simp
        | some c =>
          simp only [Option.map_some, Option.bind_some]
          rw [ih c (List.mem_of_getElem? hs) d p]
          simp

end H2
