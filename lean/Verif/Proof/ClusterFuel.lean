import Verif.Proof.ClusterSimsub

/-! The recursion budget of the builders does not influence results: a larger budget gives the same answer. -/

set_option linter.unusedSectionVars false

namespace H2

/-- `y` extends `x`: `x` ran out of budget, or both agree -/
def Ext {α : Type _} (x y : R α) : Prop := x = .error .fuel ∨ x = y

theorem Ext.refl {α : Type _} (x : R α) : Ext x x := .inr rfl

theorem Ext.bind {α β : Type _} {x y : R α} {k l : α → R β} (h : Ext x y) (hk : ∀ a, Ext (k a) (l a)) :
    Ext (x >>= k) (y >>= l) := by
  rcases h with h | h
  · left; rw [h]; rfl
  · subst h
    cases x with
    | error e => exact .inr rfl
    | ok a => exact hk a

theorem Ext.ite {α : Type _} {p : Prop} [Decidable p] {x x' y y' : R α} (h : Ext x y) (h' : Ext x' y') :
    Ext (if p then x else x') (if p then y else y') := by
  split <;> assumption

namespace CB
open H2 Spec
variable {K : Type} [Field K] [LinearOrder K] [IsStrictOrderedRing K]

theorem adaptive_ext (g : Geom K) (clf : Nat) : ∀ (f : Nat) (st : St K) (off size : Nat),
    Ext (buildAdaptive g clf f st off size) (buildAdaptive g clf (f + 1) st off size) := by
  intro f
  induction f with
  | zero => intro st off size; left; rfl
  | succ f ih =>
    intro st off size
    rw [buildAdaptive, buildAdaptive.eq_2]
    refine Ext.bind (.refl _) fun _ => ?_
    refine Ext.ite ?_ (.refl _)
    refine Ext.ite (.inr rfl) ?_
    refine Ext.ite ?_ (.refl _)
    refine Ext.ite (Ext.ite ?_ (.refl _)) (.refl _)
    exact Ext.bind (ih _ _ _) fun _ => Ext.bind (ih _ _ _) fun _ => .refl _

theorem regular_ext (g : Geom K) (clf : Nat) : ∀ (f : Nat) (st : St K) (off size dir : Nat),
    Ext (buildRegular g clf f st off size dir) (buildRegular g clf (f + 1) st off size dir) := by
  intro f
  induction f with
  | zero => intro st off size dir; left; rfl
  | succ f ih =>
    intro st off size dir
    rw [buildRegular, buildRegular.eq_2]
    refine Ext.bind (.refl _) fun _ => ?_
    refine Ext.ite ?_ (.refl _)
    refine Ext.ite (.inr rfl) ?_
    refine Ext.ite ?_ (Ext.bind (.refl _) fun _ => Ext.bind (ih _ _ _ _) fun _ => .refl _)
    refine Ext.ite (Ext.ite ?_ (Ext.bind (ih _ _ _ _) fun _ => .refl _))
      (Ext.bind (.refl _) fun _ => Ext.bind (ih _ _ _ _) fun _ => .refl _)
    exact Ext.bind (ih _ _ _ _) fun _ => Ext.bind (ih _ _ _ _) fun _ => .refl _

theorem pca_ext (g : Geom K) (eig : (Nat → Nat → K) → Nat → K) (clf : Nat) :
    ∀ (f : Nat) (st : St K) (off size : Nat),
    Ext (buildPca g eig clf f st off size) (buildPca g eig clf (f + 1) st off size) := by
  intro f
  induction f with
  | zero => intro st off size; left; rfl
  | succ f ih =>
    intro st off size
    rw [buildPca, buildPca.eq_2]
    refine Ext.bind (.refl _) fun _ => ?_
    refine Ext.ite ?_ (.refl _)
    refine Ext.bind (.refl _) fun _ => ?_
    refine Ext.ite (Ext.ite ?_ (Ext.bind (ih _ _ _) fun _ => .refl _))
      (Ext.bind (.refl _) fun _ => Ext.bind (ih _ _ _) fun _ => .refl _)
    exact Ext.bind (ih _ _ _) fun _ => Ext.bind (ih _ _ _) fun _ => .refl _

theorem leavesIntoSons_ext {r r' : St K → Nat → Nat → R (St K × Cluster K)}
    (h : ∀ st off size, Ext (r st off size) (r' st off size)) : ∀ (ls : List (HelpLeaf K)) (st : St K),
    Ext (leavesIntoSons r ls st) (leavesIntoSons r' ls st)
  | [], st => .refl _
  | l :: ls, st => by
    rw [leavesIntoSons, leavesIntoSons]
    exact Ext.bind (h _ _ _) fun _ => Ext.bind (leavesIntoSons_ext h ls _) fun _ => .refl _

theorem simsub_ext (g : Geom K) (clf : Nat) : ∀ (f : Nat) (st : St K) (off size : Nat),
    Ext (buildSimsub g clf f st off size) (buildSimsub g clf (f + 1) st off size) := by
  intro f
  induction f with
  | zero => intro st off size; left; rfl
  | succ f ih =>
    intro st off size
    rw [buildSimsub, buildSimsub.eq_2]
    refine Ext.bind (.refl _) fun _ => ?_
    refine Ext.ite ?_ (.refl _)
    exact Ext.bind (.refl _) fun _ => Ext.bind (leavesIntoSons_ext ih _ _) fun _ => .refl _

theorem build_ext (g : Geom K) (eig : (Nat → Nat → K) → Nat → K) (f : Nat) (st : St K)
    (off size clf : Nat) (mode : Mode) :
    Ext (buildCluster g eig f st off size clf mode) (buildCluster g eig (f + 1) st off size clf mode) := by
  cases mode with
  | adaptive => exact adaptive_ext ..
  | regular => exact Ext.bind (.refl _) fun _ => regular_ext ..
  | pca => exact pca_ext ..
  | simsub => exact Ext.bind (.refl _) fun _ => simsub_ext ..

theorem build_mono (g : Geom K) (eig : (Nat → Nat → K) → Nat → K) {f f' : Nat} (hf : f ≤ f') (st : St K)
    (off size clf : Nat) (mode : Mode) {r : St K × Cluster K}
    (h : buildCluster g eig f st off size clf mode = .ok r) :
    buildCluster g eig f' st off size clf mode = .ok r := by
  induction hf with
  | refl => exact h
  | step _ ih =>
    rcases build_ext g eig _ st off size clf mode with h1 | h1
    · rw [ih] at h1; cases h1
    · rw [← h1]; exact ih

end CB
end H2
