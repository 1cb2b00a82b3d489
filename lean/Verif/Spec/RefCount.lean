import Verif.Model.RefCount
import Mathlib.Algebra.BigOperators.Group.Finset.Basic

/-! Specifications for reference counting and uniform lists (C35–C37). -/

namespace H2.RefC

/-- the pointers stored in an object that count as references -/
def fields (h : Heap) (q : Nat) : List (Option Nat) :=
  match h.obj q with
  | some o => o.son ++ o.own
  | none => []

/-- the basis of uniform matrix `v` on side `s` -/
def basisOf (h : Heap) (s : Bool) (v : Nat) : Option Nat := (h.uni v).bind (·.basis s)

/-- the uniform matrix owned by object `q` -/
def ownedOf (h : Heap) (q : Nat) : Option Nat := (h.obj q).bind (·.u)

/-- number of references to `p`: client variables, fields of allocated objects, bases of allocated uniform matrices -/
def refCount (st : St) (p : Nat) : Nat :=
  ∑ x ∈ Finset.range st.V, (if st.vars x = some p then 1 else 0) +
  ∑ q ∈ Finset.range st.N, (fields st.h q).count (some p) +
  ∑ v ∈ Finset.range st.N, ((if basisOf st.h false v = some p then 1 else 0) +
    (if basisOf st.h true v = some p then 1 else 0))

def Live (st : St) (p : Nat) : Prop := (st.h.obj p).isSome

/-- allocated but never referenced: what a constructor returns -/
def Floating (st : St) (p : Nat) : Prop := ∃ o, st.h.obj p = some o ∧ o.refs = 0

/-- all sons have been set -/
def Complete (st : St) (p : Nat) : Prop := none ∉ fields st.h p

/-- `p` is an object of type `b` (`true`: cluster basis) all of whose sons have been set -/
def Ready (st : St) (b : Bool) (p : Nat) : Prop := (∃ o, st.h.obj p = some o ∧ o.bas = b) ∧ Complete st p

/-- The client can reach the object without using its variable `x` and without using the son pointer `e`: there is a path
that starts with a variable or with an object that was never referenced. -/
inductive Kept (st : St) (x : Option Nat) (e : Option (Nat × Nat)) : Nat → Prop
  | var {y p : Nat} : y < st.V → some y ≠ x → st.vars y = some p → Kept st x e p
  | float {p : Nat} : Floating st p → Kept st x e p
  | step {a b : Nat} : Kept st x e a → (∀ i, e ≠ some (a, i)) → some b ∈ fields st.h a → Kept st x e b
  | other {a b i : Nat} : Kept st x e a → e = some (a, i) → some b ∈ (fields st.h a).eraseIdx i → Kept st x e b

/-- A client that follows the rules: constructors get fresh addresses; the pointers have the right types; only complete
objects are referenced; when an operation overwrites a pointer, the client can reach the objects the operation works with
without this pointer. -/
def Legal (st : St) : Op → Prop
  | .newObj _ p _ => st.h.obj p = none
  | .newH2 p _ rb cb => st.h.obj p = none ∧ Ready st true rb ∧ Ready st true cb
  | .newUniformH2 p v rb cb => st.h.obj p = none ∧ st.h.uni v = none ∧ Ready st true rb ∧ Ready st true cb
  | .newUniform v rb cb => st.h.uni v = none ∧ Ready st true rb ∧ Ready st true cb
  | .delUniform v => st.held v = true
  | .refSide _ v rb => (∃ u, st.h.uni v = some u) ∧ Ready st true rb ∧ Kept st none none rb
  | .ref x q => x < st.V ∧ ∀ q', q = some q' → Complete st q' ∧ Kept st (some x) none q'
  | .refSon p i q => q ≠ p ∧ ∃ o, st.h.obj p = some o ∧ i < o.son.length ∧ Ready st o.bas q ∧
      Kept st none (some (p, i)) p ∧ Kept st none (some (p, i)) q
  | .unref x => x < st.V ∧ st.vars x ≠ none
  | .del p => Floating st p ∧ Complete st p

/-- States reachable by histories of legal operations, starting with an empty heap and `V` empty variables. -/
inductive Reach (V : Nat) : St → Prop where
  | init : Reach V ⟨0, ⟨fun _ => none, fun _ => none⟩, V, fun _ => none, fun _ => false⟩
  | step {st st' : St} {op : Op} : Reach V st → Legal st op → step st op = .ok st' → Reach V st'

/-- `L` is the doubly linked list on side `s` that starts at `head`: successors and predecessors are stored correctly,
the first has no predecessor and the last no successor. -/
def Linked (h : Heap) (s : Bool) : Option Nat → List Nat → Option Nat → Prop
  | _, [], head => head = none
  | prev, v :: L, head => head = some v ∧ ∃ u, h.uni v = some u ∧ u.prev s = prev ∧ Linked h s (some v) L (u.next s)

end H2.RefC
