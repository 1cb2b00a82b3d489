import Verif.Spec.ClusterTree
import Mathlib.Logic.Equiv.Defs
import Mathlib.Order.Defs.LinearOrder
import Mathlib.Data.Finset.Card

/-! Specification vocabulary for the geometric builders (C05-C09). -/

namespace H2.Spec

/-- `a'` arises from `a` by permuting the entries at positions `off … off+n-1`; nothing else changes. -/
def SegRearranged {α : Type _} (off n : Nat) (a a' : Nat → α) : Prop :=
  ∃ σ : Equiv.Perm Nat, (∀ i, ¬ (off ≤ i ∧ i < off + n) → σ i = i) ∧ ∀ i, a' i = a (σ i)

/-- The box of `t` is the smallest one containing the supports `[smin k, smax k]` of all indices
`k = idx[off], …, idx[off+size-1]` of `t`, in each of the `dim` coordinates. -/
structure BoxTight {K : Type _} [LinearOrder K] (smin smax : Nat → Nat → K) (dim : Nat)
    (idx : Nat → Nat) (t : Cluster K) : Prop where
  lo : ∀ j < dim, ∀ i < t.size, t.info.bmin j ≤ smin (idx (t.off + i)) j
  lo_attained : ∀ j < dim, ∃ i < t.size, t.info.bmin j = smin (idx (t.off + i)) j
  hi : ∀ j < dim, ∀ i < t.size, smax (idx (t.off + i)) j ≤ t.info.bmax j
  hi_attained : ∀ j < dim, ∃ i < t.size, t.info.bmax j = smax (idx (t.off + i)) j

/-- All points with index in the segment have the same coordinates. -/
def AllCoincide {K : Type _} (x : Nat → Nat → K) (dim : Nat) (idx : Nat → Nat) (off size : Nat) : Prop :=
  ∀ i < size, ∀ k < size, ∀ j < dim, x (idx (off + i)) j = x (idx (off + k)) j

/-- More than `clf` of the points with index in the segment `off … off+size-1` are at the same place. -/
def TooManyCoincide {K : Type _} (x : Nat → Nat → K) (dim clf : Nat) (idx : Nat → Nat) (off size : Nat) :
    Prop :=
  ∃ S : Finset Nat, (∀ i ∈ S, off ≤ i ∧ i < off + size) ∧ clf < S.card ∧
    ∀ i ∈ S, ∀ k ∈ S, ∀ j < dim, x (idx i) j = x (idx k) j

end H2.Spec
