import Verif.Model.Interp
import Verif.Spec.Dense
import Mathlib.Algebra.BigOperators.Group.Finset.Basic
import Mathlib.Algebra.Polynomial.Derivative

/-! Specifications for interpolation in 2D (C85). -/

namespace H2.Spec
open Finset

/-- the `n` nodes are different -/
def DistinctPts {K : Type} (n : Nat) (p : Nat → K) : Prop := ∀ i < n, ∀ j < n, p i = p j → i = j

variable {K : Type} [Field K]

/-- the `j`-th Lagrange polynomial for the nodes `p 0, …, p (n-1)`: one at `p j`, zero at the other nodes -/
def lagrPoly (n : Nat) (p : Nat → K) (j : Nat) (x : K) : K := ∏ l ∈ (range n).erase j, (x - p l) / (p j - p l)

/-- its derivative, by the product rule -/
def lagrDeriv (n : Nat) (p : Nat → K) (j : Nat) (x : K) : K :=
  ∑ k ∈ (range n).erase j, 1 / (p j - p k) * ∏ l ∈ ((range n).erase j).erase k, (x - p l) / (p j - p l)

/-- a polynomial in two variables of degree less than `m` in each of them -/
def TensorPoly (m : Nat) (f : K → K → K) : Prop :=
  ∃ c : Nat → Nat → K, ∀ x y, f x y = ∑ a ∈ range m, ∑ b ∈ range m, c a b * x ^ a * y ^ b

/-- the polynomial that interpolates `f` in the points `(px i, py j)` -/
def interpol (m : Nat) (px py : Nat → K) (f : K → K → K) (x y : K) : K :=
  ∑ i ∈ range m, ∑ j ∈ range m, f (px i) (py j) * (lagrPoly m px i x * lagrPoly m py j y)

/-- the reference points `x i` of `[-1, 1]` moved to the interval `[a, b]`, or to `[a - eps, b + eps]` if the interval is shorter than `eps` -/
def boxPts {K : Type} [Field K] [LinearOrder K] (eps a b : K) (x : Nat → K) (i : Nat) : K :=
  if b - a < eps then (a + b) / 2 + (b - a + 2 * eps) / 2 * x i else (a + b) / 2 + (b - a) / 2 * x i

/-- the edge number for row `t` -/
def edgeOf (idx : Option (Arr Nat)) (t : Nat) : Nat := match idx with | none => t | some a => a.v t

/-- the `q`-th quadrature point on edge `tt` -/
def quadPt (gr : Interp.Geo K) (tt q : Nat) : K × K :=
  let a := gr.x.v (gr.e.v tt).1
  let b := gr.x.v (gr.e.v tt).2
  (a.1 * (1 - gr.xx.v q) + b.1 * gr.xx.v q, a.2 * (1 - gr.xx.v q) + b.2 * gr.xx.v q)

/-- the integral of `f` over edge `tt`, computed by the quadrature rule -/
def edgeInt (gr : Interp.Geo K) (tt : Nat) (f : K → K → K) : K :=
  gr.g.v tt * ∑ q ∈ range gr.nq, gr.ww.v q * f (quadPt gr tt q).1 (quadPt gr tt q).2

/-- all array accesses for `rows` edges are legal -/
structure GeoOk (gr : Interp.Geo K) (idx : Option (Arr Nat)) (rows : Nat) : Prop where
  hidx : ∀ a, idx = some a → rows ≤ a.n
  e : ∀ t < rows, edgeOf idx t < gr.e.n
  g : ∀ t < rows, edgeOf idx t < gr.g.n
  n : ∀ t < rows, edgeOf idx t < gr.n.n
  x : ∀ t < rows, (gr.e.v (edgeOf idx t)).1 < gr.x.n ∧ (gr.e.v (edgeOf idx t)).2 < gr.x.n
  xx : gr.nq ≤ gr.xx.n
  ww : gr.nq ≤ gr.ww.n

/-- no quadrature point of the edges shares a coordinate with an interpolation point -/
def NoHit (gr : Interp.Geo K) (idx : Option (Arr Nat)) (rows : Nat) (px py : Arr K) : Prop :=
  ∀ t < rows, ∀ q < gr.nq, (∀ l < px.n, (quadPt gr (edgeOf idx t) q).1 ≠ px.v l) ∧ ∀ l < py.n, (quadPt gr (edgeOf idx t) q).2 ≠ py.v l

end H2.Spec
