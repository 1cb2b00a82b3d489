/-!
# Model of the generic heapsort (`Library/basic.c`)

The C routine knows the user's array only through the callbacks `leq(i, j, data)` and
`swap(i, j, data)`.  We model `data` as a map `a : Nat → α` from positions to entries, `leq` as a
comparison of the entries at two positions and `swap` as the exchange of two entries.
Simplification: positions are `Nat`, i.e. `2 * root + 1` is assumed not to wrap (n ≤ 2^31).
-/

namespace H2.Heapsort

variable {α : Type _}

/-- The user's `swap(i, j, data)` callback. -/
def swap (a : Nat → α) (i j : Nat) : Nat → α :=
  fun k => if k = i then a j else if k = j then a i else a k

/-- basic.c:412-433 `heap_down(root, n, leq, swap, data)`.  The `while (child < n)` loop becomes
recursion on `root`; each round moves to a larger index. -/
def heapDown (le : α → α → Bool) (n root : Nat) (a : Nat → α) : Nat → α :=
  if h : 2 * root + 1 < n then
    -- Find larger child
    let child := if 2 * root + 1 + 1 < n ∧ le (a (2 * root + 1)) (a (2 * root + 1 + 1)) = true
      then 2 * root + 1 + 1 else 2 * root + 1
    -- Check heap property
    if le (a root) (a child) = true then
      heapDown le n child (swap a root child)
    else a
  else a
termination_by n - root
decreasing_by
  all_goals
    simp_wf
    by_cases hc : 2 * root + 1 + 1 < n ∧ le (a (2 * root + 1)) (a (2 * root + 1 + 1)) = true
    · simp only [hc]; simp; omega
    · simp only [hc]; simp; omega

/-- basic.c:444-450, build phase: `root = n/2; while (root > 0) { root--; heap_down(root, ...) }`;
`buildHeap le n k a` performs the rounds with roots `k-1, …, 0`. -/
def buildHeap (le : α → α → Bool) (n : Nat) : Nat → (Nat → α) → (Nat → α)
  | 0, a => a
  | k + 1, a => buildHeap le n k (heapDown le n k a)

/-- basic.c:452-457, sort phase: `while (n > 1) { swap(0, n-1); n--; heap_down(0, n, ...) }`. -/
def sortPhase (le : α → α → Bool) : Nat → (Nat → α) → (Nat → α)
  | 0, a => a
  | 1, a => a
  | n + 2, a => sortPhase le (n + 1) (heapDown le (n + 1) 0 (swap a 0 (n + 1)))

/-- basic.c:435-458 `_h2_heapsort(n, leq, swap, data)`. -/
def heapsort (le : α → α → Bool) (n : Nat) (a : Nat → α) : Nat → α :=
  if n < 2 then a
  else sortPhase le n (buildHeap le n (n / 2) a)

end H2.Heapsort
