import Verif.Core.Sums

/-!
# Reference counting (`clusterbasis.c`, `hmatrix.c`, `h2matrix.c`) and the lists of uniform matrices (`uniform.c`)

Cluster bases, H-matrices and H2-matrices live in one heap of counted objects, uniform matrices in a second one.
Only pointers are modelled: the matrices `V`, `E`, `f`, `r`, `S` contained in the objects are plain memory.
-/

namespace H2.RefC

/-- `struct _clusterbasis`, `struct _hmatrix` or `struct _h2matrix`.  `list false` is `rlist`, `list true` is `clist`
(cluster bases only); `own` are the pointers `cb`, `rb` and `u` the pointer `u` of an H2-matrix.  `bas` is the type of
the object: `true` for a cluster basis. -/
structure Obj where
  bas : Bool
  refs : Nat
  son : List (Option Nat)
  own : List (Option Nat)
  u : Option Nat
  list : Bool → Option Nat

/-- `struct _uniform`: side `false` is `rb`, `rnext`, `rprev`, side `true` is `cb`, `cnext`, `cprev`. -/
structure Unif where
  basis : Bool → Option Nat
  next : Bool → Option Nat
  prev : Bool → Option Nat

/-- allocated objects by address -/
structure Heap where
  obj : Nat → Option Obj
  uni : Nat → Option Unif

def upd {α : Type _} (f : Nat → α) (p : Nat) (x : α) : Nat → α := fun q => if q = p then x else f q
def updB {α : Type _} (f : Bool → α) (s : Bool) (x : α) : Bool → α := fun t => if t = s then x else f t

namespace Heap
/-- read an object; undefined behaviour if it is not allocated -/
def getObj (h : Heap) (p : Nat) : R Obj := match h.obj p with | some o => .ok o | none => .error .ub
/-- read a uniform matrix -/
def getUni (h : Heap) (v : Nat) : R Unif := match h.uni v with | some u => .ok u | none => .error .ub
def setObj (h : Heap) (p : Nat) (o : Obj) : Heap := { h with obj := upd h.obj p (some o) }
def setUni (h : Heap) (v : Nat) (u : Unif) : Heap := { h with uni := upd h.uni v (some u) }
/-- `freemem` of an object -/
def freeObj (h : Heap) (p : Nat) : R Heap := do
  let _ ← h.getObj p
  pure { h with obj := upd h.obj p none }
/-- `freemem` of a uniform matrix -/
def freeUni (h : Heap) (v : Nat) : R Heap := do
  let _ ← h.getUni v
  pure { h with uni := upd h.uni v none }
end Heap

/-- `if (w) w->prev = …`, `if (w) w->next = …` -/
def setNbr (o : Option Nat) (g : Unif → Unif) (h : Heap) : R Heap :=
  match o with
  | none => pure h
  | some w => do
    let x ← h.getUni w
    pure (h.setUni w (g x))

/-- uniform.c:93-114 `unref_row_uniform(u)` and uniform.c:116-137 `unref_col_uniform(u)`; `unref` is
`unref_clusterbasis`. -/
def unrefSide (unref : Nat → Heap → R Heap) (s : Bool) (v : Nat) (h : Heap) : R Heap := do
  let u ← h.getUni v
  match u.basis s with
  | none => do
    cassert (decide (u.next s = none))
    cassert (decide (u.prev s = none))
    pure h
  | some _ => do
    let h ← setNbr (u.next s) (fun x => { x with prev := updB x.prev s (u.prev s) }) h
    let u ← h.getUni v
    let h ← setNbr (u.prev s) (fun x => { x with next := updB x.next s (u.next s) }) h
    let u ← h.getUni v
    match u.basis s with
    | none => .error .ub
    | some p => do
      let b ← h.getObj p
      let h := if b.list s = some v then h.setObj p { b with list := updB b.list s (u.next s) } else h
      let h ← unref p h
      let u ← h.getUni v
      pure (h.setUni v { u with basis := updB u.basis s none })

/-- uniform.c:34-45 `del_uniform(u)`. -/
def delUniform (unref : Nat → Heap → R Heap) (v : Nat) (h : Heap) : R Heap := do
  let h ← unrefSide unref false v h
  let h ← unrefSide unref true v h
  h.freeUni v

/-- `if (h2->u) del_uniform(h2->u)` -/
def delOwned (unref : Nat → Heap → R Heap) (u : Option Nat) (h : Heap) : R Heap :=
  match u with
  | none => pure h
  | some v => delUniform unref v h

/-- `for (i …) unref(son[i])`; a NULL pointer is dereferenced by `unref`. -/
def unrefList (unref : Nat → Heap → R Heap) : List (Option Nat) → Heap → R Heap
  | [], h => .ok h
  | none :: _, _ => .error .ub
  | some p :: l, h => do
    let h ← unref p h
    unrefList unref l h

/-- clusterbasis.c:147-153 `del_clusterbasis` with clusterbasis.c:97-121 `uninit_clusterbasis`, hmatrix.c:212-218
`del_hmatrix` with hmatrix.c:39-60 `uninit_hmatrix`, and h2matrix.c:238-264 `del_h2matrix`. -/
def delObj (unref : Nat → Heap → R Heap) (p : Nat) (h : Heap) : R Heap := do
  let o ← h.getObj p
  cassert (decide (o.refs = 0))
  cassert (decide (o.list false = none))
  cassert (decide (o.list true = none))
  let h ← unrefList unref o.son h
  let h ← delOwned unref o.u h
  let h ← unrefList unref o.own h
  h.freeObj p

/-- clusterbasis.c:171-180 `unref_clusterbasis`, hmatrix.c:236-245 `unref_hmatrix`, h2matrix.c:282-291 `unref_h2matrix`;
`n` bounds the recursion depth. -/
def unref : Nat → Nat → Heap → R Heap
  | 0, _, _ => .error .fuel
  | n + 1, p, h => do
    let o ← h.getObj p
    cassert (decide (0 < o.refs))
    let h := h.setObj p { o with refs := o.refs - 1 }
    if o.refs - 1 = 0 then delObj (unref n) p h else pure h

/-- `if (cb) cb->refs++` -/
def incref (q : Option Nat) (h : Heap) : R Heap :=
  match q with
  | none => pure h
  | some q => do
    let o ← h.getObj q
    pure (h.setObj q { o with refs := o.refs + 1 })

/-- `if (*ptr) unref(*ptr)` -/
def unrefOpt (n : Nat) (old : Option Nat) (h : Heap) : R Heap :=
  match old with
  | none => pure h
  | some p => unref n p h

/-- uniform.c:51-70 `ref_row_uniform(u, rb)`, lines 63-69: `ref_clusterbasis(&u->rb, rb)` and insertion into the list of
`rb`; `n` bounds the depth of `unref_clusterbasis(u->rb)`. -/
def attach (n : Nat) (s : Bool) (v rb : Nat) (h : Heap) : R Heap := do
  let u ← h.getUni v
  let h ← unrefOpt n (u.basis s) h
  let u ← h.getUni v
  let h := h.setUni v { u with basis := updB u.basis s (some rb) }
  let h ← incref (some rb) h
  let b ← h.getObj rb
  let u ← h.getUni v
  let h := h.setUni v { u with next := updB u.next s (b.list s), prev := updB u.prev s none }
  let h ← setNbr (b.list s) (fun x => { x with prev := updB x.prev s (some v) }) h
  let b ← h.getObj rb
  pure (h.setObj rb { b with list := updB b.list s (some v) })

/-- uniform.c:51-70 `ref_row_uniform(u, rb)` and uniform.c:72-91 `ref_col_uniform(u, cb)` with `rb != NULL`. -/
def refSide (n : Nat) (s : Bool) (v rb : Nat) (h : Heap) : R Heap := do
  let u ← h.getUni v
  if u.basis s = some rb then pure h
  else if u.basis s = none then attach n s v rb h
  else do
    let h ← unrefSide (unref n) s v h
    attach n s v rb h

/-- uniform.c:16-32 `new_uniform(rb, cb)`; the allocator returns address `v`. -/
def newUniform (n : Nat) (v rb cb : Nat) (h : Heap) : R Heap := do
  let h := h.setUni v ⟨fun _ => none, fun _ => none, fun _ => none⟩
  let h ← refSide n false v rb h
  refSide n true v cb h

/-- clusterbasis.c:123-133 `new_clusterbasis`, clusterbasis.c:135-145 `new_leaf_clusterbasis`, hmatrix.c:62-72
`new_hmatrix`, hmatrix.c:102-119 `new_super_hmatrix`: an object with `k` sons that are NULL. -/
def newObj (b : Bool) (p k : Nat) (h : Heap) : Heap := h.setObj p ⟨b, 0, List.replicate k none, [], none, fun _ => none⟩

/-- h2matrix.c:22-44 `new_h2matrix(rb, cb)` together with the son array of h2matrix.c:74-92 `new_super_h2matrix`. -/
def newH2 (p k rb cb : Nat) (h : Heap) : R Heap := do
  let h := h.setObj p ⟨false, 0, List.replicate k none, [some cb, some rb], none, fun _ => none⟩
  let h ← incref (some rb) h
  incref (some cb) h

/-- h2matrix.c:46-58 `new_uniform_h2matrix(rb, cb)`; addresses `p` and `v` are chosen by the allocator. -/
def newUniformH2 (n p v rb cb : Nat) (h : Heap) : R Heap := do
  let h ← newH2 p 0 rb cb h
  let h ← newUniform n v rb cb h
  let o ← h.getObj p
  pure (h.setObj p { o with u := some v })

/-! ### histories -/

/-- The heap, the pointer variables `x < V` of the client, and the uniform matrices the client has to delete itself.
All addresses in use are below `N`. -/
structure St where
  N : Nat
  h : Heap
  V : Nat
  vars : Nat → Option Nat
  held : Nat → Bool

inductive Op where
  /-- `new_clusterbasis`, `new_hmatrix`, `new_super_hmatrix`, …: allocated at `p`, `k` sons; `b`: a cluster basis -/
  | newObj (b : Bool) (p k : Nat)
  /-- `new_h2matrix`, `new_super_h2matrix` -/
  | newH2 (p k rb cb : Nat)
  /-- `new_uniform_h2matrix` -/
  | newUniformH2 (p v rb cb : Nat)
  /-- `new_uniform` -/
  | newUniform (v rb cb : Nat)
  /-- `del_uniform` -/
  | delUniform (v : Nat)
  /-- `ref_row_uniform(v, rb)` (`s = false`), `ref_col_uniform(v, rb)` (`s = true`) -/
  | refSide (s : Bool) (v rb : Nat)
  /-- `ref_x(&x, q)` for a variable of the client -/
  | ref (x : Nat) (q : Option Nat)
  /-- `ref_x(&p->son[i], q)` -/
  | refSon (p i q : Nat)
  /-- `unref_x(x)`; the variable is not used any more -/
  | unref (x : Nat)
  /-- `del_x(p)` for an object that has never been referenced -/
  | del (p : Nat)

/-- Execute one operation. -/
def step (st : St) : Op → R St
  | .newObj b p k => .ok { st with h := newObj b p k st.h, N := max st.N (p + 1) }
  | .newH2 p k rb cb => do
    let h ← newH2 p k rb cb st.h
    pure { st with h := h, N := max st.N (p + 1) }
  | .newUniformH2 p v rb cb => do
    let h ← newUniformH2 (st.N + 2) p v rb cb st.h
    pure { st with h := h, N := max (max st.N (p + 1)) (v + 1) }
  | .newUniform v rb cb => do
    let h ← newUniform (st.N + 1) v rb cb st.h
    pure { st with h := h, N := max st.N (v + 1), held := upd st.held v true }
  | .delUniform v => do
    let h ← delUniform (unref (st.N + 1)) v st.h
    pure { st with h := h, held := upd st.held v false }
  | .refSide s v rb => do
    let h ← refSide (st.N + 1) s v rb st.h
    pure { st with h := h }
  | .ref x q => do
    -- hmatrix.c:224-234, h2matrix.c:270-280, clusterbasis.c:159-169
    let h ← unrefOpt (st.N + 1) (st.vars x) st.h
    let h ← incref q h
    pure { st with h := h, vars := upd st.vars x q }
  | .refSon p i q => do
    let o ← st.h.getObj p
    match o.son[i]? with
    | none => .error .ub
    | some old => do
      let h ← unrefOpt (st.N + 1) old st.h
      let o ← h.getObj p
      let h := h.setObj p { o with son := o.son.set i (some q) }
      let h ← incref (some q) h
      pure { st with h := h }
  | .unref x =>
    match st.vars x with
    | none => .error .ub
    | some p => do
      let h ← unref (st.N + 1) p st.h
      pure { st with h := h, vars := upd st.vars x none }
  | .del p => do
    let h ← delObj (unref (st.N + 1)) p st.h
    pure { st with h := h }

end H2.RefC
