import Verif.Model.Block

/-!
# Iterators and enumeration for block trees (`block.c:771-1364`)

A callback invocation is an event carrying the block and its three numbers.  Both callbacks are assumed to be given (a
NULL callback merely leaves out its events); the `pardepth` argument handed to the callbacks is left out.
-/

namespace H2
variable {K : Type _}

/-- `pre(b, bname, rname, cname)` or `post(b, bname, rname, cname)`. -/
inductive BEvent (K : Type _) where
  | pre (b : Block K) (bname rname cname : Nat)
  | post (b : Block K) (bname rname cname : Nat)

/-- block.h `struct _blockentry` without `father`, which the block iterators do not use; the list built by the
`next` pointers is a `List`. -/
structure BEntry (K : Type _) where
  b : Block K
  bname : Nat
  rname : Nat
  cname : Nat

namespace Block

/-- block.c:771-810 `iterate_block(b, bname, rname, cname, pre, post, data)`, as the trace of callbacks. -/
def iterate : Block K → Nat → Nat → Nat → R (List (BEvent K))
  | mk rc cc a d m n son, bname, rname, cname => do
    let ev ← if h : 0 < m ∧ 0 < n then do
        let s00 := son ⟨0, h.1⟩ ⟨0, h.2⟩
        let cn0 := if s00.cc.same cc then cname else cname + 1
        let rn0 := if s00.rc.same rc then rname else rname + 1
        let st ← foldFinM n (fun j (st : List (BEvent K) × Nat × Nat) => do
            let st' ← foldFinM m (fun i (st' : List (BEvent K) × Nat × Nat) => do
                let e ← iterate (son i j) st'.2.1 st'.2.2 st.2.2
                pure (st'.1 ++ e, st'.2.1 + (son i j).desc, st'.2.2 + (son i j).rc.cl.desc))
              (st.1, st.2.1, rn0)
            cassert (decide (st'.2.2 = rname + rc.cl.desc))
            pure (st'.1, st'.2.1, st.2.2 + (son ⟨0, h.1⟩ j).cc.cl.desc))
          ([], bname + 1, cn0)
        cassert (decide (st.2.2 = cname + cc.cl.desc))
        cassert (decide (st.2.1 = bname + d))
        pure st.1
      else pure []
    pure (.pre (mk rc cc a d m n son) bname rname cname :: ev ++
      [.post (mk rc cc a d m n son) bname rname cname])

/-- block.c:824-863 `addrow(b, bname, rname, cname, father, next)`.  `b->son[j]` is the flat index `j`. -/
def addrow : Block K → Nat → Nat → Nat → List (BEntry K) → R (List (BEntry K))
  | mk rc cc a d m n son, bname, rname, cname, next => do
    let pb := ⟨mk rc cc a d m n son, bname, rname, cname⟩ :: next
    if h : 0 < m ∧ 0 < n then
      if (son ⟨0, h.1⟩ ⟨0, h.2⟩).rc.same rc then do
        cassert (decide (n = cc.nsons))
        let st ← foldFinM n (fun j (st : List (BEntry K) × Nat × Nat) => do
            let pb ← addrow (son ⟨0, h.1⟩ j) st.2.1 rname st.2.2 st.1
            match cc.cl.sons[j.1]? with
            | none => throw .ub
            | some cs =>
              pure (pb, st.2.1 + (son ⟨j.1 % m, Nat.mod_lt _ h.1⟩
                ⟨j.1 / m, lt_of_le_of_lt (Nat.div_le_self _ _) j.2⟩).desc, st.2.2 + cs.desc))
          (pb, bname + 1, cname + 1)
        cassert (decide (st.2.1 = bname + d))
        cassert (decide (st.2.2 = cname + cc.cl.desc))
        pure st.1
      else pure pb
    else pure pb

/-- block.c:977-1016 `addcol(b, bname, rname, cname, father, next)`. -/
def addcol : Block K → Nat → Nat → Nat → List (BEntry K) → R (List (BEntry K))
  | mk rc cc a d m n son, bname, rname, cname, next => do
    let pb := ⟨mk rc cc a d m n son, bname, rname, cname⟩ :: next
    if h : 0 < m ∧ 0 < n then
      if (son ⟨0, h.1⟩ ⟨0, h.2⟩).cc.same cc then do
        cassert (decide (m = rc.nsons))
        let st ← foldFinM m (fun i (st : List (BEntry K) × Nat × Nat) => do
            -- son[i] with i < rsons is the flat index i in column 0
            let pb ← addcol (son i ⟨0, h.2⟩) st.2.1 st.2.2 cname st.1
            match rc.cl.sons[i.1]? with
            | none => throw .ub
            | some rs => pure (pb, st.2.1 + (son i ⟨0, h.2⟩).desc, st.2.2 + rs.desc))
          (pb, bname + 1, rname + 1)
        cassert (decide (st.2.1 = bname + d))
        cassert (decide (st.2.2 = rname + rc.cl.desc))
        pure st.1
      else pure pb
    else pure pb

/-- the lists `pb1[0], …, pb1[n-1]` -/
abbrev Lists (K : Type _) (n : Nat) := Fin n → List (BEntry K)

/-- block.c:907-939, one round of the loop filling the lists of the sons. -/
def rowStep (rc : CRef K) (rname : Nat) (e : BEntry K) (pb1 : Lists K rc.nsons) : R (Lists K rc.nsons) :=
  match e with
  | ⟨mk brc bcc _ d m n son, bname, ernm, cname⟩ => do
    cassert (brc.same rc)
    if h : 0 < m ∧ 0 < n then
      if (son ⟨0, h.1⟩ ⟨0, h.2⟩).rc.same rc then pure pb1
      else do
        cassert (decide (m = rc.nsons))
        cassert (decide (ernm = rname))
        let cn0 := if (son ⟨0, h.1⟩ ⟨0, h.2⟩).cc.same bcc then cname else cname + 1
        let st ← foldFinM n (fun j (st : Lists K rc.nsons × Nat × Nat) => do
            let st' ← foldFinM m (fun i (st' : Lists K rc.nsons × Nat × Nat) => do
                if hi : i.1 < rc.nsons then
                  cassert ((son i j).rc.same (rc.son ⟨i.1, hi⟩))
                  let l ← addrow (son i j) st'.2.1 st'.2.2 st.2.2 (st'.1 ⟨i.1, hi⟩)
                  pure (Function.update st'.1 ⟨i.1, hi⟩ l, st'.2.1 + (son i j).desc,
                    st'.2.2 + (rc.son ⟨i.1, hi⟩).cl.desc)
                else throw .ub)
              (st.1, st.2.1, rname + 1)
            cassert (decide (st'.2.2 = rname + rc.cl.desc))
            pure (st'.1, st'.2.1, st.2.2 + (son ⟨0, h.1⟩ j).cc.cl.desc))
          (pb1, bname + 1, cn0)
        cassert (decide (st.2.1 = bname + d))
        cassert (decide (st.2.2 = cname + bcc.cl.desc))
        pure st.1
    else pure pb1

/-- block.c:893-939, the lists of blocks for all sons of `rc`. -/
def rowLists (rc : CRef K) (rname : Nat) (pb : List (BEntry K)) : R (Lists K rc.nsons) :=
  pb.foldlM (fun pb1 e => rowStep rc rname e pb1) (fun _ => [])

/-- block.c:1058-1093, the same for `iterate_collist`. -/
def colStep (cc : CRef K) (cname : Nat) (e : BEntry K) (pb1 : Lists K cc.nsons) : R (Lists K cc.nsons) :=
  match e with
  | ⟨mk brc bcc _ d m n son, bname, rname, ecnm⟩ => do
    cassert (bcc.same cc)
    if h : 0 < m ∧ 0 < n then
      if (son ⟨0, h.1⟩ ⟨0, h.2⟩).cc.same cc then pure pb1
      else do
        cassert (decide (n = cc.nsons))
        cassert (decide (ecnm = cname))
        let rn0 := if (son ⟨0, h.1⟩ ⟨0, h.2⟩).rc.same brc then rname else rname + 1
        let st ← foldFinM n (fun j (st : Lists K cc.nsons × Nat × Nat) => do
            if hj : j.1 < cc.nsons then
              let st' ← foldFinM m (fun i (st' : Lists K cc.nsons × Nat × Nat) => do
                  cassert ((son i j).cc.same (cc.son ⟨j.1, hj⟩))
                  let l ← addcol (son i j) st'.2.1 st'.2.2 st.2.2 (st'.1 ⟨j.1, hj⟩)
                  pure (Function.update st'.1 ⟨j.1, hj⟩ l, st'.2.1 + (son i j).desc,
                    st'.2.2 + (son i j).rc.cl.desc))
                (st.1, st.2.1, rn0)
              cassert (decide (st'.2.2 = rname + brc.cl.desc))
              pure (st'.1, st'.2.1, st.2.2 + (son ⟨0, h.1⟩ j).cc.cl.desc)
            else throw .ub)
          (pb1, bname + 1, cname + 1)
        cassert (decide (st.2.1 = bname + d))
        cassert (decide (st.2.2 = cname + bcc.cl.desc))
        pure st.1
    else pure pb1

def colLists (cc : CRef K) (cname : Nat) (pb : List (BEntry K)) : R (Lists K cc.nsons) :=
  pb.foldlM (fun pb1 e => colStep cc cname e pb1) (fun _ => [])

/-- block.c:898-903, `rnames[i]`, 1050-1055 `cnames[j]`: preorder numbers of the sons. -/
def sonName (t : CRef K) (name : Nat) (i : Nat) : Nat :=
  (t.cl.sons.take i).foldl (fun d s => d + s.desc) (name + 1)

/-- block.c:1139-1149 `call_reversed_blockentry`: the list is traversed from its end. -/
def preEvents (pb : List (BEntry K)) : List (BEvent K) :=
  pb.reverse.map fun e => .pre e.b e.bname e.rname e.cname

/-- block.c:1160-1170 `call_inorder_blockentry`. -/
def postEvents (pb : List (BEntry K)) : List (BEvent K) :=
  pb.map fun e => .post e.b e.bname e.rname e.cname

/-- Common shape of block.c:865-959 `iterate_rowlist` and block.c:1018-1113 `iterate_collist`, which differ only in the
loop that fills the lists of the sons (`lists`): `ListTrace lists t name pb pardepth r` says that the callback trace
`r` may be observed.  For `pardepth > 0` the sons run concurrently (every interleaving), otherwise one after the
other.  Passing the assertions is a premise. -/
inductive ListTrace (lists : (t : CRef K) → Nat → List (BEntry K) → R (Lists K t.nsons)) :
    CRef K → Nat → List (BEntry K) → Nat → List (BEvent K) → Prop where
  | quick {t : CRef K} {name pd : Nat} : ListTrace lists t name [] pd []
  | leaf {t : CRef K} {name pd : Nat} {e : BEntry K} {pb : List (BEntry K)} :
      t.nsons = 0 → ListTrace lists t name (e :: pb) pd (preEvents (e :: pb) ++ postEvents (e :: pb))
  | par {t : CRef K} {name pd : Nat} {e : BEntry K} {pb : List (BEntry K)} {pb1 : Lists K t.nsons}
      {tr : Fin t.nsons → List (BEvent K)} {r : List (BEvent K)} :
      0 < t.nsons → sonName t name t.nsons = name + t.cl.desc →
      lists t name (e :: pb) = .ok pb1 →
      (∀ i, ListTrace lists (t.son i) (sonName t name i) (pb1 i) pd (tr i)) → Shuffle (List.ofFn tr) r →
      ListTrace lists t name (e :: pb) (pd + 1) (preEvents (e :: pb) ++ r ++ postEvents (e :: pb))
  | seq {t : CRef K} {name : Nat} {e : BEntry K} {pb : List (BEntry K)} {pb1 : Lists K t.nsons}
      {tr : Fin t.nsons → List (BEvent K)} :
      0 < t.nsons → sonName t name t.nsons = name + t.cl.desc →
      lists t name (e :: pb) = .ok pb1 →
      (∀ i, ListTrace lists (t.son i) (sonName t name i) (pb1 i) 0 (tr i)) →
      ListTrace lists t name (e :: pb) 0 (preEvents (e :: pb) ++ (List.ofFn tr).flatten ++ postEvents (e :: pb))

/-- block.c:865-959 `iterate_rowlist(rc, rname, pb, pardepth, pre_blocklist, post_blocklist, ld)`. -/
abbrev RowTrace (rc : CRef K) := ListTrace rowLists rc

/-- block.c:1018-1113 `iterate_collist(cc, cname, pb, pardepth, pre_blocklist, post_blocklist, ld)`. -/
abbrev ColTrace (cc : CRef K) := ListTrace colLists cc

/-- block.c:1181-1203 `iterate_byrow_block(b, bname, rname, cname, pardepth, pre, post, data)`. -/
def ByRowTrace (b : Block K) (bname rname cname pardepth : Nat) (r : List (BEvent K)) : Prop :=
  ∃ pb, addrow b bname rname cname [] = .ok pb ∧ RowTrace b.rc rname pb pardepth r

/-- block.c:1205-1227 `iterate_bycol_block(b, bname, rname, cname, pardepth, pre, post, data)`. -/
def ByColTrace (b : Block K) (bname rname cname pardepth : Nat) (r : List (BEvent K)) : Prop :=
  ∃ pb, addcol b bname rname cname [] = .ok pb ∧ ColTrace b.cc cname pb pardepth r

/-- block.c:1233-1249 `enumerate(b, bname, bn)`; `cap` is the number of entries of `bn`. -/
def enumerate (cap : Nat) : Block K → Nat → (Nat → Option (Block K)) → R (Nat → Option (Block K))
  | mk rc cc a d m n son, bname, bn => do
    if cap ≤ bname then throw .ub
    let st ← foldFinM n (fun j (st : (Nat → Option (Block K)) × Nat) =>
        foldFinM m (fun i (st : (Nat → Option (Block K)) × Nat) => do
          let bn ← enumerate cap (son i j) st.2 st.1
          pure (bn, st.2 + (son i j).desc)) st)
      ((fun k => if k = bname then some (mk rc cc a d m n son) else bn k), bname + 1)
    cassert (decide (st.2 = bname + d))
    pure st.1

/-- block.c:1251-1261 `enumerate_block(b)`. -/
def enumerateBlock (b : Block K) : R (Nat → Option (Block K)) := enumerate b.desc b 0 (fun _ => none)

/-- block.c:1263-1279 `enumerate_level(b, bname, bln, p)`. -/
def enumerateLevel (cap : Nat) : Block K → Nat → (Nat → Option Nat) → Nat → R (Nat → Option Nat)
  | mk _ _ _ d m n son, bname, bln, p => do
    if cap ≤ bname then throw .ub
    let st ← foldFinM n (fun j (st : (Nat → Option Nat) × Nat) =>
        foldFinM m (fun i (st : (Nat → Option Nat) × Nat) => do
          let bln ← enumerateLevel cap (son i j) st.2 st.1 (p + 1)
          pure (bln, st.2 + (son i j).desc)) st)
      ((fun k => if k = bname then some (p + 1) else bln k), bname + 1)
    cassert (decide (st.2 = bname + d))
    pure st.1

/-- block.c:1281-1291 `enumerate_level_block(b)`. -/
def enumerateLevelBlock (b : Block K) : R (Nat → Option Nat) := enumerateLevel b.desc b 0 (fun _ => none) 0

/-- block.c:1293-1313 `getdepth_block(b)`. -/
def getdepth : Block K → Nat
  | mk _ _ _ _ m n son =>
    if 0 < m ∧ 0 < n then
      foldFin n (fun j p => foldFin m (fun i p => max p (getdepth (son i j))) p) 0 + 1
    else 0

/-- block.c:1315-1332 `pre_compute_csp_block` applied to the events of a trace; the arrays `row` and `col` have
`nr` and `nc` entries. -/
def cspCount (nr nc : Nat) : List (BEvent K) → (Nat → Nat) × (Nat → Nat) → R ((Nat → Nat) × (Nat → Nat))
  | [], s => .ok s
  | .pre _ _ r c :: es, s =>
    if r < nr ∧ c < nc then
      cspCount nr nc es (fun k => if k = r then s.1 k + 1 else s.1 k, fun k => if k = c then s.2 k + 1 else s.2 k)
    else .error .ub
  | .post _ _ _ _ :: es, s => cspCount nr nc es s

/-- block.c:1334-1364 `compute_csp_block(b)`. -/
def computeCsp (b : Block K) : R Nat := do
  let ev ← iterate b 0 0 0
  let s ← cspCount b.rc.cl.desc b.cc.cl.desc ev (fun _ => 0, fun _ => 0)
  let csp := forT 0 b.rc.cl.desc (fun i csp => if csp < s.1 i then s.1 i else csp) 0
  pure (forT 0 b.cc.cl.desc (fun i csp => if csp < s.2 i then s.2 i else csp) csp)

end Block
end H2
