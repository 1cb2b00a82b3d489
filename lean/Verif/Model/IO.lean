import Verif.Model.Cluster
import Verif.Core.Arr

/-!
# NetCDF files of cluster trees (`cluster.c:923-1385`)

A NetCDF file is a table of named dimensions and a table of named one-dimensional variables.  Simplifications: values written to
`NC_INT` variables are natural numbers (sizes below 2^31), handles of variables are the variables themselves (they are taken out of
the table while they are written and stored back afterwards), limits on the number and length of names are not modelled, writing
to the disk always succeeds.  Modelled library behaviour: names of dimensions are unique, names of variables are unique, the length 0 means
"unlimited", a file has at most one unlimited dimension, accesses outside of a variable are refused (an access of length 0 is allowed up
to the end of the variable).
-/

namespace H2
namespace Nc

/-- an open NetCDF file -/
structure File (K : Type) where
  dim : String → Option Nat
  ivar : String → Option (Arr Nat)
  rvar : String → Option (Arr K)
  unlimited : Bool

variable {K : Type}

/-- `nc_create(name, NC_64BIT_OFFSET, &nc_file)` -/
def create : File K := ⟨fun _ => none, fun _ => none, fun _ => none, false⟩

/-- `nc_def_dim(nc_file, name, len, &id)` and the assertion that follows it -/
def defDim (f : File K) (name : String) (len : Nat) : R (File K) := do
  cassert (f.dim name).isNone
  cassert (!(decide (len = 0) && f.unlimited))
  pure { f with dim := fun s => if s = name then some len else f.dim s, unlimited := decide (len = 0) || f.unlimited }

/-- `nc_def_var(nc_file, name, NC_INT, 1, &dim, &id)` for a dimension of length `len` and the assertion that follows it; `fill` are the
values found in a variable that is not written -/
def defI (f : File K) (name : String) (len : Nat) (fill : Nat → Nat) : R (File K) := do
  cassert ((f.ivar name).isNone && (f.rvar name).isNone)
  pure { f with ivar := fun s => if s = name then some ⟨len, fill⟩ else f.ivar s }

/-- `nc_def_var(nc_file, name, NC_DOUBLE, 1, &dim, &id)` and the assertion that follows it -/
def defR (f : File K) (name : String) (len : Nat) (fill : Nat → K) : R (File K) := do
  cassert ((f.ivar name).isNone && (f.rvar name).isNone)
  pure { f with rvar := fun s => if s = name then some ⟨len, fill⟩ else f.rvar s }

/-- `nc_inq_dimid`, `nc_inq_dim` and the assertions that follow them -/
def inqDim (f : File K) (name : String) : R Nat :=
  match f.dim name with
  | some n => .ok n
  | none => .error .assertFail
/-- `nc_inq_varid` and the assertion that follows it, integer variable -/
def inqI (f : File K) (name : String) : R (Arr Nat) :=
  match f.ivar name with
  | some a => .ok a
  | none => .error .assertFail
/-- `nc_inq_varid` and the assertion that follows it, real variable -/
def inqR (f : File K) (name : String) : R (Arr K) :=
  match f.rvar name with
  | some a => .ok a
  | none => .error .assertFail

/-- store an integer variable that has been written through its handle -/
def storeI (f : File K) (name : String) (a : Arr Nat) : File K := { f with ivar := fun s => if s = name then some a else f.ivar s }
/-- store a real variable that has been written through its handle -/
def storeR (f : File K) (name : String) (a : Arr K) : File K := { f with rvar := fun s => if s = name then some a else f.rvar s }

/-- `nc_put_vars(nc_file, var, &start, &count, &stride, x)` with `stride = 1` and the assertion that follows it -/
def put {α : Type} (a : Arr α) (start count : Nat) (x : Nat → α) : R (Arr α) :=
  if start + count ≤ a.n then .ok ⟨a.n, fun i => if start ≤ i ∧ i < start + count then x (i - start) else a.v i⟩ else .error .assertFail

/-- `nc_get_vars(nc_file, var, &start, &count, &stride, x)` with `stride = 1` and the assertion that follows it -/
def get {α : Type} (a : Arr α) (start count : Nat) : R (Nat → α) :=
  if start + count ≤ a.n then .ok (fun i => a.v (start + i)) else .error .assertFail

/-- `nc_get_vars` without assertion: on failure the target keeps its content -/
def getQ {α : Type} (a : Arr α) (start count : Nat) (old : Nat → α) : Nat → α :=
  if start + count ≤ a.n then fun i => a.v (start + i) else old

/-- cluster.c:1062-1069 `prefix_name(buf, bufsize, prefix, name)` with `prefix != 0`; the buffer of `strlen(prefix) + 16` characters is large
enough for all names used. -/
def prefixName (pre name : String) : String := pre ++ "_" ++ name

end Nc

namespace Cluster
open Nc
variable {K : Type}

mutual
/-- cluster.c:928-942 `write_count(t, &clusters, &coeffs)` -/
def writeCount : Cluster K → Nat × Nat → Nat × Nat
  | mk i s, c => writeCountL s (c.1 + 1, c.2 + 2 * i.dim)
/-- the loop over the sons -/
def writeCountL : List (Cluster K) → Nat × Nat → Nat × Nat
  | [], c => c
  | s :: ss, c => writeCountL ss (writeCount s c)
end

/-- variables and counters of `write_cdf` -/
structure WSt (K : Type) where
  sons : Arr Nat
  size : Arr Nat
  coeff : Arr K
  ci : Nat
  co : Nat

mutual
/-- cluster.c:944-990 `write_cdf(t, clusters, coeffs, …)` -/
def writeCdf (clusters coeffs : Nat) : Cluster K → WSt K → R (WSt K)
  | mk i ss, s => do
    cassert (decide (s.ci ≤ clusters))
    let sons ← put s.sons s.ci 1 (fun _ => ss.length)
    let size ← put s.size s.ci 1 (fun _ => i.size)
    let s ← writeCdfL clusters coeffs ss { s with sons := sons, size := size, ci := s.ci + 1 }
    let start := s.co
    cassert (decide (start + 2 * i.dim ≤ coeffs))
    let coeff ← put s.coeff start i.dim i.bmin
    let start := start + i.dim
    let coeff ← put coeff start i.dim i.bmax
    let start := start + i.dim
    pure { s with coeff := coeff, co := start }
/-- the loop over the sons -/
def writeCdfL (clusters coeffs : Nat) : List (Cluster K) → WSt K → R (WSt K)
  | [], s => .ok s
  | t :: ts, s => do
    let s ← writeCdf clusters coeffs t s
    writeCdfL clusters coeffs ts s
end

/-- cluster.c:1071-1153 `write_cdfpart_cluster(t, nc_file, prefix)`; with `nm name = prefix_name(prefix, name)`.  `t->idx` is
`idx + t.off`. -/
def writePart (nm : String → String) (fi : Nat → Nat) (fr : Nat → K) (idx : Arr Nat) (t : Cluster K) (f : File K) : R (File K) := do
  let (clusters, coeffs) := writeCount t (0, 0)
  let f ← defDim f (nm "clusters") clusters
  let f ← defDim f (nm "coeffs") coeffs
  let f ← defDim f (nm "totalsize") t.size
  let f ← defDim f (nm "dim") t.info.dim
  let f ← defI f (nm "sons") clusters fi
  let f ← defI f (nm "size") clusters fi
  let f ← defI f (nm "idx") t.size fi
  let f ← defR f (nm "coeff") coeffs fr
  if t.off + t.size ≤ idx.n then do
    let f := storeI f (nm "idx") ⟨t.size, fun i => idx.v (t.off + i)⟩
    let s ← writeCdf clusters coeffs t ⟨⟨clusters, fi⟩, ⟨clusters, fi⟩, ⟨coeffs, fr⟩, 0, 0⟩
    cassert (decide (s.ci = clusters))
    cassert (decide (s.co = coeffs))
    pure (storeR (storeI (storeI f (nm "sons") s.sons) (nm "size") s.size) (nm "coeff") s.coeff)
  else .error .ub

/-- cluster.c:992-1060 `write_cdf_cluster(t, name)`: the same with the plain names in a new file -/
def writeFile (fi : Nat → Nat) (fr : Nat → K) (idx : Arr Nat) (t : Cluster K) : R (File K) := writePart id fi fr idx t create

/-- counters of `read_cdf_part` -/
structure RSt where
  ci : Nat
  co : Nat

/-- the loop of `read_cdf_part`, cluster.c:1193-1201: `n` more sons; `rd idx1` reads one -/
def readSons (rd : Nat → RSt → R (Cluster K × RSt)) : Nat → Nat → RSt → R (List (Cluster K) × Nat × RSt)
  | 0, idx1, s => .ok ([], idx1, s)
  | n + 1, idx1, s => do
    let (t1, s) ← rd idx1 s
    let (ts, idx1, s) ← readSons rd n (idx1 + t1.size) s
    pure (t1 :: ts, idx1, s)

/-- cluster.c:1155-1216 `read_cdf_part(…)`.  The first argument bounds the depth of the recursion; `old` is the content of a new box.  The
pointer `idx` is the offset in the index array. -/
def readPart (old : Nat → K) (sons size : Arr Nat) (coeff : Arr K) (dim : Nat) : Nat → Nat → RSt → R (Cluster K × RSt)
  | 0, _, _ => .error .fuel
  | n + 1, idx, s => do
    let val ← get sons s.ci 1
    let nsons := val 0
    let val ← get size s.ci 1
    let sz := val 0
    let s := { s with ci := s.ci + 1 }
    let (ss, s) ← (if nsons > 0 then do
        let (ss, idx1, s) ← readSons (readPart old sons size coeff dim n) nsons idx s
        cassert (decide (idx1 = idx + sz))
        pure (ss, s)
      else pure ([], s))
    let start := s.co
    let bmin := getQ coeff start dim old
    let start := start + dim
    let bmax := getQ coeff start dim old
    let start := start + dim
    pure ((Cluster.new idx sz dim bmin bmax ss).update, { s with co := start })

/-- cluster.c:1294-1378 `read_cdfpart_cluster(nc_file, prefix)`; result: the tree and its index array.  Each call of `read_cdf_part` increases
`clusteridx`, and it fails if `clusteridx ≥ clusters`, so the bound on the depth is never reached (`C49_read_terminates`). -/
def readFilePart (nm : String → String) (old : Nat → K) (f : File K) : R (Cluster K × Arr Nat) := do
  let clusters ← inqDim f (nm "clusters")
  let coeffs ← inqDim f (nm "coeffs")
  let totalsize ← inqDim f (nm "totalsize")
  let dim ← inqDim f (nm "dim")
  let sons ← inqI f (nm "sons")
  let size ← inqI f (nm "size")
  let idx ← inqI f (nm "idx")
  let coeff ← inqR f (nm "coeff")
  if idx.n ≤ totalsize then do
    let (t, s) ← readPart old sons size coeff dim (sons.n + 1) 0 ⟨0, 0⟩
    cassert (decide (s.ci = clusters))
    cassert (decide (s.co = coeffs))
    pure (t, ⟨totalsize, idx.v⟩)
  else .error .ub

/-- cluster.c:1218-1292 `read_cdf_cluster(name)` -/
def readFile (old : Nat → K) (f : File K) : R (Cluster K × Arr Nat) := readFilePart id old f

end Cluster
end H2
