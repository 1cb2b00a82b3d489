import Verif.Core.Exec

/-!
# Model of the allocation layer (`Library/basic.c`)

`size_t` is 64 bit; its arithmetic is modelled by `Nat` modulo `2^64`.  `malloc` is a parameter
`avail : Nat → Bool` telling whether a request of that many bytes is satisfied (a request of 0 bytes
may return NULL, which the code accepts).  The allocators return the number of bytes obtained.
-/

namespace H2.Alloc

/-- `2^64`, the range of `size_t`. -/
def M : Nat := 2 ^ 64

/-- The common tail of all allocators: `ptr = h2_malloc(dsz); if (ptr == NULL && dsz > 0) abort();`
basic.c:305-313 (and the identical code in the other allocators). -/
def mallocOrAbort (avail : Nat → Bool) (dsz : Nat) : R Nat :=
  if avail dsz = false ∧ 0 < dsz then .error .abort else .ok dsz

/-- basic.c:279-292 `_h2_allocmem` (no tracing). -/
def allocmem (avail : Nat → Bool) (sz : Nat) : R Nat := mallocOrAbort avail sz

/-- basic.c:294-316, 318-340, 342-364 `_h2_allocuint`, `_h2_allocreal`, `_h2_allocfield` (no tracing);
the three differ only in the entry size `esz`. -/
def allocArr (avail : Nat → Bool) (esz sz : Nat) : R Nat :=
  let dsz := (esz * sz) % M
  if dsz / esz ≠ sz then .error .abort
  else mallocOrAbort avail dsz

/-- basic.c:366-389 `_h2_allocmatrix` (no tracing): `dsz = sizeof(field) * rows * cols` and the guard
`dsz / sizeof(field) != rows * cols`, all in `size_t` arithmetic. -/
def allocMatrix (avail : Nat → Bool) (esz rows cols : Nat) : R Nat :=
  let dsz := ((esz * rows) % M * cols) % M
  if dsz / esz ≠ (rows * cols) % M then .error .abort
  else mallocOrAbort avail dsz

/-- basic.c:129-158, 160-189, 191-220 traced `_h2_allocuint`, `_h2_allocreal`, `_h2_allocfield`:
`dsz = sizeof(T) * sz + ALLOC_OFFSET`, guard `(dsz - ALLOC_OFFSET) / sizeof(T) != sz`.
`size_t` subtraction wraps. -/
def allocArrTraced (avail : Nat → Bool) (off esz sz : Nat) : R Nat :=
  let dsz := ((esz * sz) % M + off) % M
  if ((dsz + (M - off)) % M) / esz ≠ sz then .error .abort
  else mallocOrAbort avail dsz

/-! ## Tracing (`TRACE_MEMORY`) -/

/-- Progress of one block through the traced allocator.  The lists hold (identity, stored size):
* `inflight`: obtained from malloc and header written, counter not yet increased
  (basic.c:112-119, before the atomic addition),
* `live`: counter increased, pointer handed to the user (basic.c:121-126),
* `releasing`: `freemem` has read the header, released the block and evaluated its assertion, but the
  atomic subtraction has not happened yet (basic.c:260-264, before 269). -/
structure St where
  counter : Nat := 0
  inflight : List (Nat × Nat) := []
  live : List (Nat × Nat) := []
  releasing : List (Nat × Nat) := []

/-- Atomic actions of the threads.  A sequential `allocmem` is `malloc; add`, a sequential `freemem`
is `free; sub`; concurrent calls interleave these actions arbitrarily. -/
inductive Act where
  | malloc (id sz : Nat)
  | add (id : Nat)
  | free (id : Nat)
  | sub (id : Nat)

/-- One atomic action.  `ub` marks histories that the client or the runtime cannot produce: handing out
an identity that is in use, counting or subtracting a block that is not in the right phase,
freeing a block that is not live. -/
def step (s : St) : Act → R St
  | .malloc id sz =>
    if (s.inflight ++ s.live ++ s.releasing).any (·.1 == id) then .error .ub
    else .ok { s with inflight := (id, sz) :: s.inflight }
  -- basic.c:121-124  #pragma omp atomic  current_memory += sz;
  | .add id =>
    match s.inflight.find? (·.1 == id) with
    | none => .error .ub
    | some b => .ok { s with
        counter := (s.counter + b.2) % M
        inflight := s.inflight.erase b
        live := b :: s.live }
  -- basic.c:260-264  sz = header; h2_free; assert(current_memory >= sz);
  | .free id =>
    match s.live.find? (·.1 == id) with
    | none => .error .ub
    | some b =>
      if b.2 ≤ s.counter then
        .ok { s with live := s.live.erase b, releasing := b :: s.releasing }
      else .error .assertFail
  -- basic.c:266-269  #pragma omp atomic  current_memory -= sz;
  | .sub id =>
    match s.releasing.find? (·.1 == id) with
    | none => .error .ub
    | some b => .ok { s with
        counter := (s.counter + (M - b.2 % M)) % M
        releasing := s.releasing.erase b }

/-- Run a history. -/
def run (s : St) : List Act → R St
  | [] => .ok s
  | a :: as => step s a >>= fun s' => run s' as

/-- basic.c:274-277 `get_current_memory`. -/
def getCurrentMemory (s : St) : Nat := s.counter

end H2.Alloc
