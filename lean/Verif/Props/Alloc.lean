import Verif.Proof.Alloc

/-! # C02, C03, C04: the allocation layer -/

namespace H2.Props
open H2 H2.Alloc

/-! ## C02 -/

/-- C02 (vectors): if `allocuint/allocreal/allocfield(n)` return, the block they obtained has exactly
`n` entries, computed without wrap-around. -/
theorem C02_alloc_vector_exact (avail : Nat → Bool) {esz n bytes : Nat} (he : 0 < esz)
    (h : allocArr avail esz n = .ok bytes) : bytes = esz * n ∧ esz * n < 2 ^ 64 := by
  unfold allocArr at h
  simp only at h
  split at h
  · cases h
  · rename_i hg
    have hlt := alloc_lt he (not_not.mp hg)
    unfold mallocOrAbort at h
    split at h
    · cases h
    · cases h; exact ⟨Nat.mod_eq_of_lt hlt, hlt⟩

/-- C02 (vectors, converse): they abort only if the size does not fit into `size_t` or the system has
no memory. -/
theorem C02_alloc_vector_complete (avail : Nat → Bool) {esz n : Nat} (he : 0 < esz)
    (hfit : esz * n < 2 ^ 64) (hm : avail (esz * n) = true) :
    allocArr avail esz n = .ok (esz * n) := by
  unfold allocArr mallocOrAbort
  have e : (esz * n) % M = esz * n := Nat.mod_eq_of_lt hfit
  simp [e, hm, Nat.mul_div_cancel_left n he]

/-- C02 (matrices): `allocmatrix(rows, cols)` called with 32-bit dimensions (the type `uint` of all
callers in the library) returns only with room for `rows * cols` entries. -/
theorem C02_alloc_matrix_exact (avail : Nat → Bool) {esz rows cols bytes : Nat} (he : 0 < esz)
    (hr : rows < 2 ^ 32) (hc : cols < 2 ^ 32)
    (h : allocMatrix avail esz rows cols = .ok bytes) :
    bytes = esz * (rows * cols) ∧ esz * (rows * cols) < 2 ^ 64 := by
  have hrc : rows * cols < M := by
    have : rows * cols ≤ (2 ^ 32 - 1) * (2 ^ 32 - 1) := Nat.mul_le_mul (by omega) (by omega)
    unfold M; omega
  unfold allocMatrix at h
  simp only [Nat.mod_mul_mod, Nat.mod_eq_of_lt hrc] at h
  rw [Nat.mul_assoc] at h
  split at h
  · cases h
  · rename_i hg
    have hlt := alloc_lt he (not_not.mp hg)
    unfold mallocOrAbort at h
    split at h
    · cases h
    · cases h; exact ⟨Nat.mod_eq_of_lt hlt, hlt⟩

/-- C02, negative part: with 64-bit dimensions the guard of `allocmatrix` does not protect: for
`rows = cols = 2^32` it happily "allocates" 0 bytes for `2^64` doubles. -/
theorem C02_alloc_matrix_64bit_false :
    ¬ ∀ (avail : Nat → Bool) (rows cols bytes : Nat), rows < 2 ^ 64 → cols < 2 ^ 64 →
      allocMatrix avail 8 rows cols = .ok bytes → 8 * (rows * cols) ≤ bytes := by
  intro H
  have := H (fun _ => true) (2 ^ 32) (2 ^ 32) 0 (by decide) (by decide) (by decide)
  revert this; decide

/-- Non-vacuity: an ordinary request succeeds. -/
example : allocMatrix (fun _ => true) 8 1000 2000 = .ok 16000000 := by decide
example : allocArr (fun _ => true) 4 1000 = .ok 4000 := by decide

/-! ## C04 -/

/-- C04: a traced allocation that returns has room for header and entries unless
header + payload exceeds `2^64 - 1`. -/
theorem C04_traced_alloc_fits (avail : Nat → Bool) {off esz n bytes : Nat} (he : 0 < esz)
    (hoff : off < 2 ^ 64) (hfit : esz * n + off < 2 ^ 64)
    (h : allocArrTraced avail off esz n = .ok bytes) : bytes = off + esz * n := by
  unfold allocArrTraced at h
  have e1 : (esz * n) % M = esz * n := Nat.mod_eq_of_lt (by unfold M; omega)
  have e2 : (esz * n + off) % M = esz * n + off := Nat.mod_eq_of_lt hfit
  simp only [e1, e2] at h
  split at h
  · cases h
  · unfold mallocOrAbort at h
    split at h
    · cases h
    · cases h; omega

/-- C04 is false of the code, for every `n` in the gap: whenever the payload fits into `size_t` but
payload + header does not, the guard passes and the block obtained is smaller than the header, so the
header write that follows is out of bounds. -/
theorem C04_traced_alloc_false {off esz n : Nat} (he : 0 < esz) (hoff : off < 2 ^ 64)
    (hgap1 : esz * n < 2 ^ 64) (hgap2 : 2 ^ 64 ≤ esz * n + off) :
    ∃ bytes, allocArrTraced (fun _ => true) off esz n = .ok bytes ∧ bytes < off := by
  have e1 : (esz * n) % M = esz * n := Nat.mod_eq_of_lt hgap1
  have e2 : (esz * n + off) % M = esz * n + off - M := by
    unfold M
    rw [Nat.mod_eq_sub_mod (by omega), Nat.mod_eq_of_lt (by omega)]
  refine ⟨esz * n + off - M, ?_, by unfold M; omega⟩
  unfold allocArrTraced mallocOrAbort
  simp only [e1, e2]
  have e3 : (esz * n + off - M + (M - off)) % M = esz * n := by
    have : esz * n + off - M + (M - off) = esz * n := by unfold M; omega
    rw [this, e1]
  rw [e3]
  simp [Nat.mul_div_cancel_left n he]

/-- C04, the remaining case: if the payload alone exceeds `size_t`, the traced allocators abort. -/
theorem C04_traced_alloc_abort (avail : Nat → Bool) {off esz n : Nat} (he : 0 < esz) (hoff : off < 2 ^ 64)
    (hbig : 2 ^ 64 ≤ esz * n) : allocArrTraced avail off esz n = .error .abort := by
  unfold allocArrTraced
  have e3 : (((esz * n) % M + off) % M + (M - off)) % M = (esz * n) % M := by
    have h1 : (esz * n) % M < M := Nat.mod_lt _ (by unfold M; omega)
    rw [Nat.mod_add_mod, show (esz * n) % M + off + (M - off) = (esz * n) % M + M by unfold M; unfold M at h1; omega,
      Nat.add_mod_right, Nat.mod_mod]
  simp only [e3]
  rw [if_pos]
  intro h
  exact absurd (alloc_lt he h) (by unfold M; omega)

/-- C04 in one statement, for a system that never runs out of memory: the block has room for header and entries exactly if
the allocator aborts or header + payload fits into `size_t` or the payload does not. -/
theorem C04_traced_alloc_iff {off esz n : Nat} (he : 0 < esz) (hoff : off < 2 ^ 64) :
    (∀ bytes, allocArrTraced (fun _ => true) off esz n = .ok bytes → off + esz * n ≤ bytes) ↔
      (esz * n + off < 2 ^ 64 ∨ 2 ^ 64 ≤ esz * n) := by
  constructor
  · intro h
    by_contra hc
    push Not at hc
    obtain ⟨b, hb, hlt⟩ := C04_traced_alloc_false (n := n) he hoff (by omega) (by omega)
    have := h b hb
    omega
  · rintro (h | h) bytes hb
    · have := C04_traced_alloc_fits _ he hoff h hb; omega
    · rw [C04_traced_alloc_abort _ he hoff h] at hb
      cases hb

/-- The gap is not empty: 8-byte entries and an 8-byte header. -/
example : (8 * (2 ^ 61 - 1) < 2 ^ 64) ∧ 2 ^ 64 ≤ 8 * (2 ^ 61 - 1) + 8 := by decide

/-! ## C03 -/

/-- Total size of a list of blocks (specification). -/
def totalSize (l : List (Nat × Nat)) : Nat := (l.map (·.2)).sum

/-- C03: after every history (any interleaving of the atomic actions of any number of threads) the
counter is the total size of the blocks that have been counted and not yet subtracted, modulo the
range of `size_t`; in particular, when no call is in progress, `get_current_memory()` is exactly the
total size of the live blocks. -/
theorem C03_memory_trace_exact (hist : List Act) {s : St} (h : run {} hist = .ok s) :
    getCurrentMemory s = (totalSize s.live + totalSize s.releasing) % 2 ^ 64 ∧
    (s.releasing = [] → totalSize s.live < 2 ^ 64 → getCurrentMemory s = totalSize s.live) := by
  have hi : Alloc.Inv s := run_inv hist (s := {}) (by simp [Alloc.Inv, total]) h
  refine ⟨hi, fun hr hlt => ?_⟩
  unfold Alloc.Inv at hi
  unfold getCurrentMemory
  rw [hi, hr]
  simp only [total, List.map_nil, List.sum_nil, Nat.add_zero]
  exact Nat.mod_eq_of_lt hlt

/-- C03: everything freed means the counter is back at zero. -/
theorem C03_memory_trace_returns_to_zero (hist : List Act) {s : St} (h : run {} hist = .ok s)
    (hl : s.live = []) (hr : s.releasing = []) : getCurrentMemory s = 0 := by
  have := (C03_memory_trace_exact hist h).1
  rw [this, hl, hr]; rfl

/-- C03: the assertion `current_memory >= sz` in `freemem` never fires, in no interleaving, as long as
the counted blocks never add up to `2^64` bytes. -/
theorem C03_memory_trace_no_assert (hist : List Act)
    (hbound : ∀ pre s, pre <+: hist → run {} pre = .ok s →
      totalSize s.live + totalSize s.releasing < 2 ^ 64) :
    run {} hist ≠ .error .assertFail := by
  suffices H : ∀ (as pre : List Act) (s : St), run {} pre = .ok s → hist = pre ++ as →
      run s as ≠ .error .assertFail from H hist [] {} rfl rfl
  intro as
  induction as with
  | nil => intro pre s _ _; simp [run]
  | cons a as ih =>
    intro pre s hpre he
    have hi : Alloc.Inv s := run_inv pre (s := {}) (by simp [Alloc.Inv, total]) hpre
    have hb := hbound pre s ⟨a :: as, he.symm⟩ hpre
    have hna := step_no_assert (a := a) hi hb
    simp only [run]
    cases h1 : step s a with
    | error e =>
      rw [h1] at hna
      intro hc
      apply hna
      simpa [bind, Except.bind] using hc
    | ok s1 =>
      refine ih (pre ++ [a]) s1 ?_ (by simp [he])
      rw [run_append, hpre]
      simp [run, bind, Except.bind, h1]

/-- Non-vacuity: two overlapping allocate/free calls, interleaved. -/
example : ∃ s, run {} [.malloc 1 24, .malloc 2 40, .add 2, .add 1, .free 2, .malloc 3 16, .sub 2]
    = .ok s ∧ s.live = [(1, 24)] ∧ getCurrentMemory s = 24 := by
  exact ⟨_, rfl, rfl, rfl⟩

end H2.Props
