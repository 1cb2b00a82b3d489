import Verif.Core.Mem
import Mathlib.Data.List.Perm.Basic
import Mathlib.Data.List.Flatten

/-!
# Concurrent tasks on a shared memory

A task is a sequence of single accesses to the memory.  A pool of tasks is executed by choosing, again and again, a task
that is not finished and performing its next access, in any order whatsoever.  Nothing here models a particular function of
the library.
-/

namespace H2

/-- a program that reads and writes single cells -/
inductive Prog (K : Type) where
  /-- finished -/
  | ret : Prog K
  /-- an assertion is violated -/
  | fail : Err → Prog K
  /-- read a cell and continue with its contents -/
  | read : Nat → (K → Prog K) → Prog K
  /-- write a cell -/
  | write : Nat → K → Prog K → Prog K

namespace Prog
variable {K : Type}

/-- the effect of a program that runs alone -/
def run : Prog K → Mem K → R (Mem K)
  | .ret, m => pure m
  | .fail e, _ => throw e
  | .read p k, m => m.read p >>= fun x => (k x).run m
  | .write p x k, m => m.write p x >>= fun m => k.run m

/-- first `p`, then `q` -/
def seq : Prog K → Prog K → Prog K
  | .ret, q => q
  | .fail e, _ => .fail e
  | .read p k, q => .read p (fun x => (k x).seq q)
  | .write p x k, q => .write p x (k.seq q)

/-- C `assert` -/
def assert (b : Bool) : Prog K := if b then .ret else .fail .assertFail

/-- `n` rounds, the first one with index `i` -/
def loop (body : Nat → Prog K) : Nat → Nat → Prog K
  | 0, _ => .ret
  | n + 1, i => (body i).seq (loop body n (i + 1))

/-- C `for (i = lo; i < hi; i++) body` -/
def forUp (lo hi : Nat) (body : Nat → Prog K) : Prog K := loop body (hi - lo) lo

/-- C `for (i = n; i-- > 0; ) body` -/
def forDown (body : Nat → Prog K) : Nat → Prog K
  | 0 => .ret
  | n + 1 => (body n).seq (forDown body n)

/-- All accesses the program can perform, whatever values it reads, stay within `Rd` (reads) and `Wr` (writes). -/
inductive Within (Rd Wr : Nat → Prop) : Prog K → Prop where
  | ret : Within Rd Wr .ret
  | fail (e : Err) : Within Rd Wr (.fail e)
  | read {p : Nat} {k : K → Prog K} : Rd p → (∀ x, Within Rd Wr (k x)) → Within Rd Wr (.read p k)
  | write {p : Nat} {x : K} {k : Prog K} : Wr p → Within Rd Wr k → Within Rd Wr (.write p x k)

end Prog

/-- `Exec ps m r`: some schedule of the pool `ps`, started with memory `m`, has the outcome `r`. -/
inductive Exec {K : Type} : List (Prog K) → Mem K → R (Mem K) → Prop where
  /-- all tasks are finished -/
  | done {ps : List (Prog K)} {m : Mem K} : (∀ p ∈ ps, p = .ret) → Exec ps m (.ok m)
  /-- task number `i` reads a cell -/
  | read {ps : List (Prog K)} {m : Mem K} {r : R (Mem K)} (i : Nat) {a : Nat} {k : K → Prog K} {x : K} :
      ps[i]? = some (.read a k) → m a = some x → Exec (ps.set i (k x)) m r → Exec ps m r
  /-- task number `i` writes a cell -/
  | write {ps : List (Prog K)} {m : Mem K} {r : R (Mem K)} (i : Nat) {a : Nat} {k : Prog K} {x : K} :
      ps[i]? = some (.write a x k) → (m a).isSome → Exec (ps.set i k) (m.upd a x) r → Exec ps m r
  /-- task number `i` reads a cell that is not allocated -/
  | readUb {ps : List (Prog K)} {m : Mem K} (i : Nat) {a : Nat} {k : K → Prog K} :
      ps[i]? = some (.read a k) → m a = none → Exec ps m (.error .ub)
  /-- task number `i` writes a cell that is not allocated -/
  | writeUb {ps : List (Prog K)} {m : Mem K} (i : Nat) {a : Nat} {k : Prog K} {x : K} :
      ps[i]? = some (.write a x k) → m a = none → Exec ps m (.error .ub)
  /-- task number `i` violates an assertion -/
  | fail {ps : List (Prog K)} {m : Mem K} (i : Nat) {e : Err} : ps[i]? = some (.fail e) → Exec ps m (.error e)

/-- the tasks one after the other -/
def seqRun {K : Type} : List (Prog K) → Mem K → R (Mem K)
  | [], m => pure m
  | p :: ps, m => p.run m >>= fun m => seqRun ps m

namespace Prog
variable {K : Type}

theorem run_seq (p q : Prog K) (m : Mem K) : (p.seq q).run m = p.run m >>= fun m => q.run m := by
  induction p generalizing m with
  | ret => rfl
  | fail e => rfl
  | read a k ih =>
    simp only [seq, run]
    cases m.read a with
    | error e => rfl
    | ok x => exact ih x m
  | write a x k ih =>
    simp only [seq, run]
    cases m.write a x with
    | error e => rfl
    | ok m' => exact ih m'

theorem run_assert (b : Bool) (q : Prog K) (m : Mem K) : ((assert b).seq q).run m = cassert b >>= fun _ => q.run m := by
  cases b <;> rfl

theorem run_forUp (lo hi : Nat) (body : Nat → Prog K) (m : Mem K) :
    (forUp lo hi body).run m = H2.forUp lo hi (fun i m => (body i).run m) m := by
  unfold forUp H2.forUp
  generalize hi - lo = n
  induction n generalizing lo m with
  | zero => rfl
  | succ n ih =>
    simp only [loop, loopN]
    rw [run_seq]
    cases (body lo).run m with
    | error e => rfl
    | ok m' => exact ih (lo + 1) m'

theorem run_pure (m : Mem K) : (Prog.ret : Prog K).run m = .ok m := rfl

variable {Rd Wr : Nat → Prop}

theorem Within.seq {p q : Prog K} (hp : Within Rd Wr p) (hq : Within Rd Wr q) : Within Rd Wr (p.seq q) := by
  induction hp with
  | ret => exact hq
  | fail e => exact .fail e
  | read h _ ih => exact .read h ih
  | write h _ ih => exact .write h ih

theorem Within.assert (b : Bool) : Within Rd Wr (Prog.assert b : Prog K) := by
  cases b
  · exact .fail _
  · exact .ret

theorem Within.forUp {lo hi : Nat} {body : Nat → Prog K} (h : ∀ i, lo ≤ i → i < hi → Within Rd Wr (body i)) :
    Within Rd Wr (Prog.forUp lo hi body) := by
  unfold Prog.forUp
  suffices ∀ n lo, (∀ i, lo ≤ i → i < lo + n → Within Rd Wr (body i)) → Within Rd Wr (Prog.loop body n lo) from
    this _ _ fun i h1 h2 => h i h1 (by omega)
  intro n
  induction n with
  | zero => exact fun _ _ => .ret
  | succ n ih => exact fun lo h => (h lo (by omega) (by omega)).seq (ih _ fun i h1 h2 => h i (by omega) (by omega))

theorem Within.forDown {n : Nat} {body : Nat → Prog K} (h : ∀ i, i < n → Within Rd Wr (body i)) :
    Within Rd Wr (Prog.forDown body n) := by
  induction n with
  | zero => exact .ret
  | succ n ih => exact (h n (by omega)).seq (ih fun i hi => h i (by omega))

theorem Within.mono {Rd' Wr' : Nat → Prop} {p : Prog K} (h : Within Rd Wr p) (hr : ∀ c, Rd c → Rd' c) (hw : ∀ c, Wr c → Wr' c) :
    Within Rd' Wr' p := by
  induction h with
  | ret => exact .ret
  | fail e => exact .fail e
  | read h _ ih => exact .read (hr _ h) ih
  | write h _ ih => exact .write (hw _ h) ih

/-- cells outside of the write set are not changed -/
theorem run_frame {p : Prog K} (h : Within Rd Wr p) {m m' : Mem K} (hr : p.run m = .ok m') {c : Nat} (hc : ¬ Wr c) :
    m' c = m c := by
  induction h generalizing m with
  | ret => rw [Except.ok.inj hr]
  | fail e => cases hr
  | @read a k ha hk ih =>
    simp only [run] at hr
    obtain ⟨x, _, hx⟩ := bind_ok.mp hr
    exact ih x hx
  | @write a x k ha hk ih =>
    simp only [run] at hr
    obtain ⟨m1, h1, hx⟩ := bind_ok.mp hr
    rw [ih hx]
    unfold Mem.write at h1
    split at h1
    · rw [← Except.ok.inj h1]
      exact Mem.upd_ne fun e => hc (e ▸ ha)
    · cases h1

/-- no cell is freed or allocated -/
theorem run_alloc {p : Prog K} {m m' : Mem K} (hr : p.run m = .ok m') (c : Nat) : (m' c).isSome = (m c).isSome := by
  induction p generalizing m with
  | ret => rw [Except.ok.inj hr]
  | fail e => cases hr
  | read a k ih =>
    simp only [run] at hr
    obtain ⟨x, _, hx⟩ := bind_ok.mp hr
    exact ih x hx
  | write a x k ih =>
    simp only [run] at hr
    obtain ⟨m1, h1, hx⟩ := bind_ok.mp hr
    rw [ih hx]
    unfold Mem.write at h1
    split at h1
    · next y hy =>
      rw [← Except.ok.inj h1]
      by_cases e : c = a
      · rw [e, Mem.upd_same, hy]; rfl
      · rw [Mem.upd_ne e]
    · cases h1

theorem upd_comm {m : Mem K} {a b : Nat} {x y : K} (h : a ≠ b) : (m.upd a x).upd b y = (m.upd b y).upd a x := by
  funext c
  unfold Mem.upd
  by_cases h1 : c = a
  · rw [if_neg (show c ≠ b from fun e => h (h1.symm.trans e)), if_pos h1, if_pos h1]
  · simp only [h1, if_false]

/-- a write to a cell that the program neither reads nor writes commutes with the program -/
theorem run_upd {p : Prog K} (h : Within Rd Wr p) {m m' : Mem K} (hr : p.run m = .ok m') {a : Nat} (h1 : ¬ Rd a) (h2 : ¬ Wr a)
    (x : K) : p.run (m.upd a x) = .ok (m'.upd a x) := by
  induction h generalizing m with
  | ret => rw [Except.ok.inj hr]; rfl
  | fail e => cases hr
  | @read b k hb hk ih =>
    simp only [run] at hr ⊢
    obtain ⟨y, e, hx⟩ := bind_ok.mp hr
    have : (m.upd a x).read b = m.read b := by
      unfold Mem.read
      rw [Mem.upd_ne (show b ≠ a from fun e => h1 (e ▸ hb))]
    rw [this, e, ok_bind]
    exact ih y hx
  | @write b y k hb hk ih =>
    simp only [run] at hr ⊢
    obtain ⟨m1, e, hx⟩ := bind_ok.mp hr
    have hba : b ≠ a := fun e => h2 (e ▸ hb)
    have : (m.upd a x).write b y = .ok (m1.upd a x) := by
      unfold Mem.write at e ⊢
      rw [Mem.upd_ne hba]
      split at e
      · next z hz =>
        rw [← Except.ok.inj e, upd_comm (Ne.symm hba)]
      · cases e
    rw [this, ok_bind]
    exact ih hx

end Prog

/-! ### freedom from data races -/

variable {K : Type}

/-- `Free ps rd wr`: task number `i` stays within `rd i` and `wr i`, and no task writes a cell that another one accesses -/
structure Free (ps : List (Prog K)) (rd wr : Nat → Nat → Prop) : Prop where
  within : ∀ i, ∀ p : Prog K, ps[i]? = some p → p.Within (rd i) (wr i)
  disj : ∀ i j, i < ps.length → j < ps.length → i ≠ j → ∀ c, wr i c → ¬ rd j c ∧ ¬ wr j c

theorem Free.set {ps : List (Prog K)} {rd wr : Nat → Nat → Prop} (h : Free ps rd wr) {i : Nat} {q : Prog K}
    (hq : q.Within (rd i) (wr i)) : Free (ps.set i q) rd wr := by
  refine ⟨fun j p hp => ?_, fun j k hj hk => h.disj j k (by simpa using hj) (by simpa using hk)⟩
  rw [List.getElem?_set] at hp
  split at hp
  · next e =>
    split at hp
    · rw [← Option.some.inj hp, ← e]; exact hq
    · cases hp
  · exact h.within j p hp

theorem seqRun_append (ps qs : List (Prog K)) (m : Mem K) : seqRun (ps ++ qs) m = seqRun ps m >>= fun m => seqRun qs m := by
  induction ps generalizing m with
  | nil => rfl
  | cons p ps ih =>
    simp only [List.cons_append, seqRun]
    cases p.run m with
    | error e => rfl
    | ok m' => exact ih m'

/-- what the tasks in front of number `i` do to the cells of task `i` -/
theorem seqRun_frame {ps : List (Prog K)} {rd wr : Nat → Prop} (h : ∀ p ∈ ps, ∃ Rd Wr : Nat → Prop, p.Within Rd Wr ∧
    ∀ c, Wr c → ¬ rd c ∧ ¬ wr c) {m m' : Mem K} (hr : seqRun ps m = .ok m') {c : Nat} (hc : rd c ∨ wr c) : m' c = m c := by
  induction ps generalizing m with
  | nil => rw [Except.ok.inj hr]
  | cons p ps ih =>
    obtain ⟨m1, h1, h2⟩ := bind_ok.mp hr
    rw [ih (fun q hq => h q (List.mem_cons_of_mem _ hq)) h2]
    obtain ⟨Rd, Wr, g1, g2⟩ := h p (List.mem_cons_self ..)
    exact Prog.run_frame g1 h1 fun hw => by rcases hc with hc | hc; exacts [(g2 c hw).1 hc, (g2 c hw).2 hc]

theorem seqRun_upd {ps : List (Prog K)} {a : Nat} (h : ∀ p ∈ ps, ∃ Rd Wr : Nat → Prop, p.Within Rd Wr ∧ ¬ Rd a ∧ ¬ Wr a)
    {m m' : Mem K} (hr : seqRun ps m = .ok m') (x : K) : seqRun ps (m.upd a x) = .ok (m'.upd a x) := by
  induction ps generalizing m with
  | nil => rw [Except.ok.inj hr]; rfl
  | cons p ps ih =>
    obtain ⟨m1, h1, h2⟩ := bind_ok.mp hr
    obtain ⟨Rd, Wr, g1, g2, g3⟩ := h p (List.mem_cons_self ..)
    simp only [seqRun]
    rw [Prog.run_upd g1 h1 g2 g3, ok_bind]
    exact ih (fun q hq => h q (List.mem_cons_of_mem _ hq)) h2

theorem split_at {ps : List (Prog K)} {i : Nat} {p : Prog K} (h : ps[i]? = some p) :
    ∃ qs rs, ps = qs ++ p :: rs ∧ qs.length = i ∧ ∀ q, ps.set i q = qs ++ q :: rs := by
  obtain ⟨hi, e⟩ := List.getElem?_eq_some_iff.mp h
  refine ⟨ps.take i, ps.drop (i + 1), ?_, by simp; omega, fun q => ?_⟩
  · rw [← e, List.cons_getElem_drop_succ, List.take_append_drop]
  · rw [List.set_eq_take_append_cons_drop, if_pos hi]

section
variable {ps : List (Prog K)} {rd wr : Nat → Nat → Prop} (h : Free ps rd wr)
include h

theorem Free.front {i : Nat} {p : Prog K} {qs rs : List (Prog K)} (e : ps = qs ++ p :: rs) (hi : qs.length = i) :
    ∀ q ∈ qs, ∃ Rd Wr : Nat → Prop, q.Within Rd Wr ∧ (∀ c, Wr c → ¬ rd i c ∧ ¬ wr i c) ∧ ∀ c, wr i c → ¬ Rd c ∧ ¬ Wr c := by
  intro q hq
  obtain ⟨j, hj, rfl⟩ := List.getElem_of_mem hq
  have hl : ps.length = i + 1 + rs.length := by rw [e, ← hi]; simp; omega
  refine ⟨rd j, wr j, h.within j _ ?_, fun c hc => h.disj j i (by omega) (by omega) (by omega) c hc,
    fun c hc => h.disj i j (by omega) (by omega) (by omega) c hc⟩
  rw [e, List.getElem?_append_left hj, List.getElem?_eq_getElem hj]

/-- **Tasks without data races**: if the tasks, one after the other, work, then every schedule works and has the same
result. -/
theorem exec_free {m m' : Mem K} (hs : seqRun ps m = .ok m') {r : R (Mem K)} (hr : Exec ps m r) : r = .ok m' := by
  induction hr with
  | @done ps m hp =>
    clear h
    rw [← hs]
    symm
    induction ps with
    | nil => rfl
    | cons p ps ih =>
      simp only [seqRun, hp p (List.mem_cons_self ..)] at hs ⊢
      exact ih (fun q hq => hp q (List.mem_cons_of_mem _ hq)) hs
  | @read ps m r i a k x hi hx _ ih =>
    have hw := h.within i _ hi
    cases hw with
    | read ha hk =>
    refine ih (h.set (hk x)) ?_
    obtain ⟨qs, rs, e, hl, es⟩ := split_at hi
    have hf := h.front e hl
    rw [es]
    rw [e] at hs
    rw [seqRun_append] at hs ⊢
    obtain ⟨m1, h1, h2⟩ := bind_ok.mp hs
    rw [h1, ok_bind]
    simp only [seqRun, Prog.run] at h2 ⊢
    have : m1 a = some x := by
      rw [seqRun_frame (fun q hq => by obtain ⟨Rd, Wr, g1, g2, _⟩ := hf q hq; exact ⟨Rd, Wr, g1, g2⟩) h1 (.inl ha), hx]
    rwa [Mem.read_ok this, ok_bind] at h2
  | @write ps m r i a k x hi hx _ ih =>
    have hw := h.within i _ hi
    cases hw with
    | write ha hk =>
    refine ih (h.set hk) ?_
    obtain ⟨qs, rs, e, hl, es⟩ := split_at hi
    have hf := h.front e hl
    rw [es]
    rw [e] at hs
    rw [seqRun_append] at hs ⊢
    obtain ⟨m1, h1, h2⟩ := bind_ok.mp hs
    rw [seqRun_upd (fun q hq => by obtain ⟨Rd, Wr, g1, _, g2⟩ := hf q hq; exact ⟨Rd, Wr, g1, g2 a ha⟩) h1, ok_bind]
    simp only [seqRun, Prog.run] at h2 ⊢
    obtain ⟨y, hy⟩ := Option.isSome_iff_exists.mp hx
    have : m1 a = some y := by
      rw [seqRun_frame (fun q hq => by obtain ⟨Rd, Wr, g1, g2, _⟩ := hf q hq; exact ⟨Rd, Wr, g1, g2⟩) h1 (.inr ha), hy]
    rwa [Mem.write_ok this, ok_bind] at h2
  | @readUb ps m i a k hi hx =>
    have hw := h.within i _ hi
    cases hw with
    | read ha hk =>
    obtain ⟨qs, rs, e, hl, es⟩ := split_at hi
    have hf := h.front e hl
    rw [e, seqRun_append] at hs
    obtain ⟨m1, h1, h2⟩ := bind_ok.mp hs
    simp only [seqRun, Prog.run] at h2
    have : m1 a = none := by
      rw [seqRun_frame (fun q hq => by obtain ⟨Rd, Wr, g1, g2, _⟩ := hf q hq; exact ⟨Rd, Wr, g1, g2⟩) h1 (.inl ha), hx]
    unfold Mem.read at h2
    rw [this] at h2
    cases h2
  | @writeUb ps m i a k x hi hx =>
    have hw := h.within i _ hi
    cases hw with
    | write ha hk =>
    obtain ⟨qs, rs, e, hl, es⟩ := split_at hi
    have hf := h.front e hl
    rw [e, seqRun_append] at hs
    obtain ⟨m1, h1, h2⟩ := bind_ok.mp hs
    simp only [seqRun, Prog.run] at h2
    have : m1 a = none := by
      rw [seqRun_frame (fun q hq => by obtain ⟨Rd, Wr, g1, g2, _⟩ := hf q hq; exact ⟨Rd, Wr, g1, g2⟩) h1 (.inr ha), hx]
    unfold Mem.write at h2
    rw [this] at h2
    cases h2
  | @fail ps m i e hi =>
    obtain ⟨qs, rs, e', hl, es⟩ := split_at hi
    rw [e', seqRun_append] at hs
    obtain ⟨m1, h1, h2⟩ := bind_ok.mp hs
    cases h2

end

/-- the order one task after the other is a schedule -/
theorem exec_seq (qs : List (Prog K)) (hq : ∀ q ∈ qs, q = .ret) (ps : List (Prog K)) (m : Mem K) :
    Exec (qs ++ ps) m (seqRun ps m) := by
  induction ps generalizing qs m with
  | nil => exact .done (by simpa using hq)
  | cons p ps ih =>
    have hset : ∀ p q : Prog K, (qs ++ p :: ps).set qs.length q = qs ++ q :: ps := fun p q => by simp
    have hget : ∀ p : Prog K, (qs ++ p :: ps)[qs.length]? = some p := fun p => by simp
    simp only [seqRun]
    induction p generalizing m with
    | ret =>
      have := ih (qs ++ [.ret]) (fun q h => by
        rcases List.mem_append.mp h with h | h
        · exact hq q h
        · simpa using h) m
      rw [Prog.run_pure, ok_bind]
      simpa using this
    | fail e => exact .fail qs.length (hget _)
    | read a k ih' =>
      simp only [Prog.run]
      cases hm : m a with
      | none =>
        have : m.read a = .error .ub := by unfold Mem.read; rw [hm]
        rw [this]
        exact .readUb qs.length (hget _) hm
      | some x =>
        rw [Mem.read_ok hm, ok_bind]
        exact .read qs.length (hget _) hm (by rw [hset]; exact ih' x m)
    | write a x k ih' =>
      simp only [Prog.run]
      cases hm : m a with
      | none =>
        have : m.write a x = .error .ub := by unfold Mem.write; rw [hm]
        rw [this]
        exact .writeUb qs.length (hget _) hm
      | some y =>
        rw [Mem.write_ok hm, ok_bind]
        exact .write qs.length (hget _) (by rw [hm]; rfl) (by rw [hset]; exact ih' _)

/-- every pool has a schedule -/
theorem exec_exists (ps : List (Prog K)) (m : Mem K) : Exec ps m (seqRun ps m) := exec_seq [] (by simp) ps m

/-! ### every schedule ends -/

/-- one access of one task -/
inductive PoolStep : List (Prog K) × Mem K → List (Prog K) × Mem K → Prop where
  | read {ps : List (Prog K)} {m : Mem K} (i : Nat) {a : Nat} {k : K → Prog K} {x : K} :
      ps[i]? = some (.read a k) → m a = some x → PoolStep (ps, m) (ps.set i (k x), m)
  | write {ps : List (Prog K)} {m : Mem K} (i : Nat) {a : Nat} {k : Prog K} {x : K} :
      ps[i]? = some (.write a x k) → (m a).isSome → PoolStep (ps, m) (ps.set i k, m.upd a x)

theorem poolStep_split {ps ps' : List (Prog K)} {m m' : Mem K} (h : PoolStep (ps, m) (ps', m')) :
    ∃ i p q, ps[i]? = some p ∧ ps' = ps.set i q ∧ ((∃ a k x, p = .read a k ∧ q = k x) ∨ ∃ a x, p = .write a x q) := by
  cases h with
  | read i h1 _ => exact ⟨i, _, _, h1, rfl, .inl ⟨_, _, _, rfl, rfl⟩⟩
  | write i h1 _ => exact ⟨i, _, _, h1, rfl, .inr ⟨_, _, rfl⟩⟩

/-- There is no infinite schedule. -/
theorem poolStep_terminates (ps : List (Prog K)) (m : Mem K) : _root_.Acc (fun s' s : List (Prog K) × Mem K => PoolStep s s') (ps, m) := by
  suffices ∀ s : List (Prog K), _root_.Acc (fun ps' ps : List (Prog K) => ∃ i p q, ps[i]? = some p ∧ ps' = ps.set i q ∧
      ((∃ a k x, p = .read a k ∧ q = k x) ∨ ∃ a x, p = .write a x q)) s by
    have h := this ps
    induction h generalizing m with
    | intro ps _ ih =>
      refine ⟨_, ?_⟩
      rintro ⟨ps', m'⟩ hst
      exact ih ps' (poolStep_split hst) m'
  intro s
  induction s with
  | nil =>
    refine ⟨_, ?_⟩
    rintro ps' ⟨i, p, q, h, _⟩
    simp at h
  | cons p ps ih =>
    induction p generalizing ps with
    | ret =>
      induction ih with
      | intro ps hps ih2 =>
        refine ⟨_, ?_⟩
        rintro ps' ⟨i, p, q, h1, rfl, h2⟩
        cases i with
        | zero =>
          simp only [List.length_cons, Nat.zero_lt_succ, getElem?_pos, List.getElem_cons_zero, Option.some.injEq] at h1
          subst h1
          rcases h2 with ⟨a, k, x, h, _⟩ | ⟨a, x, h⟩ <;> cases h
        | succ i => exact ih2 _ ⟨i, p, q, by simpa using h1, rfl, h2⟩
    | fail e =>
      induction ih with
      | intro ps hps ih2 =>
        refine ⟨_, ?_⟩
        rintro ps' ⟨i, p, q, h1, rfl, h2⟩
        cases i with
        | zero =>
          simp only [List.length_cons, Nat.zero_lt_succ, getElem?_pos, List.getElem_cons_zero, Option.some.injEq] at h1
          subst h1
          rcases h2 with ⟨a, k, x, h, _⟩ | ⟨a, x, h⟩ <;> cases h
        | succ i => exact ih2 _ ⟨i, p, q, by simpa using h1, rfl, h2⟩
    | read b f ihp =>
      induction ih with
      | intro ps hps ih2 =>
        refine ⟨_, ?_⟩
        rintro ps' ⟨i, p, q, h1, rfl, h2⟩
        cases i with
        | zero =>
          simp only [List.length_cons, Nat.zero_lt_succ, getElem?_pos, List.getElem_cons_zero, Option.some.injEq] at h1
          subst h1
          rcases h2 with ⟨a, k, x, h, rfl⟩ | ⟨a, x, h⟩
          · cases h
            exact ihp x ps ⟨_, hps⟩
          · cases h
        | succ i => exact ih2 _ ⟨i, p, q, by simpa using h1, rfl, h2⟩
    | write b y f ihp =>
      induction ih with
      | intro ps hps ih2 =>
        refine ⟨_, ?_⟩
        rintro ps' ⟨i, p, q, h1, rfl, h2⟩
        cases i with
        | zero =>
          simp only [List.length_cons, Nat.zero_lt_succ, getElem?_pos, List.getElem_cons_zero, Option.some.injEq] at h1
          subst h1
          rcases h2 with ⟨a, k, x, h, rfl⟩ | ⟨a, x, h⟩
          · cases h
          · cases h
            exact ihp ps ⟨_, hps⟩
        | succ i => exact ih2 _ ⟨i, p, q, by simpa using h1, rfl, h2⟩

/-! ### parallel regions -/

/-- The possible outcomes of a statement for each initial memory. -/
def Beh (K : Type) := Mem K → R (Mem K) → Prop

namespace Beh

/-- a statement without concurrency -/
def det (f : Mem K → R (Mem K)) : Beh K := fun m r => r = f m
/-- tasks, followed by a barrier -/
def par (ps : List (Prog K)) : Beh K := Exec ps
/-- first `P`, then `Q` -/
def seq (P Q : Beh K) : Beh K := fun m r => (∃ e, P m (.error e) ∧ r = .error e) ∨ ∃ m', P m (.ok m') ∧ Q m' r
/-- `n` rounds, the first one with index `i` -/
def loop (P : Nat → Beh K) : Nat → Nat → Beh K
  | 0, _ => det pure
  | n + 1, i => seq (P i) (loop P n (i + 1))

/-- every outcome is normal and satisfies `Q` -/
def All (P : Beh K) (m : Mem K) (Q : Mem K → Prop) : Prop := ∀ r, P m r → ∃ m', r = .ok m' ∧ Q m'

theorem All.det {f : Mem K → R (Mem K)} {m : Mem K} {Q : Mem K → Prop} (h : Tot (f m) Q) : All (Beh.det f) m Q := by
  obtain ⟨m', h1, h2⟩ := h
  exact fun r hr => ⟨m', hr.trans h1, h2⟩

theorem All.par {ps : List (Prog K)} {rd wr : Nat → Nat → Prop} (hf : Free ps rd wr) {m : Mem K} {Q : Mem K → Prop}
    (h : Tot (seqRun ps m) Q) : All (Beh.par ps) m Q := by
  obtain ⟨m', h1, h2⟩ := h
  exact fun r hr => ⟨m', exec_free hf h1 hr, h2⟩

theorem All.seq {P P' : Beh K} {m : Mem K} {Q Q' : Mem K → Prop} (h : All P m Q) (h' : ∀ m', Q m' → All P' m' Q') :
    All (Beh.seq P P') m Q' := by
  rintro r (⟨e, h1, h2⟩ | ⟨m', h1, h2⟩)
  · obtain ⟨m', h3, _⟩ := h _ h1
    cases h3
  · obtain ⟨m'', h3, h4⟩ := h _ h1
    exact h' _ ((Except.ok.inj h3) ▸ h4) r h2

theorem All.mono {P : Beh K} {m : Mem K} {Q Q' : Mem K → Prop} (h : All P m Q) (h' : ∀ m, Q m → Q' m) : All P m Q' :=
  fun r hr => by obtain ⟨m', h1, h2⟩ := h r hr; exact ⟨m', h1, h' _ h2⟩

theorem All.loop {P : Nat → Beh K} {n i : Nat} {m : Mem K} (I : Nat → Mem K → Prop) (h0 : I i m)
    (hb : ∀ k m, i ≤ k → k < i + n → I k m → All (P k) m (I (k + 1))) : All (Beh.loop P n i) m (I (i + n)) := by
  induction n generalizing i m with
  | zero => exact All.det ⟨m, rfl, h0⟩
  | succ n ih =>
    refine All.seq (hb i m (Nat.le_refl _) (by omega) h0) fun m' hm' => ?_
    have := ih hm' fun k m h1 h2 => hb k m (by omega) (by omega)
    rwa [show i + 1 + n = i + (n + 1) by omega] at this

theorem det_exists (f : Mem K → R (Mem K)) (m : Mem K) : ∃ r, det f m r := ⟨_, rfl⟩
theorem par_exists (ps : List (Prog K)) (m : Mem K) : ∃ r, par ps m r := ⟨_, exec_exists ps m⟩
theorem seq_exists {P Q : Beh K} (hP : ∀ m, ∃ r, P m r) (hQ : ∀ m, ∃ r, Q m r) (m : Mem K) : ∃ r, seq P Q m r := by
  obtain ⟨r, hr⟩ := hP m
  cases r with
  | error e => exact ⟨_, .inl ⟨e, hr, rfl⟩⟩
  | ok m' =>
    obtain ⟨r, hr'⟩ := hQ m'
    exact ⟨r, .inr ⟨m', hr, hr'⟩⟩
theorem loop_exists {P : Nat → Beh K} (hP : ∀ i m, ∃ r, P i m r) (n i : Nat) (m : Mem K) : ∃ r, loop P n i m r := by
  induction n generalizing i m with
  | zero => exact det_exists _ _
  | succ n ih => exact seq_exists (hP i) (ih (i + 1)) m

end Beh

/-! ### pools given by an index set -/

theorem free_map {ι : Type} {L : List ι} (hL : L.Nodup) (f : ι → Prog K) (rd wr : ι → Nat → Prop)
    (hw : ∀ x ∈ L, (f x).Within (rd x) (wr x))
    (hd : ∀ x ∈ L, ∀ y ∈ L, x ≠ y → ∀ c, wr x c → ¬ rd y c ∧ ¬ wr y c) :
    Free (L.map f) (fun i c => ∀ x, L[i]? = some x → rd x c) (fun i c => ∀ x, L[i]? = some x → wr x c) := by
  constructor
  · intro i p hp
    rw [List.getElem?_map] at hp
    obtain ⟨x, hx, rfl⟩ := Option.map_eq_some_iff.mp hp
    exact (hw x (List.mem_of_getElem? hx)).mono (fun c hc y hy => by rwa [← Option.some.inj (hx.symm.trans hy)])
      fun c hc y hy => by rwa [← Option.some.inj (hx.symm.trans hy)]
  · intro i j hi hj hij c hc
    rw [List.length_map] at hi hj
    have h := hd L[i] (List.getElem_mem hi) L[j] (List.getElem_mem hj) (fun e => hij (hL.getElem_inj_iff.mp e)) c
      (hc _ (List.getElem?_eq_getElem hi))
    exact ⟨fun g => h.1 (g _ (List.getElem?_eq_getElem hj)), fun g => h.2 (g _ (List.getElem?_eq_getElem hj))⟩

theorem seqRun_range' (f : Nat → Prog K) (lo n : Nat) (m : Mem K) :
    seqRun ((List.range' lo n).map f) m = loopN (fun i m => (f i).run m) n lo m := by
  induction n generalizing lo m with
  | zero => rfl
  | succ n ih =>
    simp only [List.range'_succ, List.map_cons, seqRun, loopN]
    exact congrArg _ (funext fun m => ih (lo + 1) m)

theorem seqRun_flatMap (g : Nat → List (Prog K)) (lo n : Nat) (m : Mem K) :
    seqRun ((List.range' lo n).flatMap g) m = loopN (fun i m => seqRun (g i) m) n lo m := by
  induction n generalizing lo m with
  | zero => rfl
  | succ n ih =>
    simp only [List.range'_succ, List.flatMap_cons, loopN]
    rw [seqRun_append]
    exact congrArg _ (funext fun m => ih (lo + 1) m)

end H2
