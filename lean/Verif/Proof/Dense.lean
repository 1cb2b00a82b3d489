import Verif.Spec.Dense
import Mathlib.Tactic.Ring

set_option linter.unusedSectionVars false

namespace H2
variable {K : Type _}

theorem Mat.addr_inj {a : Mat} (h : a.rows ≤ a.ld) {i j i' j' : Nat} (hi : i < a.rows) (hi' : i' < a.rows)
    (e : a.addr i j = a.addr i' j') : i = i' ∧ j = j' := by
  unfold Mat.addr at e
  have e : i + j * a.ld = i' + j' * a.ld := by omega
  have h1 : (i + j * a.ld) % a.ld = i := by rw [Nat.add_mul_mod_self_right, Nat.mod_eq_of_lt (by omega)]
  have h2 : (i' + j' * a.ld) % a.ld = i' := by rw [Nat.add_mul_mod_self_right, Nat.mod_eq_of_lt (by omega)]
  have h3 : i = i' := by rw [← h1, ← h2, e]
  refine ⟨h3, ?_⟩
  have : j * a.ld = j' * a.ld := by omega
  exact Nat.eq_of_mul_eq_mul_right (by omega) this

theorem Mat.cell_addr {a : Mat} {i j : Nat} (hi : i < a.rows) (hj : j < a.cols) : a.Cell (a.addr i j) :=
  ⟨i, hi, j, hj, rfl⟩
theorem Vec.cell_addr {v : Vec} {i : Nat} (hi : i < v.dim) : v.Cell (v.addr i) := ⟨i, hi, rfl⟩
theorem Vec.addr_inj {v : Vec} {i i' : Nat} (e : v.addr i = v.addr i') : i = i' := by
  unfold Vec.addr at e; omega

theorem Mat.Valid.some [Zero K] {a : Mat} {m : Mem K} (h : a.Valid m) {i j : Nat} (hi : i < a.rows)
    (hj : j < a.cols) : m (a.addr i j) = Option.some (a.val m i j) := by
  obtain ⟨x, hx⟩ := Option.isSome_iff_exists.mp (h.2 i hi j hj)
  simp [Mat.val, hx]

theorem Vec.Valid.some [Zero K] {v : Vec} {m : Mem K} (h : v.Valid m) {i : Nat} (hi : i < v.dim) :
    m (v.addr i) = Option.some (v.val m i) := by
  obtain ⟨x, hx⟩ := Option.isSome_iff_exists.mp (h i hi)
  simp [Vec.val, hx]

theorem Mem.write_some {m : Mem K} {p : Nat} (x : K) (h : (m p).isSome) : m.write p x = .ok (m.upd p x) := by
  obtain ⟨y, hy⟩ := Option.isSome_iff_exists.mp h
  exact Mem.write_ok hy

namespace Dense
open Spec
variable [Field K] [StarRing K]

/-- result of an assignment loop over a sub-rectangle of cells of `a`, described for the whole matrix -/
theorem becomes_of {a : Mat} {m0 m' : Mem K} (ha : a.Valid m0) (P : Nat → Nat → Prop) [∀ i j, Decidable (P i j)]
    (G : Nat → Nat → K) (h1 : ∀ i < a.rows, ∀ j < a.cols, P i j → m' (a.addr i j) = some (G i j))
    (h2 : ∀ c, (∀ i < a.rows, ∀ j < a.cols, P i j → c ≠ a.addr i j) → m' c = m0 c) :
    MatBecomes a m0 (fun i j => if P i j then G i j else a.val m0 i j) m' := by
  have hval : ∀ i < a.rows, ∀ j < a.cols, m' (a.addr i j) = some (if P i j then G i j else a.val m0 i j) := by
    intro i hi j hj
    by_cases hp : P i j
    · rw [if_pos hp]; exact h1 i hi j hj hp
    · rw [if_neg hp, h2]
      · exact ha.some hi hj
      · intro i' hi' j' hj' hp' e
        obtain ⟨rfl, rfl⟩ := Mat.addr_inj ha.1 hi hi' e
        exact hp hp'
  refine ⟨⟨ha.1, fun i hi j hj => by rw [hval i hi j hj]; rfl⟩, fun i hi j hj => by simp [Mat.val, hval i hi j hj],
    fun c hc => h2 c fun i hi j hj _ e => hc ⟨i, hi, j, hj, e⟩⟩

theorem becomes_congr {a : Mat} {m0 m' : Mem K} {F G : Nat → Nat → K} (h : MatBecomes a m0 F m')
    (e : ∀ i < a.rows, ∀ j < a.cols, F i j = G i j) : MatBecomes a m0 G m' :=
  ⟨h.1, fun i hi j hj => by rw [h.2.1 i hi j hj, e i hi j hj], h.2.2⟩

theorem vbecomes_congr {v : Vec} {m0 m' : Mem K} {F G : Nat → K} (h : VecBecomes v m0 F m')
    (e : ∀ i < v.dim, F i = G i) : VecBecomes v m0 G m' :=
  ⟨h.1, fun i hi => by rw [h.2.1 i hi, e i hi], h.2.2⟩

/-- column-wise assignment loop: for `j < n`, `i ∈ [lo j, hi j)` set entry `(i, j)` to `G i j` -/
theorem colLoop {a : Mat} {m0 : Mem K} (ha : a.Valid m0) {n : Nat} {lo hi : Nat → Nat} {G : Nat → Nat → K}
    {body : Nat → Nat → Mem K → R (Mem K)} (hn : n ≤ a.cols) (hhi : ∀ j < n, hi j ≤ a.rows)
    (hlh : ∀ j < n, lo j ≤ hi j)
    (hb : ∀ j < n, ∀ i, lo j ≤ i → i < hi j → ∀ m : Mem K,
      (∀ c, (∀ j' ≤ j, ∀ i', lo j' ≤ i' → i' < hi j' → (j' < j ∨ i' < i) → c ≠ a.addr i' j') → m c = m0 c) →
      m (a.addr i j) = some (a.val m0 i j) →
      body j i m = .ok (m.upd (a.addr i j) (G i j))) :
    Tot (forUp 0 n (fun j m => forUp (lo j) (hi j) (fun i m => body j i m) m) m0)
      (MatBecomes a m0 (fun i j => if j < n ∧ lo j ≤ i ∧ i < hi j then G i j else a.val m0 i j)) := by
  refine (forUp2_assign (ad := fun j i => a.addr i j) (g := fun j i => G i j) hlh ?_ ?_).mono ?_
  · intro j hj i h1 h2 j' hj' i' h1' h2' e
    have := hhi j hj; have := hhi j' hj'
    have := Mat.addr_inj ha.1 (by omega) (by omega) e
    exact ⟨this.2, this.1⟩
  · intro j hj i h1 h2 m hm
    refine hb j hj i h1 h2 m hm ?_
    rw [hm]
    · have := hhi j hj
      exact ha.some (by omega) (by omega)
    · intro j' hj' i' h1' h2' hlt e
      have := hhi j hj; have := hhi j' (by omega)
      have := Mat.addr_inj ha.1 (by omega) (by omega) e
      omega
  · rintro m' ⟨b1, b2⟩
    refine becomes_of ha (fun i j => j < n ∧ lo j ≤ i ∧ i < hi j) G ?_ ?_
    · rintro i hi j hj ⟨h1, h2, h3⟩; exact b1 j h1 i h2 h3
    · intro c hc
      refine b2 c fun j hj i h1 h2 => ?_
      have := hhi j hj
      exact hc i (by omega) j (by omega) ⟨hj, h1, h2⟩

/-- row-wise assignment loop over `[0, n) × [0, k)` -/
theorem rowLoop {a : Mat} {m0 : Mem K} (ha : a.Valid m0) {n k : Nat} {G : Nat → Nat → K}
    {body : Nat → Nat → Mem K → R (Mem K)} (hn : n ≤ a.rows) (hk : k ≤ a.cols)
    (hb : ∀ i < n, ∀ j < k, ∀ m : Mem K,
      (∀ c, (∀ i' ≤ i, ∀ j' < k, (i' < i ∨ j' < j) → c ≠ a.addr i' j') → m c = m0 c) →
      m (a.addr i j) = some (a.val m0 i j) →
      body i j m = .ok (m.upd (a.addr i j) (G i j))) :
    Tot (forUp 0 n (fun i m => forUp 0 k (fun j m => body i j m) m) m0)
      (MatBecomes a m0 (fun i j => if i < n ∧ j < k then G i j else a.val m0 i j)) := by
  refine (forUp2_assign (lo := fun _ => 0) (hi := fun _ => k) (ad := fun i j => a.addr i j)
    (g := fun i j => G i j) (fun _ _ => Nat.zero_le _) ?_ ?_).mono ?_
  · intro i hi j _ hj i' hi' j' _ hj' e
    exact Mat.addr_inj ha.1 (by omega) (by omega) e
  · intro i hi j _ hj m hm
    refine hb i hi j hj m (fun c hc => hm c fun i' h1 j' _ h2 h3 => hc i' h1 j' h2 h3) ?_
    rw [hm]
    · exact ha.some (by omega) (by omega)
    · intro i' hi' j' _ hj' hlt e
      have := Mat.addr_inj ha.1 (by omega) (by omega) e
      omega
  · rintro m' ⟨b1, b2⟩
    refine becomes_of ha (fun i j => i < n ∧ j < k) G ?_ ?_
    · rintro i hi j hj ⟨h1, h2⟩; exact b1 i h1 j (Nat.zero_le _) h2
    · intro c hc
      exact b2 c fun i hi j _ hj => hc i (by omega) j (by omega) ⟨hi, hj⟩

/-- assignment loop over the first `n` entries of a vector -/
theorem vecLoop {v : Vec} {m0 : Mem K} (hv : v.Valid m0) {n : Nat} {G : Nat → K} {body : Nat → Mem K → R (Mem K)}
    (hn : n ≤ v.dim)
    (hb : ∀ i < n, ∀ m : Mem K, (∀ c, (∀ i' < i, c ≠ v.addr i') → m c = m0 c) →
      m (v.addr i) = some (v.val m0 i) → body i m = .ok (m.upd (v.addr i) (G i))) :
    Tot (forUp 0 n body m0) (VecBecomes v m0 (fun i => if i < n then G i else v.val m0 i)) := by
  refine (forUp_tot (fun s (m' : Mem K) => (∀ i < s, m' (v.addr i) = some (G i)) ∧
      ∀ c, (∀ i < s, c ≠ v.addr i) → m' c = m0 c) (Nat.zero_le _)
    ⟨fun i h => absurd h (Nat.not_lt_zero _), fun _ _ => rfl⟩ ?_).mono ?_
  · rintro i m - hi ⟨b1, b2⟩
    refine ⟨_, hb i hi m b2 ?_, ?_, ?_⟩
    · rw [b2]
      · exact hv.some (by omega)
      · intro i' hi' e
        have := Vec.addr_inj e; omega
    · intro i' hi'
      by_cases e : i' = i
      · rw [e, Mem.upd_same]
      · rw [Mem.upd_ne fun e' => e (Vec.addr_inj e')]
        exact b1 i' (by omega)
    · intro c hc
      rw [Mem.upd_ne (hc i (by omega))]
      exact b2 c fun i' hi' => hc i' (by omega)
  · rintro m' ⟨b1, b2⟩
    have hval : ∀ i < v.dim, m' (v.addr i) = some (if i < n then G i else v.val m0 i) := by
      intro i hi
      by_cases hp : i < n
      · rw [if_pos hp]; exact b1 i hp
      · rw [if_neg hp, b2]
        · exact hv.some hi
        · intro i' hi' e
          have := Vec.addr_inj e; omega
    refine ⟨fun i hi => by rw [hval i hi]; rfl, fun i hi => by simp [Vec.val, hval i hi],
      fun c hc => b2 c fun i hi e => hc ⟨i, by omega, e⟩⟩

/-! ### vectors -/

theorem clearVec_tot {v : Vec} {m : Mem K} (hv : v.Valid m) : Tot (clearVec v m) (VecBecomes v m (fun _ => 0)) := by
  refine (vecLoop hv (G := fun _ => 0) le_rfl fun i hi m' _ h => Mem.write_ok h).mono fun m' h =>
    vbecomes_congr h fun i hi => by simp [hi]

theorem fillVec_tot {v : Vec} {m : Mem K} (hv : v.Valid m) (x : K) :
    Tot (fillVec v x m) (VecBecomes v m (fun _ => x)) := by
  refine (vecLoop hv (G := fun _ => x) le_rfl fun i hi m' _ h => Mem.write_ok h).mono fun m' h =>
    vbecomes_congr h fun i hi => by simp [hi]

theorem copySubVec_tot {v w : Vec} {m : Mem K} (hv : v.Valid m) (hw : w.Valid m) (hd : Disj v.Cell w.Cell) :
    Tot (copySubVec v w m) (VecBecomes w m (fun i => if i < v.dim then v.val m i else w.val m i)) := by
  refine (vecLoop hw (G := fun i => v.val m i) (n := min v.dim w.dim) (by omega) fun i hi m' hm h => ?_).mono
    fun m' h => vbecomes_congr h fun i hi => ?_
  · have hr : m' (v.addr i) = some (v.val m i) := by
      rw [hm]
      · exact hv.some (by omega)
      · intro i' hi' e
        exact hd _ (Vec.cell_addr (show i < v.dim by omega)) (e ▸ Vec.cell_addr (show i' < w.dim by omega))
    rw [Mem.read_ok hr, ok_bind, Mem.write_ok h]
  · by_cases hp : i < v.dim
    · rw [if_pos hp, if_pos (by omega)]
    · rw [if_neg hp, if_neg (by omega)]

theorem copyVec_tot {v w : Vec} {m : Mem K} (hv : v.Valid m) (hw : w.Valid m) (hd : Disj v.Cell w.Cell)
    (hdim : v.dim = w.dim) : Tot (copyVec v w m) (VecBecomes w m (fun i => v.val m i)) := by
  refine Tot.cassert (by simpa using hdim) ?_
  have := copySubVec_tot hv hw hd
  unfold copySubVec at this
  rw [show min v.dim w.dim = v.dim by omega] at this
  exact this.mono fun m' h => vbecomes_congr h fun i hi => by rw [if_pos (by omega)]

theorem scaleVec_tot {v : Vec} {m : Mem K} (hv : v.Valid m) (alpha : K) :
    Tot (scaleVec alpha v m) (VecBecomes v m (fun i => alpha * v.val m i)) := by
  refine (vecLoop hv (G := fun i => v.val m i * alpha) le_rfl fun i hi m' _ h => ?_).mono fun m' h =>
    vbecomes_congr h fun i hi => by rw [if_pos hi, mul_comm]
  rw [Mem.read_ok h, ok_bind, Mem.write_ok h]

theorem addVec_tot {x y : Vec} {m : Mem K} (hx : x.Valid m) (hy : y.Valid m) (hd : Disj x.Cell y.Cell)
    (hdim : x.dim ≤ y.dim) (alpha : K) :
    Tot (addVec alpha x y m)
      (VecBecomes y m (fun i => if i < x.dim then y.val m i + alpha * x.val m i else y.val m i)) := by
  refine Tot.cassert (by simpa using hdim) ?_
  refine vecLoop hy (G := fun i => y.val m i + alpha * x.val m i) hdim fun i hi m' hm h => ?_
  have hr : m' (x.addr i) = some (x.val m i) := by
    rw [hm]
    · exact hx.some hi
    · intro i' hi' e
      exact hd _ (Vec.cell_addr hi) (e ▸ Vec.cell_addr (show i' < y.dim by omega))
  rw [Mem.read_ok h, ok_bind, Mem.read_ok hr, ok_bind, Mem.write_ok h]

/-- accumulating loop without memory effects -/
theorem sumLoop {lo hi : Nat} {body : Nat → K → R K} {t : Nat → K} (hle : lo ≤ hi)
    (hb : ∀ k, lo ≤ k → k < hi → ∀ s, body k s = .ok (s + t k)) (s : K) :
    forUp lo hi body s = .ok (s + ∑ k ∈ Finset.Ico lo hi, t k) := by
  obtain ⟨r, e, h⟩ := forUp_tot (body := body) (s := s) (fun k r => r = s + ∑ l ∈ Finset.Ico lo k, t l) hle (by simp)
    (fun k r h1 h2 hr => ⟨_, hb k h1 h2 r, by rw [hr, Finset.sum_Ico_succ_top h1, add_assoc]⟩)
  rw [e, h]

theorem dotprodVec_tot {x y : Vec} {m : Mem K} (hx : x.Valid m) (hy : y.Valid m) (hdim : x.dim = y.dim) :
    dotprodVec x y m = .ok (∑ i ∈ Finset.range x.dim, star (x.val m i) * y.val m i) := by
  unfold dotprodVec
  rw [cassert_true (by simpa using hdim), ok_bind]
  rw [sumLoop (t := fun i => star (x.val m i) * y.val m i) (Nat.zero_le _)]
  · rw [zero_add, Finset.range_eq_Ico]
  · intro k _ hk s
    rw [Mem.read_ok (hx.some hk), ok_bind, Mem.read_ok (hy.some (by omega)), ok_bind]
    rfl

/-! ### matrices -/

theorem clear_tot {a : Mat} {m : Mem K} (ha : a.Valid m) : Tot (clear a m) (MatBecomes a m (fun _ _ => 0)) := by
  refine (colLoop ha (lo := fun _ => 0) (hi := fun _ => a.rows) (G := fun _ _ => 0) le_rfl (fun _ _ => le_rfl)
    (fun _ _ => Nat.zero_le _) fun j hj i _ hi m' _ h => Mem.write_ok h).mono fun m' h =>
    becomes_congr h fun i hi j hj => by simp [hi, hj]

theorem forUp_nop {σ : Type _} {lo hi : Nat} (h : hi ≤ lo) (body : Nat → σ → R σ) (s : σ) :
    forUp lo hi body s = .ok s := by
  unfold forUp
  rw [Nat.sub_eq_zero_of_le h]
  rfl

theorem forUp_max {σ : Type _} (lo hi : Nat) (body : Nat → σ → R σ) (s : σ) :
    forUp lo hi body s = forUp (min lo hi) hi (fun i s => if lo ≤ i then body i s else .ok s) s := by
  by_cases h : lo ≤ hi
  · rw [min_eq_left h]
    unfold forUp
    have : ∀ n i s, lo ≤ i → loopN body n i s = loopN (fun i s => if lo ≤ i then body i s else .ok s) n i s := by
      intro n
      induction n with
      | zero => intros; rfl
      | succ n ih =>
        intro i s hi
        simp only [loopN, if_pos hi]
        congr 1
        funext s'
        exact ih _ _ (by omega)
    exact this _ _ _ le_rfl
  · rw [forUp_nop (by omega), forUp_nop (by omega)]

/-- zeroing loop over a set of rows in every column -/
theorem zeroLoop {a : Mat} {m : Mem K} (ha : a.Valid m) (lo hi : Nat → Nat) (hhi : ∀ j < a.cols, hi j ≤ a.rows) :
    Tot (forUp 0 a.cols (fun j m => forUp (lo j) (hi j) (fun i m => m.write (a.addr i j) 0) m) m)
      (MatBecomes a m (fun i j => if lo j ≤ i ∧ i < hi j then 0 else a.val m i j)) := by
  have e : (fun j (m : Mem K) => forUp (lo j) (hi j) (fun i m => m.write (a.addr i j) 0) m) =
      fun j m => forUp (min (lo j) (hi j)) (hi j)
        (fun i m => if lo j ≤ i then m.write (a.addr i j) 0 else .ok m) m := by
    funext j m; exact forUp_max _ _ _ _
  rw [e]
  refine (colLoop ha (lo := fun j => min (lo j) (hi j)) (hi := hi) (G := fun _ _ => 0) le_rfl hhi
    (fun _ _ => min_le_right _ _) fun j hj i h1 h2 m' _ h => ?_).mono fun m' h =>
    becomes_congr h fun i hi' j hj => ?_
  · rw [if_pos (by omega)]
    exact Mem.write_ok h
  · by_cases hp : lo j ≤ i ∧ i < hi j
    · rw [if_pos hp, if_pos ⟨hj, by omega, hp.2⟩]
    · rw [if_neg hp, if_neg (by omega)]

theorem clearLower_tot {a : Mat} {m : Mem K} (ha : a.Valid m) (strict : Bool) :
    Tot (clearLower a strict m)
      (MatBecomes a m (fun i j => if (if strict then j < i else j ≤ i) then 0 else a.val m i j)) := by
  unfold clearLower
  cases strict
  · exact (zeroLoop ha (fun j => j) (fun _ => a.rows) fun _ _ => le_rfl).mono fun m' h =>
      becomes_congr h fun i hi j hj => by simp [hi]
  · exact (zeroLoop ha (fun j => j + 1) (fun _ => a.rows) fun _ _ => le_rfl).mono fun m' h =>
      becomes_congr h fun i hi j hj => by simp [hi, Nat.succ_le_iff]

theorem clearUpper_tot {a : Mat} {m : Mem K} (ha : a.Valid m) (strict : Bool) (h0 : strict = true ∨ 0 < a.rows)
    (h32 : a.rows < 2 ^ 32) :
    Tot (clearUpper a strict m)
      (MatBecomes a m (fun i j => if (if strict then i < j else i ≤ j) then 0 else a.val m i j)) := by
  unfold clearUpper
  cases strict
  · have hr : 0 < a.rows := by simpa using h0
    have e : (a.rows + (2 ^ 32 - 1)) % 2 ^ 32 = a.rows - 1 := by omega
    simp only [Bool.false_eq_true, if_false, e]
    refine (zeroLoop ha (fun _ => 0) (fun j => min j (a.rows - 1) + 1) fun j _ => by omega).mono fun m' h =>
      becomes_congr h fun i hi j hj => ?_
    by_cases hp : i ≤ j
    · rw [if_pos hp, if_pos (by omega)]
    · rw [if_neg hp, if_neg (by omega)]
  · simp only [if_true]
    refine (zeroLoop ha (fun _ => 0) (fun j => min j a.rows) fun j _ => by omega).mono fun m' h =>
      becomes_congr h fun i hi j hj => ?_
    by_cases hp : i < j
    · rw [if_pos hp, if_pos (by omega)]
    · rw [if_neg hp, if_neg (by omega)]

theorem becomes_trans {a : Mat} {m m1 m2 : Mem K} {F G : Nat → Nat → K} (h : MatBecomes a m F m1)
    (h' : MatBecomes a m1 G m2) : MatBecomes a m G m2 :=
  ⟨h'.1, h'.2.1, fun c hc => (h'.2.2 c hc).trans (h.2.2 c hc)⟩

theorem identity_tot {a : Mat} {m : Mem K} (ha : a.Valid m) :
    Tot (identity a m) (MatBecomes a m (fun i j => if i = j then 1 else 0)) := by
  unfold identity
  refine Tot.bind (clear_tot ha) ?_
  rintro m1 - h1
  have ha1 := h1.1
  -- a double loop with one inner round
  have := colLoop ha1 (n := min a.cols a.rows) (lo := fun j => j) (hi := fun j => j + 1) (G := fun _ _ => 1)
    (body := fun j i m => m.write (a.addr i j) 1) (by omega) (fun j hj => by omega) (fun _ _ => by omega)
    (fun j hj i _ hi m' _ h => Mem.write_ok h)
  have e : (fun j (m : Mem K) => forUp j (j + 1) (fun i m => m.write (a.addr i j) 1) m) =
      fun j m => m.write (a.addr j j) 1 := by
    funext j m
    unfold forUp
    rw [Nat.add_sub_cancel_left]
    simp only [loopN]
    cases m.write (a.addr j j) 1 <;> rfl
  rw [e] at this
  refine this.mono fun m2 h2 => becomes_trans h1 (becomes_congr h2 fun i hi j hj => ?_)
  rw [h1.2.1 i hi j hj]
  by_cases hp : i = j
  · rw [if_pos hp, if_pos (by omega)]
  · rw [if_neg hp, if_neg (by omega)]

/-- a cell of another, disjoint matrix is not affected -/
theorem read_other {a b : Mat} {m m' : Mem K} {S : Nat → Prop} (ha : a.Valid m) (hd : Disj a.Cell b.Cell)
    (hS : ∀ c, S c → b.Cell c) (hm : ∀ c, ¬ S c → m' c = m c) {i j : Nat} (hi : i < a.rows) (hj : j < a.cols) :
    m'.read (a.addr i j) = .ok (a.val m i j) := by
  apply Mem.read_ok
  rw [hm]
  · exact ha.some hi hj
  · intro h; exact hd _ (Mat.cell_addr hi hj) (hS _ h)

theorem copySub_tot {a b : Mat} {m : Mem K} (ha : a.Valid m) (hb : b.Valid m) (hd : Disj a.Cell b.Cell)
    (trans : Bool) :
    Tot (copySub trans a b m) (MatBecomes b m (fun i j => if i < opRows trans a ∧ j < opCols trans a then
      op trans (a.val m) i j else b.val m i j)) := by
  unfold copySub
  cases trans
  · simp only [Bool.false_eq_true, if_false, op, opRows, opCols]
    refine (colLoop hb (lo := fun _ => 0) (hi := fun _ => min a.rows b.rows) (n := min a.cols b.cols)
      (G := fun i j => a.val m i j) (by omega) (fun _ _ => by omega) (fun _ _ => Nat.zero_le _)
      fun j hj i _ hi m' hm h => ?_).mono fun m' h => becomes_congr h fun i hi j hj => ?_
    · rw [read_other (S := fun c => ∃ j' ≤ j, ∃ i', 0 ≤ i' ∧ i' < min a.rows b.rows ∧ (j' < j ∨ i' < i) ∧
          c = b.addr i' j') ha hd ?_ ?_ (show i < a.rows by omega) (show j < a.cols by omega), ok_bind, Mem.write_ok h]
      · rintro c ⟨j', h1, i', _, h2, _, rfl⟩
        exact Mat.cell_addr (by omega) (by omega)
      · intro c hc
        exact hm c fun j' h1 i' h2 h3 h4 e => hc ⟨j', h1, i', h2, h3, h4, e⟩
    · by_cases hp : i < a.rows ∧ j < a.cols
      · rw [if_pos hp, if_pos (by omega)]
      · rw [if_neg hp, if_neg (by omega)]
  · simp only [if_true, op, opRows, opCols]
    refine (rowLoop hb (n := min a.cols b.rows) (k := min a.rows b.cols)
      (G := fun i j => star (a.val m j i)) (by omega) (by omega) fun i hi j hj m' hm h => ?_).mono fun m' h =>
      becomes_congr h fun i hi j hj => ?_
    · rw [read_other (S := fun c => ∃ i' ≤ i, ∃ j' < min a.rows b.cols, (i' < i ∨ j' < j) ∧
          c = b.addr i' j') ha hd ?_ ?_ (show j < a.rows by omega) (show i < a.cols by omega), ok_bind, Mem.write_ok h]
      · rintro c ⟨i', h1, j', h2, _, rfl⟩
        exact Mat.cell_addr (by omega) (by omega)
      · intro c hc
        exact hm c fun i' h1 j' h3 h4 e => hc ⟨i', h1, j', h3, h4, e⟩
    · by_cases hp : i < a.cols ∧ j < a.rows
      · rw [if_pos hp, if_pos (by omega)]
      · rw [if_neg hp, if_neg (by omega)]

theorem copy_tot {a b : Mat} {m : Mem K} (ha : a.Valid m) (hb : b.Valid m) (hd : Disj a.Cell b.Cell)
    (trans : Bool) (hr : b.rows = opRows trans a) (hc : b.cols = opCols trans a) :
    Tot (copy trans a b m) (MatBecomes b m (op trans (a.val m))) := by
  have key := (copySub_tot ha hb hd trans).mono fun m' h =>
    becomes_congr (G := op trans (a.val m)) h fun i hi j hj => by rw [if_pos (by omega)]
  unfold copy
  cases trans
  · simp only [opRows, opCols, Bool.false_eq_true, if_false] at hr hc
    exact Tot.cassert (by simp [hr]) (Tot.cassert (by simp [hc]) key)
  · simp only [opRows, opCols, if_true] at hr hc
    exact Tot.cassert (by simp [hc]) (Tot.cassert (by simp [hr]) key)

theorem scale_tot {a : Mat} {m : Mem K} (ha : a.Valid m) (alpha : K) :
    Tot (scale alpha a m) (MatBecomes a m (fun i j => alpha * a.val m i j)) := by
  refine (colLoop ha (lo := fun _ => 0) (hi := fun _ => a.rows) (G := fun i j => a.val m i j * alpha) le_rfl
    (fun _ _ => le_rfl) (fun _ _ => Nat.zero_le _) fun j hj i _ hi m' _ h => ?_).mono fun m' h =>
    becomes_congr h fun i hi j hj => by simp [hi, hj, mul_comm]
  rw [Mem.read_ok h, ok_bind, Mem.write_ok h]

theorem conjugate_tot {a : Mat} {m : Mem K} (ha : a.Valid m) :
    Tot (conjugate a m) (MatBecomes a m (fun i j => star (a.val m i j))) := by
  refine (colLoop ha (lo := fun _ => 0) (hi := fun _ => a.rows) (G := fun i j => star (a.val m i j)) le_rfl
    (fun _ _ => le_rfl) (fun _ _ => Nat.zero_le _) fun j hj i _ hi m' _ h => ?_).mono fun m' h =>
    becomes_congr h fun i hi j hj => by simp [hi, hj]
  rw [Mem.read_ok h, ok_bind, Mem.write_ok h]

theorem dotprod_tot {a b : Mat} {m : Mem K} (ha : a.Valid m) (hb : b.Valid m) (hr : a.rows = b.rows)
    (hc : a.cols = b.cols) :
    dotprod a b m = .ok (∑ j ∈ Finset.range a.cols, ∑ i ∈ Finset.range a.rows, star (a.val m i j) * b.val m i j) := by
  unfold dotprod
  rw [cassert_true (by simpa using hr), ok_bind, cassert_true (by simpa using hc), ok_bind]
  rw [sumLoop (t := fun j => ∑ i ∈ Finset.Ico 0 a.rows, star (a.val m i j) * b.val m i j) (Nat.zero_le _)]
  · simp only [zero_add, Finset.range_eq_Ico]
  · intro j _ hj s
    rw [sumLoop (t := fun i => star (a.val m i j) * b.val m i j) (Nat.zero_le _)]
    intro i _ hi s
    rw [Mem.read_ok (ha.some hi hj), ok_bind, Mem.read_ok (hb.some (by omega) (by omega)), ok_bind]
    rfl

theorem vread_other {v w : Vec} {m m' : Mem K} (hv : v.Valid m) (hd : Disj v.Cell w.Cell) {n : Nat}
    (hn : n ≤ w.dim) (hm : ∀ c, (∀ i' < n, c ≠ w.addr i') → m' c = m c) {i : Nat} (hi : i < v.dim) :
    m'.read (v.addr i) = .ok (v.val m i) := by
  apply Mem.read_ok
  rw [hm]
  · exact hv.some hi
  · intro i' hi' e
    exact hd _ (Vec.cell_addr hi) (e ▸ Vec.cell_addr (by omega))

theorem mread_otherv {a : Mat} {w : Vec} {m m' : Mem K} (ha : a.Valid m) (hd : Disj a.Cell w.Cell) {n : Nat}
    (hn : n ≤ w.dim) (hm : ∀ c, (∀ i' < n, c ≠ w.addr i') → m' c = m c) {i j : Nat} (hi : i < a.rows)
    (hj : j < a.cols) : m'.read (a.addr i j) = .ok (a.val m i j) := by
  apply Mem.read_ok
  rw [hm]
  · exact ha.some hi hj
  · intro i' hi' e
    exact hd _ (Mat.cell_addr hi hj) (e ▸ Vec.cell_addr (by omega))

theorem addeval_tot {a : Mat} {x y : Vec} {m : Mem K} (ha : a.Valid m) (hx : x.Valid m) (hy : y.Valid m)
    (hay : Disj a.Cell y.Cell) (hxy : Disj x.Cell y.Cell) (hc : a.cols ≤ x.dim) (hr : a.rows ≤ y.dim) (alpha : K) :
    Tot (addeval alpha a x y m) (VecBecomes y m (fun i => if i < a.rows then
      y.val m i + alpha * ∑ j ∈ Finset.range a.cols, a.val m i j * x.val m j else y.val m i)) := by
  refine Tot.cassert (by simpa using hc) (Tot.cassert (by simpa using hr) ?_)
  refine vecLoop hy hr fun i hi m' hm h => ?_
  rw [sumLoop (t := fun j => a.val m i j * x.val m j) (Nat.zero_le _), ok_bind]
  · rw [Mem.read_ok h, ok_bind, Mem.write_ok h, zero_add, Finset.range_eq_Ico]
  · intro j _ hj s
    rw [mread_otherv ha hay (show i ≤ y.dim by omega) hm hi hj, ok_bind,
      vread_other hx hxy (show i ≤ y.dim by omega) hm (by omega), ok_bind]
    rfl

theorem addevaltrans_tot {a : Mat} {x y : Vec} {m : Mem K} (ha : a.Valid m) (hx : x.Valid m) (hy : y.Valid m)
    (hay : Disj a.Cell y.Cell) (hxy : Disj x.Cell y.Cell) (hr : a.rows ≤ x.dim) (hc : a.cols ≤ y.dim) (alpha : K) :
    Tot (addevaltrans alpha a x y m) (VecBecomes y m (fun j => if j < a.cols then
      y.val m j + alpha * ∑ i ∈ Finset.range a.rows, star (a.val m i j) * x.val m i else y.val m j)) := by
  refine Tot.cassert (by simpa using hr) (Tot.cassert (by simpa using hc) ?_)
  refine vecLoop hy hc fun j hj m' hm h => ?_
  rw [sumLoop (t := fun i => star (a.val m i j) * x.val m i) (Nat.zero_le _), ok_bind]
  · rw [Mem.read_ok h, ok_bind, Mem.write_ok h, zero_add, Finset.range_eq_Ico]
  · intro i _ hi s
    rw [mread_otherv ha hay (show j ≤ y.dim by omega) hm hi hj, ok_bind,
      vread_other hx hxy (show j ≤ y.dim by omega) hm (by omega), ok_bind]
    rfl

/-! ### accumulation -/

theorem incr_acc {m0 m : Mem K} {f : Nat → K} (h : Acc m0 f m) {p : Nat} (hp : (m0 p).isSome) (t : K) :
    Tot (incr m p t) (Acc m0 (fun c => f c + if c = p then t else 0)) := by
  obtain ⟨x, hx⟩ := Option.isSome_iff_exists.mp hp
  unfold incr
  have := h.some hx
  rw [Mem.read_ok this, ok_bind, Mem.write_ok this]
  exact ⟨_, rfl, h.add hx t⟩

theorem acc_read {a : Mat} {m0 m : Mem K} {f : Nat → K} {S : Nat → Prop} (ha : a.Valid m0) (h : Acc m0 f m)
    (hf : ∀ c, ¬ S c → f c = 0) (hd : Disj a.Cell S) {i j : Nat} (hi : i < a.rows) (hj : j < a.cols) :
    m.read (a.addr i j) = .ok (a.val m0 i j) := by
  apply Mem.read_ok
  rw [h.eq (hf _ (hd _ (Mat.cell_addr hi hj)))]
  exact ha.some hi hj

/-- from accumulated increments to the values of the matrix -/
theorem becomes_acc {b : Mat} {m m' : Mem K} (hb : b.Valid m) {f : Nat → K} (h : Acc m f m')
    (hf : ∀ c, ¬ b.Cell c → f c = 0) {F : Nat → Nat → K}
    (hF : ∀ i < b.rows, ∀ j < b.cols, b.val m i j + f (b.addr i j) = F i j) : MatBecomes b m F m' := by
  have hval : ∀ i < b.rows, ∀ j < b.cols, m' (b.addr i j) = some (F i j) := by
    intro i hi j hj
    rw [h.some (hb.some hi hj), hF i hi j hj]
  exact ⟨⟨hb.1, fun i hi j hj => by rw [hval i hi j hj]; rfl⟩, fun i hi j hj => by simp [Mat.val, hval i hi j hj],
    fun c hc => h.eq (hf c hc)⟩

/-- a double sum over all cells of `b` picks out one term -/
theorem pick2 {b : Mat} (hld : b.rows ≤ b.ld) {p q : Nat} (hp : p ≤ b.rows) (hq : q ≤ b.cols) (t : Nat → Nat → K)
    {i j : Nat} (hi : i < b.rows) :
    (∑ i' ∈ Finset.range p, ∑ j' ∈ Finset.range q, if b.addr i j = b.addr i' j' then t i' j' else 0) =
      if i < p ∧ j < q then t i j else 0 := by
  have e : ∀ i' ∈ Finset.range p, ∀ j', (if b.addr i j = b.addr i' j' then t i' j' else 0) =
      if j = j' then (if i = i' then t i j else 0) else 0 := by
    intro i' hi' j'
    rw [Finset.mem_range] at hi'
    by_cases h1 : i = i' <;> by_cases h2 : j = j'
    · subst h1; subst h2; simp
    · rw [if_neg (fun e => h2 (Mat.addr_inj hld hi (by omega) e).2), if_neg h2]
    · rw [if_neg (fun e => h1 (Mat.addr_inj hld hi (by omega) e).1), if_pos h2, if_neg h1]
    · rw [if_neg (fun e => h2 (Mat.addr_inj hld hi (by omega) e).2), if_neg h2]
  rw [Finset.sum_congr rfl fun i' hi' => Finset.sum_congr rfl fun j' _ => e i' hi' j']
  simp only [Finset.sum_ite_eq, Finset.mem_range]
  by_cases hj : j < q
  · simp [hj]
  · simp [hj]

theorem add_tot {a b : Mat} {m : Mem K} (ha : a.Valid m) (hb : b.Valid m) (hd : Disj a.Cell b.Cell) (trans : Bool)
    (hr : opRows trans a ≤ b.rows) (hc : opCols trans a ≤ b.cols) (alpha : K) :
    Tot (add alpha trans a b m) (MatBecomes b m (fun i j => if i < opRows trans a ∧ j < opCols trans a then
      b.val m i j + alpha * op trans (a.val m) i j else b.val m i j)) := by
  unfold add
  cases trans
  · simp only [Bool.false_eq_true, if_false, op, opRows, opCols] at hr hc ⊢
    refine Tot.cassert (by simpa using hr) (Tot.cassert (by simpa using hc) ?_)
    refine (forUp_acc (m0 := m) (S := b.Cell) (d := fun j c => ∑ i ∈ Finset.Ico 0 a.rows,
      if c = b.addr i j then alpha * a.val m i j else 0) (Nat.zero_le _) ?_ ?_ (fun _ _ => rfl)
      (Acc.zero m)).mono ?_
    · intro j _ hj c hc'
      refine Finset.sum_eq_zero fun i hi => if_neg ?_
      rw [Finset.mem_Ico] at hi
      rintro rfl; exact hc' (Mat.cell_addr (by omega) (by omega))
    · intro j _ hj f m1 hf hm1
      refine forUp_acc (S := b.Cell) (d := fun i c => if c = b.addr i j then alpha * a.val m i j else 0)
        (Nat.zero_le _) ?_ ?_ hf hm1
      · intro i _ hi c hc'
        refine if_neg ?_
        rintro rfl; exact hc' (Mat.cell_addr (by omega) (by omega))
      · intro i _ hi f m2 hf hm2
        rw [acc_read ha hm2 hf hd hi hj, ok_bind]
        exact incr_acc hm2 (hb.2 i (by omega) j (by omega)) _
    · intro m' h
      refine becomes_acc hb h ?_ ?_
      · intro c hc'
        rw [zero_add]
        refine Finset.sum_eq_zero fun j hj => Finset.sum_eq_zero fun i hi => if_neg ?_
        rw [Finset.mem_Ico] at hi hj
        rintro rfl; exact hc' (Mat.cell_addr (by omega) (by omega))
      · intro i hi j hj
        rw [zero_add, Finset.sum_comm, ← Finset.range_eq_Ico, ← Finset.range_eq_Ico,
          pick2 hb.1 hr hc (fun i j => alpha * a.val m i j) hi]
        split
        · rfl
        · simp
  · simp only [if_true, op, opRows, opCols] at hr hc ⊢
    refine Tot.cassert (by simpa using hc) (Tot.cassert (by simpa using hr) ?_)
    refine (forUp_acc (m0 := m) (S := b.Cell) (d := fun i c => ∑ j ∈ Finset.Ico 0 a.cols,
      if c = b.addr j i then alpha * star (a.val m i j) else 0) (Nat.zero_le _) ?_ ?_ (fun _ _ => rfl)
      (Acc.zero m)).mono ?_
    · intro i _ hi c hc'
      refine Finset.sum_eq_zero fun j hj => if_neg ?_
      rw [Finset.mem_Ico] at hj
      rintro rfl; exact hc' (Mat.cell_addr (by omega) (by omega))
    · intro i _ hi f m1 hf hm1
      refine forUp_acc (S := b.Cell) (d := fun j c => if c = b.addr j i then alpha * star (a.val m i j) else 0)
        (Nat.zero_le _) ?_ ?_ hf hm1
      · intro j _ hj c hc'
        refine if_neg ?_
        rintro rfl; exact hc' (Mat.cell_addr (by omega) (by omega))
      · intro j _ hj f m2 hf hm2
        rw [acc_read ha hm2 hf hd hi hj, ok_bind]
        exact incr_acc hm2 (hb.2 j (by omega) i (by omega)) _
    · intro m' h
      refine becomes_acc hb h ?_ ?_
      · intro c hc'
        rw [zero_add]
        refine Finset.sum_eq_zero fun j hj => Finset.sum_eq_zero fun i hi => if_neg ?_
        rw [Finset.mem_Ico] at hi hj
        rintro rfl; exact hc' (Mat.cell_addr (by omega) (by omega))
      · intro i hi j hj
        rw [zero_add, Finset.sum_comm, ← Finset.range_eq_Ico, ← Finset.range_eq_Ico,
          pick2 hb.1 hr hc (fun j i => alpha * star (a.val m i j)) hi]
        split
        · rfl
        · simp

/-- a triple accumulation loop in any nesting order: `t o1 o2 o3` goes to cell `ad o1 o2 o3` -/
theorem forUp3_acc {p q r : Nat} {S : Nat → Prop} {m0 : Mem K} (ad : Nat → Nat → Nat → Nat) (t : Nat → Nat → Nat → K)
    {body : Nat → Nat → Nat → Mem K → R (Mem K)}
    (hS : ∀ x < p, ∀ y < q, ∀ z < r, S (ad x y z))
    (hb : ∀ x < p, ∀ y < q, ∀ z < r, ∀ (f : Nat → K) (m : Mem K), (∀ c, ¬ S c → f c = 0) → Acc m0 f m →
      Tot (body x y z m) (Acc m0 (fun c => f c + if c = ad x y z then t x y z else 0))) :
    Tot (forUp 0 p (fun x m => forUp 0 q (fun y m => forUp 0 r (fun z m => body x y z m) m) m) m0)
      (fun m' => ∃ f, Acc m0 f m' ∧ (∀ c, ¬ S c → f c = 0) ∧ ∀ c, f c = ∑ x ∈ Finset.range p, ∑ y ∈ Finset.range q,
        ∑ z ∈ Finset.range r, if c = ad x y z then t x y z else 0) := by
  have hz : ∀ x < p, ∀ y < q, ∀ z < r, ∀ c, ¬ S c → (if c = ad x y z then t x y z else 0) = 0 := by
    intro x hx y hy z hz c hc
    refine if_neg ?_
    rintro rfl; exact hc (hS x hx y hy z hz)
  have hz2 : ∀ x < p, ∀ y < q, ∀ c, ¬ S c → (∑ z ∈ Finset.Ico 0 r, if c = ad x y z then t x y z else 0) = 0 :=
    fun x hx y hy c hc => Finset.sum_eq_zero fun z hz' => hz x hx y hy z (Finset.mem_Ico.mp hz').2 c hc
  have hz3 : ∀ x < p, ∀ c, ¬ S c → (∑ y ∈ Finset.Ico 0 q, ∑ z ∈ Finset.Ico 0 r,
      if c = ad x y z then t x y z else 0) = 0 :=
    fun x hx c hc => Finset.sum_eq_zero fun y hy => hz2 x hx y (Finset.mem_Ico.mp hy).2 c hc
  refine (forUp_acc (m0 := m0) (S := S) (d := fun x c => ∑ y ∈ Finset.Ico 0 q, ∑ z ∈ Finset.Ico 0 r,
      if c = ad x y z then t x y z else 0) (Nat.zero_le _) (fun x _ hx => hz3 x hx) ?_ (fun _ _ => rfl)
      (Acc.zero m0)).mono ?_
  · intro x _ hx f m1 hf hm1
    refine forUp_acc (S := S) (d := fun y c => ∑ z ∈ Finset.Ico 0 r, if c = ad x y z then t x y z else 0)
      (Nat.zero_le _) (fun y _ hy => hz2 x hx y hy) ?_ hf hm1
    intro y _ hy f m2 hf hm2
    refine forUp_acc (S := S) (d := fun z c => if c = ad x y z then t x y z else 0)
      (Nat.zero_le _) (fun z _ hz' => hz x hx y hy z hz') ?_ hf hm2
    intro z _ hz' f m3 hf hm3
    exact hb x hx y hy z hz' f m3 hf hm3
  · intro m' h
    refine ⟨_, h, ?_, ?_⟩
    · intro c hc
      rw [zero_add]
      exact Finset.sum_eq_zero fun x hx => hz3 x (Finset.mem_Ico.mp hx).2 c hc
    · intro c
      simp only [zero_add, Finset.range_eq_Ico]

theorem addmul_tot {a b c : Mat} {m : Mem K} (ha : a.Valid m) (hb : b.Valid m) (hc : c.Valid m)
    (hac : Disj a.Cell c.Cell) (hbc : Disj b.Cell c.Cell) (at' bt : Bool)
    (hmid : opCols at' a = opRows bt b) (hr : opRows at' a ≤ c.rows) (hcc : opCols bt b ≤ c.cols) (alpha : K) :
    Tot (addmul alpha at' a bt b c m) (MatBecomes c m (fun i k => if i < opRows at' a ∧ k < opCols bt b then
      c.val m i k + alpha * ∑ j ∈ Finset.range (opCols at' a), op at' (a.val m) i j * op bt (b.val m) j k
      else c.val m i k)) := by
  have hself : MatBecomes c m (c.val m) m := ⟨hc, fun _ _ _ _ => rfl, fun _ _ => rfl⟩
  unfold addmul
  by_cases hz : a.rows = 0 ∨ a.cols = 0 ∨ b.rows = 0 ∨ b.cols = 0
  · rw [if_pos hz]
    refine Tot.pure (becomes_congr hself fun i hi k hk => ?_)
    split
    · rename_i hp
      have : opCols at' a = 0 := by
        cases at' <;> cases bt <;> simp only [opRows, opCols, Bool.false_eq_true, if_false, if_true] at * <;> omega
      rw [this]; simp
    · rfl
  · rw [if_neg hz]
    -- a common conclusion
    have fin : ∀ (T : Nat → Nat → Nat → K) (f : Nat → K) (m' : Mem K), Acc m f m' → (∀ p, ¬ c.Cell p → f p = 0) →
        (∀ p, f p = ∑ i ∈ Finset.range (opRows at' a), ∑ k ∈ Finset.range (opCols bt b),
          if p = c.addr i k then ∑ j ∈ Finset.range (opCols at' a), T i j k else 0) →
        (∀ i j k, T i j k = alpha * (op at' (a.val m) i j * op bt (b.val m) j k)) →
        MatBecomes c m (fun i k => if i < opRows at' a ∧ k < opCols bt b then
          c.val m i k + alpha * ∑ j ∈ Finset.range (opCols at' a), op at' (a.val m) i j * op bt (b.val m) j k
          else c.val m i k) m' := by
      intro T f m' hA hf hs hT
      refine becomes_acc hc hA hf fun i hi k hk => ?_
      rw [hs, pick2 hc.1 hr hcc (fun i k => ∑ j ∈ Finset.range (opCols at' a), T i j k) hi]
      split
      · rw [Finset.mul_sum]
        congr 1
        exact Finset.sum_congr rfl fun j _ => hT i j k
      · simp
    have pull : ∀ (p ad : Nat) (n : Nat) (T : Nat → K), (∑ j ∈ Finset.range n, if p = ad then T j else 0) =
        if p = ad then ∑ j ∈ Finset.range n, T j else 0 := by
      intro p ad n T
      split <;> simp
    cases at' <;> cases bt
    · simp only [opRows, opCols, Bool.false_eq_true, if_false] at hmid hr hcc
      refine Tot.cassert (by simpa using hr) (Tot.cassert (by simpa using hcc) (Tot.cassert (by simpa using hmid) ?_))
      refine (forUp3_acc (S := c.Cell) (fun k j i => c.addr i k) (fun k j i => alpha * a.val m i j * b.val m j k)
        (fun k hk j hj i hi => Mat.cell_addr (by omega) (by omega)) ?_).mono ?_
      · intro k hk j hj i hi f m1 hf hm1
        rw [acc_read ha hm1 hf hac hi hj, ok_bind, acc_read hb hm1 hf hbc (by omega) hk, ok_bind]
        exact incr_acc hm1 (hc.2 i (by omega) k (by omega)) _
      · rintro m' ⟨f, hA, hf, hs⟩
        refine fin (fun i j k => alpha * a.val m i j * b.val m j k) f m' hA hf (fun p => ?_)
          (fun i j k => by simp only [op, Bool.false_eq_true, if_false]; ring)
        rw [hs p, Finset.sum_congr rfl fun k _ => Finset.sum_comm, Finset.sum_comm]
        simp only [pull]
        rfl
    · simp only [opRows, opCols, Bool.false_eq_true, if_false, if_true] at hmid hr hcc
      refine Tot.cassert (by simpa using hr) (Tot.cassert (by simpa using hcc) (Tot.cassert (by simpa using hmid) ?_))
      refine (forUp3_acc (S := c.Cell) (fun j k i => c.addr i k) (fun j k i => alpha * a.val m i j * star (b.val m k j))
        (fun k hk j hj i hi => Mat.cell_addr (by omega) (by omega)) ?_).mono ?_
      · intro j hj k hk i hi f m1 hf hm1
        rw [acc_read ha hm1 hf hac hi hj, ok_bind, acc_read hb hm1 hf hbc hk (by omega), ok_bind]
        exact incr_acc hm1 (hc.2 i (by omega) k (by omega)) _
      · rintro m' ⟨f, hA, hf, hs⟩
        refine fin (fun i j k => alpha * a.val m i j * star (b.val m k j)) f m' hA hf (fun p => ?_)
          (fun i j k => by simp only [op, Bool.false_eq_true, if_false, if_true]; ring)
        rw [hs p, Finset.sum_comm, Finset.sum_congr rfl fun k _ => Finset.sum_comm, Finset.sum_comm]
        simp only [pull]
        rfl
    · simp only [opRows, opCols, Bool.false_eq_true, if_false, if_true] at hmid hr hcc
      refine Tot.cassert (by simpa using hr) (Tot.cassert (by simpa using hcc) (Tot.cassert (by simpa using hmid) ?_))
      refine (forUp3_acc (S := c.Cell) (fun k i j => c.addr i k) (fun k i j => alpha * star (a.val m j i) * b.val m j k)
        (fun k hk i hi j hj => Mat.cell_addr (by omega) (by omega)) ?_).mono ?_
      · intro k hk i hi j hj f m1 hf hm1
        rw [acc_read ha hm1 hf hac hj hi, ok_bind, acc_read hb hm1 hf hbc (by omega) hk, ok_bind]
        exact incr_acc hm1 (hc.2 i (by omega) k (by omega)) _
      · rintro m' ⟨f, hA, hf, hs⟩
        refine fin (fun i j k => alpha * star (a.val m j i) * b.val m j k) f m' hA hf (fun p => ?_)
          (fun i j k => by simp only [op, Bool.false_eq_true, if_false, if_true]; ring)
        rw [hs p, Finset.sum_comm]
        simp only [pull]
        rfl
    · simp only [opRows, opCols, if_true] at hmid hr hcc
      refine Tot.cassert (by simpa using hr) (Tot.cassert (by simpa using hcc) (Tot.cassert (by simpa using hmid) ?_))
      refine (forUp3_acc (S := c.Cell) (fun i k j => c.addr i k)
        (fun i k j => alpha * star (a.val m j i) * star (b.val m k j))
        (fun i hi k hk j hj => Mat.cell_addr (by omega) (by omega)) ?_).mono ?_
      · intro i hi k hk j hj f m1 hf hm1
        rw [acc_read ha hm1 hf hac hj hi, ok_bind, acc_read hb hm1 hf hbc hk (by omega), ok_bind]
        exact incr_acc hm1 (hc.2 i (by omega) k (by omega)) _
      · rintro m' ⟨f, hA, hf, hs⟩
        refine fin (fun i j k => alpha * star (a.val m j i) * star (b.val m k j)) f m' hA hf (fun p => ?_)
          (fun i j k => by simp only [op, if_true]; ring)
        rw [hs p]
        simp only [pull]
        rfl

end Dense
end H2
