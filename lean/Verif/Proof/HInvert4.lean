import Verif.Proof.HInvert3

/-! Inversion by block elimination: one step of the second loop -/

set_option linter.unusedSectionVars false

namespace H2.HI
open Matrix Spec Dense HV
variable {G : Type} {𝕜 : Type} [RCLike 𝕜]
variable {t : CRef G} {sm : Nat} {RN : Nat → CRef G} {pN : Nat → Nat} {d : HV G 𝕜}

theorem neg_blk {a b c e : Nat} {f : Nat → Nat → 𝕜} {M : Matrix (Fin b) (Fin e) 𝕜} (h : blk a b c e f = (-1 : 𝕜) • M) : blk a b c e f = -M := by
  rw [h, neg_one_smul]

theorem bwd_tot {T : TruncOps 𝕜} (hT : Lossless T) (g : Grid t sm RN pN) {as ws : Fin sm → Fin sm → HV G 𝕜} (ha : Good d sm RN as) (hw : Good d sm RN ws) {k : Nat} (hk : k < sm) :
    Tot (invBackward T sm k ws as) fun as' => Shapes d sm as as' ∧ (∀ i j, i < k ∨ j < k → sg d as' i j = sg d as i j) ∧ (∀ i j, k < i → k < j → sg d as' i j = sg d as i j) ∧
      blk (pN (k + 1)) (t.cl.size - pN (k + 1)) (pN k) (RN k).cl.size (Cur d t sm as') =
        -(blk (pN (k + 1)) (t.cl.size - pN (k + 1)) (pN (k + 1)) (t.cl.size - pN (k + 1)) (Cur d t sm as') * blk (pN (k + 1)) (t.cl.size - pN (k + 1)) (pN k) (RN k).cl.size (Cur d t sm ws)) ∧
      blk (pN k) (RN k).cl.size (pN (k + 1)) (t.cl.size - pN (k + 1)) (Cur d t sm as') =
        -(blk (pN k) (RN k).cl.size (pN (k + 1)) (t.cl.size - pN (k + 1)) (Cur d t sm ws) * blk (pN (k + 1)) (t.cl.size - pN (k + 1)) (pN (k + 1)) (t.cl.size - pN (k + 1)) (Cur d t sm as')) ∧
      blk (pN k) (RN k).cl.size (pN k) (RN k).cl.size (Cur d t sm as') = blk (pN k) (RN k).cl.size (pN k) (RN k).cl.size (Cur d t sm as) -
        blk (pN k) (RN k).cl.size (pN (k + 1)) (t.cl.size - pN (k + 1)) (Cur d t sm as') * blk (pN (k + 1)) (t.cl.size - pN (k + 1)) (pN k) (RN k).cl.size (Cur d t sm ws) := by
  unfold invBackward
  -- the block column
  refine Tot.bind (loopAt_tot (d := d) (xs0 := as) (show k + 1 ≤ sm by omega) (fun i => i) (fun _ => k) (fun _ _ h _ => h)
    (P := fun i z => Upd (clearH (sg d as i k)) z (fun r c => ∑ j ∈ Finset.Ico (k + 1) sm, prod (-1) false (sg d as i j) false (sg d ws j k) r c)) ?_) ?_
  · intro i i1 i2 xs hxs
    have ei : sg d xs i k = sg d as i k := hxs i k fun j' _ h e => absurd e.1 (by omega)
    refine Tot.bind (atSon_tot (d := d) (P := fun z => z = clearH (sg d xs i k)) i2 hk (Tot.pure rfl)) ?_
    rintro xs1 - ⟨p1, p2⟩
    obtain ⟨z1, z2, z3, z4⟩ := ha i i2 k hk
    obtain ⟨c1, c2, c3⟩ := clearH_ok z1
    have e1 : sg d xs1 i k = clearH (sg d as i k) := by rw [p1, ei]
    refine (accum_tot hT (d := d) (p := i) (q := k) (show k + 1 ≤ sm by omega) i2 hk (x := fun j => sg d as i j) (y := fun j => sg d ws j k) (alpha := -1) (by rw [e1]; exact c1) (by rw [e1]; exact c2.std z2) ?_ ?_).mono ?_
    · intro j j1 j2
      obtain ⟨a1, a2, a3, a4⟩ := ha i i2 j j2
      obtain ⟨b1, b2, b3, b4⟩ := hw j j2 k hk
      exact ⟨⟨a1, a2⟩, ⟨b1, b2⟩, by rw [e1, c2.rc, z3]; exact a3.symm, by rw [e1, c2.cc, z4]; exact b4.symm, a4.trans b3.symm⟩
    · intro j j1 j2 ys hys
      have : sg d ys i j = sg d as i j := by
        rw [hys i j (by omega), p2 i j (by omega), hxs i j fun j' _ h e => absurd e.1 (by omega)]
      rw [getSon_sg (d := d) i2 j2, ok_bind, getSon_sg (d := d) j2 hk, ok_bind, this]
    · rintro ys ⟨q1, q2⟩
      rw [e1] at q1
      exact ⟨q1, fun p q hpq => by rw [q2 p q hpq, p2 p q hpq]⟩
  rintro as1 - ⟨u1, u2⟩
  have sa1 : Shapes d sm as as1 := fun i hi j hj => by
    by_cases e : k < i ∧ j = k
    · rw [e.2]
      have := u1 i (by omega) hi
      obtain ⟨-, c2, -⟩ := clearH_ok (ha i hi k hk).1
      exact ⟨c2.trans this.shape, this.ok⟩
    · rw [u2 i j fun j' _ _ h => e ⟨by omega, by omega⟩]; exact ⟨.refl _, (ha i hi j hj).1⟩
  have ga1 := sa1.good ha
  -- the block row
  refine Tot.bind (loopAt_tot (d := d) (xs0 := as1) (show k + 1 ≤ sm by omega) (fun _ => k) (fun j => j) (fun _ _ _ h => h)
    (P := fun j z => Upd (clearH (sg d as1 k j)) z (fun r c => ∑ i ∈ Finset.Ico (k + 1) sm, prod (-1) false (sg d ws k i) false (sg d as1 i j) r c)) ?_) ?_
  · intro j j1 j2 xs hxs
    have ej : sg d xs k j = sg d as1 k j := hxs k j fun j' _ h e => absurd e.2 (by omega)
    refine Tot.bind (atSon_tot (d := d) (P := fun z => z = clearH (sg d xs k j)) hk j2 (Tot.pure rfl)) ?_
    rintro xs1 - ⟨p1, p2⟩
    obtain ⟨z1, z2, z3, z4⟩ := ga1 k hk j j2
    obtain ⟨c1, c2, c3⟩ := clearH_ok z1
    have e1 : sg d xs1 k j = clearH (sg d as1 k j) := by rw [p1, ej]
    refine (accum_tot hT (d := d) (p := k) (q := j) (show k + 1 ≤ sm by omega) hk j2 (x := fun i => sg d ws k i) (y := fun i => sg d as1 i j) (alpha := -1) (by rw [e1]; exact c1) (by rw [e1]; exact c2.std z2) ?_ ?_).mono ?_
    · intro i i1 i2
      obtain ⟨a1, a2, a3, a4⟩ := hw k hk i i2
      obtain ⟨b1, b2, b3, b4⟩ := ga1 i i2 j j2
      exact ⟨⟨a1, a2⟩, ⟨b1, b2⟩, by rw [e1, c2.rc, z3]; exact a3.symm, by rw [e1, c2.cc, z4]; exact b4.symm, a4.trans b3.symm⟩
    · intro i i1 i2 ys hys
      have : sg d ys i j = sg d as1 i j := by
        rw [hys i j (by omega), p2 i j (by omega), hxs i j fun j' _ h e => absurd e.1 (by omega)]
      rw [getSon_sg (d := d) hk i2, ok_bind, getSon_sg (d := d) i2 j2, ok_bind, this]
    · rintro ys ⟨q1, q2⟩
      rw [e1] at q1
      exact ⟨q1, fun p q hpq => by rw [q2 p q hpq, p2 p q hpq]⟩
  rintro as2 - ⟨v1, v2⟩
  have sa2 : Shapes d sm as1 as2 := fun i hi j hj => by
    by_cases e : i = k ∧ k < j
    · rw [e.1]
      have := v1 j (by omega) hj
      obtain ⟨-, c2, -⟩ := clearH_ok (ga1 k hk j hj).1
      exact ⟨c2.trans this.shape, this.ok⟩
    · rw [v2 i j fun j' _ _ h => e ⟨by omega, by omega⟩]; exact ⟨.refl _, (ga1 i hi j hj).1⟩
  have ga2 := sa2.good ga1
  -- the diagonal block
  obtain ⟨z1, z2, z3, z4⟩ := ga2 k hk k hk
  refine (accum_tot hT (d := d) (p := k) (q := k) (show k + 1 ≤ sm by omega) hk hk (x := fun i => sg d as2 k i) (y := fun i => sg d ws i k) (alpha := -1) z1 z2 ?_ ?_).mono ?_
  · intro i i1 i2
    obtain ⟨a1, a2, a3, a4⟩ := ga2 k hk i i2
    obtain ⟨b1, b2, b3, b4⟩ := hw i i2 k hk
    exact ⟨⟨a1, a2⟩, ⟨b1, b2⟩, z3.trans a3.symm, z4.trans b4.symm, a4.trans b3.symm⟩
  · intro i i1 i2 ys hys
    rw [getSon_sg (d := d) hk i2, ok_bind, getSon_sg (d := d) i2 hk, ok_bind, hys k i (by omega)]
  rintro as3 ⟨x1, x2⟩
  have sa3 : Shapes d sm as2 as3 := fun i hi j hj => by
    by_cases e : i = k ∧ j = k
    · rw [e.1, e.2]; exact ⟨x1.shape, x1.ok⟩
    · rw [x2 i j e]; exact ⟨.refl _, (ga2 i hi j hj).1⟩
  have ga3 := sa3.good ga2
  have n1 : ∀ i j, i < k ∨ j < k → sg d as3 i j = sg d as i j := fun i j h => by
    rw [x2 i j (by omega), v2 i j (by intro j' _ _ h; omega), u2 i j (by intro j' _ _ h; omega)]
  have n2 : ∀ i j, k < i → k < j → sg d as3 i j = sg d as i j := fun i j h h' => by
    rw [x2 i j (by omega), v2 i j (by intro j' _ _ h; omega), u2 i j (by intro j' _ _ h; omega)]
  have m21 := sel_mul g (br := true) (bc := false) (bm := true) (a := (-1 : 𝕜)) (f := Cur d t sm as) (h := Cur d t sm ws) (p := Cur d t sm as3) hk fun i j h1 h2 h3 h4 r hr c hc => by
    obtain rfl : j = k := h3
    replace h1 : j < i := h1
    rw [cur_at g ga3 h2 hk hr hc, x2 i j (by omega), v2 i j (fun j' _ _ h => by omega), (u1 i (by omega) h2).val, (clearH_ok (ha i h2 j hk).1).2.2, zero_add]
    exact prods g ha hw (show j + 1 ≤ sm by omega) h2 hk hr hc
  have m12 := sel_mul g (br := false) (bc := true) (bm := true) (a := (-1 : 𝕜)) (f := Cur d t sm ws) (h := Cur d t sm as1) (p := Cur d t sm as3) hk fun i j h1 h2 h3 h4 r hr c hc => by
    obtain rfl : i = k := h1
    replace h3 : i < j := h3
    rw [cur_at g ga3 hk h4 hr hc, x2 i j (by omega), (v1 j (by omega) h4).val, (clearH_ok (ga1 i hk j h4).1).2.2, zero_add]
    exact prods g hw ga1 (show i + 1 ≤ sm by omega) hk h4 hr hc
  have m11 := sel_mul g (br := false) (bc := false) (bm := true) (a := (-1 : 𝕜)) (f := Cur d t sm as2) (h := Cur d t sm ws) (p := fun r c => Cur d t sm as3 r c - Cur d t sm as2 r c) hk fun i j h1 h2 h3 h4 r hr c hc => by
    obtain rfl : i = k := h1
    obtain rfl : j = i := h3
    rw [cur_at g ga3 hk hk hr hc, cur_at g ga2 hk hk hr hc, x1.val, add_sub_cancel_left]
    exact prods g ga2 hw (show j + 1 ≤ sm by omega) hk hk hr hc
  have c22 : blk (pN (k + 1)) (t.cl.size - pN (k + 1)) (pN (k + 1)) (t.cl.size - pN (k + 1)) (Cur d t sm as) = blk (pN (k + 1)) (t.cl.size - pN (k + 1)) (pN (k + 1)) (t.cl.size - pN (k + 1)) (Cur d t sm as3) :=
    sel_congr g (br := true) (bc := true) hk fun i j h1 h2 h3 h4 r hr c hc => (cur_same g ga3 ha h2 h4 (n2 i j h1 h3) hr hc).symm
  have c22' : blk (pN (k + 1)) (t.cl.size - pN (k + 1)) (pN (k + 1)) (t.cl.size - pN (k + 1)) (Cur d t sm as1) = blk (pN (k + 1)) (t.cl.size - pN (k + 1)) (pN (k + 1)) (t.cl.size - pN (k + 1)) (Cur d t sm as3) :=
    sel_congr g (br := true) (bc := true) hk fun i j h1 h2 h3 h4 r hr c hc => by
      replace h1 : k < i := h1
      replace h3 : k < j := h3
      exact (cur_same g ga3 ga1 h2 h4 (by rw [x2 i j (by omega), v2 i j (by intro j' _ _ h; omega)]) hr hc).symm
  have c12 : blk (pN k) (RN k).cl.size (pN (k + 1)) (t.cl.size - pN (k + 1)) (Cur d t sm as2) = blk (pN k) (RN k).cl.size (pN (k + 1)) (t.cl.size - pN (k + 1)) (Cur d t sm as3) :=
    sel_congr g (br := false) (bc := true) hk fun i j h1 h2 h3 h4 r hr c hc => by
      replace h3 : k < j := h3
      exact (cur_same g ga3 ga2 h2 h4 (by rw [x2 i j (by omega)]) hr hc).symm
  have c11 : blk (pN k) (RN k).cl.size (pN k) (RN k).cl.size (Cur d t sm as2) = blk (pN k) (RN k).cl.size (pN k) (RN k).cl.size (Cur d t sm as) :=
    sel_congr g (br := false) (bc := false) hk fun i j h1 h2 h3 h4 r hr c hc => by
      replace h1 : i = k := h1
      replace h3 : j = k := h3
      exact cur_same g ga2 ha h2 h4 (by rw [v2 i j (by intro j' _ _ h; omega), u2 i j (by intro j' _ _ h; omega)]) hr hc
  replace m21 : blk (pN (k + 1)) (t.cl.size - pN (k + 1)) (pN k) (RN k).cl.size (Cur d t sm as3) =
    (-1 : 𝕜) • (blk (pN (k + 1)) (t.cl.size - pN (k + 1)) (pN (k + 1)) (t.cl.size - pN (k + 1)) (Cur d t sm as) * blk (pN (k + 1)) (t.cl.size - pN (k + 1)) (pN k) (RN k).cl.size (Cur d t sm ws)) := m21
  replace m12 : blk (pN k) (RN k).cl.size (pN (k + 1)) (t.cl.size - pN (k + 1)) (Cur d t sm as3) =
    (-1 : 𝕜) • (blk (pN k) (RN k).cl.size (pN (k + 1)) (t.cl.size - pN (k + 1)) (Cur d t sm ws) * blk (pN (k + 1)) (t.cl.size - pN (k + 1)) (pN (k + 1)) (t.cl.size - pN (k + 1)) (Cur d t sm as1)) := m12
  replace m11 : blk (pN k) (RN k).cl.size (pN k) (RN k).cl.size (Cur d t sm as3) - blk (pN k) (RN k).cl.size (pN k) (RN k).cl.size (Cur d t sm as2) =
    (-1 : 𝕜) • (blk (pN k) (RN k).cl.size (pN (k + 1)) (t.cl.size - pN (k + 1)) (Cur d t sm as2) * blk (pN (k + 1)) (t.cl.size - pN (k + 1)) (pN k) (RN k).cl.size (Cur d t sm ws)) := m11
  refine ⟨sa1.trans (sa2.trans sa3), n1, n2, ?_, ?_, ?_⟩
  · rw [← c22]; exact neg_blk m21
  · rw [← c22']; exact neg_blk m12
  · rw [← c12, ← c11, sub_eq_add_neg, ← neg_one_smul 𝕜 (_ * _), ← m11]; abel

end H2.HI
