import Verif.Proof.HInvert2

/-! Inversion by block elimination: one step of the elimination -/

set_option linter.unusedSectionVars false

namespace H2.HI
open Matrix Spec Dense HV
variable {G : Type} {𝕜 : Type} [RCLike 𝕜]
variable {t : CRef G} {sm : Nat} {RN : Nat → CRef G} {pN : Nat → Nat} {d : HV G 𝕜}

/-- the blocks behind `k`, or block `k` -/
def Sel (big : Bool) (k i : Nat) : Prop := if big then k < i else i = k
def so (pN : Nat → Nat) (big : Bool) (k : Nat) : Nat := if big then pN (k + 1) else pN k
def sn (t : CRef G) (RN : Nat → CRef G) (pN : Nat → Nat) (big : Bool) (k : Nat) : Nat := if big then t.cl.size - pN (k + 1) else (RN k).cl.size

theorem sel_find (g : Grid t sm RN pN) {big : Bool} {k : Nat} (hk : k < sm) {r : Nat} (hr : r < sn t RN pN big k) :
    ∃ i, Sel big k i ∧ i < sm ∧ ∃ l < (RN i).cl.size, so pN big k + r = pN i + l := by
  cases big
  · exact ⟨k, rfl, hk, r, hr, rfl⟩
  · have hr' : r < t.cl.size - pN (k + 1) := hr
    obtain ⟨i, h1, h2, l, h3, h4⟩ := g.find (show k + 1 ≤ sm by omega) (show pN (k + 1) ≤ pN (k + 1) + r by omega) (by omega)
    exact ⟨i, h1, h2, l, h3, h4⟩

theorem sel_congr (g : Grid t sm RN pN) {br bc : Bool} {k : Nat} (hk : k < sm) {f h : Nat → Nat → 𝕜}
    (e : ∀ i j, Sel br k i → i < sm → Sel bc k j → j < sm → ∀ r < (RN i).cl.size, ∀ c < (RN j).cl.size, f (pN i + r) (pN j + c) = h (pN i + r) (pN j + c)) :
    blk (so pN br k) (sn t RN pN br k) (so pN bc k) (sn t RN pN bc k) f = blk (so pN br k) (sn t RN pN br k) (so pN bc k) (sn t RN pN bc k) h := by
  refine blk_congr fun i hi j hj => ?_
  obtain ⟨i', h1, h2, l, h3, h4⟩ := sel_find g hk hi
  obtain ⟨j', h5, h6, l', h7, h8⟩ := sel_find g hk hj
  rw [h4, h8]
  exact e i' j' h1 h2 h5 h6 l h3 l' h7

theorem sel_mul (g : Grid t sm RN pN) {br bc bm : Bool} {k : Nat} (hk : k < sm) {f h p : Nat → Nat → 𝕜} {a : 𝕜}
    (e : ∀ i j, Sel br k i → i < sm → Sel bc k j → j < sm → ∀ r < (RN i).cl.size, ∀ c < (RN j).cl.size, p (pN i + r) (pN j + c) =
      a * ∑ l ∈ Finset.range (sn t RN pN bm k), f (pN i + r) (so pN bm k + l) * h (so pN bm k + l) (pN j + c)) :
    blk (so pN br k) (sn t RN pN br k) (so pN bc k) (sn t RN pN bc k) p =
      a • (blk (so pN br k) (sn t RN pN br k) (so pN bm k) (sn t RN pN bm k) f * blk (so pN bm k) (sn t RN pN bm k) (so pN bc k) (sn t RN pN bc k) h) := by
  refine blk_mul fun i hi j hj => ?_
  obtain ⟨i', h1, h2, l, h3, h4⟩ := sel_find g hk hi
  obtain ⟨j', h5, h6, l', h7, h8⟩ := sel_find g hk hj
  rw [h4, h8]
  exact e i' j' h1 h2 h5 h6 l h3 l' h7

/-- the sons keep their structure -/
def Shapes (d : HV G 𝕜) (sm : Nat) (xs xs' : Fin sm → Fin sm → HV G 𝕜) : Prop := ∀ i < sm, ∀ j < sm, SameShape (sg d xs i j) (sg d xs' i j) ∧ HVOk (sg d xs' i j)

theorem Shapes.good {xs xs' : Fin sm → Fin sm → HV G 𝕜} (h : Shapes d sm xs xs') (hx : Good d sm RN xs) : Good d sm RN xs' := fun i hi j hj =>
  ⟨(h i hi j hj).2, (h i hi j hj).1.std (hx i hi j hj).2.1, by rw [(h i hi j hj).1.rc]; exact (hx i hi j hj).2.2.1, by rw [(h i hi j hj).1.cc]; exact (hx i hi j hj).2.2.2⟩

theorem Shapes.trans {xs ys zs : Fin sm → Fin sm → HV G 𝕜} (h : Shapes d sm xs ys) (h' : Shapes d sm ys zs) : Shapes d sm xs zs := fun i hi j hj =>
  ⟨(h i hi j hj).1.trans (h' i hi j hj).1, (h' i hi j hj).2⟩

theorem Shapes.refl {xs : Fin sm → Fin sm → HV G 𝕜} (hx : Good d sm RN xs) : Shapes d sm xs xs := fun i hi j hj => ⟨.refl _, (hx i hi j hj).1⟩

/-- entries of an unchanged son -/
theorem cur_same (g : Grid t sm RN pN) {xs ys : Fin sm → Fin sm → HV G 𝕜} (hx : Good d sm RN xs) (hy : Good d sm RN ys) {i j r c : Nat} (hi : i < sm) (hj : j < sm) (e : sg d xs i j = sg d ys i j)
    (hr : r < (RN i).cl.size) (hc : c < (RN j).cl.size) : Cur d t sm xs (pN i + r) (pN j + c) = Cur d t sm ys (pN i + r) (pN j + c) := by
  rw [cur_at g hx hi hj hr hc, cur_at g hy hi hj hr hc, e]

theorem set_tot {xs : Fin sm → Fin sm → HV G 𝕜} {k : Nat} (hk : k < sm) {v : HV G 𝕜} :
    Tot (atSon xs k k (fun _ => pure v)) fun xs' => sg d xs' k k = v ∧ ∀ i j, ¬ (i = k ∧ j = k) → sg d xs' i j = sg d xs i j :=
  (atSon_tot (d := d) (xs := xs) (f := fun _ => pure v) (P := fun z => z = v) hk hk (Tot.pure rfl)).mono fun _ h => h

theorem fwd_tot {T : TruncOps 𝕜} (hT : Lossless T) (g : Grid t sm RN pN) {as ws : Fin sm → Fin sm → HV G 𝕜} (ha : Good d sm RN as) (hw : Good d sm RN ws) {k : Nat} (hk : k < sm)
    {inv : HV G 𝕜 → HV G 𝕜 → R (HV G 𝕜 × HV G 𝕜)}
    (hinv : Tot (inv (sg d as k k) (sg d ws k k)) fun p => (SameShape (sg d as k k) p.1 ∧ HVOk p.1) ∧ (SameShape (sg d ws k k) p.2 ∧ HVOk p.2) ∧
      InvOn (hentry (sg d as k k)) (hentry p.1) 0 (RN k).cl.size) :
    Tot (invForward T sm k inv (as, ws)) fun st => Shapes d sm as st.1 ∧ Shapes d sm ws st.2 ∧
      Elim (Cur d t sm as) (Cur d t sm st.1) (Cur d t sm st.2) (Cur d t sm st.1) (pN k) (RN k).cl.size (t.cl.size - pN (k + 1)) ∧
      (∀ i j, i < k ∨ j < k → sg d st.1 i j = sg d as i j) ∧ ∀ i j, i < k ∨ j < k → sg d st.2 i j = sg d ws i j := by
  unfold invForward
  simp only
  rw [getSon_sg (d := d) hk hk, ok_bind, getSon_sg (d := d) hk hk, ok_bind]
  refine Tot.bind hinv ?_
  rintro ⟨y, w0⟩ - ⟨⟨y1, y2⟩, ⟨w1, w2⟩, y3⟩
  simp only at y1 y2 w1 w2 y3 ⊢
  refine Tot.bind (set_tot (d := d) hk) ?_
  rintro as1 - ⟨e1, e2⟩
  refine Tot.bind (set_tot (d := d) hk) ?_
  rintro ws1 - ⟨f1, f2⟩
  have sa1 : Shapes d sm as as1 := fun i hi j hj => by
    by_cases e : i = k ∧ j = k
    · rw [e.1, e.2, e1]; exact ⟨y1, y2⟩
    · rw [e2 i j e]; exact ⟨.refl _, (ha i hi j hj).1⟩
  have sw1 : Shapes d sm ws ws1 := fun i hi j hj => by
    by_cases e : i = k ∧ j = k
    · rw [e.1, e.2, f1]; exact ⟨w1, w2⟩
    · rw [f2 i j e]; exact ⟨.refl _, (hw i hi j hj).1⟩
  have ga1 := sa1.good ha
  have gw1 := sw1.good hw
  -- the block column
  refine Tot.bind (loopAt_tot (d := d) (xs0 := ws1) (show k + 1 ≤ sm by omega) (fun i => i) (fun _ => k) (fun _ _ h _ => h)
    (P := fun i z => Upd (clearH (sg d ws1 i k)) z (prod 1 false (sg d as1 i k) false (sg d as1 k k))) ?_) ?_
  · intro i i1 i2 ws' hws'
    have ei : sg d ws' i k = sg d ws1 i k := hws' i k fun j' _ h e => absurd e.1 (by omega)
    rw [getSon_sg (d := d) i2 hk, ok_bind, ← e1]
    refine atSon_tot (d := d) (P := fun z => Upd (clearH (sg d ws1 i k)) z (prod 1 false (sg d as1 i k) false (sg d as1 k k))) i2 hk ?_
    rw [ei]
    obtain ⟨a1, a2, a3, a4⟩ := ga1 i i2 k hk
    obtain ⟨b1, b2, b3, b4⟩ := ga1 k hk k hk
    obtain ⟨z1, z2, z3, z4⟩ := gw1 i i2 k hk
    obtain ⟨c1, c2, c3⟩ := clearH_ok z1
    exact addmul_tot' hT 1 false false a1 a2 b1 b2 c1 (c2.std z2) (by rw [c2.rc, z3]; exact a3.symm) (by rw [c2.cc, z4]; exact b4.symm) (a4.trans b3.symm)
  rintro ws2 - ⟨u1, u2⟩
  have sw2 : Shapes d sm ws1 ws2 := fun i hi j hj => by
    by_cases e : k < i ∧ j = k
    · rw [e.2]
      have := u1 i (by omega) hi
      obtain ⟨-, c2, -⟩ := clearH_ok (gw1 i hi k hk).1
      exact ⟨c2.trans this.shape, this.ok⟩
    · rw [u2 i j fun j' _ _ h => e ⟨by omega, by omega⟩]; exact ⟨.refl _, (gw1 i hi j hj).1⟩
  have gw2 := sw2.good gw1
  -- the block row
  refine Tot.bind (loopAt_tot (d := d) (xs0 := ws2) (show k + 1 ≤ sm by omega) (fun _ => k) (fun j => j) (fun _ _ _ h => h)
    (P := fun j z => Upd (clearH (sg d ws2 k j)) z (prod 1 false (sg d as1 k k) false (sg d as1 k j))) ?_) ?_
  · intro j j1 j2 ws' hws'
    have ej : sg d ws' k j = sg d ws2 k j := hws' k j fun j' _ h e => absurd e.2 (by omega)
    rw [getSon_sg (d := d) hk j2, ok_bind, ← e1]
    refine atSon_tot (d := d) (P := fun z => Upd (clearH (sg d ws2 k j)) z (prod 1 false (sg d as1 k k) false (sg d as1 k j))) hk j2 ?_
    rw [ej]
    obtain ⟨a1, a2, a3, a4⟩ := ga1 k hk k hk
    obtain ⟨b1, b2, b3, b4⟩ := ga1 k hk j j2
    obtain ⟨z1, z2, z3, z4⟩ := gw2 k hk j j2
    obtain ⟨c1, c2, c3⟩ := clearH_ok z1
    exact addmul_tot' hT 1 false false a1 a2 b1 b2 c1 (c2.std z2) (by rw [c2.rc, z3]; exact a3.symm) (by rw [c2.cc, z4]; exact b4.symm) (a4.trans b3.symm)
  rintro ws3 - ⟨v1, v2⟩
  have sw3 : Shapes d sm ws2 ws3 := fun i hi j hj => by
    by_cases e : i = k ∧ k < j
    · rw [e.1]
      have := v1 j (by omega) hj
      obtain ⟨-, c2, -⟩ := clearH_ok (gw2 k hk j hj).1
      exact ⟨c2.trans this.shape, this.ok⟩
    · rw [v2 i j fun j' _ _ h => e ⟨by omega, by omega⟩]; exact ⟨.refl _, (gw2 i hi j hj).1⟩
  have gw3 := sw3.good gw2
  -- the Schur complement
  refine Tot.bind (loopAt2_tot (d := d) (xs0 := as1) (show k + 1 ≤ sm by omega)
    (P := fun i j z => Upd (sg d as1 i j) z (prod (-1) false (sg d ws3 i k) false (sg d as1 k j))) ?_) ?_
  · intro j j1 j2 i i1 i2 as' has'
    have q1 : sg d as' k j = sg d as1 k j := has' k j (by omega) (by omega)
    have q2 : sg d as' i j = sg d as1 i j := has' i j (by omega) (by omega)
    rw [getSon_sg (d := d) i2 hk, ok_bind, getSon_sg (d := d) hk j2, ok_bind, q1]
    refine atSon_tot (d := d) (P := fun z => Upd (sg d as1 i j) z (prod (-1) false (sg d ws3 i k) false (sg d as1 k j))) i2 j2 ?_
    rw [q2]
    obtain ⟨a1, a2, a3, a4⟩ := gw3 i i2 k hk
    obtain ⟨b1, b2, b3, b4⟩ := ga1 k hk j j2
    obtain ⟨z1, z2, z3, z4⟩ := ga1 i i2 j j2
    exact addmul_tot' hT (-1) false false a1 a2 b1 b2 z1 z2 (z3.trans a3.symm) (z4.trans b4.symm) (a4.trans b3.symm)
  rintro as2 - ⟨x1, x2⟩
  have sa2 : Shapes d sm as1 as2 := fun i hi j hj => by
    by_cases e : k < i ∧ k < j
    · have := x1 i (by omega) hi j (by omega) hj
      exact ⟨this.shape, this.ok⟩
    · rw [x2 i j (by omega)]; exact ⟨.refl _, (ga1 i hi j hj).1⟩
  have ga2 := sa2.good ga1
  refine Tot.pure ⟨sa1.trans sa2, sw1.trans (sw2.trans sw3), ?_, ?_, ?_⟩
  · -- values
    have same : ∀ i j, i < sm → j < sm → ¬ (i = k ∧ j = k) → ∀ r < (RN i).cl.size, ∀ c < (RN j).cl.size, Cur d t sm as1 (pN i + r) (pN j + c) = Cur d t sm as (pN i + r) (pN j + c) :=
      fun i j hi hj hn r hr c hc => cur_same g ga1 ha hi hj (e2 i j hn) hr hc
    have pivot : ∀ r < (RN k).cl.size, ∀ c < (RN k).cl.size, Cur d t sm as2 (pN k + r) (pN k + c) = Cur d t sm as1 (pN k + r) (pN k + c) :=
      fun r hr c hc => cur_same g ga2 ga1 hk hk (x2 k k (by omega)) hr hc
    have hent : ∀ {xs : Fin sm → Fin sm → HV G 𝕜}, Good d sm RN xs → blk (pN k) (RN k).cl.size (pN k) (RN k).cl.size (Cur d t sm xs) = blk 0 (RN k).cl.size 0 (RN k).cl.size (hentry (sg d xs k k)) := by
      intro xs hx
      ext i j
      show Cur d t sm xs (pN k + i) (pN k + j) = hentry (sg d xs k k) (0 + i) (0 + j)
      rw [cur_at g hx hk hk i.2 j.2]
      unfold hentry
      rw [(hx k hk k hk).2.2.1, (hx k hk k hk).2.2.2, g.off k hk, Nat.zero_add, Nat.zero_add, Nat.add_assoc, Nat.add_assoc]
    have hs := g.succ k hk
    have p11 : blk (pN k) (RN k).cl.size (pN k) (RN k).cl.size (Cur d t sm as2) = blk (pN k) (RN k).cl.size (pN k) (RN k).cl.size (Cur d t sm as1) := blk_congr pivot
    have r21 : blk (pN (k + 1)) (t.cl.size - pN (k + 1)) (pN k) (RN k).cl.size (Cur d t sm as1) = blk (pN (k + 1)) (t.cl.size - pN (k + 1)) (pN k) (RN k).cl.size (Cur d t sm as) :=
      sel_congr g (br := true) (bc := false) hk fun i j h1 h2 h3 h4 => same i j h2 h4 (by unfold Sel at h1; simp at h1; omega)
    have r12 : blk (pN k) (RN k).cl.size (pN (k + 1)) (t.cl.size - pN (k + 1)) (Cur d t sm as1) = blk (pN k) (RN k).cl.size (pN (k + 1)) (t.cl.size - pN (k + 1)) (Cur d t sm as) :=
      sel_congr g (br := false) (bc := true) hk fun i j h1 h2 h3 h4 => same i j h2 h4 (by unfold Sel at h3; simp at h3; omega)
    have r22 : blk (pN (k + 1)) (t.cl.size - pN (k + 1)) (pN (k + 1)) (t.cl.size - pN (k + 1)) (Cur d t sm as1) = blk (pN (k + 1)) (t.cl.size - pN (k + 1)) (pN (k + 1)) (t.cl.size - pN (k + 1)) (Cur d t sm as) :=
      sel_congr g (br := true) (bc := true) hk fun i j h1 h2 h3 h4 => same i j h2 h4 (by unfold Sel at h1; simp at h1; omega)
    have m21 := sel_mul g (br := true) (bc := false) (bm := false) (a := (1 : 𝕜)) (f := Cur d t sm as1) (h := Cur d t sm as1) (p := Cur d t sm ws3) hk fun i j h1 h2 h3 h4 r hr c hc => by
      obtain rfl : j = k := h3
      replace h1 : j < i := h1
      rw [cur_at g gw3 h2 hk hr hc, v2 i j (fun j' _ _ h => by omega), (u1 i (by omega) h2).val, (clearH_ok (gw1 i h2 j hk).1).2.2, zero_add]
      exact prods1 g ga1 ga1 hk h2 hk hr hc
    have m12 := sel_mul g (br := false) (bc := true) (bm := false) (a := (1 : 𝕜)) (f := Cur d t sm as1) (h := Cur d t sm as1) (p := Cur d t sm ws3) hk fun i j h1 h2 h3 h4 r hr c hc => by
      obtain rfl : i = k := h1
      replace h3 : i < j := h3
      rw [cur_at g gw3 hk h4 hr hc, (v1 j (by omega) h4).val, (clearH_ok (gw2 i hk j h4).1).2.2, zero_add]
      exact prods1 g ga1 ga1 hk hk h4 hr hc
    have m22 := sel_mul g (br := true) (bc := true) (bm := false) (a := (-1 : 𝕜)) (f := Cur d t sm ws3) (h := Cur d t sm as1) (p := fun r c => Cur d t sm as2 r c - Cur d t sm as1 r c) hk fun i j h1 h2 h3 h4 r hr c hc => by
      replace h1 : k < i := h1
      replace h3 : k < j := h3
      rw [cur_at g ga2 h2 h4 hr hc, cur_at g ga1 h2 h4 hr hc, (x1 i (by omega) h2 j (by omega) h4).val, add_sub_cancel_left]
      exact prods1 g gw3 ga1 hk h2 h4 hr hc
    replace m21 : blk (pN (k + 1)) (t.cl.size - pN (k + 1)) (pN k) (RN k).cl.size (Cur d t sm ws3) = (1 : 𝕜) • (blk (pN (k + 1)) (t.cl.size - pN (k + 1)) (pN k) (RN k).cl.size (Cur d t sm as1) *
      blk (pN k) (RN k).cl.size (pN k) (RN k).cl.size (Cur d t sm as1)) := m21
    replace m12 : blk (pN k) (RN k).cl.size (pN (k + 1)) (t.cl.size - pN (k + 1)) (Cur d t sm ws3) = (1 : 𝕜) • (blk (pN k) (RN k).cl.size (pN k) (RN k).cl.size (Cur d t sm as1) *
      blk (pN k) (RN k).cl.size (pN (k + 1)) (t.cl.size - pN (k + 1)) (Cur d t sm as1)) := m12
    replace m22 : blk (pN (k + 1)) (t.cl.size - pN (k + 1)) (pN (k + 1)) (t.cl.size - pN (k + 1)) (fun r c => Cur d t sm as2 r c - Cur d t sm as1 r c) =
      (-1 : 𝕜) • (blk (pN (k + 1)) (t.cl.size - pN (k + 1)) (pN k) (RN k).cl.size (Cur d t sm ws3) * blk (pN k) (RN k).cl.size (pN (k + 1)) (t.cl.size - pN (k + 1)) (Cur d t sm as1)) := m22
    refine ⟨?_, ?_, ?_, ?_⟩
    · rw [p11, hent ha, hent ga1, e1]; exact y3
    · rw [← hs, p11, m21, one_smul, r21]
    · rw [← hs, p11, m12, one_smul, r12]
    · rw [← hs, ← r12, ← r22]
      have : ∀ {a b c e : Nat} (f h : Nat → Nat → 𝕜), blk a b c e (fun r c => f r c - h r c) = blk a b c e f - blk a b c e h := fun f h => rfl
      rw [this, sub_eq_iff_eq_add] at m22
      rw [m22, neg_one_smul]
      abel
  · intro i j h
    simp only
    rw [x2 i j (by omega), e2 i j (by omega)]
  · intro i j h
    simp only
    rw [v2 i j (by intro j' _ _ h; omega), u2 i j (by intro j' _ _ h; omega), f2 i j (by omega)]

end H2.HI
