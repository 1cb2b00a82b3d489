import Verif.Proof.HInvert

/-! Inversion by block elimination: clearing, dense blocks, sums of products -/

set_option linter.unusedSectionVars false

namespace H2.HI
open Matrix Spec Dense HV
variable {G : Type} {𝕜 : Type} [RCLike 𝕜]

theorem clearH_ok : ∀ {z : HV G 𝕜}, HVOk z → HVOk (clearH z) ∧ SameShape z (clearH z) ∧ ∀ r c, hval (clearH z) r c = 0 := by
  intro z
  induction z with
  | rk t s r =>
    intro h
    obtain ⟨h1, h2, h3⟩ := h
    refine ⟨⟨⟨rfl, rfl⟩, h2, h3⟩, ⟨rfl, rfl⟩, fun i j => ?_⟩
    rw [clearH, hval_rk]
    simp [rkVal]
  | full t s f =>
    intro h
    refine ⟨h, ⟨rfl, rfl⟩, fun i j => ?_⟩
    rw [clearH, hval_full]
    simp [VMat.zero]
  | super t s m n son ih =>
    rintro ⟨h1, h2, ⟨R, C, h3, h4⟩, h5⟩
    have sh : ∀ i j, SameShape (son i j) (clearH (son i j)) := fun i j => (ih i j (h5 i j)).2.1
    refine ⟨⟨h1, h2, ⟨R, C, fun i j => ?_, h4⟩, fun i j => (ih i j (h5 i j)).1⟩, ⟨rfl, rfl, rfl, rfl, sh⟩, fun i j => ?_⟩
    · rw [(sh i j).rc, (sh i j).cc]; exact h3 i j
    · rw [clearH, hval_super]
      exact Finset.sum_eq_zero fun i' _ => Finset.sum_eq_zero fun j' _ => (ih i' j' (h5 i' j')).2.2 i j

theorem colErr_zero {n : Nat} {A B : Matrix (Fin n) (Fin n) 𝕜} (h : ∀ j, colErr A B j ≤ max 0 0) : B = A := by
  ext i j
  have h0 := h j
  rw [max_self] at h0
  unfold colErr at h0
  have h1 := (Finset.sum_eq_zero_iff_of_nonneg (fun i _ => by positivity)).mp (le_antisymm h0 (Finset.sum_nonneg fun i _ => by positivity)) i (Finset.mem_univ _)
  have h2 : ‖A i j - B i j‖ = 0 := by simpa using h1
  exact (sub_eq_zero.mp (norm_eq_zero.mp h2)).symm

theorem denseInv_tot {sgn : 𝕜 → 𝕜} (hs : SignFn 0 sgn) (junk junkT : Nat → 𝕜) {f : VMat 𝕜} {n : Nat} (hr : f.rows = n) (hc : f.cols = n) (hm : minor f.e n ≠ 0) :
    Tot (denseInv sgn 0 junk junkT f) fun f' => f'.rows = n ∧ f'.cols = n ∧ InvOn f.e f'.e 0 n := by
  unfold denseInv
  obtain ⟨va, ea⟩ := load_valid_a (a := f) (x := (.zero 0 0 : VMat 𝕜))
  have hA : toMat n n ((Mat.mk 0 f.rows f.rows f.cols).val (loadMem f (.zero 0 0))) = blk 0 n 0 n f.e := by
    ext i j
    simp only [toMat, blk, of_apply, Nat.zero_add]
    exact ea i (by omega) j (by omega)
  have fr : Fresh (loadMem f (.zero 0 0 : VMat 𝕜)) (f.rows * f.cols) (n * n) := by
    intro c h1 h2
    unfold loadMem
    rw [if_neg (by omega), if_neg (by simp [VMat.zero]; omega)]
  refine Tot.bind (QR.qrinvert_tot hs le_rfl (a := ⟨0, f.rows, f.rows, f.cols⟩) hr.symm (by show f.rows = f.cols; omega) va fr junk junkT ?_) ?_
  · intro B hB
    rw [hA] at hB
    rw [colErr_zero hB]
    have : minor f.e n = (blk 0 n 0 n f.e).det := by unfold minor blk; simp only [Nat.zero_add]
    rw [← this]; exact hm
  · rintro m' - ⟨-, -, B, hB, h1⟩
    rw [hA] at hB
    rw [colErr_zero hB] at h1
    refine Tot.pure ⟨hr, hc, ?_⟩
    unfold InvOn
    rw [← h1]
    congr 1
    ext i j
    simp [toMat, blk]

theorem accum_tot {T : TruncOps 𝕜} (hT : Lossless T) {d : HV G 𝕜} {m n : Nat} {xs0 : Fin m → Fin n → HV G 𝕜} {lo hi p q : Nat} (hle : lo ≤ hi) (hp : p < m) (hq : q < n) {x y : Nat → HV G 𝕜} {alpha : 𝕜}
    (hz : HVOk (sg d xs0 p q)) (hz' : HVStd (sg d xs0 p q))
    (hxy : ∀ j, lo ≤ j → j < hi → (HVOk (x j) ∧ HVStd (x j)) ∧ (HVOk (y j) ∧ HVStd (y j)) ∧ (sg d xs0 p q).rc = (x j).rc ∧ (sg d xs0 p q).cc = (y j).cc ∧ (x j).cc = (y j).rc)
    {body : Nat → (Fin m → Fin n → HV G 𝕜) → R (Fin m → Fin n → HV G 𝕜)}
    (hb : ∀ j, lo ≤ j → j < hi → ∀ xs, (∀ p' q', ¬ (p' = p ∧ q' = q) → sg d xs p' q' = sg d xs0 p' q') → body j xs = atSon xs p q (addmul T alpha false false (x j) (y j))) :
    Tot (forUp lo hi body xs0) fun xs' => Upd (sg d xs0 p q) (sg d xs' p q) (fun r c => ∑ j ∈ Finset.Ico lo hi, prod alpha false (x j) false (y j) r c) ∧
      ∀ p' q', ¬ (p' = p ∧ q' = q) → sg d xs' p' q' = sg d xs0 p' q' := by
  refine forUp_tot (fun k (xs' : Fin m → Fin n → HV G 𝕜) => Upd (sg d xs0 p q) (sg d xs' p q) (fun r c => ∑ j ∈ Finset.Ico lo k, prod alpha false (x j) false (y j) r c) ∧
      ∀ p' q', ¬ (p' = p ∧ q' = q) → sg d xs' p' q' = sg d xs0 p' q') hle ?_ ?_
  · refine ⟨(Upd.refl hz).congr fun r c => by rw [Finset.Ico_self, Finset.sum_empty], fun _ _ _ => rfl⟩
  · rintro k xs h1 h2 ⟨g1, g2⟩
    rw [hb k h1 h2 xs g2]
    obtain ⟨⟨a1, a2⟩, ⟨b1, b2⟩, c1, c2, c3⟩ := hxy k h1 h2
    refine (atSon_tot (d := d) (P := fun z => Upd (sg d xs p q) z (prod alpha false (x k) false (y k))) hp hq
      (addmul_tot' hT alpha false false a1 a2 b1 b2 g1.ok (g1.shape.std hz') (g1.shape.rc.trans c1) (g1.shape.cc.trans c2) c3)).mono ?_
    rintro xs' ⟨f1, f2⟩
    refine ⟨(g1.trans f1).congr fun r c => by rw [Finset.sum_Ico_succ_top h1], fun p' q' h => by rw [f2 p' q' h, g2 p' q' h]⟩

/-- a diagonal block with a symmetric subdivision: the clusters `RN i` of the sons start at the offsets `pN i` -/
structure Grid (t : CRef G) (sm : Nat) (RN : Nat → CRef G) (pN : Nat → Nat) : Prop where
  zero : pN 0 = 0
  succ : ∀ i < sm, pN (i + 1) = pN i + (RN i).cl.size
  last : pN sm = t.cl.size
  off : ∀ i < sm, (RN i).cl.off = t.cl.off + pN i

theorem Grid.mono {t : CRef G} {sm : Nat} {RN : Nat → CRef G} {pN : Nat → Nat} (g : Grid t sm RN pN) {i j : Nat} (hij : i ≤ j) (hj : j ≤ sm) : pN i ≤ pN j := by
  induction j with
  | zero => rw [show i = 0 by omega]
  | succ j ih =>
    by_cases e : i = j + 1
    · rw [e]
    · have := ih (by omega) (by omega)
      rw [g.succ j (by omega)]; omega

theorem Grid.mem {t : CRef G} {sm : Nat} {RN : Nat → CRef G} {pN : Nat → Nat} (g : Grid t sm RN pN) {i l : Nat} (hi : i < sm) (hl : l < (RN i).cl.size) : t.cl.off + (pN i + l) ∈ seg (RN i) := by
  rw [mem_seg, g.off i hi]; omega

/-- each index behind block `k` is in one of the following blocks -/
theorem Grid.find {t : CRef G} {sm : Nat} {RN : Nat → CRef G} {pN : Nat → Nat} (g : Grid t sm RN pN) {k : Nat} (hk : k ≤ sm) {r : Nat} (h1 : pN k ≤ r) (h2 : r < t.cl.size) :
    ∃ i, k ≤ i ∧ i < sm ∧ ∃ l < (RN i).cl.size, r = pN i + l := by
  rw [← g.last] at h2
  obtain ⟨d, rfl⟩ : ∃ d, sm = k + d := ⟨sm - k, by omega⟩
  have : ∀ d', d' ≤ d → r < pN (k + d') → ∃ i, k ≤ i ∧ i < k + d ∧ ∃ l < (RN i).cl.size, r = pN i + l := by
    intro d'
    induction d' with
    | zero => intro _ h; rw [Nat.add_zero] at h; omega
    | succ d' ih =>
      intro h3 h4
      by_cases e : r < pN (k + d')
      · exact ih (by omega) e
      · have := g.succ (k + d') (by omega)
        rw [show k + (d' + 1) = k + d' + 1 by omega, this] at h4
        exact ⟨k + d', by omega, by omega, r - pN (k + d'), by omega, by omega⟩
  exact this d le_rfl h2

theorem Grid.sum {t : CRef G} {sm : Nat} {RN : Nat → CRef G} {pN : Nat → Nat} (g : Grid t sm RN pN) {k : Nat} (hk : k ≤ sm) (f : Nat → 𝕜) :
    ∑ j ∈ Finset.Ico k sm, ∑ l ∈ seg (RN j), f l = ∑ l ∈ Finset.range (t.cl.size - pN k), f (t.cl.off + (pN k + l)) := by
  obtain ⟨d, hd⟩ : ∃ d, d ≤ sm ∧ k ≤ d ∧ d = sm := ⟨sm, le_rfl, hk, rfl⟩
  obtain ⟨h1, h2, h3⟩ := hd
  rw [← g.last, ← h3]
  clear h3
  induction d with
  | zero => 
    obtain rfl : k = 0 := by omega
    simp
  | succ d ih =>
    by_cases e : k = d + 1
    · rw [e]; simp
    · rw [Finset.sum_Ico_succ_top (by omega), ih (by omega) (by omega), g.succ d (by omega), sum_seg, g.off d (by omega)]
      have h4 := g.mono (show k ≤ d by omega) (by omega)
      rw [show pN d + (RN d).cl.size - pN k = (pN d - pN k) + (RN d).cl.size by omega, Finset.sum_range_add]
      congr 1
      refine Finset.sum_congr rfl fun l _ => ?_
      congr 1; omega

/-- the sons are well-formed and belong to the clusters -/
def Good (d : HV G 𝕜) (sm : Nat) (RN : Nat → CRef G) (xs : Fin sm → Fin sm → HV G 𝕜) : Prop :=
  ∀ i < sm, ∀ j < sm, HVOk (sg d xs i j) ∧ HVStd (sg d xs i j) ∧ (sg d xs i j).rc = RN i ∧ (sg d xs i j).cc = RN j

/-- the entries of the matrix consisting of the sons -/
def Cur (d : HV G 𝕜) (t : CRef G) (sm : Nat) (xs : Fin sm → Fin sm → HV G 𝕜) (r c : Nat) : 𝕜 := hentry (.super t t sm sm xs) r c

theorem cur_at {d : HV G 𝕜} {t : CRef G} {sm : Nat} {RN : Nat → CRef G} {pN : Nat → Nat} (g : Grid t sm RN pN) {xs : Fin sm → Fin sm → HV G 𝕜} (hx : Good d sm RN xs) {i j r c : Nat} (hi : i < sm) (hj : j < sm)
    (hr : r < (RN i).cl.size) (hc : c < (RN j).cl.size) : Cur d t sm xs (pN i + r) (pN j + c) = hval (sg d xs i j) (t.cl.off + (pN i + r)) (t.cl.off + (pN j + c)) := by
  have hgd : ∀ i j : Fin sm, xs i j = sg d xs i.1 j.1 := fun i j => (sg_fin _ i j).symm
  have inj : ∀ {i j l l' : Nat}, i < sm → j < sm → l < (RN i).cl.size → l' < (RN j).cl.size → pN i + l = pN j + l' → i = j := by
    intro i j l l' hi hj hl hl' e
    by_contra hne
    rcases Nat.lt_or_gt_of_ne hne with h | h
    · have := g.mono (show i + 1 ≤ j by omega) (by omega)
      rw [g.succ i hi] at this; omega
    · have := g.mono (show j + 1 ≤ i by omega) (by omega)
      rw [g.succ j hj] at this; omega
  have out : ∀ (i' : Nat), i' < sm → ∀ {i l}, i < sm → l < (RN i).cl.size → i' ≠ i → t.cl.off + (pN i + l) ∉ seg (RN i') := by
    intro i' hi' i l hi hl hne h
    rw [mem_seg, g.off i' hi'] at h
    exact hne (inj (l := pN i + l - pN i') (l' := l) hi' hi (by omega) hl (by omega))
  unfold Cur hentry
  show hval (.super t t sm sm xs) (t.cl.off + _) (t.cl.off + _) = _
  rw [hval_super, Finset.sum_eq_single ⟨i, hi⟩, Finset.sum_eq_single ⟨j, hj⟩, hgd]
  · intro j' _ hne
    rw [hgd]
    refine hval_out (hx i hi j' j'.2).1 fun h => ?_
    rw [(hx i hi j' j'.2).2.2.2] at h
    exact out j' j'.2 hj hc (fun e => hne (Fin.ext e)) h.2
  · exact fun h => absurd (Finset.mem_univ _) h
  · intro i' _ hne
    refine Finset.sum_eq_zero fun j' _ => ?_
    rw [hgd]
    refine hval_out (hx i' i'.2 j' j'.2).1 fun h => ?_
    rw [(hx i' i'.2 j' j'.2).2.2.1] at h
    exact out i' i'.2 hi hr (fun e => hne (Fin.ext e)) h.1
  · exact fun h => absurd (Finset.mem_univ _) h

/-- product of a block row and a block column over all blocks from `k` on -/
theorem prods {d : HV G 𝕜} {t : CRef G} {sm : Nat} {RN : Nat → CRef G} {pN : Nat → Nat} (g : Grid t sm RN pN) {xs ys : Fin sm → Fin sm → HV G 𝕜} (hx : Good d sm RN xs) (hy : Good d sm RN ys) {alpha : 𝕜}
    {i j k r c : Nat} (hk : k ≤ sm) (hi : i < sm) (hj : j < sm) (hr : r < (RN i).cl.size) (hc : c < (RN j).cl.size) :
    ∑ l ∈ Finset.Ico k sm, prod alpha false (sg d xs i l) false (sg d ys l j) (t.cl.off + (pN i + r)) (t.cl.off + (pN j + c)) =
      alpha * ∑ l ∈ Finset.range (t.cl.size - pN k), Cur d t sm xs (pN i + r) (pN k + l) * Cur d t sm ys (pN k + l) (pN j + c) := by
  unfold prod
  rw [← Finset.mul_sum]
  congr 1
  have e1 : ∀ l ∈ Finset.Ico k sm, ∑ q ∈ seg ((sg d xs i l).occ false), ohval false (sg d xs i l) (t.cl.off + (pN i + r)) q * ohval false (sg d ys l j) q (t.cl.off + (pN j + c)) =
      ∑ q ∈ seg (RN l), Cur d t sm xs (pN i + r) (q - t.cl.off) * Cur d t sm ys (q - t.cl.off) (pN j + c) := by
    intro l hl
    have hl := Finset.mem_Ico.mp hl
    rw [show (sg d xs i l).occ false = RN l from (hx i hi l hl.2).2.2.2]
    refine Finset.sum_congr rfl fun q hq => ?_
    rw [mem_seg, g.off l hl.2] at hq
    obtain ⟨q', rfl⟩ : ∃ q', q = t.cl.off + (pN l + q') := ⟨q - t.cl.off - pN l, by omega⟩
    rw [Nat.add_sub_cancel_left, cur_at g hx hi hl.2 hr (show q' < _ by omega), cur_at g hy hl.2 hj (show q' < _ by omega) hc]
    rfl
  rw [Finset.sum_congr rfl e1, g.sum hk]
  refine Finset.sum_congr rfl fun l _ => ?_
  rw [Nat.add_sub_cancel_left]

/-- one product -/
theorem prods1 {d : HV G 𝕜} {t : CRef G} {sm : Nat} {RN : Nat → CRef G} {pN : Nat → Nat} (g : Grid t sm RN pN) {xs ys : Fin sm → Fin sm → HV G 𝕜} (hx : Good d sm RN xs) (hy : Good d sm RN ys) {alpha : 𝕜}
    {i j k r c : Nat} (hk : k < sm) (hi : i < sm) (hj : j < sm) (hr : r < (RN i).cl.size) (hc : c < (RN j).cl.size) :
    prod alpha false (sg d xs i k) false (sg d ys k j) (t.cl.off + (pN i + r)) (t.cl.off + (pN j + c)) =
      alpha * ∑ l ∈ Finset.range (RN k).cl.size, Cur d t sm xs (pN i + r) (pN k + l) * Cur d t sm ys (pN k + l) (pN j + c) := by
  unfold prod
  congr 1
  rw [show (sg d xs i k).occ false = RN k from (hx i hi k hk).2.2.2, sum_seg, g.off k hk]
  refine Finset.sum_congr rfl fun l hl => ?_
  have hl := Finset.mem_range.mp hl
  rw [Nat.add_assoc, cur_at g hx hi hk hr hl, cur_at g hy hk hj hl hc]
  rfl

end H2.HI
