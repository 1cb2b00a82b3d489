import Verif.Proof.HSolve7
import Verif.Proof.HMatrix2
import Verif.Proof.HSolve2
import Verif.Proof.Sparse
import Verif.Spec.HFill

/-! Filling H-matrices. -/

set_option linter.unusedSectionVars false

namespace H2
open Spec Dense
variable {G K : Type} [Field K] [StarRing K]

namespace HMat

omit [StarRing K] in
/-- one entry is overwritten -/
theorem write_entry {a : Mat} {m0 m : Mem K} {F : Nat → Nat → K} (h : MatBecomes a m0 F m) {k l : Nat} (hk : k < a.rows) (hl : l < a.cols) (x : K) :
    Tot (m.write (a.addr k l) x) (MatBecomes a m0 (fun i j => if i = k ∧ j = l then x else F i j)) := by
  obtain ⟨h1, h2, h3⟩ := h
  obtain ⟨y, hy⟩ := Option.isSome_iff_exists.mp (h1.2 k hk l hl)
  refine ⟨_, Mem.write_ok hy, ⟨h1.1, fun i hi j hj => ?_⟩, fun i hi j hj => ?_, fun c hc => ?_⟩
  · unfold Mem.upd
    split
    · rfl
    · exact h1.2 i hi j hj
  · beta_reduce
    by_cases e : i = k ∧ j = l
    · rw [if_pos e, e.1, e.2]
      unfold Mat.val
      rw [Mem.upd_same]; rfl
    · rw [if_neg e, ← h2 i hi j hj]
      unfold Mat.val
      rw [Mem.upd_ne]
      intro e'
      unfold Mat.addr at e'
      have := Sparse.addr_inj (c := j) (c' := l) hi hk h1.1 (by omega)
      exact e this
  · rw [Mem.upd_ne]
    · exact h3 c hc
    · rintro rfl
      exact hc ⟨k, hk, l, hl, rfl⟩

theorem fillLeaf_tot {sp : Sparse K} {ridx cidx : Arr Nat} {t s : CRef G} {f : Mat} {m : Mem K} (hs : CSR sp) (hv : f.Valid m)
    (hp : f.ld = f.rows) (h1 : f.rows = t.cl.size) (h2 : f.cols = s.cl.size)
    (hr : ∀ p, InSeg t p → p < ridx.n ∧ ridx.v p < sp.rows) (hc : ∀ p, InSeg s p → p < cidx.n) :
    Tot (fillLeaf sp ridx cidx t s f m) (MatBecomes f m (fun i j => entry sp (ridx.v (t.cl.off + i)) (cidx.v (s.cl.off + j)))) := by
  unfold fillLeaf
  refine Tot.bind (P := MatBecomes f m (fun _ _ => 0)) ?_ ?_
  · have := clear_tot hv
    unfold clear at this
    simp only [Mat.addr, hp] at this
    exact this
  · rintro m1 - hm1
    refine (forUp_tot (fun k (m2 : Mem K) => MatBecomes f m (fun i j => if i < k then entry sp (ridx.v (t.cl.off + i)) (cidx.v (s.cl.off + j)) else 0) m2)
      (Nat.zero_le _) (by simpa using hm1) ?_).mono ?_
    · intro k m2 _ hk hm2
      obtain ⟨r1, r2⟩ := hr (t.cl.off + k) ⟨by omega, by omega⟩
      rw [Arr.get_ok r1, ok_bind, Arr.get_ok (by rw [hs.nrow]; omega), ok_bind, Arr.get_ok (by rw [hs.nrow]; omega), ok_bind]
      generalize hi : ridx.v (t.cl.off + k) = i at *
      have hle : sp.row.v i ≤ sp.row.v (i + 1) := hs.mono i r2
      have hnz : sp.row.v (i + 1) ≤ sp.nz := hs.last ▸ Sparse.CSR.row_le hs (i := i + 1) (by omega) le_rfl
      refine (forUp_tot (fun q (m3 : Mem K) => q ≤ sp.row.v (i + 1) → MatBecomes f m (fun a j => if a < k then entry sp (ridx.v (t.cl.off + a)) (cidx.v (s.cl.off + j)) else
          if a = k then ∑ p ∈ Finset.Ico (sp.row.v i) q, (if sp.col.v p = cidx.v (s.cl.off + j) then sp.coeff.v p else 0) else 0) m3)
        hle (fun _ => ?_) ?_).mono ?_
      · simpa using hm2
      · intro q m3 q1 q2 hm3
        replace hm3 := hm3 (by omega)
        refine (forUp_tot (fun l (m4 : Mem K) => MatBecomes f m (fun a j => if a < k then entry sp (ridx.v (t.cl.off + a)) (cidx.v (s.cl.off + j)) else
          if a = k then ∑ p ∈ Finset.Ico (sp.row.v i) (if j < l then q + 1 else q), (if sp.col.v p = cidx.v (s.cl.off + j) then sp.coeff.v p else 0) else 0) m4)
          (Nat.zero_le _) (by simpa using hm3) ?_).mono ?_
        · intro l m4 _ hl hm4
          rw [Arr.get_ok (by rw [hs.ncol]; omega), ok_bind, Arr.get_ok (hc _ ⟨by omega, by omega⟩), ok_bind]
          split
          · rename_i e
            rw [Arr.get_ok (by rw [hs.ncoeff]; omega), ok_bind]
            refine (write_entry hm4 (k := k) (l := l) (by omega) (by omega) _).mono fun m5 hm5 => becomes_congr hm5 ?_
            intro a ha j hj
            beta_reduce
            by_cases e1 : a = k ∧ j = l
            · obtain ⟨rfl, rfl⟩ := e1
              rw [if_pos ⟨rfl, rfl⟩, if_neg (lt_irrefl _), if_pos rfl, if_pos (Nat.lt_succ_self _), Finset.sum_Ico_succ_top q1, if_pos e,
                Finset.sum_eq_zero, zero_add]
              intro p hpq
              rw [Finset.mem_Ico] at hpq
              rw [if_neg]
              intro e2
              have := hs.nodup i r2 p q ⟨hpq.1, by omega⟩ ⟨q1, q2⟩ (by rw [e2, e])
              omega
            · rw [if_neg e1]
              by_cases ea : a = k
              · have : j ≠ l := fun e => e1 ⟨ea, e⟩
                have hiff : (j < l) = (j < l + 1) := by simp only [eq_iff_iff]; omega
                simp only [hiff]
              · simp only [ea, if_false]
          · rename_i e
            refine ⟨_, rfl, becomes_congr hm4 ?_⟩
            intro a ha j hj
            beta_reduce
            by_cases ej : j = l
            · subst ej
              rw [if_neg (lt_irrefl j), if_pos (Nat.lt_succ_self j), Finset.sum_Ico_succ_top q1, if_neg e, add_zero]
            · have hiff : (j < l) = (j < l + 1) := by simp only [eq_iff_iff]; omega
              simp only [hiff]
        · intro m4 hm4 _
          refine becomes_congr hm4 fun a ha j hj => ?_
          beta_reduce
          rw [if_pos (by omega : j < s.cl.size)]
      · intro m3 hm3
        refine becomes_congr (hm3 le_rfl) fun a ha j hj => ?_
        beta_reduce
        by_cases e : a < k
        · rw [if_pos e, if_pos (by omega)]
        · by_cases e' : a = k
          · rw [if_neg e, if_pos e', if_pos (by omega), e', hi]; rfl
          · rw [if_neg e, if_neg e', if_neg (by omega)]
    · intro m2 hm2
      exact becomes_congr hm2 fun i hi j hj => by beta_reduce; rw [if_pos (by omega)]

theorem densePos_in : ∀ {h : HMat G}, HOk h → ∀ {r c : Nat}, DensePos h r c → r ∈ seg h.rc ∧ c ∈ seg h.cc := by
  intro h
  induction h with
  | rk => intro _ r c h; exact h.elim
  | full t s d f => intro _ r c h; exact ⟨mem_seg.mpr h.1, mem_seg.mpr h.2⟩
  | super t s d m n son ih =>
    rintro ⟨_, _, ⟨R, C, hRC, hR, hC⟩, hs⟩ r c ⟨i, j, h⟩
    obtain ⟨g1, g2⟩ := ih i j (hs i j) h
    rw [(hRC i j).1] at g1
    rw [(hRC i j).2] at g2
    have b1 := Segments.bounds hR i
    have b2 := Segments.bounds hC j
    rw [mem_seg] at g1 g2
    refine ⟨mem_seg.mpr ?_, mem_seg.mpr ?_⟩
    · show t.cl.off ≤ r ∧ r < t.cl.off + t.cl.size; omega
    · show s.cl.off ≤ c ∧ c < s.cl.off + s.cl.size; omega

theorem copySparse_tot {sp : Sparse K} {ridx cidx : Arr Nat} (hs : CSR sp) : ∀ {h : HMat G} {m : Mem K}, HOk h → HValid m h → HDisj h → Packed h →
    (∀ p, InSeg h.rc p → p < ridx.n ∧ ridx.v p < sp.rows) → (∀ p, InSeg h.cc p → p < cidx.n) →
    Tot (copySparse sp ridx cidx h m) fun m' => (HValid m' h ∧ (∀ r c, DensePos h r c → place m' h r c = entry sp (ridx.v r) (cidx.v c)) ∧
      ∀ r c, ¬ DensePos h r c → place m' h r c = place m h r c) ∧ Frame (HCell h) m m' := by
  intro h
  induction h with
  | rk t s d r =>
    intro m ho hv _ _ _ _
    exact ⟨m, rfl, ⟨hv, fun r c h => h.elim, fun _ _ _ => rfl⟩, fun _ _ => rfl⟩
  | full t s d f =>
    rintro m ⟨h1, h2⟩ hv - hp hr hc
    simp only [copySparse]
    refine (fillLeaf_tot hs hv hp h1 h2 hr hc).mono ?_
    rintro m' ⟨g1, g2, g3⟩
    refine ⟨⟨g1, fun r c hrc => ?_, fun r c hrc => ?_⟩, g3⟩
    · obtain ⟨⟨a1, a2⟩, a3, a4⟩ := hrc
      rw [place_full', if_pos ⟨a1, a2, a3, a4⟩, g2 _ (by omega) _ (by omega)]
      beta_reduce
      rw [Nat.add_sub_cancel' a1, Nat.add_sub_cancel' a3]
    · rw [place_full', place_full', if_neg, if_neg]
      · rintro ⟨a1, a2, a3, a4⟩; exact hrc ⟨⟨a1, a2⟩, a3, a4⟩
      · rintro ⟨a1, a2, a3, a4⟩; exact hrc ⟨⟨a1, a2⟩, a3, a4⟩
  | super t s d rs cs son ih =>
    rintro m ho hv ⟨hd, hds⟩ hp hr hc
    obtain ⟨_, _, ⟨R, C, hRC, hR, hC⟩, hos⟩ := id ho
    simp only [copySparse]
    refine (visit2 (C := fun i j => HCell (son i j))
      (P := fun i j m1 => HValid m1 (son i j) ∧ ∀ r c, place m1 (son i j) r c = place m (son i j) r c)
      (Q := fun i j m1 => HValid m1 (son i j) ∧ (∀ r c, DensePos (son i j) r c → place m1 (son i j) r c = entry sp (ridx.v r) (cidx.v c)) ∧
        ∀ r c, ¬ DensePos (son i j) r c → place m1 (son i j) r c = place m (son i j) r c)
      hd ?_ ?_ (fun i j => ⟨hv i j, fun _ _ => rfl⟩) ?_).mono ?_
    · rintro i j m1 m2 e ⟨p1, p2⟩
      obtain ⟨q1, q2⟩ := place_local (hos i j) p1 e
      exact ⟨q1, fun r c => by rw [q2, p2]⟩
    · rintro i j m1 m2 e ⟨p1, p2, p3⟩
      obtain ⟨q1, q2⟩ := place_local (hos i j) p1 e
      exact ⟨q1, fun r c hh => by rw [q2, p2 r c hh], fun r c hh => by rw [q2, p3 r c hh]⟩
    · rintro i j m1 ⟨p1, p2⟩
      refine (ih i j (hos i j) p1 (hds i j) (hp i j) ?_ ?_).mono ?_
      · intro p h
        rw [(hRC i j).1] at h
        have b1 := Segments.bounds hR i
        refine hr p ?_
        show t.cl.off ≤ p ∧ p < t.cl.off + t.cl.size
        unfold InSeg at h; omega
      · intro p h
        rw [(hRC i j).2] at h
        have b1 := Segments.bounds hC j
        refine hc p ?_
        show s.cl.off ≤ p ∧ p < s.cl.off + s.cl.size
        unfold InSeg at h; omega
      · rintro m2 ⟨⟨q1, q2, q3⟩, q4⟩
        exact ⟨⟨q1, q2, fun r c hh => by rw [q3 r c hh, p2]⟩, q4⟩
    · rintro m' ⟨g1, g2⟩
      refine ⟨⟨fun i j => (g1 i j).1, ?_, ?_⟩, g2⟩
      · rintro r c ⟨i, j, hh⟩
        obtain ⟨a1, a2⟩ := densePos_in (hos i j) hh
        rw [(hRC i j).1] at a1
        rw [(hRC i j).2] at a2
        rw [place_son hRC hos hR hC a1 a2]
        exact (g1 i j).2.1 r c hh
      · intro r c hh
        simp only [place_super]
        exact Finset.sum_congr rfl fun j _ => Finset.sum_congr rfl fun i _ => (g1 i j).2.2 r c fun h => hh ⟨i, j, h⟩

end HMat
end H2
