import Verif.Proof.H2Mul2
import Verif.Spec.H2Mul

set_option linter.unusedSectionVars false

namespace H2
open Spec Dense

namespace H2Mat
open VSt CBas
variable {G : Type} {K : Type} [Field K] [StarRing K]

theorem mulCall {tr : Bool} {alpha : K} {h : H2Mat G} {m m4 : Mem K} {S : Nat → Prop} (hr : H2Ready m h)
    (F4 : Frame (fun c => m c = none) m m4) (hS : ∀ c, S c → m c = none) :
    MulCall S m4 alpha (opRb tr h) (opCb tr h) (op tr (h2place m h)) (fastaddmul alpha tr h) := by
  obtain ⟨h1, h2, h3, h4, h5, h6, h7, h8⟩ := hr
  obtain ⟨hv4, hp⟩ := place_frame F4 h1 h2 h3 h6 h7 h8 (none_hdisj h6) (none_cdisj h7) (none_cdisj h8)
  have e : h2place m h = h2place m4 h := by funext r c; exact (hp r c).symm
  rw [e]
  cases tr
  · exact fastaddmul_tot h1 h2 h3 hv4 fun c h h' => none_hdisj h6 c h (hS c h')
  · exact fastaddmul_trans_tot h1 h2 h3 hv4 fun c h h' => none_hdisj h6 c h (hS c h')

theorem ready_bas {m : Mem K} {h : H2Mat G} (hr : H2Ready m h) (tr : Bool) :
    (CbOk (opRb tr h) ∧ CbSons (opRb tr h) ∧ CbValid m (opRb tr h)) ∧ CbOk (opCb tr h) ∧ CbSons (opCb tr h) ∧ CbValid m (opCb tr h) := by
  obtain ⟨h1, h2, h3, h4, h5, h6, h7, h8⟩ := hr
  cases tr
  · exact ⟨⟨h2, h4, h7⟩, h3, h5, h8⟩
  · exact ⟨⟨h3, h5, h8⟩, h2, h4, h7⟩

theorem addmulLeft_eq {px py : Nat} {junk : Nat → K} {alpha : K} {h2t xt : Bool} {h : H2Mat G} {X Y : Mat} {s : VSt K}
    (ex : opRows xt X = (opCb h2t h).size) (ey : Y.rows = (opRb h2t h).size) (ec : opCols xt X = Y.cols) :
    addmulLeft px py junk alpha h2t h xt X Y s =
      mulWrap (fastaddmul alpha h2t h) (CBas.backwardMat (opRb h2t h)) px py junk xt (opCb h2t h) (opRb h2t h) Y.cols Y.cols X Y s := by
  unfold addmulLeft
  cases h2t <;> cases xt
  all_goals
    simp only [opRows, opCols, opRb, opCb, CBas.size, Bool.false_eq_true, if_false, if_true] at ex ey ec ⊢
    try rw [if_neg (by simp)]
    try simp only [reduceIte, Bool.true_eq_false]
    rw [cassert_true (by simpa using ec), ok_bind, cassert_true (by simpa using ex), ok_bind, cassert_true (by simpa using ey), ok_bind, ec]

theorem addmulRight_eq {px py : Nat} {junk : Nat → K} {alpha : K} {h2t xt : Bool} {h : H2Mat G} {X Y : Mat} {s : VSt K}
    (ex : opCols xt X = (opRb h2t h).size) (ey : Y.cols = (opCb h2t h).size) (ec : opRows xt X = Y.rows) :
    addmulRight px py junk alpha xt X h2t h Y s =
      mulWrap (fastaddmul alpha (!h2t) h) (if h2t && xt then CBas.backwardMat (opCb h2t h) else CBas.backwardTransMat (opCb h2t h))
        px py junk (!xt) (opRb h2t h) (opCb h2t h) Y.rows Y.rows X Y s := by
  unfold addmulRight
  cases h2t <;> cases xt
  all_goals
    simp only [opRows, opCols, opRb, opCb, CBas.size, Bool.false_eq_true, if_false, if_true] at ex ey ec ⊢
    simp only [Bool.not_true, Bool.not_false, Bool.and_true, Bool.and_false, Bool.false_and, Bool.true_and, if_true,
      Bool.false_eq_true, if_false]
    rw [cassert_true (by simpa using ec), ok_bind, cassert_true (by simpa using ex), ok_bind, cassert_true (by simpa using ey), ok_bind, ec]

theorem op_place {m : Mem K} {h : H2Mat G} {tr : Bool} (i j : Nat) :
    op tr (h2place m h) ((opRb tr h).t.cl.off + i) ((opCb tr h).t.cl.off + j) = op tr (h2entry m h) i j := by
  cases tr <;> rfl

theorem addmulLeft_tot {px py : Nat} {junk : Nat → K} {alpha : K} {h2t xt : Bool} {h : H2Mat G} {X Y : Mat} {s : VSt K}
    (hr : H2Ready s.mem h) (hdy : Disj (CbCell (opRb h2t h)) Y.Cell) (hx : X.Valid s.mem) (hy : Y.Valid s.mem)
    (ex : opRows xt X = (opCb h2t h).size) (ey : Y.rows = (opRb h2t h).size) (ec : opCols xt X = Y.cols)
    (fx : Fresh s.mem px ((opCb h2t h).ktree * Y.cols))
    (fy : Fresh (s.mem.alloc px ((opCb h2t h).ktree * Y.cols) junk) py ((opRb h2t h).ktree * Y.cols)) :
    Tot (addmulLeft px py junk alpha h2t h xt X Y s) fun s' => s'.act = s.act ∧ MatBecomes Y s.mem (fun i c => Y.val s.mem i c +
      alpha * ∑ j ∈ Finset.range (opRows xt X), op h2t (h2entry s.mem h) i j * op xt (X.val s.mem) j c) s'.mem := by
  rw [addmulLeft_eq ex ey ec]
  obtain ⟨⟨a1, a2, a3⟩, b1, b2, b3⟩ := ready_bas hr h2t
  refine (mulWrap_tot (bt := false) (T := op h2t (h2place s.mem h)) (alpha := alpha) b1 b2 a1 b3 a3 hdy hx hy ex ec ey rfl fx fy
    (fun m4 F4 hn => mulCall hr F4 hn) (backwardMat_tot a1 a2)).mono ?_
  rintro s' ⟨h1, h2, h3, h4⟩
  refine ⟨h1, h2, fun i hi c hc => ?_, h3⟩
  have := h4 i (by omega) c hc
  simp only [op_place] at this
  rw [← ex] at this
  exact this

theorem addmulRight_both {px py : Nat} {junk : Nat → K} {alpha : K} {h : H2Mat G} {X Y : Mat} {s : VSt K}
    (hr : H2Ready s.mem h) (hdy : Disj (CbCell h.rb) Y.Cell) (hx : X.Valid s.mem) (hy : Y.Valid s.mem)
    (ex : X.rows = h.cb.size) (ey : Y.cols = h.rb.size) (ec : X.cols = Y.rows)
    (fx : Fresh s.mem px (h.cb.ktree * Y.rows))
    (fy : Fresh (s.mem.alloc px (h.cb.ktree * Y.rows) junk) py (h.rb.ktree * Y.rows)) :
    if Y.rows = h.rb.size then
      Tot (addmulRight px py junk alpha true X true h Y s) fun s' => s'.act = s.act ∧ MatBecomes Y s.mem (fun i c => Y.val s.mem i c +
        alpha * ∑ j ∈ Finset.range X.rows, h2entry s.mem h i j * X.val s.mem j c) s'.mem
    else addmulRight px py junk alpha true X true h Y s = .error .assertFail := by
  have e := addmulRight_eq (px := px) (py := py) (junk := junk) (alpha := alpha) (h2t := true) (xt := true) (h := h) (X := X) (Y := Y) (s := s)
    ex ey ec
  obtain ⟨⟨a1, a2, a3⟩, b1, b2, b3⟩ := ready_bas hr false
  rw [e]
  split
  · rename_i hq
    have e2 := addmulLeft_eq (px := px) (py := py) (junk := junk) (alpha := alpha) (h2t := false) (xt := false) (h := h) (X := X) (Y := Y)
      (s := s) ex hq (ec.trans (hq.trans ey.symm))
    have hc : Y.rows = Y.cols := hq.trans ey.symm
    have := addmulLeft_tot (alpha := alpha) (h2t := false) (xt := false) (px := px) (py := py) (junk := junk) hr hdy hx hy ex hq (ec.trans hc)
      (by rw [← hc]; exact fx) (by rw [← hc]; exact fy)
    rw [e2, ← hc] at this
    exact this
  · rename_i hq
    refine mulWrap_fail (alpha := alpha) (T := op false (h2place s.mem h)) b1 b2 a1 b3 a3 hx ex ec fx fy
      (fun m4 F4 hn => mulCall (tr := false) hr F4 hn) ?_
    intro s1 _ _ _
    show CBas.backwardMat h.rb _ Y s1 = _
    have hq' : ¬ Y.rows = h.rb.t.cl.size := hq
    cases hb : h.rb with
    | mk t k kt kb V E n son =>
      rw [hb] at hq'
      replace hq' : ¬ Y.rows = t.cl.size := hq'
      unfold backwardMat backwardNode
      rw [cassert, if_neg (by simpa using hq')]
      rfl

/-- the three other combinations -/
theorem addmulRight_leaf {px py : Nat} {junk : Nat → K} {alpha : K} {h2t xt : Bool} {h : H2Mat G} {X Y : Mat} {s : VSt K}
    (hf : ¬ (h2t = true ∧ xt = true)) (hl : (opCb h2t h).sons = 0)
    (hr : H2Ready s.mem h) (hdy : Disj (CbCell (opCb h2t h)) Y.Cell) (hx : X.Valid s.mem) (hy : Y.Valid s.mem)
    (ex : opCols xt X = (opRb h2t h).size) (ey : Y.cols = (opCb h2t h).size) (ec : opRows xt X = Y.rows)
    (fx : Fresh s.mem px ((opRb h2t h).ktree * Y.rows))
    (fy : Fresh (s.mem.alloc px ((opRb h2t h).ktree * Y.rows) junk) py ((opCb h2t h).ktree * Y.rows)) :
    Tot (addmulRight px py junk alpha xt X h2t h Y s) fun s' => s'.act = s.act ∧ MatBecomes Y s.mem (fun i c => Y.val s.mem i c +
      star alpha * ∑ j ∈ Finset.range (opCols xt X), op xt (X.val s.mem) i j * op h2t (h2entry s.mem h) j c) s'.mem := by
  rw [addmulRight_eq ex ey ec, if_neg (by simpa using hf)]
  have hn1 : opRb (!h2t) h = opCb h2t h := by cases h2t <;> rfl
  have hn2 : opCb (!h2t) h = opRb h2t h := by cases h2t <;> rfl
  have ex' : opRows (!xt) X = (opRb h2t h).size := by rw [← ex]; cases xt <;> rfl
  have ec' : opCols (!xt) X = Y.rows := by rw [← ec]; cases xt <;> rfl
  obtain ⟨⟨a1, a2, a3⟩, b1, b2, b3⟩ := ready_bas hr h2t
  have hB : BwdCall (K := K) true (opCb h2t h) (backwardTransMat (opCb h2t h)) := by
    cases hb : opCb h2t h with
    | mk t k kt kb V E n son =>
      rw [hb] at b1 b2 hl
      replace hl : n = 0 := hl
      subst hl
      intro yt yp s
      exact backwardTransMat_leaf b1 b2
  refine (mulWrap_tot (bt := true) (T := op (!h2t) (h2place s.mem h)) (alpha := alpha) a1 a2 b1 a3 b3 hdy hx hy ex' ec' ey rfl fx fy
    (fun m4 F4 hn => by have := mulCall (tr := !h2t) (alpha := alpha) hr F4 hn; rw [hn1, hn2] at this; exact this) hB).mono ?_
  rintro s' ⟨h1, h2, h3, h4⟩
  refine ⟨h1, h2, fun i hi c hc => ?_, h3⟩
  have := congrArg star (h4 c (by omega) i hi)
  rw [star_add, star_mul', star_sum] at this
  rw [show Y.val s'.mem i c = star (op true (Y.val s'.mem) c i) from (star_star _).symm, this]
  congr 1
  · exact star_star _
  · rw [ex]
    congr 1
    refine Finset.sum_congr rfl fun j _ => ?_
    rw [← hn1, ← hn2, op_place, star_mul']
    cases h2t <;> cases xt <;> simp [op, mul_comm]

theorem addmulRight_fail {px py : Nat} {junk : Nat → K} {alpha : K} {h2t xt : Bool} {h : H2Mat G} {X Y : Mat} {s : VSt K}
    (hf : ¬ (h2t = true ∧ xt = true)) (hl : 0 < (opCb h2t h).sons) (hne : Y.rows ≠ ((opCb h2t h).son ⟨0, hl⟩).size)
    (hr : H2Ready s.mem h) (hx : X.Valid s.mem)
    (ex : opCols xt X = (opRb h2t h).size) (ey : Y.cols = (opCb h2t h).size) (ec : opRows xt X = Y.rows)
    (fx : Fresh s.mem px ((opRb h2t h).ktree * Y.rows))
    (fy : Fresh (s.mem.alloc px ((opRb h2t h).ktree * Y.rows) junk) py ((opCb h2t h).ktree * Y.rows)) :
    addmulRight px py junk alpha xt X h2t h Y s = .error .assertFail := by
  rw [addmulRight_eq ex ey ec, if_neg (by simpa using hf)]
  have hn1 : opRb (!h2t) h = opCb h2t h := by cases h2t <;> rfl
  have hn2 : opCb (!h2t) h = opRb h2t h := by cases h2t <;> rfl
  have ex' : opRows (!xt) X = (opRb h2t h).size := by rw [← ex]; cases xt <;> rfl
  have ec' : opCols (!xt) X = Y.rows := by rw [← ec]; cases xt <;> rfl
  obtain ⟨⟨a1, a2, a3⟩, b1, b2, b3⟩ := ready_bas hr h2t
  refine mulWrap_fail (alpha := alpha) (T := op (!h2t) (h2place s.mem h)) a1 a2 b1 a3 b3 hx ex' ec' fx fy
    (fun m4 F4 hn => by have := mulCall (tr := !h2t) (alpha := alpha) hr F4 hn; rw [hn1, hn2] at this; exact this) ?_
  intro s1 v1 d1 w1
  generalize opCb h2t h = b at *
  cases b with
  | mk t k kt kb V E n son =>
    exact backwardTransMat_fail hl b1 b2 v1 d1 w1 rfl ey rfl hne

end H2Mat
end H2
