import Verif.Proof.HChol5

/-! The defective case of `addmul_lower_hmatrix` (C65). -/

set_option linter.unusedSectionVars false

namespace H2
open Spec Dense
variable {G K : Type} [Field K] [StarRing K]

namespace HV

theorem May.any {α : Type _} {x : R α} {c : Prop} {P : α → Prop} (h : May x c P) : May x True (fun a => P a) := h.mono (fun _ => trivial) fun _ h => h

theorem lower_defect {T : TruncOps K} (hT : Lossless T) (alpha : K) {u t : CRef G} {xm xn ym yn m : Nat}
    {xs : Fin xm → Fin xn → HV G K} {ys : Fin ym → Fin yn → HV G K} {zs : Fin m → Fin m → HV G K}
    (hx : HVOk (.super u t xm xn xs)) (hx' : HVStd (.super u t xm xn xs)) (hy : HVOk (.super u t ym yn ys))
    (hy' : HVStd (.super u t ym yn ys)) (hz : HVOk (.super t t m m zs)) (hz' : HVStd (.super t t m m zs))
    (hs : SqOk (.super t t m m zs)) (h2 : 2 ≤ t.nsons) (h3 : 2 ≤ u.nsons) :
    addmulLower T alpha true false (.super u t xm xn xs) (.super u t ym yn ys) (.super t t m m zs) = .error .assertFail := by
  obtain ⟨-, -, -, hxo⟩ := hx
  obtain ⟨-, -, -, hyo⟩ := hy
  obtain ⟨-, -, -, hzo⟩ := hz
  obtain ⟨-, rfl, rfl, hxk⟩ := hx'
  obtain ⟨-, rfl, rfl, hyk⟩ := hy'
  obtain ⟨-, rfl, -, hzk⟩ := hz'
  obtain ⟨-, e, hsq⟩ := hs
  replace hsq : ∀ i, SqOk (zs i i) := hsq
  rw [addmulLower, cassert_true (by exact same_refl t), ok_bind]
  simp only
  rw [cassert_true (by simp), ok_bind, cassert_true (by simp), ok_bind, cassert_true (by simp), ok_bind, cassert_true (by simp), ok_bind]
  have gx : ∀ (k : Fin (max 1 u.nsons)) (i : Fin (max 1 t.nsons)), getSon xs k.1 i.1 = .ok (xs k i) := by
    intro k i; unfold getSon; rw [dif_pos ⟨k.2, i.2⟩]
  have gy : ∀ (k : Fin (max 1 u.nsons)) (i : Fin (max 1 t.nsons)), getSon ys k.1 i.1 = .ok (ys k i) := by
    intro k i; unfold getSon; rw [dif_pos ⟨k.2, i.2⟩]
  -- the call for the first diagonal block
  have hdiag := updLowLoop (M := max 1 u.nsons) (z := zs ⟨0, by omega⟩ ⟨0, by omega⟩) (b := true = true ∧ false = false) (f := fun k z1 =>
      if hx : k < max 1 u.nsons ∧ 0 < max 1 t.nsons then do
        let yki ← getSon ys k 0
        addmulLower T alpha true false (xs ⟨k, hx.1⟩ ⟨0, hx.2⟩) yki z1
      else .error .ub) (fun k r c => prod alpha true (xs k ⟨0, by omega⟩) false (ys k ⟨0, by omega⟩) r c) (hzo _ _) (by
    intro k z1 hsh ho
    have y0 := gy k ⟨0, by omega⟩
    beta_reduce
    rw [dif_pos ⟨k.2, by omega⟩, y0, ok_bind]
    obtain ⟨x1, x2, x3⟩ := hxk k ⟨0, by omega⟩
    obtain ⟨y1, y2, y3⟩ := hyk k ⟨0, by omega⟩
    obtain ⟨z4, z2, z3⟩ := hzk ⟨0, by omega⟩ ⟨0, by omega⟩
    refine addmulLower_may hT alpha true false (hxo _ _) x3 (hyo _ _) y3 ho (hsh.std z3) (sqOk_shape hsh (hsq _)) ?_ ?_ ?_
    · rw [hsh.rc, z4]; exact x2.symm
    · rw [hsh.cc, z2]; exact y2.symm
    · show (xs _ _).rc = (ys _ _).rc
      rw [x1, y1])
  have hbad : ∀ zs1 : Fin (max 1 t.nsons) → Fin (max 1 t.nsons) → HV G K, zs1 ⟨1, by omega⟩ ⟨0, by omega⟩ = zs ⟨1, by omega⟩ ⟨0, by omega⟩ →
      forUp 0 (max 1 u.nsons) (fun k z1 => do
        let xik ← getSon xs k 1
        let ykj ← getFlat ys (0 + k * (max 1 u.nsons))
        addmul T alpha true false xik ykj z1) (zs1 ⟨1, by omega⟩ ⟨0, by omega⟩) = .error .assertFail := by
    intro zs1 hzs1
    rw [hzs1]
    obtain ⟨z1, z2, z3⟩ := hzk ⟨1, by omega⟩ ⟨0, by omega⟩
    refine defectLoop (t := t) (i := 1) (j := 0) (by omega) (by omega) rfl (by omega) h2 (X := fun k => getSon xs k 1)
      (gx ⟨0, by omega⟩ ⟨1, by omega⟩) (gx ⟨1, by omega⟩ ⟨1, by omega⟩) ?_ ?_ z2 (fun p q => (hyk p q).2.1) ?_
    · rw [z1]; exact (hxk _ _).2.1.symm
    · rw [z1]; exact (hxk _ _).2.1.symm
    · intro _ y0 hy0
      have : y0 = ys ⟨0, by omega⟩ ⟨0, by omega⟩ := by
        unfold getFlat at hy0
        rw [dif_pos ⟨Nat.mod_lt _ (by omega), by rw [Nat.zero_div]; omega⟩] at hy0
        have := Except.ok.inj hy0
        rw [← this]
        congr 1
        exact Fin.ext (Nat.zero_div _)
      rw [this]
      obtain ⟨x1, x2, x3⟩ := hxk ⟨0, by omega⟩ ⟨1, by omega⟩
      obtain ⟨y1, y2, y3⟩ := hyk ⟨0, by omega⟩ ⟨0, by omega⟩
      refine (addmul_tot' hT alpha true false (hxo _ _) x3 (hyo _ _) y3 (hzo _ _) z3 ?_ ?_ ?_).mono fun z' h => h.shape
      · rw [z1]; exact x2.symm
      · rw [z2]; exact y2.symm
      · show (xs _ _).rc = (ys _ _).rc
        rw [x1, y1]
  have main : lowerLoops (fun i j k z1 => do
        let xik ← getSon xs k i
        let ykj ← getFlat ys (j + k * (max 1 u.nsons))
        addmul T alpha true false xik ykj z1) (fun i k z1 =>
          if hx : k < max 1 u.nsons ∧ i < max 1 t.nsons then do
            let yki ← getSon ys k i
            addmulLower T alpha true false (xs ⟨k, hx.1⟩ ⟨i, hx.2⟩) yki z1
          else .error .ub) (max 1 t.nsons) (max 1 u.nsons) zs = .error .assertFail := by
    unfold lowerLoops
    rw [forUp_head (by omega)]
    have e0 : ∀ (body : Nat → (Fin (max 1 t.nsons) → Fin (max 1 t.nsons) → HV G K) → R (Fin (max 1 t.nsons) → Fin (max 1 t.nsons) → HV G K)),
        forUp 0 0 body zs = .ok zs := fun _ => rfl
    rw [e0, ok_bind]
    have := loopSon_may (i := (⟨0, by omega⟩ : Fin (max 1 t.nsons))) (j := (⟨0, by omega⟩ : Fin (max 1 t.nsons))) hdiag
    rcases this with ⟨e, -⟩ | ⟨zs1, e, -, hne⟩
    · erw [e]; rfl
    · erw [e]
      rw [ok_bind, forUp_head (by omega), forUp_head (by omega)]
      have := loopSon (i := (⟨1, by omega⟩ : Fin (max 1 t.nsons))) (j := (⟨0, by omega⟩ : Fin (max 1 t.nsons))) (M := max 1 u.nsons)
        (f := fun k z1 => do
        let xik ← getSon xs k 1
        let ykj ← getFlat ys (0 + k * (max 1 u.nsons))
        addmul T alpha true false xik ykj z1) (zs := zs1)
      erw [this]
      rw [hbad zs1 (hne _ _ (by intro h; have := congrArg Fin.val h.1; simp at this))]
      rfl
  simp only [if_true, Bool.false_eq_true, if_false, Bool.not_false, Bool.and_self] at main ⊢
  rw [main]
  rfl

end HV
end H2
