import Verif.Proof.H2Matrix3
import Verif.Model.H2Convert
import Verif.Spec.H2Convert

/-! Clearing and scaling of H2-matrices. -/

set_option linter.unusedSectionVars false

namespace H2
open Spec Dense

namespace H2Mat
open CBas
variable {G : Type} {K : Type} [Field K] [StarRing K]

/-- apply an operation to the matrices of all leaves -/
def walk (f : Mat → Mem K → R (Mem K)) : H2Mat G → Mem K → R (Mem K)
  | zero _ _, m => pure m
  | uni _ _ S, m => f S m
  | full _ _ F, m => f F m
  | super _ _ rsons csons son, m =>
    foldFinM csons (fun j m => foldFinM rsons (fun i m => walk f (son i j) m) m) m

theorem clear_walk : ∀ h : H2Mat G, (clear h : Mem K → R (Mem K)) = walk Dense.clear h := by
  intro h
  induction h with
  | zero rb cb => rfl
  | uni rb cb S => rfl
  | full rb cb f => rfl
  | super rb cb rs cs son ih =>
    funext m
    unfold clear walk
    simp only [ih]

theorem scale_walk (alpha : K) : ∀ h : H2Mat G, scale alpha h = walk (Dense.scale alpha) h := by
  intro h
  induction h with
  | zero rb cb => rfl
  | uni rb cb S => rfl
  | full rb cb f => rfl
  | super rb cb rs cs son ih =>
    funext m
    unfold scale walk
    simp only [ih]

theorem walk_tot {f : Mat → Mem K → R (Mem K)} {al : K}
    (hf : ∀ (a : Mat) (m : Mem K), a.Valid m → Tot (f a m) (MatBecomes a m (fun i j => al * a.val m i j))) :
    ∀ {h : H2Mat G} {m : Mem K}, H2Ok h → CbOk h.rb → CbOk h.cb → H2Valid m h → CbValid m h.rb → CbValid m h.cb → H2Sep h →
    Disj (CbCell h.rb) (H2Cell h) → Disj (CbCell h.cb) (H2Cell h) →
    Tot (walk f h m) fun m' => H2Valid m' h ∧ Frame (H2Cell h) m m' ∧ ∀ r c, h2place m' h r c = al * h2place m h r c := by
  intro h
  induction h with
  | zero rb cb =>
    intros
    exact Tot.pure ⟨trivial, fun _ _ => rfl, fun r c => by simp [h2place]⟩
  | uni rb cb S =>
    rintro m ⟨o1, o2⟩ hr hc hv hvr hvc - hdr hdc
    refine (hf S m hv).mono fun m' ⟨h1, h2, h3⟩ => ⟨h1, h3, fun r c => ?_⟩
    rw [h2place, h2place, Finset.mul_sum]
    refine Finset.sum_congr rfl fun a ha => ?_
    rw [Finset.mul_sum]
    refine Finset.sum_congr rfl fun b hb => ?_
    have ha := Finset.mem_range.mp ha
    have hb := Finset.mem_range.mp hb
    rw [show basis m' rb r a = basis m rb r a from (frame_basis h3 hr hvr hdr).2 r a ha,
      show basis m' cb c b = basis m cb c b from (frame_basis h3 hc hvc hdc).2 c b hb, h2 a (by omega) b (by omega)]
    ring
  | full rb cb F =>
    rintro m ⟨o1, o2, o3, o4⟩ hr hc hv hvr hvc - hdr hdc
    refine (hf F m hv).mono fun m' ⟨h1, h2, h3⟩ => ⟨h1, h3, fun r c => ?_⟩
    rw [h2place, h2place]
    by_cases h : In rb.t r ∧ In cb.t c
    · rw [if_pos h, if_pos h]
      obtain ⟨p1, p2⟩ := h
      unfold In at p1 p2
      rw [h2 _ (by omega) _ (by omega)]
    · rw [if_neg h, if_neg h, mul_zero]
  | super rb cb rs cs son ih =>
    rintro m ⟨⟨R, C, hRC, hR, hC⟩, hs⟩ hr hc hv hvr hvc ⟨sep, seps⟩ hdr hdc
    replace hr : CbOk rb := hr
    replace hc : CbOk cb := hc
    replace hvr : CbValid m rb := hvr
    replace hvc : CbValid m cb := hvc
    replace hdr : Disj (CbCell rb) (fun c => ∃ i j, H2Cell (son i j) c) := hdr
    replace hdc : Disj (CbCell cb) (fun c => ∃ i j, H2Cell (son i j) c) := hdc
    -- facts about a son
    have so : ∀ i j, CbOk (son i j).rb ∧ CbOk (son i j).cb := fun i j => by
      rw [(hRC i j).1, (hRC i j).2]; exact ⟨(sonBases_son (K := K) hR hr i).1, (sonBases_son (K := K) hC hc j).1⟩
    have sv : ∀ {M : Mem K}, CbValid M rb → CbValid M cb → ∀ i j, CbValid M (son i j).rb ∧ CbValid M (son i j).cb := fun h1 h2 i j => by
      rw [(hRC i j).1, (hRC i j).2]; exact ⟨(sonBases_valid hR h1 i).1, (sonBases_valid hC h2 j).1⟩
    have sd : ∀ i j i' j', Disj (CbCell (son i j).rb) (H2Cell (son i' j')) ∧ Disj (CbCell (son i j).cb) (H2Cell (son i' j')) := fun i j i' j' => by
      rw [(hRC i j).1, (hRC i j).2]
      exact ⟨fun c h h' => hdr c ((sonBases_valid hR hvr i).2 c h) ⟨i', j', h'⟩,
        fun c h h' => hdc c ((sonBases_valid hC hvc j).2 c h) ⟨i', j', h'⟩⟩
    -- the invariant; `D i j`: the son has been treated
    let Inv : (Fin rs → Fin cs → Prop) → Mem K → Prop := fun D M => CbValid M rb ∧ CbValid M cb ∧ (∀ i j, H2Valid M (son i j)) ∧
      Frame (fun c => ∃ i j, H2Cell (son i j) c) m M ∧
      ∀ i j, (D i j → ∀ r c, h2place M (son i j) r c = al * h2place m (son i j) r c) ∧
        (¬ D i j → ∀ r c, h2place M (son i j) r c = h2place m (son i j) r c)
    have hInv : ∀ {D D' : Fin rs → Fin cs → Prop} {M : Mem K}, (∀ i j, D i j ↔ D' i j) → Inv D M → Inv D' M := by
      rintro D D' M h ⟨a, b, c, d, e⟩
      exact ⟨a, b, c, d, fun i j => ⟨fun hh => (e i j).1 ((h i j).mpr hh), fun hh => (e i j).2 fun h' => hh ((h i j).mp h')⟩⟩
    have step : ∀ (D : Fin rs → Fin cs → Prop) (i : Fin rs) (j : Fin cs) (M : Mem K), ¬ D i j → Inv D M →
        Tot (walk f (son i j) M) (Inv fun i' j' => D i' j' ∨ (i' = i ∧ j' = j)) := by
      rintro D i j M hD ⟨v1, v2, v3, v4, v5⟩
      refine (ih i j (hs i j) (so i j).1 (so i j).2 (v3 i j) (sv v1 v2 i j).1 (sv v1 v2 i j).2 (seps i j) (sd i j i j).1
        (sd i j i j).2).mono ?_
      rintro M' ⟨q1, q2, q3⟩
      have other : ∀ i' j', ¬ (i' = i ∧ j' = j) → H2Valid M' (son i' j') ∧ ∀ r c, h2place M' (son i' j') r c = h2place M (son i' j') r c :=
        fun i' j' hne => place_frame q2 (hs i' j') (so i' j').1 (so i' j').2 (v3 i' j') (sv v1 v2 i' j').1 (sv v1 v2 i' j').2
          (sep i' j' i j hne) (sd i' j' i j).1 (sd i' j' i j).2
      refine ⟨(frame_basis q2 hr v1 fun c h h' => hdr c h ⟨i, j, h'⟩).1, (frame_basis q2 hc v2 fun c h h' => hdc c h ⟨i, j, h'⟩).1,
        fun i' j' => ?_, fun c hc => ?_, fun i' j' => ⟨?_, ?_⟩⟩
      · by_cases h : i' = i ∧ j' = j
        · obtain ⟨rfl, rfl⟩ := h; exact q1
        · exact (other i' j' h).1
      · rw [q2 c fun h => hc ⟨i, j, h⟩, v4 c hc]
      · intro h r c
        by_cases h' : i' = i ∧ j' = j
        · obtain ⟨rfl, rfl⟩ := h'
          rw [q3, (v5 i' j').2 hD]
        · rw [(other i' j' h').2, (v5 i' j').1 (h.resolve_right h')]
      · intro h r c
        push Not at h
        rw [(other i' j' fun h' => h.2 h'.1 h'.2).2, (v5 i' j').2 h.1]
    unfold walk
    have fin : Tot (foldFinM cs (fun j m => foldFinM rs (fun i m => walk f (son i j) m) m) m)
        (Inv fun _ j => j.1 < cs) := by
      refine foldFinM_tot (fun n M => Inv (fun _ j => j.1 < n) M) ?_ ?_
      · refine ⟨hvr, hvc, hv, fun _ _ => rfl, fun i j => ⟨fun h => absurd h (Nat.not_lt_zero _), fun _ _ _ => rfl⟩⟩
      · intro j M hM
        have := foldFinM_tot (f := fun i m => walk f (son i j) m) (s := M) (n := rs)
          (fun n M => Inv (fun i' j' => j'.1 < j.1 ∨ (i'.1 < n ∧ j' = j)) M)
          (hInv (fun i' j' => by simp) hM) (fun i M1 h1 => (step _ i j M1 (by simp) h1).mono fun M2 h2 =>
            hInv (fun i' j' => by
              constructor
              · rintro ((h | ⟨h, h'⟩) | ⟨h, h'⟩)
                · exact .inl h
                · exact .inr ⟨by omega, h'⟩
                · exact .inr ⟨by rw [h]; omega, h'⟩
              · rintro (h | ⟨h, h'⟩)
                · exact .inl (.inl h)
                · by_cases e : i'.1 = i.1
                  · exact .inr ⟨Fin.ext e, h'⟩
                  · exact .inl (.inr ⟨by omega, h'⟩)) h2)
        refine this.mono fun M2 h2 => hInv (fun i' j' => ?_) h2
        have := i'.2
        constructor
        · rintro (h | ⟨h, h'⟩)
          · omega
          · rw [h']; omega
        · intro h
          by_cases e : j'.1 = j.1
          · exact .inr ⟨this, Fin.ext e⟩
          · exact .inl (by omega)
    refine fin.mono ?_
    rintro M ⟨v1, v2, v3, v4, v5⟩
    refine ⟨v3, v4, fun r c => ?_⟩
    rw [h2place, h2place, Finset.mul_sum]
    refine Finset.sum_congr rfl fun i _ => ?_
    rw [Finset.mul_sum]
    exact Finset.sum_congr rfl fun j _ => (v5 i j).1 j.2 r c

end H2Mat
end H2
