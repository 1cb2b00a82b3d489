import Verif.Proof.ClusterBasis6
import Verif.Spec.H2Matrix

set_option linter.unusedSectionVars false

namespace H2
open Spec Dense

namespace CBas
variable {G : Type _} {K : Type _} [Field K] [StarRing K]

theorem synth_add {m : Mem K} : ∀ {cb : CBas G} (Y Z : Nat → K) (r : Nat),
    synth m cb (fun q => Y q + Z q) r = synth m cb Y r + synth m cb Z r := by
  intro cb
  induction cb with
  | mk t k kt kb V E n son ih =>
    intro Y Z r
    rw [synth, synth, synth]
    by_cases hr : In t r
    · rw [if_pos hr, if_pos hr, if_pos hr]
      simp only [ih, Finset.sum_add_distrib, mul_add]
      by_cases h0 : n = 0
      · simp only [if_pos h0]; ring
      · simp only [if_neg h0]; ring
    · rw [if_neg hr, if_neg hr, if_neg hr, add_zero]

theorem synth_null {m : Mem K} : ∀ {cb : CBas G} (r : Nat), synth m cb (fun _ => (0 : K)) r = 0 := by
  intro cb
  induction cb with
  | mk t k kt kb V E n son ih =>
    intro r
    rw [synth]
    simp [ih]

theorem synth_zero {m : Mem K} {cb : CBas G} (ho : CbOk cb) {Y : Nat → K} (h : ∀ q < cb.ktree, Y q = 0) (r : Nat) :
    synth m cb Y r = 0 := by rw [synth_y (Y := fun _ => 0) ho h r, synth_null]

/-! ### bases of the sons of a block -/

/-- where the coefficients of the `i`-th son begin -/
def sonOfs (cb : CBas G) {n : Nat} (f : Fin n → CBas G) (i : Fin n) : Nat :=
  if 0 < cb.sons then cb.k + ofs (fun i => (f i).ktree) i else 0

/-- the running offset of the loops -/
def runOfs (cb : CBas G) {n : Nat} (f : Fin n → CBas G) (j : Nat) : Nat :=
  cb.k + if 0 < cb.sons then pre (fun i => (f i).ktree) j else j * cb.t.cl.size

theorem openSon_eq {cb : CBas G} {n : Nat} {f : Fin n → CBas G} (hs : SonBases cb f) (ho : CbOk cb) {v : Vec}
    (hv : v.dim = cb.ktree) (i : Fin n) : ∃ v1, initSubVec v (f i).ktree (sonOfs cb f i) = .ok v1 ∧
      ∀ s : VSt K, H2Mat.openSon cb v i.1 (runOfs cb f i.1) s = .ok (v1, ⟨s.mem, s.act + 1⟩) := by
  cases cb with
  | mk t k kt kb V E ns son =>
    replace hv : v.dim = kt := hv
    by_cases h0 : 0 < ns
    · obtain ⟨e, he⟩ := hs.1 h0
      replace e : n = ns := e
      subst e
      have he : ∀ i, f i = son i := he
      have hf : f = son := funext he
      subst hf
      have hle := segs_le (fun i => (f i).ktree) i
      obtain ⟨g1, g2⟩ := ho.2.1 h0
      have eo : sonOfs (.mk t k kt kb V E n f) f i = k + ofs (fun i => (f i).ktree) i := if_pos h0
      have er : runOfs (.mk t k kt kb V E n f) f i.1 = k + ofs (fun i => (f i).ktree) i := by
        unfold runOfs
        rw [if_pos (show 0 < (CBas.mk t k kt kb V E n f).sons from h0)]; rfl
      obtain ⟨v1, hv1⟩ : ∃ v1, initSubVec v (f i).ktree (k + ofs (fun i => (f i).ktree) i) = .ok v1 :=
        ⟨_, initSubVec_ok.mpr ⟨by omega, rfl⟩⟩
      rw [eo, er]
      refine ⟨v1, hv1, fun s => ?_⟩
      unfold H2Mat.openSon
      rw [if_pos (show 0 < (CBas.mk t k kt kb V E n f).sons from h0),
        dif_pos (show i.1 < (CBas.mk t k kt kb V E n f).sons from i.2)]
      exact VSt.openSub_eq hv1 s
    · have hz : ns = 0 := by omega
      obtain ⟨e, he⟩ := hs.2 hz
      have eo : sonOfs (.mk t k kt kb V E ns son) f i = 0 := if_neg h0
      rw [eo, he i]
      obtain ⟨v1, hv1⟩ : ∃ v1, initSubVec v kt 0 = .ok v1 := ⟨_, initSubVec_ok.mpr ⟨by omega, rfl⟩⟩
      refine ⟨v1, hv1, fun s => ?_⟩
      unfold H2Mat.openSon
      rw [if_neg (show ¬ 0 < (CBas.mk t k kt kb V E ns son).sons from h0)]
      exact VSt.openSub_eq hv1 s

theorem nextOff_eq {cb : CBas G} {n : Nat} {f : Fin n → CBas G} (hs : SonBases cb f) (i : Fin n) :
    H2Mat.nextOff cb i.1 (runOfs cb f i.1) = .ok (runOfs cb f (i.1 + 1)) := by
  cases cb with
  | mk t k kt kb V E ns son =>
    by_cases h0 : 0 < ns
    · obtain ⟨e, he⟩ := hs.1 h0
      replace e : n = ns := e
      subst e
      have he : ∀ i, f i = son i := he
      have hf : f = son := funext he
      subst hf
      unfold H2Mat.nextOff runOfs
      rw [if_pos (show 0 < (CBas.mk t k kt kb V E n f).sons from h0),
        dif_pos (show i.1 < (CBas.mk t k kt kb V E n f).sons from i.2),
        if_pos (show 0 < (CBas.mk t k kt kb V E n f).sons from h0),
        if_pos (show 0 < (CBas.mk t k kt kb V E n f).sons from h0), pre_succ, ← Nat.add_assoc]
      rfl
    · unfold H2Mat.nextOff runOfs
      rw [if_neg (show ¬ 0 < (CBas.mk t k kt kb V E ns son).sons from h0),
        if_neg (show ¬ 0 < (CBas.mk t k kt kb V E ns son).sons from h0),
        if_neg (show ¬ 0 < (CBas.mk t k kt kb V E ns son).sons from h0), Nat.succ_mul, ← Nat.add_assoc]

theorem runOfs_zero {cb : CBas G} {n : Nat} {f : Fin n → CBas G} : runOfs cb f 0 = cb.k := by
  unfold runOfs
  split <;> simp [pre_zero]

theorem runOfs_end {cb : CBas G} {n : Nat} {f : Fin n → CBas G} (hs : SonBases cb f) (ho : CbOk cb) :
    runOfs cb f n = cb.ktree := by
  cases cb with
  | mk t k kt kb V E ns son =>
    by_cases h0 : 0 < ns
    · obtain ⟨e, he⟩ := hs.1 h0
      replace e : n = ns := e
      subst e
      have he : ∀ i, f i = son i := he
      have hf : f = son := funext he
      subst hf
      unfold runOfs
      rw [if_pos (show 0 < (CBas.mk t k kt kb V E n f).sons from h0), pre_all]
      exact (ho.2.1 h0).2.symm
    · have hz : ns = 0 := by omega
      obtain ⟨e, -⟩ := hs.2 hz
      unfold runOfs
      rw [if_neg (show ¬ 0 < (CBas.mk t k kt kb V E ns son).sons from h0), e, Nat.one_mul]
      exact (ho.1 hz).2.2.symm

theorem sonBases_assert {cb : CBas G} {n : Nat} {f : Fin n → CBas G} (hs : SonBases cb f) : n = 1 ∨ 0 < cb.sons := by
  by_cases h : 0 < cb.sons
  · exact .inr h
  · exact .inl (hs.2 (by omega)).1

/-- facts about a son basis -/
theorem sonBases_son {cb : CBas G} {n : Nat} {f : Fin n → CBas G} (hs : SonBases cb f) (ho : CbOk cb) (i : Fin n) :
    CbOk (f i) ∧ (∀ r, In (f i).t r → In cb.t r) ∧
    (∀ (m : Mem K) (g : Nat → K) r, In cb.t r → synth m cb (fun q => if sonOfs cb f i ≤ q ∧
      q < sonOfs cb f i + (f i).ktree then g (q - sonOfs cb f i) else 0) r = synth m (f i) g r) ∧
    ∀ (m : Mem K) (X Y : Nat → K), IsCoeffs m cb X Y → IsCoeffs m (f i) X (fun q => Y (sonOfs cb f i + q)) := by
  cases cb with
  | mk t k kt kb V E ns son =>
    by_cases h0 : 0 < ns
    · obtain ⟨e, he⟩ := hs.1 h0
      replace e : n = ns := e
      subst e
      have he : ∀ i, f i = son i := he
      have hf : f = son := funext he
      subst hf
      have eo : sonOfs (.mk t k kt kb V E n f) f i = k + ofs (fun i => (f i).ktree) i := if_pos h0
      obtain ⟨g1, g2⟩ := ho.2.1 h0
      refine ⟨(ho.2.2 i).2.2, fun r hr => In.son g1 hr, ?_, ?_⟩
      · intro m g r hr
        replace hr : In t r := hr
        rw [eo, synth, if_pos hr, if_neg (by omega), add_zero, Finset.sum_eq_zero (s := Finset.range k), zero_add,
          Finset.sum_eq_single i]
        · refine synth_y (ho.2.2 i).2.2 (fun q hq => ?_) r
          rw [if_pos (by omega), Nat.add_sub_cancel_left]
        · intro j _ hj
          refine synth_zero (ho.2.2 j).2.2 (fun q hq => if_neg ?_) r
          have : j.1 ≠ i.1 := fun h => hj (Fin.ext h)
          rcases Nat.lt_or_gt_of_ne this with h | h
          · have := ofs_mono (fun i => (f i).ktree) h; omega
          · have := ofs_mono (fun i => (f i).ktree) h; omega
        · intro h; exact absurd (Finset.mem_univ _) h
        · intro q hq
          rw [if_neg (by have := Finset.mem_range.mp hq; omega), mul_zero]
      · rintro m X Y ⟨-, -, h3⟩
        rw [eo]
        exact h3 i
    · have hz : ns = 0 := by omega
      obtain ⟨e, he⟩ := hs.2 hz
      have eo : sonOfs (.mk t k kt kb V E ns son) f i = 0 := if_neg h0
      rw [eo, he i]
      refine ⟨ho, fun r hr => hr, ?_, ?_⟩
      · intro m g r _
        refine synth_y ho (fun q hq => ?_) r
        rw [if_pos (by omega), Nat.sub_zero]
      · intro m X Y h
        simpa using h

end CBas

namespace H2Mat
open VSt CBas
variable {G : Type _} {K : Type} [Field K] [StarRing K]

theorem sum_in {M : Type _} [AddCommMonoid M] {t t' : CRef G} (h : ∀ r, In t' r → In t r) (F : Nat → M)
    (hF : ∀ r, ¬ In t' r → F r = 0) :
    ∑ i ∈ Finset.range t'.cl.size, F (t'.cl.off + i) = ∑ i ∈ Finset.range t.cl.size, F (t.cl.off + i) := by
  have key : ∀ u : CRef G, ∑ i ∈ Finset.range u.cl.size, F (u.cl.off + i) = ∑ r ∈ Finset.Ico u.cl.off (u.cl.off + u.cl.size), F r := by
    intro u
    rw [Finset.sum_Ico_eq_sum_range, Nat.add_sub_cancel_left]
  rw [key, key]
  refine Finset.sum_subset (fun r hr => ?_) (fun r _ hr => hF r fun h => hr ?_)
  · rw [Finset.mem_Ico] at hr ⊢; exact h r hr
  · rw [Finset.mem_Ico]; exact h

theorem place_zero {m : Mem K} : ∀ {h : H2Mat G}, H2Ok h → CbOk h.rb → CbOk h.cb → ∀ {r c : Nat},
    (¬ In h.rb.t r ∨ ¬ In h.cb.t c) → h2place m h r c = 0 := by
  intro h
  induction h with
  | zero rb cb => intros; rw [h2place]
  | uni rb cb S =>
    intro _ hr hc r c hn
    replace hr : CbOk rb := hr
    replace hc : CbOk cb := hc
    replace hn : ¬ In rb.t r ∨ ¬ In cb.t c := hn
    rw [h2place]
    refine Finset.sum_eq_zero fun a _ => Finset.sum_eq_zero fun b _ => ?_
    rcases hn with hn | hn
    · rw [basis_zero hr a hn, zero_mul, zero_mul]
    · rw [basis_zero hc b hn, star_zero, mul_zero]
  | full rb cb f =>
    intro _ hr hc r c hn
    rw [h2place, if_neg]
    rintro ⟨h1, h2⟩
    exact hn.elim (fun h => h h1) (fun h => h h2)
  | super rb cb rs cs son ih =>
    rintro ⟨⟨R, C, hRC, hR, hC⟩, hs⟩ hr hc r c hn
    replace hr : CbOk rb := hr
    replace hc : CbOk cb := hc
    replace hn : ¬ In rb.t r ∨ ¬ In cb.t c := hn
    rw [h2place]
    refine Finset.sum_eq_zero fun i _ => Finset.sum_eq_zero fun j _ => ?_
    obtain ⟨r1, r2, -, -⟩ := sonBases_son (K := K) hR hr i
    obtain ⟨c1, c2, -, -⟩ := sonBases_son (K := K) hC hc j
    obtain ⟨e1, e2⟩ := hRC i j
    refine ih i j (hs i j) (e1 ▸ r1) (e2 ▸ c1) ?_
    rw [e1, e2]
    exact hn.imp (fun h h' => h (r2 r h')) (fun h h' => h (c2 c h'))

/-- `sum over c of place r c * X c` -/
noncomputable def rowSum (m : Mem K) (h : H2Mat G) (cb : CBas G) (X : Nat → K) (r : Nat) : K :=
  ∑ i ∈ Finset.range cb.t.cl.size, h2place m h r (cb.t.cl.off + i) * X (cb.t.cl.off + i)

/-- what `fastaddeval` achieves: `m0` is the memory in which the matrices are read -/
def FastPost (m0 : Mem K) (alpha : K) (h : H2Mat G) (X : Nat → K) (yt : Vec) (s s' : VSt K) : Prop :=
  s'.act = s.act ∧ ∃ g, VAdd yt s.mem g s'.mem ∧ ∀ r, In h.rb.t r → synth m0 h.rb g r = alpha * rowSum m0 h h.cb X r

theorem fastaddeval_tot {S : Nat → Prop} {m0 : Mem K} {alpha : K} : ∀ {h : H2Mat G} {xt yt : Vec} {s : VSt K} {X : Nat → K},
    H2Ok h → CbOk h.rb → CbOk h.cb → H2Valid m0 h → Disj (H2Cell h) S → xt.Valid m0 → Disj xt.Cell S →
    xt.dim = h.cb.ktree → yt.dim = h.rb.ktree → (∀ c, yt.Cell c → S c) → Frame S m0 s.mem → yt.Valid s.mem →
    IsCoeffs m0 h.cb X (xt.val m0) → Tot (fastaddeval alpha h xt yt s) (FastPost m0 alpha h X yt s) := by
  intro h
  induction h with
  | zero rb cb =>
    rintro xt yt ⟨m, a⟩ X - hr hc - - - - - - - - hy -
    unfold fastaddeval
    refine Tot.pure ⟨rfl, _, VAdd.refl hy, fun r _ => ?_⟩
    rw [synth_null]
    unfold rowSum
    simp [h2place]
  | uni rb cb S' =>
    rintro xt yt ⟨m, a⟩ X ⟨o1, o2⟩ hr hc hv hd hx hxd hxk hyk hyS hf hy hX
    simp only at hf hy
    replace hr : CbOk rb := hr
    replace hc : CbOk cb := hc
    replace hxk : xt.dim = cb.ktree := hxk
    replace hyk : yt.dim = rb.ktree := hyk
    unfold fastaddeval
    have hkr := k_le_ktree hr
    have hkc := k_le_ktree hc
    refine (run_tot (addeval_tot (Rk.frame_valid hf hd hv) (Rk.frame_vvalid hf hxd hx) hy
      (fun c h1 h2 => hd c h1 (hyS c h2)) (fun c h1 h2 => hxd c h1 (hyS c h2)) (by omega) (by omega) alpha)).mono ?_
    rintro ⟨m', a'⟩ ⟨ha, q1, q2, q3⟩
    simp only at ha q1 q2 q3
    subst ha
    refine ⟨rfl, fun i => if i < rb.k then alpha * ∑ j ∈ Finset.range cb.k, S'.val m0 i j * xt.val m0 j else 0,
      ⟨q1, fun i hi => ?_, q3⟩, fun r hr' => ?_⟩
    · simp only
      rw [q2 i hi, o1]
      by_cases h : i < rb.k
      · rw [if_pos h, if_pos h, o2]
        congr 2
        refine Finset.sum_congr rfl fun j hj => ?_
        have hj := Finset.mem_range.mp hj
        rw [Rk.frame_val hf hd (by omega) (by omega), Rk.frame_vval hf hxd (by omega)]
      · rw [if_neg h, if_neg h, add_zero]
    · replace hr' : In rb.t r := hr'
      show synth m0 rb _ r = alpha * rowSum m0 (uni rb cb S') cb X r
      rw [synth_head (Y := fun _ => 0) (D := fun i => alpha * ∑ j ∈ Finset.range cb.k, S'.val m0 i j * xt.val m0 j) hr
        (fun nu hnu => by rw [if_pos hnu, zero_add]) (fun q h1 h2 => if_neg (by omega)) hr', synth_null, zero_add]
      unfold rowSum
      simp only [h2place]
      have e : ∀ j ∈ Finset.range cb.k, xt.val m0 j = ∑ i ∈ Finset.range cb.t.cl.size,
          star (basis m0 cb (cb.t.cl.off + i) j) * X (cb.t.cl.off + i) := by
        intro j hj
        cases cb with
        | mk t k kt kb V E n son => exact hX.1 j (Finset.mem_range.mp hj)
      calc _ = alpha * ∑ nu ∈ Finset.range rb.k, ∑ j ∈ Finset.range cb.k, ∑ i ∈ Finset.range cb.t.cl.size,
            basis m0 rb r nu * S'.val m0 nu j * star (basis m0 cb (cb.t.cl.off + i) j) * X (cb.t.cl.off + i) := by
            rw [Finset.mul_sum]
            refine Finset.sum_congr rfl fun nu _ => ?_
            rw [mul_left_comm, Finset.mul_sum]
            congr 1
            refine Finset.sum_congr rfl fun j hj => ?_
            rw [e j hj, Finset.mul_sum, Finset.mul_sum]
            exact Finset.sum_congr rfl fun i _ => by ring
        _ = _ := by
            congr 1
            simp only [Finset.sum_mul]
            rw [Finset.sum_congr rfl fun nu _ => Finset.sum_comm, Finset.sum_comm]
  | full rb cb f =>
    rintro xt yt ⟨m, a⟩ X ⟨o1, o2, o3, o4⟩ hr hc hv hd hx hxd hxk hyk hyS hf hy hX
    simp only at hf hy
    cases rb with
    | mk t k kt kb V E n son =>
    cases cb with
    | mk t' k' kt' kb' V' E' n' son' =>
    replace o1 : n = 0 := o1
    replace o2 : n' = 0 := o2
    subst o1 o2
    replace o3 : f.rows = t.cl.size := o3
    replace o4 : f.cols = t'.cl.size := o4
    replace hxk : xt.dim = kt' := hxk
    replace hyk : yt.dim = kt := hyk
    have e1 := (hr.1 rfl).2.2
    have e2 := (hc.1 rfl).2.2
    unfold fastaddeval
    obtain ⟨xp, exp⟩ : ∃ xp, initSubVec xt t'.cl.size k' = .ok xp := ⟨_, initSubVec_ok.mpr ⟨by omega, rfl⟩⟩
    obtain ⟨yp, eyp⟩ : ∃ yp, initSubVec yt t.cl.size k = .ok yp := ⟨_, initSubVec_ok.mpr ⟨by omega, rfl⟩⟩
    simp only [CBas.t, CBas.k]
    rw [openSub_eq exp, ok_bind]
    simp only
    rw [openSub_eq eyp, ok_bind]
    simp only
    refine Tot.bind (run_tot (addeval_tot (Rk.frame_valid hf hd hv) (sub_valid exp (Rk.frame_vvalid hf hxd hx))
      (sub_valid eyp hy) (fun c h1 h2 => hd c h1 (hyS c (sub_cell eyp h2)))
      (fun c h1 h2 => hxd c (sub_cell exp h1) (hyS c (sub_cell eyp h2))) (by rw [sub_dim exp]; omega)
      (by rw [sub_dim eyp]; omega) alpha)) ?_
    rintro ⟨m', a'⟩ - ⟨ha, q1, q2, q3⟩
    simp only at ha q1 q2 q3
    subst ha
    rw [uninit_eq, ok_bind, uninit_eq]
    have va : VAdd yp m (fun i => alpha * ∑ j ∈ Finset.range t'.cl.size, f.val m0 i j * xt.val m0 (k' + j)) m' := by
      refine ⟨q1, fun i hi => ?_, q3⟩
      have hi' : i < t.cl.size := by rw [sub_dim eyp] at hi; exact hi
      simp only
      rw [q2 i hi, if_pos (by omega), o4]
      congr 2
      refine Finset.sum_congr rfl fun j hj => ?_
      have hj := Finset.mem_range.mp hj
      rw [Rk.frame_val hf hd (by omega) (by omega), sub_val exp, Rk.frame_vval hf hxd (by omega)]
    refine ⟨_, rfl, rfl, _, VAdd.sub eyp hy va, fun r hr' => ?_⟩
    replace hr' : In t r := hr'
    obtain ⟨i, hi, rfl⟩ : ∃ i, i < t.cl.size ∧ r = t.cl.off + i := ⟨r - t.cl.off, by unfold In at hr'; omega, by
      unfold In at hr'; omega⟩
    show synth m0 (.mk t k kt kb V E 0 son) _ _ = alpha * rowSum m0 (full (.mk t k kt kb V E 0 son)
      (.mk t' k' kt' kb' V' E' 0 son') f) (.mk t' k' kt' kb' V' E' 0 son') X (t.cl.off + i)
    rw [synth_leaf _ hi, Finset.sum_eq_zero, zero_add, if_pos (by omega), Nat.add_sub_cancel_left]
    · congr 1
      unfold rowSum
      refine Finset.sum_congr rfl fun j hj => ?_
      have hj := Finset.mem_range.mp hj
      rw [h2place, hX.2.1 rfl j hj, if_pos ⟨In.add hi, In.add hj⟩]
      simp only [CBas.t, Nat.add_sub_cancel_left]
    · intro l hl
      rw [if_neg (by have := Finset.mem_range.mp hl; omega), mul_zero]
  | super rb cb rs cs son ih =>
    rintro xt yt ⟨m, a⟩ X ⟨⟨R, C, hRC, hR, hC⟩, hs⟩ hr hc hv hd hx hxd hxk hyk hyS hf hy hX
    replace hr : CbOk rb := hr
    replace hc : CbOk cb := hc
    replace hxk : xt.dim = cb.ktree := hxk
    replace hyk : yt.dim = rb.ktree := hyk
    replace hX : IsCoeffs m0 cb X (xt.val m0) := hX
    simp only at hf hy
    unfold fastaddeval
    refine Tot.bind (foldFinM_tot (fun j (st : VSt K × Nat) => st.1.act = a ∧ st.2 = runOfs cb C j ∧
      ∃ g, VAdd yt m g st.1.mem ∧ ∀ r, In rb.t r → synth m0 rb g r =
        alpha * pre (fun j => ∑ i, rowSum m0 (son i j) cb X r) j) ?_ ?_) ?_
    · exact ⟨rfl, runOfs_zero.symm, _, VAdd.refl hy, fun r _ => by rw [synth_null, pre_zero, mul_zero]⟩
    · rintro j ⟨⟨m2, a2⟩, o⟩ ⟨ha, ho, g, hg, hgs⟩
      simp only at ha ho hg hgs
      subst ha ho
      simp only
      refine Tot.cassert (by simpa using sonBases_assert hC) ?_
      obtain ⟨x1, ex1, ex2⟩ := openSon_eq (K := K) hC hc hxk j
      obtain ⟨c1, c2, -, c4⟩ := sonBases_son (K := K) hC hc j
      rw [ex2, ok_bind]
      simp only
      refine Tot.bind (foldFinM_tot (fun i (st : VSt K × Nat) => st.1.act = a2 + 1 ∧ st.2 = runOfs rb R i ∧
        ∃ g, VAdd yt m g st.1.mem ∧ ∀ r, In rb.t r → synth m0 rb g r =
          alpha * (pre (fun j => ∑ i, rowSum m0 (son i j) cb X r) j.1 +
            pre (fun i => rowSum m0 (son i j) cb X r) i)) ?_ ?_) ?_
      · exact ⟨rfl, runOfs_zero.symm, g, hg, fun r hr' => by rw [pre_zero, add_zero]; exact hgs r hr'⟩
      · rintro i ⟨⟨m3, a3⟩, o⟩ ⟨ha, ho, g', hg', hgs'⟩
        simp only at ha ho hg' hgs'
        subst ha ho
        simp only
        refine Tot.cassert (by simpa using sonBases_assert hR) ?_
        obtain ⟨y1, ey1, ey2⟩ := openSon_eq (K := K) hR hr hyk i
        obtain ⟨r1, r2, r3, -⟩ := sonBases_son (K := K) hR hr i
        rw [ey2, ok_bind]
        simp only
        obtain ⟨e1, e2⟩ := hRC i j
        have hf3 : Frame S m0 m3 := hf.trans (Frame.mono hg'.2.2 hyS)
        have hi := ih i j (xt := x1) (yt := y1) (s := ⟨m3, a2 + 1 + 1⟩) (X := X) (hs i j) (by rw [e1]; exact r1)
          (by rw [e2]; exact c1) (hv i j) (fun c h => hd c ⟨i, j, h⟩) (sub_valid ex1 hx)
          (fun c h => hxd c (sub_cell ex1 h)) (by rw [e2, sub_dim ex1]) (by rw [e1, sub_dim ey1])
          (fun c h => hyS c (sub_cell ey1 h)) hf3 (sub_valid ey1 hg'.1)
          (by rw [e2]
              refine isCoeffs_y c1 (fun _ _ => rfl) (fun q _ => ?_) (c4 m0 X (xt.val m0) hX)
              rw [sub_val ex1])
        refine Tot.bind hi ?_
        rintro ⟨m4, a4⟩ - ⟨ha, g1, hg1, hgs1⟩
        simp only at ha hg1 hgs1
        subst ha
        rw [uninit_eq, ok_bind, nextOff_eq hR, ok_bind]
        refine Tot.pure ⟨rfl, rfl, _, hg'.trans (VAdd.sub ey1 hg'.1 hg1), fun r hr' => ?_⟩
        have hz : ∀ c, ¬ In (C j).t c → h2place m0 (son i j) r c * X c = 0 := fun c hc' => by
          rw [place_zero (hs i j) (by rw [e1]; exact r1) (by rw [e2]; exact c1) (.inr (by rw [e2]; exact hc')), zero_mul]
        have hsum : rowSum m0 (son i j) (C j) X r = rowSum m0 (son i j) cb X r :=
          sum_in c2 (fun c => h2place m0 (son i j) r c * X c) hz
        have key : synth m0 (R i) g1 r = alpha * rowSum m0 (son i j) cb X r := by
          by_cases hin : In (R i).t r
          · rw [e1, e2] at hgs1
            rw [hgs1 r hin, hsum]
          · rw [synth_out hin]
            unfold rowSum
            rw [Finset.sum_eq_zero, mul_zero]
            intro c _
            rw [place_zero (hs i j) (by rw [e1]; exact r1) (by rw [e2]; exact c1) (.inl (by rw [e1]; exact hin)), zero_mul]
        rw [synth_add, hgs' r hr', r3 m0 g1 r hr', pre_succ, key]
        ring
      · rintro ⟨⟨m3, a3⟩, o⟩ - ⟨ha, ho, g', hg', hgs'⟩
        simp only at ha ho hg' hgs'
        subst ha ho
        simp only
        refine Tot.cassert (by simpa using runOfs_end hR hr) ?_
        rw [uninit_eq, ok_bind, nextOff_eq hC, ok_bind]
        refine Tot.pure ⟨rfl, rfl, g', hg', fun r hr' => ?_⟩
        rw [hgs' r hr', pre_all, pre_succ]
    · rintro ⟨⟨m2, a2⟩, o⟩ - ⟨ha, ho, g, hg, hgs⟩
      simp only at ha ho hg hgs
      subst ha ho
      simp only
      refine Tot.cassert (by simpa using runOfs_end hC hc) ?_
      refine Tot.pure ⟨rfl, g, hg, fun r hr' => ?_⟩
      show synth m0 rb g r = alpha * rowSum m0 (super rb cb rs cs son) cb X r
      rw [hgs r hr', pre_all]
      congr 1
      unfold rowSum
      simp only [h2place, Finset.sum_mul]
      rw [Finset.sum_comm, Finset.sum_comm (s := Finset.range _)]
      refine Finset.sum_congr rfl fun i _ => ?_
      rw [Finset.sum_comm]

end H2Mat
end H2
