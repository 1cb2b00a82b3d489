import Verif.Model.ClusterBuild
import Verif.Spec.ClusterBuild
import Verif.Proof.Cluster
import Mathlib.Logic.Equiv.Basic
import Mathlib.Tactic.Linarith

set_option linter.unusedSectionVars false

namespace H2.CB
open H2 Spec
variable {K : Type _} [Field K] [LinearOrder K]

/-! ### rearrangements of segments -/

theorem _root_.H2.Spec.SegRearranged.refl {α : Type _} (off n : Nat) (a : Nat → α) : SegRearranged off n a a :=
  ⟨Equiv.refl _, fun _ _ => rfl, fun _ => rfl⟩

theorem _root_.H2.Spec.SegRearranged.trans {α : Type _} {off n : Nat} {a b c : Nat → α} (h1 : SegRearranged off n a b)
    (h2 : SegRearranged off n b c) : SegRearranged off n a c := by
  obtain ⟨s, hs, es⟩ := h1
  obtain ⟨t, ht, et⟩ := h2
  refine ⟨t.trans s, fun i hi => ?_, fun i => ?_⟩
  · simp [ht i hi, hs i hi]
  · simp [et, es]

theorem _root_.H2.Spec.SegRearranged.mono {α : Type _} {off n off' n' : Nat} {a b : Nat → α} (h : SegRearranged off n a b)
    (h1 : off' ≤ off) (h2 : off + n ≤ off' + n') : SegRearranged off' n' a b := by
  obtain ⟨s, hs, es⟩ := h
  exact ⟨s, fun i hi => hs i (by omega), es⟩

theorem _root_.H2.Spec.SegRearranged.outside {α : Type _} {off n : Nat} {a b : Nat → α} (h : SegRearranged off n a b) {i : Nat}
    (hi : ¬ (off ≤ i ∧ i < off + n)) : b i = a i := by
  obtain ⟨s, hs, es⟩ := h
  rw [es, hs i hi]

theorem _root_.H2.Spec.SegRearranged.inside {α : Type _} {off n : Nat} {a b : Nat → α} (h : SegRearranged off n a b) {i : Nat}
    (hi : i < n) : ∃ k < n, b (off + i) = a (off + k) := by
  obtain ⟨s, hs, es⟩ := h
  have h1 : off ≤ s (off + i) ∧ s (off + i) < off + n := by
    by_contra hc
    have h2 := s.injective (hs _ hc)
    omega
  exact ⟨s (off + i) - off, by omega, by rw [es]; congr 1; omega⟩

theorem _root_.H2.Spec.SegRearranged.symm {α : Type _} {off n : Nat} {a b : Nat → α} (h : SegRearranged off n a b) :
    SegRearranged off n b a := by
  obtain ⟨s, hs, es⟩ := h
  refine ⟨s.symm, fun i hi => ?_, fun i => ?_⟩
  · rw [Equiv.symm_apply_eq]; exact (hs i hi).symm
  · rw [es]; simp

theorem _root_.H2.Spec.SegRearranged.swap {off n i k : Nat} (a : Nat → Nat) (hi : off ≤ i ∧ i < off + n)
    (hk : off ≤ k ∧ k < off + n) : SegRearranged off n a (swapIdx a i k) := by
  refine ⟨Equiv.swap i k, fun m hm => Equiv.swap_apply_of_ne_of_ne ?_ ?_, fun m => ?_⟩
  · rintro rfl; exact hm hi
  · rintro rfl; exact hm hk
  · unfold swapIdx
    by_cases h1 : m = k
    · subst h1; simp
    · by_cases h2 : m = i
      · subst h2; simp [h1]
      · simp [h1, h2, Equiv.swap_apply_of_ne_of_ne]

/-! ### the partition loop -/

structure SplitOK (p : Nat → Bool) (off n : Nat) (a : Nat → Nat) (r : (Nat → Nat) × Nat × Nat)
    (size : Nat) : Prop where
  perm : SegRearranged off size a r.1
  sum : r.2.1 + r.2.2 = n
  front : ∀ i < r.2.1, p (r.1 (off + i)) = true
  back : ∀ i, r.2.1 ≤ i → i < n → p (r.1 (off + i)) = false
  rest : ∀ i, n ≤ i → r.1 (off + i) = a (off + i)

theorem splitLoop_ok (p : Nat → Bool) (off size : Nat) (a : Nat → Nat) :
    SplitOK p off size a (splitLoop p off size a) size := by
  unfold splitLoop
  refine forT_inv (I := fun n r => SplitOK p off n a r size) (Nat.zero_le _) ?_ ?_
  · exact ⟨SegRearranged.refl _ _ _, rfl, fun i h => absurd h (Nat.not_lt_zero _),
      fun i _ h => absurd h (Nat.not_lt_zero _), fun _ _ => rfl⟩
  · rintro k ⟨b, s0, s1⟩ - hk ⟨h1, h2, h3, h4, h5⟩
    simp only at h1 h2 h3 h4 h5 ⊢
    split
    · rename_i hp
      refine ⟨h1.trans (SegRearranged.swap b ⟨by omega, by omega⟩ ⟨by omega, by omega⟩), by simp only; omega, ?_, ?_, ?_⟩
      · intro i hi
        simp only [swapIdx] at hi ⊢
        by_cases h6 : i = s0
        · subst h6; simpa using hp
        · rw [if_neg (by omega), if_neg (by omega)]; exact h3 i (by omega)
      · intro i hi1 hi2
        simp only [swapIdx] at hi1 ⊢
        rw [if_neg (by omega)]
        split
        · exact h4 s0 (le_refl _) (by omega)
        · exact h4 i (by omega) (by omega)
      · intro i hi
        simp only [swapIdx]
        rw [if_neg (by omega), if_neg (by omega)]; exact h5 i (by omega)
    · rename_i hp
      refine ⟨h1, by simp only; omega, h3, ?_, fun i hi => h5 i (by omega)⟩
      intro i hi1 hi2
      by_cases h6 : i = k
      · subst h6; simpa using hp
      · exact h4 i hi1 (by omega)

/-! ### running minima and maxima -/

omit [Field K] in
theorem runMin_spec (f : Nat → K) {n : Nat} (hn : 0 < n) :
    (∀ i < n, runMin f n ≤ f i) ∧ ∃ i < n, runMin f n = f i := by
  unfold runMin
  refine forT_inv (I := fun n b => (∀ i < n, b ≤ f i) ∧ ∃ i < n, b = f i) hn ?_ ?_
  · exact ⟨fun i hi => by rw [Nat.lt_one_iff.1 hi], 0, Nat.one_pos, rfl⟩
  · rintro k b h0 hk ⟨h1, i, hi, rfl⟩
    split
    · rename_i hlt
      refine ⟨fun m hm => ?_, k, Nat.lt_succ_self k, rfl⟩
      by_cases h : m = k
      · rw [h]
      · exact le_trans hlt.le (h1 m (by omega))
    · rename_i hge
      refine ⟨fun m hm => ?_, i, by omega, rfl⟩
      by_cases h : m = k
      · rw [h]; exact not_lt.1 hge
      · exact h1 m (by omega)

omit [Field K] in
theorem runMax_spec (f : Nat → K) {n : Nat} (hn : 0 < n) :
    (∀ i < n, f i ≤ runMax f n) ∧ ∃ i < n, runMax f n = f i := by
  unfold runMax
  refine forT_inv (I := fun n b => (∀ i < n, f i ≤ b) ∧ ∃ i < n, b = f i) hn ?_ ?_
  · exact ⟨fun i hi => by rw [Nat.lt_one_iff.1 hi], 0, Nat.one_pos, rfl⟩
  · rintro k b h0 hk ⟨h1, i, hi, rfl⟩
    split
    · rename_i hlt
      refine ⟨fun m hm => ?_, k, Nat.lt_succ_self k, rfl⟩
      by_cases h : m = k
      · rw [h]
      · exact le_trans (h1 m (by omega)) hlt.le
    · rename_i hge
      refine ⟨fun m hm => ?_, i, by omega, rfl⟩
      by_cases h : m = k
      · rw [h]; exact not_lt.1 hge
      · exact h1 m (by omega)

/-! ### results of builders -/

/-- what a successful build guarantees -/
structure Good (g : Geom K) (a a' : Nat → Nat) (off size : Nat) (t : Cluster K) : Prop where
  perm : SegRearranged off size a a'
  toff : t.off = off
  tsize : t.size = size
  pos : 0 < size
  cons : Consistent t
  desc : DescExact t
  box : ∀ s ∈ nodes t, BoxTight g.smin g.smax g.dim a' s

theorem nodes_inside (t : Cluster K) (h : Consistent t) (hp : 0 < t.size) :
    ∀ s ∈ nodes t, t.off ≤ s.off ∧ s.off + s.size ≤ t.off + t.size ∧ 0 < s.size := by
  induction t using Cluster.ind with
  | h i ss ih =>
    rw [forall_nodes_mk]
    refine ⟨⟨le_refl _, le_refl _, hp⟩, ?_⟩
    have h1 := (consistent_mk.1 h).1
    have h2 := (consistent_mk.1 h).2
    have key : ∀ (ss : List (Cluster K)) (a b : Nat), Tiles a ss b → ∀ s ∈ ss,
        a ≤ s.off ∧ s.off + s.size ≤ b ∧ 0 < s.size := by
      intro ss
      induction ss with
      | nil => simp
      | cons c cs ih2 =>
        intro a b ht s hs
        obtain ⟨e1, e2, e3⟩ := ht
        rcases List.mem_cons.1 hs with rfl | h'
        · have := tiles_le _ _ _ e3; omega
        · have := ih2 _ _ e3 s h'; omega
    intro s hs u hu
    have hne : ss ≠ [] := by rintro rfl; cases hs
    obtain ⟨k1, k2, k3⟩ := key ss _ _ (h1 hne) s hs
    obtain ⟨m1, m2, m3⟩ := ih s hs (h2 s hs) k3 u hu
    simp only [Cluster.off_mk, Cluster.size_mk]
    omega

omit [Field K] in
theorem boxTight_congr {smin smax : Nat → Nat → K} {dim : Nat} {a b : Nat → Nat} {t : Cluster K}
    (h : ∀ i < t.size, a (t.off + i) = b (t.off + i)) (hb : BoxTight smin smax dim a t) :
    BoxTight smin smax dim b t := by
  refine ⟨fun j hj i hi => ?_, fun j hj => ?_, fun j hj i hi => ?_, fun j hj => ?_⟩
  · rw [← h i hi]; exact hb.lo j hj i hi
  · obtain ⟨i, hi, e⟩ := hb.lo_attained j hj; exact ⟨i, hi, by rw [← h i hi]; exact e⟩
  · rw [← h i hi]; exact hb.hi j hj i hi
  · obtain ⟨i, hi, e⟩ := hb.hi_attained j hj; exact ⟨i, hi, by rw [← h i hi]; exact e⟩

theorem Good.box_congr {g : Geom K} {a a' b : Nat → Nat} {off size : Nat} {t : Cluster K}
    (h : Good g a a' off size t) (hb : ∀ i, off ≤ i → i < off + size → a' i = b i) :
    ∀ s ∈ nodes t, BoxTight g.smin g.smax g.dim b s := by
  intro s hs
  obtain ⟨h1, h2, h3⟩ := nodes_inside t h.cons (by rw [h.tsize]; exact h.pos) s hs
  rw [h.toff] at h1
  rw [h.toff, h.tsize] at h2
  exact boxTight_congr (fun i hi => hb _ (by omega) (by omega)) (h.box s hs)

theorem leaf_good (g : Geom K) (a : Nat → Nat) (off : Nat) {size : Nat} (hp : 0 < size) :
    Good g a a off size (leafCluster g a off size) := by
  unfold leafCluster Cluster.new
  refine ⟨SegRearranged.refl _ _ _, by simp, by simp, hp, ?_, ?_, ?_⟩
  · rw [update_consistent, consistent_mk]; simp
  · exact update_descExact (by simp)
  · unfold Cluster.update
    rw [forall_nodes_mk]
    refine ⟨?_, by simp⟩
    refine ⟨fun j _ i hi => ?_, fun j _ => ?_, fun j _ i hi => ?_, fun j _ => ?_⟩
    · exact (runMin_spec (fun i => g.smin (a (off + i)) j) hp).1 i hi
    · exact (runMin_spec (fun i => g.smin (a (off + i)) j) hp).2
    · exact (runMax_spec (fun i => g.smax (a (off + i)) j) hp).1 i hi
    · exact (runMax_spec (fun i => g.smax (a (off + i)) j) hp).2

/-- sons built one after the other, covering `off … fin` -/
inductive SonsGood (g : Geom K) : (Nat → Nat) → (Nat → Nat) → Nat → Nat → List (Cluster K) → Prop where
  | nil {a : Nat → Nat} {off : Nat} : SonsGood g a a off off []
  | cons {a b c : Nat → Nat} {off size fin : Nat} {s : Cluster K} {ss : List (Cluster K)} :
      Good g a b off size s → SonsGood g b c (off + size) fin ss → SonsGood g a c off fin (s :: ss)

theorem SonsGood.le {g : Geom K} {a b : Nat → Nat} {off fin : Nat} {ss : List (Cluster K)}
    (h : SonsGood g a b off fin ss) : off ≤ fin := by
  induction h with
  | nil => exact le_refl _
  | cons _ _ ih => omega

theorem SonsGood.perm {g : Geom K} {a b : Nat → Nat} {off fin : Nat} {ss : List (Cluster K)}
    (h : SonsGood g a b off fin ss) : SegRearranged off (fin - off) a b := by
  induction h with
  | nil => exact SegRearranged.refl _ _ _
  | cons h1 h2 ih =>
    have := h2.le
    exact (h1.perm.mono (le_refl _) (by omega)).trans (ih.mono (by omega) (by omega))

theorem SonsGood.facts {g : Geom K} {a b : Nat → Nat} {off fin : Nat} {ss : List (Cluster K)}
    (h : SonsGood g a b off fin ss) :
    Tiles off ss fin ∧ (∀ s ∈ ss, Consistent s ∧ DescExact s) ∧
    (∀ s ∈ ss, ∀ u ∈ nodes s, BoxTight g.smin g.smax g.dim b u) := by
  induction h with
  | nil => exact ⟨rfl, by simp, by simp⟩
  | @cons a b c off size fin s ss h1 h2 ih =>
    obtain ⟨i1, i2, i3⟩ := ih
    refine ⟨⟨h1.toff, by rw [h1.tsize]; exact h1.pos, by rw [h1.tsize]; exact i1⟩, ?_, ?_⟩
    · intro u hu
      rcases List.mem_cons.1 hu with rfl | h'
      · exact ⟨h1.cons, h1.desc⟩
      · exact i2 u h'
    · intro u hu
      rcases List.mem_cons.1 hu with rfl | h'
      · apply h1.box_congr
        intro i hi1 hi2
        exact (h2.perm.outside (by omega)).symm
      · exact i3 u h'

omit [Field K] in
theorem foldMin_spec (f : Cluster K → K) (ss : List (Cluster K)) : ∀ b0 : K,
    let r := ss.foldl (fun b c => if b < f c then b else f c) b0
    r ≤ b0 ∧ (∀ s ∈ ss, r ≤ f s) ∧ (r = b0 ∨ ∃ s ∈ ss, r = f s) := by
  induction ss with
  | nil => intro b0; simp
  | cons c cs ih =>
    intro b0
    simp only [List.foldl_cons]
    obtain ⟨h1, h2, h3⟩ := ih (if b0 < f c then b0 else f c)
    have hle0 : (if b0 < f c then b0 else f c) ≤ b0 := by
      split
      · exact le_refl _
      · rename_i h; exact not_lt.1 h
    have hle1 : (if b0 < f c then b0 else f c) ≤ f c := by
      split
      · rename_i h; exact h.le
      · exact le_refl _
    refine ⟨le_trans h1 hle0, ?_, ?_⟩
    · intro s hs
      rcases List.mem_cons.1 hs with rfl | h
      · exact le_trans h1 hle1
      · exact h2 s h
    · rcases h3 with h | ⟨s, hs, h⟩
      · rw [h]
        split
        · left; rfl
        · right; exact ⟨c, by simp, rfl⟩
      · right; exact ⟨s, by simp [hs], h⟩

omit [Field K] in
theorem foldMax_spec (f : Cluster K → K) (ss : List (Cluster K)) : ∀ b0 : K,
    let r := ss.foldl (fun b c => if b < f c then f c else b) b0
    b0 ≤ r ∧ (∀ s ∈ ss, f s ≤ r) ∧ (r = b0 ∨ ∃ s ∈ ss, r = f s) := by
  induction ss with
  | nil => intro b0; simp
  | cons c cs ih =>
    intro b0
    simp only [List.foldl_cons]
    obtain ⟨h1, h2, h3⟩ := ih (if b0 < f c then f c else b0)
    have hle0 : b0 ≤ (if b0 < f c then f c else b0) := by
      split
      · rename_i h; exact h.le
      · exact le_refl _
    have hle1 : f c ≤ (if b0 < f c then f c else b0) := by
      split
      · exact le_refl _
      · rename_i h; exact not_lt.1 h
    refine ⟨le_trans hle0 h1, ?_, ?_⟩
    · intro s hs
      rcases List.mem_cons.1 hs with rfl | h
      · exact le_trans hle1 h1
      · exact h2 s h
    · rcases h3 with h | ⟨s, hs, h⟩
      · rw [h]
        split
        · right; exact ⟨c, by simp, rfl⟩
        · left; rfl
      · right; exact ⟨s, by simp [hs], h⟩

theorem tiles_cover (ss : List (Cluster K)) : ∀ (a b : Nat), Tiles a ss b → ∀ i, a ≤ i → i < b →
    ∃ s ∈ ss, s.off ≤ i ∧ i < s.off + s.size := by
  induction ss with
  | nil => intro a b h i h1 h2; cases h; omega
  | cons c cs ih =>
    intro a b h i h1 h2
    obtain ⟨e1, e2, e3⟩ := h
    by_cases h3 : i < a + c.size
    · exact ⟨c, by simp, by omega, by omega⟩
    · obtain ⟨s, hs, h4⟩ := ih _ _ e3 i (by omega) h2
      exact ⟨s, by simp [hs], h4⟩

theorem tiles_range (ss : List (Cluster K)) : ∀ (a b : Nat), Tiles a ss b → ∀ s ∈ ss,
    a ≤ s.off ∧ s.off + s.size ≤ b := by
  induction ss with
  | nil => intro a b _ s hs; cases hs
  | cons c cs ih =>
    intro a b h s hs
    obtain ⟨e1, e2, e3⟩ := h
    rcases List.mem_cons.1 hs with rfl | h'
    · have := tiles_le _ _ _ e3; omega
    · have := ih _ _ e3 s h'; omega

/-- a father over well-built sons is well-built -/
theorem father_good {g : Geom K} {a b : Nat → Nat} {off size : Nat} {ss : List (Cluster K)}
    {t : Cluster K} (hpos : 0 < size) (h : SonsGood g a b off (off + size) ss)
    (ht : fatherCluster g off size ss = .ok t) : Good g a b off size t := by
  cases ss with
  | nil =>
    have h1 : off = off + size := h.facts.1
    omega
  | cons s ss =>
    obtain ⟨h1, h2, h3⟩ := h.facts
    have hperm := h.perm
    rw [Nat.add_sub_cancel_left] at hperm
    unfold fatherCluster sonsBox at ht
    simp only [bind, Except.bind, pure, Except.pure, Except.ok.injEq] at ht
    subst ht
    unfold Cluster.new
    refine ⟨hperm, by simp, by simp, hpos, ?_, update_descExact (fun u hu => (h2 u hu).2), ?_⟩
    · rw [update_consistent, consistent_mk]
      exact ⟨fun _ => h1, fun u hu => (h2 u hu).1⟩
    · unfold Cluster.update
      rw [forall_nodes_mk]
      refine ⟨?_, h3⟩
      have hb : ∀ u ∈ s :: ss, BoxTight g.smin g.smax g.dim b u :=
        fun u hu => h3 u hu u (mem_nodes_self u)
      have cov := tiles_cover (s :: ss) _ _ h1
      have rng := tiles_range (s :: ss) _ _ h1
      refine ⟨fun j hj i hi => ?_, fun j hj => ?_, fun j hj i hi => ?_, fun j hj => ?_⟩
      · simp only [Cluster.info_mk, Cluster.size_mk, Cluster.off_mk] at hi ⊢
        obtain ⟨q1, q2, -⟩ := foldMin_spec (fun c : Cluster K => c.info.bmin j) ss (s.info.bmin j)
        obtain ⟨u, hu, hu1, hu2⟩ := cov (off + i) (by omega) (by omega)
        have := (hb u hu).lo j hj (off + i - u.off) (by omega)
        rw [show u.off + (off + i - u.off) = off + i by omega] at this
        refine le_trans ?_ this
        rcases List.mem_cons.1 hu with rfl | h'
        · exact q1
        · exact q2 u h'
      · simp only [Cluster.info_mk, Cluster.size_mk, Cluster.off_mk]
        obtain ⟨-, -, q3⟩ := foldMin_spec (fun c : Cluster K => c.info.bmin j) ss (s.info.bmin j)
        have : ∃ u ∈ s :: ss, ss.foldl (fun b c => if b < c.info.bmin j then b else c.info.bmin j)
            (s.info.bmin j) = u.info.bmin j := by
          rcases q3 with q | ⟨u, hu, q⟩
          · exact ⟨s, by simp, q⟩
          · exact ⟨u, by simp [hu], q⟩
        obtain ⟨u, hu, e⟩ := this
        obtain ⟨i, hi, e2⟩ := (hb u hu).lo_attained j hj
        obtain ⟨r1, r2⟩ := rng u hu
        refine ⟨u.off + i - off, by omega, ?_⟩
        rw [e, e2, show off + (u.off + i - off) = u.off + i by omega]
      · simp only [Cluster.info_mk, Cluster.size_mk, Cluster.off_mk] at hi ⊢
        obtain ⟨q1, q2, -⟩ := foldMax_spec (fun c : Cluster K => c.info.bmax j) ss (s.info.bmax j)
        obtain ⟨u, hu, hu1, hu2⟩ := cov (off + i) (by omega) (by omega)
        have := (hb u hu).hi j hj (off + i - u.off) (by omega)
        rw [show u.off + (off + i - u.off) = off + i by omega] at this
        refine le_trans this ?_
        rcases List.mem_cons.1 hu with rfl | h'
        · exact q1
        · exact q2 u h'
      · simp only [Cluster.info_mk, Cluster.size_mk, Cluster.off_mk]
        obtain ⟨-, -, q3⟩ := foldMax_spec (fun c : Cluster K => c.info.bmax j) ss (s.info.bmax j)
        have : ∃ u ∈ s :: ss, ss.foldl (fun b c => if b < c.info.bmax j then c.info.bmax j else b)
            (s.info.bmax j) = u.info.bmax j := by
          rcases q3 with q | ⟨u, hu, q⟩
          · exact ⟨s, by simp, q⟩
          · exact ⟨u, by simp [hu], q⟩
        obtain ⟨u, hu, e⟩ := this
        obtain ⟨i, hi, e2⟩ := (hb u hu).hi_attained j hj
        obtain ⟨r1, r2⟩ := rng u hu
        refine ⟨u.off + i - off, by omega, ?_⟩
        rw [e, e2, show off + (u.off + i - off) = u.off + i by omega]

theorem Good.perm_left {g : Geom K} {a0 a a' : Nat → Nat} {off size : Nat} {t : Cluster K}
    (h0 : SegRearranged off size a0 a) (h : Good g a a' off size t) : Good g a0 a' off size t :=
  ⟨h0.trans h.perm, h.toff, h.tsize, h.pos, h.cons, h.desc, h.box⟩

theorem two_sons {g : Geom K} {a b c : Nat → Nat} {off n0 n1 size : Nat} {s0 s1 t : Cluster K}
    (hs : n0 + n1 = size) (h0 : Good g a b off n0 s0) (h1 : Good g b c (off + n0) n1 s1)
    (ht : fatherCluster g off size [s0, s1] = .ok t) : Good g a c off size t := by
  subst hs
  have := h0.pos
  refine father_good (by omega) (.cons h0 (.cons h1 ?_)) ht
  rw [← Nat.add_assoc]; exact .nil

theorem one_son {g : Geom K} {a b : Nat → Nat} {off size : Nat} {s0 t : Cluster K}
    (h0 : Good g a b off size s0)
    (ht : fatherCluster g off size [s0] = .ok t) : Good g a b off size t :=
  father_good h0.pos (.cons h0 .nil) ht

/-! ### partial correctness of the four builders -/

theorem adaptive_good (g : Geom K) (clf : Nat) : ∀ (f : Nat) (st : St K) (off size : Nat) (st' : St K)
    (t : Cluster K), buildAdaptive g clf f st off size = .ok (st', t) →
    Good g st.idx st'.idx off size t := by
  intro f
  induction f with
  | zero => intro st off size st' t h; simp [buildAdaptive] at h
  | succ f ih =>
    intro st off size st' t h
    rw [buildAdaptive] at h
    simp only [bind_ok, cassert_ok, decide_eq_true_eq] at h
    obtain ⟨_, hpos, h⟩ := h
    split at h
    · split at h
      · simp [bind_ok, throw_ne_ok] at h
      · split at h
        · split at h
          · split at h
            · simp only [bind_ok, pure_ok, Prod.exists, Prod.mk.injEq] at h
              obtain ⟨st1, s0, e0, st2, s1, e1, t', et, rfl, rfl⟩ := h
              have g0 := ih _ _ _ _ _ e0
              have g1 := ih _ _ _ _ _ e1
              exact (two_sons (splitLoop_ok _ _ _ _).sum g0 g1 et).perm_left (splitLoop_ok _ _ _ _).perm
            · simp [bind_ok, fatherCluster, sonsBox] at h
          · simp [bind_ok, fatherCluster, sonsBox] at h
        · simp only [bind_ok, pure_ok, Prod.mk.injEq] at h
          obtain ⟨_, _, rfl, rfl⟩ := h
          exact leaf_good g _ off hpos
    · simp only [pure_ok, Prod.mk.injEq] at h
      obtain ⟨rfl, rfl⟩ := h
      exact leaf_good g _ off hpos

theorem regular_good (g : Geom K) (clf : Nat) : ∀ (f : Nat) (st : St K) (off size dir : Nat) (st' : St K)
    (t : Cluster K), buildRegular g clf f st off size dir = .ok (st', t) →
    Good g st.idx st'.idx off size t := by
  intro f
  induction f with
  | zero => intro st off size dir st' t h; simp [buildRegular] at h
  | succ f ih =>
    intro st off size dir st' t h
    rw [buildRegular] at h
    simp only [bind_ok, cassert_ok, decide_eq_true_eq] at h
    obtain ⟨_, hpos, h⟩ := h
    split at h
    · split at h
      · simp [bind_ok, throw_ne_ok] at h
      · split at h
        · split at h
          · split at h
            · simp only [bind_ok, pure_ok, Prod.exists, Prod.mk.injEq] at h
              obtain ⟨st1, s0, e0, st2, s1, e1, t', et, rfl, rfl⟩ := h
              have g0 := ih _ _ _ _ _ _ e0
              have g1 := ih _ _ _ _ _ _ e1
              exact (two_sons (splitLoop_ok _ _ _ _).sum g0 g1 et).perm_left (splitLoop_ok _ _ _ _).perm
            · simp only [bind_ok, pure_ok, Prod.exists, Prod.mk.injEq] at h
              obtain ⟨st1, s0, e0, t', et, rfl, rfl⟩ := h
              exact (one_son (ih _ _ _ _ _ _ e0) et).perm_left (splitLoop_ok _ _ _ _).perm
          · simp only [bind_ok, pure_ok, Prod.exists, Prod.mk.injEq] at h
            obtain ⟨_, _, st1, s0, e0, t', et, rfl, rfl⟩ := h
            exact (one_son (ih _ _ _ _ _ _ e0) et).perm_left (splitLoop_ok _ _ _ _).perm
        · simp only [bind_ok, pure_ok, Prod.exists, Prod.mk.injEq] at h
          obtain ⟨_, _, st1, s0, e0, t', et, rfl, rfl⟩ := h
          exact one_son (ih (pointBbox g st off size) _ _ _ _ _ e0) et
    · simp only [pure_ok, Prod.mk.injEq] at h
      obtain ⟨rfl, rfl⟩ := h
      exact leaf_good g _ off hpos

theorem pca_good (g : Geom K) (eig : (Nat → Nat → K) → Nat → K) (clf : Nat) :
    ∀ (f : Nat) (st : St K) (off size : Nat) (st' : St K)
    (t : Cluster K), buildPca g eig clf f st off size = .ok (st', t) →
    Good g st.idx st'.idx off size t := by
  intro f
  induction f with
  | zero => intro st off size st' t h; simp [buildPca] at h
  | succ f ih =>
    intro st off size st' t h
    rw [buildPca] at h
    simp only [bind_ok, cassert_ok, decide_eq_true_eq] at h
    obtain ⟨_, hpos, h⟩ := h
    split at h
    · simp only [bind_ok, cassert_ok, decide_eq_true_eq] at h
      obtain ⟨_, _, h⟩ := h
      split at h
      · split at h
        · simp only [bind_ok, pure_ok, Prod.exists, Prod.mk.injEq] at h
          obtain ⟨st1, s0, e0, st2, s1, e1, t', et, rfl, rfl⟩ := h
          have g0 := ih _ _ _ _ _ e0
          have g1 := ih _ _ _ _ _ e1
          exact (two_sons (splitLoop_ok _ _ _ _).sum g0 g1 et).perm_left (splitLoop_ok _ _ _ _).perm
        · rename_i h1 h0
          simp only [bind_ok, pure_ok, Prod.exists, Prod.mk.injEq] at h
          obtain ⟨st1, s0, e0, t', et, rfl, rfl⟩ := h
          have hsum := (splitLoop_ok (fun i => decide (0 ≤ forT 0 g.dim (fun j w => w + (g.x i j -
            center g st.idx off size j) * eig (covariance g st.idx off size) j) 0)) off size st.idx).sum
          rw [Nat.eq_zero_of_not_pos h0, Nat.add_zero] at hsum
          rw [hsum] at e0
          exact (one_son (ih _ _ _ _ _ e0) et).perm_left (splitLoop_ok _ _ _ _).perm
      · rename_i h0
        simp only [bind_ok, pure_ok, Prod.exists, Prod.mk.injEq] at h
        obtain ⟨_, _, st1, s0, e0, t', et, rfl, rfl⟩ := h
        have hsum := (splitLoop_ok (fun i => decide (0 ≤ forT 0 g.dim (fun j w => w + (g.x i j -
          center g st.idx off size j) * eig (covariance g st.idx off size) j) 0)) off size st.idx).sum
        rw [Nat.eq_zero_of_not_pos h0, Nat.zero_add] at hsum
        rw [hsum] at e0
        exact (one_son (ih _ _ _ _ _ e0) et).perm_left (splitLoop_ok _ _ _ _).perm
    · simp only [pure_ok, Prod.mk.injEq] at h
      obtain ⟨rfl, rfl⟩ := h
      exact leaf_good g _ off hpos

/-- the helper leaves tile the segment -/
def LeafTiles : Nat → List (HelpLeaf K) → Nat → Prop
  | a, [], b => a = b
  | a, l :: ls, b => l.off = a ∧ 0 < l.size ∧ LeafTiles (a + l.size) ls b

theorem leafTiles_append (l1 l2 : List (HelpLeaf K)) : ∀ a b c, LeafTiles a l1 b → LeafTiles b l2 c →
    LeafTiles a (l1 ++ l2) c := by
  induction l1 with
  | nil => intro a b c h1 h2; cases h1; exact h2
  | cons l ls ih => intro a b c h1 h2; exact ⟨h1.1, h1.2.1, ih _ _ _ h1.2.2 h2⟩

theorem help_good (g : Geom K) : ∀ (k : Nat) (st : St K) (off size : Nat) (st' : St K)
    (ls : List (HelpLeaf K)), 0 < size → buildHelp g k st off size = .ok (st', ls) →
    SegRearranged off size st.idx st'.idx ∧ LeafTiles off ls (off + size) ∧ st'.hmin = st.hmin ∧
      st'.hmax = st.hmax := by
  intro k
  induction k with
  | zero =>
    intro st off size st' ls hp h
    simp only [buildHelp, Except.ok.injEq, Prod.mk.injEq] at h
    obtain ⟨rfl, rfl⟩ := h
    exact ⟨SegRearranged.refl _ _ _, ⟨rfl, hp, rfl⟩, rfl, rfl⟩
  | succ k ih =>
    intro st off size st' ls hp h
    have hset : ∀ (u : Nat → K) (d : Nat) (v : K), setAt (setAt u d v) d (u d) = u := by
      intro u d v; funext j; unfold setAt; split
      · rename_i h; rw [h]
      · rfl
    rw [buildHelp] at h
    dsimp only at h
    split at h
    · split at h
      · split at h
        · rename_i p0 p1
          simp only [bind_ok, pure_ok, Prod.exists, Prod.mk.injEq] at h
          obtain ⟨st1, l0, e0, st2, l1, e1, rfl, rfl⟩ := h
          obtain ⟨a1, a2, a3, a4⟩ := ih _ _ _ _ _ p0 e0
          obtain ⟨b1, b2, b3, b4⟩ := ih _ _ _ _ _ p1 e1
          have hsum := (splitLoop_ok (fun i => decide (g.x i (g.dim - (k + 1)) < (st.hmax (g.dim - (k + 1)) +
            st.hmin (g.dim - (k + 1))) / 2)) off size st.idx).sum
          refine ⟨?_, ?_, ?_, ?_⟩
          · refine (splitLoop_ok (fun i => decide (g.x i (g.dim - (k + 1)) < (st.hmax (g.dim - (k + 1)) +
              st.hmin (g.dim - (k + 1))) / 2)) off size st.idx).perm.trans ?_
            exact (a1.mono (le_refl _) (by omega)).trans (b1.mono (by omega) (by omega))
          · refine leafTiles_append _ _ _ _ _ a2 ?_
            rw [Nat.add_assoc, hsum] at b2
            exact b2
          · simp only [b3, a3, hset]
          · simp only [b4, a4, hset]
        · simp only [bind_ok, pure_ok, Prod.exists, Prod.mk.injEq] at h
          obtain ⟨st1, l0, e0, rfl, rfl⟩ := h
          obtain ⟨a1, a2, a3, a4⟩ := ih _ _ _ _ _ hp e0
          exact ⟨(splitLoop_ok _ _ _ _).perm.trans a1, a2, a3, by simp only [a4, hset]⟩
      · simp only [bind_ok, pure_ok, Prod.exists, Prod.mk.injEq] at h
        obtain ⟨_, _, st1, l0, e0, rfl, rfl⟩ := h
        obtain ⟨a1, a2, a3, a4⟩ := ih _ _ _ _ _ hp e0
        exact ⟨(splitLoop_ok _ _ _ _).perm.trans a1, a2, by simp only [a3, hset], a4⟩
    · simp only [bind_ok] at h
      obtain ⟨_, _, e0⟩ := h
      exact ih _ _ _ _ _ hp e0

theorem leavesIntoSons_good {g : Geom K} {rec : St K → Nat → Nat → R (St K × Cluster K)}
    (hrec : ∀ st off size st' t, rec st off size = .ok (st', t) → Good g st.idx st'.idx off size t) :
    ∀ (ls : List (HelpLeaf K)) (st st' : St K) (ss : List (Cluster K)) (a b : Nat),
    LeafTiles a ls b → leavesIntoSons rec ls st = .ok (st', ss) →
    SonsGood g st.idx st'.idx a b ss := by
  intro ls
  induction ls with
  | nil =>
    intro st st' ss a b ht h
    simp only [leavesIntoSons, Except.ok.injEq, Prod.mk.injEq] at h
    obtain ⟨rfl, rfl⟩ := h
    cases ht
    exact .nil
  | cons l ls ih =>
    intro st st' ss a b ht h
    obtain ⟨t1, t2, t3⟩ := ht
    simp only [leavesIntoSons, bind_ok, pure_ok, Prod.exists, Prod.mk.injEq] at h
    obtain ⟨st1, s, e1, st2, ss', e2, rfl, rfl⟩ := h
    have g1 := hrec _ _ _ _ _ e1
    rw [t1] at g1
    exact .cons g1 (ih _ _ _ _ _ t3 e2)

theorem simsub_good (g : Geom K) (clf : Nat) :
    ∀ (f : Nat) (st : St K) (off size : Nat) (st' : St K)
    (t : Cluster K), buildSimsub g clf f st off size = .ok (st', t) →
    Good g st.idx st'.idx off size t := by
  intro f
  induction f with
  | zero => intro st off size st' t h; simp [buildSimsub] at h
  | succ f ih =>
    intro st off size st' t h
    rw [buildSimsub] at h
    simp only [bind_ok, cassert_ok, decide_eq_true_eq] at h
    obtain ⟨_, hpos, h⟩ := h
    split at h
    · simp only [bind_ok, pure_ok, Prod.exists, Prod.mk.injEq] at h
      obtain ⟨st1, ls, e1, st2, ss, e2, t', et, rfl, rfl⟩ := h
      obtain ⟨p, lt, -, -⟩ := help_good g _ _ _ _ _ _ hpos e1
      exact (father_good hpos (leavesIntoSons_good ih _ _ _ _ _ _ lt e2) et).perm_left p
    · simp only [pure_ok, Prod.mk.injEq] at h
      obtain ⟨rfl, rfl⟩ := h
      exact leaf_good g _ off hpos

theorem build_good (g : Geom K) (eig : (Nat → Nat → K) → Nat → K) (f : Nat) (st : St K)
    (off size clf : Nat) (mode : Mode) (st' : St K) (t : Cluster K)
    (h : buildCluster g eig f st off size clf mode = .ok (st', t)) :
    Good g st.idx st'.idx off size t := by
  cases mode with
  | adaptive => exact adaptive_good _ _ _ _ _ _ _ _ h
  | regular =>
    simp only [buildCluster, bind_ok] at h
    obtain ⟨_, _, h⟩ := h
    exact regular_good g clf f (pointBbox g st off size) off size 0 st' t h
  | pca => exact pca_good _ _ _ _ _ _ _ _ _ h
  | simsub =>
    simp only [buildCluster, bind_ok] at h
    obtain ⟨_, _, h⟩ := h
    exact simsub_good g clf f (pointBbox g st off size) off size st' t h

end H2.CB
