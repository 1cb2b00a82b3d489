import Verif.Proof.ClusterTerm2

set_option linter.unusedSectionVars false

namespace H2.CB
open H2 Spec
variable {K : Type} [Field K] [LinearOrder K] [IsStrictOrderedRing K]

/-- the points of the segment lie in the box -/
def PointsIn (g : Geom K) (lo hi : Nat → K) (a : Nat → Nat) (off size : Nat) : Prop :=
  ∀ i, off ≤ i → i < off + size → ∀ j < g.dim, lo j ≤ g.x (a i) j ∧ g.x (a i) j ≤ hi j

theorem pointsIn_perm {g : Geom K} {lo hi : Nat → K} {a b : Nat → Nat} {off size : Nat}
    (h : SegRearranged off size a b) (hp : PointsIn g lo hi a off size) : PointsIn g lo hi b off size := by
  intro i h1 h2 j hj
  obtain ⟨k, hk, e⟩ := h.inside (i := i - off) (by omega)
  rw [show off + (i - off) = i by omega] at e
  rw [e]; exact hp _ (by omega) (by omega) j hj

theorem leafTiles_le (ls : List (HelpLeaf K)) : ∀ a b, LeafTiles a ls b → a ≤ b := by
  induction ls with
  | nil => intro a b h; exact le_of_eq h
  | cons l ls ih => intro a b h; have := ih _ _ h.2.2; omega

theorem leafTiles_range (ls : List (HelpLeaf K)) : ∀ a b, LeafTiles a ls b → ∀ l ∈ ls,
    a ≤ l.off ∧ l.off + l.size ≤ b ∧ 0 < l.size := by
  induction ls with
  | nil => intro a b _ l hl; cases hl
  | cons c cs ih =>
    intro a b h l hl
    rcases List.mem_cons.1 hl with rfl | h'
    · have := leafTiles_le _ _ _ h.2.2
      obtain ⟨h1, h2, -⟩ := h; omega
    · have := ih _ _ h.2.2 l h'; omega

/-- what `build_help_cluster` guarantees about its leaves -/
structure HelpOK (g : Geom K) (k : Nat) (st : St K) (off size : Nat) (r : St K × List (HelpLeaf K)) : Prop where
  boxes : ∀ l ∈ r.2, ∀ j < g.dim, l.bmin j ≤ l.bmax j
  tm : ∀ clf, TooManyCoincide g.x g.dim clf st.idx off size →
    ∃ l ∈ r.2, TooManyCoincide g.x g.dim clf r.1.idx l.off l.size
  points : PointsIn g st.hmin st.hmax st.idx off size →
    ∀ l ∈ r.2, PointsIn g l.bmin l.bmax r.1.idx l.off l.size
  half : ∀ l ∈ r.2, ∀ j, g.dim - k ≤ j → j < g.dim → l.bmax j - l.bmin j ≤ (st.hmax j - st.hmin j) / 2
  same : ∀ l ∈ r.2, ∀ j, j < g.dim - k → l.bmax j = st.hmax j ∧ l.bmin j = st.hmin j

theorem help_tot (g : Geom K) : ∀ (k : Nat) (st : St K) (off size : Nat), k ≤ g.dim → 0 < size →
    (∀ j < g.dim, st.hmin j ≤ st.hmax j) →
    Tot (buildHelp g k st off size) (HelpOK g k st off size) := by
  intro k
  induction k with
  | zero =>
    intro st off size hk hp hb
    refine ⟨_, rfl, ?_, ?_, ?_, ?_, ?_⟩
    · intro l hl; simp only [List.mem_singleton] at hl; subst hl; exact hb
    · intro clf h; exact ⟨_, List.mem_singleton.2 rfl, h⟩
    · intro h l hl; simp only [List.mem_singleton] at hl; subst hl; exact h
    · intro l hl j h1 h2; omega
    · intro l hl j h1; simp only [List.mem_singleton] at hl; subst hl; exact ⟨rfl, rfl⟩
  | succ k ih =>
    intro st off size hk hp hb
    have hdir : g.dim - (k + 1) < g.dim := by omega
    rw [buildHelp]
    dsimp only
    generalize hd : g.dim - (k + 1) = d at hdir ⊢
    have hd1 : g.dim - k = d + 1 := by omega
    split
    · rename_i hpos
      have hlt : st.hmin d < st.hmax d := sub_pos.1 hpos
      generalize hm : (st.hmax d + st.hmin d) / 2 = m
      have hm1 : st.hmin d ≤ m := by rw [← hm]; linarith
      have hm2 : m ≤ st.hmax d := by rw [← hm]; linarith
      have hm3 : m - st.hmin d = (st.hmax d - st.hmin d) / 2 := by rw [← hm]; ring
      have hm4 : st.hmax d - m = (st.hmax d - st.hmin d) / 2 := by rw [← hm]; ring
      have sp := splitLoop_ok (fun i => decide (g.x i d < m)) off size st.idx
      have spt := fun clf => tm_split (clf := clf) (off := off) (size := size) (a := st.idx)
        (coord_resp g hdir m)
      generalize hr : splitLoop (fun i => decide (g.x i d < m)) off size st.idx = r at sp spt ⊢
      have hsum := sp.sum
      have hbl : ∀ (u v : Nat → K), (∀ j < g.dim, u j ≤ v j) → u d ≤ m → m ≤ v d →
          (∀ j < g.dim, u j ≤ setAt v d m j) ∧ (∀ j < g.dim, setAt u d m j ≤ v j) := by
        intro u v h1 h2 h3
        constructor
        · intro j hj; unfold setAt; split
          · rename_i h; rw [h]; exact h2
          · exact h1 j hj
        · intro j hj; unfold setAt; split
          · rename_i h; rw [h]; exact h3
          · exact h1 j hj
      -- generic facts for a left part
      have left : ∀ n, n ≤ size → (∀ i < n, decide (g.x (r.1 (off + i)) d < m) = true) →
          ∀ R, HelpOK g k { idx := r.1, hmin := st.hmin, hmax := setAt st.hmax d m } off n R →
          (PointsIn g st.hmin st.hmax st.idx off size →
            ∀ l ∈ R.2, PointsIn g l.bmin l.bmax R.1.idx l.off l.size) ∧
          (∀ l ∈ R.2, ∀ j, d ≤ j → j < g.dim → l.bmax j - l.bmin j ≤ (st.hmax j - st.hmin j) / 2) ∧
          (∀ l ∈ R.2, ∀ j, j < d → l.bmax j = st.hmax j ∧ l.bmin j = st.hmin j) := by
        intro n hn hall R hR
        refine ⟨fun hpi => hR.points ?_, ?_, ?_⟩
        · intro i h1 h2 j hj
          have h3 := pointsIn_perm sp.perm hpi i h1 (by omega) j hj
          refine ⟨h3.1, ?_⟩
          simp only [setAt]
          split
          · rename_i h; subst h
            have := hall (i - off) (by omega)
            rw [show off + (i - off) = i by omega, decide_eq_true_eq] at this
            exact this.le
          · exact h3.2
        · intro l hl j h1 h2
          by_cases h : j = d
          · have := hR.same l hl d (by omega)
            rw [h, this.1, this.2]
            simp only [setAt, if_true]
            exact le_of_eq hm3
          · have := hR.half l hl j (by omega) h2
            simp only [setAt, if_neg h] at this
            exact this
        · intro l hl j h1
          have := hR.same l hl j (by omega)
          simp only [setAt, if_neg (show j ≠ d by omega)] at this
          exact this
      have right : ∀ (a1 : Nat → Nat) o n, off ≤ o → o + n ≤ off + size →
          (∀ i, o ≤ i → i < o + n → a1 i = r.1 i) →
          (∀ i, o ≤ i → i < o + n → decide (g.x (r.1 i) d < m) = false) →
          ∀ R, HelpOK g k { idx := a1, hmin := setAt st.hmin d m, hmax := st.hmax } o n R →
          (PointsIn g st.hmin st.hmax st.idx off size →
            ∀ l ∈ R.2, PointsIn g l.bmin l.bmax R.1.idx l.off l.size) ∧
          (∀ l ∈ R.2, ∀ j, d ≤ j → j < g.dim → l.bmax j - l.bmin j ≤ (st.hmax j - st.hmin j) / 2) ∧
          (∀ l ∈ R.2, ∀ j, j < d → l.bmax j = st.hmax j ∧ l.bmin j = st.hmin j) := by
        intro a1 o n ho hn heq hall R hR
        refine ⟨fun hpi => hR.points ?_, ?_, ?_⟩
        · intro i h1 h2 j hj
          have h3 := pointsIn_perm sp.perm hpi i (by omega) (by omega) j hj
          simp only at h1 h2 ⊢
          rw [heq i h1 h2]
          refine ⟨?_, h3.2⟩
          simp only [setAt]
          split
          · rename_i h; subst h
            have := hall i h1 h2
            rw [decide_eq_false_iff_not, not_lt] at this
            exact this
          · exact h3.1
        · intro l hl j h1 h2
          by_cases h : j = d
          · have := hR.same l hl d (by omega)
            rw [h, this.1, this.2]
            simp only [setAt, if_true]
            exact le_of_eq hm4
          · have := hR.half l hl j (by omega) h2
            simp only [setAt, if_neg h] at this
            exact this
        · intro l hl j h1
          have := hR.same l hl j (by omega)
          simp only [setAt, if_neg (show j ≠ d by omega)] at this
          exact this
      split
      · rename_i p0
        split
        · rename_i p1
          refine Tot.bind (ih _ _ _ (by omega) p0 ((hbl _ _ hb hm1 hm2).1)) ?_
          rintro ⟨st1, l0⟩ e0 H0
          obtain ⟨a1, a2, a3, a4⟩ := help_good g _ _ _ _ _ _ p0 e0
          simp only at a1 a3 a4
          have hst : setAt st1.hmax d (st.hmax d) = st.hmax := by
            rw [a4]; funext j; unfold setAt; split
            · rename_i h; rw [h]
            · rfl
          simp only [hst, a3]
          refine Tot.bind (ih { idx := st1.idx, hmin := setAt st.hmin d m, hmax := st.hmax } _ _ (by omega) p1
            ((hbl _ _ hb hm1 hm2).2)) ?_
          rintro ⟨st2, l1⟩ e1 H1
          obtain ⟨b1, b2, b3, b4⟩ := help_good g _ _ _ _ _ _ p1 e1
          simp only at b1 b3 b4
          have Lf := left r.2.1 (by omega) sp.front _ H0
          have Rf := right st1.idx (off + r.2.1) r.2.2 (by omega) (by omega)
            (fun i h1 h2 => a1.outside (by omega))
            (fun i h1 h2 => by
              have := sp.back (i - off) (by omega) (by omega)
              rwa [show off + (i - off) = i by omega] at this) _ H1
          have keep : ∀ l ∈ l0, ∀ i, l.off ≤ i → i < l.off + l.size → st1.idx i = st2.idx i := by
            intro l hl i h1 h2
            have := leafTiles_range _ _ _ a2 l hl
            exact (b1.outside (by omega)).symm
          refine Tot.pure ⟨?_, ?_, ?_, ?_, ?_⟩
          · intro l hl
            rcases List.mem_append.1 hl with h | h
            · exact H0.boxes l h
            · exact H1.boxes l h
          · intro clf htm
            rcases spt clf htm with h | h
            · obtain ⟨l, hl, hlt⟩ := H0.tm clf h
              exact ⟨l, List.mem_append.2 (.inl hl), tm_congr (keep l hl) hlt⟩
            · have : TooManyCoincide g.x g.dim clf st1.idx (off + r.2.1) r.2.2 :=
                tm_congr (fun i h1 h2 => (a1.outside (by omega)).symm) h
              obtain ⟨l, hl, hlt⟩ := H1.tm clf this
              exact ⟨l, List.mem_append.2 (.inr hl), hlt⟩
          · intro hpi l hl
            rcases List.mem_append.1 hl with h | h
            · intro i h1 h2 j hj
              simp only
              rw [← keep l h i h1 h2]
              exact Lf.1 hpi l h i h1 h2 j hj
            · exact Rf.1 hpi l h
          · intro l hl j h1 h2
            rcases List.mem_append.1 hl with h | h
            · exact Lf.2.1 l h j (by omega) h2
            · exact Rf.2.1 l h j (by omega) h2
          · intro l hl j h1
            rcases List.mem_append.1 hl with h | h
            · exact Lf.2.2 l h j (by omega)
            · exact Rf.2.2 l h j (by omega)
        · rename_i p1
          have hn : r.2.1 = size := by omega
          refine Tot.bind (ih _ _ _ (by omega) hp ((hbl _ _ hb hm1 hm2).1)) ?_
          rintro ⟨st1, l0⟩ e0 H0
          have Lf := left size (le_refl _) (by rw [← hn]; exact sp.front) _ H0
          refine Tot.pure ⟨H0.boxes, fun clf htm => H0.tm clf (tm_perm sp.perm htm), Lf.1, ?_, ?_⟩
          · intro l hl j h1 h2; exact Lf.2.1 l hl j (by omega) h2
          · intro l hl j h1; exact Lf.2.2 l hl j (by omega)
      · rename_i p0
        have hn : r.2.1 = 0 := by omega
        refine Tot.cassert (decide_eq_true (by omega)) ?_
        refine Tot.bind (ih _ _ _ (by omega) hp ((hbl _ _ hb hm1 hm2).2)) ?_
        rintro ⟨st1, l0⟩ e0 H0
        have Rf := right r.1 off size (le_refl _) (le_refl _) (fun i _ _ => rfl)
          (fun i h1 h2 => by
            have := sp.back (i - off) (by omega) (by omega)
            rwa [show off + (i - off) = i by omega] at this) _ H0
        refine Tot.pure ⟨H0.boxes, fun clf htm => H0.tm clf (tm_perm sp.perm htm), Rf.1, ?_, ?_⟩
        · intro l hl j h1 h2; exact Rf.2.1 l hl j (by omega) h2
        · intro l hl j h1; exact Rf.2.2 l hl j (by omega)
    · rename_i hpos
      have h0 : st.hmax d - st.hmin d = 0 :=
        le_antisymm (not_lt.1 hpos) (sub_nonneg.2 (hb d hdir))
      refine Tot.cassert (decide_eq_true h0) ?_
      refine (ih st off size (by omega) hp hb).mono ?_
      intro R H
      refine ⟨H.boxes, H.tm, H.points, ?_, ?_⟩
      · intro l hl j h1 h2
        by_cases h : j = d
        · have := H.same l hl d (by omega)
          rw [h, this.1, this.2, h0]; simp
        · exact H.half l hl j (by omega) h2
      · intro l hl j h1; exact H.same l hl j (by omega)

theorem leafTiles_pos_ne {ls : List (HelpLeaf K)} {off size : Nat} (hp : 0 < size)
    (h : LeafTiles off ls (off + size)) : ls ≠ [] := by
  rintro rfl
  have : off = off + size := h
  omega

/-- sons built from helper leaves -/
theorem sons_dich (g : Geom K) (clf : Nat) (rec : St K → Nat → Nat → R (St K × Cluster K))
    (hgood : ∀ st off size st' t, rec st off size = .ok (st', t) → Good g st.idx st'.idx off size t)
    (hrec : ∀ st off size, 0 < size → (∀ j < g.dim, st.hmin j ≤ st.hmax j) →
      Dich (rec st off size) (fun _ => ¬ TooManyCoincide g.x g.dim clf st.idx off size)) :
    ∀ (ls : List (HelpLeaf K)) (st : St K) (a b : Nat), LeafTiles a ls b →
    (∀ l ∈ ls, ∀ j < g.dim, l.bmin j ≤ l.bmax j) →
    Dich (leavesIntoSons rec ls st) (fun r => r.2.length = ls.length ∧
      ∀ l ∈ ls, ¬ TooManyCoincide g.x g.dim clf st.idx l.off l.size) := by
  intro ls
  induction ls with
  | nil => intro st a b _ _; exact .inr ⟨_, rfl, rfl, by simp⟩
  | cons l ls ih =>
    intro st a b ht hb
    rw [leavesIntoSons]
    refine Dich.bind (hrec _ _ _ ht.2.1 (hb l (by simp))) ?_
    rintro ⟨st1, s⟩ e0 h0
    refine Dich.bind (ih st1 _ _ ht.2.2 (fun u hu => hb u (by simp [hu]))) ?_
    rintro ⟨st2, ss⟩ e1 ⟨h1, h2⟩
    refine Dich.pure ⟨by simpa using h1, ?_⟩
    intro u hu
    rcases List.mem_cons.1 hu with rfl | h'
    · exact h0
    · intro htm
      refine h2 u h' (tm_congr ?_ htm)
      intro i hi1 hi2
      have := leafTiles_range _ _ _ ht.2.2 u h'
      have h3 := ht.1
      exact ((hgood _ _ _ _ _ e0).perm.outside (by omega)).symm

theorem simsub_dich (g : Geom K) (clf : Nat) : ∀ (f : Nat) (st : St K) (off size : Nat),
    0 < size → (∀ j < g.dim, st.hmin j ≤ st.hmax j) →
    Dich (buildSimsub g clf f st off size)
      (fun _ => ¬ TooManyCoincide g.x g.dim clf st.idx off size) := by
  intro f
  induction f with
  | zero => intro st off size _ _; left; rfl
  | succ f ih =>
    intro st off size hp hb
    rw [buildSimsub]
    refine Dich.cassert (decide_eq_true hp) ?_
    split
    · refine Dich.bind (help_tot g _ _ _ _ (le_refl _) hp hb).dich ?_
      rintro ⟨st1, ls⟩ e0 H
      obtain ⟨-, a2, -, -⟩ := help_good g _ _ _ _ _ _ hp e0
      refine Dich.bind (sons_dich g clf (buildSimsub g clf f) (simsub_good g clf f) ih ls st1 _ _ a2 H.boxes) ?_
      rintro ⟨st2, ss⟩ e1 ⟨h1, h2⟩
      cases ss with
      | nil => exact absurd (List.eq_nil_of_length_eq_zero h1.symm) (leafTiles_pos_ne hp a2)
      | cons s ss =>
        refine Dich.bind (father_tot g off size s ss).dich ?_
        intro t _ _
        refine Dich.pure ?_
        intro htm
        obtain ⟨l, hl, hlt⟩ := H.tm clf htm
        exact h2 l hl hlt
    · rename_i h
      refine Dich.pure ?_
      intro htm; exact h (tm_size htm)

/-- points of the segment that do not coincide are more than `δ` apart in some coordinate -/
def Separated (g : Geom K) (δ : K) (a : Nat → Nat) (off size : Nat) : Prop :=
  ∀ i, off ≤ i → i < off + size → ∀ k, off ≤ k → k < off + size →
    (∃ j < g.dim, g.x (a i) j ≠ g.x (a k) j) → ∃ j < g.dim, δ < |g.x (a i) j - g.x (a k) j|

theorem separated_perm {g : Geom K} {δ : K} {a b : Nat → Nat} {off size : Nat}
    (h : SegRearranged off size a b) (hp : Separated g δ a off size) : Separated g δ b off size := by
  intro i h1 h2 k h3 h4
  obtain ⟨i', hi', e⟩ := h.inside (i := i - off) (by omega)
  rw [show off + (i - off) = i by omega] at e
  obtain ⟨k', hk', e'⟩ := h.inside (i := k - off) (by omega)
  rw [show off + (k - off) = k by omega] at e'
  rw [e, e']; exact hp _ (by omega) (by omega) _ (by omega) (by omega)

/-- invariant for one segment: what the halving argument needs -/
structure SimOK (g : Geom K) (clf : Nat) (δ w : K) (lo hi : Nat → K) (a : Nat → Nat) (off size : Nat) : Prop where
  ntm : ¬ TooManyCoincide g.x g.dim clf a off size
  pts : PointsIn g lo hi a off size
  sep : Separated g δ a off size
  wid : ∀ j < g.dim, hi j - lo j ≤ w
  box : ∀ j < g.dim, lo j ≤ hi j

theorem SimOK.congr {g : Geom K} {clf : Nat} {δ w : K} {lo hi : Nat → K} {a b : Nat → Nat} {off size : Nat}
    (h : SimOK g clf δ w lo hi a off size) (he : ∀ i, off ≤ i → i < off + size → a i = b i) :
    SimOK g clf δ w lo hi b off size := by
  refine ⟨fun ht => h.ntm (tm_congr (fun i h1 h2 => (he i h1 h2).symm) ht), ?_, ?_, h.wid, h.box⟩
  · intro i h1 h2; rw [← he i h1 h2]; exact h.pts i h1 h2
  · intro i h1 h2 k h3 h4; rw [← he i h1 h2, ← he k h3 h4]; exact h.sep i h1 h2 k h3 h4

theorem sons_tot (g : Geom K) (clf : Nat) (δ w : K) (rec : St K → Nat → Nat → R (St K × Cluster K))
    (hgood : ∀ st off size st' t, rec st off size = .ok (st', t) → Good g st.idx st'.idx off size t)
    (hrec : ∀ st off size, 0 < size → SimOK g clf δ w st.hmin st.hmax st.idx off size →
      Tot (rec st off size) (fun _ => True)) :
    ∀ (ls : List (HelpLeaf K)) (st : St K) (a b : Nat), LeafTiles a ls b →
    (∀ l ∈ ls, SimOK g clf δ w l.bmin l.bmax st.idx l.off l.size) →
    Tot (leavesIntoSons rec ls st) (fun r => r.2.length = ls.length) := by
  intro ls
  induction ls with
  | nil => intro st a b _ _; exact ⟨_, rfl, rfl⟩
  | cons l ls ih =>
    intro st a b ht hb
    rw [leavesIntoSons]
    refine Tot.bind (hrec _ _ _ ht.2.1 (hb l (by simp))) ?_
    rintro ⟨st1, s⟩ e0 -
    refine Tot.bind (ih st1 _ _ ht.2.2 ?_) ?_
    · intro u hu
      refine (hb u (by simp [hu])).congr ?_
      intro i hi1 hi2
      have := leafTiles_range _ _ _ ht.2.2 u hu
      have h3 := ht.1
      exact ((hgood _ _ _ _ _ e0).perm.outside (by omega)).symm
    rintro ⟨st2, ss⟩ e1 h1
    exact Tot.pure (by simpa using h1)

theorem simsub_tot (g : Geom K) (clf : Nat) {δ : K} (hδ : 0 ≤ δ) : ∀ (f : Nat) (st : St K) (off size : Nat),
    0 < size → SimOK g clf δ (δ * 2 ^ f) st.hmin st.hmax st.idx off size →
    Tot (buildSimsub g clf (f + 1) st off size) (fun _ => True) := by
  intro f
  induction f with
  | zero =>
    intro st off size hp h
    rw [buildSimsub]
    refine Tot.cassert (decide_eq_true hp) ?_
    rw [if_neg]
    · exact Tot.pure trivial
    · intro hclf
      apply h.ntm
      refine ⟨Finset.Ico off (off + size), fun i hi => Finset.mem_Ico.1 hi,
        by rw [Nat.card_Ico]; omega, ?_⟩
      intro i hi k hk
      rw [Finset.mem_Ico] at hi hk
      by_contra hne
      push Not at hne
      obtain ⟨j, hj, hlt⟩ := h.sep i hi.1 hi.2 k hk.1 hk.2 hne
      have p1 := h.pts i hi.1 hi.2 j hj
      have p2 := h.pts k hk.1 hk.2 j hj
      have p3 := h.wid j hj
      rw [pow_zero, mul_one] at p3
      have : |g.x (st.idx i) j - g.x (st.idx k) j| ≤ δ := by
        rw [abs_le]; constructor <;> linarith
      linarith
  | succ f ih =>
    intro st off size hp h
    rw [buildSimsub]
    refine Tot.cassert (decide_eq_true hp) ?_
    split
    · refine Tot.bind (help_tot g _ _ _ _ (le_refl _) hp h.box) ?_
      rintro ⟨st1, ls⟩ e0 H
      obtain ⟨a1, a2, -, -⟩ := help_good g _ _ _ _ _ _ hp e0
      refine Tot.bind (sons_tot g clf δ (δ * 2 ^ f) (buildSimsub g clf (f + 1)) (simsub_good g clf (f + 1))
        ih ls st1 _ _ a2 ?_) ?_
      · intro l hl
        have hr := leafTiles_range _ _ _ a2 l hl
        refine ⟨?_, H.points h.pts l hl, ?_, ?_, H.boxes l hl⟩
        · intro ht
          exact h.ntm (tm_perm a1.symm (tm_mono hr.1 hr.2.1 ht))
        · intro i h1 h2 k h3 h4
          exact separated_perm a1 h.sep i (by omega) (by omega) k (by omega) (by omega)
        · intro j hj
          have h1 := H.half l hl j (by omega) hj
          have h2 := h.wid j hj
          have h3 : δ * 2 ^ (f + 1) = 2 * (δ * 2 ^ f) := by ring
          rw [h3] at h2
          linarith
      rintro ⟨st2, ss⟩ e1 h1
      cases ss with
      | nil => exact absurd (List.eq_nil_of_length_eq_zero h1.symm) (leafTiles_pos_ne hp a2)
      | cons s ss =>
        refine Tot.bind (father_tot g off size s ss) ?_
        intro t _ _
        exact Tot.pure trivial
    · exact Tot.pure trivial

theorem exists_separation (g : Geom K) (a : Nat → Nat) (off size : Nat) :
    ∃ δ : K, 0 < δ ∧ Separated g δ a off size := by
  classical
  -- finitely many positive distances
  let T : Finset K := ((Finset.range size ×ˢ Finset.range size ×ˢ Finset.range g.dim).image
    (fun p => |g.x (a (off + p.1)) p.2.2 - g.x (a (off + p.2.1)) p.2.2|)).filter (fun y => 0 < y)
  have hex : ∃ δ : K, 0 < δ ∧ ∀ y ∈ T, δ < y := by
    by_cases hT : T.Nonempty
    · refine ⟨T.min' hT / 2, ?_, ?_⟩
      · have := (Finset.mem_filter.1 (T.min'_mem hT)).2
        linarith
      · intro y hy
        have h1 := T.min'_le y hy
        have h2 := (Finset.mem_filter.1 (T.min'_mem hT)).2
        linarith
    · refine ⟨1, one_pos, fun y hy => absurd ⟨y, hy⟩ hT⟩
  obtain ⟨δ, h1, h2⟩ := hex
  refine ⟨δ, h1, ?_⟩
  intro i hi1 hi2 k hk1 hk2 ⟨j, hj, hne⟩
  refine ⟨j, hj, h2 _ ?_⟩
  refine Finset.mem_filter.2 ⟨Finset.mem_image.2 ⟨(i - off, k - off, j), ?_, ?_⟩, ?_⟩
  · simp only [Finset.mem_product, Finset.mem_range]; omega
  · simp only [show off + (i - off) = i by omega, show off + (k - off) = k by omega]
  · exact abs_pos.2 (sub_ne_zero.2 hne)

theorem simsub_terminates [Archimedean K] (g : Geom K) (clf : Nat) (st : St K) (off : Nat) {size : Nat}
    (hp : 0 < size) (h : ¬ TooManyCoincide g.x g.dim clf st.idx off size) :
    ∃ f, Tot (buildSimsub g clf f (pointBbox g st off size) off size) (fun _ => True) := by
  obtain ⟨δ, hδ, hsep⟩ := exists_separation g st.idx off size
  have hw : ∃ w : K, ∀ j < g.dim, (pointBbox g st off size).hmax j - (pointBbox g st off size).hmin j ≤ w := by
    by_cases hd : 0 < g.dim
    · exact ⟨_, (maxDir_spec hd _ _).2.2⟩
    · exact ⟨0, fun j hj => by omega⟩
  obtain ⟨w, hw⟩ := hw
  obtain ⟨n, hn⟩ := pow_unbounded_of_one_lt (w / δ) (one_lt_two : (1 : K) < 2)
  refine ⟨n + 1, simsub_tot g clf hδ.le n _ _ _ hp ⟨h, ?_, hsep, ?_, ?_⟩⟩
  · intro i h1 h2 j hj
    have := (bbox_spec g st off hp j).1 (i - off) (by omega)
    rw [show off + (i - off) = i by omega] at this
    exact this
  · intro j hj
    refine le_trans (hw j hj) ?_
    rw [div_lt_iff₀ hδ] at hn
    rw [mul_comm]; exact hn.le
  · intro j _; exact (bbox_spec g st off hp j).2.2.2

end H2.CB
