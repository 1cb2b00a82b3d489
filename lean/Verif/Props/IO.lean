import Verif.Proof.IO2

/-!
# Files of cluster trees (property C49)
-/

namespace H2.Props
open H2.Nc H2.Spec H2.Cluster
variable {K : Type}

/-- C49: every cluster tree in a space of positive dimension whose clusters are the concatenations of their sons can be written to a new file, and
reading the file yields a copy of the tree and of its part of the index array.  (`fi`, `fr`, `old`: arbitrary contents of unwritten variables and
uninitialised memory.) -/
theorem C49_roundtrip (fi : Nat → Nat) (fr old : Nat → K) {idx : Arr Nat} {t : Cluster K} (hd : 0 < t.info.dim) (hs : Storable t.info.dim t)
    (hi : t.off + t.size ≤ idx.n) :
    ∃ f t' idx', writeFile fi fr idx t = .ok f ∧ readFile old f = .ok (t', idx') ∧ CopyOf t.off t t' ∧
      idx'.n = t.size ∧ ∀ i < t.size, idx'.v i = idx.v (t.off + i) := by
  have hw := writePart_ok (nm := id) (f := create) (fun _ _ h => h) fi fr ⟨fun _ _ => rfl, fun _ _ => ⟨rfl, rfl⟩⟩ hd (fun _ => rfl) hi
  obtain ⟨t', idx', e, h⟩ := readFilePart_ok (nm := id) old (after_contains (fun _ _ h => h) fi fr (idx := idx) (t := t) (f := create)) hs
  exact ⟨_, t', idx', hw, e, h⟩

theorem name_ne {p q s : String} (h : q ≠ p) (hs : isName (prefixName q) s) : ¬ isName (prefixName p) s := by
  intro hp
  rcases hs with rfl | rfl | rfl | rfl | rfl | rfl | rfl | rfl <;> rcases hp with hp | hp | hp | hp | hp | hp | hp | hp <;>
    exact prefixName_ne h (by decide) (by decide) hp

/-- C49: a tree written into a file under a prefix that is not in use there is read back under this prefix, and everything stored under other
prefixes remains as it is. -/
theorem C49_prefix (p : String) (fi : Nat → Nat) (fr old : Nat → K) {idx : Arr Nat} {t : Cluster K} {f : File K} (hd : 0 < t.info.dim)
    (hs : Storable t.info.dim t) (hi : t.off + t.size ≤ idx.n) (hu : Unused (prefixName p) f) (hz : t.size = 0 → f.unlimited = false) :
    ∃ f', writePart (prefixName p) fi fr idx t f = .ok f' ∧
      (∃ t' idx', readFilePart (prefixName p) old f' = .ok (t', idx') ∧ CopyOf t.off t t' ∧
        idx'.n = t.size ∧ ∀ i < t.size, idx'.v i = idx.v (t.off + i)) ∧
      ∀ q, q ≠ p → readFilePart (prefixName q) old f' = readFilePart (prefixName q) old f ∧
        (Unused (prefixName q) f → Unused (prefixName q) f') := by
  have hinj := prefixName_inj p
  refine ⟨_, writePart_ok hinj fi fr hu hd hz hi, readFilePart_ok old (after_contains hinj fi fr) hs, fun q hq => ?_⟩
  have hoth : ∀ s, isName (prefixName q) s → _ := fun s hs => after_other (nm := prefixName p) fi fr (idx := idx) (t := t) (f := f) (name_ne hq hs)
  refine ⟨readFilePart_congr old hoth, fun ⟨h1, h2⟩ => ⟨fun s hs => ?_, fun s hs => ?_⟩⟩
  · have hn : isName (prefixName q) (prefixName q s) := by
      simp only [List.mem_cons, List.not_mem_nil, or_false] at hs
      unfold isName
      rcases hs with rfl | rfl | rfl | rfl <;> simp
    rw [(hoth _ hn).1]; exact h1 s hs
  · have hn : isName (prefixName q) (prefixName q s) := by
      simp only [List.mem_cons, List.not_mem_nil, or_false] at hs
      unfold isName
      rcases hs with rfl | rfl | rfl | rfl <;> simp
    rw [(hoth _ hn).2.1, (hoth _ hn).2.2]; exact h2 s hs

/-- C49: reading terminates for every file, whatever it contains. -/
theorem C49_read_terminates (nm : String → String) (old : Nat → K) (f : File K) : readFilePart nm old f ≠ .error .fuel := readFilePart_noFuel nm old f

/-- C49: in dimension 0 the tree cannot be written: two dimensions of the file have length 0, which means "unlimited", and only one may be. -/
theorem C49_dim_zero (fi : Nat → Nat) (fr : Nat → K) (idx : Arr Nat) {t : Cluster K} (h : ∀ s ∈ nodes t, s.info.dim = 0) :
    writeFile fi fr idx t = .error .assertFail := by
  have hb : (boxes t).length = 0 := by
    have : ∀ t : Cluster K, (∀ s ∈ nodes t, s.info.dim = 0) → (boxes t).length = 0 := by
      intro t
      refine Cluster.rec (motive_1 := fun t => (∀ s ∈ nodes t, s.info.dim = 0) → (boxes t).length = 0)
        (motive_2 := fun l => (∀ s ∈ nodesL l, s.info.dim = 0) → (boxesL l).length = 0) ?_ ?_ ?_ t
      · intro i ss ih h
        have h0 : i.dim = 0 := h _ (nodes_self _)
        rw [boxes, List.length_append, List.length_append, vals_length, vals_length, ih (fun s hs => h s (by rw [nodes, List.mem_cons]; exact .inr hs)), h0]
      · intro _; rw [boxesL]; rfl
      · intro s ss h1 h2 h
        rw [boxesL, List.length_append, h1 (fun x hx => h x (by rw [nodesL, List.mem_append]; exact .inl hx)),
          h2 (fun x hx => h x (by rw [nodesL, List.mem_append]; exact .inr hx))]
    exact this t h
  have h0 := h t (nodes_self t)
  have hn := nodes_pos t
  unfold writeFile writePart
  rw [writeCount_eq, hb, h0]
  have hn0 : (nodes t).length ≠ 0 := by omega
  by_cases hz : t.size = 0 <;>
    simp [defDim, create, cassert, hn0, hz, ok_bind, bind, Except.bind, pure, Except.pure]

/-! ## Non-vacuity -/

/-- a tree with two sons in dimension 1, part of a larger index array -/
def ioTree : Cluster ℚ :=
  .mk ⟨2, 5, 1, fun _ => 0, fun _ => 1, 3, 0⟩ [.mk ⟨2, 3, 1, fun _ => 0, fun _ => 1 / 2, 1, 0⟩ [], .mk ⟨5, 2, 1, fun _ => 1 / 2, fun _ => 1, 1, 0⟩ []]

theorem ioTree_storable : Storable 1 ioTree := by
  intro s hs
  simp only [ioTree, nodes, nodesL, List.append_nil, List.mem_cons, List.not_mem_nil, or_false, List.singleton_append] at hs
  rcases hs with rfl | rfl | rfl
  · exact ⟨rfl, fun _ => ⟨rfl, rfl, rfl⟩⟩
  · exact ⟨rfl, fun h => absurd rfl h⟩
  · exact ⟨rfl, fun h => absurd rfl h⟩

example : ∃ f t' idx', writeFile (fun _ => 7) (fun _ => 9) ⟨10, fun i => 9 - i⟩ ioTree = .ok f ∧ readFile (fun _ => 3) f = .ok (t', idx') ∧ CopyOf 2 ioTree t' ∧
    idx'.n = 5 ∧ ∀ i < 5, idx'.v i = 9 - (2 + i) :=
  C49_roundtrip _ _ _ (by decide) ioTree_storable (by decide)

end H2.Props
