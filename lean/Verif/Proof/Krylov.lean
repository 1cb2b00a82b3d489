import Verif.Spec.Krylov
import Verif.Proof.Dense
import Mathlib.Tactic.Ring
import Mathlib.Tactic.LinearCombination

/-! # Krylov methods: from the memory to sequences of vectors -/

set_option linter.unusedSectionVars false

namespace H2.Krylov
open Spec Dense
variable {K : Type} [Field K] [StarRing K] {ι : Type} [DecidableEq ι] {C : Nat → Prop}

theorem _root_.H2.Spec.NanOr.bind {α β : Type _} {x : R α} {f : α → R β} {P : α → Prop} {Q : β → Prop} (h : NanOr x P)
    (hf : ∀ a, P a → NanOr (f a) Q) : NanOr (x >>= f) Q := by
  rcases h with h | ⟨a, h, hp⟩
  · exact .inl (by rw [h]; rfl)
  · rw [h, ok_bind]; exact hf a hp

theorem _root_.H2.Spec.NanOr.mono {α : Type _} {x : R α} {P Q : α → Prop} (h : NanOr x P) (hf : ∀ a, P a → Q a) : NanOr x Q := by
  rcases h with h | h
  · exact .inl h
  · exact .inr (h.mono hf)

theorem _root_.H2.Spec.NanOr.tot {α β : Type _} {x : R α} {f : α → R β} {P : α → Prop} {Q : β → Prop} (h : Tot x P)
    (hf : ∀ a, P a → NanOr (f a) Q) : NanOr (x >>= f) Q := NanOr.bind (.inr h) hf

theorem _root_.H2.Spec.NanIff.tot {α β : Type _} {x : R α} {f : α → R β} {P : α → Prop} {Q : β → Prop} {c : Prop} (h : Tot x P)
    (hf : ∀ a, P a → NanIff (f a) c Q) : NanIff (x >>= f) c Q := by
  obtain ⟨a, h, hp⟩ := h
  rw [h, ok_bind]; exact hf a hp

theorem _root_.H2.Spec.NanIff.nanOr {α : Type _} {x : R α} {P : α → Prop} {c : Prop} (h : NanIff x c P) : NanOr x P := h.imp And.right And.right

theorem _root_.H2.Spec.NanIff.mono {α : Type _} {x : R α} {P Q : α → Prop} {c : Prop} (h : NanIff x c P) (hf : ∀ a, P a → Q a) : NanIff x c Q :=
  h.imp id fun h => ⟨h.1, h.2.mono hf⟩

theorem _root_.H2.Spec.NanIff.div {β : Type _} {x y : K} {f : K → R β} {Q : β → Prop} {c c' : Prop} (e : (y = 0 ∨ c') ↔ c)
    (hf : y ≠ 0 → NanIff (f (x / y)) c' Q) : NanIff (cdiv x y >>= f) c Q := by
  unfold cdiv
  by_cases h : y = 0
  · rw [if_pos h]; exact .inl ⟨e.mp (.inl h), rfl⟩
  · rw [if_neg h, ok_bind]
    rcases hf h with h' | h'
    · exact .inl ⟨e.mp (.inr h'.1), h'.2⟩
    · exact .inr ⟨fun hc => (e.mpr hc).elim h h'.1, h'.2⟩

theorem _root_.H2.Spec.NanIff.div' {β : Type _} {x y : K} {f : K → R β} {Q : β → Prop} {c c' : Prop} (e : (y = 0 ∨ c') ↔ c)
    (hf : y ≠ 0 → ∀ q, NanIff (f q) c' Q) : NanIff (cdiv x y >>= f) c Q := NanIff.div e fun h => hf h _

theorem _root_.H2.Spec.NanIff.end {α : Type _} {x : R α} {P : α → Prop} (h : Tot x P) : NanIff x False P := .inr ⟨id, h⟩

theorem cdiv_nan (x y : K) : NanOr (cdiv x y) (fun q => y ≠ 0 ∧ q = x / y) := by
  unfold cdiv
  by_cases h : y = 0
  · rw [if_pos h]; exact .inl rfl
  · rw [if_neg h]; exact .inr ⟨_, rfl, h, rfl⟩

theorem cdiv_ok {x y : K} (h : y ≠ 0) : cdiv x y = .ok (x / y) := by unfold cdiv; rw [if_neg h]
theorem cdiv_zero {x y : K} (h : y = 0) : cdiv x y = .error .nan := by unfold cdiv; rw [if_pos h]

/-- the vectors hold `F`, everything else is as in `m0` -/
def Holds (v : ι → Vec) (m0 : Mem K) (F : ι → Nat → K) (m : Mem K) : Prop :=
  (∀ i, ∀ k < (v i).dim, m ((v i).addr k) = some (F i k)) ∧ ∀ c, (∀ i, ¬ (v i).Cell c) → m c = m0 c

variable {v : ι → Vec} {m0 m : Mem K} {F : ι → Nat → K} {dim : ι → Nat}

theorem Holds.init (h : Separate C v dim m) : Holds v m (fun i => (v i).val m) m :=
  ⟨fun i _ hk => (h.1 i).1.1.some hk, fun _ _ => rfl⟩

theorem Holds.valid (h : Holds v m0 F m) (i : ι) : (v i).Valid m := fun k hk => by rw [h.1 i k hk]; rfl
theorem Holds.val (h : Holds v m0 F m) (i : ι) {k : Nat} (hk : k < (v i).dim) : (v i).val m k = F i k := by
  unfold Vec.val; rw [h.1 i k hk]; rfl

theorem Holds.sep (h : Holds v m0 F m) (hs : Separate C v dim m0) : Separate C v dim m :=
  ⟨fun i => ⟨⟨h.valid i, (hs.1 i).1.2⟩, (hs.1 i).2⟩, hs.2⟩

theorem Holds.agree (h : Holds v m0 F m) (hs : Separate C v dim m0) (c : Nat) (hc : C c) : m c = m0 c :=
  h.2 c fun i hi => (hs.1 i).1.2 c hi hc

theorem Holds.congr {G : ι → Nat → K} (h : Holds v m0 F m) (e : ∀ i k, k < (v i).dim → F i k = G i k) : Holds v m0 G m :=
  ⟨fun i k hk => by rw [h.1 i k hk, e i k hk], h.2⟩

theorem Holds.set (hs : Separate C v dim m0) (h : Holds v m0 F m) {j : ι} {G : Nat → K} {m' : Mem K} (hb : VecBecomes (v j) m G m') :
    Holds v m0 (Function.update F j G) m' := by
  refine ⟨fun i k hk => ?_, fun c hc => by rw [hb.2.2 c (hc j), h.2 c hc]⟩
  by_cases e : i = j
  · subst e
    rw [Function.update_self, hb.1.some hk, hb.2.1 k hk]
  · rw [Function.update_of_ne e, hb.2.2 _ (hs.2 i j e _ (Vec.cell_addr hk)), h.1 i k hk]

theorem Holds.copy (hs : Separate C v dim m0) (h : Holds v m0 F m) {i j : ι} (hij : i ≠ j) (hd : dim i = dim j) :
    Tot (copyVec (v i) (v j) m) (Holds v m0 (Function.update F j (F i))) := by
  refine (copyVec_tot (h.valid i) (h.valid j) (hs.2 i j hij) (by rw [(hs.1 i).2, (hs.1 j).2, hd])).mono fun m' hb => ?_
  refine (h.set hs hb).congr fun l k hk => ?_
  by_cases e : l = j
  · subst e
    rw [Function.update_self, Function.update_self]
    exact h.val i (by rwa [(hs.1 i).2, hd, ← (hs.1 l).2])
  · rw [Function.update_of_ne e, Function.update_of_ne e]

theorem Holds.clear (hs : Separate C v dim m0) (h : Holds v m0 F m) (j : ι) :
    Tot (clearVec (v j) m) (Holds v m0 (Function.update F j fun _ => 0)) :=
  (clearVec_tot (h.valid j)).mono fun _ hb => h.set hs hb

theorem Holds.scale (hs : Separate C v dim m0) (h : Holds v m0 F m) (j : ι) (alpha : K) :
    Tot (scaleVec alpha (v j) m) (Holds v m0 (Function.update F j fun k => alpha * F j k)) := by
  refine (scaleVec_tot (h.valid j) alpha).mono fun m' hb => (h.set hs hb).congr fun l k hk => ?_
  by_cases e : l = j
  · subst e
    rw [Function.update_self, Function.update_self, h.val l hk]
  · rw [Function.update_of_ne e, Function.update_of_ne e]

theorem Holds.add (hs : Separate C v dim m0) (h : Holds v m0 F m) {i j : ι} (hij : i ≠ j) (hd : dim i = dim j) (alpha : K) :
    Tot (addVec alpha (v i) (v j) m) (Holds v m0 (Function.update F j fun k => F j k + alpha * F i k)) := by
  refine (addVec_tot (h.valid i) (h.valid j) (hs.2 i j hij) (by rw [(hs.1 i).2, (hs.1 j).2, hd]) alpha).mono fun m' hb =>
    (h.set hs hb).congr fun l k hk => ?_
  by_cases e : l = j
  · subst e
    have hk' : k < (v i).dim := by rwa [(hs.1 i).2, hd, ← (hs.1 l).2]
    rw [Function.update_self, Function.update_self, if_pos hk', h.val l hk, h.val i hk']
  · rw [Function.update_of_ne e, Function.update_of_ne e]


theorem Holds.dot (hs : Separate C v dim m0) (h : Holds v m0 F m) (i j : ι) (hd : dim i = dim j) :
    dotprodVec (v i) (v j) m = .ok (ip (dim i) (F i) (F j)) := by
  rw [dotprodVec_tot (h.valid i) (h.valid j) (by rw [(hs.1 i).2, (hs.1 j).2, hd])]
  congr 1
  rw [(hs.1 i).2]
  refine Finset.sum_congr rfl fun k hk => ?_
  have hk := Finset.mem_range.mp hk
  rw [h.val i (by rw [(hs.1 i).2]; exact hk), h.val j (by rw [(hs.1 j).2, ← hd]; exact hk)]

theorem Holds.eval {n : Nat} {A : Nat → Nat → K} {f : AddEval K} (hf : IsAddEval f n A C m0) (hs : Separate C v dim m0) (h : Holds v m0 F m)
    {i j : ι} (hij : i ≠ j) (hi : dim i = n) (hj : dim j = n) (alpha : K) :
    Tot (f alpha (v i) (v j) m) (Holds v m0 (Function.update F j fun k => F j k + alpha * mv n A (F i) k)) := by
  refine (hf alpha (v i) (v j) m (h.agree hs) (hs.1 i).1.2 (hs.1 j).1.2 (h.valid i) (h.valid j) (by rw [(hs.1 i).2, hi]) (by rw [(hs.1 j).2, hj]) (hs.2 i j hij)).mono
    fun m' hb => (h.set hs hb).congr fun l k hk => ?_
  by_cases e : l = j
  · subst e
    rw [Function.update_self, Function.update_self, h.val l hk]
    congr 2
    exact Finset.sum_congr rfl fun t ht => by rw [h.val i (by rw [(hs.1 i).2, hi]; exact Finset.mem_range.mp ht)]
  · rw [Function.update_of_ne e, Function.update_of_ne e]

theorem Holds.mvm {n1 n2 : Nat} {A : Nat → Nat → K} {f : MvmCb K} (hf : IsMvm f n2 n1 A C m0) (hs : Separate C v dim m0) (h : Holds v m0 F m)
    {i j : ι} (hij : i ≠ j) (trans : Bool) (hi : dim i = if trans then n2 else n1) (hj : dim j = if trans then n1 else n2) (alpha : K) :
    Tot (f alpha trans (v i) (v j) m) (Holds v m0 (Function.update F j fun k =>
      F j k + alpha * mv (if trans then n2 else n1) (op trans A) (F i) k)) := by
  refine (hf alpha trans (v i) (v j) m (h.agree hs) (hs.1 i).1.2 (hs.1 j).1.2 (h.valid i) (h.valid j) (by rw [(hs.1 i).2, hi]) (by rw [(hs.1 j).2, hj]) (hs.2 i j hij)).mono
    fun m' hb => (h.set hs hb).congr fun l k hk => ?_
  by_cases e : l = j
  · subst e
    rw [Function.update_self, Function.update_self, h.val l hk]
    congr 2
    exact Finset.sum_congr rfl fun t ht => by rw [h.val i (by rw [(hs.1 i).2, hi]; exact Finset.mem_range.mp ht)]
  · rw [Function.update_of_ne e, Function.update_of_ne e]


theorem Holds.prcd {n : Nat} {N : (Fin n → K) → Fin n → K} {f : Prcd K} (hf : IsPrcd f n N C m0) (hs : Separate C v dim m0)
    (h : Holds v m0 F m) {j : ι} (hj : dim j = n) : Tot (f (v j) m) (Holds v m0 (Function.update F j (ext N (F j)))) := by
  have hjd : (v j).dim = n := by rw [(hs.1 j).2, hj]
  refine (hf (v j) m (h.agree hs) (hs.1 j).1.2 (h.valid j) hjd).mono fun m' hb => h.set hs ⟨hb.1, fun i hi => ?_, hb.2.1⟩
  have hi' : i < n := hjd ▸ hi
  have := congrFun hb.2.2 ⟨i, hi'⟩
  unfold ext
  rw [dif_pos hi']
  refine this.trans ?_
  refine congrFun (congrArg N ?_) _
  funext k
  exact h.val j (by rw [hjd]; exact k.2)

theorem ext_id {n : Nat} (f : Nat → K) : ext (id : (Fin n → K) → _) f = f := by
  funext i; unfold ext; split <;> rfl

theorem Holds.prcdOpt {n : Nat} {N : (Fin n → K) → Fin n → K} {f : Option (Prcd K)} (hf : IsPrcdOpt f n N C m0) (hs : Separate C v dim m0)
    (h : Holds v m0 F m) {j : ι} (hj : dim j = n) : Tot (applyPrcd f (v j) m) (Holds v m0 (Function.update F j (ext N (F j)))) := by
  cases f with
  | none =>
    obtain rfl : N = id := hf
    rw [ext_id, Function.update_eq_self]
    exact Tot.pure h
  | some f => exact h.prcd hf hs hj

/-! ### the steps as functions of the vectors -/

section cg
variable {n : Nat} {A : Nat → Nat → K} {f : AddEval K} {v : CgVar → Vec} {m0 m : Mem K} {F : CgVar → Nat → K}

/-- `F` after `init_cg` -/
def cgInitF (n : Nat) (A : Nat → Nat → K) (F : CgVar → Nat → K) : CgVar → Nat → K
  | .r => fun i => F .b i - mv n A (F .x) i
  | .p => fun i => F .b i - mv n A (F .x) i
  | s => F s

/-- `F` after `step_cg` with the coefficients `l` and `mu` -/
def cgStepF (n : Nat) (A : Nat → Nat → K) (F : CgVar → Nat → K) (l mu : K) : CgVar → Nat → K
  | .x => fun i => F .x i + l * F .p i
  | .r => fun i => F .r i - l * mv n A (F .p) i
  | .p => fun i => F .r i - l * mv n A (F .p) i - mu * F .p i
  | .a => mv n A (F .p)
  | s => F s

theorem initCg_tot (hf : IsAddEval f n A C m0) (hs : Separate C v (fun _ => n) m0) (h : Holds v m0 F m) :
    Tot (initCg f (v .b) (v .x) (v .r) (v .p) m) (Holds v m0 (cgInitF n A F)) := by
  unfold initCg
  refine Tot.bind (h.copy hs (i := .b) (j := .r) (by decide) rfl) fun m1 _ h1 => ?_
  refine Tot.bind (h1.eval hf hs (i := .x) (j := .r) (by decide) rfl rfl _) fun m2 _ h2 => ?_
  refine (h2.copy hs (i := .r) (j := .p) (by decide) rfl).mono fun m3 h3 => h3.congr fun s k _ => ?_
  cases s <;> simp [Function.update, cgInitF, sub_eq_add_neg]

theorem stepCg_tot (hf : IsAddEval f n A C m0) (hs : Separate C v (fun _ => n) m0) (h : Holds v m0 F m) (gamma : K)
    (hg : gamma = ip n (F .p) (mv n A (F .p))) :
    (gamma = 0 ∧ stepCg f (v .x) (v .r) (v .p) (v .a) m = .error .nan) ∨
    (gamma ≠ 0 ∧ Tot (stepCg f (v .x) (v .r) (v .p) (v .a) m) (Holds v m0 (cgStepF n A F (ip n (F .p) (F .r) / gamma)
      (ip n (mv n A (F .p)) (fun i => F .r i - ip n (F .p) (F .r) / gamma * mv n A (F .p) i) / gamma)))) := by
  unfold stepCg
  obtain ⟨m1, e1, h1⟩ := h.clear hs .a
  obtain ⟨m2, e2, h2⟩ := h1.eval hf hs (i := .p) (j := .a) (by decide) rfl rfl 1
  replace h2 := h2.congr (G := Function.update F .a (mv n A (F .p))) (fun s k _ => by cases s <;> simp [Function.update])
  rw [e1, ok_bind, e2, ok_bind, h2.dot hs .p .a rfl, ok_bind, h2.dot hs .p .r rfl, ok_bind]
  simp only [Function.update_self, ne_eq, reduceCtorEq, not_false_eq_true, Function.update_of_ne]
  rw [← hg]
  by_cases hz : gamma = 0
  · exact .inl ⟨hz, by rw [cdiv_zero hz]; rfl⟩
  · refine .inr ⟨hz, ?_⟩
    rw [cdiv_ok hz, ok_bind]
    refine Tot.bind (h2.add hs (i := .p) (j := .x) (by decide) rfl _) fun m3 _ h3 => ?_
    refine Tot.bind (h3.add hs (i := .a) (j := .r) (by decide) rfl _) fun m4 _ h4 => ?_
    rw [h4.dot hs .a .r rfl, ok_bind, cdiv_ok hz, ok_bind]
    refine Tot.bind (h4.scale hs .p _) fun m5 _ h5 => ?_
    refine (h5.add hs (i := .r) (j := .p) (by decide) rfl _).mono fun m6 h6 => h6.congr fun s k _ => ?_
    cases s <;> simp [Function.update, cgStepF, sub_eq_add_neg] <;> ring

end cg

section pcg
variable {n : Nat} {A : Nat → Nat → K} {f : AddEval K} {v : PcgVar → Vec} {m0 m : Mem K} {F : PcgVar → Nat → K}
  {N : (Fin n → K) → Fin n → K} {prcd : Option (Prcd K)}

/-- `F` after `init_pcg` -/
def pcgInitF (n : Nat) (A : Nat → Nat → K) (N : (Fin n → K) → Fin n → K) (F : PcgVar → Nat → K) : PcgVar → Nat → K
  | .r => fun i => F .b i - mv n A (F .x) i
  | .q => ext N fun i => F .b i - mv n A (F .x) i
  | .p => ext N fun i => F .b i - mv n A (F .x) i
  | s => F s

/-- `F` after `step_pcg` with the coefficients `l` and `mu` -/
def pcgStepF (n : Nat) (A : Nat → Nat → K) (N : (Fin n → K) → Fin n → K) (F : PcgVar → Nat → K) (l mu : K) : PcgVar → Nat → K
  | .x => fun i => F .x i + l * F .p i
  | .r => fun i => F .r i - l * mv n A (F .p) i
  | .q => ext N fun i => F .r i - l * mv n A (F .p) i
  | .p => fun i => ext N (fun i => F .r i - l * mv n A (F .p) i) i - mu * F .p i
  | .a => mv n A (F .p)
  | s => F s

theorem initPcg_tot (hf : IsAddEval f n A C m0) (hN : IsPrcdOpt prcd n N C m0) (hs : Separate C v (fun _ => n) m0) (h : Holds v m0 F m) :
    Tot (initPcg f prcd (v .b) (v .x) (v .r) (v .q) (v .p) m) (Holds v m0 (pcgInitF n A N F)) := by
  unfold initPcg
  refine Tot.bind (h.copy hs (i := .b) (j := .r) (by decide) rfl) fun m1 _ h1 => ?_
  refine Tot.bind (h1.eval hf hs (i := .x) (j := .r) (by decide) rfl rfl _) fun m2 _ h2 => ?_
  refine Tot.bind (h2.copy hs (i := .r) (j := .q) (by decide) rfl) fun m3 _ h3 => ?_
  refine Tot.bind (h3.prcdOpt hN hs (j := .q) rfl) fun m4 _ h4 => ?_
  refine (h4.copy hs (i := .q) (j := .p) (by decide) rfl).mono fun m3 h3 => h3.congr fun s k _ => ?_
  cases s <;> simp [Function.update, pcgInitF, sub_eq_add_neg]

theorem stepPcg_tot (hf : IsAddEval f n A C m0) (hN : IsPrcdOpt prcd n N C m0) (hs : Separate C v (fun _ => n) m0) (h : Holds v m0 F m)
    (gamma : K) (hg : gamma = ip n (F .p) (mv n A (F .p))) :
    (gamma = 0 ∧ stepPcg f prcd (v .x) (v .r) (v .q) (v .p) (v .a) m = .error .nan) ∨
    (gamma ≠ 0 ∧ Tot (stepPcg f prcd (v .x) (v .r) (v .q) (v .p) (v .a) m) (Holds v m0 (pcgStepF n A N F (ip n (F .p) (F .r) / gamma)
      (ip n (mv n A (F .p)) (ext N fun i => F .r i - ip n (F .p) (F .r) / gamma * mv n A (F .p) i) / gamma)))) := by
  unfold stepPcg
  obtain ⟨m1, e1, h1⟩ := h.clear hs .a
  obtain ⟨m2, e2, h2⟩ := h1.eval hf hs (i := .p) (j := .a) (by decide) rfl rfl 1
  replace h2 := h2.congr (G := Function.update F .a (mv n A (F .p))) (fun s k _ => by cases s <;> simp [Function.update])
  rw [e1, ok_bind, e2, ok_bind, h2.dot hs .p .a rfl, ok_bind, h2.dot hs .p .r rfl, ok_bind]
  simp only [Function.update_self, ne_eq, reduceCtorEq, not_false_eq_true, Function.update_of_ne]
  rw [← hg]
  by_cases hz : gamma = 0
  · exact .inl ⟨hz, by rw [cdiv_zero hz]; rfl⟩
  · refine .inr ⟨hz, ?_⟩
    rw [cdiv_ok hz, ok_bind]
    refine Tot.bind (h2.add hs (i := .p) (j := .x) (by decide) rfl _) fun m3 _ h3 => ?_
    refine Tot.bind (h3.add hs (i := .a) (j := .r) (by decide) rfl _) fun m4 _ h4 => ?_
    refine Tot.bind (h4.copy hs (i := .r) (j := .q) (by decide) rfl) fun m5 _ h5 => ?_
    refine Tot.bind (h5.prcdOpt hN hs (j := .q) rfl) fun m6 _ h6 => ?_
    rw [h6.dot hs .a .q rfl, ok_bind, cdiv_ok hz, ok_bind]
    refine Tot.bind (h6.scale hs .p _) fun m5 _ h5 => ?_
    refine (h5.add hs (i := .q) (j := .p) (by decide) rfl _).mono fun m6 h6 => h6.congr fun s k _ => ?_
    cases s <;> simp [Function.update, pcgStepF, sub_eq_add_neg] <;> ring

end pcg

section uzawa
variable {n1 n2 : Nat} {B : Nat → Nat → K} {mvm : MvmCb K} {S : (Fin n1 → K) → Fin n1 → K} {solve : Prcd K}


/-- `F` after `init_uzawa` -/
def uzInitF (n1 n2 : Nat) (B : Nat → Nat → K) (S : (Fin n1 → K) → Fin n1 → K) (F : UzVar → Nat → K) : UzVar → Nat → K
  | .x1 => ext S fun i => F .b1 i - mv n2 (op true B) (F .x2) i
  | .r2 => fun i => mv n1 B (ext S fun i => F .b1 i - mv n2 (op true B) (F .x2) i) i - F .b2 i
  | .p2 => fun i => mv n1 B (ext S fun i => F .b1 i - mv n2 (op true B) (F .x2) i) i - F .b2 i
  | s => F s

/-- `F` after `step_uzawa` with the coefficients `l` and `mu` -/
def uzStepF (n1 n2 : Nat) (B : Nat → Nat → K) (S : (Fin n1 → K) → Fin n1 → K) (F : UzVar → Nat → K) (l mu : K) : UzVar → Nat → K
  | .a1 => ext S (mv n2 (op true B) (F .p2))
  | .s2 => mv n1 B (ext S (mv n2 (op true B) (F .p2)))
  | .x2 => fun i => F .x2 i + l * F .p2 i
  | .x1 => fun i => F .x1 i - l * ext S (mv n2 (op true B) (F .p2)) i
  | .r2 => fun i => F .r2 i - l * mv n1 B (ext S (mv n2 (op true B) (F .p2))) i
  | .p2 => fun i => F .r2 i - l * mv n1 B (ext S (mv n2 (op true B) (F .p2))) i - mu * F .p2 i
  | s => F s

theorem initUzawa_tot {v : UzVar → Vec} {m0 m : Mem K} {F : UzVar → Nat → K} (hf : IsMvm mvm n2 n1 B C m0) (hS : IsPrcd solve n1 S C m0)
    (hs : Separate C v (uzDim n1 n2) m0) (h : Holds v m0 F m) :
    Tot (initUzawa solve mvm (v .b1) (v .b2) (v .x1) (v .x2) (v .r2) (v .p2) m) (Holds v m0 (uzInitF n1 n2 B S F)) := by
  unfold initUzawa
  refine Tot.bind (h.copy hs (i := .b1) (j := .x1) (by decide) rfl) fun m1 _ h1 => ?_
  refine Tot.bind (h1.mvm hf hs (i := .x2) (j := .x1) (by decide) true rfl rfl _) fun m2 _ h2 => ?_
  refine Tot.bind (h2.prcd hS hs (j := .x1) rfl) fun m3 _ h3 => ?_
  refine Tot.bind (h3.clear hs .r2) fun m4 _ h4 => ?_
  refine Tot.bind (h4.mvm hf hs (i := .x1) (j := .r2) (by decide) false rfl rfl _) fun m5 _ h5 => ?_
  refine Tot.bind (h5.add hs (i := .b2) (j := .r2) (by decide) rfl _) fun m6 _ h6 => ?_
  refine (h6.copy hs (i := .r2) (j := .p2) (by decide) rfl).mono fun m3 h3 => h3.congr fun s k _ => ?_
  have e : op false B = B := by funext i j; simp [op]
  cases s <;> simp [Function.update, uzInitF, sub_eq_add_neg, e]

theorem stepUzawa_nan {v : UzVar → Vec} {m0 m : Mem K} {F : UzVar → Nat → K} (hf : IsMvm mvm n2 n1 B C m0) (hS : IsPrcd solve n1 S C m0)
    (hs : Separate C v (uzDim n1 n2) m0) (h : Holds v m0 F m) :
    NanIff (stepUzawa solve mvm (v .x1) (v .x2) (v .r2) (v .p2) (v .a1) (v .s2) m)
      (ip n2 (mv n1 B (ext S (mv n2 (op true B) (F .p2)))) (F .p2) = 0)
      (fun m' => ∃ l mu s, s = mv n1 B (ext S (mv n2 (op true B) (F .p2))) ∧ l = ip n2 (F .p2) (F .r2) / ip n2 s (F .p2) ∧
        mu = ip n2 s (fun i => F .r2 i - l * s i) / star (ip n2 s (F .p2)) ∧ Holds v m0 (uzStepF n1 n2 B S F l mu) m') := by
  have e : op false B = B := by funext i j; simp [op]
  unfold stepUzawa
  refine NanIff.tot (h.clear hs .a1) fun m1 h1 => ?_
  refine NanIff.tot (h1.mvm hf hs (i := .p2) (j := .a1) (by decide) true rfl rfl _) fun m2 h2 => ?_
  refine NanIff.tot (h2.prcd hS hs (j := .a1) rfl) fun m3 h3 => ?_
  refine NanIff.tot (h3.clear hs .s2) fun m4 h4 => ?_
  refine NanIff.tot (h4.mvm hf hs (i := .a1) (j := .s2) (by decide) false rfl rfl _) fun m5 h5 => ?_
  replace h5 := h5.congr (G := Function.update (Function.update F .a1 (ext S (mv n2 (op true B) (F .p2)))) .s2
    (mv n1 B (ext S (mv n2 (op true B) (F .p2))))) (fun s k _ => by cases s <;> simp [Function.update, e])
  rw [h5.dot hs .s2 .p2 rfl, ok_bind, h5.dot hs .p2 .r2 rfl, ok_bind]
  refine NanIff.div (c' := False) (by simp [uzDim]) fun hg => ?_
  refine NanIff.tot (h5.add hs (i := .p2) (j := .x2) (by decide) rfl _) fun m6 h6 => ?_
  refine NanIff.tot (h6.add hs (i := .s2) (j := .r2) (by decide) rfl _) fun m7 h7 => ?_
  refine NanIff.tot (h7.add hs (i := .a1) (j := .x1) (by decide) rfl _) fun m8 h8 => ?_
  rw [h8.dot hs .s2 .r2 rfl, ok_bind]
  refine NanIff.div (c' := False) (by simpa using hg) fun _ => ?_
  refine NanIff.tot (h8.scale hs .p2 _) fun m9 h9 => ?_
  refine .end ((h9.add hs (i := .r2) (j := .p2) (by decide) rfl _).mono fun m10 h10 => ⟨_, _, _, rfl, rfl, rfl, h10.congr fun s k _ => ?_⟩)
  cases s <;> simp [Function.update, uzStepF, uzDim, sub_eq_add_neg] <;> ring


/-- `F` after `init_puzawa` -/
def puzInitF (n1 n2 : Nat) (B : Nat → Nat → K) (S : (Fin n1 → K) → Fin n1 → K) (N : (Fin n2 → K) → Fin n2 → K)
    (F : PuzVar → Nat → K) : PuzVar → Nat → K
  | .x1 => ext S fun i => F .b1 i - mv n2 (op true B) (F .x2) i
  | .r2 => fun i => mv n1 B (ext S fun i => F .b1 i - mv n2 (op true B) (F .x2) i) i - F .b2 i
  | .q2 => ext N fun i => mv n1 B (ext S fun i => F .b1 i - mv n2 (op true B) (F .x2) i) i - F .b2 i
  | .p2 => ext N fun i => mv n1 B (ext S fun i => F .b1 i - mv n2 (op true B) (F .x2) i) i - F .b2 i
  | s => F s

/-- `F` after `step_puzawa` with the coefficients `l` and `mu` -/
def puzStepF (n1 n2 : Nat) (B : Nat → Nat → K) (S : (Fin n1 → K) → Fin n1 → K) (N : (Fin n2 → K) → Fin n2 → K)
    (F : PuzVar → Nat → K) (l mu : K) : PuzVar → Nat → K
  | .a1 => ext S (mv n2 (op true B) (F .p2))
  | .s2 => mv n1 B (ext S (mv n2 (op true B) (F .p2)))
  | .x2 => fun i => F .x2 i + l * F .p2 i
  | .x1 => fun i => F .x1 i - l * ext S (mv n2 (op true B) (F .p2)) i
  | .r2 => fun i => F .r2 i - l * mv n1 B (ext S (mv n2 (op true B) (F .p2))) i
  | .q2 => ext N fun i => F .r2 i - l * mv n1 B (ext S (mv n2 (op true B) (F .p2))) i
  | .p2 => fun i => ext N (fun i => F .r2 i - l * mv n1 B (ext S (mv n2 (op true B) (F .p2))) i) i - mu * F .p2 i
  | s => F s

variable {N : (Fin n2 → K) → Fin n2 → K} {prcd : Option (Prcd K)}

theorem initPuzawa_tot {v : PuzVar → Vec} {m0 m : Mem K} {F : PuzVar → Nat → K} (hf : IsMvm mvm n2 n1 B C m0) (hS : IsPrcd solve n1 S C m0)
    (hN : IsPrcdOpt prcd n2 N C m0) (hs : Separate C v (puzDim n1 n2) m0) (h : Holds v m0 F m) :
    Tot (initPuzawa solve mvm prcd (v .b1) (v .b2) (v .x1) (v .x2) (v .r2) (v .q2) (v .p2) m)
      (Holds v m0 (puzInitF n1 n2 B S N F)) := by
  unfold initPuzawa
  refine Tot.bind (h.copy hs (i := .b1) (j := .x1) (by decide) rfl) fun m1 _ h1 => ?_
  refine Tot.bind (h1.mvm hf hs (i := .x2) (j := .x1) (by decide) true rfl rfl _) fun m2 _ h2 => ?_
  refine Tot.bind (h2.prcd hS hs (j := .x1) rfl) fun m3 _ h3 => ?_
  refine Tot.bind (h3.clear hs .r2) fun m4 _ h4 => ?_
  refine Tot.bind (h4.mvm hf hs (i := .x1) (j := .r2) (by decide) false rfl rfl _) fun m5 _ h5 => ?_
  refine Tot.bind (h5.add hs (i := .b2) (j := .r2) (by decide) rfl _) fun m6 _ h6 => ?_
  refine Tot.bind (h6.copy hs (i := .r2) (j := .q2) (by decide) rfl) fun m7 _ h7 => ?_
  refine Tot.bind (h7.prcdOpt hN hs (j := .q2) rfl) fun m8 _ h8 => ?_
  refine (h8.copy hs (i := .q2) (j := .p2) (by decide) rfl).mono fun m3 h3 => h3.congr fun s k _ => ?_
  have e : op false B = B := by funext i j; simp [op]
  cases s <;> simp [Function.update, puzInitF, sub_eq_add_neg, e]

theorem stepPuzawa_nan {v : PuzVar → Vec} {m0 m : Mem K} {F : PuzVar → Nat → K} (hf : IsMvm mvm n2 n1 B C m0) (hS : IsPrcd solve n1 S C m0)
    (hN : IsPrcdOpt prcd n2 N C m0) (hs : Separate C v (puzDim n1 n2) m0) (h : Holds v m0 F m) :
    NanIff (stepPuzawa solve mvm prcd (v .x1) (v .x2) (v .r2) (v .q2) (v .p2) (v .a1) (v .s2) m)
      (ip n2 (mv n1 B (ext S (mv n2 (op true B) (F .p2)))) (F .p2) = 0)
      (fun m' => ∃ l mu s, s = mv n1 B (ext S (mv n2 (op true B) (F .p2))) ∧ l = ip n2 (F .p2) (F .r2) / ip n2 s (F .p2) ∧
        mu = ip n2 s (ext N fun i => F .r2 i - l * s i) / star (ip n2 s (F .p2)) ∧ Holds v m0 (puzStepF n1 n2 B S N F l mu) m') := by
  have e : op false B = B := by funext i j; simp [op]
  unfold stepPuzawa
  refine NanIff.tot (h.clear hs .a1) fun m1 h1 => ?_
  refine NanIff.tot (h1.mvm hf hs (i := .p2) (j := .a1) (by decide) true rfl rfl _) fun m2 h2 => ?_
  refine NanIff.tot (h2.prcd hS hs (j := .a1) rfl) fun m3 h3 => ?_
  refine NanIff.tot (h3.clear hs .s2) fun m4 h4 => ?_
  refine NanIff.tot (h4.mvm hf hs (i := .a1) (j := .s2) (by decide) false rfl rfl _) fun m5 h5 => ?_
  replace h5 := h5.congr (G := Function.update (Function.update F .a1 (ext S (mv n2 (op true B) (F .p2)))) .s2
    (mv n1 B (ext S (mv n2 (op true B) (F .p2))))) (fun s k _ => by cases s <;> simp [Function.update, e])
  rw [h5.dot hs .s2 .p2 rfl, ok_bind, h5.dot hs .p2 .r2 rfl, ok_bind]
  refine NanIff.div (c' := False) (by simp [puzDim]) fun hg => ?_
  refine NanIff.tot (h5.add hs (i := .p2) (j := .x2) (by decide) rfl _) fun m6 h6 => ?_
  refine NanIff.tot (h6.add hs (i := .s2) (j := .r2) (by decide) rfl _) fun m7 h7 => ?_
  refine NanIff.tot (h7.copy hs (i := .r2) (j := .q2) (by decide) rfl) fun m7 h7 => ?_
  refine NanIff.tot (h7.prcdOpt hN hs (j := .q2) rfl) fun m7 h7 => ?_
  refine NanIff.tot (h7.add hs (i := .a1) (j := .x1) (by decide) rfl _) fun m8 h8 => ?_
  rw [h8.dot hs .s2 .q2 rfl, ok_bind]
  refine NanIff.div (c' := False) (by simpa using hg) fun _ => ?_
  refine NanIff.tot (h8.scale hs .p2 _) fun m9 h9 => ?_
  refine .end ((h9.add hs (i := .q2) (j := .p2) (by decide) rfl _).mono fun m10 h10 => ⟨_, _, _, rfl, rfl, rfl, h10.congr fun s k _ => ?_⟩)
  cases s <;> simp [Function.update, puzStepF, puzDim, sub_eq_add_neg] <;> ring

end uzawa

section bicg
variable {n : Nat} {A At : Nat → Nat → K} {f ft : AddEval K}

/-- `F` after `init_bicg` -/
def bicgInitF (n : Nat) (A : Nat → Nat → K) (F : BicgVar → Nat → K) : BicgVar → Nat → K
  | .r => fun i => F .b i - mv n A (F .x) i
  | .rt => fun i => F .b i - mv n A (F .x) i
  | .p => fun i => F .b i - mv n A (F .x) i
  | .pt => fun i => F .b i - mv n A (F .x) i
  | s => F s

/-- `F` after `step_bicg` with the coefficients `l` and `beta` -/
def bicgStepF (n : Nat) (A At : Nat → Nat → K) (F : BicgVar → Nat → K) (l beta : K) : BicgVar → Nat → K
  | .x => fun i => F .x i + l * F .p i
  | .r => fun i => F .r i - l * mv n A (F .p) i
  | .rt => fun i => F .rt i - l * mv n At (F .pt) i
  | .p => fun i => F .r i - l * mv n A (F .p) i + beta * F .p i
  | .pt => fun i => F .rt i - l * mv n At (F .pt) i + beta * F .pt i
  | .a => mv n A (F .p)
  | .at' => mv n At (F .pt)
  | s => F s

theorem initBicg_tot {v : BicgVar → Vec} {m0 m : Mem K} {F : BicgVar → Nat → K} (hf : IsAddEval f n A C m0)
    (hs : Separate C v (fun _ => n) m0) (h : Holds v m0 F m) :
    Tot (initBicg f (v .b) (v .x) (v .r) (v .rt) (v .p) (v .pt) m) (Holds v m0 (bicgInitF n A F)) := by
  unfold initBicg
  refine Tot.bind (h.copy hs (i := .b) (j := .r) (by decide) rfl) fun m1 _ h1 => ?_
  refine Tot.bind (h1.eval hf hs (i := .x) (j := .r) (by decide) rfl rfl _) fun m2 _ h2 => ?_
  refine Tot.bind (h2.copy hs (i := .r) (j := .rt) (by decide) rfl) fun m3 _ h3 => ?_
  refine Tot.bind (h3.copy hs (i := .r) (j := .p) (by decide) rfl) fun m4 _ h4 => ?_
  refine (h4.copy hs (i := .rt) (j := .pt) (by decide) rfl).mono fun m3 h3 => h3.congr fun s k _ => ?_
  cases s <;> simp [Function.update, bicgInitF, sub_eq_add_neg]

theorem stepBicg_nan {v : BicgVar → Vec} {m0 m : Mem K} {F : BicgVar → Nat → K} (hf : IsAddEval f n A C m0) (hft : IsAddEval ft n At C m0)
    (hs : Separate C v (fun _ => n) m0) (h : Holds v m0 F m) :
    NanIff (stepBicg f ft (v .x) (v .r) (v .rt) (v .p) (v .pt) (v .a) (v .at') m)
      (ip n (mv n A (F .p)) (F .pt) = 0 ∨ ip n (F .r) (F .rt) = 0) (fun m' => ∃ l beta, l = ip n (F .r) (F .rt) / ip n (mv n A (F .p)) (F .pt) ∧
      beta = ip n (bicgStepF n A At F l beta .r) (bicgStepF n A At F l beta .rt) / ip n (F .r) (F .rt) ∧
      Holds v m0 (bicgStepF n A At F l beta) m') := by
  unfold stepBicg
  refine NanIff.tot (h.clear hs .a) fun m1 h1 => ?_
  refine NanIff.tot (h1.eval hf hs (i := .p) (j := .a) (by decide) rfl rfl _) fun m2 h2 => ?_
  refine NanIff.tot (h2.clear hs .at') fun m3 h3 => ?_
  refine NanIff.tot (h3.eval hft hs (i := .pt) (j := .at') (by decide) rfl rfl _) fun m4 h4 => ?_
  replace h4 := h4.congr (G := Function.update (Function.update F .a (mv n A (F .p))) .at' (mv n At (F .pt)))
    (fun s k _ => by cases s <;> simp [Function.update])
  rw [h4.dot hs .a .pt rfl, ok_bind, h4.dot hs .r .rt rfl, ok_bind]
  refine NanIff.div (c' := ip n (F .r) (F .rt) = 0) (by simp) fun _ => ?_
  refine NanIff.tot (h4.add hs (i := .p) (j := .x) (by decide) rfl _) fun m6 h6 => ?_
  refine NanIff.tot (h6.add hs (i := .a) (j := .r) (by decide) rfl _) fun m7 h7 => ?_
  refine NanIff.tot (h7.add hs (i := .at') (j := .rt) (by decide) rfl _) fun m8 h8 => ?_
  rw [h8.dot hs .r .rt rfl, ok_bind]
  refine NanIff.div (c' := False) (by simp) fun _ => ?_
  refine NanIff.tot (h8.scale hs .p _) fun m9 h9 => ?_
  refine NanIff.tot (h9.add hs (i := .r) (j := .p) (by decide) rfl _) fun m10 h10 => ?_
  refine NanIff.tot (h10.scale hs .pt _) fun m11 h11 => ?_
  refine .end ((h11.add hs (i := .rt) (j := .pt) (by decide) rfl _).mono fun m12 h12 => ⟨ip n (F .r) (F .rt) / ip n (mv n A (F .p)) (F .pt),
    ip n (fun i => F .r i - ip n (F .r) (F .rt) / ip n (mv n A (F .p)) (F .pt) * mv n A (F .p) i)
      (fun i => F .rt i - ip n (F .r) (F .rt) / ip n (mv n A (F .p)) (F .pt) * mv n At (F .pt) i) / ip n (F .r) (F .rt),
    rfl, rfl, h12.congr
    fun s k _ => ?_⟩)
  cases s <;> simp [Function.update, bicgStepF, sub_eq_add_neg] <;> ring

/-- `F` after `init_bicgstab` -/
def stabInitF (n : Nat) (A : Nat → Nat → K) (F : StabVar → Nat → K) : StabVar → Nat → K
  | .r => fun i => F .b i - mv n A (F .x) i
  | .rt => fun i => F .b i - mv n A (F .x) i
  | .p => fun i => F .b i - mv n A (F .x) i
  | s => F s

/-- `F` after `step_bicgstab` with the coefficients `l`, `omega` and `beta` -/
def stabStepF (n : Nat) (A : Nat → Nat → K) (F : StabVar → Nat → K) (l omega beta : K) : StabVar → Nat → K
  | .x => fun i => F .x i + l * F .p i + omega * (F .r i - l * mv n A (F .p) i)
  | .r => fun i => F .r i - l * mv n A (F .p) i - omega * mv n A (fun i => F .r i - l * mv n A (F .p) i) i
  | .p => fun i => F .r i - l * mv n A (F .p) i - omega * mv n A (fun i => F .r i - l * mv n A (F .p) i) i +
      beta * (F .p i - omega * mv n A (F .p) i)
  | .a => mv n A (F .p)
  | .as' => mv n A (fun i => F .r i - l * mv n A (F .p) i)
  | s => F s

theorem initBicgstab_tot {v : StabVar → Vec} {m0 m : Mem K} {F : StabVar → Nat → K} (hf : IsAddEval f n A C m0)
    (hs : Separate C v (fun _ => n) m0) (h : Holds v m0 F m) :
    Tot (initBicgstab f (v .b) (v .x) (v .r) (v .rt) (v .p) m) (Holds v m0 (stabInitF n A F)) := by
  unfold initBicgstab
  refine Tot.bind (h.copy hs (i := .b) (j := .r) (by decide) rfl) fun m1 _ h1 => ?_
  refine Tot.bind (h1.eval hf hs (i := .x) (j := .r) (by decide) rfl rfl _) fun m2 _ h2 => ?_
  refine Tot.bind (h2.copy hs (i := .r) (j := .rt) (by decide) rfl) fun m3 _ h3 => ?_
  refine (h3.copy hs (i := .r) (j := .p) (by decide) rfl).mono fun m4 h4 => h4.congr fun s k _ => ?_
  cases s <;> simp [Function.update, stabInitF, sub_eq_add_neg]

/-- the first coefficient of `step_bicgstab` -/
def stabL (n : Nat) (A : Nat → Nat → K) (F : StabVar → Nat → K) : K := ip n (F .r) (F .rt) / ip n (mv n A (F .p)) (F .rt)
/-- the residual after the first half of `step_bicgstab` -/
def stabHalf (n : Nat) (A : Nat → Nat → K) (F : StabVar → Nat → K) (i : Nat) : K := F .r i - stabL n A F * mv n A (F .p) i

theorem stepBicgstab_nan {v : StabVar → Vec} {m0 m : Mem K} {F : StabVar → Nat → K} (hf : IsAddEval f n A C m0)
    (hs : Separate C v (fun _ => n) m0) (h : Holds v m0 F m) :
    NanIff (stepBicgstab f (v .x) (v .r) (v .rt) (v .p) (v .a) (v .as') m)
      (ip n (mv n A (F .p)) (F .rt) = 0 ∨ ip n (mv n A (stabHalf n A F)) (mv n A (stabHalf n A F)) = 0 ∨ ip n (F .r) (F .rt) = 0 ∨
        ip n (mv n A (stabHalf n A F)) (stabHalf n A F) = 0) (fun m' => ∃ l omega beta,
      l = ip n (F .r) (F .rt) / ip n (mv n A (F .p)) (F .rt) ∧
      omega = ip n (mv n A (stabHalf n A F)) (stabHalf n A F) / ip n (mv n A (stabHalf n A F)) (mv n A (stabHalf n A F)) ∧
      Holds v m0 (stabStepF n A F l omega beta) m') := by
  unfold stepBicgstab
  refine NanIff.tot (h.clear hs .a) fun m1 h1 => ?_
  refine NanIff.tot (h1.eval hf hs (i := .p) (j := .a) (by decide) rfl rfl _) fun m2 h2 => ?_
  replace h2 := h2.congr (G := Function.update F .a (mv n A (F .p))) (fun s k _ => by cases s <;> simp [Function.update])
  rw [h2.dot hs .r .rt rfl, ok_bind, h2.dot hs .a .rt rfl, ok_bind]
  have e : ip n (F .r) (F .rt) / ip n (mv n A (F .p)) (F .rt) = stabL n A F := rfl
  have eh : stabHalf n A F = fun i => F .r i + -(stabL n A F * mv n A (F .p) i) := by funext i; rw [stabHalf, sub_eq_add_neg]
  refine NanIff.div (c' := ip n (mv n A (stabHalf n A F)) (mv n A (stabHalf n A F)) = 0 ∨ ip n (F .r) (F .rt) = 0 ∨
        ip n (mv n A (stabHalf n A F)) (stabHalf n A F) = 0) (by simp) fun _ => ?_
  simp only [Function.update_self, ne_eq, reduceCtorEq, not_false_eq_true, Function.update_of_ne]
  rw [e]
  refine NanIff.tot (h2.add hs (i := .a) (j := .r) (by decide) rfl _) fun m3 h3 => ?_
  refine NanIff.tot (h3.clear hs .as') fun m4 h4 => ?_
  refine NanIff.tot (h4.eval hf hs (i := .r) (j := .as') (by decide) rfl rfl _) fun m5 h5 => ?_
  replace h5 := h5.congr (G := Function.update (Function.update (Function.update F .a (mv n A (F .p))) .r
      (stabHalf n A F)) .as' (mv n A (stabHalf n A F)))
    (fun s k _ => by cases s <;> simp [Function.update, eh])
  rw [h5.dot hs .as' .r rfl, ok_bind, h5.dot hs .as' .as' rfl, ok_bind]
  refine NanIff.div (c' := ip n (F .r) (F .rt) = 0 ∨ ip n (mv n A (stabHalf n A F)) (stabHalf n A F) = 0) (by simp) fun ho => ?_
  simp only [Function.update_self, ne_eq, reduceCtorEq, not_false_eq_true, Function.update_of_ne] at ho ⊢
  refine NanIff.tot (h5.add hs (i := .p) (j := .x) (by decide) rfl _) fun m6 h6 => ?_
  refine NanIff.tot (h6.add hs (i := .r) (j := .x) (by decide) rfl _) fun m7 h7 => ?_
  refine NanIff.tot (h7.add hs (i := .as') (j := .r) (by decide) rfl _) fun m8 h8 => ?_
  rw [h8.dot hs .r .rt rfl, ok_bind]
  refine NanIff.div (c' := ip n (mv n A (stabHalf n A F)) (stabHalf n A F) = 0) (by simp) fun _ => ?_
  refine NanIff.div' (c' := False) (by rw [or_false, div_eq_zero_iff]; exact ⟨fun h => h.resolve_right ho, .inl⟩) fun _ beta => ?_
  refine NanIff.tot (h8.scale hs .p _) fun m9 h9 => ?_
  refine NanIff.tot (h9.add hs (i := .r) (j := .p) (by decide) rfl _) fun m10 h10 => ?_
  refine .end ((h10.add hs (i := .a) (j := .p) (by decide) rfl _).mono fun m12 h12 => ⟨_, _, beta, e.symm, rfl, h12.congr
    fun s k _ => ?_⟩)
  cases s <;> simp [Function.update, stabStepF, eh, sub_eq_add_neg] <;> ring

end bicg

end H2.Krylov
