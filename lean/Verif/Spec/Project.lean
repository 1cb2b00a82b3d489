import Verif.Model.Project
import Verif.Spec.Ortho

/-! Specifications for the projection of H²-matrices (C59). -/

namespace H2.Spec
variable {G 𝕜 : Type} [RCLike 𝕜]

/-- Entry `(r, c)` of the represented matrix, `r` and `c` being positions in the index arrays: `V S W^*` for uniform leaves,
the stored matrix for dense leaves. -/
noncomputable def h2vplace : H2V G 𝕜 → Nat → Nat → 𝕜
  | .zero _ _, _, _ => 0
  | .uni rb cb S, r, c => ∑ a ∈ Finset.range rb.cb.k, ∑ b ∈ Finset.range cb.cb.k, vbasis rb.cb r a * S.e a b * star (vbasis cb.cb c b)
  | .full rb cb f, r, c => if In rb.cb.t r ∧ In cb.cb.t c then f.e (r - rb.cb.t.cl.off) (c - cb.cb.t.cl.off) else 0
  | .super _ _ rsons csons son, r, c => ∑ i : Fin rsons, ∑ j : Fin csons, h2vplace (son i j) r c

/-- The bases of the sons of a block in one direction: all of them the basis of the block, or the sons of this basis. -/
def SonRefs (b : BRef G 𝕜) {n : Nat} (f : Fin n → BRef G 𝕜) : Prop :=
  (∀ i, f i = b) ∨ ∃ e : n = b.cb.sons, ∀ i, f i = b.son (Fin.cast e i)

/-- The matrices of the leaves have the right dimensions, the bases of the sons fit. -/
def H2VOk : H2V G 𝕜 → Prop
  | .zero _ _ => True
  | .uni rb cb S => S.rows = rb.cb.k ∧ S.cols = cb.cb.k
  | .full rb cb f => f.rows = rb.cb.t.cl.size ∧ f.cols = cb.cb.t.cl.size
  | .super rb cb rsons csons son => 0 < rsons ∧ 0 < csons ∧ (∃ (R : Fin rsons → BRef G 𝕜) (C : Fin csons → BRef G 𝕜),
      (∀ i j, (son i j).rb = R i ∧ (son i j).cb = C j) ∧ SonRefs rb R ∧ SonRefs cb C) ∧ ∀ i j, H2VOk (son i j)

/-- `cb'` is a basis for the same cluster tree, and the matrices of the operator map coefficients for `cb` to coefficients for `cb'`. -/
def OpDims : CBV G 𝕜 → CBV G 𝕜 → COp G 𝕜 → Prop
  | .mk t k _ _ _ _ n son, .mk t' k' _ _ _ _ n' son', .mk _ krow kcol C n'' son'' => t' = t ∧ krow = k' ∧ kcol = k ∧ C.rows = k' ∧ C.cols = k ∧
    ∃ (e : n' = n) (e' : n' = n''), ∀ i, OpDims (son (Fin.cast e i)) (son' i) (son'' (Fin.cast e' i))

/-- Change from the basis `b` to `b'`: nothing has to be done if they are the same object, otherwise there is an operator with matching dimensions. -/
def BChange (b b' : BRef G 𝕜) (o : Option (COp G 𝕜)) : Prop :=
  (b' = b ∧ ∀ x, o = some x → OpTree x b.cb) ∨ (b.tree ≠ b'.tree ∧ ∃ x, o = some x ∧ OpDims b.cb b'.cb x)

/-- the matrix of the change of bases -/
def chg (b b' : BRef G 𝕜) (o : Option (COp G 𝕜)) (i j : Nat) : 𝕜 :=
  if b.tree = b'.tree then (if i = j then 1 else 0) else match o with | none => 0 | some x => x.C.e i j

/-- the operator of a son -/
def opSon (o : Option (COp G 𝕜)) (i : Nat) : Option (COp G 𝕜) := match o with | none => none | some x => if h : i < x.sons then some (x.son ⟨i, h⟩) else none

/-- `h'` is `h` with the coupling matrices `T_r S T_c^*`, `T_r` and `T_c` being the matrices of the changes of the row and column bases. -/
def ProjectedTo : H2V G 𝕜 → (rb : BRef G 𝕜) → (ro : Option (COp G 𝕜)) → (cb : BRef G 𝕜) → (co : Option (COp G 𝕜)) → H2V G 𝕜 → Prop
  | .zero _ _, rb, _, cb, _, h' => h' = .zero rb cb
  | .uni hrb hcb S, rb, ro, cb, co, h' => ∃ S', h' = .uni rb cb S' ∧ S'.rows = rb.cb.k ∧ S'.cols = cb.cb.k ∧ ∀ a < rb.cb.k, ∀ b < cb.cb.k,
      S'.e a b = ∑ i ∈ Finset.range hrb.cb.k, ∑ j ∈ Finset.range hcb.cb.k, chg hrb rb ro a i * S.e i j * star (chg hcb cb co b j)
  | .full _ _ f, rb, _, cb, _, h' => ∃ f', h' = .full rb cb f' ∧ f'.rows = f.rows ∧ f'.cols = f.cols ∧ ∀ i < f.rows, ∀ j < f.cols, f'.e i j = f.e i j
  | .super hrb hcb rsons csons son, rb, ro, cb, co, h' => ∃ son', h' = .super rb cb rsons csons son' ∧
      ∃ (R : Fin rsons → BRef G 𝕜 × Option (COp G 𝕜)) (C : Fin csons → BRef G 𝕜 × Option (COp G 𝕜)),
        (∀ i j, ((son i j).rb = hrb → R i = (rb, ro)) ∧ ((son i j).rb ≠ hrb → ∃ h : i.1 < rb.cb.sons, R i = (rb.son ⟨i, h⟩, opSon ro i)) ∧
          ((son i j).cb = hcb → C j = (cb, co)) ∧ ((son i j).cb ≠ hcb → ∃ h : j.1 < cb.cb.sons, C j = (cb.son ⟨j, h⟩, opSon co j))) ∧
        ∀ i j, ProjectedTo (son i j) (R i).1 (R i).2 (C j).1 (C j).2 (son' i j)

/-- Either the basis is not changed, or the old basis is contained in the new one: `V_t = V'_t C_t` for all clusters. -/
def SpansOld (b b' : BRef G 𝕜) (o : Option (COp G 𝕜)) : Prop := b' = b ∨ ∃ x, o = some x ∧ b.tree ≠ b'.tree ∧ Changes b.cb b'.cb x

end H2.Spec
