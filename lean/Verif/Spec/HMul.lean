import Verif.Spec.HSolve

/-! Specifications for the multiplication of H-matrices by triangular factors (C70). -/

namespace H2.Spec
variable {G K : Type}

/-- Wherever `a` and `x` are both subdivided, the number of block rows of `x` is the number of sons of `a`.  (In a product with the
adjoint of `x` only the number of block *columns* should matter.) -/
def RowsMatch : HV G K → HV G K → Prop
  | .super _ _ am an as, .super _ _ m n xs => m = am ∧ ∀ (k : Fin m) (i : Fin n) (h : i.1 < am ∧ i.1 < an),
      RowsMatch (as ⟨i, h.1⟩ ⟨i, h.2⟩) (xs k i)
  | _, _ => True

end H2.Spec
