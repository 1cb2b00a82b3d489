import Verif.Spec.H2Solve
import Verif.Model.H2Mul

/-! Specifications for products of H2-matrices and dense matrices (C86). -/

namespace H2.Spec
variable {G K : Type}

/-- the row basis of the H2-matrix or of its adjoint -/
def opRb (tr : Bool) (h : H2Mat G) : CBas G := if tr then h.cb else h.rb
/-- the column basis of the H2-matrix or of its adjoint -/
def opCb (tr : Bool) (h : H2Mat G) : CBas G := if tr then h.rb else h.cb

end H2.Spec
