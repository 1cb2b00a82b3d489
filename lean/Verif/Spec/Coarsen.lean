import Verif.Model.Coarsen
import Verif.Spec.Trunc

/-! # Specifications for the coarsening of H-matrices (C64) -/

namespace H2.Spec
variable {G 𝕜 : Type} [RCLike 𝕜]

/-- the norm of `E` is at most `e`: Frobenius norm or spectral norm -/
def Within (frob : Bool) (e : ℝ) (rows cols : Nat) (E : Nat → Nat → 𝕜) : Prop :=
  if frob then frobSq rows cols E ≤ e ^ 2 else SpecBound rows cols E (e ^ 2)

/-- number of subdivided blocks -/
def supers : HV G 𝕜 → Nat
  | .rk .. => 0
  | .full .. => 0
  | .super _ _ _ _ son => 1 + ∑ i, ∑ j, supers (son i j)

/-- bytes used for the leaves: a dense matrix or the two factors of a low-rank matrix each -/
def storage (z : HV.Sizeof) : HV G 𝕜 → Nat
  | .rk _ _ r => z.rk + z.fd * (r.A.rows * r.A.cols) + z.fd * (r.B.rows * r.B.cols)
  | .full _ _ f => z.am + z.fd * (f.rows * f.cols)
  | .super _ _ _ _ son => ∑ i, ∑ j, storage z (son i j)

/-- largest number of nested subdivided blocks -/
def nested : HV G 𝕜 → Nat
  | .rk .. => 0
  | .full .. => 0
  | .super _ _ _ _ son => 1 + Finset.univ.sup fun i => Finset.univ.sup fun j => nested (son i j)

/-- `h'` results from `h` by replacing subdivided blocks by low-rank blocks; all other blocks are the same.  Diagonal blocks, i.e., blocks with
`same t s`, are not replaced. -/
def Coarser (same : CRef G → CRef G → Bool) : HV G 𝕜 → HV G 𝕜 → Prop
  | .super t s m n son, .super t' s' m' n' son' => t = t' ∧ s = s' ∧ ∃ (e : m = m') (e' : n = n'),
      ∀ i j, Coarser same (son i j) (son' (Fin.cast e i) (Fin.cast e' j))
  | .super t s _ _ _, .rk t' s' _ => t = t' ∧ s = s' ∧ same t s = false
  | h, h' => h = h'

/-- the block is not subdivided -/
def NoSons : HV G 𝕜 → Prop
  | .super .. => False
  | _ => True

/-- If the block is an off-diagonal block and its sons are not subdivided, a low-rank representation of the block of lowest rank needs at least the
storage of the sons. -/
def Settled (same : CRef G → CRef G → Bool) (z : HV.Sizeof) (tm : Option Trunc.Mode) (eps : ℝ) : HV G 𝕜 → Prop
  | .super t s m n son => same t s = false → (∀ i j, NoSons (son i j)) → ∀ r, Truncated tm eps t.cl.size s.cl.size (hentry (.super t s m n son)) r →
      storage z (.super t s m n son) ≤ storage z (.rk t s r)
  | _ => True

/-- this holds for all blocks -/
def AllSettled (same : CRef G → CRef G → Bool) (z : HV.Sizeof) (tm : Option Trunc.Mode) (eps : ℝ) : HV G 𝕜 → Prop
  | .super t s m n son => Settled same z tm eps (.super t s m n son) ∧ ∀ i j, AllSettled same z tm eps (son i j)
  | _ => True

end H2.Spec
