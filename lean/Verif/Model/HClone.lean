import Verif.Model.HMatrix

/-! Copying an H-matrix (`Library/hmatrix.c`). -/

namespace H2
namespace HMat
variable {G : Type} {K : Type} [Field K] [StarRing K]

/-- amatrix.c:20-37 `init_amatrix(a, rows, cols)`: the allocator chooses the address, `junk` is the contents of the new memory. -/
def allocMat (alloc : Mem K → Nat → Nat) (junk : Nat → K) (rows cols : Nat) (m : Mem K) : Mat × Mem K :=
  (⟨alloc m (rows * cols), rows, rows, cols⟩, m.alloc (alloc m (rows * cols)) (rows * cols) junk)

/-- hmatrix.c:154-189 `clone_hmatrix(src)`.  The array of sons starts with null pointers (hmatrix.c:102-119); here it starts with matrices without memory, and all entries
are overwritten.  Without the reference counters (C35). -/
def clone (alloc : Mem K → Nat → Nat) (junk : Nat → K) : HMat G → Mem K → R (HMat G × Mem K)
  | rk t s _ r, m => do
    let a := allocMat alloc junk t.cl.size r.k m
    let b := allocMat alloc junk s.cl.size r.k a.2
    let m ← Dense.copy false r.A a.1 b.2
    let m ← Dense.copy false r.B b.1 m
    pure (update (rk t s 1 ⟨a.1, b.1, r.k⟩), m)
  | full t s _ f, m => do
    let a := allocMat alloc junk t.cl.size s.cl.size m
    let m ← Dense.copy false f a.1 a.2
    pure (update (full t s 1 a.1), m)
  | super t s _ rsons csons son, m => do
    let st ← foldFinM csons (fun j (st : (Fin rsons → Fin csons → HMat G) × Mem K) =>
      foldFinM rsons (fun i (st : (Fin rsons → Fin csons → HMat G) × Mem K) => do
        let x ← clone alloc junk (son i j) st.2
        pure (fun i' j' => if i' = i ∧ j' = j then x.1 else st.1 i' j', x.2)) st)
      (fun _ _ => full t s 0 ⟨0, 0, 0, 0⟩, m)
    pure (update (update (super t s 0 rsons csons st.1)), st.2)

end HMat
end H2
