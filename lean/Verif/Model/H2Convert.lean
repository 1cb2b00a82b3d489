import Verif.Model.H2Matrix

/-!
# H2-matrices (`Library/h2matrix.c`, `Library/h2arith.c`): clearing, scaling, conversion to a dense matrix

The counter of the state is `active_avector` of avector.c.
-/

namespace H2
namespace H2Mat
open VSt
variable {G : Type} {K : Type} [Field K] [StarRing K]

/-- h2matrix.c:377-395 `clear_h2matrix(h2)` -/
def clear : H2Mat G → Mem K → R (Mem K)
  | zero _ _, m => pure m
  | uni _ _ S, m => Dense.clear S m
  | full _ _ f, m => Dense.clear f m
  | super _ _ rsons csons son, m =>
    foldFinM csons (fun j m => foldFinM rsons (fun i m => clear (son i j) m) m) m

/-- h2matrix.c:397-413 `scale_h2matrix(alpha, h2)`; uniform.c:192-196 `scale_uniform(alpha, u)` calls `scale_amatrix` for the coupling matrix -/
def scale (alpha : K) : H2Mat G → Mem K → R (Mem K)
  | zero _ _, m => pure m
  | uni _ _ S, m => Dense.scale alpha S m
  | full _ _ f, m => Dense.scale alpha f m
  | super _ _ rsons csons son, m =>
    foldFinM csons (fun j m => foldFinM rsons (fun i m => scale alpha (son i j) m) m) m

/-- avector.c:67-88 `init_column_avector(v, src, col)` including the counter. -/
def openCol (src : Mat) (col : Nat) (s : VSt K) : R (Vec × VSt K) := do
  let v ← Dense.initColumn src col
  pure (v, { s with act := s.act + 1 })

/-- avector.h:256-264 `setentry_avector(v, i, x)` -/
def setentry (v : Vec) (i : Nat) (x : K) (m : Mem K) : R (Mem K) := m.write (v.addr i) x

/-- h2arith.c:305-310: one column of the matrix; `e` is the unit vector, `v` the column -/
def convCol (tr : Bool) (h : H2Mat G) (e xt yt v : Vec) (s : VSt K) : R (VSt K) := do
  let rb := if tr then h.cb else h.rb
  let cb := if tr then h.rb else h.cb
  let s ← run (Dense.clearVec yt) s
  let s ← CBas.forwardNoperm cb e xt s
  let s ← (if tr then fastaddevaltrans 1 h xt yt s else fastaddeval 1 h xt yt s)
  CBas.backwardNoperm rb yt v s

/-- h2arith.c:282-322 `convert_h2matrix_amatrix(h2trans, h2)`; `pa`, `pe`, `px`, `py` are the addresses chosen by the allocator for the
coefficients of the matrix (`new_zero_amatrix`, amatrix.c:105-119) and for the three vectors. -/
def convert (pa pe px py : Nat) (junk : Nat → K) (tr : Bool) (h : H2Mat G) (s : VSt K) : R (Mat × VSt K) := do
  let rb := if tr then h.cb else h.rb
  let cb := if tr then h.rb else h.cb
  let rows := rb.t.cl.size
  let cols := cb.t.cl.size
  let A : Mat := ⟨pa, rows, rows, cols⟩
  let s ← run (Dense.clear A) { s with mem := s.mem.alloc pa (rows * cols) junk }
  let (e, s) := openNew pe cols junk s
  let s ← run (Dense.clearVec e) s
  let (xt, s) := openNew px cb.ktree junk s
  let (yt, s) := openNew py rb.ktree junk s
  let s ← forUp 0 cols (fun i s => do
    let s ← run (setentry e i (1 : K)) s
    let (v, s) ← openCol A i s
    let s ← convCol tr h e xt yt v s
    let s ← uninit s
    run (setentry e i (0 : K)) s) s
  let s ← uninitOwner yt s
  let s ← uninitOwner xt s
  let s ← uninitOwner e s
  pure (A, s)

end H2Mat
end H2
