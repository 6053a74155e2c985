import Verif.LineSearch.Model
import Verif.Box.Model
/-!
# What the optimizers have in common

The optimizers only use the vectors through the operations of a vector space and the bounds only
through the operations of a convex set (both may be implemented by the user,
`src/optimpack-private.h`).  The models of the optimizers are thus parameterized by records of
operations on an arbitrary type `V` of contents of vectors; nothing is assumed about these operations
here.  `F` is the type `double`, with any arithmetic.
-/
namespace Opk.Optim

/-- `opk_task`, `src/optimpack.h:1038-1046`. -/
inductive Task where
  | error | start | computeFG | newX | finalX | warning
  deriving DecidableEq, Repr

/-- `opk_status` as it may be found in an optimizer: codes proper to the optimizers, codes of the
line search, codes of the convex set (`OPK_SUCCESS` is only represented by `success`). -/
inductive Status where
  | success
  | notStarted
  | wouldBlock
  | illegalAddress
  | ls (s : LineSearch.Status)
  | set (s : Box.Status)
  deriving DecidableEq, Repr

/-- Operations on the vectors of a given space: each one gives the value stored in the destination
(or returned).  `src/algebra.c:262-454`; `opk_vcopy` is the identity.  That these operations act on
the memory as expected, in place or not, is the subject of `Verif/Vec`. -/
structure Vs (F V : Type) where
  /-- `opk_vaxpby(dst, alpha, x, beta, y)` -/
  axpby : F → V → F → V → V
  /-- `opk_vaxpbypcz(dst, alpha, x, beta, y, gamma, z)` -/
  axpbypcz : F → V → F → V → F → V → V
  /-- `opk_vscale(dst, alpha, x)` -/
  scale : F → V → V
  /-- `opk_vproduct(dst, x, y)` -/
  product : V → V → V
  /-- `opk_vdot(x, y)` -/
  dot : V → V → F
  /-- `opk_vdot3(w, x, y)` -/
  dot3 : V → V → V → F
  /-- `opk_vnorm2(x)` -/
  norm2 : V → F

/-- Operations of a convex set, for the orientation `OPK_ASCENT` which is the only one used by the
optimizers: an error status (nothing is then modified) or the result.  `src/algebra.c:536-617`. -/
structure Cs (F V : Type) where
  /-- `opk_project_variables(dst, x, set)` -/
  projvar : V → Except Box.Status V
  /-- `opk_project_direction(dst, x, set, d, OPK_ASCENT)`: arguments `x` and `d` -/
  projdir : V → V → Except Box.Status V
  /-- `opk_get_free_variables(dst, x, set, d, OPK_ASCENT)`: arguments `x` and `d` -/
  freevar : V → V → Except Box.Status V
  /-- `opk_get_step_limits(&smin1, &smin2, &smax, x, set, d, OPK_ASCENT)`: arguments `x` and `d` -/
  steplim : V → V → Except Box.Status (Box.Lim F)

/-- `for (j = 1; j <= n; ++j) body(j)`. -/
def loopUp {α : Type} (body : Nat → α → α) : Nat → α → α
  | 0, s => s
  | n + 1, s => body (n + 1) (loopUp body n s)

/-- `for (j = n; j >= 1; --j) body(j)`. -/
def loopDown {α : Type} (body : Nat → α → α) : Nat → α → α
  | 0, s => s
  | n + 1, s => loopDown body n (body (n + 1) s)

/-- Assignment to an element of an array. -/
def upd {α : Type} (a : Int → α) (k : Int) (v : α) : Int → α := fun i => if i = k then v else a i

/-- `max3` of `src/vmlmb.c:168-172` and (written differently) of `src/nlcg.c:131-139`. -/
def max3 {F : Type} [LE F] [DecidableLE F] (a1 a2 a3 : F) : F :=
  if a3 ≥ a2 then cmax a1 a3 else cmax a1 a2

/-- How the code goes on after one of the cases of the `switch` of the `iterate` functions. -/
inductive Flow (O : Type) where
  /-- `return` -/
  | ret (o : O)
  /-- `break`, to compute a new trial point -/
  | brk (o : O)

end Opk.Optim
