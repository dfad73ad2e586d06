import Verif.Opt.Newton
import Verif.Opt.State

/-!
# The arrays of a population, point by point

`_compute_R` and `_compute_netwon_step` (hvd/newton.py) index the constraint arrays of the state point by point.
-/

namespace Verif.Opt

open Verif.Util

variable {K : Type*} [Field K] [LinearOrder K]

/-- The `m` rows of length `n` of a flat array of shape `(m, n)`. -/
def chunk (m n : ℕ) (r : List K) : Option (List (List K)) :=
  if r.length = m * n then some (slices (List.replicate m n) r) else none

/-- Without constraints the constraint arrays are not looked at. -/
def freePoints (grad : List (List K)) : List (NewtonPoint K) :=
  grad.map fun g => { grad := g, dual := [], act := [], cstr := [], dH := [], ddH := [] }

namespace Funcs

variable (p : Funcs K)

/-- `_constrained` (newton.py 86, 412). -/
def constrained : Bool := p.h.isSome || p.g.isSome

/-- The number of multipliers: `dim_d` (newton.py 94, 420). -/
def nDual : ℕ := if p.constrained then p.nEq + p.nIeq else 0

/-- The data of the points of a population, with the gradient of the indicator (newton.py 232-238, 248-252, 551-555,
568-575). The rows of the arrays belong together; the exceptions are those of indexing a constraint array of the wrong
shape (no Jacobian given). -/
def cstrPoints (t : State K) (grad : List (List K)) : Option (List (NewtonPoint K)) :=
  (List.range t.X.length).mapM fun i =>
    (chunk (p.nEq + p.nIeq) p.nVar (t.cstrGrad.getD i [])).bind fun dH =>
    t.cstrHess.bind fun ch =>
    (chunk (p.nEq + p.nIeq) (p.nVar * p.nVar) (ch.getD i [])).bind fun dd =>
    (dd.mapM (chunk p.nVar p.nVar)).map fun ddH =>
      { grad := grad.getD i [], dual := (t.X.getD i []).drop p.nVar, act := t.active.getD i []
        cstr := t.cstrValue.getD i [], dH := dH, ddH := ddH }

/-- The points of a population. -/
def layerPoints (t : State K) (grad : List (List K)) : Option (List (NewtonPoint K)) :=
  if p.constrained then p.cstrPoints t grad else some (freePoints grad)

end Funcs

end Verif.Opt
