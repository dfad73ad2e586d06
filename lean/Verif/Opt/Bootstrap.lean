import Mathlib.Algebra.Order.Field.Basic
import Mathlib.Algebra.BigOperators.Group.List.Basic

/-!
# Bootstrapping the reference set (hvd/bootstrap.py)

Plots and files are left out. The optimizer is a core state, given by parameters, and the weight `beta` of its
indicator. `none` is an exception.
-/

namespace Verif.Opt

variable {K : Type*} [Field K]

/-- The relaxation of dominance (bootstrap.py 139, with `alpha = 0.05` in line 112), for one row. -/
def relaxRow (alpha : K) (y : List K) : List K := y.map fun v => (1 - alpha) * v + alpha * (y.sum / y.length)

/-- What `bootstrap_reference_set` calls. -/
structure BootOps (K C X Y R S : Type*) where
  /-- `state.X[:, :dim]` and `state.Y`, row by row -/
  pop : C → List (X × Y)
  /-- relaxing `state.Y` and `RSG` or copying (lines 139-162) -/
  newRef : C → Option R
  /-- `compute_chim`, the shift and `ReferenceSet(...)` (lines 176-178) -/
  wrap : R → Option S
  /-- setting the reference set of optimizer and indicator and `indicator.compute` (lines 179-180) -/
  install : C → S → K → Option C
  /-- `newton_iteration` and `log` (lines 185-186) -/
  step : C → K → Option C
  /-- `filter_outliers` (lines 76-85) -/
  filter : List (X × Y) → Option (List (X × Y))
  /-- `KMedoids(...).fit(Y_).medoid_indices_` (line 193) -/
  medoids : List Y → Option (List ℕ)

/-- Optimizer, recorded populations, the variable `ref` (unbound at first) and `ref_list`. -/
structure BootState (K C X Y R S : Type*) where
  core : C
  beta : K
  pops : List (List (X × Y))
  ref : Option S
  refList : List R

variable {C X Y R S : Type*}

/-- One pass through the loop (lines 127-186). For `interval = 0` the remainder raises `ZeroDivisionError`. -/
def bootPass (ops : BootOps K C X Y R S) (interval i : ℕ) (st : BootState K C X Y R S) :
    Option (BootState K C X Y R S) :=
  let st := { st with pops := st.pops ++ [ops.pop st.core] }
  if interval = 0 then none
  else if i % interval = 0 ∧ i > 0 then
    (ops.newRef st.core).bind fun r => (ops.wrap r).bind fun s => (ops.install st.core s st.beta).bind fun c =>
      (ops.step c (st.beta * (4 / 5))).map fun c =>
        { core := c, beta := st.beta * (4 / 5), pops := st.pops, ref := some s, refList := st.refList ++ [r] }
  else (ops.step st.core st.beta).map fun c => { st with core := c }

/-- The loop (line 126), `n` passes from `i`. -/
def bootLoop (ops : BootOps K C X Y R S) (interval : ℕ) : ℕ → ℕ → BootState K C X Y R S →
    Option (BootState K C X Y R S)
  | 0, _, st => some st
  | n + 1, i, st => (bootPass ops interval i st).bind fun st => bootLoop ops interval n (i + 1) st

/-- `l[-n:]`. -/
def lastN {A : Type*} (n : ℕ) (l : List A) : List A := if n = 0 then l else l.drop (l.length - n)

/-- `bootstrap_reference_set` (lines 88-196). `maxIters = none` is `inf`, for which `range` raises `TypeError`; without
passes, unpacking raises `ValueError`; an unbound `ref` raises `UnboundLocalError`; an index out of range raises
`IndexError`. -/
def bootstrap (ops : BootOps K C X Y R S) (interval lastn : ℕ) (maxIters : Option ℕ) (core : C) (beta : K) :
    Option (List (X × Y) × S × List R) :=
  maxIters.bind fun n =>
    (bootLoop ops interval n 0 { core := core, beta := beta, pops := [], ref := none, refList := [] }).bind fun st =>
      if st.pops = [] then none
      else ((lastN lastn st.pops).mapM ops.filter).bind fun parts =>
        (ops.medoids (parts.flatten.map Prod.snd)).bind fun idx =>
          (idx.mapM fun k => parts.flatten[k]?).bind fun out => st.ref.map fun s => (out, s, st.refList)

end Verif.Opt
