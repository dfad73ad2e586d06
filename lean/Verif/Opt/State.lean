import Verif.Util.Pack
import Mathlib.Algebra.Order.Field.Basic
import Mathlib.Tactic.Linarith

/-!
# Model of `State` (hvd/base.py)

* A population is the list of its rows. Arrays with more than two axes are kept flat: a cached Jacobian
  of shape `(N, n_obj, n_var)` is a list of `N` lists of length `n_obj * n_var` in C order. Concatenation
  along the constraint axis is then concatenation of the flat rows.
* A callback is a function of one point together with its batch variant, if the object it is a method of
  has one (`_get_batch_variant`, lines 64-79).
* `none` is an exception. What an object looks like after an exception inside of `update_one` is not
  modelled, neither are exceptions in callbacks and the element types of arrays.
-/

namespace Verif.Opt

open Verif.Util

/-- A callback with its batch variant (lines 64-79). -/
structure Callback (K : Type*) where
  point : List K → List K
  batch : Option (List (List K) → List (List K))

variable {K : Type*} [Field K] [LinearOrder K]

/-- `np.stack`: at least one array, all of the same shape. -/
def stack (rows : List (List K)) : Option (List (List K)) :=
  match rows with
  | [] => none
  | r :: rs => if rs.all (fun r' => r'.length = r.length) then some (r :: rs) else none

/-- The batch variant of a callback (lines 64-79). -/
def Callback.evalRows (f : Callback K) (X : List (List K)) : Option (List (List K)) :=
  match f.batch with
  | some b => some (b X)
  | none => stack (X.map f.point)

/-- `values.reshape(N, m)`. -/
def reshape2 (N m : ℕ) (v : List (List K)) : Option (List (List K)) :=
  if v.flatten.length = N * m then some (slices (List.replicate N m) v.flatten) else none

/-- `evaluate` (lines 82-107) for one point; `size` is the product of `output_shape`. -/
def evalPoint (f : Option (Callback K)) (size : Option ℕ) (x : List K) : Option (List K) :=
  match f, size with
  | none, none => none
  | none, some m => some (List.replicate m 0)
  | some f, none => some (f.point x)
  | some f, some m => if (f.point x).length = m then some (f.point x) else none

/-- `evaluate` (lines 82-107) for a population. -/
def evalBatch (f : Option (Callback K)) (size : Option ℕ) (X : List (List K)) : Option (List (List K)) :=
  match f, size with
  | none, none => none
  | none, some m => some (List.replicate X.length (List.replicate m 0))
  | some f, none => f.evalRows X
  | some f, some m => (f.evalRows X).bind (reshape2 X.length m)

/-- The arguments of the constructor (lines 13-26). -/
structure Funcs (K : Type*) where
  nVar : ℕ
  nEq : ℕ
  nIeq : ℕ
  func : Callback K
  jac : Callback K
  h : Option (Callback K)
  hJac : Option (Callback K)
  hHess : Option (Callback K)
  g : Option (Callback K)
  gJac : Option (Callback K)
  gHess : Option (Callback K)

/-- The attributes that change. `J` is `None` after `update(compute_gradient=False)`; `cstrHess` does not
exist before it is computed. Before the first `update` there are no arrays at all; here they are empty,
which leads to an exception in the methods below as well (no row to assign or to select). -/
structure State (K : Type*) where
  X : List (List K)
  Y : List (List K)
  J : Option (List (List K))
  cstrValue : List (List K)
  active : List (List Bool)
  cstrGrad : List (List K)
  cstrHess : Option (List (List K))
  nJac : ℕ
  nCstrJac : ℕ
  nCstrHess : ℕ

/-- The state after the constructor (lines 42-57). -/
def State.init : State K := ⟨[], [], none, [], [], [], none, 0, 0, 0⟩

namespace Funcs

variable (p : Funcs K)

/-- The threshold of line 125: `-1e-4`. -/
def flags (G : List K) : List Bool :=
  List.replicate p.nEq true ++ G.map (fun v => decide (v ≥ -(1 / 10 ^ 4)))

/-- `eval_cstr` (lines 118-126) for one point. -/
def evalCstrPoint (x : List K) : Option (List K × List Bool) :=
  (evalPoint p.h (some p.nEq) x).bind fun H =>
    (evalPoint p.g (some p.nIeq) x).bind fun G => some (H ++ G, p.flags G)

/-- `eval_cstr` (lines 118-126) for a population. -/
def evalCstrBatch (X : List (List K)) : Option (List (List K) × List (List Bool)) :=
  (evalBatch p.h (some p.nEq) X).bind fun H =>
    (evalBatch p.g (some p.nIeq) X).bind fun G =>
      some (List.zipWith (· ++ ·) H G, G.map p.flags)

/-- `eval_cstr_jac` (lines 128-137) for one point, with the number of counted evaluations. -/
def evalCstrJacPoint (x : List K) : Option (List K × ℕ) :=
  if p.hJac.isNone ∧ p.gJac.isNone then some ([], 0)
  else
    (evalPoint p.hJac (some (p.nEq * p.nVar)) x).bind fun dH =>
      (evalPoint p.gJac (some (p.nIeq * p.nVar)) x).bind fun dG => some (dH ++ dG, 1)

/-- `eval_cstr_jac` (lines 128-137) for a population. -/
def evalCstrJacBatch (X : List (List K)) : Option (List (List K) × ℕ) :=
  if p.hJac.isNone ∧ p.gJac.isNone then some (List.replicate X.length [], 0)
  else
    (evalBatch p.hJac (some (p.nEq * p.nVar)) X).bind fun dH =>
      (evalBatch p.gJac (some (p.nIeq * p.nVar)) X).bind fun dG =>
        some (List.zipWith (· ++ ·) dH dG, X.length)

/-- `eval_cstr_hess` (lines 139-148) for one point. -/
def evalCstrHessPoint (x : List K) : Option (List K × ℕ) :=
  if p.hHess.isNone ∧ p.gHess.isNone then some (List.replicate ((p.nEq + p.nIeq) * p.nVar * p.nVar) 0, 0)
  else
    (evalPoint p.hHess (some (p.nEq * p.nVar * p.nVar)) x).bind fun ddH =>
      (evalPoint p.gHess (some (p.nIeq * p.nVar * p.nVar)) x).bind fun ddG => some (ddH ++ ddG, 1)

/-- `eval_cstr_hess` (lines 139-148) for a population. -/
def evalCstrHessBatch (X : List (List K)) : Option (List (List K) × ℕ) :=
  if p.hHess.isNone ∧ p.gHess.isNone then
    some (List.replicate X.length (List.replicate ((p.nEq + p.nIeq) * p.nVar * p.nVar) 0), 0)
  else
    (evalBatch p.hHess (some (p.nEq * p.nVar * p.nVar)) X).bind fun ddH =>
      (evalBatch p.gHess (some (p.nIeq * p.nVar * p.nVar)) X).bind fun ddG =>
        some (List.zipWith (· ++ ·) ddH ddG, X.length)

/-- `primal` (lines 261-263). -/
def primal (X : List (List K)) : List (List K) := X.map (List.take p.nVar)

/-- `J` in line 155 and the number of counted evaluations (`eval_jac`, lines 113-116). -/
def evalJ (X : List (List K)) (computeGradient : Bool) : Option (Option (List (List K)) × ℕ) :=
  if computeGradient then (evalBatch (some p.jac) none X).map fun J => (some J, X.length)
  else some (none, 0)

/-- Lines 158-159: without `compute_hessian` the attribute keeps its old value. -/
def evalH (old : Option (List (List K))) (X : List (List K)) (computeHessian : Bool) :
    Option (Option (List (List K)) × ℕ) :=
  if computeHessian then (p.evalCstrHessBatch X).map fun r => (some r.1, r.2) else some (old, 0)

/-- `update` (lines 150-159). -/
def update (s : State K) (X : List (List K)) (computeGradient computeHessian : Bool) : Option (State K) :=
  let P := p.primal X
  (evalBatch (some p.func) none P).bind fun Y =>
  (p.evalJ P computeGradient).bind fun J =>
  (p.evalCstrBatch P).bind fun c =>
  (p.evalCstrJacBatch P).bind fun dc =>
  (p.evalH s.cstrHess P computeHessian).map fun hc =>
    { X := X, Y := Y, J := J.1, cstrValue := c.1, active := c.2, cstrGrad := dc.1, cstrHess := hc.1
      nJac := s.nJac + J.2, nCstrJac := s.nCstrJac + dc.2, nCstrHess := s.nCstrHess + hc.2 }

end Funcs

/-- `A[k] = r`: the row has to exist and to have the same length. (NumPy would also broadcast a row of
length one.) -/
def setRow {α : Type*} (A : List (List α)) (k : ℕ) (r : List α) : Option (List (List α)) :=
  match A[k]? with
  | none => none
  | some old => if old.length = r.length then some (A.set k r) else none

namespace Funcs

variable (p : Funcs K)

/-- `update_one` (lines 161-168) for a non-negative index. -/
def updateOne (s : State K) (x : List K) (k : ℕ) : Option (State K) :=
  let q := x.take p.nVar
  (setRow s.X k x).bind fun X =>
  (setRow s.Y k (p.func.point q)).bind fun Y =>
  s.J.bind fun J0 =>
  (setRow J0 k (p.jac.point q)).bind fun J =>
  (p.evalCstrPoint q).bind fun c =>
  (setRow s.cstrValue k c.1).bind fun cv =>
  (setRow s.active k c.2).bind fun act =>
  (p.evalCstrJacPoint q).bind fun dc =>
  (setRow s.cstrGrad k dc.1).bind fun cg =>
  (p.evalCstrHessPoint q).bind fun hc =>
  s.cstrHess.bind fun H0 =>
  (setRow H0 k hc.1).map fun ch =>
    { X := X, Y := Y, J := some J, cstrValue := cv, active := act, cstrGrad := cg, cstrHess := some ch
      nJac := s.nJac + 1, nCstrJac := s.nCstrJac + dc.2, nCstrHess := s.nCstrHess + hc.2 }

/-- `is_feasible` (lines 170-180). -/
def isFeasible (s : State K) : List Bool :=
  List.zipWith (fun H a => H && a)
    (s.cstrValue.map fun c => (c.take p.nEq).all fun v => decide (|v - 0| ≤ 1 / 10 ^ 4 + 0 * |(0 : K)|))
    (s.active.map fun a => !(a.drop p.nEq).any id)

end Funcs

/-- `A[indices]` for non-negative indices. -/
def selRows {α : Type*} (A : List (List α)) (idx : List ℕ) : Option (List (List α)) :=
  idx.mapM fun i => A[i]?

/-- `__getitem__` (lines 301-316). -/
def State.getItem (s : State K) (idx : List ℕ) : Option (State K) :=
  (selRows s.X idx).bind fun X =>
  (selRows s.Y idx).bind fun Y =>
  s.J.bind fun J0 =>
  (selRows J0 idx).bind fun J =>
  (selRows s.cstrValue idx).bind fun cv =>
  (selRows s.active idx).bind fun act =>
  (selRows s.cstrGrad idx).bind fun cg =>
  s.cstrHess.bind fun H0 =>
  (selRows H0 idx).map fun ch =>
    { s with X := X, Y := Y, J := some J, cstrValue := cv, active := act, cstrGrad := cg, cstrHess := some ch }

end Verif.Opt
