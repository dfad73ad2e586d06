import Mathlib.Algebra.Order.Field.Basic

/-!
# Problems with constraints (hvd/problems/base.py)

The compiled and differentiated variants (`jit`, `vmap`, `jacrev`) are not modelled. `none` is an exception.
-/

namespace Verif.Prob

variable {K : Type*} [Field K] [LinearOrder K]

/-- A bound as given by the user: a number or an array. -/
inductive Bound (K : Type*) where
  | scalar (c : K)
  | array (l : List K)

/-- `_broadcast_bound` (base.py 88-92): numbers and arrays of length one are repeated; other lengths raise
`ValueError`. -/
def broadcastBound (n : ℕ) : Bound K → Option (List K)
  | .scalar c => some (List.replicate n c)
  | .array l =>
    if l.length = n then some l
    else match l with
      | [c] => some (List.replicate n c)
      | _ => none

/-- What a constraint function returns: an array without axes or a vector. -/
inductive Value (K : Type*) where
  | scalar (c : K)
  | vector (l : List K)

/-- Arrays of the same length subtracted. Broadcasting of an `x` of length one is not modelled. -/
def subtract (a b : List K) : Option (List K) :=
  if a.length = b.length then some (List.zipWith (· - ·) a b) else none

/-- The function returned by `add_boundary_constraints` (base.py 43-56). Concatenating an array without axes is an
error. -/
def addBoundary (ieq : Option (List K → Value K)) (xl xu x : List K) : Option (Value K) :=
  (subtract xl x).bind fun lo => (subtract x xu).bind fun hi =>
    match ieq with
    | none => some (.vector (lo ++ hi))
    | some f =>
      match f x with
      | .scalar _ => none
      | .vector u => some (.vector (u ++ lo ++ hi))

/-- The attributes of a `CMOP` used here. -/
structure Cmop (K : Type*) where
  nVar : ℕ
  nIeq : ℕ
  xl : List K
  xu : List K
  ieq : Option (List K → Option (Value K))

/-- `CMOP.__init__` with `MOP.__init__` (base.py 64-69, 151-179), as far as inequalities are concerned:
`userIeq` is the method `_ieq_constraint` of the class. -/
def Cmop.init (nVar nObj nEq nIeq : Int) (xl xu : Bound K) (boundary : Bool) (userIeq : List K → Value K) :
    Option (Cmop K) :=
  if nEq < 0 ∨ nIeq < 0 then none
  else if nVar < 1 ∨ nObj < 1 then none
  else (broadcastBound nVar.toNat xl).bind fun xl => (broadcastBound nVar.toNat xu).bind fun xu =>
    if (List.zipWith (fun a b => decide (a > b)) xl xu).any id then none
    else if boundary then
      some { nVar := nVar.toNat, nIeq := nIeq.toNat + 2 * nVar.toNat, xl := xl, xu := xu,
             ieq := some (addBoundary (if nIeq > 0 then some userIeq else none) xl xu) }
    else
      some { nVar := nVar.toNat, nIeq := nIeq.toNat, xl := xl, xu := xu,
             ieq := if nIeq > 0 then some (fun x => some (userIeq x)) else none }

/-- `ieq_constraint` (base.py 194-195); without inequalities `None` is called, a `TypeError`. -/
def Cmop.ieqConstraint (P : Cmop K) (x : List K) : Option (Value K) := P.ieq.bind fun f => f x

end Verif.Prob
