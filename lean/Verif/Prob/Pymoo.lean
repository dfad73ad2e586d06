import Mathlib.Algebra.Order.Field.Basic

/-!
# The two adapters between pymoo problems and problems of this package (hvd/problems/_pymoo_wrapper.py)

`none` as a result is an exception; `none` as an entry of an array is NaN. The compiled and differentiated variants are
not modelled. What is assumed about pymoo, NumPy and JAX: `Problem.__init__` stores its arguments (bounds may be
`None`), `np.asarray(None, dtype=float)` is NaN, and NumPy functions raise on JAX tracers.
-/

namespace Verif.Prob

variable {K : Type*} [Field K] [LinearOrder K]

/-- What `_evaluate` leaves behind: the returned value, and the entries of the dictionary `out`. -/
structure Outcome (K : Type*) where
  result : Option (List (List K)) := none
  F : Option (List (List K)) := none
  G : Option (List (List (Option K))) := none
  H : Option (List (List K)) := none

/-- A pymoo problem: its attributes, the method `_evaluate` on matrices (one decision vector per row), and whether
`_evaluate` consists of operations that JAX can trace. -/
structure Pymoo (K : Type*) where
  nVar : ℤ
  nObj : ℤ
  nIeq : ℤ
  nEq : ℤ
  xl : Option (List K)
  xu : Option (List K)
  evaluate : List (List K) → Option (Outcome K)
  traces : Bool

/-- The attributes of a `CMOP` (base.py 64-75, 151-189) that the adapters use. `ieq` and `eq` are `None` without
constraints. -/
structure Native (K : Type*) where
  nVar : ℕ
  nObj : ℕ
  nIeq : ℕ
  nEq : ℕ
  xl : List (Option K)
  xu : List (Option K)
  objective : List K → Option (List K)
  ieq : Option (List K → Option (List (Option K)))
  eq : Option (List K → Option (List K))

/-- `_evaluate_key(x, "F")` and `_objective` (_pymoo_wrapper.py 60-68). The returned value is used if nothing was
written to `out`. `reshape(-1)` is `List.flatten`. -/
def backedObjective (P : Pymoo K) (x : List K) : Option (List K) :=
  (P.evaluate [x]).bind fun o =>
    match o.result, o.F, o.G, o.H with
    | some r, none, none, none => some r.flatten
    | _, f, _, _ => f.map List.flatten

/-- `_ieq_constraint` (_pymoo_wrapper.py 70-71); a missing key raises. -/
def backedIeq (P : Pymoo K) (x : List K) : Option (List (Option K)) :=
  (P.evaluate [x]).bind fun o => o.G.map List.flatten

/-- `_eq_constraint` (_pymoo_wrapper.py 73-74). -/
def backedEq (P : Pymoo K) (x : List K) : Option (List K) :=
  (P.evaluate [x]).bind fun o => o.H.map List.flatten

/-- `_broadcast_bound` (base.py 88-92) on what pymoo stores: `None` or an array. -/
def storedBound (n : ℕ) : Option (List K) → Option (List (Option K))
  | none => some (List.replicate n none)
  | some l =>
    if l.length = n then some (l.map some)
    else match l with
      | [c] => some (List.replicate n (some c))
      | _ => none

/-- `xl > xu` in one coordinate (base.py 85); comparisons with NaN are false. -/
def exceeds : Option K → Option K → Bool
  | some a, some b => decide (a > b)
  | _, _ => false

/-- Difference of two entries, NaN if one is. -/
def diff : Option K → Option K → Option K
  | some a, some b => some (a - b)
  | _, _ => none

/-- `add_boundary_constraints` (base.py 43-56). Arrays of different lengths raise (broadcasting of arrays of length one
is not modelled). -/
def withBounds (ieq : Option (List K → Option (List (Option K)))) (xl xu : List (Option K)) (x : List K) :
    Option (List (Option K)) :=
  if x.length ≠ xl.length ∨ x.length ≠ xu.length then none
  else
    let box := List.zipWith diff xl (x.map some) ++ List.zipWith diff (x.map some) xu
    match ieq with
    | none => some box
    | some f => (f x).map (· ++ box)

/-- `_validate_jax_traceability` (_pymoo_wrapper.py 39-58): every function that exists is run symbolically; any
exception becomes a `TypeError`. -/
def validates (P : Pymoo K) (W : Native K) : Bool :=
  let x := List.replicate W.nVar (0 : K)
  P.traces && (W.objective x).isSome && (match W.ieq with | none => true | some f => (f x).isSome) &&
    (match W.eq with | none => true | some f => (f x).isSome)

/-- `_PymooBackedProblem.__init__` (_pymoo_wrapper.py 20-32) with the constructors of base.py (64-69, 151-176). -/
def backed (P : Pymoo K) (boundary : Bool) : Option (Native K) :=
  if P.nEq < 0 ∨ P.nIeq < 0 then none
  else if P.nVar < 1 ∨ P.nObj < 1 then none
  else (storedBound P.nVar.toNat P.xl).bind fun xl => (storedBound P.nVar.toNat P.xu).bind fun xu =>
    if (List.zipWith exceeds xl xu).any id then none
    else
      let ieq := if P.nIeq > 0 then some (backedIeq P) else none
      let W : Native K :=
        { nVar := P.nVar.toNat, nObj := P.nObj.toNat, nEq := P.nEq.toNat
          nIeq := if boundary then P.nIeq.toNat + 2 * P.nVar.toNat else P.nIeq.toNat
          xl := xl, xu := xu, objective := backedObjective P
          ieq := if boundary then some (withBounds ieq xl xu) else ieq
          eq := if P.nEq > 0 then some (backedEq P) else none }
      if validates P W then some W else none

/-- `_PymooProblemAdapter._evaluate` (_pymoo_wrapper.py 102-108): the batch functions, row by row. -/
def adapterEvaluate (W : Native K) (X : List (List K)) : Option (Outcome K) :=
  (X.mapM W.objective).bind fun F =>
    (if W.nEq > 0 then (W.eq.bind fun f => X.mapM f).map some else some none).bind fun H =>
      (if W.nIeq > 0 then (W.ieq.bind fun f => X.mapM f).map some else some none).map fun G =>
        { F := some F, G := G, H := H }

/-- `_PymooProblemAdapter.__init__` (_pymoo_wrapper.py 88-100), for a problem whose bounds are numbers.
`_evaluate` calls `np.atleast_2d` and `np.asarray`, so it cannot be traced. -/
def adapter (W : Native K) (xl xu : List K) : Pymoo K where
  nVar := W.nVar
  nObj := W.nObj
  nIeq := W.nIeq
  nEq := W.nEq
  xl := some xl
  xu := some xu
  evaluate := adapterEvaluate W
  traces := false

/-- The argument of `from_pymoo`. -/
inductive Source (K : Type*) where
  | native (W : Native K)
  | pymoo (P : Pymoo K)
  | other

/-- `MOP.from_pymoo` (base.py 131-142). -/
def fromPymoo (boundary : Bool) : Source K → Option (Native K)
  | .native W => some W
  | .pymoo P => backed P boundary
  | .other => none

/-- A pymoo `ElementwiseProblem` as the wrapper sees it. Its `_evaluate` is written for one decision vector: `ev` gets
the indexing `i ↦ x[i]` and returns the list of objective values, each an array (a number is an array of length one).
pymoo calls it with a vector, the wrapper with a matrix of one row (_pymoo_wrapper.py 62), whose `x[i]` is the whole
row (JAX clamps indices). -/
def elementwise (nVar nObj : ℕ) (xl xu : List K) (ev : (ℕ → List K) → List (List K)) : Pymoo K where
  nVar := nVar
  nObj := nObj
  nIeq := 0
  nEq := 0
  xl := some xl
  xu := some xu
  evaluate := fun X => some { F := some (ev fun i => X.getD (min i (X.length - 1)) []) }
  traces := true

end Verif.Prob
