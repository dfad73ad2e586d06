import Mathlib.Algebra.Order.Ring.Abs
import Mathlib.Algebra.Field.Defs

/-!
# Model of `get_non_dominated` (hvd/utils.py 224-246)
-/

namespace Verif.NDS

/-- `np.any(q > p)` for one row `q` (utils.py 233-238). Rows of a NumPy matrix have the same
length. -/
def anyGreater {K : Type*} [LinearOrder K] (q p : List K) : Bool :=
  (List.zipWith (fun a b => decide (a > b)) q p).any id

/-- `np.all(~np.isclose(q, p))` for one row (utils.py 238, 241); `np.isclose(a, b)` is
`|a - b| ≤ atol + rtol * |b|`. -/
def noneClose {K : Type*} [Field K] [LinearOrder K] (atol rtol : K) (q p : List K) : Bool :=
  (List.zipWith (fun a b => decide (|a - b| ≤ atol + rtol * |b|)) q p).all (fun c => !c)

/-- The positions kept by the loop (utils.py 229-244): row `idx` is kept if `ok q p` holds for all
the rows `q` before and after it. -/
def keptIndices {K : Type*} (ok : List K → List K → Bool) (Y : List (List K)) : List ℕ :=
  (List.range Y.length).filter fun idx =>
    match Y[idx]? with
    | none => false
    | some p => (Y.take idx).all (fun q => ok q p) && (Y.drop (idx + 1)).all (fun q => ok q p)

/-- `get_non_dominated(Y, return_index=True)` (utils.py 224-246), `weakly_dominated=True`.
`none`: nothing is kept, then `np.array([])` is an array of floats and indexing with it (line 245)
raises `IndexError`. -/
def getNonDominated {K : Type*} [LinearOrder K] (Y : List (List K)) : Option (List ℕ) :=
  let r := keptIndices anyGreater Y
  if r = [] then none else some r

/-- `get_non_dominated(Y, return_index=True, weakly_dominated=False)`. -/
def getNonDominatedStrict {K : Type*} [Field K] [LinearOrder K] (atol rtol : K)
    (Y : List (List K)) : Option (List ℕ) :=
  let r := keptIndices (fun q p => anyGreater q p && noneClose atol rtol q p) Y
  if r = [] then none else some r

/-- `get_non_dominated(Y)`: the kept rows (utils.py 245-246). -/
def nonDominatedRows {K : Type*} (Y : List (List K)) (r : Option (List ℕ)) :
    Option (List (List K)) :=
  r.bind fun idx => idx.mapM (fun i => Y[i]?)

end Verif.NDS
