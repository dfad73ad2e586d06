import Mathlib.Algebra.Order.Field.Basic
import Verif.Moea.Survival

/-!
# The components of the reference set in scripts/benchmark_CONV4.py

Squared distances take the place of distances, which does not change the order. The function is defined but not called.
-/

namespace Verif.Scripts

variable {K : Type*} [Field K] [LinearOrder K]

/-- The squared Euclidean distance. -/
def squareDistance (r y : List K) : K := (List.zipWith (fun a b => (a - b) ^ 2) r y).sum

/-- `directed_hausdorff(ref[i], np.atleast_2d(y))[0]` (benchmark_CONV4.py 35), squared: the largest of the distances of the points
of the component to `y`. An empty component is taken as an exception. -/
def directedHausdorff (comp : List (List K)) (y : List K) : Option K := (comp.map fun r => squareDistance r y).max?

/-- `match_cluster` (benchmark_CONV4.py 32-36). The keys of `ref` are `0, 1, ...`. -/
def matchCluster (Y : List (List K)) (ref : List (List (List K))) : Option (List ℕ) :=
  Y.mapM fun y => (ref.mapM fun comp => directedHausdorff comp y).bind Moea.argmin

end Verif.Scripts
