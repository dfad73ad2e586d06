import Mathlib.Algebra.BigOperators.Group.List.Basic
import Mathlib.Data.Nat.Choose.Basic
import Mathlib.Algebra.Ring.Defs

/-!
# Polynomial features (examples/HVSS/base.py)

Tensors of a batch are treated row by row: a row is the list of its features.
-/

namespace Verif.Scripts

variable {α : Type*}

/-- `itertools.combinations_with_replacement(l, k)`, in its order (called in base.py 49). -/
def combsRepl : List α → ℕ → List (List α)
  | _, 0 => [[]]
  | [], _ + 1 => []
  | c :: cs, k + 1 => (combsRepl (c :: cs) k).map (c :: ·) ++ combsRepl cs (k + 1)

/-- `itertools.combinations(l, k)`, in its order (called in base.py 47). -/
def combs : List α → ℕ → List (List α)
  | _, 0 => [[]]
  | [], _ + 1 => []
  | c :: cs, k + 1 => (combs cs k).map (c :: ·) ++ combs cs (k + 1)

variable {K : Type*} [CommSemiring K]

/-- The columns collected by `poly_features` (examples/HVSS/base.py 26-54) for one row `x` of the batch: the features
themselves if the degree is at least one (40-42), then the products of `deg` columns for `deg = 2, ..., degree` (45-54). -/
def polyProds (degree : ℕ) (interactionOnly : Bool) (x : List K) : List K :=
  (if 1 ≤ degree then x else []) ++
    (List.range' 2 (degree - 1)).flatMap fun deg =>
      (if interactionOnly then combs x deg else combsRepl x deg).map List.prod

/-- `poly_features` (examples/HVSS/base.py 26-57); `torch.cat` (56) raises for an empty list (`none`). -/
def polyFeatures (degree : ℕ) (interactionOnly : Bool) (x : List K) : Option (List K) :=
  if polyProds degree interactionOnly x = [] then none else some (polyProds degree interactionOnly x)

/-- `hidden_dim` of `PolynomialRegression` (examples/HVSS/base.py 64). -/
def hiddenDim (inputDim degree : ℕ) : ℕ := (inputDim + degree - 1).choose degree + inputDim

/-- `PolynomialRegression.forward` (examples/HVSS/base.py 67-71) with weights `w` and bias `b` of `fc`; `nn.Linear` raises
if the number of features is not the number of weights. The weights have length `hiddenDim` by the constructor (61-65). -/
def polyForward (degree : ℕ) (w : List K) (b : K) (x : List K) : Option K :=
  (polyFeatures degree false x).bind fun h =>
    if h.length = w.length then some ((List.zipWith (· * ·) h w).sum + b) else none

end Verif.Scripts
