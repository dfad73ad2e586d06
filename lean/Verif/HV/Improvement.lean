import Verif.HV.Model

/-!
# Model of `hypervolume_improvement`
-/

namespace Verif.HV

/-- `hypervolume_improvement` (hypervolume_derivatives.py 27-29): the hypervolume of the front with
`x` put in front of it minus that of the front. -/
def hypervolumeImprovement {K : Type*} [Ring K] [LinearOrder K] (argsort : List K → List ℕ) (d : ℕ)
    (x : ℕ → K) (front : List (ℕ → K)) (ref : ℕ → K) : Option K :=
  match hypervolume argsort d (x :: front) ref with
  | none => none
  | some a =>
    match hypervolume argsort d front ref with
    | none => none
    | some b => some (a - b)

/-- The point with the given coordinates. -/
def pt {K : Type*} [Zero K] (l : List K) : ℕ → K := fun i => l.getD i 0

end Verif.HV
