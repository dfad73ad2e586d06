import Mathlib.Data.List.Basic
import Mathlib.Algebra.Field.Basic
import Mathlib.Order.Lattice
import Mathlib.Order.Defs.LinearOrder

/-!
# Replacement in MOEA/D (hvd/moea/moead.py)
-/

namespace Verif.Moea

variable {I K : Type*} [Field K] [LinearOrder K]

/-- `_cv_eps` (moead.py 45-50): `maxCv` is the attribute `max_cv`, `perc` the progress of the termination
(`none` without a termination). -/
def cvEps (maxCv : Option K) (percEpsUntil : K) (perc : Option K) : K :=
  match maxCv with
  | none => 0
  | some m => max 0 (1 - 1 / percEpsUntil * perc.getD 1) * m

/-- `parameter_less` of pymoo for one entry. -/
def parameterLess (fmax f cv : K) : K := if cv > 0 then fmax + cv else f

/-- The values compared in `_replace` (moead.py 56-64): the decomposed values of the neighbours and of the
offspring, with constraints (`eps` is the relaxation) those of `parameter_less`. The maximum over no
neighbours is a `ValueError`. -/
def mergeCv (eps : Option K) (FV offFV CV : List K) (offCv : K) : Option (List K × List K) :=
  match eps with
  | none => some (FV, offFV)
  | some e => FV.max?.bind fun m => offFV.max?.map fun m' =>
      (List.zipWith (fun f c => parameterLess (max m m') f (max (c - e) 0)) FV CV,
        offFV.map fun f => parameterLess (max m m') f (max (offCv - e) 0))

/-- `_replace` (moead.py 52-65). `g j x` is the value of the individual `x` in the subproblem `j`, `cv` the
constraint violation, `eps` is `none` if the problem has no constraints. `none` stands for an `IndexError`, or
the `ValueError` of `mergeCv`. -/
def replace (g : ℕ → I → K) (cv : I → K) (eps : Option K) (nbs : List ℕ) (off : I) (pop : List I) :
    Option (List I) :=
  (nbs.mapM fun j => pop[j]?).bind fun sel =>
    (mergeCv eps (List.zipWith g nbs sel) (nbs.map fun j => g j off) (sel.map cv) (cv off)).map fun p =>
      ((nbs.zip (List.zipWith (fun o f => decide (o < f)) p.2 p.1)).filter fun q => q.2).foldl
        (fun pop q => pop.set q.1 off) pop

end Verif.Moea
