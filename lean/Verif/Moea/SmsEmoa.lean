import Verif.Moea.Survival
import Mathlib.Algebra.Field.Defs

/-!
# A generation of SMS-EMOA (hvd/moea/sms_emoa.py 96-153 and 243-257)

Individuals are given by their objective values, the problem has no constraints. `none` stands for an exception.
-/

namespace Verif.Moea

variable {K : Type*} [Field K] [LinearOrder K]

/-- The attributes of `SMSEMOA` and of its survival. `sort F n` is `NonDominatedSorting().do(F, n_stop_if_ranked=n)` of
pymoo, `hvc ref F` the contributions of `ExactHypervolume2D(ref).add(F)` of pymoo. -/
structure Sms (K : Type*) where
  nObj : ℕ
  popSize : ℕ
  normalize : Bool
  eps : K
  sort : List (List K) → ℕ → List (List ℕ)
  hvc : List K → List (List K) → List K

/-- `F.min(axis=0)`, a `ValueError` without rows. -/
def colMin (d : ℕ) (F : List (List K)) : Option (List K) :=
  (List.range d).mapM fun j => (F.map fun x => x.getD j 0).min?

/-- `F.max(axis=0)`. -/
def colMax (d : ℕ) (F : List (List K)) : Option (List K) :=
  (List.range d).mapM fun j => (F.map fun x => x.getD j 0).max?

/-- `normalize(F, ideal, nadir)` of pymoo for one row (line 127): an objective without range is only shifted. -/
def normalizeRow (ideal nadir x : List K) : List K :=
  List.zipWith (fun v (q : K × K) => if q.2 = q.1 then v - q.1 else (v - q.1) / (q.2 - q.1)) x (ideal.zip nadir)

namespace Sms

variable (a : Sms K)

/-- The hypervolume object (lines 125-142): the normalised members. With one objective `ExactHypervolume` calls a program
under a path on the author's machine, with three or more the decorated functions of lines 23-52 raise (see
`hvMonteCarloJit`). Both exceptions are expressed by an object without contributions, for which `argmin` raises. -/
def hvObject (ideal nadir : List K) (merged : List (List K)) : HvObject (List (List K)) K where
  new := fun front => front.map fun i => normalizeRow ideal nadir (merged.getD i [])
  hvc := fun F => if a.nObj = 2 then a.hvc (List.replicate a.nObj (1 + a.eps)) F else []
  delete := List.eraseIdx

/-- `_advance` (lines 243-257) with `_do` (lines 101-153). Without infills the variable `pop` is unbound in line 255. -/
def advance (pop : List (List K)) (infills : Option (List (List K))) : Option (List (List K)) :=
  infills.bind fun off =>
  (colMin a.nObj (if a.normalize then pop else pop ++ off)).bind fun ideal =>
  (if a.normalize then (colMax a.nObj pop).map fun m => m.map (· + 1 / 10 ^ 32)
    else colMax a.nObj (pop ++ off)).bind fun nadir =>
  (survive (a.hvObject ideal nadir (pop ++ off)) (some a.popSize) (a.sort (pop ++ off) a.popSize)).map fun idx =>
    idx.map fun i => (pop ++ off).getD i []

end Sms

end Verif.Moea
