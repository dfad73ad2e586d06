import Mathlib.Data.Nat.Choose.Basic
import Mathlib.Algebra.Field.Defs
import Mathlib.Analysis.Real.Sqrt

/-!
# Reference directions (hvd/problems/utils.py)
-/

namespace Verif.Prob

/-- The number of points asked for (utils.py 9): `n_points or (100 if n_obj == 2 else 496)`; zero points count as
not given. -/
def target (nObj : ℕ) (nPoints : Option Int) : Int :=
  match nPoints with
  | none => if nObj = 2 then 100 else 496
  | some t => if t = 0 then (if nObj = 2 then 100 else 496) else t

/-- The loop over the number of partitions (utils.py 10-12). `none`: not ended within `fuel` rounds, or, for no
objectives, the `ValueError` of `math.comb` with a negative argument. -/
def partitionLoop (nObj : ℕ) (t : Int) : ℕ → ℕ → Option ℕ
  | 0, _ => none
  | fuel + 1, p =>
    if nObj = 0 then none
    else if (((p + nObj - 1).choose (nObj - 1) : ℕ) : Int) < t then partitionLoop nObj t fuel (p + 1)
    else some p

/-- `compositions` (utils.py 13-21), the list of everything yielded. With no parts the recursion does not end
(`RecursionError`, `none`). -/
def compositions : ℕ → ℕ → List ℕ → Option (List (List ℕ))
  | _, 0, _ => none
  | total, 1, pre => some [pre ++ [total]]
  | total, parts + 2, pre =>
    ((List.range (total + 1)).mapM fun value =>
      compositions (total - value) (parts + 1) (pre ++ [value])).map List.flatten

/-- `get_ref_dirs` (utils.py 6-23). A given `n_partitions` of zero gives `0 / 0`, NaN (`none`); a negative one
(no directions at all) is not modelled. -/
def getRefDirs {K : Type*} [Field K] (fuel nObj : ℕ) (nPoints : Option Int) (nPartitions : Option ℕ) :
    Option (List (List K)) :=
  (match nPartitions with
    | some p => some p
    | none => partitionLoop nObj (target nObj nPoints) fuel 1).bind fun p =>
  if p = 0 then none
  else (compositions p nObj []).map fun (L : List (List ℕ)) => L.map fun (c : List ℕ) => c.map fun x : ℕ => (x : K) / (p : K)

/-- `generic_sphere` (utils.py 26-27); `none` for a zero row (NaN). -/
noncomputable def genericSphere (dirs : List (List ℝ)) : Option (List (List ℝ)) :=
  dirs.mapM fun r =>
    if Real.sqrt (r.map fun x => x ^ 2).sum = 0 then none
    else some (r.map fun x => x / Real.sqrt (r.map fun x => x ^ 2).sum)

end Verif.Prob
