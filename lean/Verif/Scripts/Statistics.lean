import Mathlib.Algebra.Order.Field.Basic
import Mathlib.Data.List.Sort

/-!
# The tables of results

`scripts/compute_statistics.py`, `scripts/compute_statistics_MMD.py`, `scripts/compute_statistics_ICML.py` and
`examples/HVSS/compute_stats.py` (the same file as `examples/subset_selection/compute_stats.py`). The Mann-Whitney test is a
parameter (the p-value of two samples). Texts are left out: a cell of a table is its arrow. A file that cannot be read is
`none`.
-/

namespace Verif.Scripts

variable {K : Type*} [Field K] [LinearOrder K]

/-- The columns `GD` and `IGD` of a file of results. -/
structure Runs (K : Type*) where
  gd : List K
  igd : List K

/-- `np.maximum(data.GD.values, data.IGD.values)` (compute_statistics.py 58). -/
def Runs.deltaP (r : Runs K) : List K := List.zipWith max r.gd r.igd

/-- `np.quantile(x, t / 10)` of sorted values: linear interpolation at the position `t (n - 1) / 10`. -/
def quantileTenth (t : ℕ) (s : List K) : K :=
  let h := t * (s.length - 1)
  s.getD (h / 10) 0 + (s.getD (h / 10 + 1) 0 - s.getD (h / 10) 0) * ((h % 10 : ℕ) / 10)

/-- `stats_func` (compute_statistics.py 10): median and distance of the quantiles 0.9 and 0.1. The functions of NumPy give
NaN or raise for an empty sample (`none`). -/
def statsFunc (x : List K) : Option (K × K) :=
  let s := x.insertionSort (· ≤ ·)
  if x = [] then none
  else some ((s.getD ((s.length - 1) / 2) 0 + s.getD (s.length / 2) 0) / 2, quantileTenth 9 s - quantileTenth 1 s)

/-- `multipletests(pvalues, alpha=0.05, method="fdr_bh")[0]` (compute_statistics.py 70): the procedure of Benjamini and
Hochberg. It raises if there are no p-values (division by zero). -/
def bhReject (α : K) (ps : List K) : Option (List Bool) :=
  if ps = [] then none
  else some (ps.map fun p => ps.any fun t => decide (p ≤ t ∧ t * ps.length ≤ α * (ps.filter fun q => decide (q ≤ t)).length))

/-- An arrow. -/
inductive Mark
  | up
  | down
  | same
  deriving DecidableEq, Repr

/-- The arrows of the rows and the counters `win`, `tie` and `loose`. -/
structure Column where
  marks : List Mark
  win : ℕ
  tie : ℕ
  loose : ℕ
  deriving DecidableEq, Repr

/-- The loop over the rows (compute_statistics.py 71-83): a row consists of the values that are compared and the outcome of
the test; `gt` selects `x > y` (compute_statistics_ICML.py 70) in place of `x < y`. -/
def countRows (gt : Bool) : List ((K × K) × Bool) → Column → Column
  | [], c => c
  | ((x, y), r) :: rows, c =>
    countRows gt rows
      (if r then
        if (if gt then y < x else x < y) then { c with marks := c.marks ++ [.up], win := c.win + 1 }
        else { c with marks := c.marks ++ [.down], loose := c.loose + 1 }
      else { c with marks := c.marks ++ [.same], tie := c.tie + 1 })

/-- `win, tie, loose = 0, 0, 0`. -/
def Column.empty : Column := ⟨[], 0, 0, 0⟩

/-- `compute_statistics.py` 50-84 and `compute_statistics_MMD.py` 33-60: results of the method and of the MOEA for each row;
rows with a missing file are skipped (56-57). -/
def compareTable (mw : List K → List K → K) (α : K) (files : List (Option (Runs K × Runs K))) : Option Column :=
  let data := (files.filterMap id).map fun r => (r.1.deltaP, r.2.deltaP)
  (data.mapM fun d => (statsFunc d.1).bind fun n => (statsFunc d.2).map fun m => (n.1, m.1)).bind fun stats =>
  (bhReject α (data.map fun d => mw d.1 d.2)).map fun reject =>
  countRows false (stats.zip reject) Column.empty

/-- The files of a row of `compute_statistics_ICML.py`. -/
structure FourRuns (K : Type*) where
  mmd : Runs K
  dpn : Runs K
  lara : Runs K
  moea : Runs K

/-- `compute_statistics_ICML.py` 37-104: the columns of DpN, of the gradient method and of the MOEA. `reject3` is computed
from `pvalues13` (63). -/
def icmlTable (mw : List K → List K → K) (α : K) (files : List (Option (FourRuns K))) :
    Option (Column × Column × Column) :=
  let data := files.filterMap id
  (data.mapM fun d => (statsFunc d.mmd.deltaP).bind fun n => (statsFunc d.dpn.deltaP).bind fun m =>
    (statsFunc d.lara.deltaP).bind fun q => (statsFunc d.moea.deltaP).map fun p => (n.1, m.1, q.1, p.1)).bind fun stats =>
  let pvalues12 := data.map fun d => mw d.mmd.deltaP d.dpn.deltaP
  let pvalues13 := data.map fun d => mw d.mmd.deltaP d.lara.deltaP
  (bhReject α pvalues12).bind fun reject1 =>
  (bhReject α pvalues13).bind fun reject2 =>
  (bhReject α pvalues13).map fun reject3 =>
  (countRows true ((stats.map fun s => (s.1, s.2.1)).zip reject1) Column.empty,
    countRows true ((stats.map fun s => (s.1, s.2.2.1)).zip reject2) Column.empty,
    countRows true ((stats.map fun s => (s.1, s.2.2.2)).zip reject3) Column.empty)

/-- `examples/HVSS/compute_stats.py` 24-54 (and 56-70 for the other method): the rows of the results of HVNS and of another
method. The loop compares the two entries of `stats_GAHSS[k]` (42-45), median and distance of the quantiles. -/
def subsetTable (mw : List K → List K → K) (α : K) (data : List (List K × List K)) : Option Column :=
  (data.mapM fun d => (statsFunc d.1).bind fun _ => statsFunc d.2).bind fun stats =>
  (bhReject α (data.map fun d => mw d.1 d.2)).map fun reject =>
  countRows true (stats.zip reject) Column.empty

end Verif.Scripts
