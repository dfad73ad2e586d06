import Verif.Moea.Survival
import Mathlib.Algebra.Order.Field.Basic

/-!
# Subset selection (examples/HVSS/run.py, run3D_example.py)

`select_initial_points` is the same in run3D.py, the rest the same in test.py and in examples/subset_selection/run.py.
-/

namespace Verif.Scripts

variable {K : Type*} [LinearOrder K]

/-- `np.where(labels == i)[0]` (run3D_example.py 118 and 125). -/
def cluster (labels : List ℕ) (i : ℕ) : List ℕ := (List.range labels.length).filter fun j => labels[j]? = some i

/-- The loop of `select_initial_points` (run3D_example.py 117-126): in each cluster the point nearest to the centre; empty
clusters are skipped. `dist i j` is the distance of the point `j` from the centre `i`. -/
def representatives (labels : List ℕ) (dist : ℕ → ℕ → K) (n : ℕ) : List ℕ :=
  (List.range (2 * n)).filterMap fun i =>
    (Moea.argmin ((cluster labels i).map (dist i))).bind fun p => (cluster labels i)[p]?

/-- `select_initial_points` (run3D_example.py 111-128). The labels and centres of `KMeans` are arbitrary. `random.sample(idx, N)`
raises if there are less than `N` elements; otherwise it returns the elements at the positions `sample`. -/
def selectInitialPoints (labels : List ℕ) (dist : ℕ → ℕ → K) (n : ℕ) (sample : List ℕ) : Option (List ℕ) :=
  let idx := representatives labels dist n
  if idx.length < n then none else sample.mapM fun p => idx[p]?

/-- `np.argmin(D, axis=1)` for the matrix of distances from the final points to the archive (run.py 75-76). -/
def selectArchive (d : List (List K)) : Option (List ℕ) := d.mapM Moea.argmin

/-- `1.5 * np.max(data, axis=0)` (run.py 47), one entry. -/
def refEntry {K : Type*} [Field K] [LinearOrder K] (column : List K) : Option K := column.max?.map fun m => 3 / 2 * m

/-- `np.maximum.accumulate` (run.py 68). -/
def accumulateMax : List K → List K
  | [] => []
  | x :: xs => x :: go x xs
where
  go (m : K) : List K → List K
    | [] => []
    | y :: ys => max m y :: go (max m y) ys

/-- `HV0` and `HV1`, reported as the values of the first and of the final population (run.py 70, 88 and 95). -/
def reportedValues (history : List K) : Option (K × K) :=
  (accumulateMax history).head?.bind fun a => (accumulateMax history).getLast?.map fun b => (a, b)

end Verif.Scripts
