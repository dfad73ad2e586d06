import Verif.Prob.UF
import Mathlib.Algebra.BigOperators.Group.Finset.Basic

/-!
# The problems of hvd/problems/misc.py

Over the reals, with the default boxes. A decision vector is a function of the index; the entries from `n_var` on are never
read. Random matrices are arguments.
-/

namespace Verif.Prob

open Real

/-! ## DENT -/

/-- `DENT._objective` (misc.py 28-33). -/
noncomputable def dent (x : ℕ → ℝ) : Option (List ℝ) :=
  let term1 := √(1 + (x 0 + x 1) ^ 2) + √(1 + (x 0 - x 1) ^ 2)
  let term2 := 0.85 * exp (-((x 0 - x 1) ^ 2))
  some [0.5 * (term1 + x 0 - x 1) + term2, 0.5 * (term1 - x 0 + x 1) + term2]

/-- `DENT.get_pareto_set` (misc.py 35-37). -/
noncomputable def dentSet (n : ℕ) : List (ℕ → ℝ) :=
  (linspace (-2) 2 n).map fun t i => if i = 0 then t else -t

/-- `DENT.get_pareto_front` (misc.py 39-41). -/
noncomputable def dentFront (n : ℕ) : Option (List (List ℝ)) := (dentSet n).mapM dent

/-! ## CONV3, CONV4 and CONV4_2F -/

/-- `jnp.sum((x - a) ** 2)`. -/
noncomputable def dist2 (n : ℕ) (x a : ℕ → ℝ) : ℝ := ∑ i ∈ Finset.range n, (x i - a i) ^ 2

/-- The matrix of the rows `a1`, `a2`, `a3` of `CONV3` (misc.py 62-64, 74). -/
def conv3Centers (j i : ℕ) : ℝ := if j = 0 then -1 else if j = 1 then 1 else if i < 2 then -1 else 1

/-- `CONV3._objective` (misc.py 66-69). -/
noncomputable def conv3 (x : ℕ → ℝ) : Option (List ℝ) :=
  some [dist2 3 x (conv3Centers 0), dist2 3 x (conv3Centers 1), dist2 3 x (conv3Centers 2)]

/-- `np.eye` (misc.py 98, 134, 154). -/
def eye (j i : ℕ) : ℝ := if i = j then 1 else 0

/-- `CONV4._objective` (misc.py 100-102). -/
noncomputable def conv4 (x : ℕ → ℝ) : Option (List ℝ) := some ((List.range 4).map fun j => dist2 4 x (eye j))

/-- `deltay` (misc.py 136-138). -/
def deltay (i : ℕ) : ℝ := ([2, 2, 2, 0] : List ℝ).getD i 0 - ([0, 2, 2, 2] : List ℝ).getD i 0

open Classical in
/-- `CONV4_2F._objective` (misc.py 132-145). -/
noncomputable def conv42f (x : ℕ → ℝ) : Option (List ℝ) :=
  if ∀ i < 4, x i < 0 then some ((List.range 4).map fun j => dist2 4 (fun i => x i + 1) (eye j) - 3.5 * deltay j)
  else some ((List.range 4).map fun j => dist2 4 x (eye j))

open Classical in
/-- A row of `w /= w.sum(axis=1)` (misc.py 73, 106, 151, 153). `none`: NaN. -/
noncomputable def normalised (w : List ℝ) : Option (List ℝ) := if w.sum = 0 then none else some (w.map (· / w.sum))

/-- A row of `w @ A` for the rows `A j`. -/
noncomputable def rowTimes (A : ℕ → ℕ → ℝ) (w : List ℝ) (i : ℕ) : ℝ := ∑ j ∈ Finset.range w.length, w.getD j 0 * A j i

/-- `CONV3.get_pareto_front` (misc.py 71-75) for the random matrix `W`. -/
noncomputable def conv3Front (W : List (List ℝ)) : Option (List (List ℝ)) :=
  W.mapM fun w => (normalised w).bind fun w => conv3 (rowTimes conv3Centers w)

/-- `CONV4.get_pareto_front` (misc.py 104-108) for the random matrix `W`. -/
noncomputable def conv4Front (W : List (List ℝ)) : Option (List (List ℝ)) :=
  W.mapM fun w => (normalised w).bind fun w => conv4 (rowTimes eye w)

/-- `CONV4_2F.get_pareto_front` (misc.py 147-156) for the random matrices `W1` and `W2`. -/
noncomputable def conv42fFront (W1 W2 : List (List ℝ)) : Option (List (List ℝ)) :=
  (W1.mapM fun w => (normalised w).bind fun w => conv42f (rowTimes eye w)).bind fun R1 =>
    (W2.mapM fun w => (normalised w).bind fun w => conv42f (rowTimes (fun j i => eye j i - 1) w)).map fun R2 => R1 ++ R2

/-- The numbers of rows of the two random matrices (misc.py 148-149). -/
def conv42fSizes (N : ℕ) : ℕ × ℕ := ((N + 1) / 2, max 1 (N - (N + 1) / 2))

/-! ## DisConnected -/

/-- `DisConnected._objective` (misc.py 180-182). -/
def disConnected (x : ℕ → ℝ) : Option (List ℝ) := some [x 0, x 1]

open Classical in
/-- `DisConnected._ieq_constraint` (misc.py 184-187). -/
noncomputable def disConnectedG (x : ℕ → ℝ) : List ℝ :=
  [if x 0 ≤ 0.5 then 0.1 - x 0 else 0.6 - x 0, if x 0 ≤ 0.5 then x 0 - 0.4 else x 0 - 0.8]

open Classical in
/-- `DisConnected._eq_constraint` (misc.py 189-194). -/
noncomputable def disConnectedH (x : ℕ → ℝ) : ℝ :=
  if x 0 ≤ 0.6 then (2.5 * x 0) ^ 2 - 5 * x 0 + 1 - x 1 else 1 - (2.5 * x 0) ^ 2 - 5 - x 1

/-! ## ModifiedObjective -/

/-- A row of the result of `ModifiedObjective._evaluate` (misc.py 222-227) with `_alpha = 0.02`. -/
noncomputable def modifyRow (F : List ℝ) : List ℝ := F.map fun y => (1 - 0.02) * y + 0.02 * F.sum / (F.length : ℝ)

end Verif.Prob
