import Mathlib.Algebra.Order.Floor.Ring
import Mathlib.Algebra.Order.Field.Basic
import Mathlib.Data.Rat.Floor

/-!
# Piecewise curves (examples/HVSS/utils.py, examples/HVSS/components.py, examples/subset_selection/utils.py)

Numbers are exact. `none` stands for an exception.
-/

namespace Verif.Scripts

variable {K V : Type*}

/-- A curve with first and second derivative: an object of class `BS` or `MOP`. -/
structure Curve (K V : Type*) where
  objective : K → V
  jacobian : K → V
  hessian : K → V

/-- The methods of `BS` (examples/HVSS/utils.py 95-116, examples/subset_selection/utils.py 89-110) for a spline `s` with its
derivatives `s1` and `s2`, which are zero at both ends. -/
def Curve.spline [Zero K] [One K] [DecidableEq K] [Zero V] (s s1 s2 : K → V) : Curve K V where
  objective := s
  jacobian := fun t => if t = 0 ∨ t = 1 then 0 else s1 t
  hessian := fun t => if t = 0 ∨ t = 1 then 0 else s2 t

/-- `PiecewiseBS.sort_splines` (examples/HVSS/utils.py 63-65, examples/subset_selection/utils.py 65-67) for two objectives. Here
equal keys keep their order, which `np.argsort` does not promise. -/
def sortSplines [Zero K] [LinearOrder K] (splines : List (Curve K (K × K))) : List (Curve K (K × K)) :=
  splines.mergeSort fun c c' => decide ((c.objective 0).1 ≤ (c'.objective 0).1)

/-- Indexing of an array, where negative indices count from the end. -/
def pyIndex {α : Type*} (l : List α) (k : ℤ) : Option α :=
  if 0 ≤ k then l[k.toNat]? else if -(l.length : ℤ) ≤ k then l[(l.length + k).toNat]? else none

section
variable [Field K] [LinearOrder K] [FloorRing K]

/-- `np.linspace(0, 1, N + 1)` (examples/HVSS/utils.py 60). -/
def intervals (K : Type*) [Field K] (N : ℕ) : List K := (List.range (N + 1)).map fun (i : ℕ) => (i : K) / (N : K)

/-- `PiecewiseBS.get_index` (examples/HVSS/utils.py 67-79) and `PiecewiseAnalytical.get_index` (examples/HVSS/components.py
59-73), where `size = 1 / N`. -/
def getIndex (N : ℕ) (t : K) : ℤ := if t = 1 then N - 1 else ⌊t / (1 / N)⌋

/-- `np.isclose(a, b)` with the default tolerances. -/
def isClose (a b : K) : Bool := decide (|a - b| ≤ 1 / 10 ^ 8 + 1 / 10 ^ 5 * |b|)

/-- `PiecewiseBS.get_index` of examples/subset_selection/utils.py 68-72. -/
def getIndexClose (N : ℕ) (t : K) : ℤ :=
  let k : ℤ := ⌊t / (1 / N)⌋
  if isClose t (k * (1 / N)) ∧ t ≠ 0 then k - 1 else k

/-- `__func__` (examples/HVSS/utils.py 81-83, examples/HVSS/components.py 75-79, examples/subset_selection/utils.py 74-76) for a
method and a way to find the index. -/
def piecewise (index : ℕ → K → ℤ) (pieces : List (Curve K V)) (method : Curve K V → K → V) (t : K) : Option V :=
  let k := index pieces.length t
  (pyIndex pieces k).bind fun c =>
    (pyIndex (intervals K pieces.length) k).map fun a => method c (pieces.length * (t - a))

end

end Verif.Scripts
