import Mathlib.Algebra.Order.Field.Basic
import Mathlib.Data.List.MinMax
import Mathlib.Order.Lattice

/-!
# The cubic splines of the subset selection examples

examples/subset_selection/{ZDT1,ZDT2,Dent,TwoOnOne}/spline.py and example.py; the copies in examples/HVSS are the same but for the
paths of the files. Numbers are elements of an ordered field; the tables are those that `read_csv` returns. `none` is an
exception (`IndexError`, or `ValueError` for the minimum of an empty array).
-/

namespace Verif.Scripts

variable {K : Type*} [Field K] [LinearOrder K]

/-- A row of `coefs`, the coefficients of the powers 3, 2, 1 and 0. -/
structure CubicRow (K : Type*) where
  a : K
  b : K
  c : K
  d : K

/-- `np.where(breaks <= x)[0][-1]` (ZDT1/spline.py 12). -/
def lastBreak (breaks : List K) (x : K) : Option ℕ :=
  ((List.range breaks.length).filter fun i => decide (breaks.getD i 0 ≤ x)).getLast?

/-- `y`, `dy` and `d2y` (ZDT1/spline.py 15-26) for `t = x - interval_min`. -/
def cubicTriple (p : CubicRow K) (t : K) : K × K × K :=
  (p.a * t ^ 3 + p.b * t ^ 2 + p.c * t + p.d, 3 * p.a * t ^ 2 + 2 * p.b * t + p.c, 6 * p.a * t + 2 * p.b)

/-- `pareto_front_approx` (ZDT1/spline.py 10-27; the same in ZDT2). -/
def frontApprox (coefs : List (CubicRow K)) (breaks : List K) (x : K) : Option (K × K × K) :=
  (lastBreak breaks x).bind fun i =>
    coefs[min (coefs.length - 1) i]?.map fun p => cubicTriple p (x - breaks.getD i 0)

/-- `pareto_front_approx` of Dent/spline.py (10-26), where the index of the row is not limited. -/
def frontApproxDent (coefs : List (CubicRow K)) (breaks : List K) (x : K) : Option (K × K × K) :=
  (lastBreak breaks x).bind fun i => coefs[i]?.map fun p => cubicTriple p (x - breaks.getD i 0)

/-- `component1` and `component2` (TwoOnOne/spline.py 20-38 and 41-59) for their tables. -/
def componentApprox (coefs : List (CubicRow K)) (breaks : List K) (x : K) : Option (K × K × K) :=
  breaks.min?.bind fun lo => breaks.max?.bind fun hi =>
    let x := min hi (max x lo)
    (lastBreak breaks x).bind fun i => coefs[min 30 i]?.map fun p => cubicTriple p (x - breaks.getD i 0)

/-- `pareto_front_approx` of TwoOnOne/spline.py (13-17) for the tables of both components. -/
def twoOnOneApprox (coefs1 : List (CubicRow K)) (breaks1 : List K) (coefs2 : List (CubicRow K)) (breaks2 : List K) (x : K) :
    Option (K × K × K) :=
  if 766439406746696 / 10 ^ 14 ≤ x then componentApprox coefs1 breaks1 x else componentApprox coefs2 breaks2 x

/-- `h` (ZDT1/example.py 54-55; the same in ZDT2, Dent and TwoOnOne/example_individual.py). -/
def splineH (approx : K → Option (K × K × K)) (x0 x1 : K) : Option K := (approx x0).map fun r => r.1 - x1

/-- `h_Jacobian` (ZDT1/example.py 58-59). -/
def splineHJac (approx : K → Option (K × K × K)) (x0 _x1 : K) : Option (K × K) := (approx x0).map fun r => (r.2.1, -1)

/-- `h_Hessian` (ZDT1/example.py 62-63), the two rows. -/
def splineHHess (approx : K → Option (K × K × K)) (x0 _x1 : K) : Option ((K × K) × (K × K)) :=
  (approx x0).map fun r => ((r.2.2, 0), (0, 0))

/-- `x * (xu - xl) + xl` (TwoOnOne/example.py 63, 68 and 73), one coordinate. -/
def unscale (l u x : K) : K := x * (u - l) + l

/-- `h` of TwoOnOne/example.py (62-64) for the bounds `xl` and `xu`. -/
def scaledH (approx : K → Option (K × K × K)) (xl xu : K × K) (x0 x1 : K) : Option K :=
  (approx (unscale xl.1 xu.1 x0)).map fun r => r.1 - unscale xl.2 xu.2 x1

/-- `h_jac` of TwoOnOne/example.py (67-69). -/
def scaledHJac (approx : K → Option (K × K × K)) (xl xu : K × K) (x0 _x1 : K) : Option (K × K) :=
  (approx (unscale xl.1 xu.1 x0)).map fun r => (r.2.1, -1)

/-- `h_hessian` of TwoOnOne/example.py (72-74), the two rows. -/
def scaledHHess (approx : K → Option (K × K × K)) (xl xu : K × K) (x0 _x1 : K) : Option ((K × K) × (K × K)) :=
  (approx (unscale xl.1 xu.1 x0)).map fun r => ((r.2.2, 0), (0, 0))

/-- `g` of TwoOnOne/example.py (77-81); it is not passed to the optimiser at the moment. -/
def twoOnOneG (x0 x1 : K) : K :=
  if 766439406746696 / 10 ^ 14 ≤ x0 then x1 - 298489868 / 10 ^ 8 else 733334022 / 10 ^ 8 - x1

/-- `xl` (TwoOnOne/example.py 30). -/
def twoOnOneLower : K × K := (683341008507533 / 10 ^ 14, 0)

/-- `xu` (TwoOnOne/example.py 31). -/
def twoOnOneUpper : K × K := (2195 / 100, 907976975741695 / 10 ^ 14)

end Verif.Scripts
