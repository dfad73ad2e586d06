import Mathlib.Analysis.Real.Sqrt
import Mathlib.Data.Fin.VecNotation
import Mathlib.Algebra.BigOperators.Fin
import Mathlib.Algebra.Order.Floor.Defs

/-!
# Hand-written problems of the examples (examples/HVN, examples/DpN, examples/MMD)

Points are functions on `Fin n`; arithmetic is exact.
-/

namespace Verif.Scripts

open scoped BigOperators

variable {n m : ℕ}

/-- `np.sum((x - c) ** 2)` for several centres: `MOP1` (HVN/2D_example.py 27-29, HVN/3D_example1.py 20-28,
HVN/3D_example2.py 35-43, and the same functions in DpN and MMD), `func` (HVN/EqCon1.py 28-30, DpN/EqCon1.py 30-32). -/
def sqObjective (c : Fin m → Fin n → ℝ) (x : Fin n → ℝ) (k : Fin m) : ℝ := ∑ v, (x v - c k v) ^ 2

/-- `MOP1_Jacobian` (HVN/2D_example.py 32-34, HVN/3D_example1.py 31-33, HVN/3D_example2.py 46-54), `jacobian`
(HVN/EqCon1.py 33-35, DpN/EqCon1.py 35-37). -/
def sqJacobian (c : Fin m → Fin n → ℝ) (x : Fin n → ℝ) (k : Fin m) (v : Fin n) : ℝ := 2 * (x v - c k v)

/-- `MOP1_Hessian` (HVN/2D_example.py 37-39, HVN/3D_example1.py 36-38, HVN/3D_example2.py 57-59), `hessian`
(HVN/EqCon1.py 38-40): `2 * np.eye(n)` for every objective. -/
def sqHessian (_x : Fin n → ℝ) (_k : Fin m) (v w : Fin n) : ℝ := 2 * if v = w then 1 else 0

/-- The centres of `MOP1` (HVN/2D_example.py 29, DpN/MOP1_example.py 31, MMD/MOP1.py). -/
def mop1Centres : Fin 2 → Fin 2 → ℝ := ![fun _ => 1, fun _ => -1]

/-- The centres of `func` of HVN/EqCon1.py (30). -/
def eqconCentres : Fin 2 → Fin 2 → ℝ := ![fun _ => -1, fun _ => 1]

/-- The centres of `func` of DpN/EqCon1.py (32). -/
noncomputable def eqconCentresDpn : Fin 2 → Fin 2 → ℝ := ![fun _ => -1, ![1, 1 / 2]]

/-- `c1`, `c2`, `c3` of HVN/3D_example1.py (15-17) and DpN/3D_example1.py (17-19). -/
def roundCentres : Fin 3 → Fin 3 → ℝ := ![![1, 1, 0], ![1, -1, 0], ![-1, 0, 0]]

/-- `c1`, `c2`, `c3` of HVN/3D_example2.py (30-32) and DpN/3D_example2.py (32-34). -/
def flatCentres : Fin 3 → Fin 3 → ℝ := ![![-1, -1, -1], ![-1, 0, 0], ![-2, -2, 4]]

/-- `center` of HVN/3D_example1.py (41) and DpN/3D_example1.py (43). -/
noncomputable def sphereCenter : Fin 3 → ℝ := ![2 / √3 - 1, 0, -3 / 2]

/-- `h` of HVN/3D_example1.py (44-46) and, with centre zero, of HVN/2D_example.py (42-44). -/
def sphereConstraint (c x : Fin n → ℝ) : ℝ := (∑ v, (x v - c v) ^ 2) - 1

/-- `h_Jacobian` of HVN/3D_example1.py (49-51), HVN/2D_example.py (47-49). -/
def sphereJacobian (c x : Fin n → ℝ) (v : Fin n) : ℝ := 2 * (x v - c v)

/-- `h_Hessian` of HVN/3D_example1.py (54-55), HVN/2D_example.py (52-54). -/
def sphereHessian (_x : Fin n → ℝ) (v w : Fin n) : ℝ := 2 * if v = w then 1 else 0

/-- `h` of HVN/EqCon1.py (43-45, coordinate one), HVN/3D_example2.py (65-66, coordinate zero) and, negated, `g` of
DpN/3D_example2.py (64-65): `sign` is one or minus one. -/
def coordConstraint (sign : ℝ) (i : Fin n) (x : Fin n → ℝ) : ℝ := sign * x i

/-- `h_jacobian` of HVN/EqCon1.py (48-49), `h_Jacobian` of HVN/3D_example2.py (69-72), `g_Jacobian` of
DpN/3D_example2.py (68-71). -/
def coordJacobian (sign : ℝ) (i : Fin n) (_x : Fin n → ℝ) (v : Fin n) : ℝ := if v = i then sign else 0

/-- `g` of HVN/concave_example.py (41-42). -/
def concaveConstraint (x : Fin 2 → ℝ) : ℝ := 1 - x 0 ^ 2 - x 1

/-- `g_Jacobian` of HVN/concave_example.py (45-46). -/
def concaveJacobian (x : Fin 2 → ℝ) : Fin 2 → ℝ := ![-2 * x 0, -1]

/-- `g_Hessian` of HVN/concave_example.py (49-50). -/
def concaveHessian (_x : Fin 2 → ℝ) : Fin 2 → Fin 2 → ℝ := ![![-2, 0], ![0, 0]]

/-- `g` of HVN/convex_example.py (41-42). -/
def convexConstraint (x : Fin 2 → ℝ) : ℝ := x 0 ^ 2 - 2 * x 0 + 1 - x 1

/-- `g_Jacobian` of HVN/convex_example.py (45-46). -/
def convexJacobian (x : Fin 2 → ℝ) : Fin 2 → ℝ := ![2 * x 0 - 2, -1]

/-- `g_Hessian` of HVN/convex_example.py (49-50). -/
def convexHessian (_x : Fin 2 → ℝ) : Fin 2 → Fin 2 → ℝ := ![![2, 0], ![0, 0]]

/-- Entry `i` of `np.linspace(a, b, n)`; the single entry for `n = 1` is `a`. -/
noncomputable def linspaceAt (a b : ℝ) (n i : ℕ) : ℝ := a + i * ((b - a) / (n - 1 : ℕ))

/-- The curve `x_vals`, `y_vals` of HVN/concave_example.py (105-106), with `n` samples. -/
noncomputable def concaveCurve (n : ℕ) : List (Fin 2 → ℝ) :=
  (List.range n).map fun i => ![linspaceAt 0 1 n i, 1 - linspaceAt 0 1 n i ^ 2]

/-- The curve `x_vals`, `y_vals` of HVN/convex_example.py (106-107), with `n` samples. -/
noncomputable def convexCurve (n : ℕ) : List (Fin 2 → ℝ) :=
  (List.range n).map fun i => ![linspaceAt 0 1 n i, linspaceAt 0 1 n i ^ 2 - 2 * linspaceAt 0 1 n i + 1]

/-- `point_set` of HVN/3D_example1.py (58-73) and DpN/3D_example1.py (56-71), before the centre is subtracted; `rows` is
`int(np.sqrt(200))`, that is 14. -/
noncomputable def roundPoints (rows : ℕ) : List (Fin 3 → ℝ) :=
  (List.range rows).flatMap fun i =>
    let x := linspaceAt (-1) 1 rows i
    (List.range (1 + 2 * i)).map fun j => ![x, linspaceAt (-(1 / 2) * x - 1 / 2) (1 / 2 * x + 1 / 2) (1 + 2 * i) j, 0]

/-- `pareto_set` of HVN/3D_example1.py (74-75, `scale = 1`) and of DpN/3D_example1.py (72-73, `scale = 0.98`). -/
noncomputable def roundSet (scale : ℝ) (rows : ℕ) : List (Fin 3 → ℝ) :=
  (roundPoints rows).map fun p => scale • (√(∑ v, (p v - sphereCenter v) ^ 2))⁻¹ • (p - sphereCenter) + sphereCenter

/-- `N` of a row of `point_set` in HVN/3D_example2.py (82-85): `int` of ten times the width at `z`. It is not negative for
the values of the script (`int` cuts off the fraction; the width at `z = -1.01` is above `-1 / 10`). -/
noncomputable def flatCount (z : ℝ) : ℕ := ⌊10 * ((if 0 ≤ z then z / -2 else z) - (z + 6) / -5)⌋₊

/-- A row of `point_set` in HVN/3D_example2.py (82-86, `first = 0`) and in DpN/3D_example2.py (76-82, `first = 0.1`). -/
noncomputable def flatRow (first z : ℝ) : List (Fin 3 → ℝ) :=
  (List.range (flatCount z)).map fun j =>
    ![first, linspaceAt ((z + 6) / -5 - 1 / 100) ((if 0 ≤ z then z / -2 else z) + 1 / 100) (flatCount z) j, z]

/-- `point_set` of HVN/3D_example2.py (81-87) and DpN/3D_example2.py (75-83). -/
noncomputable def flatPoints (first : ℝ) : List (Fin 3 → ℝ) :=
  [![0, -1, -1], ![0, 0, 0], ![0, -2, 4]] ++
    (List.range 50).flatMap fun i => flatRow first (linspaceAt (-101 / 100) (399 / 100) 50 i)

/-- `pareto_set` of HVN/EqCon1.py (74-75) and DpN/EqCon1.py (109-110), with 500 points. -/
noncomputable def eqconSet (N : ℕ) : List (Fin 2 → ℝ) := (List.range N).map fun i => ![linspaceAt (-1) 1 N i, 0]

/-- `pareto_set` of MMD/MOP1.py (69-70, 500 points), DpN/MOP1_example.py (60-61, 100 points) and others. -/
noncomputable def mop1Set (N : ℕ) : List (Fin 2 → ℝ) := (List.range N).map fun i => fun _ => linspaceAt (-1) 1 N i

end Verif.Scripts
