import Mathlib.Data.List.Range

/-!
# Index groups of the CF and UF problems (hvd/problems/cf.py, hvd/problems/uf.py)
-/

namespace Verif.Prob

/-- `jnp.arange(a, b, step)` for a positive step. -/
def arange (a b step : ℕ) : List ℕ :=
  (List.range ((b - a + step - 1) / step)).map fun i => a + i * step

/-- `_odd` and `_even` of `_UF2D` (uf.py 26-34); `ValueError` for fewer than three variables. -/
def uf2dGroups (n : ℕ) : Option (List ℕ × List ℕ) :=
  if n < 3 then none else some (arange 2 n 2, arange 1 n 2)

/-- `_groups` of `_UF3D` (uf.py 165-172); `ValueError` for fewer than five variables. -/
def uf3dGroups (n : ℕ) : Option (List ℕ × List ℕ × List ℕ) :=
  if n < 5 then none else some (arange 3 n 3, arange 4 n 3, arange 2 n 3)

/-- `J1` and `J2` of `CF1` to `CF7` (e.g. cf.py 49-50). -/
def cfGroups (n : ℕ) : List ℕ × List ℕ :=
  ((arange 3 n 2).map (· - 1), (arange 2 (n + 2) 2).map (· - 1))

/-- `J1`, `J2` and `J3` of `CF10` (cf.py 556-558). -/
def cf10Groups (n : ℕ) : List ℕ × List ℕ × List ℕ :=
  ((arange 4 (n + 1) 3).map (· - 1), (arange 5 (n + 1) 3).map (· - 1), (arange 3 (n + 1) 3).map (· - 1))

/-- The entry read by `x[:, J]` for an index: JAX clamps indices out of range to the last one. -/
def clamp (n i : ℕ) : ℕ := min i (n - 1)

end Verif.Prob
