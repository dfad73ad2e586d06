import Mathlib.Analysis.SpecialFunctions.Pow.Real
import Mathlib.Analysis.SpecialFunctions.Trigonometric.Basic

/-!
# The ZDT problems (hvd/problems/zdt.py)

Over the reals. A decision vector is a list; `none` stands for the NaN of `jnp.mean` of no distance variables, or no
variables at all.
-/

namespace Verif.Prob

/-- `_EPS` (zdt.py 9). -/
noncomputable def zdtEps : ℝ := 1e-12

/-- `jnp.mean(x[1:])` of `ZDT1`, `ZDT2`, `ZDT3`, `ZDT6`. -/
noncomputable def zdtMean (xs : List ℝ) : Option ℝ := if xs = [] then none else some (xs.sum / xs.length)

/-- The second objective of `ZDT1` and `ZDT4` (zdt.py 37, 95). -/
noncomputable def zdtSqrt (g x0 : ℝ) : ℝ := g * (1 - Real.sqrt (max (x0 / g) zdtEps))

/-- `ZDT1._objective` (zdt.py 35-37). -/
noncomputable def zdt1 : List ℝ → Option (List ℝ)
  | [] => none
  | x0 :: xs => (zdtMean xs).map fun m => [x0, zdtSqrt (1 + 9 * m) x0]

/-- `ZDT2._objective` (zdt.py 45-47). -/
noncomputable def zdt2 : List ℝ → Option (List ℝ)
  | [] => none
  | x0 :: xs => (zdtMean xs).map fun m => [x0, (1 + 9 * m) * (1 - (x0 / (1 + 9 * m)) ^ 2)]

/-- `ZDT3._objective` (zdt.py 65-68). -/
noncomputable def zdt3 : List ℝ → Option (List ℝ)
  | [] => none
  | x0 :: xs => (zdtMean xs).map fun m => [x0, (1 + 9 * m) *
      (1 - Real.sqrt (max (x0 / (1 + 9 * m)) zdtEps) - x0 / (1 + 9 * m) * Real.sin (10 * Real.pi * x0))]

/-- `g` of `ZDT4` (zdt.py 94). -/
noncomputable def zdt4g (nVar : ℕ) (xs : List ℝ) : ℝ :=
  1 + 10 * ((nVar : ℝ) - 1) + (xs.map fun z => z ^ 2 - 10 * Real.cos (4 * Real.pi * z)).sum

/-- `ZDT4._objective` (zdt.py 93-95). -/
noncomputable def zdt4 (nVar : ℕ) : List ℝ → Option (List ℝ)
  | [] => none
  | x0 :: xs => some [x0, zdtSqrt (zdt4g nVar xs) x0]

/-- The first objective of `ZDT6` (zdt.py 109). -/
noncomputable def zdt6f (x0 : ℝ) : ℝ := 1 - Real.exp (-4 * x0) * Real.sin (6 * Real.pi * x0) ^ 6

/-- `ZDT6._objective` (zdt.py 108-111). -/
noncomputable def zdt6 : List ℝ → Option (List ℝ)
  | [] => none
  | x0 :: xs => (zdtMean xs).map fun m =>
      let g := 1 + 9 * (max m zdtEps) ^ (0.25 : ℝ)
      [zdt6f x0, g * (1 - (zdt6f x0 / g) ^ 2)]

/-- `np.linspace(lo, hi, n)`; for one point this is `lo`. -/
noncomputable def linspace (lo hi : ℝ) (n : ℕ) : List ℝ :=
  (List.range n).map fun i : ℕ => lo + (i : ℝ) * ((hi - lo) / ((n : ℝ) - 1))

/-- `ZDT1.get_pareto_front` (zdt.py 39-41), inherited by `ZDT4`. -/
noncomputable def zdtFront1 (n : ℕ) : List (List ℝ) := (linspace 0 1 n).map fun f => [f, 1 - Real.sqrt f]

/-- `ZDT2.get_pareto_front` (zdt.py 49-51). -/
noncomputable def zdtFront2 (n : ℕ) : List (List ℝ) := (linspace 0 1 n).map fun f => [f, 1 - f ^ 2]

/-- `ZDT3.regions` (zdt.py 55-63). -/
noncomputable def zdt3Regions : List (ℝ × ℝ) :=
  [(0, 0.0830015349), (0.182228780, 0.2577623634), (0.4093136748, 0.4538821041), (0.6183967944, 0.6525117038),
    (0.8233317983, 0.8518328654)]

/-- `ZDT3.get_pareto_front` (zdt.py 70-75), flattened. -/
noncomputable def zdtFront3 (n : ℕ) : List (List ℝ) :=
  zdt3Regions.flatMap fun r => (linspace r.1 r.2 (max 1 (n / 5))).map fun f =>
    [f, 1 - Real.sqrt f - f * Real.sin (10 * Real.pi * f)]

/-- `ZDT6.get_pareto_front` (zdt.py 113-115). -/
noncomputable def zdtFront6 (n : ℕ) : List (List ℝ) :=
  (linspace 0.2807753191 1 n).map fun f => [f, 1 - f ^ 2]

end Verif.Prob
