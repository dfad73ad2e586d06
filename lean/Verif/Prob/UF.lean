import Verif.Prob.Groups
import Verif.Prob.ZDT
import Verif.Prob.RefDirs
import Mathlib.Algebra.BigOperators.Group.List.Basic

/-!
# The UF problems (hvd/problems/uf.py)

Over the reals. A decision vector is a function of the index; the entries from `n_var` on are never read. `none`
stands for the `ValueError` of the constructor or the NaN of a mean of nothing.
-/

namespace Verif.Prob

open Real

/-- `jnp.mean(h[J])`. -/
noncomputable def groupMean (J : List ℕ) (h : ℕ → ℝ) : Option ℝ := zdtMean (J.map h)

/-- Two objectives with penalties that are computed from the two groups of `_UF2D`. -/
noncomputable def uf2d (n : ℕ) (p1 p2 : List ℕ → Option ℝ) (f1 f2 : ℝ) : Option (List ℝ) :=
  (uf2dGroups n).bind fun J => (p1 J.1).bind fun a => (p2 J.2).map fun b => [f1 + a, f2 + b]

/-- `_sine_y` (uf.py 43-44); `_indices` counts from 1. -/
noncomputable def sineY (n : ℕ) (x : ℕ → ℝ) (i : ℕ) : ℝ := x i - sin (6 * π * x 0 + (i + 1 : ℕ) * π / n)

/-- `2 * jnp.mean(h[J])`. -/
noncomputable def twiceMean (h : ℕ → ℝ) (J : List ℕ) : Option ℝ := (groupMean J h).map (2 * ·)

/-- `UF1._objective` (uf.py 56-60). -/
noncomputable def uf1 (n : ℕ) (x : ℕ → ℝ) : Option (List ℝ) :=
  uf2d n (twiceMean fun i => sineY n x i ^ 2) (twiceMean fun i => sineY n x i ^ 2) (x 0) (1 - √(x 0))

/-- `envelope` in `UF2._objective` (uf.py 67-70). -/
noncomputable def uf2Envelope (n : ℕ) (x0 : ℝ) (i : ℕ) : ℝ :=
  0.3 * x0 ^ 2 * cos (24 * π * x0 + 4 * (i + 1 : ℕ) * π / n) + 0.6 * x0

/-- `UF2._objective` (uf.py 64-74). -/
noncomputable def uf2 (n : ℕ) (x : ℕ → ℝ) : Option (List ℝ) :=
  uf2d n
    (twiceMean fun i => (x i - uf2Envelope n (x 0) i * cos (6 * π * x 0 + (i + 1 : ℕ) * π / n)) ^ 2)
    (twiceMean fun i => (x i - uf2Envelope n (x 0) i * sin (6 * π * x 0 + (i + 1 : ℕ) * π / n)) ^ 2)
    (x 0) (1 - √(x 0))

/-- `penalty` in `UF3._objective` and `UF6._objective` (uf.py 84-90, 126-132). -/
noncomputable def productPenalty (y : ℕ → ℝ) (J : List ℕ) : Option ℝ :=
  if J = [] then none
  else some (2 / (J.length : ℝ) * (4 * (J.map fun i => y i ^ 2).sum -
    2 * (J.map fun i => cos (20 * π * y i / √((i + 1 : ℕ) : ℝ))).prod + 2))

/-- `exponent` in `UF3._objective` (uf.py 81). -/
noncomputable def uf3Exponent (n i : ℕ) : ℝ := 0.5 * (1 + 3 * (((i + 1 : ℕ) : ℝ) - 2) / ((n : ℝ) - 2))

/-- `UF3._objective` (uf.py 80-92). -/
noncomputable def uf3 (n : ℕ) (x : ℕ → ℝ) : Option (List ℝ) :=
  uf2d n (productPenalty fun i => x i - x 0 ^ uf3Exponent n i) (productPenalty fun i => x i - x 0 ^ uf3Exponent n i)
    (x 0) (1 - √(x 0))

/-- `h` in `UF4._objective` (uf.py 104). -/
noncomputable def uf4h (y : ℝ) : ℝ := |y| / (1 + exp (2 * |y|))

/-- `UF4._objective` (uf.py 103-105). -/
noncomputable def uf4 (n : ℕ) (x : ℕ → ℝ) : Option (List ℝ) :=
  uf2d n (twiceMean fun i => uf4h (sineY n x i)) (twiceMean fun i => uf4h (sineY n x i)) (x 0) (1 - x 0 ^ 2)

/-- `h` in `UF5._objective` (uf.py 111). -/
noncomputable def uf5h (y : ℝ) : ℝ := 2 * y ^ 2 - cos (4 * π * y) + 1

/-- `common` in `UF5._objective` (uf.py 112). -/
noncomputable def uf5Common (x0 : ℝ) : ℝ := 0.15 * |sin (20 * π * x0)|

/-- `UF5._objective` (uf.py 109-115). -/
noncomputable def uf5 (n : ℕ) (x : ℕ → ℝ) : Option (List ℝ) :=
  uf2d n (twiceMean fun i => uf5h (sineY n x i)) (twiceMean fun i => uf5h (sineY n x i))
    (x 0 + uf5Common (x 0)) (1 - x 0 + uf5Common (x 0))

/-- `common` in `UF6._objective` (uf.py 134). -/
noncomputable def uf6Common (x0 : ℝ) : ℝ := max 0 (0.7 * sin (4 * π * x0))

/-- `UF6._objective` (uf.py 123-135). -/
noncomputable def uf6 (n : ℕ) (x : ℕ → ℝ) : Option (List ℝ) :=
  uf2d n (productPenalty (sineY n x)) (productPenalty (sineY n x)) (x 0 + uf6Common (x 0))
    (1 - x 0 + uf6Common (x 0))

/-- `UF7._objective` (uf.py 144-147). -/
noncomputable def uf7 (n : ℕ) (x : ℕ → ℝ) : Option (List ℝ) :=
  uf2d n (twiceMean fun i => sineY n x i ^ 2) (twiceMean fun i => sineY n x i ^ 2) (x 0 ^ (0.2 : ℝ))
    (1 - x 0 ^ (0.2 : ℝ))

/-- Three objectives with penalties from the groups of `_UF3D`. -/
noncomputable def uf3d (n : ℕ) (p : List ℕ → Option ℝ) (f1 f2 f3 : ℝ) : Option (List ℝ) :=
  (uf3dGroups n).bind fun J => (p J.1).bind fun a => (p J.2.1).bind fun b => (p J.2.2).map fun c =>
    [f1 + a, f2 + b, f3 + c]

/-- `_y` (uf.py 183-184). -/
noncomputable def uf3dY (n : ℕ) (x : ℕ → ℝ) (i : ℕ) : ℝ :=
  x i - 2 * x 1 * sin (2 * π * x 0 + (i + 1 : ℕ) * π / n)

/-- `UF8._objective` (uf.py 191-195). -/
noncomputable def uf8 (n : ℕ) (x : ℕ → ℝ) : Option (List ℝ) :=
  uf3d n (twiceMean fun i => uf3dY n x i ^ 2) (cos (0.5 * π * x 0) * cos (0.5 * π * x 1))
    (cos (0.5 * π * x 0) * sin (0.5 * π * x 1)) (sin (0.5 * π * x 0))

/-- `a` in `UF9._objective` (uf.py 202). -/
noncomputable def uf9a (x0 : ℝ) : ℝ := max 0 (1.1 * (1 - 4 * (2 * x0 - 1) ^ 2))

/-- `UF9._objective` (uf.py 199-205). -/
noncomputable def uf9 (n : ℕ) (x : ℕ → ℝ) : Option (List ℝ) :=
  uf3d n (twiceMean fun i => uf3dY n x i ^ 2) (0.5 * (uf9a (x 0) + 2 * x 0) * x 1)
    (0.5 * (uf9a (x 0) - 2 * x 0 + 2) * x 1) (1 - x 1)

/-- `UF10._objective` (uf.py 214-219). -/
noncomputable def uf10 (n : ℕ) (x : ℕ → ℝ) : Option (List ℝ) :=
  uf3d n (twiceMean fun i => 4 * uf3dY n x i ^ 2 - cos (8 * π * uf3dY n x i) + 1)
    (cos (0.5 * π * x 0) * cos (0.5 * π * x 1)) (cos (0.5 * π * x 0) * sin (0.5 * π * x 1)) (sin (0.5 * π * x 0))

/-- `_UF2D.get_pareto_front` (uf.py 46-48) with the function `_front` of the class. -/
noncomputable def ufFront (front : ℝ → ℝ) (N : ℕ) : List (List ℝ) := (linspace 0 1 N).map fun f => [f, front f]

/-- `UF1.get_pareto_front`, also of `UF2` and `UF3` (uf.py 46-48, 52-54). -/
noncomputable def uf1Front : ℕ → List (List ℝ) := ufFront fun f => 1 - √f

/-- `UF4.get_pareto_front` (uf.py 46-48, 99-101). -/
noncomputable def uf4Front : ℕ → List (List ℝ) := ufFront fun f => 1 - f ^ 2

/-- `UF7.get_pareto_front` (uf.py 46-48, 149-151). -/
noncomputable def uf7Front : ℕ → List (List ℝ) := ufFront fun f => 1 - f

/-- `UF5.get_pareto_front` (uf.py 117-119). -/
noncomputable def uf5Front : List (List ℝ) :=
  (List.range 21).map fun i : ℕ => [(i : ℝ) / 20, 1 - (i : ℝ) / 20]

open Classical in
/-- `UF6.get_pareto_front` (uf.py 137-140). -/
noncomputable def uf6Front (N : ℕ) : List (List ℝ) :=
  ((linspace 0 1 N).filter fun f => ¬ ((0 < f ∧ f < 0.25) ∨ (0.5 < f ∧ f < 0.75))).map fun f => [f, 1 - f]

/-- `_UF3D.get_pareto_front` (uf.py 186-187), for `UF8` and `UF10`. `none`: `getRefDirs` has run out of fuel. -/
noncomputable def uf8Front (fuel : ℕ) (N : Int) : Option (List (List ℝ)) :=
  (getRefDirs fuel 3 (some N) none).bind genericSphere

open Classical in
/-- `UF9.get_pareto_front` (uf.py 207-210). -/
noncomputable def uf9Front (fuel : ℕ) (N : Int) : Option (List (List ℝ)) :=
  (getRefDirs fuel 3 (some N) none).map fun R : List (List ℝ) => R.filter fun r =>
    ¬ ((1 - r.getD 2 0) / 4 < r.getD 0 0 ∧ r.getD 0 0 < (1 - r.getD 2 0) * 3 / 4)

end Verif.Prob
