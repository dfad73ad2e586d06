import Verif.Prob.UF

/-!
# The CF problems (hvd/problems/cf.py)

Over the reals, with the default boxes. A decision vector is a function of the index; the entries from `n_var` on are never
read. `none` stands for NaN (a mean of nothing, a quotient by zero), an infinite value or an exception.
-/

namespace Verif.Prob

open Real

/-- `jnp.clip(x, self.xl, self.xu)`. -/
noncomputable def clip (lo hi x : ℕ → ℝ) (i : ℕ) : ℝ := min (max (x i) (lo i)) (hi i)

/-- The bounds `np.r_[a, np.full(n_var - 1, b)]` (cf.py 90, 147-148 and so on). -/
def bound1 (a b : ℝ) (i : ℕ) : ℝ := if i = 0 then a else b

/-- The bounds `np.r_[a, a, np.full(n_var - 2, b)]` (cf.py 449-450, 495-496). -/
def bound2 (a b : ℝ) (i : ℕ) : ℝ := if i < 2 then a else b

/-- Two objectives with penalties that are computed from `J1` and `J2`. -/
noncomputable def cf2d (n : ℕ) (p1 p2 : List ℕ → Option ℝ) (f1 f2 : ℝ) : Option (List ℝ) :=
  (p1 (cfGroups n).1).bind fun a => (p2 (cfGroups n).2).map fun b => [f1 + a, f2 + b]

/-- `jnp.sum(h[:, J], 1)`. -/
noncomputable def groupSum (h : ℕ → ℝ) (J : List ℕ) : ℝ := (J.map h).sum

/-- A constraint that is computed from two objectives. -/
noncomputable def fromTwo (g : ℝ → ℝ → ℝ) : List ℝ → Option ℝ
  | [a, b] => some (g a b)
  | _ => none

/-! ## CF1 -/

/-- `CF1._objective` (cf.py 44-59) after the clipping. -/
noncomputable def cf1Raw (n : ℕ) (x : ℕ → ℝ) : Option (List ℝ) :=
  cf2d n (twiceMean fun i => (x (clamp n i) - x 0 ^ uf3Exponent n i) ^ 2)
    (twiceMean fun i => (x (clamp n i) - x 0 ^ uf3Exponent n i) ^ 2) (x 0) (1 - x 0)

/-- `CF1._objective` (cf.py 44-59). -/
noncomputable def cf1 (n : ℕ) (x : ℕ → ℝ) : Option (List ℝ) := cf1Raw n (clip (fun _ => 0) (fun _ => 1) x)

/-- `CF1._ieq_constraint` (cf.py 61-63). -/
noncomputable def cf1G (n : ℕ) (x : ℕ → ℝ) : Option ℝ :=
  (cf1 n x).bind (fromTwo fun a b => 1 - a - b + |sin (10 * π * (a - b + 1))|)

/-- `CF1.get_pareto_front` (cf.py 65-67). -/
noncomputable def cf1Front (N : ℕ) : List (List ℝ) := (linspace 0 1 N).map fun f => [f, 1 - f]

/-! ## CF2 -/

/-- `CF2._objective` (cf.py 101-119) after the clipping. -/
noncomputable def cf2Raw (n : ℕ) (x : ℕ → ℝ) : Option (List ℝ) :=
  cf2d n (twiceMean fun i => (x (clamp n i) - sin (6 * π * x 0 + (i + 1 : ℕ) * π / n)) ^ 2)
    (twiceMean fun i => (x (clamp n i) - cos (6 * π * x 0 + (i + 1 : ℕ) * π / n)) ^ 2) (x 0) (1 - √(x 0))

/-- `CF2._objective` (cf.py 101-119). -/
noncomputable def cf2 (n : ℕ) (x : ℕ → ℝ) : Option (List ℝ) := cf2Raw n (clip (bound1 0 (-1)) (fun _ => 1) x)

/-- `-t / (1 + jnp.exp(4 * jnp.abs(t)))` (cf.py 126, 233). -/
noncomputable def damped (t : ℝ) : ℝ := -t / (1 + exp (4 * |t|))

/-- `CF2._ieq_constraint` (cf.py 122-126). -/
noncomputable def cf2G (n : ℕ) (x : ℕ → ℝ) : Option ℝ :=
  (cf2 n x).bind (fromTwo fun a b => damped (b + √a - sin (2 * π * (√a - b + 1)) - 1))

open Classical in
/-- `CF2.get_pareto_front` (cf.py 128-132). -/
noncomputable def cf2Front (N : ℕ) : List (List ℝ) :=
  ((linspace 0 1 N).filter fun f => (1 / 16 ≤ f ∧ f ≤ 4 / 16) ∨ (9 / 16 ≤ f ∧ f ≤ 1)).map fun f => [f, 1 - √f]

/-! ## CF3 -/

/-- `CF3._objective` (cf.py 159-171) after the clipping. -/
noncomputable def cf3Raw (n : ℕ) (x : ℕ → ℝ) : Option (List ℝ) :=
  cf2d n (productPenalty fun i => sineY n x (clamp n i)) (productPenalty fun i => sineY n x (clamp n i)) (x 0)
    (1 - x 0 ^ 2)

/-- `CF3._objective` (cf.py 159-171). -/
noncomputable def cf3 (n : ℕ) (x : ℕ → ℝ) : Option (List ℝ) := cf3Raw n (clip (bound1 0 (-2)) (bound1 1 2) x)

/-- `CF3._ieq_constraint` (cf.py 174-177). -/
noncomputable def cf3G (n : ℕ) (x : ℕ → ℝ) : Option ℝ :=
  (cf3 n x).bind (fromTwo fun a b => 1 - b - a ^ 2 + sin (2 * π * (a ^ 2 - b + 1)))

open Classical in
/-- `CF3.get_pareto_front` (cf.py 179-183). -/
noncomputable def cf3Front (N : ℕ) : List (List ℝ) :=
  ((linspace 0 1 N).filter fun f => ¬ ((0 < f ∧ f < 1 / 2) ∨ (√(1 / 2) < f ∧ f < √(3 / 4)))).map fun f =>
    [f, 1 - f ^ 2]

/-! ## CF4 and CF5 -/

/-- The threshold `3 / 2 * (1 - jnp.sqrt(1 / 2))` (cf.py 218, 283). -/
noncomputable def cfThreshold : ℝ := 3 / 2 * (1 - √(1 / 2))

open Classical in
/-- `h` in `CF4._objective` (cf.py 218-223). -/
noncomputable def cf4h (n : ℕ) (x : ℕ → ℝ) (i : ℕ) : ℝ :=
  if i = 1 then (if sineY n x 1 < cfThreshold then |sineY n x 1| else 0.125) else sineY n x i ^ 2

/-- `CF4._objective` (cf.py 210-226) after the clipping. -/
noncomputable def cf4Raw (n : ℕ) (x : ℕ → ℝ) : Option (List ℝ) :=
  some [x 0 + groupSum (fun i => cf4h n x (clamp n i)) (cfGroups n).1,
    1 - x 0 + groupSum (fun i => cf4h n x (clamp n i)) (cfGroups n).2]

/-- `CF4._objective` (cf.py 210-226). -/
noncomputable def cf4 (n : ℕ) (x : ℕ → ℝ) : Option (List ℝ) := cf4Raw n (clip (bound1 0 (-2)) (bound1 1 2) x)

/-- `CF4._ieq_constraint` (cf.py 229-233). -/
noncomputable def cf4G (n : ℕ) (x : ℕ → ℝ) : ℝ := damped (x 1 - sin (6 * π * x 0 + 2 * π / n) - 0.5 * x 0 + 0.25)

open Classical in
/-- `CF4.get_pareto_front` and `CF5.get_pareto_front` (cf.py 235-242, 299-306). -/
noncomputable def cf4Front (N : ℕ) : List (List ℝ) := (linspace 0 1 N).map fun f =>
  [f, if 0.75 < f then 1 - f + 0.125 else if 0.5 < f ∧ f ≤ 0.75 then -0.5 * f + 3 / 4 else 1 - f]

/-- `X[:, J] - 0.8 * X[:, 0] * trig(6 * pi * X[:, 0] + (J + 1) * pi / D)` (cf.py 275-280, 338-343). -/
noncomputable def scaledY (trig : ℝ → ℝ) (n : ℕ) (x : ℕ → ℝ) (i : ℕ) : ℝ :=
  x (clamp n i) - 0.8 * x 0 * trig (6 * π * x 0 + (i + 1 : ℕ) * π / n)

open Classical in
/-- `h3` in `CF5._objective` (cf.py 283-288). -/
noncomputable def cf5h3 (y : ℝ) : ℝ := if y < cfThreshold then |y| else 0.125 + (y - 1) ^ 2

/-- `CF5._objective` (cf.py 269-291). `none`: `Y2` has no columns. -/
noncomputable def cf5 (n : ℕ) (x : ℕ → ℝ) : Option (List ℝ) :=
  match (cfGroups n).2 with
  | [] => none
  | j :: J => some [x 0 + groupSum (fun i => uf5h (scaledY cos n x i)) (cfGroups n).1,
      1 - x 0 + groupSum (fun i => uf5h (scaledY sin n x i)) J + cf5h3 (scaledY sin n x j)]

/-- `CF5._ieq_constraint` (cf.py 294-297). -/
noncomputable def cf5G (n : ℕ) (x : ℕ → ℝ) : ℝ :=
  -x 1 + 0.8 * x 0 * sin (6 * π * x 0 + 2 * π / n) + 0.5 * x 0 - 0.25

/-! ## CF6 and CF7 -/

/-- `CF6._objective` (cf.py 333-344). -/
noncomputable def cf6 (n : ℕ) (x : ℕ → ℝ) : Option (List ℝ) :=
  some [x 0 + groupSum (fun i => scaledY cos n x i ^ 2) (cfGroups n).1,
    (1 - x 0) ^ 2 + groupSum (fun i => scaledY sin n x i ^ 2) (cfGroups n).2]

/-- `jnp.sign(a) * jnp.sqrt(abs(a))` (cf.py 353-354, 359-360). -/
noncomputable def signedSqrt (a : ℝ) : ℝ := SignType.sign a * √|a|

/-- The two constraints of `CF6._ieq_constraint` and `CF7._ieq_constraint` (cf.py 347-362, 411-426); `c` is `0.8 * X[:, 0]`
or 1. -/
noncomputable def cf6Constraints (n : ℕ) (c : ℝ) (x : ℕ → ℝ) : List ℝ :=
  [-x (clamp n 1) + c * sin (6 * π * x 0 + 2 * π / n) + signedSqrt (0.5 * (1 - x 0) - (1 - x 0) ^ 2),
    -x (clamp n 3) + c * sin (6 * π * x 0 + 4 * π / n) + signedSqrt (0.25 * √(1 - x 0) - 0.5 * (1 - x 0))]

/-- `CF6._ieq_constraint` (cf.py 347-362). -/
noncomputable def cf6G (n : ℕ) (x : ℕ → ℝ) : List ℝ := cf6Constraints n (0.8 * x 0) x

/-- `CF7._ieq_constraint` (cf.py 411-426). -/
noncomputable def cf7G (n : ℕ) (x : ℕ → ℝ) : List ℝ := cf6Constraints n 1 x

/-- `X[:, J] - trig(6 * pi * X[:, 0] + (J + 1) * pi / D)` (cf.py 403-404). -/
noncomputable def plainY (trig : ℝ → ℝ) (n : ℕ) (x : ℕ → ℝ) (i : ℕ) : ℝ :=
  x (clamp n i) - trig (6 * π * x 0 + (i + 1 : ℕ) * π / n)

/-- `CF7._objective` (cf.py 398-408). -/
noncomputable def cf7 (n : ℕ) (x : ℕ → ℝ) : Option (List ℝ) :=
  some [x 0 + groupSum (fun i => uf5h (plainY cos n x i)) (cfGroups n).1,
    (1 - x 0) ^ 2 + groupSum (fun i => uf5h (plainY sin n x i)) ((cfGroups n).2.drop 2) +
      groupSum (fun i => plainY sin n x i ^ 2) ((cfGroups n).2.take 2)]

open Classical in
/-- `CF6.get_pareto_front` and `CF7.get_pareto_front` (cf.py 364-371, 428-435). -/
noncomputable def cf6Front (N : ℕ) : List (List ℝ) := (linspace 0 1 N).map fun f =>
  [f, if 0.75 < f then 0.25 * √(1 - f) else if 0.5 < f ∧ f ≤ 0.75 then 0.5 * (1 - f) else (1 - f) ^ 2]

/-! ## CF8 - CF10 -/

/-- `CF8._objective` (cf.py 460-462). -/
noncomputable def cf8 (n : ℕ) (x : ℕ → ℝ) : Option (List ℝ) := uf8 n (clip (bound2 0 (-4)) (bound2 1 4) x)

/-- `CF9._objective` (cf.py 507-508), which is that of `CF8` in another box. -/
noncomputable def cf9 (n : ℕ) (x : ℕ → ℝ) : Option (List ℝ) := uf8 n (clip (bound2 0 (-2)) (bound2 1 2) x)

/-- `CF10._objective` (cf.py 552-569). -/
noncomputable def cf10 (n : ℕ) (x : ℕ → ℝ) : Option (List ℝ) :=
  let p := twiceMean fun i => 4 * uf3dY n x i ^ 2 - cos (8 * π * uf3dY n x i) + 1
  (p (cf10Groups n).1).bind fun a => (p (cf10Groups n).2.1).bind fun b => (p (cf10Groups n).2.2).map fun c =>
    [cos (0.5 * x 0 * π) * cos (0.5 * x 1 * π) + a, cos (0.5 * x 0 * π) * sin (0.5 * x 1 * π) + b,
      sin (0.5 * x 0 * π) + c]

open Classical in
/-- The common part of `_ieq_constraint` of `CF8` to `CF10` (cf.py 465-472, 511-517, 572-578): `wave` is the last term as a
function of the argument of the sine. -/
noncomputable def ringConstraint (wave : ℝ → ℝ) : List ℝ → Option ℝ
  | [a, b, c] => if 1 - c ^ 2 = 0 then none
      else some (1 - (a ^ 2 + b ^ 2) / (1 - c ^ 2) + wave (2 * π * ((a ^ 2 - b ^ 2) / (1 - c ^ 2) + 1)))
  | _ => none

/-- `CF8._ieq_constraint` (cf.py 465-472). -/
noncomputable def cf8G (n : ℕ) (x : ℕ → ℝ) : Option ℝ := (cf8 n x).bind (ringConstraint fun s => 4 * |sin s|)

/-- `CF9._ieq_constraint` (cf.py 511-517). -/
noncomputable def cf9G (n : ℕ) (x : ℕ → ℝ) : Option ℝ := (cf9 n x).bind (ringConstraint fun s => 3 * sin s)

/-- `CF10._ieq_constraint` (cf.py 572-578). -/
noncomputable def cf10G (n : ℕ) (x : ℕ → ℝ) : Option ℝ := (cf10 n x).bind (ringConstraint sin)

/-- The first and third column of `R` in `CF8.get_pareto_front` (cf.py 475-481). -/
noncomputable def cf8Columns (N : ℕ) : List (ℝ × ℝ) :=
  (List.range 5).flatMap fun i : ℕ => (linspace 0 1 ((N + 4) / 5)).map fun s =>
    (√((i : ℝ) / 4 * (1 - sin (s * π / 2) ^ 2)), sin (s * π / 2))

/-- `CF8.get_pareto_front` (cf.py 474-483): `np.max(v, 0)` is the maximum of `v` along the axis 0, one number. `none`: there
are no rows. -/
noncomputable def cf8Front (N : ℕ) : Option (List (List ℝ)) :=
  ((cf8Columns N).map fun r => 1 - r.1 ^ 2 - r.2 ^ 2).max?.map fun m => (cf8Columns N).map fun r => [r.1, √m, r.2]

open Classical in
/-- `CF9.get_pareto_front` and `CF10.get_pareto_front` (cf.py 519-525, 580-586) for the random matrix `R`. `none`: a row of
zeros. -/
noncomputable def cf9Front (R : List (List ℝ)) : Option (List (List ℝ)) :=
  (R.mapM fun r => if (r.map (· ^ 2)).sum = 0 then none else some (r.map (· / √(r.map (· ^ 2)).sum))).map fun R =>
    R.filter fun r => ¬ ((1 / 10 ^ 5 < r.getD 0 0 ∧ r.getD 0 0 < √((1 - r.getD 2 0 ^ 2) / 4)) ∨
      (√((1 - r.getD 2 0 ^ 2) / 2) < r.getD 0 0 ∧ r.getD 0 0 < √(3 * (1 - r.getD 2 0 ^ 2) / 4)))

end Verif.Prob
