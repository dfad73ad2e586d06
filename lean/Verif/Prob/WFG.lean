import Mathlib.Analysis.SpecialFunctions.Pow.Real
import Mathlib.Analysis.SpecialFunctions.Trigonometric.Basic
import Mathlib.Algebra.Order.Floor.Ring

/-!
# The WFG problems (hvd/problems/wfg.py)

Over the reals, for one point (a batch of one row, line 351). `none` stands for the NaN of a mean of nothing and for the
`ValueError` of an unknown number.
-/

namespace Verif.Prob.WFG

/-- `_correct_to_01` (lines 16-18). -/
noncomputable def correct01 (x : ℝ) : ℝ :=
  let x := if x < 0 ∧ -1e-10 ≤ x then 0 else x
  if 1 < x ∧ x ≤ 1 + 1e-10 then 1 else x

/-- `_shift_linear` (lines 21-23) with the default shift. -/
noncomputable def shiftLinear (v : ℝ) : ℝ := correct01 (|v - 0.35| / |(⌊0.35 - v⌋ : ℝ) + 0.35|)

/-- `_shift_deceptive` (lines 26-34). -/
noncomputable def shiftDeceptive (A B C y : ℝ) : ℝ :=
  let tmp1 := (⌊y - A + B⌋ : ℝ) * (1 - C + (A - B) / B) / (A - B)
  let tmp2 := (⌊A + B - y⌋ : ℝ) * (1 - C + (1 - A - B) / B) / (1 - A - B)
  correct01 (1 + (|y - A| - B) * (tmp1 + tmp2 + 1 / B))

/-- `_shift_multi_modal` (lines 37-40). -/
noncomputable def shiftMultiModal (A B C y : ℝ) : ℝ :=
  let tmp1 := |y - C| / (2 * ((⌊C - y⌋ : ℝ) + C))
  let tmp2 := (4 * A + 2) * Real.pi * (0.5 - tmp1)
  correct01 ((1 + Real.cos tmp2 + 4 * B * tmp1 ^ 2) / (B + 2))

/-- `_bias_flat` (lines 43-49). -/
noncomputable def biasFlat (a b c y : ℝ) : ℝ :=
  correct01 (a + min 0 (⌊y - b⌋ : ℝ) * (a * (b - y) / b) - min 0 (⌊c - y⌋ : ℝ) * ((1 - a) * (y - c) / (1 - c)))

/-- `_bias_poly` (lines 52-53). -/
noncomputable def biasPoly (alpha y : ℝ) : ℝ := correct01 (y ^ alpha)

/-- The exponent of `_param_dependent` (line 63) with its default parameters, which are the only ones used. -/
noncomputable def paramExponent (u : ℝ) : ℝ :=
  0.02 + (50 - 0.02) * (0.98 / 49.98 - (1 - 2 * u) * |(⌊0.5 - u⌋ : ℝ) + 0.98 / 49.98|)

/-- `_param_dependent` (lines 56-64). -/
noncomputable def paramDependent (y u : ℝ) : ℝ := correct01 (y ^ paramExponent u)

/-- `_weighted_sum` (lines 76-77), of values with their weights. -/
noncomputable def weightedSum (l : List (ℝ × ℝ)) : Option ℝ :=
  if l = [] then none else some (correct01 ((l.map fun q => q.1 * q.2).sum / (l.map Prod.snd).sum))

/-- `_uniform_sum` (lines 80-81). -/
noncomputable def uniformSum (l : List ℝ) : Option ℝ :=
  if l = [] then none else some (correct01 (l.sum / l.length))

/-- The numerator of `_non_separable` (lines 87-93). -/
noncomputable def nonSepNum (y : List ℝ) (A : ℕ) : ℝ :=
  ∑ c ∈ Finset.range y.length, (y.getD c 0 +
    ∑ o ∈ Finset.range (A - 1), |y.getD c 0 - y.getD ((c + o + 1) % y.length) 0|)

/-- `_non_separable` (lines 84-95). -/
noncomputable def nonSeparable (y : List ℝ) (A : ℕ) : Option ℝ :=
  if y = [] ∨ A = 0 then none
  else
    let v : ℝ := (⌈(A : ℝ) / 2⌉ : ℝ)
    some (correct01 (nonSepNum y A / (y.length * v * (1 + 2 * A - 2 * v) / A)))

/-- The common structure of `_concave`, `_convex` and `_linear` (lines 98-131): products of `p` over the first
coordinates, times `q` of the next one. -/
noncomputable def shapeFn (p q : ℝ → ℝ) (x : List ℝ) (m : ℕ) : ℝ :=
  correct01 (if m = 1 then (x.map p).prod
    else if m ≤ x.length then ((x.take (x.length - m + 1)).map p).prod * q (x.getD (x.length - m + 1) 0)
    else q (x.getD 0 0))

/-- `_concave` (lines 98-107). -/
noncomputable def concave : List ℝ → ℕ → ℝ :=
  shapeFn (fun v => Real.sin (0.5 * v * Real.pi)) (fun v => Real.cos (0.5 * v * Real.pi))

/-- `_convex` (lines 110-119). -/
noncomputable def convex : List ℝ → ℕ → ℝ :=
  shapeFn (fun v => 1 - Real.cos (0.5 * v * Real.pi)) (fun v => 1 - Real.sin (0.5 * v * Real.pi))

/-- `_linear` (lines 122-131). -/
noncomputable def linear : List ℝ → ℕ → ℝ := shapeFn (fun v => v) (fun v => 1 - v)

/-- `_mixed` (lines 134-136) with its default parameters. -/
noncomputable def mixed (x : ℝ) : ℝ :=
  correct01 (1 - x - Real.cos (2 * 5 * Real.pi * x + 0.5 * Real.pi) / (2 * 5 * Real.pi))

/-- `_disconnected` (lines 139-145) with its default parameters. -/
noncomputable def disconnected (x : ℝ) : ℝ := correct01 (1 - x * Real.cos (5 * Real.pi * x) ^ 2)

/-- `_post` (lines 148-153). -/
noncomputable def post (A t : List ℝ) : List ℝ :=
  List.zipWith (fun a v => max (t.getLastD 0) a * (v - 0.5) + 0.5) A t.dropLast ++ [t.getLastD 0]

/-- `_calculate` (lines 156-157). -/
noncomputable def calculate (x scales shapes : List ℝ) : List ℝ :=
  List.zipWith (fun s h => x.getLastD 0 + s * h) scales shapes

/-- `_wfg1_t1` (lines 160-161). -/
noncomputable def t1 (k : ℕ) (x : List ℝ) : List ℝ := x.take k ++ (x.drop k).map shiftLinear

/-- `_wfg1_t2` (lines 164-165). -/
noncomputable def t2 (k : ℕ) (x : List ℝ) : List ℝ := x.take k ++ (x.drop k).map (biasFlat 0.8 0.75 0.85)

/-- The reductions `_wfg1_t4`, `_wfg2_t3`, `_wfg4_t2`, `_wfg6_t2` (lines 168-215): one value for each of the
`n_obj - 1` groups of `gap` position variables by `f`, and one for the rest by `g`. -/
def reduceGroups {α : Type} (f g : List α → Option ℝ) (nObj k : ℕ) (x : List α) : Option (List ℝ) :=
  let gap := k / (nObj - 1)
  ((List.range (nObj - 1)).mapM fun i => f ((x.drop (i * gap)).take gap)).bind fun cols =>
    (g (x.drop k)).map fun last => cols ++ [last]

/-- `_non_separable` of pairs (`_wfg2_t2`, lines 179-184); an odd last variable is not used. -/
noncomputable def pairs : List ℝ → Option (List ℝ)
  | a :: b :: l => (nonSeparable [a, b] 2).bind fun v => (pairs l).map fun vs => v :: vs
  | _ => some []

/-- The first transformation of WFG7, WFG8 and WFG9: `_param_dependent` of some variables on the
mean of others, which are not changed before (lines 258-259, 265-275, 281-285). -/
noncomputable def dependent (cond : ℕ → Bool) (others : ℕ → List ℝ → List ℝ) (y : List ℝ) : Option (List ℝ) :=
  (List.range y.length).mapM fun i =>
    if cond i then (uniformSum (others i y)).map fun u => paramDependent (y.getD i 0) u else some (y.getD i 0)

/-- `_evaluate_wfg` up to `_post` (lines 228-292, the parts before the shapes): the vector the shapes are made of. -/
noncomputable def transform (number nVar nObj k : ℕ) (A y : List ℝ) : Option (List ℝ) :=
  match number with
  | 1 =>
    let y := ((t2 k (t1 k y)).map (biasPoly 0.02))
    (reduceGroups weightedSum weightedSum nObj k (y.zip ((List.range nVar).map fun i : ℕ => 2 * ((i : ℝ) + 1)))).map (post A)
  | 2 | 3 =>
    let y := t1 k y
    (pairs (y.drop k)).bind fun z => (reduceGroups uniformSum uniformSum nObj k (y.take k ++ z)).map (post A)
  | 4 => (reduceGroups uniformSum uniformSum nObj k (y.map (shiftMultiModal 30 10 0.35))).map (post A)
  | 5 => (reduceGroups uniformSum uniformSum nObj k (y.map (shiftDeceptive 0.35 0.001 0.05))).map (post A)
  | 6 => (reduceGroups (nonSeparable · (k / (nObj - 1))) (nonSeparable · (nVar - k)) nObj k (t1 k y)).map (post A)
  | 7 => (dependent (fun i => i < k) (fun i y => y.drop (i + 1)) y).bind fun y =>
      (reduceGroups uniformSum uniformSum nObj k (t1 k y)).map (post A)
  | 8 => (dependent (fun i => k ≤ i) (fun i y => y.take i) y).bind fun y =>
      (reduceGroups uniformSum uniformSum nObj k (t1 k y)).map (post A)
  | 9 => (dependent (fun i => i < nVar - 1) (fun i y => y.drop (i + 1)) y).bind fun y =>
      reduceGroups (nonSeparable · (k / (nObj - 1))) (nonSeparable · (nVar - k)) nObj k
        ((y.take k).map (shiftDeceptive 0.35 0.001 0.05) ++ (y.drop k).map (shiftMultiModal 30 95 0.35))
  | _ => none

/-- The shapes (lines 236-237, 243-246, 251, 256, 263, 279 and 293). -/
noncomputable def shapes (number nObj : ℕ) (y : List ℝ) : List ℝ :=
  match number with
  | 1 => ((List.range (nObj - 1)).map fun i => convex y.dropLast (i + 1)) ++ [mixed (y.getD 0 0)]
  | 2 => ((List.range (nObj - 1)).map fun i => convex y.dropLast (i + 1)) ++ [disconnected (y.getD 0 0)]
  | 3 => (List.range nObj).map fun i => linear y.dropLast (i + 1)
  | _ => (List.range nObj).map fun i => concave y.dropLast (i + 1)

/-- `S` (line 321). -/
noncomputable def scales (nObj : ℕ) : List ℝ := (List.range nObj).map fun i : ℕ => 2 * ((i : ℝ) + 1)

/-- `A` (lines 322-326). -/
def degenerate (number nObj : ℕ) : List ℝ :=
  if number = 3 then 1 :: List.replicate (nObj - 2) 0 else List.replicate (nObj - 1) 1

/-- `_objective` (lines 350-361) with `_evaluate_wfg` (lines 218-297). -/
noncomputable def objective (number nVar nObj k : ℕ) (xu x : List ℝ) : Option (List ℝ) :=
  (transform number nVar nObj k (degenerate number nObj) (List.zipWith (· / ·) x xu)).map fun y =>
    calculate y (scales nObj) (shapes number nObj y)

/-- `_validate_parameters` (lines 338-348): `true` if nothing is raised. -/
def valid (number nVar nObj k l : Int) : Bool :=
  !(decide (nObj < 2) || decide (k < 4) || decide (k % (nObj - 1) ≠ 0) ||
    (decide (k + l ≠ nVar) || decide (l < 1) || decide (k + l < nObj)) ||
    ((number == 2 || number == 3) && decide (l % 2 ≠ 0)))

/-- `WFG._optimal_positions` (lines 363-365) for one row. -/
noncomputable def optimalPositions (l : ℕ) (xu positions : List ℝ) : List ℝ :=
  List.zipWith (· * ·) (positions ++ List.replicate l 0.35) xu

/-- The loop of `WFG8._optimal_positions` (lines 418-424). -/
noncomputable def optimal8 : ℕ → List ℝ → List ℝ
  | 0, values => values
  | n + 1, values => optimal8 n (values ++ [(0.35 : ℝ) ^ (paramExponent (values.sum / values.length))⁻¹])

/-- The loop of `WFG9._optimal_positions` (lines 432-436), from the end: the distance values `index ..`, for `n` more
steps. -/
noncomputable def optimal9 : ℕ → List ℝ → List ℝ
  | 0, values => values
  | n + 1, values => optimal9 n ((0.35 : ℝ) ^ (0.02 + 1.96 * (values.sum / values.length))⁻¹ :: values)

/-- `WFG8._optimal_positions` (lines 417-425). -/
noncomputable def optimalPositions8 (l : ℕ) (xu positions : List ℝ) : List ℝ :=
  List.zipWith (· * ·) (optimal8 l positions) xu

/-- `WFG9._optimal_positions` (lines 431-437). -/
noncomputable def optimalPositions9 (l : ℕ) (xu positions : List ℝ) : List ℝ :=
  List.zipWith (· * ·) (positions ++ optimal9 (l - 1) [0.35]) xu

end Verif.Prob.WFG
