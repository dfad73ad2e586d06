import Mathlib.Analysis.SpecialFunctions.Pow.Real
import Mathlib.Analysis.SpecialFunctions.Trigonometric.Basic

/-!
# The DTLZ problems (hvd/problems/dtlz.py, hvd/problems/eqdtlz.py)

Over the reals; rounding is not modelled.
-/

namespace Verif.Prob

/-- `jnp.cumprod`. -/
noncomputable def cumprod : List ℝ → List ℝ
  | [] => []
  | a :: l => l.scanl (· * ·) a

/-- What the classes of dtlz.py override: `g`, `_transform_x` and the attributes `n_obj`, `scale`. -/
structure DTLZ where
  nObj : ℕ
  scale : ℝ
  g : List ℝ → ℝ
  transform : List ℝ → ℝ → List ℝ × List ℝ

/-- `x_, x_M = x[: n_obj - 1], x[n_obj - 1 :]` (dtlz.py 46; eqdtlz.py 11), for at least one objective. -/
def position (nObj : ℕ) (x : List ℝ) : List ℝ := x.take (nObj - 1)

/-- See `position`. -/
def distance (nObj : ℕ) (x : List ℝ) : List ℝ := x.drop (nObj - 1)

/-- `jnp.cumprod(jnp.r_[[1], x1])[::-1] * jnp.r_[[1], x2[::-1]]` with the factor `s` (dtlz.py 49). -/
noncomputable def productForm (s : ℝ) (x1 x2 : List ℝ) : List ℝ :=
  List.zipWith (· * ·) ((cumprod (1 :: x1)).reverse.map (s * ·)) (1 :: x2.reverse)

/-- `_DTLZ._objective` (dtlz.py 44-49). -/
noncomputable def DTLZ.objective (P : DTLZ) (x : List ℝ) : List ℝ :=
  let g := P.g (distance P.nObj x)
  let t := P.transform (position P.nObj x) g
  productForm (P.scale * (1 + g)) t.1 t.2

/-- `InvertedDTLZ._objective` (eqdtlz.py 9-14). -/
noncomputable def DTLZ.inverted (P : DTLZ) (x : List ℝ) : List ℝ :=
  let g := P.g (distance P.nObj x)
  let t := P.transform (position P.nObj x) g
  (productForm (P.scale * (1 + g)) t.1 t.2).map fun f => (1 + g) / 2 - f

/-- `_DTLZ.g` (dtlz.py 51-52). -/
noncomputable def gSphere (xM : List ℝ) : ℝ := (xM.map fun z => (z - 0.5) ^ 2).sum

/-- `DTLZ1.g`, `DTLZ3.g` (dtlz.py 83-84, 98-99); `k = n_var - n_obj + 1` is an attribute. -/
noncomputable def gRastrigin (k : ℕ) (xM : List ℝ) : ℝ :=
  100 * (k + (xM.map fun z => (z - 0.5) ^ 2 - Real.cos (20 * Real.pi * (z - 0.5))).sum)

/-- `DTLZ6.g` (dtlz.py 136-138), `eps` is `1e-30`. -/
noncomputable def gPower (eps : ℝ) (xM : List ℝ) : ℝ := (xM.map fun z => (max |z| eps) ^ (0.1 : ℝ)).sum

/-- `DTLZ1._transform_x` (dtlz.py 80-81). -/
noncomputable def transformLinear (x : List ℝ) (_ : ℝ) : List ℝ × List ℝ := (x, x.map fun z => 1 - z)

/-- `_DTLZ._transform_x` (dtlz.py 41-42). -/
noncomputable def transformSphere (alpha : ℝ) (x : List ℝ) (_ : ℝ) : List ℝ × List ℝ :=
  (x.map fun z => Real.cos (z ^ alpha * Real.pi / 2), x.map fun z => Real.sin (z ^ alpha * Real.pi / 2))

/-- The angles of `DTLZ5._transform_x` (dtlz.py 123-124); `x[0]` of an empty array (one objective) is an error in
numpy, the model gives no angle. -/
noncomputable def thetaCurve (x : List ℝ) (g : ℝ) : List ℝ :=
  match x with
  | [] => []
  | z :: x => z :: x.map fun z => (1 + 2 * g * z) / (2 * (1 + g))

/-- `DTLZ5._transform_x` (dtlz.py 122-125). -/
noncomputable def transformCurve (x : List ℝ) (g : ℝ) : List ℝ × List ℝ :=
  ((thetaCurve x g).map fun t => Real.cos (t * Real.pi / 2),
    (thetaCurve x g).map fun t => Real.sin (t * Real.pi / 2))

/-- `DTLZ1` (dtlz.py 62-84). -/
noncomputable def DTLZ1 (nObj k : ℕ) : DTLZ := ⟨nObj, 0.5, gRastrigin k, transformLinear⟩

/-- `DTLZ2` (dtlz.py 91-94). -/
noncomputable def DTLZ2 (nObj : ℕ) : DTLZ := ⟨nObj, 1, gSphere, transformSphere 1⟩

/-- `DTLZ3` (dtlz.py 97-99). -/
noncomputable def DTLZ3 (nObj k : ℕ) : DTLZ := ⟨nObj, 1, gRastrigin k, transformSphere 1⟩

/-- `DTLZ4` (dtlz.py 102-118). -/
noncomputable def DTLZ4 (nObj : ℕ) : DTLZ := ⟨nObj, 1, gSphere, transformSphere 100⟩

/-- `DTLZ5` (dtlz.py 121-125). -/
noncomputable def DTLZ5 (nObj : ℕ) : DTLZ := ⟨nObj, 1, gSphere, transformCurve⟩

/-- `DTLZ6` (dtlz.py 135-138). -/
noncomputable def DTLZ6 (nObj : ℕ) (eps : ℝ) : DTLZ := ⟨nObj, 1, gPower eps, transformCurve⟩

/-- `ConstrainedDTLZ._eq_constraint` (eqdtlz.py 33-38). -/
noncomputable def eqConstraint (nObj : ℕ) (x : List ℝ) : ℝ :=
  |((position nObj x).map fun z => (z - 0.5) ^ 2).sum - 0.4 ^ 2| - 0.0001

/-- `_DTLZ.get_pareto_set` (dtlz.py 54-56) with `v = 0.5`, `DTLZ6.get_pareto_set` and `DTLZ7.get_pareto_set`
(dtlz.py 140-142, 155-157) with `v = 0`: `rows` is `np.random.rand(N, n_var - k)`, the `k` last variables are `v`.
The classes of eqdtlz.py inherit the first. -/
def dtlzSet (v : ℝ) (k : ℕ) (rows : List (List ℝ)) : List (List ℝ) := rows.map (· ++ List.replicate k v)

/-- `DTLZ7.g` (dtlz.py 152-153); the division by zero for `k = 0` raises. -/
noncomputable def gLinear (k : ℕ) (xM : List ℝ) : Option ℝ :=
  if k = 0 then none else some (1 + 9 / k * (xM.drop (xM.length - k)).sum)

/-- `DTLZ7._objective` (dtlz.py 165-170). -/
noncomputable def dtlz7 (nObj k : ℕ) (x : List ℝ) : Option (List ℝ) :=
  match gLinear k (distance nObj x) with
  | none => none
  | some g =>
    let f := position nObj x
    let h := nObj - (f.map fun z => z / (1 + g) * (1 + Real.sin (3 * Real.pi * z))).sum
    some (f ++ [(1 + g) * h])

end Verif.Prob
