import Mathlib.Analysis.SpecialFunctions.Pow.Real

/-!
# GD and IGD (hvd/delta_p.py)

Arrays of shape `(N, m)` are functions `Fin N → Fin m → ℝ`; numbers are reals. Callbacks are total
functions. Outcomes that are no number (an exception, NaN) are `none`.
-/

namespace Verif.Ind

open scoped Classical

variable {N M n m : ℕ}

/-- The user's callbacks `func`, `jac`, `hess` (delta_p.py 13-15, mmd.py 46-48). -/
structure Objective (n m : ℕ) where
  func : (Fin n → ℝ) → Fin m → ℝ
  jac : (Fin n → ℝ) → Fin m → Fin n → ℝ
  hess : (Fin n → ℝ) → Fin m → Fin n → Fin n → ℝ

/-- `scipy.spatial.distance.cdist(A, B, metric="minkowski")`, whose order is 2 unless given
(delta_p.py 40, 155). -/
noncomputable def cdist (A : Fin N → Fin m → ℝ) (B : Fin M → Fin m → ℝ) (i : Fin N) (j : Fin M) : ℝ :=
  √(∑ a, (A i a - B j a) ^ 2)

/-- `np.argmin`: the first smallest entry; `none` is the `ValueError` for an empty row. -/
noncomputable def argmin (f : Fin M → ℝ) : Option (Fin M) :=
  (List.finRange M).find? fun j => ∀ k, f j ≤ f k

/-- `np.argmin(D, axis=1)` (delta_p.py 41, 157). -/
noncomputable def argminRows (D : Fin N → Fin M → ℝ) : Option (Fin N → Fin M) :=
  if h : ∀ i, (argmin (D i)).isSome then some fun i => (argmin (D i)).get (h i) else none

/-- `np.mean`; `none` is the NaN of an empty array. -/
noncomputable def mean (f : Fin N → ℝ) : Option ℝ :=
  if N = 0 then none else some ((∑ i, f i) / N)

/-- `b ** e` for `b ≥ 0`; `none` is the infinity numpy returns for a zero base and a negative
exponent. -/
noncomputable def npPow (b e : ℝ) : Option ℝ := if b = 0 ∧ e < 0 then none else some (b ^ e)

/-- `GenerationalDistance.compute` (delta_p.py 43-58) for given or evaluated objective points. -/
noncomputable def gdCompute (p : ℝ) (R : Fin M → Fin m → ℝ) (Y : Fin N → Fin m → ℝ) : Option ℝ :=
  (argminRows (cdist Y R)).bind fun ind =>
    (mean fun i => cdist Y R i (ind i) ^ p).map fun v => v ^ (1 / p)

/-- `np.array([self.func(x) for x in X]) if Y is None else Y` (delta_p.py 82-83). -/
def Objective.images (o : Objective n m) (X : Fin N → Fin n → ℝ) (Y : Option (Fin N → Fin m → ℝ)) :
    Fin N → Fin m → ℝ := Y.getD fun i => o.func (X i)

/-- `np.array([self.jac(x) for x in X]) if Jacobian is None else Jacobian` (delta_p.py 87). -/
def Objective.jacobians (o : Objective n m) (X : Fin N → Fin n → ℝ)
    (J : Option (Fin N → Fin m → Fin n → ℝ)) : Fin N → Fin m → Fin n → ℝ := J.getD fun i => o.jac (X i)

/-- What `compute_derivatives` returns: the gradient (an entry `none` is NaN) and the Hessian blocks of
the points, of shape `(N, dim, dim)`, if asked for. -/
structure BlockDerivs (N n : ℕ) where
  grad : Fin N → Fin n → Option ℝ
  hessian : Option (Fin N → Fin n → Fin n → ℝ)

/-- `GenerationalDistance.compute_derivatives` (delta_p.py 60-112). `none`: an exception
(`c1 = p / N` for no points, `argmin` of an empty reference set). In the gradient
`diff_norm ** (p - 2)` may be infinite, the product with `grad_ = 0` is then NaN. -/
noncomputable def gdDerivs (o : Objective n m) (p : ℝ) (R : Fin M → Fin m → ℝ) (X : Fin N → Fin n → ℝ)
    (Y : Option (Fin N → Fin m → ℝ)) (computeHessian : Bool)
    (Jacobian : Option (Fin N → Fin m → Fin n → ℝ)) : Option (BlockDerivs N n) :=
  if N = 0 then none else
  (argminRows (cdist (o.images X Y) R)).map fun ind =>
    let c1 := p / N
    let J := o.jacobians X Jacobian
    let diff : Fin N → Fin m → ℝ := fun i a => o.images X Y i a - R (ind i) a
    let diffNorm : Fin N → ℝ := fun i => √(∑ a, diff i a ^ 2)
    let grad_ : Fin N → Fin n → ℝ := fun i k => ∑ a, J i a k * diff i a
    let c2 := p * (p - 2) / N
    let diffNorm_ : Fin N → ℝ := fun i => if diffNorm i ≠ 0 then diffNorm i ^ (p - 4) else 0
    let term : Fin N → Fin n → Fin n → ℝ := fun i k l =>
      if p ≠ 2 then c2 * diffNorm_ i * (grad_ i k * grad_ i l) else 0
    { grad := fun i k => (npPow (diffNorm i) (p - 2)).map fun w => c1 * w * grad_ i k
      hessian := if computeHessian then
          some fun i k l => term i k l +
            c1 * (∑ a, J i a k * J i a l + ∑ a, o.hess (X i) a k l * diff i a)
        else none }

/-- `InvertedGenerationalDistance.compute` without matching (delta_p.py 185-187); the reference set has
`self.M` points. -/
noncomputable def igdCompute (p : ℝ) (R : Fin M → Fin m → ℝ) (Y : Fin N → Fin m → ℝ) : Option ℝ :=
  (argminRows (cdist R Y)).bind fun ind =>
    (mean fun j => cdist R Y j (ind j) ^ p).map fun v => v ^ (1 / p)

/-- `InvertedGenerationalDistance.compute` with matching (delta_p.py 182-184); `matched` is the
reference set after `self.ref.match(Y)`. -/
noncomputable def igdComputeMatched (matched : Fin N → Fin m → ℝ) (Y : Fin N → Fin m → ℝ) : Option ℝ :=
  mean fun i => ∑ a, (Y i a - matched i a) ^ 2

/-- `InvertedGenerationalDistance._compute_indices` (delta_p.py 160): the indices of the reference points
whose closest point is `i`. -/
def closestTo (ind : Fin M → Fin N) (i : Fin N) : List (Fin M) :=
  (List.finRange M).filter fun j => ind j = i

/-- `InvertedGenerationalDistance._compute_indices` (delta_p.py 163-165): how many reference points have
the closest point `i`. -/
def closestCount (ind : Fin M → Fin N) (i : Fin N) : ℕ := (List.ofFn ind).count i

/-- `InvertedGenerationalDistance.compute_derivatives` without matching (delta_p.py 208-238);
`none`: an exception (`2 / M` for an empty reference set, `argmin` of an empty row). -/
noncomputable def igdDerivs (o : Objective n m) (R : Fin M → Fin m → ℝ) (X : Fin N → Fin n → ℝ)
    (Y : Option (Fin N → Fin m → ℝ)) (computeHessian : Bool)
    (Jacobian : Option (Fin N → Fin m → Fin n → ℝ)) : Option (BlockDerivs N n) :=
  if M = 0 then none else
  (argminRows (cdist R (o.images X Y))).map fun ind =>
    let c : ℝ := 2 / M
    let J := o.jacobians X Jacobian
    let Z : Fin N → Fin m → ℝ := fun i a => ((closestTo ind i).map fun j => R j a).sum
    let diff : Fin N → Fin m → ℝ := fun i a => closestCount ind i * o.images X Y i a - Z i a
    { grad := fun i k => some (c * ∑ a, J i a k * diff i a)
      hessian := if computeHessian then
          some fun i k l => c * (closestCount ind i * ∑ a, J i a k * J i a l +
            ∑ a, o.hess (X i) a k l * diff i a)
        else none }

/-- `InvertedGenerationalDistance.compute_derivatives` with matching (delta_p.py 212, 221-223, 229-238);
`matched` is the reference set after `self.ref.match(Y)`. -/
noncomputable def igdDerivsMatched (o : Objective n m) (matched : Fin N → Fin m → ℝ) (X : Fin N → Fin n → ℝ)
    (Y : Option (Fin N → Fin m → ℝ)) (computeHessian : Bool)
    (Jacobian : Option (Fin N → Fin m → Fin n → ℝ)) : BlockDerivs N n :=
  let c : ℝ := 2
  let J := o.jacobians X Jacobian
  let diff : Fin N → Fin m → ℝ := fun i a => o.images X Y i a - matched i a
  { grad := fun i k => some (c * ∑ a, J i a k * diff i a)
    hessian := if computeHessian then
        some fun i k l => c * (1 * ∑ a, J i a k * J i a l + ∑ a, o.hess (X i) a k l * diff i a)
      else none }

end Verif.Ind
