import Verif.Ind.DeltaP
import Mathlib.Analysis.SpecialFunctions.Exp

/-!
# MMD and MMDMatching (hvd/mmd.py)

Arrays of shape `(N, m)` are functions `Fin N → Fin m → ℝ`; numbers are reals (JAX is set to
64 bits, hvd/__init__.py 5; rounding is in `Ind/FlModel`). The decision points have the shape `(N, n_var)` (`_check_X` does nothing).
`none` is an exception or a NaN.
-/

namespace Verif.Ind

variable {N M n m : ℕ}

/-- `rational_quadratic` (mmd.py 23-25). -/
noncomputable def rationalQuadratic (theta alpha : ℝ) (x y : Fin m → ℝ) : ℝ :=
  ((∑ a, (x a - y a) ^ 2) * theta / (2 * alpha) + 1) ^ (-alpha)

/-- `rbf` (mmd.py 28-30). -/
noncomputable def rbf (theta : ℝ) (x y : Fin m → ℝ) : ℝ := Real.exp (-theta * ∑ a, (x a - y a) ^ 2)

/-- `laplace` (mmd.py 33-35). -/
noncomputable def laplace (theta : ℝ) (x y : Fin m → ℝ) : ℝ := Real.exp (-theta * ∑ a, |x a - y a|)

/-- The kernel and the functions JAX derives from it (mmd.py 76-79): `k_dx`, `k_dx2`, `k_dxdy`;
`dx2 x y a b` is the derivative by `x_b` and `dxdy x y a b` the derivative by `y_b` of `dx x y a`. -/
structure Kernel (m : ℕ) where
  k : (Fin m → ℝ) → (Fin m → ℝ) → ℝ
  dx : (Fin m → ℝ) → (Fin m → ℝ) → Fin m → ℝ
  dx2 : (Fin m → ℝ) → (Fin m → ℝ) → Fin m → Fin m → ℝ
  dxdy : (Fin m → ℝ) → (Fin m → ℝ) → Fin m → Fin m → ℝ

/-- `cdist(A, B, metric=k).mean()`; `none` is the NaN of an empty array. -/
noncomputable def meanCdist (k : (Fin m → ℝ) → (Fin m → ℝ) → ℝ) (A : Fin N → Fin m → ℝ)
    (B : Fin M → Fin m → ℝ) : Option ℝ :=
  if N * M = 0 then none else some ((∑ i, ∑ j, k (A i) (B j)) / (N * M : ℕ))

/-- `MMD.compute` (mmd.py 115-135) for the points `Y`. -/
noncomputable def mmdCompute (k : (Fin m → ℝ) → (Fin m → ℝ) → ℝ) (R : Fin M → Fin m → ℝ)
    (Y : Fin N → Fin m → ℝ) : Option ℝ :=
  (meanCdist k R R).bind fun rr => (meanCdist k Y Y).bind fun yy => (meanCdist k R Y).map fun ry =>
    rr + yy - 2 * ry

/-- `_build_kernel_gradient` (mmd.py 87-92). -/
noncomputable def mmdKernelGradient (K : Kernel m) (Y : Fin N → Fin m → ℝ) (R : Fin M → Fin m → ℝ)
    (i : Fin N) (a : Fin m) : ℝ :=
  2 * ((∑ j, K.dx (Y i) (Y j) a - K.dx (Y i) (Y i) a) / (N : ℝ) ^ 2 -
    (∑ r, K.dx (Y i) (R r) a) / ((N : ℝ) * M))

/-- `_build_kernel_hessian` (mmd.py 100-111): block `(i, j)`, entry `(a, b)`. -/
noncomputable def mmdKernelHessian (K : Kernel m) (Y : Fin N → Fin m → ℝ) (R : Fin M → Fin m → ℝ)
    (i j : Fin N) (a b : Fin m) : ℝ :=
  if i = j then
    2 * ((∑ l, K.dx2 (Y i) (Y l) a b - K.dx2 (Y i) (Y i) a b) / (N : ℝ) ^ 2 -
      (∑ r, K.dx2 (Y i) (R r) a b) / ((N : ℝ) * M))
  else 2 * K.dxdy (Y j) (Y i) a b / (N : ℝ) ^ 2

/-- `blocks.transpose(0, 2, 1, 3).reshape(N * d, N * d)` (mmd.py 19-21, 204). -/
def flatBlocks {d : ℕ} (B : Fin N → Fin N → Fin d → Fin d → ℝ) (p q : Fin (N * d)) : ℝ :=
  B p.divNat q.divNat p.modNat q.modNat

/-- The blocks of `_assemble_decision_hessian` (mmd.py 15-18). -/
def decisionBlocks (dY2 : Fin N → Fin N → Fin m → Fin m → ℝ) (dY : Fin N → Fin m → ℝ)
    (YdX : Fin N → Fin m → Fin n → ℝ) (YdX2 : Fin N → Fin m → Fin n → Fin n → ℝ)
    (i j : Fin N) (k l : Fin n) : ℝ :=
  ∑ a, ∑ b, YdX i a k * dY2 i j a b * YdX j b l + if i = j then ∑ a, dY i a * YdX2 i a k l else 0

/-- What `compute_gradient` returns. -/
structure MMDGradient (N n m : ℕ) where
  dX : Fin N → Fin n → ℝ
  dY : Fin N → Fin m → ℝ

/-- What `compute_hessian` returns. -/
structure MMDHessian (N n m : ℕ) extends MMDGradient N n m where
  dX2 : Fin (N * n) → Fin (N * n) → ℝ
  dY2 : Fin (N * m) → Fin (N * m) → ℝ

/-- `MMD.compute_gradient` (mmd.py 164-180, 231-235). -/
noncomputable def mmdGradient (o : Objective n m) (K : Kernel m) (R : Fin M → Fin m → ℝ)
    (X : Fin N → Fin n → ℝ) (Y : Option (Fin N → Fin m → ℝ)) (J : Option (Fin N → Fin m → Fin n → ℝ)) :
    Option (MMDGradient N n m) :=
  if N = 0 ∨ M = 0 then none else
  let dY := mmdKernelGradient K (o.images X Y) R
  some { dX := fun i k => ∑ a, dY i a * o.jacobians X J i a k, dY }

/-- `MMD.compute_hessian` (mmd.py 182-221). -/
noncomputable def mmdHessian (o : Objective n m) (K : Kernel m) (R : Fin M → Fin m → ℝ)
    (X : Fin N → Fin n → ℝ) (Y : Option (Fin N → Fin m → ℝ)) (J : Option (Fin N → Fin m → Fin n → ℝ)) :
    Option (MMDHessian N n m) :=
  if N = 0 ∨ M = 0 then none else
  let dY := mmdKernelGradient K (o.images X Y) R
  let blocks := mmdKernelHessian K (o.images X Y) R
  some { dX := fun i k => ∑ a, dY i a * o.jacobians X J i a k, dY
         dX2 := flatBlocks (decisionBlocks blocks dY (o.jacobians X J) fun i => o.hess (X i))
         dY2 := flatBlocks blocks }

/-! ### MMDMatching

`matched` is `self.ref.reference_set` after `self.ref.match(Y)`. -/

/-- `MMDMatching.compute` (mmd.py 332-351). -/
noncomputable def mmdmCompute (beta : ℝ) (k : (Fin m → ℝ) → (Fin m → ℝ) → ℝ)
    (matched Y : Fin N → Fin m → ℝ) : Option ℝ :=
  (meanCdist k Y Y).bind fun yy => (mean fun i => 2 - 2 * k (Y i) (matched i)).map fun v =>
    beta * yy + v

/-- `MMDMatching._build_kernel_gradient` (mmd.py 304-310). -/
noncomputable def mmdmKernelGradient (beta : ℝ) (K : Kernel m) (Y matched : Fin N → Fin m → ℝ)
    (i : Fin N) (a : Fin m) : ℝ :=
  2 * (beta * (∑ j, K.dx (Y i) (Y j) a - K.dx (Y i) (Y i) a) / (N : ℝ) ^ 2 -
    K.dx (Y i) (matched i) a / N)

/-- `MMDMatching._build_kernel_hessian` (mmd.py 319-328). -/
noncomputable def mmdmKernelHessian (beta : ℝ) (K : Kernel m) (Y matched : Fin N → Fin m → ℝ)
    (i j : Fin N) (a b : Fin m) : ℝ :=
  if i = j then
    2 * (beta * (∑ l, K.dx2 (Y i) (Y l) a b - K.dx2 (Y i) (Y i) a b) / (N : ℝ) ^ 2 -
      K.dx2 (Y i) (matched i) a b / N)
  else 2 * beta * K.dxdy (Y j) (Y i) a b / (N : ℝ) ^ 2

/-- `MMDMatching.compute_gradient` (mmd.py 380-398). -/
noncomputable def mmdmGradient (o : Objective n m) (beta : ℝ) (K : Kernel m) (matched : Fin N → Fin m → ℝ)
    (X : Fin N → Fin n → ℝ) (Y : Option (Fin N → Fin m → ℝ)) (J : Option (Fin N → Fin m → Fin n → ℝ)) :
    Option (MMDGradient N n m) :=
  if N = 0 then none else
  let dY := mmdmKernelGradient beta K (o.images X Y) matched
  some { dX := fun i k => ∑ a, o.jacobians X J i a k * dY i a, dY }

/-- `MMDMatching.compute_hessian` (mmd.py 400-435). -/
noncomputable def mmdmHessian (o : Objective n m) (beta : ℝ) (K : Kernel m) (matched : Fin N → Fin m → ℝ)
    (X : Fin N → Fin n → ℝ) (Y : Option (Fin N → Fin m → ℝ)) (J : Option (Fin N → Fin m → Fin n → ℝ)) :
    Option (MMDHessian N n m) :=
  (mmdmGradient o beta K matched X Y J).map fun out =>
    let blocks := mmdmKernelHessian beta K (o.images X Y) matched
    { out with
      dX2 := flatBlocks (decisionBlocks blocks out.dY (o.jacobians X J) fun i => o.hess (X i))
      dY2 := flatBlocks blocks }

end Verif.Ind
