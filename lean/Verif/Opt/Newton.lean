import Verif.Opt.Residual

/-!
# The Newton steps

Models of `_compute_netwon_step` of `HVN` and `DpN` (hvd/newton.py) and of `MMDNewton` (hvd/mmd_newton.py), without
preconditioning. The indicator's derivatives are given. `solve` stands for `spsolve` or `solve` with the fallback
`np.linalg.lstsq`; `none` is an exception.
-/

namespace Verif.Opt

open Verif.Util

variable {K : Type*} [CommRing K]

/-- The data of a point with the Hessians of all constraints (`state.cstr_hess[i]`). -/
structure NewtonPoint (K : Type*) extends PointData K where
  ddH : List (List (List K))

/-- `block_diag` of blocks with `n` columns each, after `before` blocks. -/
def blockDiagFrom (n : ℕ) : ℕ → List (List (List K)) → List (List K)
  | _, [] => []
  | before, B :: Bs =>
    (B.map fun r => List.replicate (before * n) 0 ++ r ++ List.replicate (Bs.length * n) 0) ++
      blockDiagFrom n (before + 1) Bs

/-- `block_diag(*Bs)` (newton.py 248, 250; mmd_newton.py 258). -/
def blockDiag (n : ℕ) (Bs : List (List (List K))) : List (List K) := blockDiagFrom n 0 Bs

/-- Column `j` of a matrix. -/
def column (A : List (List K)) (j : ℕ) : List K := A.map fun r => r.getD j 0

/-- `np.r_[np.c_[A, H.T], np.c_[H, Z]]` with zeros `Z`; `A` has `c` rows and `H` has `c` columns. -/
def bordered (c : ℕ) (A H : List (List K)) : List (List K) :=
  List.zipWith (· ++ ·) A ((List.range c).map (column H)) ++ H.map fun r => r ++ List.replicate H.length 0

/-- The sum of two matrices. -/
def addRows (A B : List (List K)) : List (List K) := List.zipWith (List.zipWith (· + ·)) A B

/-- `np.einsum("i...,i", B, dual)` (newton.py 250, 569): the sum of the Hessians times the multipliers. -/
def lagrangeHess (n : ℕ) (dual : List K) (B : List (List (List K))) : List (List K) :=
  (List.range n).map fun v => (List.range n).map fun w =>
    ((dual.zip B).map fun p => p.1 * (p.2.getD v []).getD w 0).sum

/-- The Hessian of the active part of the Lagrangian without the indicator. -/
def activeHess (n : ℕ) (d : NewtonPoint K) : List (List K) :=
  lagrangeHess n (select d.act d.dual) (select d.act d.ddH)

/-- `DR` of `HVN` (newton.py 247-252) and, without the curvature of the constraints, of `MMDNewton`
(mmd_newton.py 256-260). -/
def newtonMatrix (curvature : Bool) (n : ℕ) (Hess : List (List K)) (ds : List (NewtonPoint K)) : List (List K) :=
  bordered (ds.length * n) (if curvature then addRows Hess (blockDiag n (ds.map (activeHess n))) else Hess)
    (blockDiag n (ds.map fun d => select d.act d.dH))

/-- `HVN._compute_netwon_step` (newton.py 241-263) for `p` constraints (`p = 0`: none). -/
def hvnStep (solve : List (List K) → List K → List K) (n p : ℕ) (Hess : List (List K)) (ds : List (NewtonPoint K)) :
    Option (List (List K)) :=
  if p = 0 then reshape ds.length ((solve Hess (ds.map fun d => d.grad).flatten).map (-1 * ·))
  else
    (hvnR true (ds.map NewtonPoint.toPointData)).bind fun R =>
      (pack R n (ds.map fun d => d.act)).bind fun r =>
        unpack ((solve (newtonMatrix true n Hess ds) r).map (-1 * ·)) ds.length (n + p) n (ds.map fun d => d.act)

/-- `MMDNewton._compute_netwon_step` (mmd_newton.py 249-273). -/
def mmdStep (solve : List (List K) → List K → List K) (n p : ℕ) (Hess : List (List K)) (ds : List (NewtonPoint K)) :
    Option (List (List K)) :=
  if p = 0 then reshape ds.length ((solve Hess (ds.map fun d => d.grad).flatten).map (-1 * ·))
  else
    (mmdR true (ds.map NewtonPoint.toPointData)).bind fun R =>
      (pack R n (ds.map fun d => d.act)).bind fun r =>
        unpackFull ((solve (newtonMatrix false n Hess ds) r).map (-1 * ·)) ds.length (n + p) n
          (ds.map fun d => List.replicate n true ++ d.act)

/-- The pass of the loop in `DpN._compute_netwon_step` (newton.py 573-591) for one point with the Hessian `Hess` of
the indicator. -/
def dpnRow (solve : List (List K) → List K → List K) (n p : ℕ) (Hess : List (List K)) (d : NewtonPoint K) :
    Option (List K) :=
  if p = 0 then scatter (List.replicate n true) ((solve Hess d.grad).map (-1 * ·))
  else scatter (List.replicate n true ++ d.act)
    ((solve (bordered n (addRows Hess (activeHess n d)) (select d.act d.dH))
      (activeLagrange d.toPointData ++ select d.act d.cstr)).map (-1 * ·))

/-- `DpN._compute_netwon_step` (newton.py 559-592). -/
def dpnStep (solve : List (List K) → List K → List K) (n p : ℕ) (Hess : List (List (List K)))
    (ds : List (NewtonPoint K)) : Option (List (List K)) :=
  (Hess.zip ds).mapM fun q => dpnRow solve n p q.1 q.2

end Verif.Opt
