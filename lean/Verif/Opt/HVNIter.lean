import Verif.Opt.Points
import Verif.Opt.Partition
import Verif.Opt.State
import Verif.Opt.BoxStep
import Verif.HVD.Decision

/-!
# Model of `HVN.iterate` as a whole (hvd/newton.py)

The pieces are those of `State`, `Partition`, `BoxStep`, `LineSearch`, `Newton`, `Residual` and of the derivatives of the
hypervolume. `none` is an exception. The log messages are left out.
-/

namespace Verif.Opt

open Verif.Util Verif.HV

variable {K : Type*} [Field K] [LinearOrder K] [Inhabited K]

/-- What an iteration uses besides the state: the Newton step and the residual of a layer (`_compute_netwon_step`,
`_compute_R`), the value of the indicator, the Frobenius norm and the Euclidean distance. -/
structure HvnEnv (K : Type*) where
  p : Funcs K
  xl : List K
  xu : List K
  limit : Bool
  eps : K
  fuel : ℕ
  dist : List K → List K → K
  norm : List (List K) → K
  newton : State K → Option (List (List K) × List (List K))
  residual : State K → Option (List (List K))
  indicator : List (List K) → Option K

/-- `X + a * step` for a number `a` (line 281). -/
def movedBy (X step : List (List K)) (a : K) : List (List K) :=
  List.zipWith (List.zipWith fun x s => x + a * s) X step

/-- `halving` with a merit function that may raise. -/
def halvingM (c1 : K) (phi : K → Option K) (phi0 : K) : ℕ → K → Option K
  | 0, s => some s
  | t + 1, s => (phi s).bind fun v =>
    if Accept c1 phi0 s v then some s else halvingM c1 phi phi0 t (s * (1 / 2))

/-- `A[idx, :] = rows` (lines 184, 185): the shapes have to agree. -/
def assignRows (A : List (List K)) (idx : List ℕ) (rows : List (List K)) : Option (List (List K)) :=
  if idx.length = rows.length ∧ ∀ q ∈ idx.zip rows, (A[q.1]?).any (fun r => decide (r.length = q.2.length)) = true then
    some ((idx.zip rows).foldl (fun A q => A.set q.1 q.2) A)
  else none

namespace HvnEnv

variable (e : HvnEnv K)

/-- `_check_population` (lines 287-303). -/
def check (s : State K) : Option (State K) :=
  s.getItem (keptIdx s.X.length e.eps fun i j =>
    e.dist ((e.p.primal s.X).getD i []) ((e.p.primal s.X).getD j []))

/-- `phi_func` (lines 278-285), on a copy of the layer. -/
def phi (t : State K) (step : List (List K)) (a : K) : Option K :=
  (e.p.update t (movedBy t.X step a) true true).bind fun t' => (e.residual t').map e.norm

/-- The body of the loop over the layers (lines 183-190): the step, the residual and the step size. -/
def layer (s : State K) (idx : List ℕ) : Option (List (List K) × List (List K) × K) :=
  (s.getItem idx).bind fun t =>
  (e.newton t).bind fun sr =>
  (hvnMaxStep e.limit e.xl e.xu (e.p.primal t.X) (sr.1.map (List.take e.p.nVar))).bind fun m =>
  (halvingM (1 / 10 ^ 5) (e.phi t sr.1) (e.norm sr.2) 6 m).map fun a => (sr.1, sr.2, a)

/-- The matrices filled by the loop (lines 178-190). -/
structure Acc (K : Type*) where
  step : List (List K)
  size : List K
  R : List (List K)

/-- One pass of the loop. -/
def pass (s : State K) (acc : Acc K) (idx : List ℕ) : Option (Acc K) :=
  (e.layer s idx).bind fun r =>
  (assignRows acc.step idx r.1).bind fun step =>
  (assignRows acc.R idx r.2.1).map fun R =>
    { step := step, size := idx.foldl (fun l i => l.set i r.2.2) acc.size, R := R }

/-- `iterate` (lines 151-192); the value of the indicator is only computed for the log. -/
def iterate (s : State K) : Option (State K) :=
  (e.check s).bind fun s =>
  (e.indicator s.Y).bind fun _ =>
  (hvnPartitions e.fuel (e.p.isFeasible s) s.Y).bind fun parts =>
  (parts.foldlM (e.pass s) { step := s.X.map fun x => List.replicate x.length 0
                             size := List.replicate s.X.length 1
                             R := s.X.map fun x => List.replicate x.length 0 }).bind fun acc =>
    e.p.update s (List.zipWith (fun x sa => List.zipWith (fun x s => x + s * sa.2) x sa.1) s.X
      (acc.step.zip acc.size)) true true

/-- `iterate` several times, as in `run` (lines 145-149). -/
def run : ℕ → State K → Option (State K)
  | 0, s => some s
  | n + 1, s => (e.iterate s).bind (run n)

end HvnEnv

/-! ### The Newton step of the hypervolume -/

/-- The arguments of the constructor (lines 36-60) and the external functions: `solve` stands for `spsolve` with the
fallback `lstsq`, `precond` for the optional preconditioning (lines 245-246), the identity if it is off. -/
structure Hvn (K : Type*) where
  p : Funcs K
  nObj : ℕ
  ref : List K
  /-- the Hessians of the objectives, of shape `(nObj, nVar, nVar)`, flat -/
  hess : List K → List K
  xl : List K
  xu : List K
  limit : Bool
  eps : K
  fuel : ℕ
  argsort : List K → List ℕ
  dist : List K → List K → K
  norm : List (List K) → K
  solve : List (List K) → List K → List K
  precond : List (List K) → List (List K)

namespace Hvn

variable (a : Hvn K)

/-- The entries of a point. -/
def coords (x : ℕ → K) : List K := (List.range a.p.nVar).map x

/-- `self.indicator` (line 71). -/
def problem : HVD.Problem K where
  nVar := a.p.nVar
  nObj := a.nObj
  ref := pt a.ref
  func := fun x => pt (a.p.func.point (a.coords x))
  jac := fun x k v => pt (a.p.jac.point (a.coords x)) (k * a.p.nVar + v)
  hess := fun x k v w => pt (a.hess (a.coords x)) ((k * a.p.nVar + v) * a.p.nVar + w)
  minimization := true

/-- The argument `YdX=state.J`. -/
def givenJ (J : List (List K)) (i k v : ℕ) : K := pt (J.getD i []) (k * a.p.nVar + v)

/-- `HVdX.reshape(len(X), -1)` (hypervolume_derivatives.py 158). -/
def gradRows (N : ℕ) (g : ℕ → K) : List (List K) :=
  (List.range N).map fun i => (List.range a.p.nVar).map fun v => g (i * a.p.nVar + v)

/-- `_compute_R` (lines 216-239) without a given gradient. -/
def residual (t : State K) : Option (List (List K)) :=
  t.J.bind fun J =>
  (a.problem.computeGradient a.argsort a.fuel ((a.p.primal t.X).map pt) (some (t.Y.map pt))
    (some (a.givenJ J))).bind fun r =>
  (a.p.layerPoints t (a.gradRows t.X.length r.HVdX)).bind fun ds =>
    hvnR a.p.constrained (ds.map NewtonPoint.toPointData)

/-- `_compute_netwon_step` (lines 241-263). -/
def newton (t : State K) : Option (List (List K) × List (List K)) :=
  t.J.bind fun J =>
  (a.problem.computeHessian a.argsort a.fuel ((a.p.primal t.X).map pt) (some (t.Y.map pt))
    (some (a.givenJ J))).bind fun r =>
  (a.p.layerPoints t (a.gradRows t.X.length r.HVdX)).bind fun ds =>
  (hvnR a.p.constrained (ds.map NewtonPoint.toPointData)).bind fun R =>
  (hvnStep a.solve a.p.nVar a.p.nDual
    (a.precond ((List.range (t.X.length * a.p.nVar)).map fun b =>
      (List.range (t.X.length * a.p.nVar)).map fun c => r.HVdX2 b c)) ds).map fun S => (S, R)

/-- `np.clip` with bounds for each coordinate. -/
def clipRow (x : List K) : List K := (x.zip (a.xl.zip a.xu)).map fun q => min (max q.1 q.2.1) q.2.2

/-- `_initialize` (lines 97-114) with a given `X0`: the points are clipped to the box, all multipliers are `1 / N`.
`np.clip` raises if the shapes do not fit; `_max_HV` is not used anywhere and left out. -/
def start (X0 : List (List K)) : Option (State K) :=
  if X0.all fun x => x.length = a.p.nVar ∧ a.xl.length = a.p.nVar ∧ a.xu.length = a.p.nVar then
    a.p.update State.init
      (X0.map fun x => a.clipRow x ++ List.replicate a.p.nDual (1 / (X0.length : K)))
      true true
  else none

/-- The iteration of `HVN`. -/
def env : HvnEnv K where
  p := a.p
  xl := a.xl
  xu := a.xu
  limit := a.limit
  eps := a.eps
  fuel := a.fuel
  dist := a.dist
  norm := a.norm
  newton := a.newton
  residual := a.residual
  indicator := fun Y => a.problem.compute a.argsort [] (some (Y.map pt))

end Hvn

end Verif.Opt
