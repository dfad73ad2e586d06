import Verif.Opt.Points
import Verif.Opt.Shift
import Verif.Opt.HVNIter
import Verif.Ind.MMD
import Verif.HV.Improvement

/-!
# Model of `MMDNewton.newton_iteration` as a whole (hvd/mmd_newton.py)

The pieces are those of `State`, `RefSet`, `Shift`, `Newton`, `Residual`, `MMD` and `LineSearch`. The numbers are reals,
as in the model of the indicators. `none` is an exception. The log messages and the metrics are left out.
-/

namespace Verif.Opt

open Verif.Ind Verif.Util Verif.HV

/-- The arguments of the constructor (mmd_newton.py 37-117) and the external functions: `solve` for `solve` with the
fallback `lstsq`, `precond` for the optional preconditioning (lines 253-254), the identity if it is off. The state is
made without the Hessians of the constraints (line 100). -/
structure Mmdn where
  p : Funcs ℝ
  nObj : ℕ
  /-- the Hessians of the objectives, of shape `(nObj, nVar, nVar)`, flat -/
  hess : List ℝ → List ℝ
  matching : Bool
  kernel : Kernel nObj
  xl : List ℝ
  xu : List ℝ
  env : MatchEnv (ℕ → ℝ) ℝ
  solve : List (List ℝ) → List ℝ → List ℝ
  precond : List (List ℝ) → List (List ℝ)

/-- The attributes that change. `step` and `R` do not exist before the first iteration, they are not used then; the
same holds for `value`. -/
structure MmdnState where
  state : State ℝ
  ref : RefSet (ℕ → ℝ)
  value : ℝ
  iter : ℕ
  step : List (List ℝ)
  R : List (List ℝ)
  hist : ℕ → List (ℕ → ℝ)

/-- `np.linalg.norm` of an array: the root of the sum of all squares. -/
noncomputable def frobNorm (R : List (List ℝ)) : ℝ := √(R.flatten.map (· ^ 2)).sum

/-- `np.linalg.norm` of a row. -/
noncomputable def euclNorm (r : List ℝ) : ℝ := √(r.map (· ^ 2)).sum

/-- `np.median` of a flattened array: the mean of the two middle entries of the sorted values; `none` is the NaN of an
empty array. -/
noncomputable def npMedian (l : List ℝ) : Option ℝ :=
  let s := l.mergeSort fun x y => decide (x ≤ y)
  if l = [] then none else some ((s.getD ((l.length - 1) / 2) 0 + s.getD (l.length / 2) 0) / 2)

/-- The loop with halving (mmd_newton.py 314-325) with a merit function that may raise and changes other data. -/
noncomputable def halvingW {σ : Type*} (c1 : ℝ) (phi : ℝ → σ → Option (ℝ × σ)) (phi0 : ℝ) :
    ℕ → ℝ → σ → Option (ℝ × σ)
  | 0, s, w => some (s, w)
  | t + 1, s, w => (phi s w).bind fun r =>
    if Accept c1 phi0 s r.1 then some (s, r.2) else halvingW c1 phi phi0 t (s * (1 / 2)) r.2

namespace Mmdn

variable (a : Mmdn)

/-- The callbacks `func`, `jac` and `hessian` as the indicator gets them (mmd_newton.py 102-106). -/
def objective : Objective a.p.nVar a.nObj where
  func x := fun k => pt (a.p.func.point (List.ofFn x)) k
  jac x := fun k v => pt (a.p.jac.point (List.ofFn x)) (k * a.p.nVar + v)
  hess x := fun k v w => pt (a.hess (List.ofFn x)) ((k * a.p.nVar + v) * a.p.nVar + w)

/-- `N` objective vectors as an array. -/
def rows (N : ℕ) (L : List (ℕ → ℝ)) : Fin N → Fin a.nObj → ℝ := fun i k => L.getD i 0 k

/-- `state.primal` as an array. -/
def decision (t : State ℝ) : Fin t.X.length → Fin a.p.nVar → ℝ := fun i v => pt (t.X.getD i []) v

/-- The argument `jacobian=state.J`: `None` means that it is computed. -/
def givenJ (t : State ℝ) : Option (Fin t.X.length → Fin a.nObj → Fin a.p.nVar → ℝ) :=
  t.J.map fun J i k v => pt (J.getD i []) (k * a.p.nVar + v)

/-- `self.indicator.compute(Y=Y)` (mmd_newton.py 219-220): the reference set afterwards and the value. With matching,
`reference_set[i]` has to exist for all points (mmd.py 350). -/
noncomputable def value (S : RefSet (ℕ → ℝ)) (Y : List (ℕ → ℝ)) : Option (RefSet (ℕ → ℝ) × ℝ) :=
  if a.matching then
    (S.match a.env Y).bind fun S' =>
      if S'.referenceSet.length < Y.length then none
      else (mmdmCompute (1 / 4) a.kernel.k (a.rows Y.length S'.referenceSet) (a.rows Y.length Y)).map fun v => (S', v)
  else (mmdCompute a.kernel.k (a.rows S.referenceSet.length S.referenceSet) (a.rows Y.length Y)).map fun v => (S, v)

/-- `compute_derivatives(..., compute_hessian=False)` (mmd_newton.py 234-236). With matching, `vmap` needs as many
reference points as points (mmd.py 302, 309). -/
noncomputable def gradient (t : State ℝ) (S : RefSet (ℕ → ℝ)) :
    Option (RefSet (ℕ → ℝ) × MMDGradient t.X.length a.p.nVar a.nObj) :=
  let N := t.X.length
  if a.matching then
    (S.match a.env (t.Y.map pt)).bind fun S' =>
      if S'.referenceSet.length = N then
        (mmdmGradient a.objective (1 / 4) a.kernel (a.rows N S'.referenceSet) (a.decision t)
          (some (a.rows N (t.Y.map pt))) (a.givenJ t)).map fun g => (S', g)
      else none
  else (mmdGradient a.objective a.kernel (a.rows S.referenceSet.length S.referenceSet) (a.decision t)
    (some (a.rows N (t.Y.map pt))) (a.givenJ t)).map fun g => (S, g)

/-- `compute_derivatives` with the Hessian (mmd_newton.py 250-252). -/
noncomputable def hessian (t : State ℝ) (S : RefSet (ℕ → ℝ)) :
    Option (RefSet (ℕ → ℝ) × MMDHessian t.X.length a.p.nVar a.nObj) :=
  let N := t.X.length
  if a.matching then
    (S.match a.env (t.Y.map pt)).bind fun S' =>
      if S'.referenceSet.length = N then
        (mmdmHessian a.objective (1 / 4) a.kernel (a.rows N S'.referenceSet) (a.decision t)
          (some (a.rows N (t.Y.map pt))) (a.givenJ t)).map fun g => (S', g)
      else none
  else (mmdHessian a.objective a.kernel (a.rows S.referenceSet.length S.referenceSet) (a.decision t)
    (some (a.rows N (t.Y.map pt))) (a.givenJ t)).map fun g => (S, g)

/-- An array of two dimensions as a list of rows. -/
def tableOf {N n : ℕ} (g : Fin N → Fin n → ℝ) : List (List ℝ) := List.ofFn fun i => List.ofFn (g i)

/-- `_compute_R(state)[0]` (mmd_newton.py 222-247) without a given gradient, and the reference set afterwards. -/
noncomputable def residual (t : State ℝ) (S : RefSet (ℕ → ℝ)) : Option (RefSet (ℕ → ℝ) × List (List ℝ)) :=
  (a.gradient t S).bind fun g =>
  (a.p.layerPoints t (tableOf g.2.dX)).bind fun ds =>
  (mmdR a.p.constrained (ds.map NewtonPoint.toPointData)).map fun R => (g.1, R)

/-- `_compute_netwon_step` (mmd_newton.py 249-273): the reference set afterwards, the step and `R`. -/
noncomputable def newton (t : State ℝ) (S : RefSet (ℕ → ℝ)) :
    Option (RefSet (ℕ → ℝ) × List (List ℝ) × List (List ℝ)) :=
  (a.hessian t S).bind fun g =>
  (a.p.layerPoints t (tableOf g.2.dX)).bind fun ds =>
  (mmdR a.p.constrained (ds.map NewtonPoint.toPointData)).bind fun R =>
  (mmdStep a.solve a.p.nVar a.p.nDual (a.precond (tableOf g.2.dX2)) ds).map fun st => (g.1, st, R)

/-- `phi_func` (mmd_newton.py 301-307). The copy of the state is discarded; the matching of the reference set is not, as
setting `re_match` of the indicator has no effect on it. -/
noncomputable def phi (t : State ℝ) (step : List (List ℝ)) (s : ℝ) (S : RefSet (ℕ → ℝ)) : Option (ℝ × RefSet (ℕ → ℝ)) :=
  (a.p.update t (movedBy t.X step s) true true).bind fun t' =>
  (a.residual t' S).map fun SR => (frobNorm SR.2, SR.1)

/-- The condition to skip the line search (mmd_newton.py 298): `np.isclose` of the median of all entries of the primal
part of the step and `np.finfo(np.double).resolution`. -/
def Skips (step : List (List ℝ)) : Prop :=
  ∃ m, npMedian (step.flatMap fun r => r.take a.p.nVar) = some m ∧ IsClose m (1 / 10 ^ 15)

open Classical in
/-- `_backtracking_line_search_global` (mmd_newton.py 293-327) after `_handle_box_constraint`, which returns the step
and ones (lines 378-379; the rest of that function is not reachable). -/
noncomputable def lineSearch (t : State ℝ) (step R : List (List ℝ)) (S : RefSet (ℕ → ℝ)) :
    Option (ℝ × RefSet (ℕ → ℝ)) :=
  if a.Skips step then some (1, S)
  else halvingW (1 / 10 ^ 6) (a.phi t step) (frobNorm R) 6 1 S

/-- `newton_iteration` (mmd_newton.py 181-194). `self.N` is the number of points. -/
noncomputable def iterate (s : MmdnState) : Option MmdnState :=
  let Y := s.state.Y.map pt
  (a.value s.ref Y).bind fun v =>
  (mmdShift a.env.dist s.iter s.state.X.length Y (s.step.map fun r => euclNorm (r.take a.p.nVar)) v.1 s.hist).bind fun sh =>
  (a.newton s.state sh.1).bind fun n =>
  (a.lineSearch s.state n.2.1 n.2.2 n.1).bind fun l =>
  (a.p.update s.state (movedBy s.state.X n.2.1 l.1) true true).map fun t =>
    { state := t, ref := l.2, value := v.2, iter := s.iter + 1, step := n.2.1, R := n.2.2, hist := sh.2 }

/-- `run` (mmd_newton.py 175-179) for `n` further iterations; `terminate` (214-217) only counts the iterations. -/
noncomputable def run : ℕ → MmdnState → Option MmdnState
  | 0, s => some s
  | n + 1, s => (a.iterate s).bind (run n)

/-- `np.clip` with bounds for each coordinate. -/
noncomputable def clipRow (x : List ℝ) : List ℝ := (x.zip (a.xl.zip a.xu)).map fun q => min (max q.1 q.2.1) q.2.2

/-- `_initialize` (mmd_newton.py 133-150) with a given `X0`: the points are clipped to the box, all multipliers are
zero. `np.clip` raises if the shapes do not fit. The values that do not exist yet are zero or empty. -/
noncomputable def start (S : RefSet (ℕ → ℝ)) (X0 : List (List ℝ)) : Option MmdnState :=
  if X0.all fun x => x.length = a.p.nVar ∧ a.xl.length = a.p.nVar ∧ a.xu.length = a.p.nVar then
    (a.p.update State.init (X0.map fun x => a.clipRow x ++ List.replicate a.p.nDual 0) true true).map fun t =>
      { state := t, ref := S, value := 0, iter := 0, step := [], R := [], hist := fun _ => [] }
  else none

end Mmdn

end Verif.Opt
