import Verif.Opt.Points
import Verif.Opt.BoxStep
import Verif.Opt.Shift
import Verif.HV.Improvement

/-!
# Model of `DpN.newton_iteration` as a whole (hvd/newton.py)

The pieces are those of `State`, `RefSet`, `Shift`, `Newton`, `Residual`, `BoxStep` and `LineSearch`. Objective vectors
are functions `ℕ → K` in the indicators and lists in the state. `none` is an exception. The log messages are left out.
-/

namespace Verif.Opt

open Verif.Ind Verif.Util Verif.HV

variable {K : Type*} [Field K] [LinearOrder K]

/-- The argument `type` (newton.py 341, 386). -/
inductive DpKind where
  | gd
  | igd
  | deltap
deriving DecidableEq

/-- The arguments of the constructor (newton.py 331-407) and the external functions: `sqrt` and the norm of NumPy, the
interpolation formula of the line search, `solve` for `solve` with the fallback `lstsq`, `precond` for the optional
preconditioning (lines 577-578), the identity if it is off. -/
structure Dpn (K : Type*) where
  p : Funcs K
  nObj : ℕ
  /-- the Hessians of the objectives, of shape `(nObj, nVar, nVar)`, flat -/
  hess : List K → List K
  kind : DpKind
  xl : List K
  xu : List K
  env : MatchEnv (ℕ → K) K
  sqrt : K → K
  norm : List K → K
  cubic : K → K → K → K → Option K
  solve : List (List K) → List K → List K
  precond : List (List K) → List (List K)

/-- The attributes that change. `step` and `R` do not exist before the first iteration, they are not used then; the
same holds for the values of the indicators. -/
structure DpnState (K : Type*) where
  state : State K
  ref : RefSet (ℕ → K)
  gd : K
  igd : K
  iter : ℕ
  step : List (List K)
  R : List (List K)
  hist : ℕ → List (ℕ → K)

/-- The loop with interpolation (newton.py 635-656) with a merit function that may raise and changes other data. -/
def interpolatingM {σ : Type*} (c1 : K) (cubic : K → K → K → K → Option K) (phi : K → σ → Option (K × σ)) (phi0 : K) :
    ℕ → K → K → K → σ → Option (K × σ)
  | 0, _, _, s, w => some (s, w)
  | t + 1, phi2, s2, s, w => (phi s w).bind fun r =>
    if Accept c1 phi0 s r.1 then some (s, r.2)
    else interpolatingM c1 cubic phi phi0 t r.1 s (nextStep cubic phi2 r.1 s2 s) r.2

namespace Dpn

variable (a : Dpn K)

/-- `GenerationalDistance.compute(Y=Y)` (delta_p.py 38-58) for `p = 2`; `argmin` of an empty row raises. -/
def gdValue (S : RefSet (ℕ → K)) (Y : List (ℕ → K)) : Option K :=
  (Y.mapM fun y => (S.referenceSet.map fun r => a.env.dist y r).min?).map fun D =>
    a.sqrt ((D.map (· ^ 2)).sum / (Y.length : K))

/-- `Y - self.ref.reference_set`: the shapes have to agree (the broadcasting of a single row is not modelled). -/
def minusRef (S : RefSet (ℕ → K)) (Y : List (ℕ → K)) : Option (List (ℕ → K)) :=
  if S.referenceSet.length = Y.length then some (List.zipWith (fun y r k => y k - r k) Y S.referenceSet) else none

/-- `InvertedGenerationalDistance.compute(Y=Y)` with matching (delta_p.py 182-184). -/
def igdValue (S : RefSet (ℕ → K)) (Y : List (ℕ → K)) : Option (RefSet (ℕ → K) × K) :=
  (S.match a.env Y).bind fun S' =>
    (minusRef S' Y).map fun D =>
      (S', (D.map fun d => ((List.range a.nObj).map fun k => d k ^ 2).sum).sum / (Y.length : K))

/-- `active_indicator` (newton.py 473-482): whether it is the generational distance. -/
def gdActive (gd igd : K) : Bool :=
  match a.kind with
  | .gd => true
  | .igd => false
  | .deltap => decide (igd < gd)

/-- The closest point of the reference set (delta_p.py 40-41, 88). -/
def closest (S : RefSet (ℕ → K)) (y : ℕ → K) : Option (ℕ → K) :=
  (S.referenceSet.map fun r => a.env.dist y r).min?.bind fun m =>
    S.referenceSet[(S.referenceSet.map fun r => a.env.dist y r).idxOf m]?

/-- `diff` in `compute_derivatives` of the active indicator (delta_p.py 85-88, 221-223) and the reference set
afterwards. -/
def diffs (useGd : Bool) (S : RefSet (ℕ → K)) (Y : List (ℕ → K)) : Option (RefSet (ℕ → K) × List (ℕ → K)) :=
  if useGd then (Y.mapM (a.closest S)).map fun T => (S, List.zipWith (fun y r k => y k - r k) Y T)
  else (S.match a.env Y).bind fun S' => (minusRef S' Y).map fun D => (S', D)

/-- The factor of the derivatives (delta_p.py 81, 212) for `p = 2`: `c1` of the generational distance, `c` of the
inverted one with matching. -/
def factor (useGd : Bool) (N : ℕ) : K := if useGd then 2 / (N : K) else 2

/-- A row of the gradient (delta_p.py 90-91, 229); `diff_norm ** 0` is one. `J` is flat. -/
def gradRow (c : K) (J : List K) (d : ℕ → K) : List K :=
  (List.range a.p.nVar).map fun v => c * ((List.range a.nObj).map fun k => pt J (k * a.p.nVar + v) * d k).sum

/-- An entry of the Hessian (delta_p.py 107-109, 233-235) for `p = 2`. `J` and `H` are flat. -/
def hessRow (c : K) (J H : List K) (d : ℕ → K) : List (List K) :=
  (List.range a.p.nVar).map fun v => (List.range a.p.nVar).map fun w =>
    c * (((List.range a.nObj).map fun k => pt J (k * a.p.nVar + v) * pt J (k * a.p.nVar + w)).sum +
      ((List.range a.nObj).map fun k => pt H ((k * a.p.nVar + v) * a.p.nVar + w) * d k).sum)

/-- `_compute_R(state)[0]` (newton.py 534-557) without a given gradient, and the reference set afterwards. -/
def residual (useGd : Bool) (t : State K) (S : RefSet (ℕ → K)) : Option (RefSet (ℕ → K) × List (List K)) :=
  t.J.bind fun J =>
  (a.diffs useGd S (t.Y.map pt)).bind fun SD =>
  (a.p.layerPoints t (List.zipWith (a.gradRow (factor useGd t.X.length)) J SD.2)).map fun ds =>
    (SD.1, dpnR a.p.constrained (ds.map NewtonPoint.toPointData))

/-- `_compute_netwon_step` (newton.py 559-591): the reference set afterwards, the step and `R`. -/
def newton (useGd : Bool) (t : State K) (S : RefSet (ℕ → K)) :
    Option (RefSet (ℕ → K) × List (List K) × List (List K)) :=
  t.J.bind fun J =>
  (a.diffs useGd S (t.Y.map pt)).bind fun SD =>
  let c := factor useGd t.X.length
  (a.p.layerPoints t (List.zipWith (a.gradRow c) J SD.2)).bind fun ds =>
  (dpnRMatrix a.p.constrained (ds.map NewtonPoint.toPointData)).bind fun R =>
  (dpnStep a.solve a.p.nVar a.p.nDual
    (List.zipWith (fun x Jd => a.precond (a.hessRow c Jd.1 (a.hess x) Jd.2)) (a.p.primal t.X) (J.zip SD.2)) ds).map
    fun st => (SD.1, st, R)

/-- `_handle_box_constraint` (newton.py 660-690): the steps and the maximal step sizes. -/
def box (X step : List (List K)) : List (List K) × List K :=
  let b := List.zipWith (fun x r => dpnBox a.xl a.xu (x.take a.p.nVar) (r.take a.p.nVar)) X step
  (List.zipWith (fun b r => b.1 ++ r.drop a.p.nVar) b step, b.map Prod.snd)

/-- `phi_func` (newton.py 619-628). The reference set is changed by the matching, and the number of Jacobian
evaluations is written back. -/
def phi (useGd : Bool) (step : List (List K)) (i : ℕ) (s : K) (w : State K × RefSet (ℕ → K)) :
    Option (K × State K × RefSet (ℕ → K)) :=
  (a.p.updateOne w.1 (List.zipWith (fun x d => x + s * d) (w.1.X.getD i []) (step.getD i [])) i).bind fun t =>
  (a.residual useGd t w.2).bind fun SR =>
  SR.2[i]?.map fun r => (a.norm r, { w.1 with nJac := t.nJac }, SR.1)

/-- `_backtracking_line_search` (newton.py 611-658) with maximal step sizes. -/
def lineSearch (useGd : Bool) (step R : List (List K)) (sizes : List K) (w : State K × RefSet (ℕ → K)) :
    Option (List K × State K × RefSet (ℕ → K)) :=
  if ∀ r ∈ step, ∀ x ∈ r, IsClose x 0 then some (List.replicate w.1.X.length 1, w)
  else (List.range w.1.X.length).foldlM (fun acc i =>
    (interpolatingM (1 / 10 ^ 4) a.cubic (a.phi useGd step i) (a.norm (R.getD i [])) 8 (a.norm (R.getD i [])) 0
      (sizes.getD i 0) acc.2).map fun r => (acc.1 ++ [r.1], r.2)) ([], w)

/-- `newton_iteration` (newton.py 494-506). `self.N` is the number of points. -/
def iterate (s : DpnState K) : Option (DpnState K) :=
  let Y := s.state.Y.map pt
  (a.gdValue s.ref Y).bind fun g =>
  (a.igdValue s.ref Y).bind fun v =>
  (dpnShift a.env.dist s.iter s.state.X.length Y (s.step.map fun r => a.norm (r.take a.p.nVar)) v.1 s.hist).bind fun sh =>
  (a.newton (a.gdActive g v.2) s.state sh.1).bind fun n =>
  let b := a.box s.state.X n.2.1
  (a.lineSearch (a.gdActive g v.2) b.1 n.2.2 b.2 (s.state, n.1)).bind fun l =>
  (a.p.update l.2.1 (List.zipWith (fun x sd => List.zipWith (fun x d => x + sd.1 * d) x sd.2) s.state.X (l.1.zip b.1))
    true true).map fun t =>
    { state := t, ref := l.2.2, gd := g, igd := v.2, iter := s.iter, step := b.1, R := n.2.2, hist := sh.2 }

/-- `log` (newton.py 508-523): only the counter matters here. -/
def log (s : DpnState K) : DpnState K := { s with iter := s.iter + 1 }

/-- `run` (newton.py 488-492) for `n` further iterations. -/
def run : ℕ → DpnState K → Option (DpnState K)
  | 0, s => some s
  | n + 1, s => (a.iterate s).bind fun s => run n (log s)

/-- `np.clip` with bounds for each coordinate. -/
def clipRow (x : List K) : List K := (x.zip (a.xl.zip a.xu)).map fun q => min (max q.1 q.2.1) q.2.2

/-- `_initialize` (newton.py 423-440) with a given `X0`: the points are clipped to the box, all multipliers are zero.
`np.clip` raises if the shapes do not fit. The values that do not exist yet are zero or empty. -/
def start (S : RefSet (ℕ → K)) (X0 : List (List K)) : Option (DpnState K) :=
  if X0.all fun x => x.length = a.p.nVar ∧ a.xl.length = a.p.nVar ∧ a.xu.length = a.p.nVar then
    (a.p.update State.init (X0.map fun x => a.clipRow x ++ List.replicate a.p.nDual 0) true true).map fun t =>
      { state := t, ref := S, gd := 0, igd := 0, iter := 0, step := [], R := [], hist := fun _ => [] }
  else none

end Dpn

end Verif.Opt
