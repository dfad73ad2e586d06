import Verif.Opt.BoxStep
import Verif.Opt.Partition
import Verif.Opt.State

/-!
# Model of `Lara` as a whole (hvd/gradient_based.py)

The pieces are those of `State`, `Partition` and `BoxStep`. `none` is an exception or a NaN. The log messages and the
histories are left out (for the latter see `Run`).
-/

namespace Verif.Opt

variable {K : Type*} [Field K] [LinearOrder K]

/-- The arguments of the constructor (lines 15-41) and the functions of NumPy and SciPy: `dist` for `cdist`, `norm` for
`np.linalg.norm`. `eps` is computed in line 41 and has no effect. -/
structure Lara (K : Type*) where
  nVar : ℕ
  nObj : ℕ
  func : Callback K
  jac : Callback K
  xl : List K
  xu : List K
  eps : K
  dist : List K → List K → K
  norm : List K → K

namespace Lara

variable (a : Lara K)

/-- `State(self.dim, 0, 0, func, jac)` (line 34). -/
def funcs : Funcs K where
  nVar := a.nVar
  nEq := 0
  nIeq := 0
  func := a.func
  jac := a.jac
  h := none
  hJac := none
  hHess := none
  g := none
  gJac := none
  gHess := none

/-- The gradients `v[k]` for `k < n_obj` of `v = state.J[i]` (lines 132-134). -/
def gradients (J : List K) : List (List K) :=
  (List.range a.nObj).map fun k => (List.range a.nVar).map fun v => J.getD (k * a.nVar + v) 0

/-- `_check_points_uniqueness` (lines 153-171). -/
def check (s : State K) : Option (State K) :=
  s.getItem (keptIdx s.X.length a.eps fun i j =>
    a.dist ((a.funcs.primal s.X).getD i []) ((a.funcs.primal s.X).getD j []))

/-- `iteration` (lines 96-106). -/
def iterate (s : State K) : Option (State K) :=
  (a.check s).bind fun s =>
  s.J.bind fun J =>
  (laraIteration a.norm a.xl a.xu (a.funcs.primal s.X) (J.map a.gradients)).bind fun X =>
    a.funcs.update s X true true

/-- `run` (lines 90-94) for `n` iterations. -/
def run : ℕ → State K → Option (State K)
  | 0, s => some s
  | n + 1, s => (a.iterate s).bind (run n)

/-- `_initialize` (lines 43-60) with a given `X0`; the block under `if 11 < 2` is never executed. `np.clip` raises if the
shapes do not fit. -/
def start (X0 : List (List K)) : Option (State K) :=
  if X0.all fun x => x.length = a.nVar ∧ a.xl.length = a.nVar ∧ a.xu.length = a.nVar then
    a.funcs.update State.init
      (X0.map fun x => (x.zip (a.xl.zip a.xu)).map fun q => min (max q.1 q.2.1) q.2.2) true true
  else none

end Lara

end Verif.Opt
