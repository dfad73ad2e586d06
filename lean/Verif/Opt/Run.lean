import Mathlib.Logic.Function.Iterate
import Mathlib.Data.List.Basic
import Mathlib.Tactic.Ring

/-!
# The loops of the optimizers

Models of `run`, `terminate` and `log` of `HVN`, `DpN` (hvd/newton.py), `MMDNewton` (hvd/mmd_newton.py) and `Lara`
(hvd/gradient_based.py). What an iteration does with the population is a parameter.
-/

namespace Verif.Opt

inductive Optimizer
  | hvn | dpn | mmd | lara
deriving DecidableEq

/-- What the loops depend on: `σ` is everything an iteration reads and changes apart from the counters and
histories. `ind s` is the indicator value computed at the beginning of an iteration from `s`, `resNorm s` the norm of
the residual (for `Lara` of the step) computed in it. -/
structure Body (σ α β ι ρ μ : Type*) where
  iterate : σ → σ
  x : σ → α
  y : σ → β
  ind : σ → ι
  resNorm : σ → ρ
  metrics : List (String × (β → μ))

/-- The attributes that the loops use. `stop` is `stop_dict["iter_count"]`; `none` if the dictionary is empty. -/
structure RunState (σ α β ι ρ μ : Type*) where
  pop : σ
  iterCount : ℕ
  stop : Option ℕ
  currInd : Option ι
  currR : Option ρ
  histX : List α
  histY : List β
  histInd : List (Option ι)
  histR : List (Option ρ)
  histMetrics : List (String × List μ)

variable {σ α β ι ρ μ : Type*}

/-- The attribute `max_iters` (newton.py 75, 404, mmd_newton.py 111, gradient_based.py 38): the argument is `None`
(the default value is infinity) or a number; `none` is infinity. -/
def maxIters (N : ℕ) : Option (Option ℕ) → Option ℕ
  | none => some (N * 10)
  | some m => m

/-- The attributes after the constructor. -/
def initRun (s : σ) (b : Body σ α β ι ρ μ) : RunState σ α β ι ρ μ :=
  { pop := s, iterCount := 0, stop := none, currInd := none, currR := none, histX := [], histY := [],
    histInd := [], histR := [], histMetrics := b.metrics.map fun m => (m.1, []) }

/-- `iterate` / `newton_iteration` / `iteration` (newton.py 151-192, 494-506, mmd_newton.py 183-196,
gradient_based.py 96-106): only `MMDNewton` increments the counter here, and `Lara` does not compute an indicator. -/
def iterateOnce (o : Optimizer) (b : Body σ α β ι ρ μ) (r : RunState σ α β ι ρ μ) : RunState σ α β ι ρ μ :=
  { r with
    pop := b.iterate r.pop
    currInd := if o = .lara then r.currInd else some (b.ind r.pop)
    currR := some (b.resNorm r.pop)
    iterCount := if o = .mmd then r.iterCount + 1 else r.iterCount }

/-- `log` (newton.py 194-209, 508-523, mmd_newton.py 198-212, gradient_based.py 108-121). The dictionary of the
metrics is a list here; it gets its keys in the first call. -/
def logOnce (o : Optimizer) (b : Body σ α β ι ρ μ) (r : RunState σ α β ι ρ μ) : RunState σ α β ι ρ μ :=
  { r with
    iterCount := if o = .mmd then r.iterCount else r.iterCount + 1
    histX := r.histX ++ [b.x r.pop]
    histY := r.histY ++ [b.y r.pop]
    histInd := if o = .lara then r.histInd else r.histInd ++ [r.currInd]
    histR := r.histR ++ [r.currR]
    histMetrics := List.zipWith (fun h m => (h.1, h.2 ++ [m.2 (b.y r.pop)])) r.histMetrics b.metrics }

/-- `terminate` (newton.py 210-214, 525-528, mmd_newton.py 214-217, gradient_based.py 123-127). The stop dictionary is
filled nowhere else. -/
def terminate (m : Option ℕ) (r : RunState σ α β ι ρ μ) : RunState σ α β ι ρ μ × Bool :=
  let r := if m.any (fun m => decide (m ≤ r.iterCount)) then { r with stop := some r.iterCount } else r
  (r, r.stop.isSome)

/-- `run` (newton.py 145-149, 488-492, mmd_newton.py 177-181, gradient_based.py 90-94), with at most `fuel`
evaluations of the loop condition; `none` if that is not enough. -/
def runLoop (o : Optimizer) (m : Option ℕ) (b : Body σ α β ι ρ μ) :
    ℕ → RunState σ α β ι ρ μ → Option (RunState σ α β ι ρ μ)
  | 0, _ => none
  | fuel + 1, r =>
    let t := terminate m r
    if t.2 then some t.1 else runLoop o m b fuel (logOnce o b (iterateOnce o b t.1))

/-- The values returned by `run`. -/
def runResult (b : Body σ α β ι ρ μ) (r : RunState σ α β ι ρ μ) : α × β × Option ℕ := (b.x r.pop, b.y r.pop, r.stop)

end Verif.Opt
