import Verif.Moea.MoeadSetup
import Mathlib.Algebra.Order.Field.Basic

/-!
# Runs of the evolutionary algorithms (scripts/run_EA_save_population.py, benchmark_EA.py)

The algorithm of pymoo is a state with a step (`next`), the question for more (`has_next`), the counter `n_gen` and the population.
Copies and the conversion of a population to a table are left out: a saved table is the number of the iteration with the
population. Exceptions are `Except.error`.
-/

namespace Verif.Scripts

/-- The loop of `minimize` (run_EA_save_population.py 60-68). The first argument bounds the number of turns; `none`: not ended
within them. `nGenMax` is the global variable `n_gen` (line 26). -/
def saveLoop {S P : Type*} (step : S → S) (hasNext : S → Bool) (nGen : S → ℕ) (pop : S → P) (nGenMax : ℕ) :
    ℕ → S → List (ℕ × P) → Option (List (ℕ × P))
  | 0, s, data => if hasNext s then none else some data
  | t + 1, s, data =>
    if hasNext s then
      saveLoop step hasNext nGen pop nGenMax t (step s)
        (if nGen (step s) - 1 + 5 ≥ nGenMax then data ++ [(nGen (step s) - 1, pop (step s))] else data)
    else some data

/-- `minimize` (run_EA_save_population.py 31-76): `pd.concat` raises for an empty list. -/
def minimizeSave {S P : Type*} (step : S → S) (hasNext : S → Bool) (nGen : S → ℕ) (pop : S → P) (nGenMax fuel : ℕ) (s : S) :
    Option (Except String (List (ℕ × P))) :=
  (saveLoop step hasNext nGen pop nGenMax fuel s []).map fun data =>
    if data.isEmpty then .error "No objects to concatenate" else .ok data

/-- MOEA/D within `minimize`: `none` is the algorithm before its first call of `next`, which evaluates the initial population and
sets the counter to 2 (moead.py 19-26). The termination is the number `n` of generations. A call of `next` that does not end
within `fuel` turns is taken to change nothing. -/
def moeadNext (size n fuel : ℕ) : Option Moea.Loopwise → Option Moea.Loopwise
  | none => some ⟨2, 0, decide (n < 2)⟩
  | some s => some ((Moea.next (Moea.Loopwise.step size fun g => decide (n < g)) (fun s => !s.done) Moea.Loopwise.gen fuel s).getD s)

/-- `has_next` of MOEA/D. -/
def moeadHasNext : Option Moea.Loopwise → Bool
  | none => true
  | some s => !s.done

/-- `n_gen` of MOEA/D; not set before the first call of `next`. -/
def moeadGen : Option Moea.Loopwise → ℕ
  | none => 0
  | some s => s.gen

/-- The number of generations of the comparison (benchmark_EA.py 164-167 and 190-193): `scale` and `gen_func` with the integer
parts of exact quotients. -/
def generationBudget (jacCalls popSize : ℕ) : ℕ := 9 * (3215 * (jacCalls / popSize / 9) / 1000)

variable {K : Type*}

/-- The end of `minimize` (benchmark_EA.py 112-120): the row with IGD, GD, hypervolume and time. NaN is `none`, each
indicator may be NaN (if the objective values are). Without a result
`hv_value` is unbound in line 120. -/
def resultRow (igd gd hv : List (List K) → Option K) (time : K) : Option (List (List K)) → Except String (List (Option K))
  | none => .error "hv_value"
  | some F => .ok [igd F, gd F, hv F, some time]

/-- All runs, and the removal of the rows with NaN (benchmark_EA.py 205-219). -/
def collectRows (igd gd hv : List (List K) → Option K) (time : K) (results : List (Option (List (List K)))) :
    Except String (List (List (Option K))) :=
  (results.mapM (resultRow igd gd hv time)).map fun rows => rows.filter fun r => r.all Option.isSome

/-- `reference_points` (benchmark_EA.py 49-63). -/
def referencePoints : List (String × List ℕ) :=
  [("ZDT1", [11, 11]), ("ZDT2", [11, 11]), ("ZDT3", [11, 11]), ("ZDT4", [11, 11]), ("ZDT6", [11, 11]), ("DTLZ1", [2, 2, 2]),
    ("DTLZ2", [2, 2, 2]), ("DTLZ3", [2, 2, 2]), ("DTLZ4", [2, 2, 2]), ("DTLZ5", [2, 2, 2]), ("DTLZ6", [2, 2, 2]),
    ("DTLZ7", [2, 2, 10]), ("CONV4_2F", [2, 2, 2, 10])]

/-- `get_reference_point` (benchmark_EA.py 156-157); `none` is the `KeyError`. -/
def getReferencePoint (name : String) : Option (List ℕ) := referencePoints.lookup name

end Verif.Scripts
