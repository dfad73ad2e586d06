import Mathlib.Data.Nat.Choose.Basic
import Mathlib.Order.Defs.LinearOrder
import Mathlib.Data.List.Basic

/-!
# Set-up and main loop of MOEA/D (hvd/moea/moead.py 19-41), algorithms of the scripts
-/

namespace Verif.Moea

/-- `neighbors` of `_setup` (moead.py 32-34). `order k` is the result of `np.argsort` on the distances of the direction `k` to
all directions. -/
def neighbours (order : ℕ → List ℕ) (size nNeighbors : ℕ) : List (List ℕ) :=
  (List.range size).map fun k => (order k).take nNeighbors

/-- `next` of an initialised algorithm (moead.py 24-26). `step` is `next` of the base class. The first argument bounds the number
of turns; `none`: not ended within them. -/
def drain {S : Type*} (step : S → S) (hasNext : S → Bool) (nGen : S → ℕ) (g : ℕ) : ℕ → S → Option S
  | 0, s => if hasNext s && nGen s == g then none else some s
  | t + 1, s => if hasNext s && nGen s == g then drain step hasNext nGen g t (step s) else some s

def next {S : Type*} (step : S → S) (hasNext : S → Bool) (nGen : S → ℕ) (fuel : ℕ) (s : S) : Option S :=
  drain step hasNext nGen (nGen s) fuel s

/-- `MOEAD` of pymoo 0.6.1 as a loop over the subproblems: each call of `next` handles one offspring; after the last one of a
generation the counter is increased and the termination is asked. This is external code, modelled as far as `next` needs it. -/
structure Loopwise where
  gen : ℕ
  inner : ℕ
  done : Bool

/-- One call of `MOEAD.next` of pymoo, with `size` subproblems; `stop` tells whether the termination ends after a generation. -/
def Loopwise.step (size : ℕ) (stop : ℕ → Bool) (s : Loopwise) : Loopwise :=
  if s.inner + 1 < size then { s with inner := s.inner + 1 } else ⟨s.gen + 1, 0, stop (s.gen + 1)⟩

/-- The names of the algorithms (scripts/run_EA_save_population.py 87-111, benchmark_EA.py 126-147). -/
inductive AlgorithmName
  | nsga2
  | nsga3
  | moead
  | smsEmoa
  deriving DecidableEq

/-- What `get_algorithm` sets: the population size (for MOEA/D the number of directions), and for the algorithms with reference
directions their number and dimension. -/
structure AlgorithmConfig where
  popSize : ℕ
  directions : Option (ℕ × ℕ)
  deriving DecidableEq

/-- The number of directions of `get_reference_directions` with `p` partitions in `m` dimensions ("das-dennis" and "uniform"). -/
def dirCount (m p : ℕ) : ℕ := (p + m - 1).choose (m - 1)

/-- `random.sample(l, n)` for a list with `len` entries: the number of entries of the result, or the `ValueError`. -/
def sampleCount (len n : ℕ) : Option ℕ := if n ≤ len then some n else none

/-- The population sizes (run_EA_save_population.py 80-85, benchmark_EA.py 178-183); otherwise the variable is unbound. -/
def popSizeOf : ℕ → Option ℕ
  | 2 => some 100
  | 3 => some 300
  | 4 => some 600
  | _ => none

/-- `get_algorithm` of scripts/run_EA_save_population.py (79-117). The wrapper for constraints (114-116) is left out. -/
def getAlgorithmSave (nObj : ℕ) (name : AlgorithmName) : Option AlgorithmConfig :=
  (popSizeOf nObj).bind fun popSize =>
    match name with
    | .nsga2 => some ⟨popSize, none⟩
    | .nsga3 =>
      match nObj with
      | 2 => some ⟨popSize, some (dirCount 2 (popSize - 1), 2)⟩
      | 3 => some ⟨popSize, some (dirCount 3 23, 3)⟩
      | 4 => some ⟨popSize, some (dirCount 4 13, 4)⟩
      | _ => none
    | .moead =>
      match nObj with
      | 2 => some ⟨dirCount 2 99, some (dirCount 2 99, 2)⟩
      | 3 => some ⟨dirCount 3 23, some (dirCount 3 23, 3)⟩
      | 4 => (sampleCount (dirCount 3 14) popSize).map fun c => ⟨c, some (c, 3)⟩
      | _ => none
    | .smsEmoa => some ⟨popSize, none⟩

/-- `get_algorithm` of scripts/benchmark_EA.py (123-153), with the population size of 178-183. -/
def getAlgorithmBench (nObj : ℕ) (name : AlgorithmName) : Option AlgorithmConfig :=
  (popSizeOf nObj).bind fun popSize =>
    match name with
    | .nsga2 => some ⟨popSize, none⟩
    | .nsga3 =>
      match nObj with
      | 2 => some ⟨popSize, some (dirCount 2 (popSize - 20), 2)⟩
      | 3 => some ⟨popSize, some (dirCount 3 20, 3)⟩
      | 4 => some ⟨popSize, some (dirCount 4 13, 4)⟩
      | _ => none
    | .moead =>
      match nObj with
      | 2 => some ⟨dirCount 2 80, some (dirCount 2 80, 2)⟩
      | 3 => some ⟨dirCount 3 23, some (dirCount 3 23, 3)⟩
      | 4 => (sampleCount (dirCount 4 14) popSize).map fun c => ⟨c, some (c, 4)⟩
      | _ => none
    | .smsEmoa => some ⟨popSize, none⟩

end Verif.Moea
