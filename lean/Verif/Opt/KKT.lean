import Verif.Opt.State
import Verif.Opt.LP

/-!
# Model of `State.check_KKT` (hvd/base.py, lines 182-258)

The linear-program solver is a parameter. Numbers are exact, so the tests for finiteness (lines 214-215
and 235) always succeed.
-/

namespace Verif.Opt

variable {K : Type*} [Field K] [LinearOrder K]

/-- The result of `linprog` that is used: `success` and `x`. -/
structure LPResult (K : Type*) where
  success : Bool
  x : List K

/-- The exceptions of lines 199-204, and the one of `reshape(-1, 0)` in line 221. -/
inductive KKTError where
  | negativeTolerance
  | noJacobian
  | noConstraintJacobian
  | reshape
deriving DecidableEq

namespace Funcs

variable (p : Funcs K)

/-- The indices of `active_ieq` (line 224); `G` is the row of inequality values. -/
def activeIeq (G : List K) (activeTol : K) : List ℕ :=
  (List.range p.nIeq).filter fun k => decide (G.getD k 0 ≥ -activeTol)

/-- Row `v` of `stationarity_matrix` (lines 221-234): derivatives with respect to variable `v`. -/
def stationarityRow (J D : List K) (nObj : ℕ) (act : List ℕ) (v : ℕ) : List K :=
  ((List.range nObj).map fun j => J.getD (j * p.nVar + v) 0) ++
    ((List.range p.nEq).map fun k => D.getD (k * p.nVar + v) 0) ++
    (act.map fun k => D.getD ((p.nEq + k) * p.nVar + v) 0)

/-- The linear program of lines 221-255 for one row: `J` and `D` are the rows of `self.J` and
`self.cstr_grad` (flat, so the entry `[j, v]` is at `j * n_var + v`). -/
def kktLP (J D : List K) (act : List ℕ) : LP K :=
  let nObj := J.length / p.nVar
  let rows := (List.range p.nVar).map (p.stationarityRow J D nObj act)
  let nMult := nObj + p.nEq + act.length
  { c := List.replicate nMult 0 ++ [1]
    Aub := rows.map (fun r => r ++ [-1]) ++ rows.map (fun r => r.map (- ·) ++ [-1])
    bub := List.replicate (2 * p.nVar) 0
    Aeq := [List.replicate nObj 1 ++ List.replicate (nMult - nObj + 1) 0]
    beq := [1]
    bounds := List.replicate nObj (some 0, none) ++ List.replicate p.nEq (none, none) ++
      List.replicate act.length (some 0, none) ++ [(some 0, none)] }

/-- The body of the loop (lines 208-257) for the row with constraint values `c`. -/
def kktRow (solver : LP K → LPResult K) (stationarityTol feasibilityTol activeTol : K) (J c D : List K) : Bool :=
  let H := c.take p.nEq
  let G := c.drop p.nEq
  if H.any (fun v => decide (feasibilityTol < |v|)) || G.any (fun v => decide (feasibilityTol < v)) then false
  else
    let r := solver (p.kktLP J D (p.activeIeq G activeTol))
    r.success && (match r.x.getLast? with
      | none => false
      | some t => decide (t ≤ stationarityTol))

/-- `check_KKT`. The shape test of line 203 compares the number of constraint gradients per row, here by
the length of the flat rows. -/
def checkKKT (solver : LP K → LPResult K) (s : State K) (stationarityTol feasibilityTol activeTol : K) :
    Except KKTError (List Bool) :=
  if stationarityTol < 0 ∨ feasibilityTol < 0 ∨ activeTol < 0 then .error .negativeTolerance
  else
    match s.J with
    | none => .error .noJacobian
    | some J =>
      if p.nEq + p.nIeq ≠ 0 ∧ s.cstrGrad.any (fun r => r.length ≠ (p.nEq + p.nIeq) * p.nVar) then
        .error .noConstraintJacobian
      else if p.nVar = 0 then .error .reshape
      else .ok ((List.range s.X.length).map fun i =>
        p.kktRow solver stationarityTol feasibilityTol activeTol (J.getD i []) (s.cstrValue.getD i [])
          (s.cstrGrad.getD i []))

end Funcs

end Verif.Opt
