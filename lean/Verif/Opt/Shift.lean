import Verif.Ind.RefSet
import Verif.Util.LineSearch
import Verif.NDS.NonDominated

/-!
# Shifting the reference set during the iterations, and cleaning it beforehand

`_shift_reference_set` of `DpN` (hvd/newton.py) and `MMDNewton` (hvd/mmd_newton.py),
`preprocess_reference_set` (hvd/utils.py) and `filter_outliers` (hvd/bootstrap.py).
-/

namespace Verif.Opt

open Verif.Ind Verif.Util

variable {P K : Type*} [Field K] [LinearOrder K]

/-- `np.nonzero(masks)[0]`. -/
def nonzero (m : List Bool) : List ℕ := (List.range m.length).filter fun i => m.getD i false

/-- The mask in `DpN._shift_reference_set` (newton.py 598-603); `stepNorm` are the norms of the rows of
`self.step[:, : self.dim_p]`. `none` stands for a `ValueError`; the broadcasting of a single row is not
modelled (the lengths agree after `match`). -/
def dpnShiftMask (dist : P → P → K) (iter N : ℕ) (Y R : List P) (stepNorm : List K) : Option (List Bool) :=
  if iter = 0 then some (List.replicate N true)
  else if Y.length ≠ R.length ∨ stepNorm.length ≠ Y.length then none
  else some (List.zipWith (fun a b => decide (IsClose a 0) && decide (IsClose b 0))
    (List.zipWith dist Y R) stepNorm)

/-- The mask in `MMDNewton._shift_reference_set` (mmd_newton.py 280-285): the distance to the closest of all
reference points. -/
def mmdShiftMask (dist : P → P → K) (iter N : ℕ) (Y R : List P) (stepNorm : List K) : Option (List Bool) :=
  if iter = 0 then some (List.replicate N true)
  else if stepNorm.length ≠ Y.length then none
  else (Y.mapM fun y => (R.map fun r => dist y r).min?).map fun D =>
    List.zipWith (fun a b => decide (IsClose a 0) && decide (IsClose b 0)) D stepNorm

/-- The rest of `_shift_reference_set` (newton.py 604-608, mmd_newton.py 287-290): the reference set and
`history_medoids` afterwards. -/
def shiftMasked [Add P] [SMul K P] (c : K) (mask : List Bool) (S : RefSet P) (hist : ℕ → List P) :
    Option (RefSet P × (ℕ → List P)) :=
  (S.shift c (some (nonzero mask))).bind fun S' =>
    ((nonzero mask).foldlM (fun h k => S'.referenceSet[k]?.map fun r => Function.update h k (h k ++ [r]))
      hist).map fun h => (S', h)

/-- `DpN._shift_reference_set` (newton.py 593-609). -/
def dpnShift [Add P] [SMul K P] (dist : P → P → K) (iter N : ℕ) (Y : List P) (stepNorm : List K) (S : RefSet P)
    (hist : ℕ → List P) : Option (RefSet P × (ℕ → List P)) :=
  (dpnShiftMask dist iter N Y S.referenceSet stepNorm).bind fun m =>
    shiftMasked (if iter = 0 then 8 / 100 else 5 / 100 : K) m S hist

/-- `MMDNewton._shift_reference_set` (mmd_newton.py 275-291). -/
def mmdShift [Add P] [SMul K P] (dist : P → P → K) (iter N : ℕ) (Y : List P) (stepNorm : List K) (S : RefSet P)
    (hist : ℕ → List P) : Option (RefSet P × (ℕ → List P)) :=
  (mmdShiftMask dist iter N Y S.referenceSet stepNorm).bind fun m => shiftMasked (8 / 100 : K) m S hist

/-- `np.isclose(a, b, rtol=1e-3, atol=1e-4)` (utils.py 138); not symmetric. -/
def CloseTo (a b : K) : Prop := |a - b| ≤ 1 / 10 ^ 4 + 1 / 10 ^ 3 * |b|

instance (a b : K) : Decidable (CloseTo a b) := by unfold CloseTo; infer_instance

/-- The indices without close rows (utils.py 132-142). -/
def distinctIdx (X : List (List K)) : List ℕ :=
  (List.range X.length).filter fun i => (List.range X.length).all fun j =>
    j = i || !(List.zipWith (fun a b => decide (CloseTo a b)) (X.getD j []) (X.getD i [])).all id

/-- `X[score != -1]` for the scores of `LocalOutlierFactor(n_neighbors=k).fit_predict(X)`. -/
def dropOutliers {α : Type*} (score : List ℤ) (X : List α) : List α :=
  ((X.zip score).filter fun p => p.2 ≠ -1).map Prod.fst

/-- `preprocess_reference_set` (utils.py 130-147). `lof k X` are the scores of the library, `none` an exception
(no rows). -/
def preprocess (lof : ℕ → List (List K) → Option (List ℤ)) (X : List (List K)) : Option (List (List K)) :=
  let X := if 50 < (distinctIdx X).length then (distinctIdx X).map fun i => X.getD i [] else X
  (lof (max 5 (X.length / 10)) X).map fun s => dropOutliers s X

/-- `filter_outliers` (bootstrap.py 74-84); the scores select the rows with `1`. The disabled branch is left
out. `none` stands for an exception. -/
def filterOutliers {α : Type*} (lof : ℕ → List (List K) → Option (List ℤ)) (X : List α) (Y : List (List K)) :
    Option (List α × List (List K)) :=
  (Verif.NDS.getNonDominated Y).bind fun idx => (gather X idx).bind fun X1 => (gather Y idx).bind fun Y1 =>
    (lof 3 Y1).map fun s =>
      (((X1.zip s).filter fun p => p.2 = 1).map Prod.fst, ((Y1.zip s).filter fun p => p.2 = 1).map Prod.fst)

end Verif.Opt
