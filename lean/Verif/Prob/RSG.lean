import Verif.Prob.ZDT
import Mathlib.Data.List.Sort
import Mathlib.Data.List.Dedup
import Mathlib.Algebra.Order.Floor.Ring
import Mathlib.Data.Sign.Basic

/-!
# The reference set generator (hvd/rsg.py)

* Points are vectors of `d + 1` reals; `none` is an exception.
* The labels of `DBSCAN(...).fit(Py)` and the two sorts by the first column (`np.argsort` in `interpolate_tst`, with
  `kind="mergesort"` in `RSG`) are parameters.
-/

namespace Verif.Prob

variable {d : ℕ}

/-- `np.linalg.norm(b - a)`. -/
noncomputable def segLen (a b : Fin (d + 1) → ℝ) : ℝ := Real.sqrt (∑ j, (b j - a j) ^ 2)

/-- `_matlab_round` and `int` (lines 6-7, 97): half away from zero. -/
noncomputable def matlabRound (x : ℝ) : ℤ := (SignType.sign x : ℤ) * ⌊|x| + 0.5⌋

/-- The rows of `P` after the first one that differ from the row before (lines 43-45). -/
noncomputable def dropRepeats (prev : Fin (d + 1) → ℝ) : List (Fin (d + 1) → ℝ) → List (Fin (d + 1) → ℝ)
  | [] => []
  | b :: l => if b = prev then dropRepeats b l else b :: dropRepeats b l

/-- `P[keep]` (lines 43-45). -/
noncomputable def keepRows : List (Fin (d + 1) → ℝ) → List (Fin (d + 1) → ℝ)
  | [] => []
  | a :: l => a :: dropRepeats a l

/-- `s` (lines 50-53), starting from `acc`. -/
noncomputable def cumLen (acc : ℝ) : List (Fin (d + 1) → ℝ) → List ℝ
  | [] => []
  | [_] => [acc]
  | a :: b :: l => acc :: cumLen (acc + segLen a b) (b :: l)

/-- `np.interp(t, s, f)` for the pairs of `s` and `f`: constant before the first and after the last node, linear in
between; no nodes are a `ValueError`, which does not happen here. -/
noncomputable def interp (t : ℝ) : List (ℝ × ℝ) → ℝ
  | [] => 0
  | [n] => n.2
  | n :: m :: l =>
    if t < n.1 then n.2
    else if t < m.1 then (m.2 - n.2) / (m.1 - n.1) * (t - n.1) + n.2
    else interp t (m :: l)

/-- `interpolate_tst` (lines 35-64), for a number of points that is not negative. With no points wanted, `I[0, :]`
raises `IndexError`. -/
noncomputable def interpolateTst (sort : List (Fin (d + 1) → ℝ) → List (Fin (d + 1) → ℝ))
    (X : List (Fin (d + 1) → ℝ)) (Nf : ℕ) : Option (List (Fin (d + 1) → ℝ)) :=
  match keepRows (sort X) with
  | [] => some []
  | [a] => some (List.replicate Nf a)
  | a :: b :: l =>
    let P := a :: b :: l
    let s := cumLen 0 P
    let L := s.getLastD 0
    if L = 0 then some (List.replicate Nf a)
    else if Nf = 0 then none
    else
      let I := (linspace 0 L Nf).map fun (t : ℝ) => fun j => interp t (s.zip (P.map fun q => q j))
      some ((I.set 0 a).set (Nf - 1) (P.getLastD a))

/-- `ComponentDetection` (lines 10-32): the points of every label but `-1`, in the order of the labels. -/
def components (labels : List ℤ) (Py : List (Fin (d + 1) → ℝ)) : List (List (Fin (d + 1) → ℝ)) :=
  ((labels.filter (· ≠ -1)).dedup.insertionSort (· ≤ ·)).map fun k =>
    ((Py.zip labels).filter fun q => q.2 = k).map Prod.fst

/-- The length of a component (lines 83-91): the sum of the distances of neighbours after sorting. -/
noncomputable def pathLen : List (Fin (d + 1) → ℝ) → ℝ
  | [] => 0
  | [_] => 0
  | a :: b :: l => segLen a b + pathLen (b :: l)

/-- The second loop (lines 95-99), with the lengths of the components. -/
noncomputable def fillAll (sort : List (Fin (d + 1) → ℝ) → List (Fin (d + 1) → ℝ)) (Nf : ℕ) (total : ℝ) :
    List (List (Fin (d + 1) → ℝ) × ℝ) → Option (List (List (Fin (d + 1) → ℝ)))
  | [] => some []
  | (X, len) :: l =>
    (interpolateTst sort X (matlabRound (Nf * len / total)).toNat).bind fun I =>
      (fillAll sort Nf total l).map fun Is => I :: Is

/-- `RSG` (lines 68-113). Only for two objectives `Fy` is assigned; if the total length is zero, the number of points
is NaN and `int` raises `ValueError`. -/
noncomputable def rsg (labels : List (Fin (d + 1) → ℝ) → List ℤ)
    (mergesort sort : List (Fin (d + 1) → ℝ) → List (Fin (d + 1) → ℝ)) (Py : List (Fin (d + 1) → ℝ)) (Nf : ℕ) :
    Option (List (Fin (d + 1) → ℝ)) :=
  if d + 1 ≠ 2 then none
  else
    let C := components (labels Py) Py
    let len := C.map fun X => pathLen (mergesort X)
    if C ≠ [] ∧ len.sum = 0 then none
    else (fillAll sort Nf len.sum (C.zip len)).map fun Is => Is.flatten

end Verif.Prob
