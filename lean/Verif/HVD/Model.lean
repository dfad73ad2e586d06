import Verif.HV.Improvement
import Verif.NDS.Model

/-!
# Model of `HypervolumeDerivatives` (hvd/hypervolume_derivatives.py 27-403), objective space

A point is a function `ℕ → K` whose first `d` values count (as in `Verif.HV.Model`), a matrix of
points is a list of them, a result matrix is a list of rows. `argsort` is `np.argsort` (inside the
hypervolume routine) and `fuel` the recursion limit of the non-dominated sorting. `none` is any
exception.
-/

namespace Verif.HVD

open Verif.HV Verif.NDS

variable {K : Type*} [Field K] [LinearOrder K]

/-- `np.delete(p, obj=k)`. -/
def dropAt {K : Type*} (k : ℕ) (p : ℕ → K) : ℕ → K := fun j => if j < k then p j else p (j + 1)

/-- `np.insert(p, k, 0)`. -/
def insertAt {K : Type*} [Zero K] (k : ℕ) (p : ℕ → K) : ℕ → K := fun j =>
  if j < k then p j else if j = k then 0 else p (j - 1)

/-- `a[idx]` for an array of positions; the positions used below are always valid. -/
def sel {α : Type*} (a : List α) (idx : List ℕ) : List α := idx.filterMap (fun i => a[i]?)

/-- The objective vectors as tuples, as handed to `non_domin_sort`. -/
def row (d : ℕ) (p : ℕ → K) : List K := (List.range d).map p

/-- Positions of the non-dominated points: `np.argmin` with one objective, otherwise front 0 of
`non_domin_sort` (lines 106-109, 241-245, 289-292). -/
def front0 (fuel d : ℕ) (P : List (ℕ → K)) : Option (List ℕ) :=
  if d = 1 then
    let v := P.map (fun p => p 0)
    match v.min? with
    | none => none
    | some m => some [v.idxOf m]
  else
    have : Inhabited K := ⟨0⟩
    match nonDominSort fuel (P.map (row d)) with
    | none => none
    | some fronts => (fronts.find? (fun g => g.1 = 0)).map Prod.snd

/-- The result of `_project`. -/
structure Projection (K : Type*) where
  /-- the projected point -/
  y : ℕ → K
  /-- the projected front -/
  front : List (ℕ → K)
  /-- the projected reference point -/
  ref : ℕ → K
  /-- positions of the points of the front in the unprojected front -/
  idx : List ℕ

/-- `_project` (lines 276-297) for points with `d` objectives. -/
def project (fuel d axis i : ℕ) (P : List (ℕ → K)) (ref : ℕ → K) : Option (Projection K) :=
  match P[i]? with
  | none => none
  | some y =>
    let idx := (List.range P.length).filter (fun j => P[j]?.any (fun p => p axis < y axis))
    let front := (sel P idx).map (dropAt axis)
    if front = [] then some ⟨dropAt axis y, [], dropAt axis ref, []⟩
    else
      match front0 fuel (d - 1) front with
      | none => none
      | some pi => some ⟨dropAt axis y, sel front pi, dropAt axis ref, sel idx pi⟩

/-- Order of the points in the 2-D case (lines 353-359): `idx1` sorts by the first objective
(ascending, equal values in reverse order), then a stable sort by the second one, descending.
`np.unique(..., return_inverse=True)` replaces values by ranks, which does not change a sort. -/
def order2 (P : List (ℕ → K)) : List ℕ :=
  let le0 : (ℕ → K) × ℕ → (ℕ → K) × ℕ → Prop := fun a b => b.1 0 ≤ a.1 0
  let le1 : (ℕ → K) × ℕ → (ℕ → K) × ℕ → Prop := fun a b => b.1 1 ≤ a.1 1
  let idx1 := (P.zipIdx.insertionSort le0).reverse
  (idx1.insertionSort le1).map Prod.snd

/-- The 2-D case of `hypervolume_dY` (lines 352-365). -/
def hypervolumeDY2 (P : List (ℕ → K)) (ref : ℕ → K) : List (ℕ → K) :=
  let idx := order2 P
  let s := sel P idx
  let y1 := s.map (fun p => p 0)
  let y2 := s.map (fun p => p 1)
  let v0 := List.zipWith (fun a b => a - b) y2 (ref 1 :: y2)
  let v1 := List.zipWith (fun a b => a - b) y1 (y1.tail ++ [ref 0])
  (List.range P.length).map fun i => pt [v0.getD (idx.idxOf i) 0, v1.getD (idx.idxOf i) 0]

/-- One entry in the higher dimensional case (lines 370-372). -/
def dYEntry (argsort : List K → List ℕ) (fuel d : ℕ) (P : List (ℕ → K)) (ref : ℕ → K) (i k : ℕ) :
    Option K :=
  match project fuel d k i P ref with
  | none => none
  | some pr => (hypervolumeImprovement argsort (d - 1) pr.y pr.front pr.ref).map (fun v => -1 * v)

/-- `hypervolume_dY` (lines 337-373) for `d` objectives. With one objective the result is `[[-1]]`
whatever the number of points. -/
def hypervolumeDY (argsort : List K → List ℕ) (fuel d : ℕ) (P : List (ℕ → K)) (ref : ℕ → K) :
    Option (List (ℕ → K)) :=
  if d = 1 then some [pt [-1]]
  else if d = 2 then some (hypervolumeDY2 P ref)
  else (List.range P.length).mapM fun i =>
    ((List.range d).mapM fun k => dYEntry argsort fuel d P ref i k).map pt

/-- `HVdY` of `_compute_gradient` (lines 192-196): zero rows, and the gradient of the non-dominated
subset in the others. -/
def gradientY (argsort : List K → List ℕ) (fuel d : ℕ) (Y : List (ℕ → K)) (ref : ℕ → K) :
    Option (List (ℕ → K)) :=
  match front0 fuel d Y with
  | none => none
  | some nd =>
    match hypervolumeDY argsort fuel d (sel Y nd) ref with
    | none => none
    | some g => some ((List.range Y.length).map fun i =>
        if i ∈ nd then g.getD (nd.idxOf i) (fun _ => 0) else fun _ => 0)

/-- `np.clip(a, lo, hi)`. -/
def clip (lo hi a : ℕ → K) : ℕ → K := fun j => min (max (a j) (lo j)) (hi j)

/-- `∂(∂HV/∂y_k^i)/∂y^i` (lines 238-251). If the projected point is not in front 0 the selection is
empty: `np.insert` then puts a zero at position 0 of an empty array, which is broadcast to the whole
column, and raises an `IndexError` for every other position. -/
def ownBlock (argsort : List K → List ℕ) (fuel d k : ℕ) (pr : Projection K) : Option (ℕ → K) :=
  let Y' := pr.y :: pr.front
  match front0 fuel (d - 1) Y' with
  | none => none
  | some pi =>
    match hypervolumeDY argsort fuel (d - 1) (sel Y' pi) pr.ref with
    | none => none
    | some g =>
      if 0 ∈ pi then some (insertAt k (fun j => -1 * g.getD (pi.idxOf 0) (fun _ => 0) j))
      else if k = 0 then some (fun _ => 0)
      else none

/-- `∂(∂HV/∂y_k^i)/∂y^j` for the points of the projected front (lines 252-260). With an empty
front and two objectives `hypervolume_dY` still returns one row; it is not used (the loop in line
261 runs over the front, and `out[idx] = 0` with an empty mask is accepted by NumPy). -/
def crossBlock (argsort : List K → List ℕ) (fuel d k : ℕ) (pr : Projection K) :
    Option (List (ℕ → K)) :=
  match hypervolumeDY argsort fuel (d - 1) (pr.front.map (clip pr.y pr.ref)) pr.ref with
  | none => none
  | some out => some ((List.range pr.front.length).map fun s =>
      insertAt k (fun m => if pr.front.getD s (fun _ => 0) m < pr.y m then 0
        else out.getD s (fun _ => 0) m))

/-- Column `(i, k)` of `HVdY2` (lines 232-263): entry `j m` is `∂(∂HV/∂y_k^i)/∂y_m^j`. The rows of
the front are written after the own row; `i` itself is never in `pr.idx`. -/
def hessianColumn (argsort : List K → List ℕ) (fuel d : ℕ) (Y : List (ℕ → K)) (ref : ℕ → K)
    (nd : List ℕ) (i k : ℕ) : Option (ℕ → ℕ → K) :=
  if i ∉ nd then some (fun _ _ => 0)
  else
    match project fuel d k i Y ref with
    | none => none
    | some pr =>
      match ownBlock argsort fuel d k pr with
      | none => none
      | some own =>
        match crossBlock argsort fuel d k pr with
        | none => none
        | some cross => some fun j =>
            if j ∈ pr.idx then cross.getD (pr.idx.idxOf j) (fun _ => 0)
            else if j = i then own else fun _ => 0

/-- `HVdY2` of `_compute_hessian` (lines 231-263): the columns, for every point `i` and objective
`k`; `HVdY2[j * n_obj + m, i * n_obj + k]` is entry `m` of entry `j` of column `(i, k)`. -/
def hessianY (argsort : List K → List ℕ) (fuel d : ℕ) (Y : List (ℕ → K)) (ref : ℕ → K) :
    Option (List (List (ℕ → ℕ → K))) :=
  match front0 fuel d Y with
  | none => none
  | some nd => (List.range Y.length).mapM fun i =>
      (List.range d).mapM fun k => hessianColumn argsort fuel d Y ref nd i k

end Verif.HVD
