import Mathlib.Algebra.Order.Ring.Defs
import Mathlib.Algebra.Order.Ring.Int
import Mathlib.Data.List.Sort
import Mathlib.Algebra.Order.Field.Basic

/-!
# Model of `hvd/hypervolume.py`

Fonseca/Paquete/Lopez-Ibanez dimension sweep ("variant 3") on doubly linked multi-lists.

* A node is a natural number: `0` is the sentinel, node `k + 1` carries `relevantPoints[k]`.
* `cargo` is read only after `preProcess`, so it is a parameter `c : node → coordinate → K`.
* Everything that the Python code mutates is in the record `ML`.
* Reading `cargo` of the sentinel is `None[...]`, a `TypeError` in Python; it is `none` here.
* `while` loops that are not bounded by a counter take fuel; running out of fuel is `none`.
* Numbers are any ordered type with the operations that are used. For the theorems it is a linearly ordered ring (floats
  are exact numbers), or numbers whose operations round (`HV/Round`).
-/

namespace Verif.HV

variable {K : Type*}

/-- The mutable part of `MultiList` with its nodes (hypervolume.py 166-196: `Node.next`, `Node.prev`,
`Node.ignore`, `Node.area`, `Node.volume`) together with the list `bounds` that `hvRecursive`
passes around by reference (hypervolume.py 58). -/
structure ML (K : Type*) where
  next : ℕ → ℕ → ℕ
  prev : ℕ → ℕ → ℕ
  ignore : ℕ → ℕ
  area : ℕ → ℕ → K
  volume : ℕ → ℕ → K
  bounds : ℕ → K

/-- Assignment to one cell of a two-dimensional array (`x[a][b] = v`). -/
def set2 {α : Type*} (f : ℕ → ℕ → α) (a b : ℕ) (v : α) : ℕ → ℕ → α :=
  fun x y => if x = a ∧ y = b then v else f x y

/-- Assignment to one cell of an array. -/
def set1 {α : Type*} (f : ℕ → α) (a : ℕ) (v : α) : ℕ → α :=
  fun x => if x = a then v else f x

section
variable [Zero K] [One K] [Add K] [Sub K] [Neg K] [Mul K] [NatCast K] [LinearOrder K]

/-- `if bounds[i] > node.cargo[i]: bounds[i] = node.cargo[i]` (hypervolume.py 252-253, 266-267). -/
def lowerBound (c : ℕ → ℕ → K) (node i : ℕ) (b : ℕ → K) : ℕ → K :=
  if b i > c node i then set1 b i (c node i) else b

/-- Body of the loop of `MultiList.remove` for one list index (hypervolume.py 248-253). -/
def removeAt (c : ℕ → ℕ → K) (node i : ℕ) (s : ML K) : ML K :=
  let predecessor := s.prev node i
  let successor := s.next node i
  { s with
    next := set2 s.next predecessor i successor
    prev := set2 s.prev successor i predecessor
    bounds := lowerBound c node i s.bounds }

/-- `MultiList.remove` (hypervolume.py 245-254). -/
def remove (c : ℕ → ℕ → K) (node index : ℕ) (s : ML K) : ML K :=
  (List.range index).foldl (fun s i => removeAt c node i s) s

/-- Body of the loop of `MultiList.reinsert` for one list index (hypervolume.py 264-267). -/
def reinsertAt (c : ℕ → ℕ → K) (node i : ℕ) (s : ML K) : ML K :=
  let nx := set2 s.next (s.prev node i) i node
  { s with
    next := nx
    prev := set2 s.prev (nx node i) i node
    bounds := lowerBound c node i s.bounds }

/-- `MultiList.reinsert` (hypervolume.py 256-267). -/
def reinsert (c : ℕ → ℕ → K) (node index : ℕ) (s : ML K) : ML K :=
  (List.range index).foldl (fun s i => reinsertAt c node i s) s

/-- The loop that clears stale ignore marks (hypervolume.py 97-100). -/
def resetLoop (d : ℕ) : (fuel : ℕ) → (q : ℕ) → ML K → Option (ML K)
  | fuel, q, s =>
    if q = 0 then some s
    else match fuel with
      | 0 => none
      | fuel + 1 =>
        resetLoop d fuel (s.prev q d)
          (if s.ignore q < d then { s with ignore := set1 s.ignore q 0 } else s)

/-- Result of the removal loop: `length`, `p`, `q` and the state. -/
structure RemOut (K : Type*) where
  len : ℕ
  p : ℕ
  q : ℕ
  st : ML K

/-- The removal loop (hypervolume.py 102-108). `length` decreases in every round. -/
def removeLoop (c : ℕ → ℕ → K) (d : ℕ) : (len : ℕ) → (p q : ℕ) → ML K → Option (RemOut K)
  | 0, p, q, s => some ⟨0, p, q, s⟩
  | 1, p, q, s => some ⟨1, p, q, s⟩
  | len + 2, p, q, s =>
    if q = 0 then none
    else if c q d > s.bounds d then
      removeLoop c d (len + 1) q (s.prev q d) (remove c q d s)
    else if s.prev q d = 0 then none
    else if c (s.prev q d) d ≥ s.bounds d then
      removeLoop c d (len + 1) q (s.prev q d) (remove c q d s)
    else some ⟨len + 2, p, q, s⟩

/-- `qArea[0] = 1; qArea[1 : dimIndex + 1] = [qArea[i] * -qCargo[i] for i in range(dimIndex)]`
(hypervolume.py 117-118). The right-hand side is built completely before the slice is assigned, so
it reads the *old* entries of `qArea` (only entry 0 is new). -/
def initArea (c : ℕ → ℕ → K) (d q : ℕ) (s : ML K) : ML K :=
  let a0 : ℕ → ℕ → K := set2 s.area q 0 1
  { s with area := fun x y => if x = q ∧ 1 ≤ y ∧ y ≤ d then a0 q (y - 1) * -(c q (y - 1)) else a0 x y }

/-- Filling in `area[dimIndex]` of node `q` (hypervolume.py 120-125 and 135-140). `rec` is
`hvRecursive(dimIndex - 1, length, bounds)`. -/
def visit (rec : ℕ → ML K → Option (K × ML K)) (d len q : ℕ) (s : ML K) : Option (ML K) :=
  if s.ignore q ≥ d then
    some { s with area := set2 s.area q d (s.area (s.prev q d) d) }
  else
    match rec len s with
    | none => none
    | some (a, s) =>
      let s := { s with area := set2 s.area q d a }
      if s.area q d ≤ s.area (s.prev q d) d then some { s with ignore := set1 s.ignore q d }
      else some s

/-- The reinsertion sweep and the final line (hypervolume.py 126-142). -/
def sweepLoop (c : ℕ → ℕ → K) (rec : ℕ → ML K → Option (K × ML K)) (d : ℕ) :
    (fuel : ℕ) → (hvol : K) → (len p q : ℕ) → ML K → Option (K × ML K)
  | fuel, hvol, len, p, q, s =>
    if p = 0 then some (hvol - s.area q d * c q d, s)
    else match fuel with
      | 0 => none
      | fuel + 1 =>
        let hvol := hvol + s.area q d * (c p d - c q d)
        let s := { s with bounds := set1 s.bounds d (c p d) }
        let s := reinsert c p d s
        let len := len + 1
        let q := p
        let p := s.next p d
        let s := { s with volume := set2 s.volume q d hvol }
        match visit rec d len q s with
        | none => none
        | some s => sweepLoop c rec d fuel hvol len p q s

/-- The general branch of `hvRecursive`, `dimIndex ≥ 2` (hypervolume.py 91-142). -/
def level (c : ℕ → ℕ → K) (fuel : ℕ) (rec : ℕ → ML K → Option (K × ML K)) (d len : ℕ) (s : ML K) :
    Option (K × ML K) :=
  match resetLoop d fuel (s.prev 0 d) s with
  | none => none
  | some s =>
    match removeLoop c d len 0 (s.prev 0 d) s with
    | none => none
    | some ⟨len, p, q, s⟩ =>
      if q = 0 then none
      else
        let qPrev := s.prev q d
        if len > 1 then
          if qPrev = 0 then none
          else
            let hvol := s.volume qPrev d + s.area qPrev d * (c q d - c qPrev d)
            match visit rec d len q { s with volume := set2 s.volume q d hvol } with
            | none => none
            | some s => sweepLoop c rec d fuel hvol len p q s
        else
          let s := initArea c d q s
          match visit rec d len q { s with volume := set2 s.volume q d 0 } with
          | none => none
          | some s => sweepLoop c rec d fuel 0 len p q s

/-- The loop of the two-dimensional special case (hypervolume.py 82-90). -/
def sweep2 (c : ℕ → ℕ → K) (s : ML K) : (fuel : ℕ) → (hvol h : K) → (q p : ℕ) → Option K
  | fuel, hvol, h, q, p =>
    if p = 0 then some (hvol + h * c q 1)
    else match fuel with
      | 0 => none
      | fuel + 1 =>
        sweep2 c s fuel (hvol + h * (c q 1 - c p 1)) (if c p 0 < h then c p 0 else h) p (s.next p 1)

/-- `HyperVolume.hvRecursive` (hypervolume.py 62-142). -/
def hvRec (c : ℕ → ℕ → K) (fuel : ℕ) : (dimIndex len : ℕ) → ML K → Option (K × ML K)
  | dimIndex, 0, s => match dimIndex with | _ => some (0, s)
  | 0, _ + 1, s => if s.next 0 0 = 0 then none else some (-(c (s.next 0 0) 0), s)
  | 1, _ + 1, s =>
    let q := s.next 0 1
    if q = 0 then none
    else match sweep2 c s fuel 0 (c q 0) q (s.next q 1) with
      | none => none
      | some v => some (v, s)
  | d + 2, len + 1, s => level c fuel (hvRec c fuel (d + 1)) (d + 2) (len + 1) s

/-- `MultiList.extend`, one node (hypervolume.py 238-243; the same as `append`, 225-232). -/
def appendNode (index node : ℕ) (s : ML K) : ML K :=
  let lastButOne := s.prev 0 index
  let nx := set2 s.next node index 0
  let pv := set2 s.prev node index lastButOne
  { s with next := set2 nx lastButOne index node, prev := set2 pv 0 index node }

/-- `MultiList.extend` (hypervolume.py 234-243). -/
def extend (nodes : List ℕ) (index : ℕ) (s : ML K) : ML K :=
  nodes.foldl (fun s node => appendNode index node s) s

/-- `HyperVolume.sortByDimension` (hypervolume.py 154-162) with `argsort` for `np.argsort`. An index
out of range would be an `IndexError`. -/
def sortByDimension (argsort : List K → List ℕ) (c : ℕ → ℕ → K) (nodes : List ℕ) (i : ℕ) :
    Option (List ℕ) :=
  (argsort (nodes.map (fun node => c node i))).mapM (fun j => nodes[j]?)

/-- A fresh `MultiList` (hypervolume.py 175-196): every pointer of the sentinel is the sentinel. The
pointers of fresh nodes are `None` in Python; they are overwritten by `extend` before they are
read, so any value does. `bounds` is `[-1.0e308] * dimensions` (hypervolume.py 58). -/
def freshML : ML K where
  next := fun _ _ => 0
  prev := fun _ _ => 0
  ignore := fun _ => 0
  area := fun _ _ => 0
  volume := fun _ _ => 0
  bounds := fun _ => -((10 ^ 308 : ℕ) : K)

/-- The loop of `preProcess` over the dimensions (hypervolume.py 149-151); `nodes` is re-sorted in
place, so each sort starts from the order left by the previous one. -/
def preLoop (argsort : List K → List ℕ) (c : ℕ → ℕ → K) : List ℕ → List ℕ → ML K → Option (ML K)
  | [], _, s => some s
  | i :: is, nodes, s =>
    match sortByDimension argsort c nodes i with
    | none => none
    | some nodes => preLoop argsort c is nodes (extend nodes i s)

/-- `HyperVolume.preProcess` (hypervolume.py 144-152). -/
def preProcess (argsort : List K → List ℕ) (c : ℕ → ℕ → K) (dimensions n : ℕ) : Option (ML K) :=
  preLoop argsort c (List.range dimensions) ((List.range n).map (· + 1)) freshML

/-- `weaklyDominates` (hypervolume.py 38-42). -/
def weaklyDominates (d : ℕ) (point other : ℕ → K) : Bool :=
  (List.range d).all (fun i => !decide (point i > other i))

/-- The points handed to `preProcess` (hypervolume.py 44-56): those that weakly dominate the
reference point, shifted by it unless all its entries are zero (`any(referencePoint)`). -/
def relevantPoints (d : ℕ) (front : List (ℕ → K)) (ref : ℕ → K) : List (ℕ → K) :=
  let rel := front.filter (fun p => weaklyDominates d p ref)
  if (List.range d).any (fun i => decide (ref i ≠ 0)) then rel.map (fun p i => p i - ref i) else rel

/-- The cargo of the nodes. The sentinel's cargo is `None`; the model never reads it. -/
def cargoOf (pts : List (ℕ → K)) (node i : ℕ) : K :=
  if node = 0 then 0 else (pts.getD (node - 1) (fun _ => 0)) i

/-- `HyperVolume.compute` (hypervolume.py 30-60) for `d = len(ref)` objectives. A point is a function
of the coordinate index of which only the first `d` values are read. With no objectives at all
(`d = 0`) Python fails with an `IndexError`. -/
def compute (argsort : List K → List ℕ) (d : ℕ) (front : List (ℕ → K)) (ref : ℕ → K) : Option K :=
  match d with
  | 0 => none
  | d + 1 =>
    let pts := relevantPoints (d + 1) front ref
    let c := cargoOf pts
    match preProcess argsort c (d + 1) pts.length with
    | none => none
    | some s =>
      match hvRec c pts.length d pts.length s with
      | none => none
      | some (v, _) => some v

/-- `hypervolume` (hypervolume.py 6-11). -/
def hypervolume (argsort : List K → List ℕ) (d : ℕ) (pointset : List (ℕ → K)) (ref : ℕ → K) :
    Option K :=
  compute argsort d pointset ref

end

/-- The contract assumed of `np.argsort`: the result is a permutation of the positions along which
the values do not decrease. Ties may be broken in any way (NumPy's default sort is not stable). -/
def IsArgsort [LinearOrder K] (argsort : List K → List ℕ) : Prop :=
  ∀ l : List K, (argsort l).Perm (List.range l.length) ∧
    (argsort l).Pairwise (fun a b => ∀ x y, l[a]? = some x → l[b]? = some y → x ≤ y)

/-- A concrete stable `argsort` (insertion sort, which is what NumPy uses for short arrays). It is
used to evaluate the model on examples. -/
def stableArgsort [LinearOrder K] (l : List K) : List ℕ :=
  ((l.zipIdx).insertionSort (fun a b => a.1 ≤ b.1)).map Prod.snd

end Verif.HV
