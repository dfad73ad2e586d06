import Mathlib.Data.Int.Basic
import Mathlib.Data.List.Dedup
import Mathlib.Data.List.Sort

/-!
# Reading reference sets and populations (scripts/utils.py 23-108)

`none` stands for an exception. Files are modelled by their contents; tables are lists of rows.
-/

namespace Verif.Scripts

variable {K : Type*}

/-- The files of one run (scripts/utils.py 38-81). `ref i` and `eta i` are `none` if the file of component `i` cannot be
read; an entry `none` of a direction is NaN. The other files have to exist. -/
structure RunFiles (K : Type*) where
  /-- the first row of `component_id` -/
  refLabel : List ℤ
  ref : ℕ → Option (List (List K))
  eta : ℕ → Option (List (Option K))
  /-- `lastpopu_x` -/
  x : List (List K)
  /-- `lastpopu_y` -/
  y : List (List K)
  /-- `lastpopu_labels` -/
  label : List ℤ

/-- The dictionaries `ref` and `eta` in the order of insertion, `eta = none` is `None`. -/
structure Loading (K : Type*) where
  ref : List (ℕ × List (List K))
  eta : Option (List (ℕ × List (Option K)))

/-- The body of the loop over the components (scripts/utils.py 45-70). `sample` is `random.sample(_, 3000)`. The bare
`except` of the file of `eta` also catches the `TypeError` of `eta[i] = ...` after `eta = None`; in the handler
`eta[i - 1]` raises again, as it does for a missing key. -/
def loadStep (sample : List (List K) → List (List K)) (f : RunFiles K) (st : Loading K) (i : ℕ) : Option (Loading K) :=
  match f.ref i with
  | none => some st
  | some r =>
    let ref := st.ref ++ [(i, if 3000 ≤ r.length then sample r else r)]
    match st.eta with
    | none => if 0 < i then none else some { ref := ref, eta := none }
    | some e =>
      match f.eta i with
      | some v => some { ref := ref, eta := some (e ++ [(i, v)]) }
      | none =>
        if 0 < i then (e.lookup (i - 1)).map fun v => { ref := ref, eta := some (e ++ [(i, v)]) }
        else some { ref := ref, eta := none }

/-- What is returned (scripts/utils.py 108). -/
structure RefData (K : Type*) where
  ref : List (ℕ × List (List K))
  x : List (List K)
  y : List (List K)
  yIndex : List (List ℕ)
  eta : Option (List (ℕ × List (Option K)))

/-- `np.unique` of labels. -/
def uniqueLabels (l : List ℤ) : List ℤ := l.dedup.insertionSort (· ≤ ·)

/-- `[np.nonzero(Y_label == i)[0] for i in np.unique(Y_label)]` (scripts/utils.py 107). -/
def indexOfLabels (l : List ℤ) : List (List ℕ) :=
  (uniqueLabels l).map fun u => (List.range l.length).filter fun j => l[j]? = some u

/-- The rows whose label is neither -2 nor -1 after the shift (scripts/utils.py 82-87). -/
def keepRows {α : Type*} (label : List ℤ) (rows : List α) : List α :=
  ((label.zip rows).filter fun p => p.1 - 1 ≠ -2 ∧ p.1 - 1 ≠ -1).map Prod.snd

/-- The labels that are kept, starting at 0 (scripts/utils.py 82-87). -/
def keepLabels (label : List ℤ) : List ℤ := (label.map (· - 1)).filter fun a => a ≠ -2 ∧ a ≠ -1

/-- The end of the function (scripts/utils.py 89-108): the components are merged if there are too few of them or if one
is too small. -/
def finish (ref : List (ℕ × List (List K))) (x y : List (List K)) (lab : List ℤ)
    (eta : Option (List (ℕ × List (Option K)))) : Option (RefData K) :=
  (ref.map fun c => c.2.length).min?.bind fun minRef =>
    ((uniqueLabels lab).map fun u => lab.count u).max?.bind fun maxPart =>
      if ref.length < (uniqueLabels lab).length ∨ minRef < maxPart then
        let all := (ref.map Prod.snd).flatten
        if ∀ r ∈ all, r.length = (all.headD []).length then
          let merged := [(0, all)]
          let lab := List.replicate y.length (0 : ℤ)
          if all.length < y.length then
            let n := merged.length
            some { ref := merged, x := x.take n, y := y.take n, yIndex := indexOfLabels (lab.take n), eta := none }
          else some { ref := merged, x := x, y := y, yIndex := indexOfLabels lab, eta := none }
        else none
      else some { ref := ref, x := x, y := y, yIndex := indexOfLabels lab, eta := eta }

/-- `read_reference_set_data` (scripts/utils.py 23-108, NaN in a direction 72-74). The branch of `11 < 2` (46) is never taken. A boolean index of the
wrong length (85-87) raises. -/
def readReferenceSet (sample : List (List K) → List (List K)) (f : RunFiles K) : Option (RefData K) :=
  ((List.range (uniqueLabels f.refLabel).length).foldlM (loadStep sample f) { ref := [], eta := some [] }).bind fun st =>
    let eta := st.eta.bind fun e => if ∃ p ∈ e, none ∈ p.2.map (Option.map fun _ => ()) then none else some e
    if f.label.length = f.x.length ∧ f.label.length = f.y.length then
      finish st.ref (keepRows f.label f.x) (keepRows f.label f.y) (keepLabels f.label) eta
    else none

end Verif.Scripts
