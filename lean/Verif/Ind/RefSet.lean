import Mathlib.Algebra.BigOperators.Group.List.Basic
import Mathlib.Algebra.Module.Defs
import Mathlib.Data.List.GetD
import Mathlib.Order.Basic

/-!
# The clustered reference set (hvd/reference_set.py)

Rows of arrays are elements of a type `P` of points, arrays are lists of rows. `none` stands for an
exception; the partial updates of the object before an exception are not modelled. The dictionaries with the
keys `0, ..., n - 1` are lists.
-/

namespace Verif.Ind

variable {P K : Type*}

/-- The object `ReferenceSet` (reference_set.py 11-38). `matched = none` stands for the absence of the
attribute `_matched_medoids`; the entries of `medoidsIdx` are `None` before they are set (62). The flag `plot`
is left out. -/
structure RefSet (P : Type*) where
  /-- `_ref`: the components -/
  ref : List (List P)
  /-- `eta`: the directions of the components -/
  eta : List P
  /-- `Y_idx`: the indices of the clusters of the approximation set -/
  yIdx : Option (List (List ℕ))
  /-- `re_match` -/
  reMatch : Bool
  /-- `_medoids` -/
  medoids : List (Option (List P))
  /-- `_medoids_idx` -/
  medoidsIdx : List (Option (ℕ × ℕ))
  /-- `_matched_medoids` -/
  matched : Option (List P)

/-- The library functions: the Euclidean distance (as in `cdist`), `directed_hausdorff(_, _)[0]`,
`linear_sum_assignment` as the list of the pairs of a row and a column in the order of the rows, and the
indices `KMedoids(n_clusters=k, ...).fit(_).medoid_indices_`. -/
structure MatchEnv (P K : Type*) where
  dist : P → P → K
  hausdorff : List P → List P → K
  assign : List (List K) → List (ℕ × ℕ)
  kmedoids : List P → ℕ → Option (List ℕ)

/-- The constructor (reference_set.py 28-37) with given directions. -/
def RefSet.new (ref : List (List P)) (eta : List P) (yIdx : Option (List (List ℕ))) : RefSet P :=
  { ref := ref, eta := eta, yIdx := yIdx, reMatch := true, medoids := ref.map fun _ => none,
    medoidsIdx := [], matched := none }

/-- The property `reference_set` (reference_set.py 44-50). -/
def RefSet.referenceSet (S : RefSet P) : List P := S.matched.getD S.ref.flatten

/-- `A[idx]`, an `IndexError` if an index is too large. -/
def gather {α : Type*} (A : List α) (idx : List ℕ) : Option (List α) := idx.mapM (A[·]?)

/-- `A[idx] = V`: an `IndexError` if an index is too large and a `ValueError` if the lengths differ (numpy
would repeat a single row; the lengths agree wherever it is called). -/
def scatter {α : Type*} : List α → List ℕ → List α → Option (List α)
  | A, [], [] => some A
  | A, i :: idx, v :: V => if i < A.length then scatter (A.set i v) idx V else none
  | _, _, _ => none

section Partition

variable [LinearOrder K]

/-- `cdist(C, Y).min(axis=0)` at one point (reference_set.py 128), a `ValueError` if there are no rows. -/
def minDist (dist : P → P → K) (C : List P) (y : P) : Option K := (C.map fun r => dist r y).min?

/-- The label of a point (reference_set.py 128-129): the first closest component. -/
def label (dist : P → P → K) (ref : List (List P)) (y : P) : Option ℕ :=
  (ref.mapM fun C => minDist dist C y).bind fun D => D.min?.map fun v => D.idxOf v

/-- `_partition_Y` (reference_set.py 107-133): the new `Y_idx` and the parts of `Y`. -/
def RefSet.partition (env : MatchEnv P K) (S : RefSet P) (Y : List P) :
    Option (List (List ℕ) × List (List P)) :=
  if S.ref.length = 1 then some ([List.range Y.length], [Y])
  else
    (match S.yIdx with
      | some c => some c
      | none => (Y.mapM (label env.dist S.ref)).map fun labels =>
          (List.range S.ref.length).map fun i =>
            (List.range Y.length).filter fun j => labels[j]? = some i).bind fun c =>
      (c.mapM (gather Y)).map fun parts => (c, parts)

end Partition

/-- `_match_components` (reference_set.py 135-146): the part assigned to the component 0, 1, ... For an empty
part the distances in its column are infinite and `linear_sum_assignment` raises a `ValueError`. -/
def RefSet.matchComponents (env : MatchEnv P K) (S : RefSet P) (parts : List (List P)) : Option (List ℕ) :=
  if S.ref.length < parts.length then none
  else if S.ref.length = 1 ∧ parts.length = 1 then some [0]
  else if parts.any List.isEmpty then none
  else some ((env.assign (S.ref.map fun C => parts.map fun Y => env.hausdorff C Y)).map Prod.snd)

/-- `_cluster` (reference_set.py 148-160). -/
def cluster (env : MatchEnv P K) (C : List P) (k : ℕ) : Option (List P) :=
  if C.length = k then some C else (env.kmedoids C k).bind (gather C)

/-- `_match` (reference_set.py 162-165). -/
def matchPoints (env : MatchEnv P K) (X Y : List P) : Option (List P) :=
  gather X ((env.assign (Y.map fun y => X.map fun x => env.dist y x)).map Prod.snd)

/-- The variables of the loop in `match`: `out`, `_medoids_idx` and `_medoids`. -/
structure MatchState (P : Type*) where
  out : List P
  idx : List (Option (ℕ × ℕ))
  medoids : List (Option (List P))

/-- The medoids before the pairing (reference_set.py 66-70): the stored ones if there are as many as points,
otherwise new ones. -/
def chooseMedoids (env : MatchEnv P K) (C : List P) (stored : Option (List P)) (k : ℕ) : Option (List P) :=
  match stored with
  | some md => if md.length = k then some md else cluster env C k
  | none => cluster env C k

/-- The body of the loop in `match` (reference_set.py 63-75) for the pair `(k, v)`. -/
def RefSet.matchStep (env : MatchEnv P K) (S : RefSet P) (classes : List (List ℕ)) (parts : List (List P))
    (st : MatchState P) (kv : ℕ × ℕ) : Option (MatchState P) :=
  parts[kv.2]?.bind fun Y =>
    S.ref[kv.1]?.bind fun C =>
      if C.length < Y.length then none
      else
        (chooseMedoids env C (st.medoids.getD kv.1 none) Y.length).bind fun md0 =>
          (matchPoints env md0 Y).bind fun md =>
            classes[kv.2]?.bind fun rows =>
              (scatter st.out rows md).bind fun out =>
                (scatter st.idx rows ((List.range rows.length).map fun i => some (kv.1, i))).map fun idx =>
                  { out := out, idx := idx, medoids := st.medoids.set kv.1 (some md) }

/-- `match` (reference_set.py 52-78), without the plot. -/
def RefSet.match [LinearOrder K] [Zero P] (env : MatchEnv P K) (S : RefSet P) (Y : List P) :
    Option (RefSet P) :=
  if !S.reMatch ∧ S.matched.isSome then some S
  else
    (S.partition env Y).bind fun cp =>
      (S.matchComponents env cp.2).bind fun idx =>
        let N := (cp.2.map List.length).sum
        (((List.range idx.length).zip idx).foldlM (S.matchStep env cp.1 cp.2)
          { out := List.replicate N 0, idx := List.replicate N none, medoids := S.medoids }).map fun st =>
          { S with yIdx := some cp.1, medoids := st.medoids, medoidsIdx := st.idx, matched := some st.out }

/-- `set_medoids` (reference_set.py 102-105). -/
def RefSet.setMedoids (S : RefSet P) (medoid : P) (k : ℕ) : Option (RefSet P) :=
  S.medoidsIdx[k]?.bind fun e => e.bind fun ci =>
    (S.medoids.getD ci.1 none).bind fun md =>
      if ci.2 < md.length then some { S with medoids := S.medoids.set ci.1 (some (md.set ci.2 medoid)) }
      else none

/-- One turn of the loop in `shift` (reference_set.py 93-97) on the array `_matched_medoids`. -/
def RefSet.shiftOne [Add P] [SMul K P] (c : K) (S : RefSet P) (k : ℕ) : Option (RefSet P) :=
  S.matched.bind fun md =>
    S.medoidsIdx[k]?.bind fun e => e.bind fun ci =>
      S.eta[ci.1]?.bind fun dir =>
        md[k]?.bind fun p =>
          { S with matched := some (md.set k (p + c • dir)) }.setMedoids (p + c • dir) k

/-- `shift` (reference_set.py 80-100). Negative indices are not modelled. -/
def RefSet.shift [Add P] [SMul K P] (c : K) (indices : Option (List ℕ)) (S : RefSet P) : Option (RefSet P) :=
  match S.matched with
  | some md => (indices.getD (List.range md.length)).foldlM (RefSet.shiftOne c) S
  | none =>
    if S.eta.length < S.ref.length then none
    else some { S with ref := List.zipWith (fun C dir => C.map fun r => r + c • dir) S.ref S.eta }

/-- The part of an indicator with matching that matters here (delta_p.py 118-144, mmd.py `MMDMatching`): its
reference set and its own attribute `re_match`. -/
structure MatchingIndicator (P : Type*) where
  ref : RefSet P
  reMatch : Bool

/-- `self.ref.match(Y)` in `compute` and `compute_derivatives` (delta_p.py 183, 222; mmd.py 347, 393). -/
def MatchingIndicator.evaluate [LinearOrder K] [Zero P] (env : MatchEnv P K) (I : MatchingIndicator P)
    (Y : List P) : Option (MatchingIndicator P) :=
  (I.ref.match env Y).map fun S => { I with ref := S }

/-- A trial evaluation during the line search (newton.py 624-626, mmd_newton.py 304-306 and 340-343): the
indicator afterwards; the reference points used are those of its reference set. -/
def MatchingIndicator.trial [LinearOrder K] [Zero P] (env : MatchEnv P K) (I : MatchingIndicator P)
    (Y : List P) : Option (MatchingIndicator P) :=
  (MatchingIndicator.evaluate env { I with reMatch := false } Y).map fun I => { I with reMatch := true }

end Verif.Ind
