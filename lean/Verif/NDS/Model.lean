import Mathlib.Order.Defs.LinearOrder
import Mathlib.Data.List.Sort
import Mathlib.Data.List.Dedup
import Mathlib.Logic.Function.Basic

/-!
# Model of the non-dominated sorting in `hvd/utils.py` (lines 303-752)

* `o i m` is `seq_objs_front[i]["objs"][m]`; it is never changed. `f i` is
  `seq_objs_front[i]["front"]`, the only thing that is changed, so it is passed along.
* The recursive procedures take fuel: the number of nested calls that are still allowed (Python's
  recursion limit). Running out of it is `none`.
* Python sets of indices are lists here; they are only filtered, tested and maximised over.
* Values are elements of a linear order (Python floats without NaN).
-/

namespace Verif.NDS

variable {K : Type*} [LinearOrder K]

/-- The loop of `is_dominate` (utils.py 318-327); `less` is `is_one_value_less`. -/
def domLoop : List K → List K → Bool → Bool
  | a :: as, b :: bs, less =>
    if a < b then domLoop as bs true
    else if a > b then false
    else domLoop as bs less
  | _, _, less => less

/-- `is_dominate` (utils.py 303-327); `none` is the failed length assertion. -/
def isDominate (leftv rightv : List K) : Option Bool :=
  if leftv.length = rightv.length then some (domLoop leftv rightv false) else none

/-- `_is_seq_has_one_uniq_value` (utils.py 330-366); `none` is the `ValueError`. -/
def oneUniqValue : List K → Option Bool
  | [] => none
  | a :: l => some (l.all (fun b => decide (b = a)))

/-- `_merge` (utils.py 369-406). The Python code writes the merged sequence into a preallocated
list; here the sequence is built. -/
def mergeIdx : List ℕ → List ℕ → List ℕ
  | [], l2 => l2
  | l1, [] => l1
  | a :: l1, b :: l2 => if a < b then a :: mergeIdx l1 (b :: l2) else b :: mergeIdx (a :: l1) l2

/-- `_split_by` (utils.py 409-442): indices with a smaller, equal, greater value. -/
def splitBy (o : ℕ → ℕ → K) (indices : List ℕ) (v : K) (m : ℕ) : List ℕ × List ℕ × List ℕ :=
  (indices.filter (fun i => o i m < v),
   indices.filter (fun i => ¬ o i m < v ∧ ¬ v < o i m),
   indices.filter (fun i => v < o i m))

/-- `statistics.median_low`; `none` is the `StatisticsError` on empty data. -/
def medianLow (l : List K) : Option K :=
  (l.insertionSort (· ≤ ·))[(l.length - 1) / 2]?

/-- `seq[i]["front"] = max(seq[i]["front"], v)`. -/
def raise (f : ℕ → ℕ) (i v : ℕ) : ℕ → ℕ := Function.update f i (max (f i) v)

/-- `if cand: seq[i]["front"] = max(seq[i]["front"], max(front of cand) + 1)`
(utils.py 468-470, 531-533). -/
def raiseOver (f : ℕ → ℕ) (i : ℕ) (cand : List ℕ) : ℕ → ℕ :=
  match (cand.map f).max? with
  | none => f
  | some m => raise f i (m + 1)

/-- The loop of `_sweep_a` (utils.py 463-475); `init` is `init_ind`. -/
def sweepALoop (o : ℕ → ℕ → K) : List ℕ → List ℕ → (ℕ → ℕ) → (ℕ → ℕ)
  | _, [], f => f
  | init, i :: rest, f =>
    let f := raiseOver f i (init.filter (fun x => o x 1 ≤ o i 1))
    sweepALoop o (i :: init.filter (fun x => f x ≠ f i)) rest f

/-- `_sweep_a` (utils.py 445-475); `none` is the `IndexError` of `indices[0]`. -/
def sweepA (o : ℕ → ℕ → K) (indices : List ℕ) (f : ℕ → ℕ) : Option (ℕ → ℕ) :=
  match indices with
  | [] => none
  | i :: rest => some (sweepALoop o [i] rest f)

/-- Comparison of the first two objectives as Python tuples (utils.py 509). -/
def lex2 (o : ℕ → ℕ → K) (i j : ℕ) : Prop := o i 0 < o j 0 ∨ (o i 0 = o j 0 ∧ o i 1 ≤ o j 1)

instance (o : ℕ → ℕ → K) (i j : ℕ) : Decidable (lex2 o i j) := inferInstanceAs (Decidable (_ ∨ _))

/-- The inner `while` of `_sweep_b` (utils.py 506-526): returns `init_ind` and the rest of
`comp_indices`. -/
def absorb (o : ℕ → ℕ → K) (f : ℕ → ℕ) (j : ℕ) : List ℕ → List ℕ → List ℕ × List ℕ
  | init, [] => (init, [])
  | init, i :: comp =>
    if lex2 o i j then
      if init.any (fun x => f x = f i ∧ o x 1 < o i 1) then absorb o f j init comp
      else absorb o f j (i :: init.filter (fun x => f x ≠ f i)) comp
    else (init, i :: comp)

/-- `_sweep_b` (utils.py 478-533) from the loop over `assign_indices` on. -/
def sweepB (o : ℕ → ℕ → K) : List ℕ → List ℕ → List ℕ → (ℕ → ℕ) → (ℕ → ℕ)
  | _, _, [], f => f
  | init, comp, j :: assign, f =>
    let r := absorb o f j init comp
    sweepB o r.1 r.2 assign (raiseOver f j (r.1.filter (fun x => o x 1 ≤ o j 1)))

/-- The first `k` objectives. -/
def slice (o : ℕ → ℕ → K) (k i : ℕ) : List K := (List.range k).map (o i)

/-- One step of the pairwise branch (utils.py 619-624). -/
def pairStep (o : ℕ → ℕ → K) (k i : ℕ) (f : ℕ → ℕ) (j : ℕ) : ℕ → ℕ :=
  if isDominate (slice o k j) (slice o k i) = some true ∨ slice o k j = slice o k i then
    raise f i (f j + 1)
  else f

/-- The pairwise branch of `_nd_helper_b` (utils.py 617-624). -/
def pairs (o : ℕ → ℕ → K) (k : ℕ) (comp assign : List ℕ) (f : ℕ → ℕ) : ℕ → ℕ :=
  assign.foldl (fun f i => comp.foldl (pairStep o k i) f) f

/-- `_nd_helper_b` (utils.py 589-661). -/
def helperB (o : ℕ → ℕ → K) : (fuel : ℕ) → (k : ℕ) → List ℕ → List ℕ → (ℕ → ℕ) → Option (ℕ → ℕ)
  | 0, _, _, _, _ => none
  | fuel + 1, k, comp, assign, f =>
    if comp = [] ∨ assign = [] then some f
    else if comp.length = 1 ∨ assign.length = 1 then some (pairs o k comp assign f)
    else if k = 2 then some (sweepB o [] comp assign f)
    else
      let vc := comp.map (fun i => o i (k - 1))
      let va := assign.map (fun i => o i (k - 1))
      match vc.min?, vc.max?, va.min?, va.max? with
      | some minC, some maxC, some minA, some maxA =>
        if maxC ≤ minA then helperB o fuel (k - 1) comp assign f
        else if minC ≤ maxA then
          match medianLow (vc ++ va).dedup with
          | none => none
          | some med =>
            let s1 := splitBy o comp med (k - 1)
            let s2 := splitBy o assign med (k - 1)
            (helperB o fuel k s1.1 s2.1 f).bind fun f =>
            (helperB o fuel (k - 1) s1.1 s2.2.1 f).bind fun f =>
            (helperB o fuel (k - 1) s1.2.1 s2.2.1 f).bind fun f =>
            (helperB o fuel (k - 1) (mergeIdx s1.1 s1.2.1) s2.2.2 f).bind fun f =>
            helperB o fuel k s1.2.2 s2.2.2 f
        else some f
      | _, _, _, _ => none

/-- `_nd_helper_a` (utils.py 536-586). -/
def helperA (o : ℕ → ℕ → K) : (fuel : ℕ) → (k : ℕ) → List ℕ → (ℕ → ℕ) → Option (ℕ → ℕ)
  | 0, _, _, _ => none
  | fuel + 1, k, indices, f =>
    match indices with
    | [] => some f
    | [_] => some f
    | [l, r] =>
      match isDominate (slice o k l) (slice o k r) with
      | none => none
      | some true => some (raise f r (f l + 1))
      | some false => some f
    | indices =>
      if k = 2 then sweepA o indices f
      else
        match oneUniqValue (indices.map (fun i => o i (k - 1))) with
        | none => none
        | some true => helperA o fuel (k - 1) indices f
        | some false =>
          match medianLow (indices.map (fun i => o i (k - 1))) with
          | none => none
          | some med =>
            let s := splitBy o indices med (k - 1)
            (helperA o fuel k s.1 f).bind fun f =>
            (helperB o fuel (k - 1) s.1 s.2.1 f).bind fun f =>
            (helperA o fuel (k - 1) s.2.1 f).bind fun f =>
            (helperB o fuel (k - 1) (mergeIdx s.2.1 s.1) s.2.2 f).bind fun f =>
            helperA o fuel k s.2.2 f

/-- Comparison of Python tuples. -/
def lexLe : List K → List K → Bool
  | [], _ => true
  | _ :: _, [] => false
  | a :: as, b :: bs => if a < b then true else if b < a then false else lexLe as bs

/-- The keys of `objs_dict` in lexicographic order (utils.py 689-697, 728). -/
def uniqueObjs (Y : List (List K)) : List (List K) := Y.dedup.insertionSort (fun a b => lexLe a b)

/-- The front label of every row (utils.py 699-739). `none`: no rows, fewer than two objectives, or
rows of different lengths (failed assertions), or the recursion limit `fuel` is exceeded. -/
def frontLabels [Inhabited K] (fuel : ℕ) (Y : List (List K)) : Option (List ℕ) :=
  match Y with
  | [] => none
  | y :: _ =>
    if y.length ≤ 1 then none
    else if Y.any (fun z => z.length ≠ y.length) then none
    else
      let u := uniqueObjs Y
      (helperA (fun i m => (u.getD i []).getD m default) fuel y.length (List.range u.length)
        (fun _ => 0)).map (fun f => Y.map (fun y => f (u.idxOf y)))

/-- `non_domin_sort(Y, only_front_indices=True)` (utils.py 664-741): the dictionary from labels to
positions, in the order of the labels. -/
def nonDominSort [Inhabited K] (fuel : ℕ) (Y : List (List K)) : Option (List (ℕ × List ℕ)) :=
  (frontLabels fuel Y).map fun lab =>
    (lab.dedup.insertionSort (· ≤ ·)).map fun v =>
      (v, (List.range lab.length).filter (fun i => lab[i]? = some v))

/-- `non_domin_sort(decisions, get_objectives)` (utils.py 664-701, 742-751), the default mode. The
dictionary is filled in the order of the sorted distinct objective vectors, so its keys are in the
order of first use; decisions with the same objective vector keep their input order. -/
def nonDominSortDecisions [Inhabited K] {α : Type*} (fuel : ℕ) (decisions : List α)
    (getObjectives : α → List K) : Option (List (ℕ × List α)) :=
  let Y := decisions.map getObjectives
  (frontLabels fuel Y).map fun lab =>
    let u := uniqueObjs Y
    -- the pairs `(front, decisions with these objectives)` in the order of the loop
    let groups : List (ℕ × List α) := u.map fun z =>
      (lab.getD (Y.idxOf z) 0, decisions.filter (fun x => getObjectives x = z))
    (groups.map Prod.fst).reverse.dedup.reverse.map fun v =>
      (v, ((groups.filter (fun g => g.1 = v)).map Prod.snd).flatten)

end Verif.NDS
