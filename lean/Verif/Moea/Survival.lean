import Mathlib.Data.List.Basic
import Mathlib.Order.Basic

/-!
# Survival and tournament of SMS-EMOA (hvd/moea/sms_emoa.py 96-196)

Individuals are given by their index in the population. `none` stands for an exception.
-/

namespace Verif.Moea

variable {H K : Type*} [LinearOrder K]

/-- The hypervolume object of a front: the contributions of its members and the deletion of one. -/
structure HvObject (H K : Type*) where
  new : List ℕ → H
  hvc : H → List K
  delete : H → ℕ → H

/-- `argmin`, a `ValueError` without entries. -/
def argmin (l : List K) : Option ℕ := l.min?.map fun v => l.idxOf v

/-- The loop 145-148 on a front: while there are more than `n` in all, the member with the least contribution
is removed. The first argument bounds the number of turns (the length of the front). -/
def shrink (hv : HvObject H K) (n survivors : ℕ) : ℕ → H → List ℕ → Option (List ℕ)
  | 0, _, front => some front
  | t + 1, h, front =>
    if survivors + front.length > n then
      (argmin (hv.hvc h)).bind fun k => shrink hv n survivors t (hv.delete h k) (front.eraseIdx k)
    else some front

/-- One front (sms_emoa.py 119-151). The attribute `rank` and the normalization are left out. -/
def surviveFront (hv : HvObject H K) (n : ℕ) (survivors front : List ℕ) : Option (List ℕ) :=
  (if survivors.length + front.length > n then shrink hv n survivors.length front.length (hv.new front) front
    else some front).map (survivors ++ ·)

/-- `_do` (sms_emoa.py 101-153), given the fronts from the non-dominated sorting. `n_survive = None` is a
`TypeError` in the comparison. -/
def survive (hv : HvObject H K) (nSurvive : Option ℕ) (fronts : List (List ℕ)) : Option (List ℕ) :=
  match nSurvive with
  | some n => fronts.foldlM (surviveFront hv n) []
  | none => if fronts = [] then some [] else none

/-! ### The tournament -/

/-- An individual: its total constraint violation and objective values. -/
structure Indiv (K : Type*) where
  cv : K
  F : List K

/-- `compare(..., method="smaller_is_better", return_random_if_equal=True)` of pymoo. -/
def compareSmaller (coin : Bool) (a : ℕ) (av : K) (b : ℕ) (bv : K) : ℕ :=
  if av < bv then a else if bv < av then b else if coin then a else b

/-- One tournament (sms_emoa.py 165-194). `rel` is `Dominator.get_relation` of pymoo, `coin` the random
choice. -/
def tournament [Zero K] (rel : List K → List K → Int) (pop : List (Indiv K)) (coin : Bool) (a b : ℕ) :
    Option ℕ :=
  pop[a]?.bind fun ia => pop[b]?.map fun ib =>
    if ia.cv > 0 ∨ ib.cv > 0 then compareSmaller coin a ia.cv b ib.cv
    else if rel ia.F ib.F = 1 then a
    else if rel ia.F ib.F = -1 then b
    else if coin then a else b

/-- `cv_and_dom_tournament` (sms_emoa.py 157-196); rows that do not have two entries are a `ValueError`. -/
def cvAndDomTournament [Zero K] (rel : List K → List K → Int) (pop : List (Indiv K)) (coin : ℕ → Bool)
    (P : List (List ℕ)) : Option (List ℕ) :=
  ((List.range P.length).zip P).mapM fun q =>
    match q.2 with
    | [a, b] => tournament rel pop (coin q.1) a b
    | _ => none

end Verif.Moea
