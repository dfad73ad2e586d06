import Mathlib.Algebra.Order.Field.Basic
import Mathlib.Algebra.BigOperators.Fin
import Mathlib.Algebra.Order.Group.Abs
import Mathlib.Data.Fintype.Basic

/-!
# A union of boxes as a constraint (examples/HVSS/box_domain.py)
-/

namespace Verif.Scripts

open scoped BigOperators

variable {K : Type*} [Field K] [LinearOrder K] {d : ℕ}

/-- A row of `centers` and of `half_radii`. -/
structure Box (K : Type*) (d : ℕ) where
  center : Fin d → K
  half : Fin d → K

/-- The squared distance to the centre (examples/HVSS/box_domain.py 7-8). The code takes the root, which does not change the
order. -/
def Box.distSq (b : Box K d) (x : Fin d → K) : K := ∑ j, (x j - b.center j) ^ 2

/-- The box chosen by `argmin`, the first one at least distance; `none` without boxes (examples/HVSS/box_domain.py 10-13). -/
def nearestBox (x : Fin d → K) : List (Box K d) → Option (Box K d)
  | [] => none
  | b :: bs =>
    match nearestBox x bs with
    | none => some b
    | some b' => if b.distSq x ≤ b'.distSq x then some b else some b'

/-- The components of the constraint for the chosen box (examples/HVSS/box_domain.py 15-24). -/
def Box.constraint (b : Box K d) (x : Fin d → K) (j : Fin d) : K :=
  if ∀ i, b.half i - |x i - b.center i| ≥ 0 then -(b.half j - |x j - b.center j|)
  else max (|x j - b.center j| - b.half j) 0

/-- `union_box_constraint` (examples/HVSS/box_domain.py 5-25); `none` stands for the exception without boxes. -/
def unionBoxConstraint (boxes : List (Box K d)) (x : Fin d → K) : Option (Fin d → K) :=
  (nearestBox x boxes).map fun b => b.constraint x

end Verif.Scripts
