import Mathlib.Analysis.Real.Sqrt
import Mathlib.Data.Matrix.Mul

/-!
# The normal of the simplex through the extreme points (hvd/utils.py 88-96)

`qr` is the first result of `scipy.linalg.qr` (the full, square matrix), a parameter.
-/

namespace Verif.Util

variable {m : ℕ}

/-- `Y.argmin(axis=0)` for one column and `Y[idx]`: the first row least in column `j`. -/
noncomputable def leastRow (j : Fin (m + 1)) : (Fin (m + 1) → ℝ) → List (Fin (m + 1) → ℝ) → (Fin (m + 1) → ℝ)
  | a, [] => a
  | a, b :: l => if b j < a j then leastRow j b l else leastRow j a l

/-- `M` (utils.py 90-92): the other extreme points minus the first one. -/
noncomputable def chimMatrix (a : Fin (m + 1) → ℝ) (l : List (Fin (m + 1) → ℝ)) : Matrix (Fin m) (Fin (m + 1)) ℝ :=
  fun i j => leastRow i.succ a l j - leastRow 0 a l j

/-- `compute_chim` (utils.py 88-96); without points `argmin` raises `ValueError`. -/
noncomputable def computeChim
    (qr : Matrix (Fin (m + 1)) (Fin m) ℝ → Matrix (Fin (m + 1)) (Fin (m + 1)) ℝ) :
    List (Fin (m + 1) → ℝ) → Option (Fin (m + 1) → ℝ)
  | [] => none
  | a :: l =>
    let Q := qr (chimMatrix a l).transpose
    let n : Fin (m + 1) → ℝ := fun j => -1 * |Q j (Fin.last m)|
    some fun j => n j / Real.sqrt (∑ i, n i ^ 2)

end Verif.Util
