import Mathlib.MeasureTheory.Measure.Lebesgue.Basic

/-!
# Specification: the hypervolume indicator

Written without reference to the model of the code.
-/

namespace Verif.HV.Spec

open MeasureTheory

/-- The part of `d`-dimensional objective space that is weakly dominated by some point of `P`
(minimisation) and lies below the reference point. Only the first `d` coordinates count. -/
def region (d : ℕ) (P : List (ℕ → ℝ)) (ref : ℕ → ℝ) : Set (Fin d → ℝ) :=
  {x | (∃ p ∈ P, ∀ i : Fin d, p i ≤ x i) ∧ ∀ i : Fin d, x i ≤ ref i}

/-- The hypervolume indicator: Lebesgue measure of the dominated region. -/
noncomputable def hvol (d : ℕ) (P : List (ℕ → ℝ)) (ref : ℕ → ℝ) : ℝ :=
  (volume (region d P ref)).toReal

end Verif.HV.Spec
