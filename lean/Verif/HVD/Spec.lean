import Verif.HV.Spec
import Mathlib.Analysis.Calculus.Deriv.Basic

/-!
# Specification: moving one coordinate of one point
-/

namespace Verif.HVD

/-- Point `i` of a list. -/
def ptOf {K : Type*} [Zero K] (Y : List (ℕ → K)) (i : ℕ) : ℕ → K := Y.getD i (fun _ => 0)

/-- Coordinate `k` of point `i` set to `t`. -/
def setCoord {K : Type*} (Y : List (ℕ → K)) (i k : ℕ) (t : K) : List (ℕ → K) :=
  Y.modify i (fun p => Function.update p k t)

/-- No two points share a value in an objective, and all points are strictly inside the reference
box. -/
structure GeneralPosition (d : ℕ) (Y : List (ℕ → ℝ)) (ref : ℕ → ℝ) : Prop where
  distinct : Y.Pairwise (fun p q => ∀ k < d, p k ≠ q k)
  inside : ∀ p ∈ Y, ∀ k < d, p k < ref k

/-- Pareto dominance in the first `d` coordinates. -/
def Dom {K : Type*} [Preorder K] (d : ℕ) (p q : ℕ → K) : Prop := (∀ k < d, p k ≤ q k) ∧ ∃ k < d, p k < q k

/-- The partial derivative of the hypervolume with respect to coordinate `k` of point `i`. -/
noncomputable def partialHV (d : ℕ) (Y : List (ℕ → ℝ)) (ref : ℕ → ℝ) (i k : ℕ) : ℝ :=
  deriv (fun t => HV.Spec.hvol d (setCoord Y i k t) ref) (ptOf Y i k)

end Verif.HVD
