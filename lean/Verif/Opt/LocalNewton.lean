import Mathlib.Analysis.Calculus.MeanValue
import Mathlib.Analysis.Normed.Module.FiniteDimension
import Mathlib.Analysis.Calculus.ContDiff.RCLike
import Mathlib.Analysis.Calculus.ContDiff.Comp

/-!
# Newton steps near a regular zero

`F` is differentiable near `z` with a Lipschitz continuous derivative, `F z = 0`, and the derivative at `z` is
invertible. No model of code in this file.
-/

namespace Verif.Opt

open Metric

variable {E : Type*} [NormedAddCommGroup E] [NormedSpace ℝ E]

/-- The error of the linearisation. -/
theorem linearisation {F : E → E} {F' : E → E →L[ℝ] E} {z : E} {r L : ℝ}
    (hd : ∀ x ∈ ball z r, HasFDerivAt F (F' x) x)
    (hL : ∀ x ∈ ball z r, ∀ y ∈ ball z r, ‖F' x - F' y‖ ≤ L * ‖x - y‖) (hL0 : 0 ≤ L) {x y : E} (hx : x ∈ ball z r)
    (hy : y ∈ ball z r) : ‖F y - F x - F' x (y - x)‖ ≤ L * ‖y - x‖ ^ 2 := by
  have hseg : segment ℝ x y ⊆ ball z r := (convex_ball z r).segment_subset hx hy
  have := (convex_segment x y).norm_image_sub_le_of_norm_hasFDerivWithin_le' (f := F) (f' := F') (φ := F' x)
    (C := L * ‖y - x‖) (fun w hw => (hd w (hseg hw)).hasFDerivWithinAt) (fun w hw => by
      refine (hL w (hseg hw) x hx).trans (mul_le_mul_of_nonneg_left ?_ hL0)
      have := norm_sub_le_of_mem_segment hw
      exact this)
    (left_mem_segment ℝ x y) (right_mem_segment ℝ x y)
  rw [pow_two, ← mul_assoc]
  exact this

/-- Near a regular zero every Newton step has a quadratic error and makes the residual small of second order, and the
Newton equations have a unique solution. -/
theorem newton_local [FiniteDimensional ℝ E] {F : E → E} {F' : E → E →L[ℝ] E} {z : E} {r L : ℝ} (hr : 0 < r)
    (hd : ∀ x ∈ ball z r, HasFDerivAt F (F' x) x)
    (hL : ∀ x ∈ ball z r, ∀ y ∈ ball z r, ‖F' x - F' y‖ ≤ L * ‖x - y‖)
    (hz : F z = 0) (hinj : ∀ v, F' z v = 0 → v = 0) :
    ∃ δ > 0, ∃ C > 0, δ ≤ r ∧ ∀ x, ‖x - z‖ < δ → (∀ v, F' x v = 0 → v = 0) ∧ (∃ s, F' x s = -F x) ∧
      ∀ s, F' x s = -F x →
        ‖x + s - z‖ ≤ C * ‖x - z‖ ^ 2 ∧ ‖x + s - z‖ ≤ ‖x - z‖ / 2 ∧ ‖F (x + s)‖ ≤ C * ‖x - z‖ * ‖F x‖ := by
  wlog hL1 : 1 ≤ L generalizing L
  · exact this (L := max L 1) (fun x hx y hy => (hL x hx y hy).trans
      (mul_le_mul_of_nonneg_right (le_max_left _ _) (norm_nonneg _))) (le_max_right _ _)
  have hL0 : 0 ≤ L := by linarith
  obtain ⟨κ, hκ, hanti⟩ := (F' z).exists_antilipschitzWith (LinearMap.ker_eq_bot'.mpr hinj)
  have hz' : z ∈ ball z r := mem_ball_self hr
  have hlow : ∀ v, ‖v‖ ≤ κ * ‖F' z v‖ := fun v => by
    have := hanti.le_mul_dist v 0
    simpa using this
  have hκ' : (0 : ℝ) < κ := hκ
  set δ : ℝ := min r (1 / (4 * L * κ)) with hδ
  have hδ0 : 0 < δ := lt_min hr (by positivity)
  have hlow' : ∀ x, ‖x - z‖ < δ → ∀ v, ‖v‖ ≤ 2 * κ * ‖F' x v‖ := by
    intro x hx v
    have hxr : x ∈ ball z r := by rw [mem_ball_iff_norm]; exact hx.trans_le (min_le_left _ _)
    have h1 := hlow v
    have h2 : ‖F' z v‖ ≤ ‖F' x v‖ + L * ‖x - z‖ * ‖v‖ := by
      have : F' z v = F' x v - (F' x - F' z) v := by simp
      rw [this]
      refine (norm_sub_le _ _).trans (add_le_add_right ?_ _)
      exact ((F' x - F' z).le_opNorm v).trans (mul_le_mul_of_nonneg_right (hL x hxr z hz') (norm_nonneg _))
    have h3 : κ * (L * ‖x - z‖) ≤ 1 / 4 := by
      have h4 : ‖x - z‖ ≤ 1 / (4 * L * κ) := hx.le.trans (min_le_right _ _)
      rw [le_div_iff₀ (by positivity)] at h4
      linarith
    nlinarith [norm_nonneg v, mul_le_mul_of_nonneg_left h2 hκ'.le, mul_le_mul_of_nonneg_right h3 (norm_nonneg v)]
  have hlip : ∀ x, ‖x - z‖ < δ → ‖F x‖ ≤ (‖F' z‖ + L * r) * ‖x - z‖ := by
    intro x hx
    have hxr : x ∈ ball z r := by rw [mem_ball_iff_norm]; exact hx.trans_le (min_le_left _ _)
    have := linearisation hd hL hL0 hz' hxr
    rw [hz, sub_zero] at this
    calc ‖F x‖ = ‖(F x - F' z (x - z)) + F' z (x - z)‖ := by simp
      _ ≤ L * ‖x - z‖ ^ 2 + ‖F' z‖ * ‖x - z‖ := (norm_add_le _ _).trans (add_le_add this ((F' z).le_opNorm _))
      _ ≤ _ := by
        have : ‖x - z‖ ≤ r := hx.le.trans (min_le_left _ _)
        nlinarith [mul_le_mul_of_nonneg_left this (mul_nonneg hL0 (norm_nonneg (x - z)))]
  set B := ‖F' z‖ + L * r with hB
  have hB0 : 0 ≤ B := by positivity
  refine ⟨δ, hδ0, 2 * κ * L + 4 * κ ^ 2 * L * B, by positivity, min_le_left _ _, fun x hx => ?_⟩
  have hxr : x ∈ ball z r := by rw [mem_ball_iff_norm]; exact hx.trans_le (min_le_left _ _)
  have hin : ∀ v, F' x v = 0 → v = 0 := fun v hv => by
    have := hlow' x hx v
    rw [hv, norm_zero, mul_zero] at this
    exact norm_eq_zero.mp (le_antisymm this (norm_nonneg _))
  refine ⟨hin, ?_, fun s hs => ?_⟩
  · have : Function.Injective (F' x : E →ₗ[ℝ] E) := (LinearMap.ker_eq_bot'.mpr hin |> LinearMap.ker_eq_bot.mp)
    obtain ⟨s, hs⟩ := LinearMap.injective_iff_surjective.mp this (-F x)
    exact ⟨s, hs⟩
  have h1 := linearisation hd hL hL0 hxr hz'
  rw [hz] at h1
  have h2 : ‖x + s - z‖ ≤ 2 * κ * (L * ‖x - z‖ ^ 2) := by
    refine (hlow' x hx _).trans (mul_le_mul_of_nonneg_left ?_ (by positivity))
    have e2 : F' x (x + s - z) = -F x - F' x (z - x) := by
      have : x + s - z = s - (z - x) := by abel
      rw [this, map_sub, hs]
    rw [e2]
    rw [norm_sub_rev z x, zero_sub] at h1
    exact h1
  have h3 : ‖x + s - z‖ ≤ ‖x - z‖ / 2 := by
    refine h2.trans ?_
    have h4 : ‖x - z‖ ≤ 1 / (4 * L * κ) := hx.le.trans (min_le_right _ _)
    rw [le_div_iff₀ (by positivity)] at h4
    nlinarith [norm_nonneg (x - z), mul_le_mul_of_nonneg_right h4 (norm_nonneg (x - z))]
  refine ⟨h2.trans ?_, h3, ?_⟩
  · nlinarith [sq_nonneg ‖x - z‖, mul_nonneg (mul_nonneg (mul_nonneg (by positivity : (0 : ℝ) ≤ 4 * κ ^ 2) hL0) hB0) (sq_nonneg ‖x - z‖)]
  · have hy : x + s ∈ ball z r := by
      rw [mem_ball_iff_norm]
      have := hx.trans_le (min_le_left _ _)
      linarith [norm_nonneg (x - z)]
    have h5 := linearisation hd hL hL0 hxr hy
    rw [add_sub_cancel_left, hs, sub_neg_eq_add, sub_add_cancel] at h5
    have h6 := hlow' x hx s
    rw [hs, norm_neg] at h6
    have h7 := hlip x hx
    have h8 : ‖s‖ ^ 2 ≤ (2 * κ * ‖F x‖) * (2 * κ * (B * ‖x - z‖)) := by
      rw [pow_two]
      exact mul_le_mul h6 (h6.trans (mul_le_mul_of_nonneg_left h7 (by positivity))) (norm_nonneg _) (by positivity)
    refine h5.trans ((mul_le_mul_of_nonneg_left h8 hL0).trans ?_)
    have : 0 ≤ 2 * κ * L * ‖x - z‖ * ‖F x‖ := by positivity
    nlinarith

/-- A twice continuously differentiable map has a Lipschitz continuous derivative near a point. -/
theorem lipschitz_derivative [FiniteDimensional ℝ E] {F : E → E} {z : E} (h : ContDiffAt ℝ 2 F z) :
    ∃ r > 0, ∃ L, (∀ x ∈ ball z r, HasFDerivAt F (fderiv ℝ F x) x) ∧
      ∀ x ∈ ball z r, ∀ y ∈ ball z r, ‖fderiv ℝ F x - fderiv ℝ F y‖ ≤ L * ‖x - y‖ := by
  have h1 : ContDiffAt ℝ 1 (fderiv ℝ F) z := h.fderiv_right (m := 1) (by norm_num)
  obtain ⟨K, t, ht, hK⟩ := h1.exists_lipschitzOnWith
  have h2 : ∀ᶠ x in nhds z, DifferentiableAt ℝ F x :=
    (h.eventually (by simp)).mono fun x hx => hx.differentiableAt (by norm_num)
  obtain ⟨r, hr, hs⟩ := Metric.mem_nhds_iff.mp (Filter.inter_mem ht h2)
  refine ⟨r, hr, K, fun x hx => (hs hx).2.hasFDerivAt, fun x hx y hy => ?_⟩
  have := hK.dist_le_mul x (hs hx).1 y (hs hy).1
  rwa [dist_eq_norm, dist_eq_norm] at this

end Verif.Opt
