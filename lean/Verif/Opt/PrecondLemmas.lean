import Verif.Opt.Precond
import Mathlib.Analysis.Calculus.Deriv.Slope
import Mathlib.Analysis.Calculus.FDeriv.Basic
import Mathlib.Analysis.Calculus.Deriv.Comp
import Mathlib.Analysis.Calculus.Deriv.Mul

/-!
# Preconditioned Newton systems of several points
-/

namespace Verif.Props

/-- No eigenvalue of the second derivatives `H` of `N` points with `n` variables is below `-8·10⁶`. -/
def EigenAbove (N n : ℕ) (H : ℕ → ℕ → ℕ → ℕ → ℝ) : Prop :=
  ∀ z : ℕ → ℕ → ℝ, (∃ i < N, ∃ v < n, z i v ≠ 0) →
    0 < ∑ i ∈ Finset.range N, ∑ v ∈ Finset.range n, z i v * (∑ j ∈ Finset.range N, ∑ w ∈ Finset.range n, H i v j w * z j w) +
      8 * 10 ^ 6 * ∑ i ∈ Finset.range N, ∑ v ∈ Finset.range n, z i v ^ 2

/-- All sufficiently small steps along a curve decrease `f`. -/
def DecreasesAlong (f : ℝ → ℝ) : Prop := ∃ ε > 0, ∀ t, 0 < t → t < ε → f t < f 0

/-- All sufficiently small steps along a curve increase `f`. -/
def IncreasesAlong (f : ℝ → ℝ) : Prop := ∃ ε > 0, ∀ t, 0 < t → t < ε → f 0 < f t

end Verif.Props

namespace Verif.Opt

open Verif.Util Verif.HV Verif.Props

theorem decreasesAlong_of_deriv {f : ℝ → ℝ} {d : ℝ} (h : HasDerivAt f d 0) (hd : d < 0) : DecreasesAlong f := by
  have := h.tendsto_slope_zero_right.eventually_lt_const hd
  rw [eventually_nhdsWithin_iff, Metric.eventually_nhds_iff] at this
  obtain ⟨ε, hε, he⟩ := this
  refine ⟨ε, hε, fun t ht hte => ?_⟩
  have := he (y := t) (by rw [Real.dist_eq, sub_zero, abs_of_pos ht]; exact hte) ht
  rw [zero_add, smul_eq_mul] at this
  have h2 := mul_neg_of_pos_of_neg ht this
  rw [← mul_assoc, mul_inv_cancel₀ ht.ne', one_mul] at h2
  linarith

theorem increasesAlong_of_deriv {f : ℝ → ℝ} {d : ℝ} (h : HasDerivAt f d 0) (hd : 0 < d) : IncreasesAlong f := by
  obtain ⟨ε, h1, h2⟩ := decreasesAlong_of_deriv h.neg (by linarith)
  exact ⟨ε, h1, fun t h3 h4 => neg_lt_neg_iff.mp (h2 t h3 h4)⟩

variable {chol : Chol} {N n : ℕ} {H : ℕ → ℕ → ℕ → ℕ → ℝ} {A : List (List ℝ)}

theorem precond_system (hc : ∀ n, IsCholesky (chol n)) (hA : TableOf N n H A) (hs : SymmetricIn N n H)
    (hH : EigenAbove N n H) (G : ℕ → ℕ → ℝ) :
    (∃ z : ℕ → ℕ → ℝ, ∀ i < N, ∀ v < n, ∑ j ∈ Finset.range N, ∑ w ∈ Finset.range n,
      at2 (precondTable chol A) (i * n + v) (j * n + w) * z j w = -G i v) ∧
    ∀ z : ℕ → ℕ → ℝ, (∀ i < N, ∀ v < n, ∑ j ∈ Finset.range N, ∑ w ∈ Finset.range n,
      at2 (precondTable chol A) (i * n + v) (j * n + w) * z j w = -G i v) → (∃ i < N, ∃ v < n, G i v ≠ 0) →
      ∑ i ∈ Finset.range N, ∑ v ∈ Finset.range n, G i v * z i v < 0 := by
  have hflat : ∀ {i v : ℕ}, i < N → v < n → i * n + v < N * n := fun hi hv => by nlinarith
  have hun : ∀ (z : ℕ → ℕ → ℝ) (F : ℕ → ℝ), ∑ b ∈ Finset.range (N * n), F b * z (b / n) (b % n) =
      ∑ i ∈ Finset.range N, ∑ v ∈ Finset.range n, F (i * n + v) * z i v := by
    intro z F
    rw [HVD.sum_range_mul]
    refine Finset.sum_congr rfl fun i _ => Finset.sum_congr rfl fun v hv => ?_
    rw [HVD.flat_div (Finset.mem_range.mp hv), HVD.flat_mod (Finset.mem_range.mp hv)]
  obtain ⟨h1, h2⟩ := precondTable_system hc hA.1 (fun b hb c hc => by
      obtain ⟨b1, b2, b3⟩ := flat_index hb
      obtain ⟨c1, c2, c3⟩ := flat_index hc
      rw [← b3, ← c3, hA.2 _ b1 _ b2 _ c1 _ c2, hA.2 _ c1 _ c2 _ b1 _ b2]
      exact hs _ b1 _ b2 _ c1 _ c2)
    (fun z ⟨b, hb, hz⟩ => by
      obtain ⟨b1, b2, b3⟩ := flat_index hb
      have := hH (fun i v => z (i * n + v)) ⟨_, b1, _, b2, by rw [b3]; exact hz⟩
      rw [HVD.sum_range_mul, HVD.sum_range_mul]
      refine lt_of_lt_of_eq this ?_
      congr 1
      refine Finset.sum_congr rfl fun i hi => Finset.sum_congr rfl fun v hv => ?_
      rw [HVD.sum_range_mul]
      congr 1
      exact Finset.sum_congr rfl fun j hj => Finset.sum_congr rfl fun w hw => by
        rw [hA.2 i (Finset.mem_range.mp hi) v (Finset.mem_range.mp hv) j (Finset.mem_range.mp hj) w (Finset.mem_range.mp hw)])
    (fun b => G (b / n) (b % n))
  refine ⟨?_, fun z hz ⟨i, hi, v, hv, hg⟩ => ?_⟩
  · obtain ⟨s, hs⟩ := h1
    refine ⟨fun j w => s (j * n + w), fun i hi v hv => ?_⟩
    have := hs (i * n + v) (hflat hi hv)
    rw [HVD.sum_range_mul, HVD.flat_div hv, HVD.flat_mod hv] at this
    exact this
  · have := h2 (fun b => z (b / n) (b % n)) (fun b hb => by
      obtain ⟨b1, b2, b3⟩ := flat_index hb
      rw [hun, ← hz _ b1 _ b2, b3]) ⟨i * n + v, hflat hi hv, by rw [HVD.flat_div hv, HVD.flat_mod hv]; exact hg⟩
    rw [HVD.sum_range_mul] at this
    refine lt_of_eq_of_lt ?_ this
    exact Finset.sum_congr rfl fun i _ => Finset.sum_congr rfl fun v hv => by
      rw [HVD.flat_div (Finset.mem_range.mp hv), HVD.flat_mod (Finset.mem_range.mp hv)]

/-- The same for `precondTableNeg` and a matrix that is not above `8·10⁶`. -/
theorem precondNeg_system (hc : ∀ n, IsCholesky (chol n)) (hA : TableOf N n H A) (hs : SymmetricIn N n H)
    (hH : EigenAbove N n fun i v j w => -H i v j w) (G : ℕ → ℕ → ℝ) :
    (∃ z : ℕ → ℕ → ℝ, ∀ i < N, ∀ v < n, ∑ j ∈ Finset.range N, ∑ w ∈ Finset.range n,
      at2 (precondTableNeg chol A) (i * n + v) (j * n + w) * z j w = -G i v) ∧
    ∀ z : ℕ → ℕ → ℝ, (∀ i < N, ∀ v < n, ∑ j ∈ Finset.range N, ∑ w ∈ Finset.range n,
      at2 (precondTableNeg chol A) (i * n + v) (j * n + w) * z j w = -G i v) → (∃ i < N, ∃ v < n, G i v ≠ 0) →
      0 < ∑ i ∈ Finset.range N, ∑ v ∈ Finset.range n, G i v * z i v := by
  obtain ⟨h1, h2⟩ := precond_system hc (A := A.map fun r => r.map (-1 * ·))
    ⟨neg_isMat hA.1, fun i hi v hv j hj w hw => by rw [at2_neg, hA.2 i hi v hv j hj w hw]⟩
    (fun i hi v hv j hj w hw => congrArg (-·) (hs i hi v hv j hj w hw)) hH (fun i v => -G i v)
  have hiff : ∀ (z : ℕ → ℕ → ℝ) (i v : ℕ), ∑ j ∈ Finset.range N, ∑ w ∈ Finset.range n,
      at2 (precondTableNeg chol A) (i * n + v) (j * n + w) * z j w = -∑ j ∈ Finset.range N, ∑ w ∈ Finset.range n,
      at2 (precondTable chol (A.map fun r => r.map (-1 * ·))) (i * n + v) (j * n + w) * z j w := by
    intro z i v
    rw [← Finset.sum_neg_distrib]
    refine Finset.sum_congr rfl fun j _ => ?_
    rw [← Finset.sum_neg_distrib]
    exact Finset.sum_congr rfl fun w _ => by rw [precondTableNeg, at2_neg, neg_mul]
  refine ⟨?_, fun z hz ⟨i, hi, v, hv, hg⟩ => ?_⟩
  · obtain ⟨z, hz⟩ := h1
    exact ⟨z, fun i hi v hv => by rw [hiff, hz i hi v hv, neg_neg]⟩
  · have := h2 z (fun i hi v hv => by
      have := hz i hi v hv
      rw [hiff] at this
      linarith) ⟨i, hi, v, hv, neg_ne_zero.mpr hg⟩
    simp only [neg_mul, Finset.sum_neg_distrib] at this
    linarith

end Verif.Opt
