import Verif.Ind.MMD
import Mathlib.Analysis.Matrix.Order
import Mathlib.Analysis.SpecialFunctions.Gamma.Basic
import Mathlib.Analysis.SpecialFunctions.Gaussian.GaussianIntegral
import Mathlib.MeasureTheory.Integral.Bochner.Set
import Mathlib.Analysis.SpecialFunctions.Exponential

/-!
# Positive semidefinite kernels
-/

namespace Verif.Ind

open MeasureTheory

/-- A symmetric positive semidefinite array. -/
def Psd {ι : Type*} [Fintype ι] (A : ι → ι → ℝ) : Prop :=
  (∀ i j, A i j = A j i) ∧ ∀ c : ι → ℝ, 0 ≤ ∑ i, ∑ j, c i * c j * A i j

variable {ι : Type*} [Fintype ι]

theorem psd_iff {A : ι → ι → ℝ} : Psd A ↔ (Matrix.of A).PosSemidef := by
  constructor
  · rintro ⟨h1, h2⟩
    refine Matrix.PosSemidef.of_dotProduct_mulVec_nonneg ?_ ?_
    · ext i j; simp [h1]
    · intro c
      have := h2 c
      simp only [dotProduct, Matrix.mulVec, Matrix.of_apply, star_trivial, Finset.mul_sum]
      refine this.trans_eq (Finset.sum_congr rfl fun i _ => Finset.sum_congr rfl fun j _ => by ring)
  · intro h
    refine ⟨fun i j => ?_, fun c => ?_⟩
    · have := h.isHermitian
      have := congrFun (congrFun this j) i
      simpa using this
    · have := h.dotProduct_mulVec_nonneg c
      simp only [dotProduct, Matrix.mulVec, Matrix.of_apply, star_trivial, Finset.mul_sum] at this
      refine this.trans_eq (Finset.sum_congr rfl fun i _ => Finset.sum_congr rfl fun j _ => by ring)

theorem Psd.mul {A B : ι → ι → ℝ} (hA : Psd A) (hB : Psd B) : Psd fun i j => A i j * B i j :=
  psd_iff.2 ((psd_iff.1 hA).hadamard (psd_iff.1 hB))

theorem psd_rank_one (f : ι → ℝ) : Psd fun i j => f i * f j := by
  refine ⟨fun i j => mul_comm _ _, fun c => ?_⟩
  have : ∑ i, ∑ j, c i * c j * (f i * f j) = (∑ i, c i * f i) * ∑ j, c j * f j := by
    rw [Finset.sum_mul_sum]
    exact Finset.sum_congr rfl fun i _ => Finset.sum_congr rfl fun j _ => by ring
  rw [this]
  exact mul_self_nonneg _

theorem psd_one : Psd fun _ _ : ι => (1 : ℝ) := by simpa using psd_rank_one fun _ : ι => (1 : ℝ)

theorem Psd.pow {A : ι → ι → ℝ} (hA : Psd A) (n : ℕ) : Psd fun i j => A i j ^ n := by
  induction n with
  | zero => simpa using psd_one
  | succ n ih =>
    simp only [pow_succ]
    exact ih.mul hA

theorem Psd.sum {κ : Type*} {s : Finset κ} {A : κ → ι → ι → ℝ} (h : ∀ a ∈ s, Psd (A a)) :
    Psd fun i j => ∑ a ∈ s, A a i j := by
  refine ⟨fun i j => Finset.sum_congr rfl fun a ha => (h a ha).1 i j, fun c => ?_⟩
  have : ∑ i, ∑ j, c i * c j * ∑ a ∈ s, A a i j = ∑ a ∈ s, ∑ i, ∑ j, c i * c j * A a i j := by
    simp only [Finset.mul_sum]
    rw [Finset.sum_congr rfl fun i _ => Finset.sum_comm, Finset.sum_comm]
  rw [this]
  exact Finset.sum_nonneg fun a ha => (h a ha).2 c

theorem Psd.const_mul {A : ι → ι → ℝ} (hA : Psd A) {s : ℝ} (hs : 0 ≤ s) : Psd fun i j => s * A i j := by
  refine ⟨fun i j => by simp only [hA.1 i j], fun c => ?_⟩
  have : ∑ i, ∑ j, c i * c j * (s * A i j) = s * ∑ i, ∑ j, c i * c j * A i j := by
    simp only [Finset.mul_sum]
    exact Finset.sum_congr rfl fun i _ => Finset.sum_congr rfl fun j _ => by ring
  rw [this]
  exact mul_nonneg hs (hA.2 c)

theorem Psd.prod {κ : Type*} {s : Finset κ} {A : κ → ι → ι → ℝ} (h : ∀ a ∈ s, Psd (A a)) :
    Psd fun i j => ∏ a ∈ s, A a i j := by
  classical
  induction s using Finset.induction_on with
  | empty => simpa using psd_one
  | insert a s ha ih =>
    simp only [Finset.prod_insert ha]
    exact (h a (by simp)).mul (ih fun b hb => h b (by simp [hb]))

theorem Psd.exp {A : ι → ι → ℝ} (hA : Psd A) : Psd fun i j => Real.exp (A i j) := by
  refine ⟨fun i j => by simp only [hA.1 i j], fun c => ?_⟩
  have h1 : HasSum (fun n : ℕ => ∑ i, ∑ j, c i * c j * (A i j ^ n / n.factorial))
      (∑ i, ∑ j, c i * c j * Real.exp (A i j)) := by
    refine hasSum_sum fun i _ => hasSum_sum fun j _ => HasSum.mul_left _ ?_
    rw [Real.exp_eq_exp_ℝ]
    exact NormedSpace.expSeries_div_hasSum_exp (A i j)
  refine h1.nonneg fun n => ?_
  have := (hA.pow n).const_mul (s := 1 / n.factorial) (by positivity)
  refine (this.2 c).trans_eq (Finset.sum_congr rfl fun i _ => Finset.sum_congr rfl fun j _ => by ring)

theorem Psd.integral {α : Type*} [MeasurableSpace α] {μ : Measure α} {B : α → ι → ι → ℝ}
    (hi : ∀ i j, Integrable (fun t => B t i j) μ) (h : ∀ᵐ t ∂μ, Psd (B t)) :
    Psd fun i j => ∫ t, B t i j ∂μ := by
  refine ⟨fun i j => integral_congr_ae ?_, fun c => ?_⟩
  · filter_upwards [h] with t ht
    exact ht.1 i j
  have : ∑ i, ∑ j, c i * c j * ∫ t, B t i j ∂μ = ∫ t, ∑ i, ∑ j, c i * c j * B t i j ∂μ := by
    rw [integral_finset_sum _ fun i _ => integrable_finset_sum _ fun j _ => (hi i j).const_mul _]
    refine Finset.sum_congr rfl fun i _ => ?_
    rw [integral_finset_sum _ fun j _ => (hi i j).const_mul _]
    refine Finset.sum_congr rfl fun j _ => ?_
    rw [integral_const_mul]
  rw [this]
  refine integral_nonneg_of_ae ?_
  filter_upwards [h] with t ht
  exact ht.2 c

variable {m : ℕ}

theorem psd_rbf {theta : ℝ} (ht : 0 ≤ theta) (z : ι → Fin m → ℝ) : Psd fun i j => rbf theta (z i) (z j) := by
  have h1 : Psd fun i j => 2 * theta * ∑ a, z i a * z j a :=
    (Psd.sum (s := Finset.univ) fun a _ => psd_rank_one fun i => z i a).const_mul (by positivity)
  have h2 := h1.exp.mul (psd_rank_one fun i => Real.exp (-theta * ∑ a, z i a ^ 2))
  have : (fun i j => rbf theta (z i) (z j)) = fun i j => Real.exp (2 * theta * ∑ a, z i a * z j a) *
      (Real.exp (-theta * ∑ a, z i a ^ 2) * Real.exp (-theta * ∑ a, z j a ^ 2)) := by
    funext i j
    rw [rbf, ← Real.exp_add, ← Real.exp_add]
    congr 1
    simp only [Finset.mul_sum, ← Finset.sum_add_distrib]
    exact Finset.sum_congr rfl fun a _ => by ring
  rw [this]
  exact h2

theorem psd_min (f : ι → ℝ) (hf : ∀ i, 0 ≤ f i) : Psd fun i j => min (f i) (f j) := by
  have h : ∀ i j, min (f i) (f j) =
      ∫ t, (Set.Ioc 0 (f i)).indicator 1 t * (Set.Ioc 0 (f j)).indicator (1 : ℝ → ℝ) t := by
    intro i j
    have : (fun t => (Set.Ioc 0 (f i)).indicator 1 t * (Set.Ioc 0 (f j)).indicator (1 : ℝ → ℝ) t) =
        (Set.Ioc 0 (min (f i) (f j))).indicator 1 := by
      funext t
      rw [← Set.inter_indicator_mul]
      simp [Set.Ioc_inter_Ioc]
      rfl
    rw [this, integral_indicator_one measurableSet_Ioc]
    rw [Measure.real, Real.volume_Ioc, sub_zero, ENNReal.toReal_ofReal (le_min (hf i) (hf j))]
  have hi : ∀ i j, Integrable
      (fun t => (Set.Ioc 0 (f i)).indicator 1 t * (Set.Ioc 0 (f j)).indicator (1 : ℝ → ℝ) t) volume := by
    intro i j
    have : (fun t => (Set.Ioc 0 (f i)).indicator 1 t * (Set.Ioc 0 (f j)).indicator (1 : ℝ → ℝ) t) =
        (Set.Ioc 0 (min (f i) (f j))).indicator 1 := by
      funext t
      rw [← Set.inter_indicator_mul]
      simp [Set.Ioc_inter_Ioc]
      rfl
    rw [this]
    exact (integrable_indicator_iff measurableSet_Ioc).2 (integrableOn_const (C := (1 : ℝ)) (by simp))
  have := Psd.integral hi (Filter.Eventually.of_forall fun t =>
    psd_rank_one fun i => (Set.Ioc 0 (f i)).indicator (1 : ℝ → ℝ) t)
  simpa only [← h] using this

theorem psd_laplace {theta : ℝ} (ht : 0 ≤ theta) (z : ι → Fin m → ℝ) :
    Psd fun i j => laplace theta (z i) (z j) := by
  have h1 : ∀ a, Psd fun i j => Real.exp (-theta * |z i a - z j a|) := by
    intro a
    have h2 := (psd_min (fun i => Real.exp (2 * theta * z i a)) fun i => (Real.exp_pos _).le).mul
      (psd_rank_one fun i => Real.exp (-theta * z i a))
    have : (fun i j => Real.exp (-theta * |z i a - z j a|)) = fun i j =>
        min (Real.exp (2 * theta * z i a)) (Real.exp (2 * theta * z j a)) *
        (Real.exp (-theta * z i a) * Real.exp (-theta * z j a)) := by
      funext i j
      rw [← Real.exp_add, ← Real.exp_monotone.map_min, ← Real.exp_add]
      congr 1
      rcases le_total (z i a) (z j a) with h | h
      · rw [min_eq_left (by nlinarith), abs_of_nonpos (by linarith)]; ring
      · rw [min_eq_right (by nlinarith), abs_of_nonneg (by linarith)]; ring
    rw [this]
    exact h2
  have := Psd.prod (s := Finset.univ) fun a _ => h1 a
  simp only [← Real.exp_sum, ← Finset.mul_sum] at this
  exact this

theorem psd_rationalQuadratic {theta alpha : ℝ} (ht : 0 ≤ theta) (ha : 0 < alpha) (z : ι → Fin m → ℝ) :
    Psd fun i j => rationalQuadratic theta alpha (z i) (z j) := by
  have hs : ∀ i j, 0 < (∑ a, (z i a - z j a) ^ 2) * theta / (2 * alpha) + 1 := fun i j => by positivity
  have hi : ∀ i j, Integrable (fun t => t ^ (alpha - 1) *
      Real.exp (-(((∑ a, (z i a - z j a) ^ 2) * theta / (2 * alpha) + 1) * t)))
      (volume.restrict (Set.Ioi 0)) := by
    intro i j
    have := integrableOn_rpow_mul_exp_neg_mul_rpow (p := 1) (s := alpha - 1) (b := _) (by linarith) one_pos
      (hs i j)
    simp only [Real.rpow_one, neg_mul] at this
    exact this
  have h1 : Psd fun i j => ∫ t in Set.Ioi (0 : ℝ), t ^ (alpha - 1) *
      Real.exp (-(((∑ a, (z i a - z j a) ^ 2) * theta / (2 * alpha) + 1) * t)) := by
    refine Psd.integral hi ?_
    refine (ae_restrict_iff' measurableSet_Ioi).2 (Filter.Eventually.of_forall fun t ht0 => ?_)
    have ht0 : (0 : ℝ) < t := ht0
    have h2 := (psd_rbf (theta := theta / (2 * alpha) * t) (by positivity) z).const_mul
      (s := t ^ (alpha - 1) * Real.exp (-t)) (by positivity)
    have : (fun i j => t ^ (alpha - 1) *
        Real.exp (-(((∑ a, (z i a - z j a) ^ 2) * theta / (2 * alpha) + 1) * t))) =
        fun i j => t ^ (alpha - 1) * Real.exp (-t) * rbf (theta / (2 * alpha) * t) (z i) (z j) := by
      funext i j
      rw [rbf, mul_assoc, ← Real.exp_add]
      congr 2
      ring
    rw [this]
    exact h2
  have h3 := h1.const_mul (s := (Real.Gamma alpha)⁻¹) (inv_nonneg.2 (Real.Gamma_pos_of_pos ha).le)
  have : (fun i j => rationalQuadratic theta alpha (z i) (z j)) = fun i j => (Real.Gamma alpha)⁻¹ *
      ∫ t in Set.Ioi (0 : ℝ), t ^ (alpha - 1) *
      Real.exp (-(((∑ a, (z i a - z j a) ^ 2) * theta / (2 * alpha) + 1) * t)) := by
    funext i j
    rw [Real.integral_rpow_mul_exp_neg_mul_Ioi ha (hs i j), rationalQuadratic,
      Real.rpow_neg (hs i j).le, one_div, Real.inv_rpow (hs i j).le]
    have := (Real.Gamma_pos_of_pos ha).ne'
    field_simp
  rw [this]
  exact h3

end Verif.Ind
