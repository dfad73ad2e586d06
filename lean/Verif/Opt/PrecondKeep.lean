import Verif.Opt.PrecondLemmas
import Mathlib.Analysis.Calculus.FDeriv.Symmetric
import Mathlib.Topology.Order.Compact

/-!
# Lemmas on the preconditioning of positive definite matrices

`precondition_hessian` leaves a positive definite matrix as it is, and a matrix near a positive definite one is positive
definite.
-/

namespace Verif.Opt

open Verif.Util Verif.HV Verif.Props Matrix Topology

/-- The quadratic form with the matrix `H` of order `m` is positive. -/
def PosForm (m : ℕ) (H : ℕ → ℕ → ℝ) : Prop :=
  ∀ z : ℕ → ℝ, (∃ b < m, z b ≠ 0) → 0 < ∑ b ∈ Finset.range m, z b * ∑ c ∈ Finset.range m, H b c * z c

theorem precondTable_keep {chol : Chol} (hc : ∀ n, IsCholesky (chol n)) {m : ℕ} {A : List (List ℝ)} (hA : IsMat m m A)
    (hsym : ∀ b < m, ∀ c < m, at2 A b c = at2 A c b) (hB : PosForm m (at2 A)) :
    ∀ b < m, ∀ c < m, at2 (precondTable chol A) b c = at2 A b c := by
  set H : Matrix (Fin m) (Fin m) ℝ := fun i j => at2 A i j with hH
  have hHs : H.IsSymm := by
    ext i j
    exact hsym j j.isLt i i.isLt
  have hpd : H.PosDef := by
    refine PosDef.of_dotProduct_mulVec_pos ?_ fun z hz => ?_
    · rw [IsHermitian, conjTranspose_eq_transpose_of_trivial]; exact hHs
    · obtain ⟨y, hy⟩ : ∃ y : ℕ → ℝ, ∀ i : Fin m, y i = z i :=
        ⟨fun b => if h : b < m then z ⟨b, h⟩ else 0, fun i => by simp⟩
      obtain ⟨i, hi⟩ := Function.ne_iff.mp hz
      have := hB y ⟨i, i.isLt, by rw [hy]; exact hi⟩
      rw [Finset.sum_range] at this
      refine lt_of_lt_of_eq this ?_
      rw [star_trivial]
      simp only [dotProduct, mulVec, hy, Finset.sum_range, hH]
  intro b hb c hcm
  exact (at2_precondTable chol hA ⟨b, hb⟩ ⟨c, hcm⟩).trans (congrFun₂ ((C20_precondition (hc m) hHs).2.1 hpd) ⟨b, hb⟩ ⟨c, hcm⟩)

theorem precondTableNeg_keep {chol : Chol} (hc : ∀ n, IsCholesky (chol n)) {m : ℕ} {A : List (List ℝ)} (hA : IsMat m m A)
    (hsym : ∀ b < m, ∀ c < m, at2 A b c = at2 A c b) (hB : PosForm m fun b c => -at2 A b c) :
    ∀ b < m, ∀ c < m, at2 (precondTableNeg chol A) b c = at2 A b c := by
  intro b hb c hcm
  have h := precondTable_keep hc (neg_isMat hA) (fun b hb c hcm => by rw [at2_neg, at2_neg, hsym b hb c hcm])
    (by simpa only [PosForm, at2_neg] using hB) b hb c hcm
  rw [precondTableNeg, at2_neg, h, at2_neg, neg_neg]

/-- Positive forms are an open set. -/
theorem PosForm.open_near {m : ℕ} {H0 : ℕ → ℕ → ℝ} (h : PosForm m H0) :
    ∃ η > 0, ∀ H : ℕ → ℕ → ℝ, (∀ b < m, ∀ c < m, |H b c - H0 b c| ≤ η) → PosForm m H := by
  obtain ⟨c, hc, hcz⟩ : ∃ c > 0, ∀ z : Fin m → ℝ, c * ‖z‖ ^ 2 ≤ ∑ b, z b * ∑ w : Fin m, H0 b w * z w := by
    by_cases hne : (Metric.sphere (0 : Fin m → ℝ) 1).Nonempty
    · obtain ⟨z0, hz0, hmin⟩ := (isCompact_sphere (0 : Fin m → ℝ) 1).exists_isMinOn hne
        (f := fun z : Fin m → ℝ => ∑ b, z b * ∑ w : Fin m, H0 b w * z w) (continuous_finsetSum _ fun b _ =>
          (continuous_apply b).mul (continuous_finsetSum _ fun w _ => continuous_const.mul (continuous_apply w))).continuousOn
      have hpos : ∀ z : Fin m → ℝ, z ≠ 0 → 0 < ∑ b, z b * ∑ w : Fin m, H0 b w * z w := by
        intro z hz
        obtain ⟨i, hi⟩ := Function.ne_iff.mp hz
        have := h (fun b => if h : b < m then z ⟨b, h⟩ else 0) ⟨i, i.2, by simpa using hi⟩
        simpa [Finset.sum_range] using this
      refine ⟨_, hpos z0 (Metric.ne_of_mem_sphere hz0 one_ne_zero), fun z => ?_⟩
      by_cases hz : z = 0
      · subst hz; simp
      · have hn : ‖z‖ ≠ 0 := norm_ne_zero_iff.mpr hz
        have := hmin (a := ‖z‖⁻¹ • z) (by simp [norm_smul, hn])
        simp only [Set.mem_ofPred_eq, Pi.smul_apply, smul_eq_mul] at this
        have e : ∑ b, ‖z‖⁻¹ * z b * ∑ w : Fin m, H0 b w * (‖z‖⁻¹ * z w) =
            (∑ b, z b * ∑ w : Fin m, H0 b w * z w) * (‖z‖⁻¹) ^ 2 := by
          simp only [Finset.mul_sum, Finset.sum_mul]
          exact Finset.sum_congr rfl fun b _ => Finset.sum_congr rfl fun w _ => by ring
        rw [e, inv_pow, ← div_eq_mul_inv, le_div_iff₀ (by positivity)] at this
        exact this
    · refine ⟨1, one_pos, fun z => ?_⟩
      have hz : z = 0 := by
        by_contra hz
        exact hne ⟨‖z‖⁻¹ • z, by simp [norm_smul, norm_ne_zero_iff.mpr hz]⟩
      subst hz; simp
  refine ⟨c / (2 * (m ^ 2 + 1)), by positivity, fun H hH y hy => ?_⟩
  set z : Fin m → ℝ := fun i => y i with hz
  have hn : 0 < ‖z‖ := by
    obtain ⟨b, hb, hb0⟩ := hy
    exact norm_pos_iff.mpr fun h0 => hb0 (congrFun h0 ⟨b, hb⟩)
  have e : ∑ b ∈ Finset.range m, y b * ∑ c ∈ Finset.range m, H b c * y c =
      ∑ b, z b * ∑ w : Fin m, H0 b w * z w + ∑ b : Fin m, ∑ w : Fin m, z b * ((H b w - H0 b w) * z w) := by
    simp only [Finset.sum_range, Finset.mul_sum, ← Finset.sum_add_distrib, hz]
    exact Finset.sum_congr rfl fun b _ => Finset.sum_congr rfl fun w _ => by ring
  have hb : |∑ b : Fin m, ∑ w : Fin m, z b * ((H b w - H0 b w) * z w)| ≤
      ∑ b : Fin m, ∑ w : Fin m, ‖z‖ * (c / (2 * (m ^ 2 + 1)) * ‖z‖) := by
    refine (Finset.abs_sum_le_sum_abs _ _).trans (Finset.sum_le_sum fun b _ =>
      (Finset.abs_sum_le_sum_abs _ _).trans (Finset.sum_le_sum fun w _ => ?_))
    rw [abs_mul, abs_mul]
    exact mul_le_mul (norm_le_pi_norm z b) (mul_le_mul (hH b b.2 w w.2) (norm_le_pi_norm z w) (abs_nonneg _)
      (by positivity)) (by positivity) (norm_nonneg _)
  simp only [Finset.sum_const, Finset.card_univ, Fintype.card_fin, nsmul_eq_mul] at hb
  have h1 := hcz z
  have h2 := (abs_le.mp hb).1
  have h3 : (m : ℝ) * (m * (‖z‖ * (c / (2 * (m ^ 2 + 1)) * ‖z‖))) < c * ‖z‖ ^ 2 := by
    have hm : (m : ℝ) ^ 2 / (2 * (m ^ 2 + 1)) < 1 := by
      rw [div_lt_one (by positivity)]
      nlinarith [sq_nonneg (m : ℝ)]
    calc (m : ℝ) * (m * (‖z‖ * (c / (2 * (m ^ 2 + 1)) * ‖z‖))) = (m : ℝ) ^ 2 / (2 * (m ^ 2 + 1)) * (c * ‖z‖ ^ 2) := by ring
      _ < 1 * (c * ‖z‖ ^ 2) := mul_lt_mul_of_pos_right hm (by positivity)
      _ = _ := one_mul _
  rw [e]
  linarith

/-- Second derivatives are symmetric. -/
theorem secondDeriv_comm {E : Type*} [NormedAddCommGroup E] [NormedSpace ℝ E] {f : E → ℝ} {x : E} {n : WithTop ℕ∞}
    (h : ContDiffAt ℝ n f x) (hn : 2 ≤ n) (u w : E) :
    fderiv ℝ (fun y => fderiv ℝ f y u) x w = fderiv ℝ (fun y => fderiv ℝ f y w) x u := by
  have hs : IsSymmSndFDerivAt ℝ f x := h.isSymmSndFDerivAt (by simpa using hn)
  have hd : DifferentiableAt ℝ (fderiv ℝ f) x :=
    (h.fderiv_right (m := 1) (hn.trans' (by norm_num))).differentiableAt (by norm_num)
  have e : ∀ v : E, fderiv ℝ (fun y => fderiv ℝ f y v) x = (fderiv ℝ (fderiv ℝ f) x).flip v := fun v =>
    (hd.hasFDerivAt.clm_apply (hasFDerivAt_const v x)).fderiv.trans (by ext w; simp)
  rw [e, e]
  exact hs w u

/-- A continuous family of bilinear forms that is definite at one place, with the sign `σ`, is definite near it. -/
theorem definite_open {E α : Type*} [NormedAddCommGroup E] [NormedSpace ℝ E] [FiniteDimensional ℝ E] [TopologicalSpace α]
    {B : α → E →L[ℝ] E →L[ℝ] ℝ} {u0 : α} (hc : ∀ ε > 0, ∀ᶠ u in 𝓝 u0, ‖B u - B u0‖ < ε) {σ : ℝ} (hσ : |σ| = 1)
    (h : ∀ s ≠ 0, 0 < σ * B u0 s s) : ∀ᶠ u in 𝓝 u0, ∀ s ≠ 0, 0 < σ * B u s s := by
  have : ProperSpace E := FiniteDimensional.proper ℝ E
  by_cases hne : (Metric.sphere (0 : E) 1).Nonempty
  · obtain ⟨z0, hz0, hmin⟩ := (isCompact_sphere (0 : E) 1).exists_isMinOn hne (f := fun s => σ * B u0 s s)
      ((continuous_const.mul ((B u0).continuous.clm_apply continuous_id)).continuousOn)
    have hpos := h z0 (Metric.ne_of_mem_sphere hz0 one_ne_zero)
    filter_upwards [hc _ hpos] with u hu s hs
    have hn : 0 < ‖s‖ := norm_pos_iff.mpr hs
    have h1 := hmin (a := ‖s‖⁻¹ • s) (by simp [norm_smul, hn.ne'])
    simp only [Set.mem_ofPred_eq, map_smul, _root_.smul_apply, smul_eq_mul] at h1
    have h2 : |σ * B u s s - σ * B u0 s s| ≤ ‖B u - B u0‖ * ‖s‖ * ‖s‖ := by
      have := (B u - B u0).le_opNorm₂ s s
      rw [← mul_sub, abs_mul, hσ, one_mul, ← Real.norm_eq_abs]
      exact this
    have h3 : σ * B u0 z0 z0 * (‖s‖ * ‖s‖) ≤ σ * B u0 s s := by
      have := mul_le_mul_of_nonneg_right h1 (mul_self_nonneg ‖s‖)
      refine this.trans_eq ?_
      field_simp
    have h4 := mul_lt_mul_of_pos_right hu (mul_pos hn hn)
    have h5 := (abs_le.mp h2).1
    rw [mul_assoc] at h5
    linarith
  · refine Filter.Eventually.of_forall fun u s hs => absurd ?_ hne
    exact ⟨‖s‖⁻¹ • s, by simp [norm_smul, norm_ne_zero_iff.mpr hs]⟩

theorem secondDeriv_cont {E : Type*} [NormedAddCommGroup E] [NormedSpace ℝ E] {f : E → ℝ} {x : E} {n : WithTop ℕ∞}
    (h : ContDiffAt ℝ n f x) (hn : 2 ≤ n) :
    ∀ ε > 0, ∀ᶠ u in 𝓝 x, ‖fderiv ℝ (fderiv ℝ f) u - fderiv ℝ (fderiv ℝ f) x‖ < ε := by
  intro ε hε
  have h1 : ContDiffAt ℝ 1 (fderiv ℝ f) x := h.fderiv_right (m := 1) (hn.trans' (by norm_num))
  have h2 := (h1.fderiv_right (m := 0) (by norm_num)).continuousAt
  filter_upwards [Metric.continuousAt_iff'.mp h2 ε hε] with u hu
  rwa [dist_eq_norm] at hu

/-- A positive form on pairs of indices, as a form on the rows and columns of a table. -/
theorem posForm_of_pairs {N n : ℕ} {F : Fin N → Fin n → Fin N → Fin n → ℝ}
    (h : ∀ s : Fin N → Fin n → ℝ, s ≠ 0 → 0 < ∑ i, ∑ v, s i v * ∑ j, ∑ w, F i v j w * s j w) {H : ℕ → ℕ → ℝ}
    (hH : ∀ i v j w, H ((i : Fin N) * n + (v : Fin n) : ℕ) ((j : Fin N) * n + (w : Fin n) : ℕ) = F i v j w) :
    PosForm (N * n) H := by
  rintro z ⟨b, hb, hz⟩
  have hn : 0 < n := Nat.pos_of_ne_zero fun h0 => by simp [h0] at hb
  have hsum : ∀ f : ℕ → ℝ, ∑ b ∈ Finset.range (N * n), f b = ∑ i : Fin N, ∑ v : Fin n, f (i * n + v) := by
    intro f
    rw [Finset.sum_range, ← Fintype.sum_prod_type' (f := fun (i : Fin N) (v : Fin n) => f (i * n + v)),
      ← finProdFinEquiv.sum_comp]
    refine Finset.sum_congr rfl fun p _ => congrArg f ?_
    rw [finProdFinEquiv_apply_val, add_comm, mul_comm]
  have := h (fun i v => z (i * n + v)) fun h0 => hz (by
    have := congrFun (congrFun h0 ⟨b / n, Nat.div_lt_of_lt_mul (by rwa [mul_comm] at hb)⟩) ⟨b % n, Nat.mod_lt _ hn⟩
    simpa only [Nat.div_add_mod', Pi.zero_apply] using this)
  rw [hsum]
  simp only [hsum, hH]
  exact this

end Verif.Opt
