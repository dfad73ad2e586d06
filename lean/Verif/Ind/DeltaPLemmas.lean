import Verif.Ind.Calculus
import Verif.Ind.DeltaP
import Mathlib.Analysis.InnerProductSpace.PiL2
import Mathlib.Analysis.SpecialFunctions.Pow.Deriv
import Mathlib.Analysis.InnerProductSpace.NormPow
import Mathlib.Topology.Algebra.Order.LiminfLimsup

/-!
# Helper lemmas for GD and IGD
-/

namespace Verif.Ind

open Topology

variable {N M n m : ℕ}

/-- The Euclidean distance. -/
noncomputable def eucl (y r : Fin m → ℝ) : ℝ :=
  dist (WithLp.toLp 2 y : EuclideanSpace ℝ (Fin m)) (WithLp.toLp 2 r)

/-- The distance to the nearest point of `R`. -/
noncomputable def nearest (R : Fin M → Fin m → ℝ) (y : Fin m → ℝ) : ℝ := ⨅ j, eucl y (R j)

theorem eucl_eq (y r : Fin m → ℝ) : eucl y r = √(∑ a, (y a - r a) ^ 2) := by
  unfold eucl
  rw [EuclideanSpace.dist_eq]
  simp [Real.dist_eq, sq_abs]

theorem eucl_comm (y r : Fin m → ℝ) : eucl y r = eucl r y := dist_comm _ _

theorem eucl_nonneg (y r : Fin m → ℝ) : 0 ≤ eucl y r := dist_nonneg

theorem eucl_eq_zero {y r : Fin m → ℝ} : eucl y r = 0 ↔ y = r := by
  unfold eucl
  rw [dist_eq_zero]
  exact (WithLp.toLp_injective 2).eq_iff

theorem cdist_eq (A : Fin N → Fin m → ℝ) (B : Fin M → Fin m → ℝ) (i : Fin N) (j : Fin M) :
    cdist A B i j = eucl (A i) (B j) := (eucl_eq _ _).symm

theorem argmin_le {f : Fin M → ℝ} {j : Fin M} (h : argmin f = some j) (k : Fin M) : f j ≤ f k := by
  unfold argmin at h
  have := List.find?_some h
  simp only [decide_eq_true_eq] at this
  exact this k

theorem argmin_isSome (hM : 0 < M) (f : Fin M → ℝ) : (argmin f).isSome := by
  have : Nonempty (Fin M) := ⟨⟨0, hM⟩⟩
  obtain ⟨j, hj⟩ := Finite.exists_min f
  unfold argmin
  rw [List.find?_isSome]
  exact ⟨j, by simp, by simpa using hj⟩

theorem argmin_empty (f : Fin 0 → ℝ) : argmin f = none := by simp [argmin]

theorem argminRows_eq_some {D : Fin N → Fin M → ℝ} {ind : Fin N → Fin M} (h : argminRows D = some ind)
    (i : Fin N) (k : Fin M) : D i (ind i) ≤ D i k := by
  unfold argminRows at h
  split_ifs at h with h0
  simp only [Option.some.injEq] at h
  subst h
  exact argmin_le (Option.some_get _).symm k

theorem exists_argminRows (hM : 0 < M) (D : Fin N → Fin M → ℝ) : ∃ ind, argminRows D = some ind := by
  unfold argminRows
  rw [dif_pos fun i => argmin_isSome hM _]
  exact ⟨_, rfl⟩

theorem argminRows_empty (hN : 0 < N) (D : Fin N → Fin 0 → ℝ) : argminRows D = none := by
  unfold argminRows
  rw [dif_neg]
  intro h
  have := h ⟨0, hN⟩
  rw [argmin_empty] at this
  simp at this

theorem nearest_eq {R : Fin M → Fin m → ℝ} {y : Fin m → ℝ} {j : Fin M}
    (h : ∀ k, eucl y (R j) ≤ eucl y (R k)) : nearest R y = eucl y (R j) := by
  have : Nonempty (Fin M) := ⟨j⟩
  exact le_antisymm (ciInf_le (Set.finite_range _).bddBelow j) (le_ciInf h)

theorem nearest_nonneg (R : Fin M → Fin m → ℝ) (y : Fin m → ℝ) : 0 ≤ nearest R y :=
  Real.iInf_nonneg fun _ => eucl_nonneg _ _

theorem nearest_eq_zero (hM : 0 < M) {R : Fin M → Fin m → ℝ} {y : Fin m → ℝ} :
    nearest R y = 0 ↔ ∃ j, y = R j := by
  have : Nonempty (Fin M) := ⟨⟨0, hM⟩⟩
  obtain ⟨j, hj⟩ := Finite.exists_min fun j => eucl y (R j)
  rw [nearest_eq hj]
  constructor
  · intro h; exact ⟨j, eucl_eq_zero.1 h⟩
  · rintro ⟨k, hk⟩
    refine le_antisymm ?_ (eucl_nonneg _ _)
    rw [← eucl_eq_zero.2 hk]
    exact hj k

theorem nearest_perm (R : Fin M → Fin m → ℝ) (τ : Equiv.Perm (Fin M)) (y : Fin m → ℝ) :
    nearest (R ∘ τ) y = nearest R y := by
  unfold nearest
  exact τ.iInf_comp (g := fun j => eucl y (R j))

theorem continuous_eucl (r : Fin m → ℝ) : Continuous fun y => eucl y r := by
  simp only [eucl_eq]
  fun_prop

theorem nearest_eventually {R : Fin M → Fin m → ℝ} {y : Fin m → ℝ} {j : Fin M}
    (h : ∀ k, k ≠ j → eucl y (R j) < eucl y (R k)) :
    ∀ᶠ y' in 𝓝 y, nearest R y' = eucl y' (R j) := by
  have : ∀ᶠ y' in 𝓝 y, ∀ k, k ≠ j → eucl y' (R j) < eucl y' (R k) := by
    rw [Filter.eventually_all]
    intro k
    by_cases hk : k = j
    · simp [hk]
    filter_upwards [((continuous_eucl (R j)).continuousAt).eventually_lt
      ((continuous_eucl (R k)).continuousAt) (h k hk)] with y' hy _
    exact hy
  filter_upwards [this] with y' hy'
  refine nearest_eq fun k => ?_
  by_cases hk : k = j
  · rw [hk]
  · exact (hy' k hk).le

/-! ### Derivatives of powers of the distance -/

theorem hasFDerivAt_sq (r y : Fin m → ℝ) :
    HasFDerivAt (fun y : Fin m → ℝ => ∑ a, (y a - r a) ^ 2) (lin fun a => 2 * (y a - r a)) y := by
  have h : HasFDerivAt (fun y : Fin m → ℝ => ∑ a, (y a - r a) ^ 2)
      (∑ a, (2 * (y a - r a)) • (ContinuousLinearMap.proj a : (Fin m → ℝ) →L[ℝ] ℝ)) y := by
    refine HasFDerivAt.fun_sum fun a _ => ?_
    have h1 : HasFDerivAt (fun y : Fin m → ℝ => y a - r a)
        (ContinuousLinearMap.proj a : (Fin m → ℝ) →L[ℝ] ℝ) y :=
      (ContinuousLinearMap.proj a : (Fin m → ℝ) →L[ℝ] ℝ).hasFDerivAt.sub_const _
    have h2 := h1.pow 2
    simpa using h2
  exact h

theorem eucl_rpow (y r : Fin m → ℝ) (q : ℝ) : eucl y r ^ q = (∑ a, (y a - r a) ^ 2) ^ (q / 2) := by
  rw [eucl_eq, Real.sqrt_eq_rpow, ← Real.rpow_mul (Finset.sum_nonneg fun a _ => sq_nonneg _)]
  congr 1
  ring

theorem sum_sq_ne_zero {y r : Fin m → ℝ} (h : y ≠ r) : ∑ a, (y a - r a) ^ 2 ≠ 0 := by
  intro h0
  exact h (eucl_eq_zero.1 (by rw [eucl_eq, h0, Real.sqrt_zero]))

theorem hasFDerivAt_eucl_rpow {p : ℝ} (y r : Fin m → ℝ) (h : y ≠ r ∨ 1 < p) :
    HasFDerivAt (fun y => eucl y r ^ p) (lin fun a => p * eucl y r ^ (p - 2) * (y a - r a)) y := by
  by_cases h0 : y = r
  · subst h0
    have hp : 1 < p := h.resolve_left fun h => h rfl
    have h1 := hasFDerivAt_norm_rpow (0 : EuclideanSpace ℝ (Fin m)) hp
    simp only [map_zero, smul_zero] at h1
    set L : (Fin m → ℝ) →L[ℝ] EuclideanSpace ℝ (Fin m) :=
      ((WithLp.linearEquiv 2 ℝ (Fin m → ℝ)).symm.toLinearMap).toContinuousLinearMap with hL
    have h2 : HasFDerivAt (fun z : Fin m → ℝ => L (z - y)) L y :=
      L.hasFDerivAt.comp y ((hasFDerivAt_id y).sub_const y)
    have h3 : (fun z : Fin m → ℝ => L (z - y)) y = 0 := by simp
    rw [← h3] at h1
    have h4 := h1.comp y h2
    simp only [sub_self, mul_zero]
    refine (h4.congr_of_eventuallyEq (Filter.Eventually.of_forall fun z => ?_)).congr_fderiv ?_
    · simp only [Function.comp, eucl, dist_eq_norm]
      rfl
    · ext v; simp
  · simp only [eucl_rpow]
    have h1 := (hasFDerivAt_sq r y).rpow_const (p := p / 2) (Or.inl (sum_sq_ne_zero h0))
    refine h1.congr_fderiv ?_
    ext v
    simp only [ContinuousLinearMap.smul_apply, lin_apply, smul_eq_mul, Finset.mul_sum]
    refine Finset.sum_congr rfl fun a _ => ?_
    rw [show p / 2 - 1 = (p - 2) / 2 by ring]
    ring

theorem hasFDerivAt_eucl_grad {p : ℝ} (y r : Fin m → ℝ) (a : Fin m) (h : y ≠ r ∨ p = 2) :
    HasFDerivAt (fun y => p * eucl y r ^ (p - 2) * (y a - r a))
      (lin fun b => p * ((if a = b then eucl y r ^ (p - 2) else 0) +
        (p - 2) * eucl y r ^ (p - 4) * ((y a - r a) * (y b - r b)))) y := by
  have h1 : HasFDerivAt (fun y : Fin m → ℝ => y a - r a)
      (ContinuousLinearMap.proj a : (Fin m → ℝ) →L[ℝ] ℝ) y :=
    (ContinuousLinearMap.proj a : (Fin m → ℝ) →L[ℝ] ℝ).hasFDerivAt.sub_const _
  rcases h with h | rfl
  · have h2 := ((hasFDerivAt_eucl_rpow (p := p - 2) y r (Or.inl h)).const_mul p).mul h1
    refine h2.congr_fderiv ?_
    ext v
    simp only [ContinuousLinearMap.add_apply, ContinuousLinearMap.smul_apply, lin_apply, smul_eq_mul,
      ContinuousLinearMap.proj_apply, mul_add, add_mul, Finset.sum_add_distrib, Finset.mul_sum]
    congr 1
    · rw [Finset.sum_eq_single a]
      · simp
      · intro b _ hb; simp [hb.symm]
      · simp
    · refine Finset.sum_congr rfl fun b _ => ?_
      rw [show p - 2 - 2 = p - 4 by ring]
      ring
  · have h2 := h1.const_mul (2 : ℝ)
    simp only [sub_self, Real.rpow_zero, mul_one, zero_mul, add_zero]
    refine h2.congr_fderiv ?_
    ext v
    simp only [ContinuousLinearMap.smul_apply, lin_apply, smul_eq_mul, ContinuousLinearMap.proj_apply]
    rw [Finset.sum_eq_single a]
    · simp
    · intro b _ hb; simp [hb.symm]
    · simp

end Verif.Ind
