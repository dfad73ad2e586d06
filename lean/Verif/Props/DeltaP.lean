import Verif.Ind.DeltaPLemmas

/-!
# C36, C37: GD and IGD
-/

namespace Verif.Props

open Verif.Ind Topology

variable {N M n m : ℕ}

/-! ## C36 -/

/-- The specification: `GD^p`, the mean of the `p`-th powers of the Euclidean distances of the points of
`Y` to the nearest point of `R`. -/
noncomputable def gdPow (p : ℝ) (R : Fin M → Fin m → ℝ) (Y : Fin N → Fin m → ℝ) : ℝ :=
  (∑ i, nearest R (Y i) ^ p) / N

/-- C36, value: `compute` returns the `p`-mean of the nearest distances; without points or without
reference points there is no value. -/
theorem C36_value (p : ℝ) (R : Fin M → Fin m → ℝ) (Y : Fin N → Fin m → ℝ) :
    gdCompute p R Y = if N = 0 ∨ M = 0 then none else some (gdPow p R Y ^ (1 / p)) := by
  rcases Nat.eq_zero_or_pos N with rfl | hN
  · simp only [true_or, if_true]
    unfold gdCompute mean
    simp
  rcases Nat.eq_zero_or_pos M with rfl | hM
  · unfold gdCompute
    rw [argminRows_empty hN]
    simp
  rw [if_neg (by omega)]
  unfold gdCompute
  obtain ⟨ind, hind⟩ := exists_argminRows hM (cdist Y R)
  rw [hind]
  simp only [Option.bind_some, mean]
  rw [if_neg (by omega), Option.map_some, gdPow]
  congr 3
  refine Finset.sum_congr rfl fun i _ => ?_
  rw [cdist_eq, nearest_eq]
  intro k
  have := argminRows_eq_some hind i k
  rwa [cdist_eq, cdist_eq] at this

/-- C36: the value is nonnegative, and zero exactly if every point lies in the reference set. -/
theorem C36_zero {p : ℝ} (hp : 0 < p) {R : Fin M → Fin m → ℝ} {Y : Fin N → Fin m → ℝ} {v : ℝ}
    (h : gdCompute p R Y = some v) : 0 ≤ v ∧ (v = 0 ↔ ∀ i, ∃ j, Y i = R j) := by
  rw [C36_value] at h
  split_ifs at h with h0
  simp only [Option.some.injEq] at h
  subst h
  have hnn : ∀ i, 0 ≤ nearest R (Y i) ^ p := fun i => Real.rpow_nonneg (nearest_nonneg _ _) _
  have hs : 0 ≤ gdPow p R Y := div_nonneg (Finset.sum_nonneg fun i _ => hnn i) (Nat.cast_nonneg _)
  refine ⟨Real.rpow_nonneg hs _, ?_⟩
  rw [Real.rpow_eq_zero hs (by positivity), gdPow, div_eq_zero_iff,
    Finset.sum_eq_zero_iff_of_nonneg fun i _ => hnn i]
  constructor
  · rintro (h | h)
    · intro i
      have := h i (Finset.mem_univ i)
      rw [Real.rpow_eq_zero (nearest_nonneg _ _) hp.ne'] at this
      exact (nearest_eq_zero (by omega)).1 this
    · exact absurd (Nat.cast_eq_zero.1 h) (by omega)
  · intro h
    left
    intro i _
    rw [Real.rpow_eq_zero (nearest_nonneg _ _) hp.ne']
    exact (nearest_eq_zero (by omega)).2 (h i)

/-- C36: the value does not depend on the order of the points or of the reference points. -/
theorem C36_permutation (p : ℝ) (R : Fin M → Fin m → ℝ) (Y : Fin N → Fin m → ℝ)
    (σ : Equiv.Perm (Fin N)) (τ : Equiv.Perm (Fin M)) :
    gdCompute p (R ∘ τ) (Y ∘ σ) = gdCompute p R Y := by
  rw [C36_value, C36_value]
  congr 3
  unfold gdPow
  congr 1
  simp only [nearest_perm, Function.comp]
  exact Equiv.sum_comp σ fun i => nearest R (Y i) ^ p

/-- The objective's Jacobian is its derivative at the points of `X`. -/
def HasJac (o : Objective n m) (X : Fin N → Fin n → ℝ) : Prop :=
  ∀ i a, HasFDerivAt (fun x => o.func x a) (lin (o.jac (X i) a)) (X i)

/-- Jacobian and Hessian are the derivatives of the objective near the points of `X`. -/
structure HasHess (o : Objective n m) (X : Fin N → Fin n → ℝ) : Prop where
  jac : ∀ i, ∀ᶠ x in 𝓝 (X i), ∀ a, HasFDerivAt (fun x => o.func x a) (lin (o.jac x a)) x
  hess : ∀ i a k, HasFDerivAt (fun x => o.jac x a k) (lin (o.hess (X i) a k)) (X i)

theorem HasHess.hasJac {o : Objective n m} {X : Fin N → Fin n → ℝ} (h : HasHess o X) : HasJac o X :=
  fun i a => (h.jac i).self_of_nhds a

/-- `q i` is the only nearest reference point of `Y i`. -/
def NearestUnique (R : Fin M → Fin m → ℝ) (Y : Fin N → Fin m → ℝ) (q : Fin N → Fin M) : Prop :=
  ∀ i k, k ≠ q i → eucl (Y i) (R (q i)) < eucl (Y i) (R k)

theorem NearestUnique.eq {R : Fin M → Fin m → ℝ} {Y : Fin N → Fin m → ℝ} {q : Fin N → Fin M}
    (h : NearestUnique R Y q) (i : Fin N) : nearest R (Y i) = eucl (Y i) (R (q i)) := by
  refine nearest_eq fun k => ?_
  by_cases hk : k = q i
  · rw [hk]
  · exact (h i k hk).le

theorem NearestUnique.argminRows {R : Fin M → Fin m → ℝ} {Y : Fin N → Fin m → ℝ} {q : Fin N → Fin M}
    (h : NearestUnique R Y q) (hN : 0 < N) : argminRows (cdist Y R) = some q := by
  have hM : 0 < M := (Nat.zero_le _).trans_lt (q ⟨0, hN⟩).2
  obtain ⟨ind, hind⟩ := exists_argminRows hM (cdist Y R)
  rw [hind]
  congr 1
  funext i
  by_contra hne
  have h1 := argminRows_eq_some hind i (q i)
  rw [cdist_eq, cdist_eq] at h1
  exact absurd (h i _ hne) (not_lt.2 h1)

theorem gdPow_hasFDerivAt {p : ℝ} {R : Fin M → Fin m → ℝ} {Y : Fin N → Fin m → ℝ} {q : Fin N → Fin M}
    (h : NearestUnique R Y q) (hp : ∀ i, Y i ≠ R (q i) ∨ 1 < p) :
    HasFDerivAt (gdPow p R)
      (lin2 fun i a => p / N * eucl (Y i) (R (q i)) ^ (p - 2) * (Y i a - R (q i) a)) Y := by
  have h1 := hasFDerivAt_sum_rows (φ := fun _ y => nearest R y ^ p)
    (c := fun i a => p * eucl (Y i) (R (q i)) ^ (p - 2) * (Y i a - R (q i) a)) (Y := Y) (fun i => by
      refine (hasFDerivAt_eucl_rpow (Y i) (R (q i)) (hp i)).congr_of_eventuallyEq ?_
      filter_upwards [nearest_eventually (h i)] with y hy
      rw [hy])
  have h2 := h1.mul_const (N : ℝ)⁻¹
  unfold gdPow
  simp only [div_eq_mul_inv]
  refine h2.congr_fderiv ?_
  ext V
  simp only [ContinuousLinearMap.smul_apply, lin2_apply, smul_eq_mul, Finset.mul_sum]
  exact Finset.sum_congr rfl fun i _ => Finset.sum_congr rfl fun a _ => by ring

/-- C36, gradient: where the nearest reference points are unique and `2 ≤ p`, or no point lies in the
reference set, the reported gradient is the derivative of `X ↦ GD^p`. -/
theorem C36_gradient {o : Objective n m} {p : ℝ} {R : Fin M → Fin m → ℝ} {X : Fin N → Fin n → ℝ}
    {Y : Option (Fin N → Fin m → ℝ)} {b : Bool} {J : Option (Fin N → Fin m → Fin n → ℝ)}
    {q : Fin N → Fin M} (hN : 0 < N) (hY : o.images X Y = fun i => o.func (X i))
    (hJ : o.jacobians X J = fun i => o.jac (X i)) (ho : HasJac o X)
    (hq : NearestUnique R (fun i => o.func (X i)) q)
    (hp : ∀ i, o.func (X i) ≠ R (q i) ∨ 2 ≤ p) :
    ∃ r g, gdDerivs o p R X Y b J = some r ∧ (∀ i k, r.grad i k = some (g i k)) ∧
      HasFDerivAt (fun X' : Fin N → Fin n → ℝ => gdPow p R fun i => o.func (X' i)) (lin2 g) X := by
  unfold gdDerivs
  rw [if_neg hN.ne', hY, hJ, hq.argminRows hN, Option.map_some]
  refine ⟨_, fun i k => p / N * eucl (o.func (X i)) (R (q i)) ^ (p - 2) *
    ∑ a, o.jac (X i) a k * (o.func (X i) a - R (q i) a), rfl, ?_, ?_⟩
  · intro i k
    simp only [← eucl_eq, npPow]
    rw [if_neg, Option.map_some]
    rintro ⟨h1, h2⟩
    rcases hp i with h | h
    · exact h (eucl_eq_zero.1 h1)
    · linarith
  · refine (hasFDerivAt_comp_images (gdPow_hasFDerivAt hq fun i => (hp i).imp_right (by intro h; linarith)) ho).congr_fderiv ?_
    congr 1
    funext i k
    rw [Finset.mul_sum]
    exact Finset.sum_congr rfl fun a _ => by ring

/-- `GD^p` has a derivative also at points of the reference set, if `1 < p` and nearest points are
unique. -/
theorem gdPow_differentiableAt {o : Objective n m} {p : ℝ} {R : Fin M → Fin m → ℝ} {X : Fin N → Fin n → ℝ}
    {q : Fin N → Fin M} (hp : 1 < p) (ho : HasJac o X) (hq : NearestUnique R (fun i => o.func (X i)) q) :
    DifferentiableAt ℝ (fun X' : Fin N → Fin n → ℝ => gdPow p R fun i => o.func (X' i)) X :=
  (hasFDerivAt_comp_images (gdPow_hasFDerivAt hq fun _ => Or.inr hp) ho).differentiableAt

/-- C36, gradient: for `p < 2` every component of the gradient of a point in the reference set is NaN. -/
theorem C36_gradient_nan {o : Objective n m} {p : ℝ} {R : Fin M → Fin m → ℝ} {X : Fin N → Fin n → ℝ}
    {Y : Option (Fin N → Fin m → ℝ)} {b : Bool} {J : Option (Fin N → Fin m → Fin n → ℝ)} {i : Fin N}
    {j : Fin M} (hp : p < 2) (hi : o.images X Y i = R j) :
    ∃ r, gdDerivs o p R X Y b J = some r ∧ ∀ k, r.grad i k = none := by
  have hN : 0 < N := (Nat.zero_le _).trans_lt i.2
  have hM : 0 < M := (Nat.zero_le _).trans_lt j.2
  obtain ⟨ind, hind⟩ := exists_argminRows hM (cdist (o.images X Y) R)
  unfold gdDerivs
  rw [if_neg hN.ne', hind, Option.map_some]
  refine ⟨_, rfl, fun k => ?_⟩
  have h1 := argminRows_eq_some hind i j
  rw [cdist_eq, cdist_eq, hi, eucl_eq_zero.2 rfl] at h1
  have h2 := le_antisymm h1 (eucl_nonneg _ _)
  simp only [← eucl_eq, npPow]
  rw [if_pos ⟨by rw [hi]; exact h2, by linarith⟩]
  rfl

theorem gdHess_sum {S : Fin N → Fin m → Fin m → ℝ} (g : Fin N → Fin m → ℝ)
    (J : Fin N → Fin m → Fin n → ℝ) (T : Fin N → Fin m → Fin n → Fin n → ℝ) (V : Fin N → Fin n → ℝ)
    (j : Fin N) (l : Fin n) :
    ∑ i, ∑ k, V i k * hessChain g (fun i a j b => if i = j then S i a b else 0) J T i k j l =
      ∑ k, V j k * (∑ a, ∑ b, J j a k * S j a b * J j b l + ∑ a, g j a * T j a k l) := by
  rw [Finset.sum_eq_single j]
  · simp [hessChain]
  · intro i _ hi
    refine Finset.sum_eq_zero fun k _ => ?_
    simp [hessChain, hi]
  · simp

/-- C36, Hessian for every `p`: where the nearest reference points are unique and no point lies in the
reference set (or `p = 2`), the second derivative of `X ↦ GD^p` is block diagonal, and its block of point
`i` is the reported one plus `p / N (‖f(x_i) - r‖^(p - 2) - 1) (JᵀJ + Σ_a (f(x_i) - r)_a ∇²f_a)`. -/
theorem C36_hessian_error {o : Objective n m} {p : ℝ} {R : Fin M → Fin m → ℝ} {X : Fin N → Fin n → ℝ}
    {Y : Option (Fin N → Fin m → ℝ)} {J : Option (Fin N → Fin m → Fin n → ℝ)}
    {q : Fin N → Fin M} (hN : 0 < N) (hY : o.images X Y = fun i => o.func (X i))
    (hJ : o.jacobians X J = fun i => o.jac (X i)) (ho : HasHess o X)
    (hq : NearestUnique R (fun i => o.func (X i)) q)
    (hp : ∀ i, o.func (X i) ≠ R (q i) ∨ p = 2) :
    ∃ r H, gdDerivs o p R X Y true J = some r ∧ r.hessian = some H ∧ ∀ V : Fin N → Fin n → ℝ,
      HasFDerivAt (fun X' => fderiv ℝ
          (fun X' : Fin N → Fin n → ℝ => gdPow p R fun i => o.func (X' i)) X' V)
        (lin2 fun i l => ∑ k, V i k * (H i k l +
          p / N * (eucl (o.func (X i)) (R (q i)) ^ (p - 2) - 1) *
            (∑ a, o.jac (X i) a k * o.jac (X i) a l +
              ∑ a, (o.func (X i) a - R (q i) a) * o.hess (X i) a k l))) X := by
  unfold gdDerivs
  rw [if_neg hN.ne', hY, hJ, hq.argminRows hN, Option.map_some]
  refine ⟨_, _, rfl, rfl, fun V => ?_⟩
  have hev : ∀ᶠ Y' in 𝓝 (fun i => o.func (X i)), HasFDerivAt (gdPow p R)
      (lin2 fun i a => p / N * eucl (Y' i) (R (q i)) ^ (p - 2) * (Y' i a - R (q i) a)) Y' := by
    have h1 : ∀ᶠ Y' in 𝓝 (fun i => o.func (X i)), NearestUnique R Y' q := by
      unfold NearestUnique
      rw [Filter.eventually_all]
      intro i
      rw [Filter.eventually_all]
      intro k
      by_cases hk : k = q i
      · simp [hk]
      have hc : ∀ r, ContinuousAt (fun Y' : Fin N → Fin m → ℝ => eucl (Y' i) r) fun i => o.func (X i) :=
        fun r => ((continuous_eucl r).comp (continuous_apply i)).continuousAt
      filter_upwards [(hc (R (q i))).eventually_lt (hc (R k)) (hq i k hk)] with Y' hY' _
      exact hY'
    have h2 : ∀ᶠ Y' in 𝓝 (fun i => o.func (X i)), ∀ i, Y' i ≠ R (q i) ∨ 1 < p := by
      rw [Filter.eventually_all]
      intro i
      rcases hp i with h | h
      · have hc : ContinuousAt (fun Y' : Fin N → Fin m → ℝ => Y' i) fun i => o.func (X i) :=
          (continuous_apply i).continuousAt
        filter_upwards [hc.eventually_ne h] with Y' hY'
        exact Or.inl hY'
      · exact Filter.Eventually.of_forall fun _ => Or.inr (by linarith)
    filter_upwards [h1, h2] with Y' h1 h2
    exact gdPow_hasFDerivAt h1 h2
  have hG : ∀ i a, HasFDerivAt (fun Y' : Fin N → Fin m → ℝ =>
      p / N * eucl (Y' i) (R (q i)) ^ (p - 2) * (Y' i a - R (q i) a))
      (lin2 fun j b => if i = j then 1 / N * (p * ((if a = b then
          eucl (o.func (X i)) (R (q i)) ^ (p - 2) else 0) +
        (p - 2) * eucl (o.func (X i)) (R (q i)) ^ (p - 4) *
          ((o.func (X i) a - R (q i) a) * (o.func (X i) b - R (q i) b)))) else 0)
      fun i => o.func (X i) := by
    intro i a
    have h1 := (hasFDerivAt_eucl_grad (p := p) (o.func (X i)) (R (q i)) a (hp i)).const_mul (1 / N : ℝ)
    have h2 := hasFDerivAt_of_row (φ := fun y => 1 / N * (p * eucl y (R (q i)) ^ (p - 2) * (y a - R (q i) a)))
      (c := fun b => 1 / N * (p * ((if a = b then
          eucl (o.func (X i)) (R (q i)) ^ (p - 2) else 0) +
        (p - 2) * eucl (o.func (X i)) (R (q i)) ^ (p - 4) *
          ((o.func (X i) a - R (q i) a) * (o.func (X i) b - R (q i) b))))) i
      (Y := fun i => o.func (X i)) (h1.congr_fderiv (by
        ext v
        simp only [ContinuousLinearMap.smul_apply, lin_apply, smul_eq_mul, Finset.mul_sum]
        exact Finset.sum_congr rfl fun b _ => by ring))
    refine (h2.congr_of_eventuallyEq (Filter.Eventually.of_forall fun Y' => ?_)).congr_fderiv ?_
    · simp only; ring
    · congr 1
      funext j b
      simp only [eq_comm]
  have hm := hasFDerivAt_fderiv_images hev hG ho.jac ho.hess V
  refine hm.congr_fderiv ?_
  congr 1
  funext j l
  rw [gdHess_sum]
  refine Finset.sum_congr rfl fun k _ => ?_
  congr 1
  simp only [← eucl_eq]
  have hN' : (N : ℝ) ≠ 0 := by exact_mod_cast hN.ne'
  have hterm : (if p ≠ 2 then p * (p - 2) / (N : ℝ) *
      (if eucl (o.func (X j)) (R (q j)) ≠ 0 then eucl (o.func (X j)) (R (q j)) ^ (p - 4) else 0) *
      ((∑ a, o.jac (X j) a k * (o.func (X j) a - R (q j) a)) *
        ∑ a, o.jac (X j) a l * (o.func (X j) a - R (q j) a)) else 0) =
      p * (p - 2) / N * eucl (o.func (X j)) (R (q j)) ^ (p - 4) *
      ((∑ a, o.jac (X j) a k * (o.func (X j) a - R (q j) a)) *
        ∑ a, o.jac (X j) a l * (o.func (X j) a - R (q j) a)) := by
    by_cases h2 : p = 2
    · simp [h2]
    · have h3 : eucl (o.func (X j)) (R (q j)) ≠ 0 := fun h =>
        (hp j).elim (fun h' => h' (eucl_eq_zero.1 h)) h2
      rw [if_pos h2, if_pos h3]
  rw [hterm, Finset.sum_mul_sum, Finset.mul_sum]
  generalize eucl (o.func (X j)) (R (q j)) ^ (p - 2) = e2
  generalize eucl (o.func (X j)) (R (q j)) ^ (p - 4) = e4
  have hA : ∑ a, ∑ b, o.jac (X j) a k * (1 / N * (p * ((if a = b then e2 else 0) +
        (p - 2) * e4 * ((o.func (X j) a - R (q j) a) * (o.func (X j) b - R (q j) b))))) *
        o.jac (X j) b l =
      p / N * e2 * ∑ a, o.jac (X j) a k * o.jac (X j) a l +
      ∑ a, p * (p - 2) / N * e4 * ∑ b, (o.jac (X j) a k * (o.func (X j) a - R (q j) a)) *
        (o.jac (X j) b l * (o.func (X j) b - R (q j) b)) := by
    rw [Finset.mul_sum, ← Finset.sum_add_distrib]
    refine Finset.sum_congr rfl fun a _ => ?_
    have : ∀ b, o.jac (X j) a k * (1 / N * (p * ((if a = b then e2 else 0) +
        (p - 2) * e4 * ((o.func (X j) a - R (q j) a) * (o.func (X j) b - R (q j) b))))) *
        o.jac (X j) b l = (if a = b then p / N * e2 * (o.jac (X j) a k * o.jac (X j) b l) else 0) +
        p * (p - 2) / N * e4 * ((o.jac (X j) a k * (o.func (X j) a - R (q j) a)) *
        (o.jac (X j) b l * (o.func (X j) b - R (q j) b))) := by
      intro b
      split_ifs <;> ring
    rw [Finset.sum_congr rfl fun b _ => this b, Finset.sum_add_distrib]
    simp [Finset.mul_sum]
  rw [hA]
  have hB : ∑ a, p / N * e2 * (o.func (X j) a - R (q j) a) * o.hess (X j) a k l =
      p / N * e2 * ∑ a, (o.func (X j) a - R (q j) a) * o.hess (X j) a k l := by
    rw [Finset.mul_sum]
    exact Finset.sum_congr rfl fun a _ => by ring
  have hC : ∑ a, o.hess (X j) a k l * (o.func (X j) a - R (q j) a) =
      ∑ a, (o.func (X j) a - R (q j) a) * o.hess (X j) a k l :=
    Finset.sum_congr rfl fun a _ => by ring
  rw [hB, hC]
  ring

/-- C36, Hessian for `p = 2`: the reported Hessian is the second derivative of `X ↦ GD^2`. -/
theorem C36_hessian {o : Objective n m} {R : Fin M → Fin m → ℝ} {X : Fin N → Fin n → ℝ}
    {Y : Option (Fin N → Fin m → ℝ)} {J : Option (Fin N → Fin m → Fin n → ℝ)}
    {q : Fin N → Fin M} (hN : 0 < N) (hY : o.images X Y = fun i => o.func (X i))
    (hJ : o.jacobians X J = fun i => o.jac (X i)) (ho : HasHess o X)
    (hq : NearestUnique R (fun i => o.func (X i)) q) :
    ∃ r H, gdDerivs o 2 R X Y true J = some r ∧ r.hessian = some H ∧ ∀ V : Fin N → Fin n → ℝ,
      HasFDerivAt (fun X' => fderiv ℝ
          (fun X' : Fin N → Fin n → ℝ => gdPow 2 R fun i => o.func (X' i)) X' V)
        (lin2 fun i l => ∑ k, V i k * H i k l) X := by
  obtain ⟨r, H, h1, h2, h3⟩ := C36_hessian_error hN hY hJ ho hq fun _ => Or.inr rfl
  refine ⟨r, H, h1, h2, fun V => (h3 V).congr_fderiv ?_⟩
  simp

/-! ### Examples and violations -/

/-- Two variables and two objectives with curvature. -/
def gdObjective : Objective 2 2 where
  func x := ![x 0 ^ 2 + x 1, x 1]
  jac x := ![![2 * x 0, 1], ![0, 1]]
  hess _ := ![![![2, 0], ![0, 0]], ![![0, 0], ![0, 0]]]

theorem gdObjective_hasHess (X : Fin N → Fin 2 → ℝ) : HasHess gdObjective X := by
  have h0 : ∀ x : Fin 2 → ℝ, HasFDerivAt (fun x : Fin 2 → ℝ => x 0)
      (ContinuousLinearMap.proj 0 : (Fin 2 → ℝ) →L[ℝ] ℝ) x :=
    fun x => (ContinuousLinearMap.proj 0 : (Fin 2 → ℝ) →L[ℝ] ℝ).hasFDerivAt
  have h1 : ∀ x : Fin 2 → ℝ, HasFDerivAt (fun x : Fin 2 → ℝ => x 1)
      (ContinuousLinearMap.proj 1 : (Fin 2 → ℝ) →L[ℝ] ℝ) x :=
    fun x => (ContinuousLinearMap.proj 1 : (Fin 2 → ℝ) →L[ℝ] ℝ).hasFDerivAt
  constructor
  · refine fun i => Filter.Eventually.of_forall fun x a => ?_
    fin_cases a
    · refine (((h0 x).pow 2).add (h1 x)).congr_fderiv ?_
      ext v
      simp [gdObjective, Fin.sum_univ_two]
    · refine (h1 x).congr_fderiv ?_
      ext v
      simp [gdObjective, Fin.sum_univ_two]
  · intro i a k
    fin_cases a <;> fin_cases k
    · refine ((h0 (X i)).const_mul 2).congr_fderiv ?_
      ext v
      simp [gdObjective, Fin.sum_univ_two]
    · refine (hasFDerivAt_const (1 : ℝ) (X i)).congr_fderiv ?_
      ext v
      simp [gdObjective, Fin.sum_univ_two]
    · refine (hasFDerivAt_const (0 : ℝ) (X i)).congr_fderiv ?_
      ext v
      simp [gdObjective, Fin.sum_univ_two]
    · refine (hasFDerivAt_const (1 : ℝ) (X i)).congr_fderiv ?_
      ext v
      simp [gdObjective, Fin.sum_univ_two]

/-- The hypotheses of `C36_gradient`, `C36_hessian_error` and `C36_hessian` hold for two points, two
reference points, two variables and two objectives. -/
example : HasHess gdObjective ![![1, 0], ![0, 2]] ∧
    NearestUnique ![![0, 0], ![3, 3]] (fun i => gdObjective.func (![![1, 0], ![0, 2]] i)) ![0, 1] ∧
    (∀ i, gdObjective.func (![![1, 0], ![0, 2]] i) ≠
      (![![0, 0], ![3, 3]] : Fin 2 → Fin 2 → ℝ) (![0, 1] i)) := by
  refine ⟨gdObjective_hasHess _, ?_, ?_⟩
  · intro i k hk
    rw [eucl_eq, eucl_eq]
    refine Real.sqrt_lt_sqrt (Finset.sum_nonneg fun a _ => sq_nonneg _) ?_
    fin_cases i <;> fin_cases k <;> simp [gdObjective, Fin.sum_univ_two] at hk ⊢ <;> norm_num
  · intro i h
    have := congrFun h 0
    fin_cases i <;> simp [gdObjective] at this

/-- One variable, one objective, the identity. -/
def identity1 : Objective 1 1 where
  func x := x
  jac _ _ _ := 1
  hess _ _ _ _ := 0

theorem identity1_hasHess (X : Fin N → Fin 1 → ℝ) : HasHess identity1 X := by
  constructor
  · refine fun i => Filter.Eventually.of_forall fun x a => ?_
    refine ((ContinuousLinearMap.proj a : (Fin 1 → ℝ) →L[ℝ] ℝ).hasFDerivAt).congr_fderiv ?_
    ext v
    fin_cases a
    simp [identity1]
  · intro i a k
    refine (hasFDerivAt_const (1 : ℝ) (X i)).congr_fderiv ?_
    ext v
    simp [identity1]

theorem nearestUnique_single (R : Fin 1 → Fin m → ℝ) (Y : Fin N → Fin m → ℝ) :
    NearestUnique R Y fun _ => 0 := fun i k hk => absurd (Subsingleton.elim k 0) hk

/-- C36 is violated for `p ≠ 2`: for `p = 4`, the point 2 and the reference point 0 on the line,
`GD^4 = x^4` has the second derivative 48, the reported Hessian is 36. -/
theorem C36_violated_hessian : ∃ r H, gdDerivs identity1 4 (fun _ _ : Fin 1 => 0) (fun _ _ : Fin 1 => 2)
      none true none = some r ∧ r.hessian = some H ∧ H 0 0 0 = 36 ∧
    ∀ V : Fin 1 → Fin 1 → ℝ, HasFDerivAt (fun X' => fderiv ℝ (fun X' : Fin 1 → Fin 1 → ℝ =>
      gdPow 4 (fun _ _ : Fin 1 => (0 : ℝ)) fun i => identity1.func (X' i)) X' V)
      (lin2 fun i l => ∑ k, V i k * 48) fun _ _ => 2 := by
  have he : eucl (fun _ : Fin 1 => (2 : ℝ)) (fun _ => 0) = 2 := by
    rw [eucl_eq]
    simp
  obtain ⟨r, H, h1, h2, h3⟩ := C36_hessian_error (p := 4) (q := fun _ => 0) (o := identity1)
    (R := fun _ _ : Fin 1 => 0) (X := fun _ _ : Fin 1 => 2) (Y := none) (J := none) one_pos rfl rfl
    (identity1_hasHess _) (nearestUnique_single _ _)
    (fun i => Or.inl fun h => by have := congrFun h 0; simp [identity1] at this)
  have hH : H 0 0 0 = 36 := by
    unfold gdDerivs at h1
    rw [if_neg one_ne_zero, Option.map_eq_some_iff] at h1
    obtain ⟨ind, -, rfl⟩ := h1
    simp only [if_true, Option.some.injEq] at h2
    rw [← h2]
    simp [identity1, Objective.images, Objective.jacobians]
    norm_num
  refine ⟨r, H, h1, h2, hH, fun V => (h3 V).congr_fderiv ?_⟩
  congr 1
  funext i l
  refine Finset.sum_congr rfl fun k _ => ?_
  rw [Subsingleton.elim i 0, Subsingleton.elim k 0, Subsingleton.elim l 0, hH]
  simp only [identity1, he]
  norm_num

/-- C36 is violated for `1 < p < 2`: where a point lies in the reference set, the reported gradient is
NaN, although `GD^p` is differentiable. -/
theorem C36_violated_gradient : ∃ r, gdDerivs identity1 (3 / 2) (fun _ _ : Fin 1 => 0)
      (fun _ _ : Fin 1 => 0) none false none = some r ∧ r.grad 0 0 = none ∧
    DifferentiableAt ℝ (fun X' : Fin 1 → Fin 1 → ℝ =>
      gdPow (3 / 2) (fun _ _ : Fin 1 => (0 : ℝ)) fun i => identity1.func (X' i)) fun _ _ => 0 := by
  obtain ⟨r, h1, h2⟩ := C36_gradient_nan (o := identity1) (p := 3 / 2) (R := fun _ _ : Fin 1 => 0)
    (X := fun _ _ : Fin 1 => 0) (Y := none) (b := false) (J := none) (i := 0) (j := 0) (by norm_num) rfl
  exact ⟨r, h1, h2 0, gdPow_differentiableAt (by norm_num) (identity1_hasHess _).hasJac
    (nearestUnique_single _ _)⟩

/-! ## C37 -/

/-- The specification: `IGD^p`, the mean of the `p`-th powers of the Euclidean distances of the reference
points to the nearest point of `Y`. -/
noncomputable def igdPow (p : ℝ) (R : Fin M → Fin m → ℝ) (Y : Fin N → Fin m → ℝ) : ℝ :=
  (∑ j, nearest Y (R j) ^ p) / M

/-- C37, value: `compute` returns the `p`-mean of the distances of the reference points to the nearest
point; without points or without reference points there is no value. -/
theorem C37_value (p : ℝ) (R : Fin M → Fin m → ℝ) (Y : Fin N → Fin m → ℝ) :
    igdCompute p R Y = if M = 0 ∨ N = 0 then none else some (igdPow p R Y ^ (1 / p)) :=
  C36_value p Y R

theorem closestTo_sum (q : Fin M → Fin N) (i : Fin N) (f : Fin M → ℝ) :
    ((closestTo q i).map f).sum = ∑ j, if q j = i then f j else 0 := by
  unfold closestTo
  rw [← List.sum_toFinset _ ((List.nodup_finRange M).filter _), ← Finset.sum_filter]
  refine Finset.sum_congr ?_ fun _ _ => rfl
  ext j
  simp

theorem closestCount_eq (q : Fin M → Fin N) (i : Fin N) :
    (closestCount q i : ℝ) = ∑ j, if q j = i then 1 else 0 := by
  unfold closestCount
  rw [Finset.sum_boole]
  congr 1
  rw [List.ofFn_eq_map, List.count, List.countP_map, List.countP_eq_length_filter,
    ← List.toFinset_card_of_nodup ((List.nodup_finRange M).filter _)]
  congr 1
  ext j
  simp

theorem nearest_eventually_set {R : Fin M → Fin m → ℝ} {Y : Fin N → Fin m → ℝ} {q : Fin M → Fin N}
    (h : NearestUnique Y R q) : ∀ᶠ Y' in 𝓝 Y, ∀ j, nearest Y' (R j) = eucl (R j) (Y' (q j)) := by
  have hc : ∀ j k, Continuous fun Y' : Fin N → Fin m → ℝ => eucl (R j) (Y' k) := by
    intro j k
    simp only [eucl_comm (R j)]
    exact (continuous_eucl (R j)).comp (continuous_apply k)
  have : ∀ᶠ Y' in 𝓝 Y, NearestUnique Y' R q := by
    unfold NearestUnique
    rw [Filter.eventually_all]
    intro j
    rw [Filter.eventually_all]
    intro k
    by_cases hk : k = q j
    · simp [hk]
    filter_upwards [(hc j (q j)).continuousAt.eventually_lt (hc j k).continuousAt (h j k hk)]
      with Y' hY' _
    exact hY'
  filter_upwards [this] with Y' hY' j
  exact hY'.eq j

/-- `Σ_j ‖y_{q j} - r_j‖²` and its derivatives. -/
theorem assigned_hasFDerivAt (c : ℝ) (R : Fin M → Fin m → ℝ) (q : Fin M → Fin N) (Y : Fin N → Fin m → ℝ) :
    HasFDerivAt (fun Y : Fin N → Fin m → ℝ => (∑ j, ∑ a, (Y (q j) a - R j a) ^ 2) * c)
      (lin2 fun i a => ∑ j, if q j = i then 2 * c * (Y i a - R j a) else 0) Y := by
  have h1 : ∀ j, HasFDerivAt (fun Y : Fin N → Fin m → ℝ => ∑ a, (Y (q j) a - R j a) ^ 2)
      (lin2 fun i a => if i = q j then 2 * (Y (q j) a - R j a) else 0) Y :=
    fun j => hasFDerivAt_of_row (q j) (hasFDerivAt_sq (R j) (Y (q j)))
  have h2 := (HasFDerivAt.fun_sum fun j (_ : j ∈ Finset.univ) => h1 j).mul_const c
  refine h2.congr_fderiv ?_
  ext V
  simp only [ContinuousLinearMap.smul_apply, ContinuousLinearMap.sum_apply, lin2_apply, smul_eq_mul,
    Finset.mul_sum, Finset.sum_mul]
  rw [Finset.sum_comm]
  refine Finset.sum_congr rfl fun i _ => ?_
  rw [Finset.sum_comm]
  refine Finset.sum_congr rfl fun a _ => Finset.sum_congr rfl fun j _ => ?_
  by_cases h : q j = i
  · rw [if_pos h.symm, if_pos h, h]; ring
  · rw [if_neg fun e => h e.symm, if_neg h]; ring

theorem assigned_hasFDerivAt_grad (c : ℝ) (R : Fin M → Fin m → ℝ) (q : Fin M → Fin N)
    (Y : Fin N → Fin m → ℝ) (i : Fin N) (a : Fin m) :
    HasFDerivAt (fun Y : Fin N → Fin m → ℝ => ∑ j, if q j = i then 2 * c * (Y i a - R j a) else 0)
      (lin2 fun j b => if i = j then (if a = b then 2 * c * ∑ j, (if q j = i then (1 : ℝ) else 0) else 0)
        else 0) Y := by
  have h1 : HasFDerivAt (fun Y : Fin N → Fin m → ℝ => ∑ j, if q j = i then 2 * c * (Y i a - R j a) else 0)
      (∑ j, if q j = i then (2 * c) • ((ContinuousLinearMap.proj a : (Fin m → ℝ) →L[ℝ] ℝ).comp
        (ContinuousLinearMap.proj i : (Fin N → Fin m → ℝ) →L[ℝ] (Fin m → ℝ))) else 0) Y := by
    refine HasFDerivAt.fun_sum fun j _ => ?_
    by_cases h : q j = i
    · simp only [if_pos h]
      exact ((hasFDerivAt_coord i a Y).sub_const _).const_mul _
    · simp only [if_neg h]
      exact hasFDerivAt_const _ _
  refine h1.congr_fderiv ?_
  ext V
  simp only [ContinuousLinearMap.sum_apply, lin2_apply]
  rw [Finset.sum_eq_single i, Finset.sum_eq_single a]
  · simp only [if_true, Finset.mul_sum, Finset.sum_mul]
    refine Finset.sum_congr rfl fun j _ => ?_
    by_cases h : q j = i
    · simp [h]
    · simp [h]
  · intro b _ hb; simp [hb.symm]
  · simp
  · intro j _ hj; simp [hj.symm]
  · simp

theorem igdPow_eventually {R : Fin M → Fin m → ℝ} {Y : Fin N → Fin m → ℝ} {q : Fin M → Fin N}
    (h : NearestUnique Y R q) :
    ∀ᶠ Y' in 𝓝 Y, igdPow 2 R Y' = (∑ j, ∑ a, (Y' (q j) a - R j a) ^ 2) * (M : ℝ)⁻¹ := by
  filter_upwards [nearest_eventually_set h] with Y' hY'
  rw [igdPow, div_eq_mul_inv]
  congr 1
  refine Finset.sum_congr rfl fun j _ => ?_
  rw [hY' j, eucl_comm, eucl_rpow]
  norm_num

/-- C37, derivatives without matching: where every reference point has a unique nearest point, the
reported gradient and Hessian blocks are the first and second derivative of `X ↦ IGD^2` (the second
derivative is block diagonal). The parameter `p` is ignored: this is the property for `p = 2`. -/
theorem C37_partial {o : Objective n m} {R : Fin M → Fin m → ℝ} {X : Fin N → Fin n → ℝ}
    {Y : Option (Fin N → Fin m → ℝ)} {J : Option (Fin N → Fin m → Fin n → ℝ)}
    {q : Fin M → Fin N} (hM : 0 < M) (hY : o.images X Y = fun i => o.func (X i))
    (hJ : o.jacobians X J = fun i => o.jac (X i)) (ho : HasHess o X)
    (hq : NearestUnique (fun i => o.func (X i)) R q) (b : Bool) :
    ∃ r g H, igdDerivs o R X Y b J = some r ∧ (∀ i k, r.grad i k = some (g i k)) ∧
      r.hessian = (if b then some H else none) ∧
      HasFDerivAt (fun X' : Fin N → Fin n → ℝ => igdPow 2 R fun i => o.func (X' i)) (lin2 g) X ∧
      ∀ V : Fin N → Fin n → ℝ, HasFDerivAt (fun X' => fderiv ℝ
          (fun X' : Fin N → Fin n → ℝ => igdPow 2 R fun i => o.func (X' i)) X' V)
        (lin2 fun i l => ∑ k, V i k * H i k l) X := by
  unfold igdDerivs
  rw [if_neg hM.ne', hY, hJ, hq.argminRows hM, Option.map_some]
  refine ⟨_, _, _, rfl, fun i k => rfl, rfl, ?_, fun V => ?_⟩
  · have h1 := (assigned_hasFDerivAt (M : ℝ)⁻¹ R q fun i => o.func (X i)).congr_of_eventuallyEq
      (igdPow_eventually hq)
    refine (hasFDerivAt_comp_images h1 ho.hasJac).congr_fderiv ?_
    congr 1
    funext i k
    rw [Finset.mul_sum]
    refine Finset.sum_congr rfl fun a _ => ?_
    beta_reduce
    rw [closestTo_sum, closestCount_eq]
    simp only [Finset.mul_sum, Finset.sum_mul, ← Finset.sum_sub_distrib]
    refine Finset.sum_congr rfl fun j _ => ?_
    split_ifs
    · ring
    · ring
  · have hev : ∀ᶠ Y' in 𝓝 (fun i => o.func (X i)), HasFDerivAt (igdPow 2 R)
        (lin2 fun i a => ∑ j, if q j = i then 2 * (M : ℝ)⁻¹ * (Y' i a - R j a) else 0) Y' := by
      filter_upwards [(igdPow_eventually hq).eventually_nhds] with Y' hY'
      exact (assigned_hasFDerivAt (M : ℝ)⁻¹ R q Y').congr_of_eventuallyEq hY'
    have hm := hasFDerivAt_fderiv_images hev
      (fun i a => assigned_hasFDerivAt_grad (M : ℝ)⁻¹ R q _ i a) ho.jac ho.hess V
    refine hm.congr_fderiv ?_
    congr 1
    funext i l
    rw [gdHess_sum]
    refine Finset.sum_congr rfl fun k _ => ?_
    congr 1
    rw [mul_add]
    congr 1
    · rw [closestCount_eq]
      generalize ∑ j, (if q j = i then (1 : ℝ) else 0) = cnt
      rw [Finset.mul_sum, Finset.mul_sum]
      refine Finset.sum_congr rfl fun a _ => ?_
      rw [Finset.sum_eq_single a]
      · simp only [if_true]; ring
      · intro b _ hb; simp [hb.symm]
      · simp
    · rw [Finset.mul_sum]
      refine Finset.sum_congr rfl fun a _ => ?_
      beta_reduce
      rw [closestTo_sum, closestCount_eq]
      simp only [Finset.mul_sum, Finset.sum_mul, ← Finset.sum_sub_distrib]
      refine Finset.sum_congr rfl fun j _ => ?_
      split_ifs
      · ring
      · ring

/-- C37 without matching, in the cases without a result: an empty reference set, or no points. -/
theorem C37_error {o : Objective n m} {R : Fin M → Fin m → ℝ} {X : Fin N → Fin n → ℝ}
    {Y : Option (Fin N → Fin m → ℝ)} {J : Option (Fin N → Fin m → Fin n → ℝ)} (b : Bool) :
    igdDerivs o R X Y b J = none ↔ M = 0 ∨ N = 0 := by
  unfold igdDerivs
  constructor
  · intro h
    by_contra h0
    obtain ⟨ind, hind⟩ := exists_argminRows (M := N) (by omega) (cdist R (o.images X Y))
    rw [if_neg (by omega), hind] at h
    simp at h
  · rintro (rfl | rfl)
    · simp
    · by_cases hM : M = 0
      · simp [hM]
      · rw [if_neg hM, argminRows_empty (by omega)]
        rfl

/-- C37, value with matching: the mean of the squared distances to the matched reference points. -/
theorem C37_value_matching (matched Y : Fin N → Fin m → ℝ) (hN : 0 < N) :
    igdComputeMatched matched Y = some ((∑ i, eucl (Y i) (matched i) ^ 2) / N) := by
  unfold igdComputeMatched mean
  rw [if_neg hN.ne']
  congr 2
  refine Finset.sum_congr rfl fun i _ => ?_
  rw [eucl_eq, Real.sq_sqrt (Finset.sum_nonneg fun a _ => sq_nonneg _)]

/-- C37, derivatives with a fixed matching: the reported gradient and Hessian blocks are the derivatives
of `Σ_i ‖f(x_i) - r_i‖²`, that is of `N` times the value. -/
theorem C37_matching_partial {o : Objective n m} {matched : Fin N → Fin m → ℝ} {X : Fin N → Fin n → ℝ}
    {Y : Option (Fin N → Fin m → ℝ)} {J : Option (Fin N → Fin m → Fin n → ℝ)}
    (hY : o.images X Y = fun i => o.func (X i)) (hJ : o.jacobians X J = fun i => o.jac (X i))
    (ho : HasHess o X) (b : Bool) :
    ∃ g H, (∀ i k, (igdDerivsMatched o matched X Y b J).grad i k = some (g i k)) ∧
      (igdDerivsMatched o matched X Y b J).hessian = (if b then some H else none) ∧
      HasFDerivAt (fun X' : Fin N → Fin n → ℝ => ∑ i, eucl (o.func (X' i)) (matched i) ^ 2) (lin2 g) X ∧
      ∀ V : Fin N → Fin n → ℝ, HasFDerivAt (fun X' => fderiv ℝ
          (fun X' : Fin N → Fin n → ℝ => ∑ i, eucl (o.func (X' i)) (matched i) ^ 2) X' V)
        (lin2 fun i l => ∑ k, V i k * H i k l) X := by
  unfold igdDerivsMatched
  rw [hY, hJ]
  refine ⟨_, _, fun i k => rfl, rfl, ?_⟩
  have hF : (fun Y' : Fin N → Fin m → ℝ => ∑ i, eucl (Y' i) (matched i) ^ 2) =
      fun Y' => (∑ j, ∑ a, (Y' (id j) a - matched j a) ^ 2) * 1 := by
    funext Y'
    rw [mul_one]
    refine Finset.sum_congr rfl fun i _ => ?_
    rw [eucl_eq, Real.sq_sqrt (Finset.sum_nonneg fun a _ => sq_nonneg _)]
    rfl
  have hd : ∀ Y' : Fin N → Fin m → ℝ, HasFDerivAt
      (fun Y' : Fin N → Fin m → ℝ => ∑ i, eucl (Y' i) (matched i) ^ 2)
      (lin2 fun i a => ∑ j, if id j = i then 2 * 1 * (Y' i a - matched j a) else 0) Y' := by
    intro Y'
    rw [hF]
    exact assigned_hasFDerivAt 1 matched id Y'
  refine ⟨?_, fun V => ?_⟩
  · refine (hasFDerivAt_comp_images (hd _) ho.hasJac).congr_fderiv ?_
    congr 1
    funext i k
    rw [Finset.mul_sum]
    refine Finset.sum_congr rfl fun a _ => ?_
    simp only [id, Finset.sum_ite_eq', Finset.mem_univ, if_true]
    ring
  · have hm := hasFDerivAt_fderiv_images (Filter.Eventually.of_forall hd)
      (fun i a => assigned_hasFDerivAt_grad 1 matched id _ i a) ho.jac ho.hess V
    refine hm.congr_fderiv ?_
    congr 1
    funext i l
    rw [gdHess_sum]
    refine Finset.sum_congr rfl fun k _ => ?_
    congr 1
    rw [mul_add]
    congr 1
    · simp only [id, Finset.sum_ite_eq', Finset.mem_univ, if_true]
      rw [one_mul, Finset.mul_sum]
      refine Finset.sum_congr rfl fun a _ => ?_
      rw [Finset.sum_eq_single a]
      · simp only [if_true]; ring
      · intro b _ hb; simp [hb.symm]
      · simp
    · rw [Finset.mul_sum]
      refine Finset.sum_congr rfl fun a _ => ?_
      simp only [id, Finset.sum_ite_eq', Finset.mem_univ, if_true]
      ring

/-- The hypotheses of `C37_partial` hold for two points and two reference points. -/
example : HasHess gdObjective ![![1, 0], ![0, 2]] ∧
    NearestUnique (fun i => gdObjective.func (![![1, 0], ![0, 2]] i)) ![![0, 0], ![3, 3]] ![0, 1] := by
  refine ⟨gdObjective_hasHess _, ?_⟩
  intro i k hk
  rw [eucl_eq, eucl_eq]
  refine Real.sqrt_lt_sqrt (Finset.sum_nonneg fun a _ => sq_nonneg _) ?_
  fin_cases i <;> fin_cases k <;> simp [gdObjective, Fin.sum_univ_two] at hk ⊢ <;> norm_num

/-- C37 is violated for `p ≠ 2`: for the point 2 and the reference point 0 on the line, `IGD^4 = x^4` has
the derivative 32, the reported gradient is 4. -/
theorem C37_violated_p : ∃ r, igdDerivs identity1 (fun _ _ : Fin 1 => 0) (fun _ _ : Fin 1 => 2) none true
      none = some r ∧ r.grad 0 0 = some 4 ∧
    HasFDerivAt (fun X' : Fin 1 → Fin 1 → ℝ => igdPow 4 (fun _ _ : Fin 1 => (0 : ℝ)) fun i =>
      identity1.func (X' i)) (lin2 fun _ _ => 32) fun _ _ => 2 := by
  obtain ⟨ind, hind⟩ := exists_argminRows (M := 1) one_pos
    (cdist (fun _ _ : Fin 1 => 0) (identity1.images (fun _ _ : Fin 1 => 2) none))
  unfold igdDerivs
  rw [if_neg one_ne_zero, hind, Option.map_some]
  refine ⟨_, rfl, ?_, ?_⟩
  · simp only [closestTo_sum, closestCount_eq]
    have h0 : ind = fun _ => 0 := funext fun _ => Subsingleton.elim _ _
    simp [identity1, Objective.images, Objective.jacobians, h0]
    norm_num
  · have h1 := gdPow_hasFDerivAt (p := 4) (R := fun _ _ : Fin 1 => (0 : ℝ)) (Y := fun _ _ : Fin 1 => 2)
      (nearestUnique_single _ _) fun _ => Or.inr (by norm_num)
    have he : eucl (fun _ : Fin 1 => (2 : ℝ)) (fun _ => 0) = 2 := by
      rw [eucl_eq]
      simp
    refine (h1.congr_of_eventuallyEq (Filter.Eventually.of_forall fun Y' => ?_)).congr_fderiv ?_
    · unfold igdPow gdPow nearest identity1
      simp [eucl_comm]
    · congr 1
      funext i a
      rw [he]
      norm_num

/-- C37 is violated with matching: for the points 1, 1 matched to 0, 0 on the line the value is
`(x_1² + x_2²) / 2` with the derivative (1, 1), the reported gradient is (2, 2). -/
theorem C37_violated_matching :
    (∀ Y, igdComputeMatched (fun (_ : Fin 2) (_ : Fin 1) => 0) Y = some ((Y 0 0 ^ 2 + Y 1 0 ^ 2) / 2)) ∧
    HasFDerivAt (fun Y : Fin 2 → Fin 1 → ℝ => (Y 0 0 ^ 2 + Y 1 0 ^ 2) / 2) (lin2 fun _ _ => 1)
      (fun _ _ => 1) ∧
    (igdDerivsMatched identity1 (fun (_ : Fin 2) (_ : Fin 1) => 0) (fun _ _ => 1) none true none).grad =
      fun _ _ => some 2 := by
  refine ⟨fun Y => ?_, ?_, ?_⟩
  · simp [igdComputeMatched, mean, Fin.sum_univ_two]
  · have h := ((((hasFDerivAt_coord 0 0 (fun (_ : Fin 2) (_ : Fin 1) => (1 : ℝ))).pow 2).add
      ((hasFDerivAt_coord 1 0 (fun (_ : Fin 2) (_ : Fin 1) => (1 : ℝ))).pow 2))).mul_const (1 / 2 : ℝ)
    refine (h.congr_of_eventuallyEq (Filter.Eventually.of_forall fun Y => ?_)).congr_fderiv ?_
    · simp only [Pi.add_apply]; ring
    · ext V
      simp [Fin.sum_univ_two]
  · funext i k
    simp [igdDerivsMatched, identity1, Objective.images, Objective.jacobians]

end Verif.Props
