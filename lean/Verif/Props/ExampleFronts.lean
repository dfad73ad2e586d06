import Verif.Scripts.Examples
import Mathlib.Analysis.InnerProductSpace.PiL2
import Mathlib.Analysis.InnerProductSpace.Projection.Minimal
import Mathlib.Analysis.Convex.StdSimplex
import Mathlib.Analysis.Calculus.Deriv.Pow
import Mathlib.Analysis.Calculus.Deriv.Add
import Mathlib.Analysis.Calculus.Deriv.Mul

/-!
# C83: the hand-written problems of the examples
-/

namespace Verif.Props

open Verif.Scripts
open scoped BigOperators RealInnerProductSpace

/-! ## Specification -/

/-- No other point of `S` is at least as good in all objectives. -/
def ParetoOptimal {X ι : Type*} (S : Set X) (f : X → ι → ℝ) (x : X) : Prop :=
  x ∈ S ∧ ∀ y ∈ S, (∀ k, f y k ≤ f x k) → y = x

/-- Some point of `S` is better in all objectives. -/
def StrictlyDominated {X ι : Type*} (S : Set X) (f : X → ι → ℝ) (x : X) : Prop :=
  ∃ y ∈ S, ∀ k, f y k < f x k

/-- `J` is the gradient of `f` at `x`. -/
def IsGradientAt {n : ℕ} (f : (Fin n → ℝ) → ℝ) (J : Fin n → ℝ) (x : Fin n → ℝ) : Prop :=
  ∀ v, HasDerivAt (fun t => f (Function.update x v t)) (J v) (x v)

/-! ## A minimax lemma -/

section Minimax

variable {E ι : Type*} [NormedAddCommGroup E] [InnerProductSpace ℝ E] [Fintype ι] [Nonempty ι]

/-- The combination with weights `l`. -/
def comb (w : ι → E) (l : ι → ℝ) : E := ∑ i, l i • w i

theorem sqrt_bound {p d : E} (hp : p ≠ 0) (ε : ℝ) :
    ‖p + ε • d‖ ≤ ‖p‖ + ε * (⟪p, d⟫ / ‖p‖) + ε ^ 2 * (‖d‖ ^ 2 / (2 * ‖p‖)) := by
  have h0 : 0 < ‖p‖ := norm_pos_iff.mpr hp
  have h1 : ‖p + ε • d‖ ^ 2 = ‖p‖ ^ 2 + 2 * (ε * ⟪p, d⟫) + ε ^ 2 * ‖d‖ ^ 2 := by
    rw [norm_add_sq_real, inner_smul_right, norm_smul, mul_pow, Real.norm_eq_abs, sq_abs]
  have h2 : 2 * ‖p‖ * ‖p + ε • d‖ ≤ ‖p‖ ^ 2 + ‖p + ε • d‖ ^ 2 := by nlinarith [sq_nonneg (‖p‖ - ‖p + ε • d‖)]
  rw [h1] at h2
  have h3 : ‖p‖ + ε * (⟪p, d⟫ / ‖p‖) + ε ^ 2 * (‖d‖ ^ 2 / (2 * ‖p‖)) =
      (‖p‖ ^ 2 + (‖p‖ ^ 2 + 2 * (ε * ⟪p, d⟫) + ε ^ 2 * ‖d‖ ^ 2)) / (2 * ‖p‖) := by
    field_simp
    ring
  rw [h3, le_div_iff₀ (by positivity)]
  linarith

theorem nonneg_of_bound {a b : ℝ} (h : ∀ ε : ℝ, 0 < ε → ε ≤ 1 → 0 ≤ ε * a + ε ^ 2 * b) : 0 ≤ a := by
  by_contra ha
  push Not at ha
  rcases le_or_gt b 0 with hb | hb
  · have := h 1 one_pos le_rfl
    linarith
  · have hε : 0 < min 1 (-a / (2 * b)) := lt_min one_pos (div_pos (by linarith) (by linarith))
    have := h _ hε (min_le_left _ _)
    have h2 : min 1 (-a / (2 * b)) * b ≤ -a / 2 := by
      have := mul_le_mul_of_nonneg_right (min_le_right 1 (-a / (2 * b))) hb.le
      rwa [show -a / (2 * b) * b = -a / 2 by field_simp] at this
    nlinarith

/-- There is a direction of length `r` whose products with all `w i` exceed `b i` by the smallest excess of a
combination. -/
theorem minimax {w : ι → E} (hw : ∀ l ∈ stdSimplex ℝ ι, comb w l ≠ 0) (b : ι → ℝ) (r : ℝ) (hr : 0 ≤ r) :
    ∃ l ∈ stdSimplex ℝ ι, ∀ i, r * ‖comb w l‖ - ∑ j, l j * b j ≤ ⟪(r / ‖comb w l‖) • comb w l, w i⟫ - b i := by
  classical
  have hcont : Continuous fun l : ι → ℝ => r * ‖comb w l‖ - ∑ j, l j * b j := by
    unfold comb
    fun_prop
  obtain ⟨l, hl, hmin⟩ := (isCompact_stdSimplex ℝ ι).exists_isMinOn
    ⟨_, single_mem_stdSimplex ℝ (Classical.arbitrary ι)⟩ hcont.continuousOn
  refine ⟨l, hl, fun i => ?_⟩
  have hp := hw l hl
  have h0 : 0 < ‖comb w l‖ := norm_pos_iff.mpr hp
  have key : 0 ≤ r * (⟪comb w l, w i - comb w l⟫ / ‖comb w l‖) - (b i - ∑ j, l j * b j) := by
    refine nonneg_of_bound (b := r * (‖w i - comb w l‖ ^ 2 / (2 * ‖comb w l‖))) fun ε e0 e1 => ?_
    have hm : (1 - ε) • l + ε • Pi.single i 1 ∈ stdSimplex ℝ ι :=
      (convex_stdSimplex ℝ ι) hl (single_mem_stdSimplex ℝ i) (by linarith) e0.le (by ring)
    have hc : comb w ((1 - ε) • l + ε • Pi.single i 1) = comb w l + ε • (w i - comb w l) := by
      have : comb w ((1 - ε) • l + ε • Pi.single i 1) = (1 - ε) • comb w l + ε • w i := by
        unfold comb
        simp only [Pi.add_apply, Pi.smul_apply, add_smul, Finset.sum_add_distrib, smul_eq_mul, mul_smul, ← Finset.smul_sum]
        simp [Pi.single_apply]
      rw [this]
      module
    have hb : ∑ j, ((1 - ε) • l + ε • Pi.single i 1 : ι → ℝ) j * b j = ∑ j, l j * b j + ε * (b i - ∑ j, l j * b j) := by
      have : ∑ j, ((1 - ε) • l + ε • Pi.single i 1 : ι → ℝ) j * b j = (1 - ε) * ∑ j, l j * b j + ε * b i := by
        simp only [Pi.add_apply, Pi.smul_apply, add_mul, Finset.sum_add_distrib, smul_eq_mul, mul_assoc, ← Finset.mul_sum]
        simp [Pi.single_apply]
      rw [this]
      ring
    have h1 := hmin hm
    simp only [Set.mem_setOf_eq] at h1
    have h1 : r * ‖comb w l‖ - ∑ j, l j * b j ≤ r * ‖comb w ((1 - ε) • l + ε • Pi.single i 1)‖ -
      ∑ j, ((1 - ε) • l + ε • Pi.single i 1 : ι → ℝ) j * b j := h1
    rw [hc, hb] at h1
    have h2 := mul_le_mul_of_nonneg_left (sqrt_bound (d := w i - comb w l) hp ε) hr
    nlinarith
  have e1 : ⟪comb w l, w i - comb w l⟫ = ⟪comb w l, w i⟫ - ‖comb w l‖ ^ 2 := by
    rw [inner_sub_right, real_inner_self_eq_norm_sq]
  rw [e1] at key
  rw [inner_smul_left]
  simp only [conj_trivial]
  have e2 : r * ((⟪comb w l, w i⟫ - ‖comb w l‖ ^ 2) / ‖comb w l‖) = r / ‖comb w l‖ * ⟪comb w l, w i⟫ - r * ‖comb w l‖ := by
    field_simp
  rw [e2] at key
  linarith

/-- The squared distances to the centres. -/
def sqDist (c : ι → E) (x : E) (i : ι) : ℝ := ‖x - c i‖ ^ 2

theorem sqDist_from (c : ι → E) (m x : E) (i : ι) :
    sqDist c x i = ‖x - m‖ ^ 2 - 2 * ⟪x - m, c i - m⟫ + ‖c i - m‖ ^ 2 := by
  rw [sqDist, show x - c i = (x - m) - (c i - m) by abel, norm_sub_sq_real]

theorem inner_comb (w : ι → E) (l : ι → ℝ) (x : E) : ⟪x, comb w l⟫ = ∑ i, l i * ⟪x, w i⟫ := by
  simp only [comb, inner_sum, inner_smul_right]

/-- On a sphere, the radial projections of the hull of the centres are optimal. -/
theorem sphere_optimal {m : E} {r : ℝ} (hr : 0 < r) {c : ι → E} {l : ι → ℝ} (hl : l ∈ stdSimplex ℝ ι)
    (hp : comb (fun i => c i - m) l ≠ 0) :
    ParetoOptimal {y | ‖y - m‖ = r} (sqDist c)
      (m + (r / ‖comb (fun i => c i - m) l‖) • comb (fun i => c i - m) l) := by
  set p := comb (fun i => c i - m) l with hpd
  have h0 : 0 < ‖p‖ := norm_pos_iff.mpr hp
  have hx : m + (r / ‖p‖) • p - m = (r / ‖p‖) • p := by abel
  have hn : ‖(r / ‖p‖) • p‖ = r := by
    rw [norm_smul, Real.norm_eq_abs, abs_of_pos (by positivity), div_mul_cancel₀ _ h0.ne']
  refine ⟨?_, fun y hy h => ?_⟩
  · show ‖m + (r / ‖p‖) • p - m‖ = r
    rw [hx, hn]
  · have hy : ‖y - m‖ = r := hy
    have h1 : ∀ i, ⟪(r / ‖p‖) • p, c i - m⟫ ≤ ⟪y - m, c i - m⟫ := by
      intro i
      have := h i
      rw [sqDist_from c m, sqDist_from c m, hx, hn, hy] at this
      linarith
    have h2 : ⟪(r / ‖p‖) • p, p⟫ ≤ ⟪y - m, p⟫ := by
      rw [hpd, inner_comb, inner_comb, ← hpd]
      exact Finset.sum_le_sum fun i _ => mul_le_mul_of_nonneg_left (h1 i) (hl.1 i)
    have h3 : ⟪(r / ‖p‖) • p, p⟫ = r * ‖p‖ := by
      rw [inner_smul_left, real_inner_self_eq_norm_sq]
      simp only [conj_trivial]
      field_simp
    have h4 : ⟪y - m, p⟫ = ‖y - m‖ * ‖p‖ := le_antisymm (real_inner_le_norm _ _) (by rw [hy, ← h3]; exact h2)
    rw [inner_eq_norm_mul_iff_real, hy] at h4
    have h5 : y - m = (r / ‖p‖) • p := by
      rw [div_eq_inv_mul, mul_smul, ← h4, smul_smul, inv_mul_cancel₀ h0.ne', one_smul]
    rw [← h5]
    abel

/-- All other points of the sphere are worse in all objectives than one of them. -/
theorem sphere_dominated {m : E} {r : ℝ} (hr : 0 < r) {c : ι → E}
    (hc : ∀ l ∈ stdSimplex ℝ ι, comb (fun i => c i - m) l ≠ 0) {x : E} (hx : ‖x - m‖ = r)
    (hn : ¬ ∃ l ∈ stdSimplex ℝ ι, x = m + (r / ‖comb (fun i => c i - m) l‖) • comb (fun i => c i - m) l) :
    StrictlyDominated {y | ‖y - m‖ = r} (sqDist c) x := by
  obtain ⟨l, hl, h⟩ := minimax hc (fun i => ⟪x - m, c i - m⟫) r hr.le
  have ho := (sphere_optimal hr hl (hc l hl)).1
  set p := comb (fun i => c i - m) l with hpd
  refine ⟨m + (r / ‖p‖) • p, ho, fun i => ?_⟩
  have h0 : 0 < ‖p‖ := norm_pos_iff.mpr (hc l hl)
  have hy : ‖m + (r / ‖p‖) • p - m‖ = r := ho
  rw [sqDist_from c m, sqDist_from c m x, hx, hy]
  have h1 : ⟪x - m, p⟫ < r * ‖p‖ := by
    refine lt_of_le_of_ne ((real_inner_le_norm _ _).trans_eq (by rw [hx])) fun e => hn ⟨l, hl, ?_⟩
    rw [← hx, inner_eq_norm_mul_iff_real, hx] at e
    rw [← hpd, div_eq_inv_mul, mul_smul, ← e, smul_smul, inv_mul_cancel₀ h0.ne', one_smul]
    abel
  have h2 := h i
  rw [← inner_comb, ← hpd] at h2
  rw [show m + (r / ‖p‖) • p - m = (r / ‖p‖) • p by abel]
  linarith

/-- Points inside of the sphere are worse in all objectives than a point of the sphere, if the hull is far enough. -/
theorem ball_dominated {m : E} {r ρ s : ℝ} (h0 : 0 ≤ ρ) (h1 : ρ < r) (hs : (r + ρ) / 2 < s) {c : ι → E}
    (hc : ∀ l ∈ stdSimplex ℝ ι, s ≤ ‖comb (fun i => c i - m) l‖) {x : E} (hx : ‖x - m‖ = ρ) :
    StrictlyDominated {y | ‖y - m‖ = r} (sqDist c) x := by
  have hr : 0 < r := h0.trans_lt h1
  have hs0 : 0 < s := lt_trans (by linarith) hs
  have hne : ∀ l ∈ stdSimplex ℝ ι, comb (fun i => c i - m) l ≠ 0 := fun l hl =>
    norm_pos_iff.mp (hs0.trans_le (hc l hl))
  obtain ⟨l, hl, h⟩ := minimax hne (fun i => ⟪x - m, c i - m⟫ + (r ^ 2 - ρ ^ 2) / 2) r hr.le
  have ho := (sphere_optimal hr hl (hne l hl)).1
  set p := comb (fun i => c i - m) l with hpd
  refine ⟨m + (r / ‖p‖) • p, ho, fun i => ?_⟩
  have hy : ‖m + (r / ‖p‖) • p - m‖ = r := ho
  rw [sqDist_from c m, sqDist_from c m x, hx, hy]
  have h2 := h i
  have h3 : ∑ j, l j * (⟪x - m, c j - m⟫ + (r ^ 2 - ρ ^ 2) / 2) = ⟪x - m, p⟫ + (r ^ 2 - ρ ^ 2) / 2 := by
    simp only [mul_add, Finset.sum_add_distrib, ← Finset.sum_mul, hl.2, one_mul]
    rw [← inner_comb]
  rw [h3] at h2
  rw [show m + (r / ‖p‖) • p - m = (r / ‖p‖) • p by abel]
  have h4 : ⟪x - m, p⟫ ≤ ρ * ‖p‖ := (real_inner_le_norm _ _).trans_eq (by rw [hx])
  have h5 := hc l hl
  rw [← hpd] at h5
  have h6 : (r ^ 2 - ρ ^ 2) / 2 < (r - ρ) * ‖p‖ := by
    have : (r - ρ) * ((r + ρ) / 2) < (r - ρ) * ‖p‖ := mul_lt_mul_of_pos_left (hs.trans_le h5) (by linarith)
    nlinarith
  linarith

/-- If the hull of the centres is feasible, its points are optimal. -/
theorem hull_optimal {c : ι → E} {S : Set E} {l : ι → ℝ} (hl : l ∈ stdSimplex ℝ ι) (hS : comb c l ∈ S) :
    ParetoOptimal S (sqDist c) (comb c l) := by
  refine ⟨hS, fun y _ h => ?_⟩
  have key : ∀ z, ∑ i, l i * sqDist c z i = ‖z - comb c l‖ ^ 2 + ∑ i, l i * ‖c i - comb c l‖ ^ 2 := by
    intro z
    have h1 : ∑ i, l i * ⟪z - comb c l, c i - comb c l⟫ = 0 := by
      have : ∑ i, l i • (c i - comb c l) = 0 := by
        simp only [smul_sub, Finset.sum_sub_distrib, ← Finset.sum_smul, hl.2, one_smul]
        exact sub_self _
      rw [← inner_zero_right (𝕜 := ℝ) (z - comb c l), ← this, inner_sum]
      simp only [inner_smul_right]
    have h2 : ∀ i, l i * sqDist c z i = l i * ‖z - comb c l‖ ^ 2 - 2 * (l i * ⟪z - comb c l, c i - comb c l⟫) +
        l i * ‖c i - comb c l‖ ^ 2 := fun i => by rw [sqDist_from c (comb c l)]; ring
    simp only [h2, Finset.sum_add_distrib, Finset.sum_sub_distrib, ← Finset.mul_sum, h1, ← Finset.sum_mul, hl.2]
    ring
  have h1 : ∑ i, l i * sqDist c y i ≤ ∑ i, l i * sqDist c (comb c l) i :=
    Finset.sum_le_sum fun i _ => mul_le_mul_of_nonneg_left (h i) (hl.1 i)
  rw [key, key, sub_self, norm_zero] at h1
  have h2 : ‖y - comb c l‖ ^ 2 ≤ 0 := by linarith
  have h3 : ‖y - comb c l‖ = 0 := by nlinarith [norm_nonneg (y - comb c l)]
  exact sub_eq_zero.mp (norm_eq_zero.mp h3)

/-- All other points are worse in all objectives than one of them. -/
theorem hull_dominated {c : ι → E} {S : Set E} (hS : ∀ l ∈ stdSimplex ℝ ι, comb c l ∈ S) {x : E}
    (hx : ¬ ∃ l ∈ stdSimplex ℝ ι, x = comb c l) : StrictlyDominated S (sqDist c) x := by
  classical
  have hcont : Continuous fun l : ι → ℝ => ‖x - comb c l‖ ^ 2 := by
    unfold comb
    fun_prop
  obtain ⟨l, hl, hmin⟩ := (isCompact_stdSimplex ℝ ι).exists_isMinOn
    ⟨_, single_mem_stdSimplex ℝ (Classical.arbitrary ι)⟩ hcont.continuousOn
  refine ⟨comb c l, hS l hl, fun i => ?_⟩
  have h0 : 0 < ‖x - comb c l‖ := norm_pos_iff.mpr (sub_ne_zero.mpr fun h => hx ⟨l, hl, h⟩)
  have key : 0 ≤ -2 * ⟪x - comb c l, c i - comb c l⟫ := by
    refine nonneg_of_bound (b := ‖c i - comb c l‖ ^ 2) fun ε e0 e1 => ?_
    have hm : (1 - ε) • l + ε • Pi.single i 1 ∈ stdSimplex ℝ ι :=
      (convex_stdSimplex ℝ ι) hl (single_mem_stdSimplex ℝ i) (by linarith) e0.le (by ring)
    have h1 : ‖x - comb c l‖ ^ 2 ≤ ‖x - comb c ((1 - ε) • l + ε • Pi.single i 1)‖ ^ 2 := hmin hm
    have hc : x - comb c ((1 - ε) • l + ε • Pi.single i 1) = (x - comb c l) - ε • (c i - comb c l) := by
      have : comb c ((1 - ε) • l + ε • Pi.single i 1) = (1 - ε) • comb c l + ε • c i := by
        unfold comb
        simp only [Pi.add_apply, Pi.smul_apply, add_smul, Finset.sum_add_distrib, smul_eq_mul, mul_smul, ← Finset.smul_sum]
        simp [Pi.single_apply]
      rw [this]
      module
    rw [hc, norm_sub_sq_real (x - comb c l) (ε • (c i - comb c l)), inner_smul_right, norm_smul, mul_pow, Real.norm_eq_abs, sq_abs] at h1
    nlinarith
  rw [sqDist_from c (comb c l) x, sqDist, norm_sub_rev]
  nlinarith

end Minimax

/-! ## Coordinates -/

variable {n m : ℕ}

/-- A point as element of the Euclidean space. -/
abbrev euc (x : Fin n → ℝ) : EuclideanSpace ℝ (Fin n) := WithLp.toLp 2 x

theorem euc_sq (x c : Fin n → ℝ) : ‖euc x - euc c‖ ^ 2 = ∑ v, (x v - c v) ^ 2 := by
  rw [EuclideanSpace.norm_sq_eq]
  simp

theorem sqObjective_eq (c : Fin m → Fin n → ℝ) (x : Fin n → ℝ) : sqObjective c x = sqDist (fun k => euc (c k)) (euc x) := by
  funext k
  rw [sqDist, euc_sq]
  rfl

theorem ParetoOptimal.of_euc {c : Fin m → Fin n → ℝ} {S : Set (EuclideanSpace ℝ (Fin n))} {x : Fin n → ℝ}
    (h : ParetoOptimal S (sqDist fun k => euc (c k)) (euc x)) : ParetoOptimal {y | euc y ∈ S} (sqObjective c) x := by
  refine ⟨h.1, fun y hy hle => ?_⟩
  have := h.2 (euc y) hy fun k => by
    have := hle k
    rwa [sqObjective_eq, sqObjective_eq] at this
  simpa using this

theorem StrictlyDominated.of_euc {c : Fin m → Fin n → ℝ} {S : Set (EuclideanSpace ℝ (Fin n))} {x : Fin n → ℝ}
    (h : StrictlyDominated S (sqDist fun k => euc (c k)) (euc x)) : StrictlyDominated {y | euc y ∈ S} (sqObjective c) x := by
  obtain ⟨y, hy, h⟩ := h
  refine ⟨y.ofLp, hy, fun k => ?_⟩
  have := h k
  rw [sqObjective_eq, sqObjective_eq]
  exact this

theorem sphere_set (c : Fin n → ℝ) : {y : Fin n → ℝ | euc y ∈ {z | ‖z - euc c‖ = 1}} = {y | sphereConstraint c y = 0} := by
  ext y
  simp only [Set.mem_setOf_eq, sphereConstraint]
  rw [← euc_sq]
  constructor
  · intro h
    rw [h]
    norm_num
  · intro h
    have h1 : ‖euc y - euc c‖ ^ 2 = 1 := by linarith
    nlinarith [norm_nonneg (euc y - euc c)]

theorem linspaceAt_mem {a b : ℝ} (hab : a ≤ b) {n i : ℕ} (hi : i < n) : a ≤ linspaceAt a b n i ∧ linspaceAt a b n i ≤ b := by
  unfold linspaceAt
  rcases Nat.eq_zero_or_pos (n - 1) with h | h
  · have : i = 0 := by omega
    simp [this, hab]
  · have h1 : (0 : ℝ) < (n - 1 : ℕ) := by exact_mod_cast h
    have h2 : (i : ℝ) ≤ (n - 1 : ℕ) := by exact_mod_cast (by omega : i ≤ n - 1)
    have h3 : 0 ≤ (b - a) / (n - 1 : ℕ) := div_nonneg (by linarith) h1.le
    refine ⟨by nlinarith [mul_nonneg (Nat.cast_nonneg (α := ℝ) i) h3], ?_⟩
    have h4 : (i : ℝ) * ((b - a) / (n - 1 : ℕ)) ≤ (n - 1 : ℕ) * ((b - a) / (n - 1 : ℕ)) := mul_le_mul_of_nonneg_right h2 h3
    rw [mul_div_cancel₀ _ h1.ne'] at h4
    linarith

/-! ## The sphere -/

/-- The directions from the centre of the sphere to the centres of the objectives. -/
theorem round_comb {l : Fin 3 → ℝ} (hl : l ∈ stdSimplex ℝ (Fin 3)) :
    comb (fun k => euc (roundCentres k) - euc sphereCenter) l = euc (![l 0 + l 1 - l 2, l 0 - l 1, 0] - sphereCenter) := by
  have h : l 0 + l 1 + l 2 = 1 := by simpa [Fin.sum_univ_three] using hl.2
  ext v
  have h2 : l 2 = 1 - l 0 - l 1 := by linarith
  fin_cases v <;> simp [comb, Fin.sum_univ_three, roundCentres, sphereCenter, h2] <;> ring

theorem round_far {l : Fin 3 → ℝ} (hl : l ∈ stdSimplex ℝ (Fin 3)) :
    3 / 2 ≤ ‖comb (fun k => euc (roundCentres k) - euc sphereCenter) l‖ := by
  rw [round_comb hl]
  have := PiLp.norm_apply_le (euc (![l 0 + l 1 - l 2, l 0 - l 1, 0] - sphereCenter)) 2
  refine le_trans ?_ this
  show (3 / 2 : ℝ) ≤ ‖(0 : ℝ) - -3 / 2‖
  norm_num

theorem round_ne {l : Fin 3 → ℝ} (hl : l ∈ stdSimplex ℝ (Fin 3)) :
    comb (fun k => euc (roundCentres k) - euc sphereCenter) l ≠ 0 :=
  norm_pos_iff.mp (lt_of_lt_of_le (by norm_num) (round_far hl))

/-- The triangle of the centres. -/
def InTriangle (p : Fin 3 → ℝ) : Prop := ∃ a b : ℝ, -1 ≤ a ∧ a ≤ 1 ∧ |b| ≤ (a + 1) / 2 ∧ p = ![a, b, 0]

/-- The projection onto the sphere. -/
noncomputable def projected (p : Fin 3 → ℝ) : Fin 3 → ℝ :=
  (√(∑ v, (p v - sphereCenter v) ^ 2))⁻¹ • (p - sphereCenter) + sphereCenter

theorem inTriangle_iff {p : Fin 3 → ℝ} :
    InTriangle p ↔ ∃ l ∈ stdSimplex ℝ (Fin 3), p = ![l 0 + l 1 - l 2, l 0 - l 1, 0] := by
  constructor
  · rintro ⟨a, b, h1, h2, h3, rfl⟩
    rw [abs_le] at h3
    refine ⟨![(a + 1) / 4 + b / 2, (a + 1) / 4 - b / 2, (1 - a) / 2], ⟨fun i => ?_, ?_⟩, ?_⟩
    · fin_cases i <;> simp <;> linarith
    · simp [Fin.sum_univ_three]; ring
    · ext v
      fin_cases v <;> simp <;> ring
  · rintro ⟨l, hl, rfl⟩
    have h : l 0 + l 1 + l 2 = 1 := by simpa [Fin.sum_univ_three] using hl.2
    have h0 := hl.1 0
    have h1 := hl.1 1
    have h2 := hl.1 2
    exact ⟨_, _, by linarith, by linarith, abs_le.mpr ⟨by linarith, by linarith⟩, rfl⟩

theorem projected_eq {l : Fin 3 → ℝ} (hl : l ∈ stdSimplex ℝ (Fin 3)) :
    euc (projected ![l 0 + l 1 - l 2, l 0 - l 1, 0]) = euc sphereCenter +
      (1 / ‖comb (fun k => euc (roundCentres k) - euc sphereCenter) l‖) • comb (fun k => euc (roundCentres k) - euc sphereCenter) l := by
  rw [round_comb hl]
  have : √(∑ v, ((![l 0 + l 1 - l 2, l 0 - l 1, 0] : Fin 3 → ℝ) v - sphereCenter v) ^ 2) =
      ‖euc (![l 0 + l 1 - l 2, l 0 - l 1, 0] - sphereCenter)‖ := by
    rw [← euc_sq]
    exact Real.sqrt_sq (norm_nonneg _)
  rw [projected, this, one_div, add_comm]
  rfl

/-- C83 for HVN/3D_example1.py: the Pareto set on the sphere is the projection of the triangle of the centres. All other
points of the sphere are worse in all objectives than one of these. -/
theorem C83_sphere (x : Fin 3 → ℝ) (hx : sphereConstraint sphereCenter x = 0) :
    (ParetoOptimal {y | sphereConstraint sphereCenter y = 0} (sqObjective roundCentres) x ↔
      ∃ p, InTriangle p ∧ x = projected p) ∧
    ((¬ ∃ p, InTriangle p ∧ x = projected p) →
      StrictlyDominated {y | sphereConstraint sphereCenter y = 0} (sqObjective roundCentres) x) := by
  have hopt : (∃ p, InTriangle p ∧ x = projected p) →
      ParetoOptimal {y | sphereConstraint sphereCenter y = 0} (sqObjective roundCentres) x := by
    rintro ⟨p, hp, rfl⟩
    obtain ⟨l, hl, rfl⟩ := inTriangle_iff.mp hp
    rw [← sphere_set]
    refine ParetoOptimal.of_euc ?_
    rw [projected_eq hl]
    exact sphere_optimal one_pos hl (round_ne hl)
  have hdom : (¬ ∃ p, InTriangle p ∧ x = projected p) →
      StrictlyDominated {y | sphereConstraint sphereCenter y = 0} (sqObjective roundCentres) x := by
    intro h
    rw [← sphere_set]
    refine StrictlyDominated.of_euc (sphere_dominated one_pos (fun l hl => round_ne hl) ?_ ?_)
    · have : x ∈ {y | sphereConstraint sphereCenter y = 0} := hx
      rwa [← sphere_set] at this
    · rintro ⟨l, hl, e⟩
      refine h ⟨_, inTriangle_iff.mpr ⟨l, hl, rfl⟩, ?_⟩
      rw [← projected_eq hl] at e
      simpa using e
  refine ⟨⟨fun h => ?_, hopt⟩, hdom⟩
  by_contra hn
  obtain ⟨y, hy, hlt⟩ := hdom hn
  have := h.2 y hy fun k => (hlt k).le
  rw [this] at hlt
  exact lt_irrefl _ (hlt 0)

theorem roundPoints_mem {rows : ℕ} {p : Fin 3 → ℝ} (hp : p ∈ roundPoints rows) : InTriangle p := by
  obtain ⟨i, hi, hp⟩ := List.mem_flatMap.mp hp
  obtain ⟨j, hj, rfl⟩ := List.mem_map.mp hp
  have h1 := linspaceAt_mem (a := -1) (b := 1) (by norm_num) (List.mem_range.mp hi)
  have h2 := linspaceAt_mem (a := -(1 / 2) * linspaceAt (-1) 1 rows i - 1 / 2) (b := 1 / 2 * linspaceAt (-1) 1 rows i + 1 / 2)
    (by linarith [h1.1]) (List.mem_range.mp hj)
  exact ⟨_, _, h1.1, h1.2, abs_le.mpr ⟨by linarith [h2.1], by linarith [h2.2]⟩, rfl⟩

theorem projected_feasible {p : Fin 3 → ℝ} (hp : InTriangle p) : sphereConstraint sphereCenter (projected p) = 0 := by
  obtain ⟨l, hl, rfl⟩ := inTriangle_iff.mp hp
  have : projected ![l 0 + l 1 - l 2, l 0 - l 1, 0] ∈ {y | sphereConstraint sphereCenter y = 0} := by
    rw [← sphere_set, Set.mem_setOf_eq, projected_eq hl]
    exact (sphere_optimal one_pos hl (round_ne hl)).1
  exact this

/-- The points of `pareto_set` in HVN/3D_example1.py are optimal. -/
theorem C83_round {rows : ℕ} {x : Fin 3 → ℝ} (hx : x ∈ roundSet 1 rows) :
    ParetoOptimal {y | sphereConstraint sphereCenter y = 0} (sqObjective roundCentres) x := by
  obtain ⟨p, hp, rfl⟩ := List.mem_map.mp hx
  have := roundPoints_mem hp
  rw [one_smul]
  exact ((C83_sphere _ (projected_feasible this)).1).mpr ⟨p, this, rfl⟩

/-- C83 is violated by DpN/3D_example1.py: all points of `pareto_set`, which is also the reference set, are worse in all
objectives than a feasible point. -/
theorem C83_violated_round {rows : ℕ} {x : Fin 3 → ℝ} (hx : x ∈ roundSet (98 / 100) rows) :
    StrictlyDominated {y | sphereConstraint sphereCenter y = 0} (sqObjective roundCentres) x := by
  obtain ⟨p, hp, rfl⟩ := List.mem_map.mp hx
  obtain ⟨l, hl, rfl⟩ := inTriangle_iff.mp (roundPoints_mem hp)
  rw [← sphere_set]
  refine StrictlyDominated.of_euc (ball_dominated (ρ := 98 / 100) (s := 3 / 2) (by norm_num) (by norm_num) (by norm_num)
    (fun l hl => round_far hl) ?_)
  have h1 := (sphere_optimal one_pos hl (round_ne hl)).1
  rw [← projected_eq hl, Set.mem_setOf_eq] at h1
  have e : ∀ q : Fin 3 → ℝ, euc ((98 / 100 : ℝ) • (√(∑ v, (q v - sphereCenter v) ^ 2))⁻¹ • (q - sphereCenter) + sphereCenter) -
      euc sphereCenter = (98 / 100 : ℝ) • (euc (projected q) - euc sphereCenter) := by
    intro q
    ext v
    simp [projected]
  rw [e, norm_smul, h1]
  norm_num

/-! ## The plane -/

/-- The triangle of the centres of the second example, projected onto `x 0 = 0`. -/
def InFlatTriangle (p : Fin 3 → ℝ) : Prop :=
  ∃ l : Fin 3 → ℝ, (∀ k, 0 ≤ l k) ∧ l 0 + l 1 + l 2 = 1 ∧ p = ![0, -l 0 - 2 * l 2, -l 0 + 4 * l 2]

/-- The projected centres. -/
def flatZero : Fin 3 → Fin 3 → ℝ := ![![0, -1, -1], ![0, 0, 0], ![0, -2, 4]]

theorem flat_objective (x : Fin 3 → ℝ) (hx : x 0 = 0) (k : Fin 3) :
    sqObjective flatCentres x k = sqObjective flatZero x k + (flatCentres k 0) ^ 2 := by
  unfold sqObjective
  fin_cases k <;> simp [Fin.sum_univ_three, flatCentres, flatZero, hx] <;> ring

theorem flat_comb {l : Fin 3 → ℝ} :
    comb (fun k => euc (flatZero k)) l = euc ![0, -l 0 - 2 * l 2, -l 0 + 4 * l 2] := by
  ext v
  fin_cases v <;> simp [comb, Fin.sum_univ_three, flatZero] <;> ring

/-- C83 for HVN/3D_example2.py: the Pareto set is the projected triangle (the list `pareto_set` has its corners); all other
feasible points are worse in all objectives than one of its points. -/
theorem C83_plane (x : Fin 3 → ℝ) (hx : coordConstraint 1 0 x = 0) :
    (ParetoOptimal {y | coordConstraint 1 0 y = 0} (sqObjective flatCentres) x ↔ InFlatTriangle x) ∧
    (¬ InFlatTriangle x → StrictlyDominated {y | coordConstraint 1 0 y = 0} (sqObjective flatCentres) x) := by
  have hcoord : ∀ y : Fin 3 → ℝ, coordConstraint 1 0 y = 0 ↔ y 0 = 0 := fun y => by simp [coordConstraint]
  have hx0 := (hcoord x).mp hx
  have hS : ∀ l : Fin 3 → ℝ, comb (fun k => euc (flatZero k)) l ∈ {z : EuclideanSpace ℝ (Fin 3) | coordConstraint 1 0 z.ofLp = 0} := by
    intro l
    rw [flat_comb, Set.mem_setOf_eq, hcoord]
    rfl
  have hopt : InFlatTriangle x → ParetoOptimal {y | coordConstraint 1 0 y = 0} (sqObjective flatCentres) x := by
    rintro ⟨l, h0, h1, rfl⟩
    have hl : l ∈ stdSimplex ℝ (Fin 3) := ⟨h0, by simpa [Fin.sum_univ_three] using h1⟩
    have h := hull_optimal hl (hS l)
    rw [flat_comb] at h
    refine ⟨hx, fun y hy hle => (ParetoOptimal.of_euc h).2 y hy fun k => ?_⟩
    have := hle k
    rw [flat_objective y ((hcoord y).mp hy), flat_objective _ hx0] at this
    linarith
  have hdom : ¬ InFlatTriangle x → StrictlyDominated {y | coordConstraint 1 0 y = 0} (sqObjective flatCentres) x := by
    intro hn
    obtain ⟨y, hy, hlt⟩ := (hull_dominated (S := {z : EuclideanSpace ℝ (Fin 3) | coordConstraint 1 0 z.ofLp = 0})
      (fun l _ => hS l) (x := euc x) (by
      rintro ⟨l, hl, e⟩
      rw [flat_comb] at e
      exact hn ⟨l, hl.1, by simpa [Fin.sum_univ_three] using hl.2, by simpa using e⟩)).of_euc
    refine ⟨y, hy, fun k => ?_⟩
    have := hlt k
    rw [flat_objective y ((hcoord y).mp hy), flat_objective _ hx0]
    linarith
  refine ⟨⟨fun h => ?_, hopt⟩, hdom⟩
  by_contra hn
  obtain ⟨y, hy, hlt⟩ := hdom hn
  have := h.2 y hy fun k => (hlt k).le
  rw [this] at hlt
  exact lt_irrefl _ (hlt 0)

/-- C83 is violated by HVN/3D_example2.py: the first point of every row of `point_set` that is not empty is worse in all
objectives than a feasible point. -/
theorem C83_violated_flat {z : ℝ} (hz : 0 < flatCount z) :
    ∃ x ∈ flatRow 0 z, StrictlyDominated {y | coordConstraint 1 0 y = 0} (sqObjective flatCentres) x := by
  refine ⟨![0, (z + 6) / -5 - 1 / 100, z], List.mem_map.mpr ⟨0, List.mem_range.mpr hz, by simp [linspaceAt]⟩,
    ![0, (z + 6) / -5 - 1 / 100 + 1 / 104, z + 1 / 520], ?_, fun k => ?_⟩
  · simp [coordConstraint]
  · unfold sqObjective
    fin_cases k <;> simp [Fin.sum_univ_three, flatCentres] <;> nlinarith

/-- The list `point_set` of HVN/3D_example2.py has such rows. -/
theorem C83_violated_flat_list :
    ∃ x ∈ flatPoints 0, StrictlyDominated {y | coordConstraint 1 0 y = 0} (sqObjective flatCentres) x := by
  have hz : 0 < flatCount (linspaceAt (-101 / 100) (399 / 100) 50 10) := by
    rw [flatCount, Nat.floor_pos]
    norm_num [linspaceAt]
  obtain ⟨x, hx, h⟩ := C83_violated_flat hz
  exact ⟨x, List.mem_append_right _ (List.mem_flatMap.mpr ⟨10, by simp, hx⟩), h⟩

/-- C83 is violated by DpN/3D_example2.py: apart from the corners, all points of `point_set`, which is also the reference
set, are worse in all objectives than a feasible point. -/
theorem C83_violated_lifted {z : ℝ} {x : Fin 3 → ℝ} (hx : x ∈ flatRow (1 / 10) z) :
    StrictlyDominated {y | coordConstraint (-1) 0 y ≤ 0} (sqObjective flatCentres) x := by
  obtain ⟨j, -, rfl⟩ := List.mem_map.mp hx
  refine ⟨![0, linspaceAt ((z + 6) / -5 - 1 / 100) ((if 0 ≤ z then z / -2 else z) + 1 / 100) (flatCount z) j, z], ?_,
    fun k => ?_⟩
  · simp [coordConstraint]
  · unfold sqObjective
    fin_cases k <;> simp [Fin.sum_univ_three, flatCentres] <;> norm_num

/-! ## The line, the segment and the circle -/

/-- C83 for HVN/EqCon1.py and DpN/EqCon1.py: the Pareto set is the segment. -/
theorem C83_line (x : Fin 2 → ℝ) (hx : coordConstraint 1 1 x = 0) :
    (ParetoOptimal {y | coordConstraint 1 1 y = 0} (sqObjective eqconCentres) x ↔ -1 ≤ x 0 ∧ x 0 ≤ 1) ∧
    (ParetoOptimal {y | coordConstraint 1 1 y = 0} (sqObjective eqconCentresDpn) x ↔ -1 ≤ x 0 ∧ x 0 ≤ 1) := by
  have hcoord : ∀ y : Fin 2 → ℝ, coordConstraint 1 1 y = 0 ↔ y 1 = 0 := fun y => by simp [coordConstraint]
  have hx1 := (hcoord x).mp hx
  have key : ∀ c : Fin 2 → Fin 2 → ℝ, c 0 0 = -1 → c 1 0 = 1 →
      (ParetoOptimal {y | coordConstraint 1 1 y = 0} (sqObjective c) x ↔ -1 ≤ x 0 ∧ x 0 ≤ 1) := by
    intro c c0 c1
    have hf : ∀ y : Fin 2 → ℝ, y 1 = 0 → sqObjective c y 0 = (y 0 + 1) ^ 2 + c 0 1 ^ 2 ∧
        sqObjective c y 1 = (y 0 - 1) ^ 2 + c 1 1 ^ 2 := fun y hy => by
      simp [sqObjective, Fin.sum_univ_two, hy, c0, c1]
    have two : ∀ y : Fin 2 → ℝ, y 1 = 0 → ((∀ k, sqObjective c y k ≤ sqObjective c x k) ↔
        (y 0 + 1) ^ 2 ≤ (x 0 + 1) ^ 2 ∧ (y 0 - 1) ^ 2 ≤ (x 0 - 1) ^ 2) := by
      intro y hy
      rw [Fin.forall_fin_two, (hf y hy).1, (hf y hy).2, (hf x hx1).1, (hf x hx1).2]
      constructor <;> rintro ⟨h1, h2⟩ <;> constructor <;> linarith
    constructor
    · rintro ⟨-, h⟩
      refine ⟨?_, ?_⟩
      · by_contra hlt
        push Not at hlt
        have := h ![-1, 0] ((hcoord _).mpr rfl) ((two _ rfl).mpr ⟨by simp; positivity, by simp; nlinarith⟩)
        rw [← this] at hlt
        simp at hlt
      · by_contra hlt
        push Not at hlt
        have := h ![1, 0] ((hcoord _).mpr rfl) ((two _ rfl).mpr ⟨by simp; nlinarith, by simp; positivity⟩)
        rw [← this] at hlt
        simp at hlt
    · rintro ⟨h1, h2⟩
      refine ⟨hx, fun y hy hle => ?_⟩
      have hy1 := (hcoord y).mp hy
      obtain ⟨k1, k2⟩ := (two y hy1).mp hle
      have e1 : y 0 + 1 ≤ x 0 + 1 := abs_le_of_sq_le_sq' k1 (by linarith) |>.2
      have e2 : -(1 - x 0) ≤ y 0 - 1 := abs_le_of_sq_le_sq' (by nlinarith : (y 0 - 1) ^ 2 ≤ (1 - x 0) ^ 2) (by linarith) |>.1
      ext v
      fin_cases v
      · exact le_antisymm (by simpa using e1) (by simpa using by linarith)
      · simp [hx1, hy1]
  exact ⟨key _ (by simp [eqconCentres]) (by simp [eqconCentres]), key _ (by simp [eqconCentresDpn]) (by simp [eqconCentresDpn])⟩

/-- The fronts of HVN/EqCon1.py and DpN/EqCon1.py: the images of the Pareto sets, which differ by 3/4 in the second objective. -/
theorem C83_line_front (y : Fin 2 → ℝ) :
    ((∃ x, ParetoOptimal {y | coordConstraint 1 1 y = 0} (sqObjective eqconCentres) x ∧ sqObjective eqconCentres x = y) ↔
      ∃ t, -1 ≤ t ∧ t ≤ 1 ∧ y = ![(t + 1) ^ 2 + 1, (t - 1) ^ 2 + 1]) ∧
    ((∃ x, ParetoOptimal {y | coordConstraint 1 1 y = 0} (sqObjective eqconCentresDpn) x ∧ sqObjective eqconCentresDpn x = y) ↔
      ∃ t, -1 ≤ t ∧ t ≤ 1 ∧ y = ![(t + 1) ^ 2 + 1, (t - 1) ^ 2 + 1 / 4]) := by
  have hv : ∀ x : Fin 2 → ℝ, x 1 = 0 → sqObjective eqconCentres x = ![(x 0 + 1) ^ 2 + 1, (x 0 - 1) ^ 2 + 1] ∧
      sqObjective eqconCentresDpn x = ![(x 0 + 1) ^ 2 + 1, (x 0 - 1) ^ 2 + 1 / 4] := by
    intro x hx
    constructor <;> ext k <;> fin_cases k <;>
      simp [sqObjective, Fin.sum_univ_two, eqconCentres, eqconCentresDpn, hx] <;> norm_num
  constructor
  · constructor
    · rintro ⟨x, hx, rfl⟩
      have h := (C83_line x hx.1).1.mp hx
      exact ⟨x 0, h.1, h.2, (hv x (by simpa [coordConstraint] using hx.1)).1⟩
    · rintro ⟨t, h1, h2, rfl⟩
      exact ⟨![t, 0], (C83_line ![t, 0] (by simp [coordConstraint])).1.mpr ⟨h1, h2⟩, (hv ![t, 0] rfl).1⟩
  · constructor
    · rintro ⟨x, hx, rfl⟩
      have h := (C83_line x hx.1).2.mp hx
      exact ⟨x 0, h.1, h.2, (hv x (by simpa [coordConstraint] using hx.1)).2⟩
    · rintro ⟨t, h1, h2, rfl⟩
      exact ⟨![t, 0], (C83_line ![t, 0] (by simp [coordConstraint])).2.mpr ⟨h1, h2⟩, (hv ![t, 0] rfl).2⟩

/-- The points of `pareto_set` in HVN/EqCon1.py and DpN/EqCon1.py are optimal. -/
theorem C83_line_set {N : ℕ} {x : Fin 2 → ℝ} (hx : x ∈ eqconSet N) :
    ParetoOptimal {y | coordConstraint 1 1 y = 0} (sqObjective eqconCentres) x ∧
    ParetoOptimal {y | coordConstraint 1 1 y = 0} (sqObjective eqconCentresDpn) x := by
  obtain ⟨i, hi, rfl⟩ := List.mem_map.mp hx
  have h := linspaceAt_mem (a := -1) (b := 1) (by norm_num) (List.mem_range.mp hi)
  have := C83_line ![linspaceAt (-1) 1 N i, 0] (by simp [coordConstraint])
  exact ⟨this.1.mpr h, this.2.mpr h⟩

/-! ## The curves of HVN/concave_example.py and HVN/convex_example.py

The objectives are the variables, in the box `[0, 1]²` (`xl=0`, `xu=1`). -/

/-- The points of the unit square that satisfy an inequality constraint. -/
def squareFeasible (g : (Fin 2 → ℝ) → ℝ) : Set (Fin 2 → ℝ) := {x | (∀ i, 0 ≤ x i ∧ x i ≤ 1) ∧ g x ≤ 0}

/-- For a decreasing curve in the unit square: the optimal points above it are those on it. -/
theorem above_curve {g : (Fin 2 → ℝ) → ℝ} {f : ℝ → ℝ} (hg : ∀ x, g x = f (x 0) - x 1)
    (hf : ∀ s t, 0 ≤ s → s < t → t ≤ 1 → f t < f s) (h0 : ∀ t, 0 ≤ t → t ≤ 1 → 0 ≤ f t ∧ f t ≤ 1) (x : Fin 2 → ℝ) :
    ParetoOptimal (squareFeasible g) (fun y => y) x ↔ 0 ≤ x 0 ∧ x 0 ≤ 1 ∧ x 1 = f (x 0) := by
  constructor
  · rintro ⟨⟨hb, hgx⟩, h⟩
    refine ⟨(hb 0).1, (hb 0).2, ?_⟩
    have hx1 : f (x 0) ≤ x 1 := by
      rw [hg] at hgx
      linarith
    have := h ![x 0, f (x 0)] ⟨fun i => ?_, by rw [hg]; simp⟩ fun k => ?_
    · exact (congrFun this 1).symm
    · fin_cases i
      · exact hb 0
      · exact h0 _ (hb 0).1 (hb 0).2
    · fin_cases k
      · exact le_rfl
      · exact hx1
  · rintro ⟨h1, h2, h3⟩
    refine ⟨⟨fun i => ?_, by rw [hg, h3, sub_self]⟩, fun y hy hle => ?_⟩
    · fin_cases i
      · exact ⟨h1, h2⟩
      · change 0 ≤ x 1 ∧ x 1 ≤ 1
        rw [h3]
        exact h0 _ h1 h2
    · have hgy : f (y 0) ≤ y 1 := by
        have := hy.2
        rw [hg] at this
        linarith
      have l0 : y 0 ≤ x 0 := hle 0
      have l1 : y 1 ≤ x 1 := hle 1
      have e0 : y 0 = x 0 := by
        by_contra hne
        have := hf _ _ (hy.1 0).1 (lt_of_le_of_ne l0 hne) h2
        linarith
      ext k
      fin_cases k
      · exact e0
      · exact le_antisymm l1 (by rw [e0] at hgy; exact h3 ▸ hgy)

/-- C83 for HVN/concave_example.py and HVN/convex_example.py: the Pareto sets, which are the fronts as well. -/
theorem C83_curves (x : Fin 2 → ℝ) :
    (ParetoOptimal (squareFeasible concaveConstraint) (fun y => y) x ↔ 0 ≤ x 0 ∧ x 0 ≤ 1 ∧ x 1 = 1 - x 0 ^ 2) ∧
    (ParetoOptimal (squareFeasible convexConstraint) (fun y => y) x ↔ 0 ≤ x 0 ∧ x 0 ≤ 1 ∧ x 1 = (1 - x 0) ^ 2) := by
  constructor
  · refine above_curve (f := fun t => 1 - t ^ 2) (fun x => rfl) (fun s t h1 h2 h3 => ?_) (fun t h1 h2 => ?_) x
    · nlinarith
    · constructor <;> nlinarith
  · refine above_curve (f := fun t => (1 - t) ^ 2) (fun x => ?_) (fun s t h1 h2 h3 => ?_) (fun t h1 h2 => ?_) x
    · unfold convexConstraint
      ring
    · nlinarith
    · constructor <;> nlinarith

/-- The curves drawn by HVN/concave_example.py and HVN/convex_example.py consist of optimal points. -/
theorem C83_drawn_curves {n : ℕ} {x : Fin 2 → ℝ} :
    (x ∈ concaveCurve n → ParetoOptimal (squareFeasible concaveConstraint) (fun y => y) x) ∧
    (x ∈ convexCurve n → ParetoOptimal (squareFeasible convexConstraint) (fun y => y) x) := by
  constructor <;> intro hx <;> obtain ⟨i, hi, rfl⟩ := List.mem_map.mp hx
  · have h := linspaceAt_mem (a := 0) (b := 1) (by norm_num) (List.mem_range.mp hi)
    exact (C83_curves _).1.mpr ⟨h.1, h.2, rfl⟩
  · have h := linspaceAt_mem (a := 0) (b := 1) (by norm_num) (List.mem_range.mp hi)
    refine (C83_curves _).2.mpr ⟨h.1, h.2, ?_⟩
    change linspaceAt 0 1 n i ^ 2 - 2 * linspaceAt 0 1 n i + 1 = (1 - linspaceAt 0 1 n i) ^ 2
    ring

/-- The corners of the curves and a point of the second one. -/
example : ParetoOptimal (squareFeasible concaveConstraint) (fun y => y) ![1, 0] ∧
    ParetoOptimal (squareFeasible convexConstraint) (fun y => y) ![1 / 2, 1 / 4] ∧
    ¬ ParetoOptimal (squareFeasible convexConstraint) (fun y => y) ![1 / 2, 1 / 2] := by
  refine ⟨(C83_curves _).1.mpr ⟨by simp, by simp, by simp⟩, (C83_curves _).2.mpr ⟨by simp, ?_, ?_⟩, fun h => ?_⟩
  · norm_num
  · norm_num
  · have := ((C83_curves _).2.mp h).2.2
    norm_num at this

theorem mop1_comb {l : Fin 2 → ℝ} : comb (fun k => euc (mop1Centres k)) l = euc fun _ => l 0 - l 1 := by
  ext v
  fin_cases v <;> simp [comb, Fin.sum_univ_two, mop1Centres] <;> ring

/-- C83 for `MOP1` without constraint (DpN/MOP1_example.py, MMD/MOP1.py): the Pareto set is the segment between the
centres; all other points are worse in both objectives than one of its points. -/
theorem C83_segment (x : Fin 2 → ℝ) :
    (ParetoOptimal Set.univ (sqObjective mop1Centres) x ↔ x 0 = x 1 ∧ -1 ≤ x 0 ∧ x 0 ≤ 1) ∧
    (¬ (x 0 = x 1 ∧ -1 ≤ x 0 ∧ x 0 ≤ 1) → StrictlyDominated Set.univ (sqObjective mop1Centres) x) := by
  have hiff : (x 0 = x 1 ∧ -1 ≤ x 0 ∧ x 0 ≤ 1) ↔ ∃ l ∈ stdSimplex ℝ (Fin 2), euc x = comb (fun k => euc (mop1Centres k)) l := by
    constructor
    · rintro ⟨h1, h2, h3⟩
      refine ⟨![(1 + x 0) / 2, (1 - x 0) / 2], ⟨fun i => ?_, ?_⟩, ?_⟩
      · fin_cases i <;> simp <;> linarith
      · simp [Fin.sum_univ_two]; ring
      · rw [mop1_comb]
        ext v
        fin_cases v <;> simp [← h1] <;> ring
    · rintro ⟨l, hl, e⟩
      rw [mop1_comb] at e
      have e : x = fun _ => l 0 - l 1 := by simpa using e
      have h : l 0 + l 1 = 1 := by simpa [Fin.sum_univ_two] using hl.2
      have h0 := hl.1 0
      have h1 := hl.1 1
      rw [e]
      exact ⟨rfl, by linarith, by linarith⟩
  have hdom : ¬ (x 0 = x 1 ∧ -1 ≤ x 0 ∧ x 0 ≤ 1) → StrictlyDominated Set.univ (sqObjective mop1Centres) x := fun h =>
    (hull_dominated (S := Set.univ) (fun _ _ => trivial) fun h' => h (hiff.mpr h')).of_euc
  refine ⟨⟨fun h => ?_, fun h => ?_⟩, hdom⟩
  · by_contra hn
    obtain ⟨y, hy, hlt⟩ := hdom hn
    have := h.2 y hy fun k => (hlt k).le
    rw [this] at hlt
    exact lt_irrefl _ (hlt 0)
  · obtain ⟨l, hl, e⟩ := hiff.mp h
    have := hull_optimal (c := fun k => euc (mop1Centres k)) (S := Set.univ) hl trivial
    rw [← e] at this
    exact this.of_euc

/-- The points of `pareto_set` in MMD/MOP1.py and DpN/MOP1_example.py are optimal. -/
theorem C83_segment_set {N : ℕ} {x : Fin 2 → ℝ} (hx : x ∈ mop1Set N) :
    ParetoOptimal Set.univ (sqObjective mop1Centres) x := by
  obtain ⟨i, hi, rfl⟩ := List.mem_map.mp hx
  have h := linspaceAt_mem (a := -1) (b := 1) (by norm_num) (List.mem_range.mp hi)
  exact (C83_segment _).1.mpr ⟨rfl, h⟩

theorem mop1_values (y : Fin 2 → ℝ) : sqObjective mop1Centres y 0 = y 0 ^ 2 + y 1 ^ 2 - 2 * (y 0 + y 1) + 2 ∧
    sqObjective mop1Centres y 1 = y 0 ^ 2 + y 1 ^ 2 + 2 * (y 0 + y 1) + 2 := by
  constructor <;> simp [sqObjective, Fin.sum_univ_two, mop1Centres] <;> ring

/-- C83 for `MOP1` on the circle (HVN/2D_example.py, DpN/2D_example_convex.py): no feasible point dominates another one.
The reference points `0.99 * (cos a, sin a)` of DpN/2D_example_convex.py (61-62) are better in both objectives than a
feasible point, and no feasible point is as good as they are. -/
theorem C83_circle :
    (∀ x y : Fin 2 → ℝ, sphereConstraint 0 x = 0 → sphereConstraint 0 y = 0 →
      (∀ k, sqObjective mop1Centres y k ≤ sqObjective mop1Centres x k) → sqObjective mop1Centres y = sqObjective mop1Centres x) ∧
    ∀ u : Fin 2 → ℝ, u 0 ^ 2 + u 1 ^ 2 = 1 →
      (∃ y, sphereConstraint 0 y = 0 ∧ ∀ k, sqObjective mop1Centres ((99 / 100 : ℝ) • u) k < sqObjective mop1Centres y k) ∧
      ¬ ∃ y, sphereConstraint 0 y = 0 ∧ ∀ k, sqObjective mop1Centres y k ≤ sqObjective mop1Centres ((99 / 100 : ℝ) • u) k := by
  have hcirc : ∀ y : Fin 2 → ℝ, sphereConstraint 0 y = 0 ↔ y 0 ^ 2 + y 1 ^ 2 = 1 := fun y => by
    simp [sphereConstraint, Fin.sum_univ_two, sub_eq_zero]
  refine ⟨fun x y hx hy h => ?_, fun u hu => ⟨?_, ?_⟩⟩
  · rw [hcirc] at hx hy
    have h0 := h 0
    have h1 := h 1
    rw [(mop1_values _).1, (mop1_values _).1] at h0
    rw [(mop1_values _).2, (mop1_values _).2] at h1
    have e : y 0 + y 1 = x 0 + x 1 := by linarith
    ext k
    fin_cases k
    · show sqObjective mop1Centres y 0 = sqObjective mop1Centres x 0
      rw [(mop1_values _).1, (mop1_values _).1, hx, hy, e]
    · show sqObjective mop1Centres y 1 = sqObjective mop1Centres x 1
      rw [(mop1_values _).2, (mop1_values _).2, hx, hy, e]
  · obtain ⟨s, hs⟩ : ∃ s, s = 99 / 100 * (u 0 + u 1) := ⟨_, rfl⟩
    have h2 : 0 ≤ 2 - s ^ 2 := by
      rw [hs]
      nlinarith [sq_nonneg (u 0 - u 1), sq_nonneg (u 0 + u 1)]
    have h3 := Real.sq_sqrt h2
    refine ⟨![(s + √(2 - s ^ 2)) / 2, (s - √(2 - s ^ 2)) / 2], ?_, ?_⟩
    · rw [hcirc]
      simp
      nlinarith
    · rw [Fin.forall_fin_two, (mop1_values _).1, (mop1_values _).1, (mop1_values _).2, (mop1_values _).2]
      simp
      constructor <;> nlinarith
  · rintro ⟨y, hy, h⟩
    rw [hcirc] at hy
    have h0 := h 0
    have h1 := h 1
    rw [(mop1_values _).1, (mop1_values _).1] at h0
    rw [(mop1_values _).2, (mop1_values _).2] at h1
    simp at h0 h1
    nlinarith

/-! ## Derivatives -/

theorem sum_sq_gradient (c x : Fin n → ℝ) : IsGradientAt (fun x => ∑ v, (x v - c v) ^ 2) (fun v => 2 * (x v - c v)) x := by
  intro w
  have h : ∀ v ∈ Finset.univ, HasDerivAt (fun t => (Function.update x w t v - c v) ^ 2) (if v = w then 2 * (x w - c w) else 0) (x w) := by
    intro v _
    by_cases hv : v = w
    · subst hv
      rw [if_pos rfl]
      simpa using ((hasDerivAt_id' (x v)).sub_const (c v)).fun_pow 2
    · rw [if_neg hv]
      simp only [Function.update_of_ne hv]
      exact hasDerivAt_const _ _
  simpa using HasDerivAt.fun_sum h

theorem coordinate_gradient (x : Fin n → ℝ) (a b : ℝ) (i : Fin n) :
    IsGradientAt (fun x => a * (x i - b)) (fun w => a * if i = w then 1 else 0) x := by
  intro w
  by_cases h : i = w
  · subst h
    simpa using ((hasDerivAt_id' (x i)).sub_const b).const_mul a
  · simp only [Function.update_of_ne h, if_neg h, mul_zero]
    exact hasDerivAt_const _ _

/-- C83: the hand-written Jacobians and Hessians are the derivatives. -/
theorem C83_derivatives (c : Fin m → Fin n → ℝ) (d x : Fin n → ℝ) (sign : ℝ) (i : Fin n) (z : Fin 2 → ℝ) :
    (∀ k, IsGradientAt (fun x => sqObjective c x k) (sqJacobian c x k) x ∧
      ∀ v, IsGradientAt (fun x => sqJacobian c x k v) (sqHessian x k v) x) ∧
    (IsGradientAt (sphereConstraint d) (sphereJacobian d x) x ∧
      ∀ v, IsGradientAt (fun x => sphereJacobian d x v) (sphereHessian x v) x) ∧
    (IsGradientAt (coordConstraint sign i) (coordJacobian sign i x) x ∧
      ∀ v, IsGradientAt (fun x => coordJacobian sign i x v) (fun _ => 0) x) ∧
    (IsGradientAt concaveConstraint (concaveJacobian z) z ∧
      ∀ v, IsGradientAt (fun z => concaveJacobian z v) (concaveHessian z v) z) ∧
    (IsGradientAt convexConstraint (convexJacobian z) z ∧
      ∀ v, IsGradientAt (fun z => convexJacobian z v) (convexHessian z v) z) := by
  refine ⟨fun k => ⟨sum_sq_gradient (c k) x, fun v => coordinate_gradient x 2 (c k v) v⟩,
    ⟨fun w => (sum_sq_gradient d x w).sub_const 1, fun v => coordinate_gradient x 2 (d v) v⟩,
    ⟨fun w => ?_, fun v w => hasDerivAt_const _ _⟩, ⟨?_, ?_⟩, ⟨?_, ?_⟩⟩
  · have := coordinate_gradient x sign 0 i w
    simp only [sub_zero] at this
    unfold coordConstraint
    convert this using 1
    unfold coordJacobian
    by_cases h : w = i
    · rw [if_pos h, if_pos h.symm, mul_one]
    · rw [if_neg h, if_neg (Ne.symm h), mul_zero]
  · intro w
    unfold concaveConstraint concaveJacobian
    fin_cases w
    · simpa [Function.update_of_ne] using (((hasDerivAt_id' (z 0)).fun_pow 2).const_sub 1).sub_const (z 1)
    · simpa [Function.update_of_ne] using (hasDerivAt_id' (z 1)).const_sub (1 - z 0 ^ 2)
  · intro v w
    unfold concaveJacobian concaveHessian
    fin_cases v <;> fin_cases w
    · simpa using (hasDerivAt_id' (z 0)).const_mul (-2)
    · simpa using hasDerivAt_const (z 1) (-2 * z 0)
    · simpa using hasDerivAt_const (z 0) (-1 : ℝ)
    · simpa using hasDerivAt_const (z 1) (-1 : ℝ)
  · intro w
    unfold convexConstraint convexJacobian
    fin_cases w
    · simpa [Function.update_of_ne] using
        ((((hasDerivAt_id' (z 0)).fun_pow 2).sub ((hasDerivAt_id' (z 0)).const_mul 2)).add_const 1).sub_const (z 1)
    · simpa [Function.update_of_ne] using (hasDerivAt_id' (z 1)).const_sub (z 0 ^ 2 - 2 * z 0 + 1)
  · intro v w
    unfold convexJacobian convexHessian
    fin_cases v <;> fin_cases w
    · simpa using ((hasDerivAt_id' (z 0)).const_mul 2).sub_const 2
    · simpa using hasDerivAt_const (z 1) (2 * z 0 - 2)
    · simpa using hasDerivAt_const (z 0) (-1 : ℝ)
    · simpa using hasDerivAt_const (z 1) (-1 : ℝ)

/-! ## Examples -/

example : sphereConstraint sphereCenter (sphereCenter + ![0, 0, 1]) = 0 := by
  simp [sphereConstraint, Fin.sum_univ_three, sphereCenter]

example : (roundSet 1 14).length = 196 ∧ (roundSet (98 / 100) 14).length = 196 := by
  simp only [roundSet, roundPoints, List.length_map, List.length_flatMap, List.length_range]
  decide

/-- A point on the sphere outside of the Pareto set: the pole. -/
example : StrictlyDominated {y | sphereConstraint sphereCenter y = 0} (sqObjective roundCentres) (sphereCenter + ![0, 0, -1]) := by
  refine ⟨sphereCenter + ![0, 0, 1], by simp [sphereConstraint, Fin.sum_univ_three, sphereCenter], fun k => ?_⟩
  unfold sqObjective
  fin_cases k <;> simp [Fin.sum_univ_three, sphereCenter, roundCentres] <;> norm_num

example : flatCount 0 = 12 := by
  rw [flatCount, Nat.floor_eq_iff] <;> norm_num

example : (![1 / 10, linspaceAt ((0 + 6) / -5 - 1 / 100) (1 / 100) 12 3, 0] : Fin 3 → ℝ) ∈ flatRow (1 / 10) 0 := by
  have h : flatCount 0 = 12 := by rw [flatCount, Nat.floor_eq_iff] <;> norm_num
  exact List.mem_map.mpr ⟨3, by simp [h], by simp [h]⟩

example : InFlatTriangle ![0, -1, -1] ∧ ¬ InFlatTriangle ![0, 1, 0] := by
  refine ⟨⟨![1, 0, 0], fun k => by fin_cases k <;> simp, by simp, by simp⟩, ?_⟩
  rintro ⟨l, h0, -, e⟩
  have h1 := congrFun e 1
  have h2 := h0 0
  have h3 := h0 2
  simp at h1
  linarith

example : (![-1, 0] : Fin 2 → ℝ) ∈ eqconSet 500 := List.mem_map.mpr ⟨0, by simp, by simp [linspaceAt]⟩

example : (fun _ => -1 : Fin 2 → ℝ) ∈ mop1Set 500 := List.mem_map.mpr ⟨0, by simp, by simp [linspaceAt]⟩

example : (![3 / 5, 4 / 5] : Fin 2 → ℝ) 0 ^ 2 + (![3 / 5, 4 / 5] : Fin 2 → ℝ) 1 ^ 2 = 1 := by norm_num

end Verif.Props
