import Verif.Scripts.CubicFront
import Mathlib.Analysis.Calculus.Deriv.Pow
import Mathlib.Analysis.Calculus.Deriv.Mul
import Mathlib.Analysis.Calculus.Deriv.Add
import Mathlib.Analysis.Calculus.Deriv.Comp
import Mathlib.Analysis.Calculus.FDeriv.Prod
import Mathlib.Analysis.Calculus.FDeriv.Add
import Mathlib.Data.List.GetD
import Mathlib.Tactic.Linarith
import Mathlib.Tactic.Ring
import Mathlib.Tactic.NormNum

/-!
# C93: the cubic splines of the subset selection examples

A spline has breaks `b₀ < ... < bₙ` and a cubic `pᵢ` for each `[bᵢ, bᵢ₊₁]`, in `x - bᵢ`. The examples use it as a constraint
`h x = S x₀ - x₁ = 0` and hand its derivatives to the Newton method.
-/

namespace Verif.Props

open Verif.Scripts Filter Topology

/-- Near `x` the function `approx` returns a value, its derivative, and near `x` the derivative of that at `x`. -/
def ReportsDerivatives (approx : ℝ → Option (ℝ × ℝ × ℝ)) (x : ℝ) : Prop :=
  ∃ f f' w : ℝ → ℝ, (∀ᶠ z in 𝓝 x, approx z = some (f z, f' z, w z)) ∧ HasDerivAt f (f' x) x ∧ HasDerivAt f' (w x) x

/-- The reported pair is the gradient of the reported value at `(x₀, x₁)`. -/
def ReportsGradient (h : ℝ → ℝ → Option ℝ) (g : ℝ → ℝ → Option (ℝ × ℝ)) (x0 x1 : ℝ) : Prop :=
  ∃ (H : ℝ × ℝ → ℝ) (a b : ℝ), (∀ᶠ z in 𝓝 (x0, x1), h z.1 z.2 = some (H z)) ∧ g x0 x1 = some (a, b) ∧
    HasFDerivAt H (a • ContinuousLinearMap.fst ℝ ℝ ℝ + b • ContinuousLinearMap.snd ℝ ℝ ℝ) (x0, x1)

/-- The reported matrix is the derivative of the reported pair at `(x₀, x₁)`. -/
def ReportsHessian (g : ℝ → ℝ → Option (ℝ × ℝ)) (H : ℝ → ℝ → Option ((ℝ × ℝ) × (ℝ × ℝ))) (x0 x1 : ℝ) : Prop :=
  ∃ (G G' : ℝ × ℝ → ℝ) (a b c d : ℝ), (∀ᶠ z in 𝓝 (x0, x1), g z.1 z.2 = some (G z, G' z)) ∧
    H x0 x1 = some ((a, b), (c, d)) ∧
    HasFDerivAt G (a • ContinuousLinearMap.fst ℝ ℝ ℝ + b • ContinuousLinearMap.snd ℝ ℝ ℝ) (x0, x1) ∧
    HasFDerivAt G' (c • ContinuousLinearMap.fst ℝ ℝ ℝ + d • ContinuousLinearMap.snd ℝ ℝ ℝ) (x0, x1)

section lastBreak

variable {K : Type*} [Field K] [LinearOrder K]

theorem getLast_filter_range {q : ℕ → Bool} {n i : ℕ} : ((List.range n).filter q).getLast? = some i ↔
    i < n ∧ q i = true ∧ ∀ j, i < j → j < n → q j = false := by
  induction n with
  | zero => simp
  | succ n ih =>
    rw [List.range_succ, List.filter_append]
    cases hq : q n with
    | true =>
      rw [show [n].filter q = [n] by simp [hq], List.getLast?_concat, Option.some.injEq]
      constructor
      · rintro rfl
        exact ⟨by omega, hq, fun j h1 h2 => by omega⟩
      · rintro ⟨h1, h2, h3⟩
        by_contra hne
        have := h3 n (by omega) (by omega)
        rw [hq] at this
        cases this
    | false =>
      rw [show [n].filter q = [] by simp [hq], List.append_nil, ih]
      constructor
      · rintro ⟨h1, h2, h3⟩
        refine ⟨by omega, h2, fun j h4 h5 => ?_⟩
        rcases Nat.lt_succ_iff_lt_or_eq.mp h5 with h6 | rfl
        · exact h3 j h4 h6
        · exact hq
      · rintro ⟨h1, h2, h3⟩
        refine ⟨?_, h2, fun j h4 h5 => h3 j h4 (by omega)⟩
        rcases Nat.lt_succ_iff_lt_or_eq.mp h1 with h6 | rfl
        · exact h6
        · rw [hq] at h2
          cases h2

theorem lastBreak_iff {breaks : List K} {x : K} {i : ℕ} : lastBreak breaks x = some i ↔
    i < breaks.length ∧ breaks.getD i 0 ≤ x ∧ ∀ j, i < j → j < breaks.length → x < breaks.getD j 0 := by
  unfold lastBreak
  rw [getLast_filter_range]
  simp

theorem lastBreak_congr {breaks : List K} {x z : K} (h : ∀ b ∈ breaks, b ≤ z ↔ b ≤ x) : lastBreak breaks z = lastBreak breaks x := by
  unfold lastBreak
  congr 1
  refine List.filter_congr fun i hi => ?_
  rw [List.getD_eq_getElem _ _ (List.mem_range.mp hi)]
  exact decide_eq_decide.mpr (h _ (List.getElem_mem _))

/-- The breaks increase. -/
theorem getD_lt {breaks : List K} (hs : breaks.Pairwise (· < ·)) {i j : ℕ} (hij : i < j) (hj : j < breaks.length) :
    breaks.getD i 0 < breaks.getD j 0 := by
  rw [List.getD_eq_getElem _ _ hj, List.getD_eq_getElem _ _ (by omega)]
  exact List.pairwise_iff_getElem.mp hs i j (by omega) hj hij

theorem lastBreak_sorted {breaks : List K} (hs : breaks.Pairwise (· < ·)) {x : K} {i : ℕ} (hi : i + 1 < breaks.length)
    (h1 : breaks.getD i 0 ≤ x) (h2 : x < breaks.getD (i + 1) 0) : lastBreak breaks x = some i := by
  refine lastBreak_iff.mpr ⟨by omega, h1, fun j h3 h4 => ?_⟩
  rcases Nat.lt_or_ge (i + 1) j with h | h
  · exact h2.trans (getD_lt hs h h4)
  · rwa [show j = i + 1 by omega]

/-- C93, values: between two breaks `pareto_front_approx` evaluates the cubic of this interval. The last break is missing, see
`C93StatementEnd`. -/
theorem C93_value_partial {coefs : List (CubicRow K)} {breaks : List K} (hl : breaks.length = coefs.length + 1)
    (hs : breaks.Pairwise (· < ·)) {i : ℕ} {p : CubicRow K} (hp : coefs[i]? = some p) {x : K} (h1 : breaks.getD i 0 ≤ x)
    (h2 : x < breaks.getD (i + 1) 0) : ∃ y dy d2y, frontApprox coefs breaks x = some (y, dy, d2y) ∧
      y = p.a * (x - breaks.getD i 0) ^ 3 + p.b * (x - breaks.getD i 0) ^ 2 + p.c * (x - breaks.getD i 0) + p.d := by
  have hi := (List.getElem?_eq_some_iff.mp hp).1
  refine ⟨_, (cubicTriple p (x - breaks.getD i 0)).2.1, (cubicTriple p (x - breaks.getD i 0)).2.2, ?_, rfl⟩
  rw [frontApprox, lastBreak_sorted hs (by omega) h1 h2, Option.bind_some, min_eq_right (by omega), hp]
  rfl

end lastBreak

/-! ### Derivatives -/

theorem cubic_deriv (p : CubicRow ℝ) (b x : ℝ) :
    HasDerivAt (fun z => (cubicTriple p (z - b)).1) (cubicTriple p (x - b)).2.1 x ∧
      HasDerivAt (fun z => (cubicTriple p (z - b)).2.1) (cubicTriple p (x - b)).2.2 x := by
  have h1 : HasDerivAt (fun z : ℝ => z - b) 1 x := (hasDerivAt_id x).sub_const b
  have h2 := h1.pow 2
  have h3 := h1.pow 3
  constructor
  · have := (((h3.const_mul p.a).add (h2.const_mul p.b)).add (h1.const_mul p.c)).add_const p.d
    refine this.congr_deriv ?_
    simp only [cubicTriple]
    push_cast
    ring
  · have := ((h2.const_mul (3 * p.a)).add (h1.const_mul (2 * p.b))).add_const p.c
    refine this.congr_deriv ?_
    simp only [cubicTriple]
    push_cast
    ring

theorem eventually_breaks {breaks : List ℝ} {x : ℝ} (h : x ∉ breaks) : ∀ᶠ z in 𝓝 x, ∀ b ∈ breaks, b ≤ z ↔ b ≤ x := by
  induction breaks with
  | nil => simp
  | cons b l ih =>
    have hne : x ≠ b := fun e => h (by simp [e])
    have hb : ∀ᶠ z in 𝓝 x, b ≤ z ↔ b ≤ x := by
      rcases lt_or_gt_of_ne hne with hlt | hlt
      · filter_upwards [eventually_lt_nhds hlt] with z hz
        exact ⟨fun h => absurd hz (not_lt.mpr h), fun h => absurd hlt (not_lt.mpr h)⟩
      · filter_upwards [eventually_gt_nhds hlt] with z hz
        exact ⟨fun _ => hlt.le, fun _ => hz.le⟩
    filter_upwards [hb, ih fun h' => h (by simp [h'])] with z h1 h2
    intro c hc
    rcases List.mem_cons.mp hc with rfl | hc
    · exact h1
    · exact h2 c hc

/-- C93, derivatives: at every point but the breaks, from the first break on, the second and the third number are the first and
second derivative of the first one. -/
theorem C93_derivatives {coefs : List (CubicRow ℝ)} {breaks : List ℝ} (hc : coefs ≠ []) {x : ℝ} (hx : x ∉ breaks)
    (h0 : ∃ b ∈ breaks, b ≤ x) : ReportsDerivatives (frontApprox coefs breaks) x := by
  obtain ⟨i, hi⟩ : ∃ i, lastBreak breaks x = some i := by
    obtain ⟨b, hb, hbx⟩ := h0
    obtain ⟨k, hk, rfl⟩ := List.mem_iff_getElem.mp hb
    rw [lastBreak]
    refine ⟨_, List.getLast?_eq_some_getLast ?_⟩
    exact List.ne_nil_of_mem (a := k) (List.mem_filter.mpr
      ⟨List.mem_range.mpr hk, by rw [List.getD_eq_getElem _ _ hk]; simpa using hbx⟩)
  have hlen : 0 < coefs.length := List.length_pos_iff.mpr hc
  obtain ⟨p, hp⟩ : ∃ p, coefs[min (coefs.length - 1) i]? = some p := ⟨_, List.getElem?_eq_getElem (by omega)⟩
  refine ⟨fun z => (cubicTriple p (z - breaks.getD i 0)).1, fun z => (cubicTriple p (z - breaks.getD i 0)).2.1,
    fun z => (cubicTriple p (z - breaks.getD i 0)).2.2, ?_, (cubic_deriv p _ x).1, (cubic_deriv p _ x).2⟩
  filter_upwards [eventually_breaks hx] with z hz
  rw [frontApprox, lastBreak_congr hz, hi, Option.bind_some, hp]
  rfl

theorem glue_deriv {f g : ℝ → ℝ} {d x : ℝ} (hf : HasDerivAt f d x) (hg : HasDerivAt g d x) (h : f x = g x) :
    HasDerivAt (fun z => if z < x then f z else g z) d x := by
  have hx : (fun z => if z < x then f z else g z) x = g x := if_neg (lt_irrefl x)
  have h1 : HasDerivWithinAt (fun z => if z < x then f z else g z) d (Set.Iic x) x := by
    refine hf.hasDerivWithinAt.congr (fun z hz => ?_) (hx.trans h.symm)
    rcases lt_or_eq_of_le (Set.mem_Iic.mp hz) with hlt | rfl
    · exact if_pos hlt
    · exact hx.trans h.symm
  have h2 : HasDerivWithinAt (fun z => if z < x then f z else g z) d (Set.Ici x) x :=
    hg.hasDerivWithinAt.congr (fun z hz => if_neg (not_lt.mpr (Set.mem_Ici.mp hz))) hx
  have := h1.union h2
  rwa [Set.Iic_union_Ici, hasDerivWithinAt_univ] at this

/-- C93, derivatives at an inner break where the two cubics fit together: values, first and second derivatives agree. -/
theorem C93_knots {coefs : List (CubicRow ℝ)} {breaks : List ℝ} (hl : breaks.length = coefs.length + 1)
    (hs : breaks.Pairwise (· < ·)) {i : ℕ} {p q : CubicRow ℝ} (hp : coefs[i]? = some p) (hq : coefs[i + 1]? = some q) {t : ℝ}
    (ht : t = breaks.getD (i + 1) 0 - breaks.getD i 0) (h0 : p.a * t ^ 3 + p.b * t ^ 2 + p.c * t + p.d = q.d)
    (h1 : 3 * p.a * t ^ 2 + 2 * p.b * t + p.c = q.c) (h2 : 6 * p.a * t + 2 * p.b = 2 * q.b) :
    ReportsDerivatives (frontApprox coefs breaks) (breaks.getD (i + 1) 0) := by
  have hi := (List.getElem?_eq_some_iff.mp hq).1
  set x := breaks.getD (i + 1) 0 with hx
  set b := breaks.getD i 0 with hb
  have e1 : (cubicTriple p (x - b)).2.1 = (cubicTriple q (x - x)).2.1 := by
    rw [← ht, sub_self]
    simp only [cubicTriple]
    linarith
  have e2 : (cubicTriple p (x - b)).2.2 = (cubicTriple q (x - x)).2.2 := by
    rw [← ht, sub_self]
    simp only [cubicTriple]
    linarith
  have e0 : (cubicTriple p (x - b)).1 = (cubicTriple q (x - x)).1 := by
    rw [← ht, sub_self]
    simp only [cubicTriple]
    linarith
  refine ⟨fun z => if z < x then (cubicTriple p (z - b)).1 else (cubicTriple q (z - x)).1,
    fun z => if z < x then (cubicTriple p (z - b)).2.1 else (cubicTriple q (z - x)).2.1,
    fun z => if z < x then (cubicTriple p (z - b)).2.2 else (cubicTriple q (z - x)).2.2, ?_, ?_, ?_⟩
  · have hlt1 : b < x := getD_lt hs (by omega) (by omega)
    have hlt2 : x < breaks.getD (i + 1 + 1) 0 := getD_lt hs (by omega) (by omega)
    filter_upwards [eventually_gt_nhds hlt1, eventually_lt_nhds hlt2] with z hz1 hz2
    by_cases hz : z < x
    · rw [if_pos hz, if_pos hz, if_pos hz, frontApprox, lastBreak_sorted hs (by omega) hz1.le hz, Option.bind_some,
        min_eq_right (by omega), hp]
      rfl
    · rw [if_neg hz, if_neg hz, if_neg hz, frontApprox, lastBreak_sorted hs (by omega) (not_lt.mp hz) hz2, Option.bind_some,
        min_eq_right (by omega), hq]
      rfl
  · dsimp only
    rw [if_neg (lt_irrefl x)]
    exact glue_deriv (e1 ▸ (cubic_deriv p b x).1) (cubic_deriv q x x).1 e0
  · dsimp only
    rw [if_neg (lt_irrefl x)]
    exact glue_deriv (e2 ▸ (cubic_deriv p b x).2) (cubic_deriv q x x).2 e1

/-- C93, the constraint: where the spline reports its derivatives, `h_Jacobian` is the gradient of `h` and `h_Hessian` the
derivative of `h_Jacobian`. -/
theorem C93_constraint {approx : ℝ → Option (ℝ × ℝ × ℝ)} {x0 : ℝ} (h : ReportsDerivatives approx x0) (x1 : ℝ) :
    ReportsGradient (splineH approx) (splineHJac approx) x0 x1 ∧
      ReportsHessian (splineHJac approx) (splineHHess approx) x0 x1 := by
  obtain ⟨f, f', w, hev, hf, hf'⟩ := h
  have hev2 : ∀ᶠ z : ℝ × ℝ in 𝓝 (x0, x1), approx z.1 = some (f z.1, f' z.1, w z.1) :=
    (continuous_fst.tendsto (x0, x1)).eventually hev
  have hat := hev.self_of_nhds
  have hfst : HasFDerivAt (fun z : ℝ × ℝ => z.1) (ContinuousLinearMap.fst ℝ ℝ ℝ) (x0, x1) := hasFDerivAt_fst
  have hsnd : HasFDerivAt (fun z : ℝ × ℝ => z.2) (ContinuousLinearMap.snd ℝ ℝ ℝ) (x0, x1) := hasFDerivAt_snd
  refine ⟨⟨fun z => f z.1 - z.2, f' x0, -1, ?_, ?_, ?_⟩, ⟨fun z => f' z.1, fun _ => -1, w x0, 0, 0, 0, ?_, ?_, ?_, ?_⟩⟩
  · filter_upwards [hev2] with z hz
    rw [splineH, hz]
    rfl
  · rw [splineHJac, hat]
    rfl
  · have := (HasDerivAt.comp_hasFDerivAt (x0, x1) (f := fun z : ℝ × ℝ => z.1) hf hfst).sub hsnd
    exact this.congr_fderiv (by ext <;> simp)
  · filter_upwards [hev2] with z hz
    rw [splineHJac, hz]
    rfl
  · rw [splineHHess, hat]
    rfl
  · rw [zero_smul, add_zero]
    exact HasDerivAt.comp_hasFDerivAt (x0, x1) (f := fun z : ℝ × ℝ => z.1) hf' hfst
  · rw [zero_smul, zero_smul, add_zero]
    exact hasFDerivAt_const _ _

/-! ### What fails -/

/-- C93 in full at the right end: the value is that of the last cubic there. -/
def C93StatementEnd : Prop :=
  ∀ (coefs : List (CubicRow ℚ)) (breaks : List ℚ) (i : ℕ) (p : CubicRow ℚ), breaks.length = coefs.length + 1 →
    breaks.Pairwise (· < ·) → coefs.length = i + 1 → coefs[i]? = some p →
    ∀ t, t = breaks.getD (i + 1) 0 - breaks.getD i 0 →
      (frontApprox coefs breaks (breaks.getD (i + 1) 0)).map Prod.fst = some (p.a * t ^ 3 + p.b * t ^ 2 + p.c * t + p.d)

/-- C93 does not hold at the right end: the index of the row is limited, but not the one of the break, so the last cubic is
evaluated at 0. For the line `x` on `[0, 1]` the value at 1 is 0. -/
theorem C93_violated_end : ¬ C93StatementEnd := by
  intro h
  have := h [⟨0, 0, 1, 0⟩] [0, 1] 0 ⟨0, 0, 1, 0⟩ rfl (by decide) rfl rfl 1 (by decide +kernel)
  exact absurd this (by decide +kernel)

/-- What happens from the last break on: the last cubic starts again from its left end. -/
theorem C93_after_end {K : Type*} [Field K] [LinearOrder K] {coefs : List (CubicRow K)} {breaks : List K}
    (hl : breaks.length = coefs.length + 1) {p : CubicRow K} (hp : coefs.getLast? = some p) {x t : K}
    (hx : breaks.getLast? = some (x - t)) (ht : x - t ≤ x) : ∃ dy d2y,
      frontApprox coefs breaks x = some (p.a * t ^ 3 + p.b * t ^ 2 + p.c * t + p.d, dy, d2y) := by
  have hb : breaks.getD coefs.length 0 = x - t := by
    rw [List.getLast?_eq_getElem?, hl, Nat.add_sub_cancel] at hx
    rw [List.getD_eq_getElem?_getD, hx]
    rfl
  have hi : lastBreak breaks x = some coefs.length :=
    lastBreak_iff.mpr ⟨by omega, hb ▸ ht, fun j h1 h2 => by omega⟩
  rw [List.getLast?_eq_getElem?] at hp
  refine ⟨(cubicTriple p t).2.1, (cubicTriple p t).2.2, ?_⟩
  rw [frontApprox, hi, Option.bind_some, min_eq_left (by omega), hp, hb, Option.map_some, sub_sub_cancel]
  rfl

/-- The spline raises an exception exactly to the left of all the breaks, unless the table is empty. -/
theorem C93_defined {K : Type*} [Field K] [LinearOrder K] {coefs : List (CubicRow K)} {breaks : List K} (hc : coefs ≠ [])
    {x : K} : frontApprox coefs breaks x = none ↔ ∀ b ∈ breaks, x < b := by
  have hlen : 0 < coefs.length := List.length_pos_iff.mpr hc
  rw [frontApprox]
  constructor
  · intro h b hb
    by_contra hbx
    obtain ⟨k, hk, rfl⟩ := List.mem_iff_getElem.mp hb
    obtain ⟨i, hi⟩ : ∃ i, lastBreak breaks x = some i := by
      rw [lastBreak]
      refine ⟨_, List.getLast?_eq_some_getLast ?_⟩
      exact List.ne_nil_of_mem (a := k) (List.mem_filter.mpr
        ⟨List.mem_range.mpr hk, by rw [List.getD_eq_getElem _ _ hk]; simpa using hbx⟩)
    rw [hi, Option.bind_some, List.getElem?_eq_getElem (by omega)] at h
    cases h
  · intro h
    rcases hb : lastBreak breaks x with _ | i
    · rfl
    · obtain ⟨h1, h2, -⟩ := lastBreak_iff.mp hb
      rw [List.getD_eq_getElem _ _ h1] at h2
      exact absurd (h _ (List.getElem_mem h1)) (not_lt.mpr h2)

/-- C93 in full for TwoOnOne/example.py, where the variables are scaled: `h_jac` is the gradient of `h`. -/
def C93StatementScaled : Prop := ∀ (approx : ℝ → Option (ℝ × ℝ × ℝ)) (x0 x1 : ℝ),
  ReportsDerivatives approx (unscale (twoOnOneLower (K := ℝ)).1 (twoOnOneUpper (K := ℝ)).1 x0) →
    ReportsGradient (scaledH approx twoOnOneLower twoOnOneUpper) (scaledHJac approx twoOnOneLower twoOnOneUpper) x0 x1

/-- C93 does not hold for TwoOnOne/example.py, at no point and for no spline: the factors of the scaling are missing in
`h_jac`. -/
theorem C93_violated_scaled (approx : ℝ → Option (ℝ × ℝ × ℝ)) (x0 x1 : ℝ) :
    ¬ ReportsGradient (scaledH approx twoOnOneLower twoOnOneUpper) (scaledHJac approx twoOnOneLower twoOnOneUpper) x0 x1 := by
  rintro ⟨H, a, b, hev, hg, hd⟩
  have hb : b = -1 := by
    unfold scaledHJac at hg
    obtain ⟨r, -, hr⟩ := Option.map_eq_some_iff.mp hg
    exact (Prod.ext_iff.mp hr).2.symm
  obtain ⟨r, hr⟩ : ∃ r, approx (unscale (twoOnOneLower (K := ℝ)).1 (twoOnOneUpper (K := ℝ)).1 x0) = some r := by
    unfold scaledHJac at hg
    obtain ⟨r, hr, -⟩ := Option.map_eq_some_iff.mp hg
    exact ⟨r, hr⟩
  have hline : HasDerivAt (fun t : ℝ => ((x0, t) : ℝ × ℝ)) ((0, 1) : ℝ × ℝ) x1 :=
    (hasDerivAt_const x1 x0).prodMk (hasDerivAt_id x1)
  have h1 : HasDerivAt (fun t : ℝ => H (x0, t)) b x1 := by
    have := HasFDerivAt.comp_hasDerivAt (f := fun t : ℝ => ((x0, t) : ℝ × ℝ)) x1 hd hline
    refine this.congr_deriv ?_
    simp
  have h2 : (fun t : ℝ => H (x0, t)) =ᶠ[𝓝 x1]
      fun t => r.1 - unscale (twoOnOneLower (K := ℝ)).2 (twoOnOneUpper (K := ℝ)).2 t := by
    have hcont : Tendsto (fun t : ℝ => ((x0, t) : ℝ × ℝ)) (𝓝 x1) (𝓝 (x0, x1)) := hline.continuousAt
    filter_upwards [hcont.eventually hev] with t ht
    rw [scaledH, hr, Option.map_some, Option.some.injEq] at ht
    exact ht.symm
  have h3 : HasDerivAt (fun t => r.1 - unscale (twoOnOneLower (K := ℝ)).2 (twoOnOneUpper (K := ℝ)).2 t)
      (-(907976975741695 / 10 ^ 14)) x1 := by
    have := (((hasDerivAt_id x1).mul_const ((twoOnOneUpper (K := ℝ)).2 - (twoOnOneLower (K := ℝ)).2)).add_const
      (twoOnOneLower (K := ℝ)).2).const_sub r.1
    refine this.congr_deriv ?_
    simp [twoOnOneUpper, twoOnOneLower]
  have h4 := h1.unique (h3.congr_of_eventuallyEq h2)
  rw [hb] at h4
  norm_num at h4

theorem C93_violated_scaled_statement : ¬ C93StatementScaled := by
  intro h
  refine C93_violated_scaled (fun z => some (z, 1, 0)) 0 0 (h _ 0 0 ⟨id, fun _ => 1, fun _ => 0, ?_, hasDerivAt_id _, hasDerivAt_const _ _⟩)
  exact .of_forall fun z => rfl

/-- The components of TwoOnOne agree with the splines of the other examples inside of their breaks, for 31 rows (the constant 30
in the code). -/
theorem C93_component_partial {K : Type*} [Field K] [LinearOrder K] {coefs : List (CubicRow K)} {breaks : List K}
    (hc : coefs.length = 31) {x : K} (h1 : ∃ b ∈ breaks, b ≤ x) (h2 : ∃ b ∈ breaks, x ≤ b) :
    componentApprox coefs breaks x = frontApprox coefs breaks x := by
  obtain ⟨b, hb, hbx⟩ := h1
  obtain ⟨c, hc', hxc⟩ := h2
  obtain ⟨lo, hlo⟩ : ∃ lo, breaks.min? = some lo := by
    rw [← Option.isSome_iff_exists, List.isSome_min?_iff]
    exact List.ne_nil_of_mem hb
  obtain ⟨hi, hhi⟩ : ∃ hi, breaks.max? = some hi := by
    rw [← Option.isSome_iff_exists, List.isSome_max?_iff]
    exact List.ne_nil_of_mem hb
  have e1 : lo ≤ x := ((List.min?_eq_some_iff.mp hlo).2 b hb).trans hbx
  have e2 : x ≤ hi := hxc.trans ((List.max?_eq_some_iff.mp hhi).2 c hc')
  rw [componentApprox, hlo, hhi, Option.bind_some, Option.bind_some, max_eq_left e1, min_eq_right e2, frontApprox, hc]

/-- The spline of Dent is that of the other examples up to the last break, where it raises an exception instead. -/
theorem C93_dent {K : Type*} [Field K] [LinearOrder K] {coefs : List (CubicRow K)} {breaks : List K}
    (hl : breaks.length = coefs.length + 1) {x : K} :
    (x < breaks.getD coefs.length 0 → frontApproxDent coefs breaks x = frontApprox coefs breaks x) ∧
      (breaks.getD coefs.length 0 ≤ x → frontApproxDent coefs breaks x = none) := by
  constructor
  · intro hx
    rw [frontApproxDent, frontApprox]
    rcases hb : lastBreak breaks x with _ | i
    · rfl
    · obtain ⟨h1, h2, -⟩ := lastBreak_iff.mp hb
      have : i ≠ coefs.length := fun e => absurd hx (not_lt.mpr (e ▸ h2))
      rw [Option.bind_some, Option.bind_some, min_eq_right (by omega)]
  · intro hx
    have : lastBreak breaks x = some coefs.length :=
      lastBreak_iff.mpr ⟨by omega, hx, fun j h1 h2 => by omega⟩
    rw [frontApproxDent, this, Option.bind_some, List.getElem?_eq_none le_rfl]
    rfl

/-- C93 does not hold for the components of TwoOnOne outside of their breaks: the value is constant there (`np.clip`), but the
derivative of the first cubic is reported. -/
theorem C93_violated_clip : ∃ (coefs : List (CubicRow ℝ)) (breaks : List ℝ) (x : ℝ),
    (∀ᶠ z in 𝓝 x, componentApprox coefs breaks z = some (0, 1, 0)) ∧ ¬ ReportsDerivatives (componentApprox coefs breaks) x := by
  have key : ∀ᶠ z in 𝓝 (-1 : ℝ), componentApprox [⟨0, 0, 1, 0⟩] [0, 1] z = some (0, 1, 0) := by
    filter_upwards [eventually_lt_nhds (show (-1 : ℝ) < 0 by norm_num)] with z hz
    have e1 : ([0, 1] : List ℝ).min? = some 0 := by norm_num [List.min?]
    have e2 : ([0, 1] : List ℝ).max? = some 1 := by norm_num [List.max?]
    have e3 : lastBreak [0, 1] (0 : ℝ) = some 0 := by
      refine lastBreak_iff.mpr ⟨by norm_num, by norm_num, fun j h1 h2 => ?_⟩
      have h2 : j < 2 := h2
      obtain rfl : j = 1 := by omega
      norm_num
    rw [componentApprox, e1, e2, Option.bind_some, Option.bind_some, max_eq_right hz.le,
      min_eq_right (zero_le_one)]
    dsimp only
    rw [e3, Option.bind_some]
    simp [cubicTriple]
  refine ⟨_, _, _, key, ?_⟩
  rintro ⟨f, f', w, hev, hf, -⟩
  have hat := (hev.and key).self_of_nhds
  rw [hat.1] at hat
  have hf1 : f' (-1) = 1 := (Prod.ext_iff.mp (Prod.ext_iff.mp (Option.some.inj hat.2)).2).1
  have h0 : f =ᶠ[𝓝 (-1)] fun _ => 0 := by
    filter_upwards [hev, key] with z h1 h2
    rw [h1] at h2
    exact (Prod.ext_iff.mp (Option.some.inj h2)).1
  have := hf.unique ((hasDerivAt_const (-1 : ℝ) (0 : ℝ)).congr_of_eventuallyEq h0)
  rw [hf1] at this
  norm_num at this

/-- C93 for TwoOnOne: away from the breaks and from the point where the components change, inside of the breaks of its component,
`pareto_front_approx` reports its derivatives. -/
theorem C93_two_on_one_partial {coefs1 coefs2 : List (CubicRow ℝ)} {breaks1 breaks2 : List ℝ} (hc1 : coefs1.length = 31)
    (hc2 : coefs2.length = 31) {x : ℝ} (hx : x ≠ 766439406746696 / 10 ^ 14)
    (h1 : 766439406746696 / 10 ^ 14 < x → x ∉ breaks1 ∧ (∃ b ∈ breaks1, b < x) ∧ ∃ b ∈ breaks1, x < b)
    (h2 : x < 766439406746696 / 10 ^ 14 → x ∉ breaks2 ∧ (∃ b ∈ breaks2, b < x) ∧ ∃ b ∈ breaks2, x < b) :
    ReportsDerivatives (twoOnOneApprox coefs1 breaks1 coefs2 breaks2) x := by
  have key : ∀ (coefs : List (CubicRow ℝ)) (breaks : List ℝ), coefs.length = 31 → x ∉ breaks → (∃ b ∈ breaks, b < x) →
      (∃ b ∈ breaks, x < b) →
      (∀ᶠ z in 𝓝 x, twoOnOneApprox coefs1 breaks1 coefs2 breaks2 z = componentApprox coefs breaks z) →
      ReportsDerivatives (twoOnOneApprox coefs1 breaks1 coefs2 breaks2) x := by
    rintro coefs breaks hc hn ⟨b, hb, hbx⟩ ⟨c, hc', hxc⟩ hev
    obtain ⟨f, f', w, hf, hd⟩ := C93_derivatives (coefs := coefs) (by rintro rfl; simp at hc) hn ⟨b, hb, hbx.le⟩
    refine ⟨f, f', w, ?_, hd⟩
    filter_upwards [hev, hf, eventually_gt_nhds hbx, eventually_lt_nhds hxc] with z h1 h2 h3 h4
    rw [h1, C93_component_partial hc ⟨b, hb, h3.le⟩ ⟨c, hc', h4.le⟩, h2]
  rcases lt_or_gt_of_ne hx with hlt | hlt
  · obtain ⟨a1, a2, a3⟩ := h2 hlt
    refine key _ _ hc2 a1 a2 a3 ?_
    filter_upwards [eventually_lt_nhds hlt] with z hz
    exact if_neg (not_le.mpr hz)
  · obtain ⟨a1, a2, a3⟩ := h1 hlt
    refine key _ _ hc1 a1 a2 a3 ?_
    filter_upwards [eventually_gt_nhds hlt] with z hz
    exact if_pos hz.le

theorem unscale_deriv (l u x : ℝ) : HasDerivAt (unscale l u) (u - l) x := by
  have := ((hasDerivAt_id x).mul_const (u - l)).add_const l
  exact this.congr_deriv (one_mul _)

/-- C93, what the scaled constraint needs: with the factors of the scaling the gradient is right. -/
theorem C93_scaled_partial {approx : ℝ → Option (ℝ × ℝ × ℝ)} {xl xu : ℝ × ℝ} {x0 : ℝ}
    (h : ReportsDerivatives approx (unscale xl.1 xu.1 x0)) (x1 : ℝ) :
    ReportsGradient (scaledH approx xl xu)
      (fun z0 z1 => (scaledHJac approx xl xu z0 z1).map fun g => ((xu.1 - xl.1) * g.1, (xu.2 - xl.2) * g.2)) x0 x1 := by
  obtain ⟨f, f', w, hev, hf, -⟩ := h
  have hfst : HasFDerivAt (fun z : ℝ × ℝ => z.1) (ContinuousLinearMap.fst ℝ ℝ ℝ) (x0, x1) := hasFDerivAt_fst
  have hsnd : HasFDerivAt (fun z : ℝ × ℝ => z.2) (ContinuousLinearMap.snd ℝ ℝ ℝ) (x0, x1) := hasFDerivAt_snd
  have e1 := (HasDerivAt.comp x0 hf (unscale_deriv xl.1 xu.1 x0)).comp_hasFDerivAt (x0, x1) (f := fun z : ℝ × ℝ => z.1) hfst
  have e2 := (unscale_deriv xl.2 xu.2 x1).comp_hasFDerivAt (x0, x1) (f := fun z : ℝ × ℝ => z.2) hsnd
  refine ⟨fun z => f (unscale xl.1 xu.1 z.1) - unscale xl.2 xu.2 z.2, (xu.1 - xl.1) * f' (unscale xl.1 xu.1 x0),
    (xu.2 - xl.2) * -1, ?_, ?_, ?_⟩
  · have hcont : Tendsto (fun z : ℝ × ℝ => unscale xl.1 xu.1 z.1) (𝓝 (x0, x1)) (𝓝 (unscale xl.1 xu.1 x0)) :=
      (unscale_deriv xl.1 xu.1 x0).continuousAt.tendsto.comp (continuous_fst.tendsto (x0, x1))
    filter_upwards [hcont.eventually hev] with z hz
    rw [scaledH, hz]
    rfl
  · dsimp only
    rw [scaledHJac, hev.self_of_nhds]
    rfl
  · exact (e1.sub e2).congr_fderiv (by ext <;> simp [mul_comm])

/-- C93 does not hold for `h_hessian` of TwoOnOne/example.py either: where the second derivative of the spline is not 0, the
matrix is not the derivative of `h_jac`. -/
theorem C93_violated_scaled_hessian {approx : ℝ → Option (ℝ × ℝ × ℝ)} {x0 : ℝ} (x1 : ℝ)
    (h : ReportsDerivatives approx (unscale (twoOnOneLower (K := ℝ)).1 (twoOnOneUpper (K := ℝ)).1 x0))
    (h0 : ∀ y dy, approx (unscale (twoOnOneLower (K := ℝ)).1 (twoOnOneUpper (K := ℝ)).1 x0) ≠ some (y, dy, 0)) :
    ¬ ReportsHessian (scaledHJac approx twoOnOneLower twoOnOneUpper) (scaledHHess approx twoOnOneLower twoOnOneUpper) x0 x1 := by
  obtain ⟨f, f', w, hev, -, hf'⟩ := h
  rintro ⟨G, G', a, b, c, d, hg, hH, hG, -⟩
  have hat := hev.self_of_nhds
  have ha : a = w (unscale (twoOnOneLower (K := ℝ)).1 (twoOnOneUpper (K := ℝ)).1 x0) := by
    rw [scaledHHess, hat, Option.map_some, Option.some.injEq] at hH
    exact (Prod.ext_iff.mp (Prod.ext_iff.mp hH).1).1.symm
  have hline : HasDerivAt (fun t : ℝ => ((t, x1) : ℝ × ℝ)) ((1, 0) : ℝ × ℝ) x0 :=
    (hasDerivAt_id x0).prodMk (hasDerivAt_const x0 x1)
  have h1 : HasDerivAt (fun t : ℝ => G (t, x1)) a x0 := by
    have := HasFDerivAt.comp_hasDerivAt (f := fun t : ℝ => ((t, x1) : ℝ × ℝ)) x0 hG hline
    refine this.congr_deriv ?_
    simp
  have h2 := HasDerivAt.comp x0 hf' (unscale_deriv (twoOnOneLower (K := ℝ)).1 (twoOnOneUpper (K := ℝ)).1 x0)
  have h3 : (fun t : ℝ => G (t, x1)) =ᶠ[𝓝 x0] f' ∘ unscale (twoOnOneLower (K := ℝ)).1 (twoOnOneUpper (K := ℝ)).1 := by
    have hcont : Tendsto (fun t : ℝ => ((t, x1) : ℝ × ℝ)) (𝓝 x0) (𝓝 (x0, x1)) := hline.continuousAt
    have hcont2 := (unscale_deriv (twoOnOneLower (K := ℝ)).1 (twoOnOneUpper (K := ℝ)).1 x0).continuousAt.tendsto
    filter_upwards [hcont.eventually hg, hcont2.eventually hev] with t ht1 ht2
    rw [scaledHJac, ht2, Option.map_some, Option.some.injEq] at ht1
    exact (Prod.ext_iff.mp ht1).1.symm
  have h4 := h1.unique (h2.congr_of_eventuallyEq h3)
  have hw : w (unscale (twoOnOneLower (K := ℝ)).1 (twoOnOneUpper (K := ℝ)).1 x0) ≠ 0 := fun e => h0 _ _ (e ▸ hat)
  rw [ha] at h4
  have h5 : ((twoOnOneUpper (K := ℝ)).1 - (twoOnOneLower (K := ℝ)).1) = 1 := by
    have := mul_left_cancel₀ hw ((mul_one _).trans h4)
    exact this.symm
  norm_num [twoOnOneUpper, twoOnOneLower] at h5

/-- `g` of TwoOnOne/example.py: as a constraint `g x ≤ 0` on the original variables it keeps the points between the components out,
but on the scaled variables no point of the unit square is feasible. -/
theorem C93_violated_g {K : Type*} [Field K] [LinearOrder K] [IsStrictOrderedRing K] (x0 x1 : K) :
    (twoOnOneG x0 x1 ≤ 0 ↔ (766439406746696 / 10 ^ 14 ≤ x0 ∧ x1 ≤ 298489868 / 10 ^ 8) ∨
      (x0 < 766439406746696 / 10 ^ 14 ∧ 733334022 / 10 ^ 8 ≤ x1)) ∧
    (x0 ≤ 1 → x1 ≤ 1 → ¬ twoOnOneG x0 x1 ≤ 0) := by
  have h : twoOnOneG x0 x1 ≤ 0 ↔ (766439406746696 / 10 ^ 14 ≤ x0 ∧ x1 ≤ 298489868 / 10 ^ 8) ∨
      (x0 < 766439406746696 / 10 ^ 14 ∧ 733334022 / 10 ^ 8 ≤ x1) := by
    unfold twoOnOneG
    by_cases hx : 766439406746696 / 10 ^ 14 ≤ x0
    · rw [if_pos hx, sub_nonpos]
      exact ⟨fun h => .inl ⟨hx, h⟩, fun h => h.elim (·.2) fun h => absurd hx (not_le.mpr h.1)⟩
    · rw [if_neg hx, sub_nonpos]
      exact ⟨fun h => .inr ⟨not_le.mp hx, h⟩, fun h => h.elim (fun h => absurd h.1 hx) (·.2)⟩
  refine ⟨h, fun h0 h1 hg => ?_⟩
  rcases h.mp hg with ⟨h2, -⟩ | ⟨-, h2⟩
  · have : (1 : K) < 766439406746696 / 10 ^ 14 := by norm_num
    linarith
  · have : (1 : K) < 733334022 / 10 ^ 8 := by norm_num
    linarith

/-! ### Examples -/

example : ¬ twoOnOneG (1 / 2 : ℚ) (1 / 2) ≤ 0 := (C93_violated_g _ _).2 (by norm_num) (by norm_num)

example : twoOnOneG (10 : ℚ) 2 ≤ 0 := (C93_violated_g _ _).1.mpr (.inl ⟨by norm_num, by norm_num⟩)


/-- `x` on `[0, 1]` and `1 + t + t² - t³` with `t = x - 1` on `[1, 2]`. -/
def twoPieces (K : Type*) [Field K] : List (CubicRow K) := [⟨0, 0, 1, 0⟩, ⟨-1, 1, 1, 1⟩]

example : frontApprox (twoPieces ℚ) [0, 1, 2] (3 / 2) = some (13 / 8, 5 / 4, -1) := by decide +kernel

example : frontApprox (twoPieces ℚ) [0, 1, 2] 2 = some (1, 1, 2) ∧ frontApprox (twoPieces ℚ) [0, 1, 2] (-1) = none := by
  decide +kernel

example : ∃ dy d2y, frontApprox (twoPieces ℚ) [0, 1, 2] 3 = some (2, dy, d2y) := by
  have := C93_after_end (coefs := twoPieces ℚ) (breaks := [0, 1, 2]) rfl (p := ⟨-1, 1, 1, 1⟩) rfl (x := 3) (t := 1)
    (by decide +kernel) (by decide +kernel)
  norm_num at this
  exact this

example : frontApproxDent (twoPieces ℚ) [0, 1, 2] (3 / 2) = some (13 / 8, 5 / 4, -1) := by decide +kernel

example : frontApproxDent (twoPieces ℚ) [0, 1, 2] 2 = none := by decide +kernel

example : ReportsDerivatives (frontApprox (twoPieces ℝ) [0, 1, 2]) (3 / 2) :=
  C93_derivatives (by simp [twoPieces]) (by norm_num) ⟨0, by simp, by norm_num⟩

/-- `t³` on `[0, 1]`, continued by `1 + 3 t + 3 t²`. -/
example : ReportsDerivatives (frontApprox [⟨1, 0, 0, 0⟩, ⟨0, 3, 3, 1⟩] [0, 1, 2]) 1 := by
  have := C93_knots (coefs := [⟨1, 0, 0, 0⟩, ⟨0, 3, 3, 1⟩]) (breaks := [0, 1, 2]) rfl (by norm_num) (i := 0) rfl rfl (t := 1)
    (by norm_num) (by norm_num) (by norm_num) (by norm_num)
  simpa using this

example : ReportsGradient (splineH (frontApprox (twoPieces ℝ) [0, 1, 2])) (splineHJac (frontApprox (twoPieces ℝ) [0, 1, 2]))
    (3 / 2) 7 :=
  (C93_constraint (C93_derivatives (by simp [twoPieces]) (by norm_num) ⟨0, by simp, by norm_num⟩) 7).1

/-- The parabola `z²` meets the hypotheses of the results on the scaled constraint. -/
theorem parabola_reports (x : ℝ) : ReportsDerivatives (fun z => some (z ^ 2, 2 * z, 2)) x := by
  refine ⟨fun z => z ^ 2, fun z => 2 * z, fun _ => 2, .of_forall fun z => rfl, ?_, ?_⟩
  · exact ((hasDerivAt_id x).pow 2).congr_deriv (by simp)
  · exact ((hasDerivAt_id x).const_mul 2).congr_deriv (by simp)

example : ¬ ReportsHessian (scaledHJac (fun z => some (z ^ 2, 2 * z, 2)) twoOnOneLower twoOnOneUpper)
    (scaledHHess (fun z => some (z ^ 2, 2 * z, 2)) twoOnOneLower twoOnOneUpper) 0 0 :=
  C93_violated_scaled_hessian 0 (parabola_reports _) (by simp)

example := C93_scaled_partial (xl := twoOnOneLower) (xu := twoOnOneUpper) (x0 := 1 / 2) (parabola_reports _) (1 / 3)

/-- Two tables with 31 rows each; the first one counts at 9. -/
example : ReportsDerivatives (twoOnOneApprox (.replicate 31 ⟨0, 0, 1, 0⟩) [0, 10, 20] (.replicate 31 ⟨0, 0, 2, 0⟩) [0, 5, 10]) 9 :=
  C93_two_on_one_partial (by simp) (by simp) (by norm_num)
    (fun _ => ⟨by norm_num, ⟨0, by simp, by norm_num⟩, ⟨10, by simp, by norm_num⟩⟩) (fun h => by norm_num at h)

end Verif.Props
