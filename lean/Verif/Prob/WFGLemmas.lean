import Verif.Prob.WFG
import Mathlib.Analysis.SpecialFunctions.Trigonometric.Bounds
import Mathlib.Tactic.Linarith
import Mathlib.Tactic.FieldSimp
import Mathlib.Tactic.Ring
import Mathlib.Tactic.Positivity
import Mathlib.Tactic.NormNum
import Mathlib.Tactic.IntervalCases

/-!
# Ranges of the WFG transformations
-/

namespace Verif.Prob.WFG

theorem correct01_of_mem {x : ℝ} (h0 : 0 ≤ x) (h1 : x ≤ 1) : correct01 x = x := by
  unfold correct01
  dsimp only
  have a : ¬(x < 0 ∧ -1e-10 ≤ x) := fun h => absurd h.1 (not_lt.mpr h0)
  rw [if_neg a]
  have b : ¬(1 < x ∧ x ≤ 1 + 1e-10) := fun h => absurd h.1 (not_lt.mpr h1)
  rw [if_neg b]

theorem floor_zero {x : ℝ} (h0 : 0 ≤ x) (h1 : x < 1) : (⌊x⌋ : ℝ) = 0 := by
  rw [Int.floor_eq_zero_iff.mpr ⟨h0, h1⟩, Int.cast_zero]

theorem floor_neg_one {x : ℝ} (h0 : -1 ≤ x) (h1 : x < 0) : (⌊x⌋ : ℝ) = -1 := by
  have : ⌊x⌋ = -1 := by
    rw [Int.floor_eq_iff]
    push_cast
    constructor <;> linarith
  rw [this]
  norm_num

/-- The value of the linear shift without correction. -/
theorem shiftLinear_eq {v : ℝ} (h0 : 0 ≤ v) (h1 : v ≤ 1) :
    shiftLinear v = if v ≤ 0.35 then (0.35 - v) / 0.35 else (v - 0.35) / 0.65 := by
  have e : (0.35 : ℝ) = 7 / 20 := by norm_num
  have e2 : (0.65 : ℝ) = 13 / 20 := by norm_num
  unfold shiftLinear
  by_cases h : v ≤ 0.35
  · rw [if_pos h, floor_zero (by linarith) (by rw [e]; linarith), zero_add, abs_of_nonpos (by linarith),
      abs_of_pos (by norm_num), neg_sub]
    exact correct01_of_mem (div_nonneg (by linarith) (by norm_num)) ((div_le_one (by norm_num)).mpr (by linarith))
  · push Not at h
    rw [if_neg (not_le.mpr h), floor_neg_one (by rw [e]; linarith) (by linarith), abs_of_pos (by linarith)]
    have : |(-1 : ℝ) + 0.35| = 0.65 := by
      rw [abs_of_neg (by norm_num)]
      norm_num
    rw [this]
    refine correct01_of_mem (div_nonneg (by linarith) (by norm_num)) ((div_le_one (by norm_num)).mpr ?_)
    rw [e, e2]
    linarith

theorem shiftLinear_mem {v : ℝ} (h0 : 0 ≤ v) (h1 : v ≤ 1) : 0 ≤ shiftLinear v ∧ shiftLinear v ≤ 1 := by
  have e : (0.35 : ℝ) = 7 / 20 := by norm_num
  have e2 : (0.65 : ℝ) = 13 / 20 := by norm_num
  rw [shiftLinear_eq h0 h1]
  by_cases h : v ≤ 0.35
  · rw [if_pos h]
    exact ⟨div_nonneg (by linarith) (by norm_num), (div_le_one (by norm_num)).mpr (by linarith)⟩
  · push Not at h
    rw [if_neg (not_le.mpr h)]
    refine ⟨div_nonneg (by linarith) (by norm_num), (div_le_one (by norm_num)).mpr ?_⟩
    rw [e, e2]
    linarith

theorem shiftLinear_eq_zero {v : ℝ} (h0 : 0 ≤ v) (h1 : v ≤ 1) : shiftLinear v = 0 ↔ v = 0.35 := by
  rw [shiftLinear_eq h0 h1]
  by_cases h : v ≤ 0.35
  · rw [if_pos h, div_eq_zero_iff]
    constructor
    · rintro (h | h)
      · linarith
      · norm_num at h
    · rintro rfl
      left
      ring
  · rw [if_neg h, div_eq_zero_iff]
    constructor
    · rintro (h | h)
      · linarith
      · norm_num at h
    · rintro rfl
      exact absurd le_rfl h

/-- The value of the deceptive shift in its three parts. -/
theorem shiftDeceptive_eq {A B C y : ℝ} (hB : 0 < B) (hBA : B < A) (hAB : A + B < 1) (hC0 : 0 ≤ C) (hC1 : C ≤ 1)
    (h0 : 0 ≤ y) (h1 : y ≤ 1) : 0 ≤ shiftDeceptive A B C y ∧ shiftDeceptive A B C y ≤ 1 ∧
      (|y - A| ≤ B → shiftDeceptive A B C y = |y - A| / B) ∧ (B < |y - A| → C ≤ shiftDeceptive A B C y) := by
  have d1 : 0 < A - B := by linarith
  have d2 : 0 < 1 - A - B := by linarith
  unfold shiftDeceptive
  dsimp only
  rcases lt_or_ge y (A - B) with h | h
  · have e1 : |y - A| = A - y := by rw [abs_of_neg (by linarith)]; ring
    rw [floor_neg_one (x := y - A + B) (by linarith) (by linarith), floor_zero (x := A + B - y) (by linarith) (by linarith), e1]
    have e : 1 + (A - y - B) * (-1 * (1 - C + (A - B) / B) / (A - B) + 0 * (1 - C + (1 - A - B) / B) / (1 - A - B) + 1 / B) =
        1 - (1 - C) * ((A - B - y) / (A - B)) := by
      field_simp
      ring
    rw [e]
    have r0 : 0 ≤ (A - B - y) / (A - B) := div_nonneg (by linarith) d1.le
    have r1 : (A - B - y) / (A - B) ≤ 1 := (div_le_one d1).mpr (by linarith)
    have p0 : 0 ≤ (1 - C) * ((A - B - y) / (A - B)) := mul_nonneg (by linarith) r0
    have p1 : (1 - C) * ((A - B - y) / (A - B)) ≤ 1 - C := mul_le_of_le_one_right (by linarith) r1
    rw [correct01_of_mem (by linarith) (by linarith)]
    exact ⟨by linarith, by linarith, fun h' => by linarith, fun _ => by linarith⟩
  · rcases le_or_gt y (A + B) with h' | h'
    · rw [floor_zero (x := y - A + B) (by linarith) (by linarith), floor_zero (x := A + B - y) (by linarith) (by linarith)]
      have e : 1 + (|y - A| - B) * (0 * (1 - C + (A - B) / B) / (A - B) + 0 * (1 - C + (1 - A - B) / B) / (1 - A - B) + 1 / B) =
          |y - A| / B := by
        field_simp
        ring
      have ha : |y - A| ≤ B := abs_le.mpr ⟨by linarith, by linarith⟩
      have r0 : 0 ≤ |y - A| / B := by positivity
      have r1 : |y - A| / B ≤ 1 := (div_le_one hB).mpr ha
      rw [e, correct01_of_mem r0 r1]
      exact ⟨r0, r1, fun _ => rfl, fun h => absurd ha (not_le.mpr h)⟩
    · have e1 : |y - A| = y - A := abs_of_pos (by linarith)
      rw [floor_zero (x := y - A + B) (by linarith) (by linarith), floor_neg_one (x := A + B - y) (by linarith) (by linarith), e1]
      have e : 1 + (y - A - B) * (0 * (1 - C + (A - B) / B) / (A - B) + -1 * (1 - C + (1 - A - B) / B) / (1 - A - B) + 1 / B) =
          1 - (1 - C) * ((y - A - B) / (1 - A - B)) := by
        field_simp
        ring
      rw [e]
      have r0 : 0 ≤ (y - A - B) / (1 - A - B) := div_nonneg (by linarith) d2.le
      have r1 : (y - A - B) / (1 - A - B) ≤ 1 := (div_le_one d2).mpr (by linarith)
      have p0 : 0 ≤ (1 - C) * ((y - A - B) / (1 - A - B)) := mul_nonneg (by linarith) r0
      have p1 : (1 - C) * ((y - A - B) / (1 - A - B)) ≤ 1 - C := mul_le_of_le_one_right (by linarith) r1
      rw [correct01_of_mem (by linarith) (by linarith)]
      exact ⟨by linarith, by linarith, fun h' => by linarith, fun _ => by linarith⟩

theorem shiftMultiModal_mem {A B C y : ℝ} (hB : 0 ≤ B) (hC0 : 0 < C) (hC1 : C < 1) (h0 : 0 ≤ y) (h1 : y ≤ 1) :
    0 ≤ shiftMultiModal A B C y ∧ shiftMultiModal A B C y ≤ 1 := by
  unfold shiftMultiModal
  dsimp only
  have ht : (|y - C| / (2 * ((⌊C - y⌋ : ℝ) + C))) ^ 2 ≤ 1 / 4 := by
    have : |(|y - C| / (2 * ((⌊C - y⌋ : ℝ) + C)))| ≤ 1 / 2 := by
      rw [abs_div, abs_abs]
      rcases le_or_gt y C with h | h
      · rw [floor_zero (by linarith) (by linarith), zero_add, abs_of_nonpos (by linarith), abs_of_pos (by linarith),
          div_le_div_iff₀ (by linarith) (by norm_num)]
        linarith
      · rw [floor_neg_one (by linarith) (by linarith), abs_of_pos (by linarith), abs_of_neg (by linarith),
          div_le_div_iff₀ (by linarith) (by norm_num)]
        linarith
    rw [← sq_abs]
    nlinarith [abs_nonneg (|y - C| / (2 * ((⌊C - y⌋ : ℝ) + C)))]
  obtain ⟨t, hte⟩ : ∃ t, t = |y - C| / (2 * ((⌊C - y⌋ : ℝ) + C)) := ⟨_, rfl⟩
  rw [← hte] at ht ⊢
  have c0 := Real.neg_one_le_cos ((4 * A + 2) * Real.pi * (0.5 - t))
  have c1 := Real.cos_le_one ((4 * A + 2) * Real.pi * (0.5 - t))
  have hb : 0 ≤ 4 * B * t ^ 2 := by positivity
  have hb1 : 4 * B * t ^ 2 ≤ B := by nlinarith
  have r0 : 0 ≤ (1 + Real.cos ((4 * A + 2) * Real.pi * (0.5 - t)) + 4 * B * t ^ 2) / (B + 2) :=
    div_nonneg (by linarith) (by linarith)
  have r1 : (1 + Real.cos ((4 * A + 2) * Real.pi * (0.5 - t)) + 4 * B * t ^ 2) / (B + 2) ≤ 1 :=
    (div_le_one (by linarith)).mpr (by linarith)
  rw [correct01_of_mem r0 r1]
  exact ⟨r0, r1⟩

/-- The multi-modal shift vanishes at its parameter, if the number of minima is a natural number. -/
theorem shiftMultiModal_zero (A : ℕ) {B C : ℝ} : shiftMultiModal A B C C = 0 := by
  unfold shiftMultiModal
  dsimp only
  have e : (4 * (A : ℝ) + 2) * Real.pi * (0.5 - 0) = (A : ℝ) * (2 * Real.pi) + Real.pi := by
    ring
  rw [sub_self, abs_zero, zero_div, e, Real.cos_add_pi, Real.cos_nat_mul_two_pi]
  norm_num [correct01]

theorem biasFlat_eq {a b c y : ℝ} (hb : 0 < b) (hbc : b < c) (hc : c < 1) (ha0 : 0 ≤ a) (ha1 : a ≤ 1) (h0 : 0 ≤ y)
    (h1 : y ≤ 1) : 0 ≤ biasFlat a b c y ∧ biasFlat a b c y ≤ 1 ∧ (y < b → biasFlat a b c y = a * (y / b)) ∧
      (b ≤ y → a ≤ biasFlat a b c y) := by
  unfold biasFlat
  rcases lt_or_ge y b with h | h
  · rw [floor_neg_one (x := y - b) (by linarith) (by linarith), floor_zero (x := c - y) (by linarith) (by linarith), min_self,
      min_eq_right (by norm_num)]
    have e : a + -1 * (a * (b - y) / b) - 0 * ((1 - a) * (y - c) / (1 - c)) = a * (y / b) := by
      field_simp
      ring
    have r0 : 0 ≤ a * (y / b) := by positivity
    have r1 : a * (y / b) ≤ 1 := by
      have : y / b ≤ 1 := (div_le_one hb).mpr h.le
      have : a * (y / b) ≤ a := mul_le_of_le_one_right ha0 this
      linarith
    rw [e, correct01_of_mem r0 r1]
    exact ⟨r0, r1, fun _ => rfl, fun h' => absurd h (not_lt.mpr h')⟩
  · rw [floor_zero (x := y - b) (by linarith) (by linarith), min_self]
    rcases le_or_gt y c with h' | h'
    · rw [floor_zero (x := c - y) (by linarith) (by linarith), min_self]
      have e : a + 0 * (a * (b - y) / b) - 0 * ((1 - a) * (y - c) / (1 - c)) = a := by ring
      rw [e, correct01_of_mem ha0 ha1]
      exact ⟨ha0, ha1, fun h'' => absurd h (not_le.mpr h''), fun _ => le_rfl⟩
    · rw [floor_neg_one (x := c - y) (by linarith) (by linarith), min_eq_right (by norm_num)]
      have e : a + 0 * (a * (b - y) / b) - -1 * ((1 - a) * (y - c) / (1 - c)) = a + (1 - a) * ((y - c) / (1 - c)) := by
        ring
      have q0 : 0 ≤ (y - c) / (1 - c) := div_nonneg (by linarith) (by linarith)
      have q1 : (y - c) / (1 - c) ≤ 1 := (div_le_one (by linarith)).mpr (by linarith)
      have r0 : 0 ≤ (1 - a) * ((y - c) / (1 - c)) := mul_nonneg (by linarith) q0
      have r1 : (1 - a) * ((y - c) / (1 - c)) ≤ 1 - a := mul_le_of_le_one_right (by linarith) q1
      rw [e, correct01_of_mem (by linarith) (by linarith)]
      exact ⟨by linarith, by linarith, fun h'' => absurd h (not_le.mpr h''), fun _ => by linarith⟩

theorem biasPoly_mem {alpha y : ℝ} (ha : 0 ≤ alpha) (h0 : 0 ≤ y) (h1 : y ≤ 1) :
    0 ≤ biasPoly alpha y ∧ biasPoly alpha y ≤ 1 := by
  unfold biasPoly
  have r0 := Real.rpow_nonneg h0 alpha
  have r1 := Real.rpow_le_one h0 h1 ha
  rw [correct01_of_mem r0 r1]
  exact ⟨r0, r1⟩

/-- The exponent of the dependent bias: `0.02` to `1` on the first half, `1` to `50` on the second one. -/
theorem paramExponent_eq {u : ℝ} (h0 : 0 ≤ u) (h1 : u ≤ 1) :
    paramExponent u = if u ≤ 0.5 then 0.02 + 1.96 * u else 1 + 49 * (2 * u - 1) := by
  unfold paramExponent
  have e5 : (0.5 : ℝ) = 1 / 2 := by norm_num
  by_cases h : u ≤ 0.5
  · rw [if_pos h, floor_zero (by linarith) (by rw [e5]; linarith), zero_add, abs_of_pos (by norm_num)]
    norm_num
    ring
  · push Not at h
    rw [if_neg (not_le.mpr h), floor_neg_one (by rw [e5]; linarith) (by linarith), abs_of_neg (by norm_num)]
    norm_num
    ring

theorem paramExponent_pos {u : ℝ} (h0 : 0 ≤ u) (h1 : u ≤ 1) : 0 < paramExponent u := by
  rw [paramExponent_eq h0 h1]
  have e5 : (0.5 : ℝ) = 1 / 2 := by norm_num
  by_cases h : u ≤ 0.5
  · rw [if_pos h]
    positivity
  · rw [if_neg h]
    rw [e5] at h
    linarith

theorem paramDependent_mem {y u : ℝ} (h0 : 0 ≤ y) (h1 : y ≤ 1) (hu0 : 0 ≤ u) (hu1 : u ≤ 1) :
    0 ≤ paramDependent y u ∧ paramDependent y u ≤ 1 := by
  unfold paramDependent
  have r0 := Real.rpow_nonneg h0 (paramExponent u)
  have r1 := Real.rpow_le_one h0 h1 (paramExponent_pos hu0 hu1).le
  rw [correct01_of_mem r0 r1]
  exact ⟨r0, r1⟩

theorem mixed_mem {x : ℝ} (h0 : 0 ≤ x) (h1 : x ≤ 1) : 0 ≤ mixed x ∧ mixed x ≤ 1 := by
  unfold mixed
  have hpi := Real.pi_pos
  have e : Real.cos (2 * 5 * Real.pi * x + 0.5 * Real.pi) = -Real.sin (10 * Real.pi * x) := by
    rw [← Real.cos_add_pi_div_two]
    congr 1
    ring
  have e2 : Real.sin (10 * Real.pi * x) = -Real.sin (10 * Real.pi * (1 - x)) := by
    have : 10 * Real.pi * (1 - x) = -(10 * Real.pi * x) + (5 : ℕ) * (2 * Real.pi) := by
      push_cast
      ring
    rw [this, Real.sin_add_nat_mul_two_pi, Real.sin_neg, neg_neg]
  have s1 := Real.sin_le (show 0 ≤ 10 * Real.pi * x by positivity)
  have s2 := Real.sin_le (show 0 ≤ 10 * Real.pi * (1 - x) from mul_nonneg (by positivity) (by linarith))
  have hd : (0 : ℝ) < 2 * 5 * Real.pi := by positivity
  have q1 : Real.sin (10 * Real.pi * x) / (2 * 5 * Real.pi) ≤ x := by
    rw [div_le_iff₀ hd]
    linarith
  have q2 : -(1 - x) ≤ Real.sin (10 * Real.pi * x) / (2 * 5 * Real.pi) := by
    rw [le_div_iff₀ hd, e2]
    linarith
  rw [e, neg_div, sub_neg_eq_add]
  rw [correct01_of_mem (by linarith) (by linarith)]
  constructor <;> linarith

theorem disconnected_mem {x : ℝ} (h0 : 0 ≤ x) (h1 : x ≤ 1) : 0 ≤ disconnected x ∧ disconnected x ≤ 1 := by
  unfold disconnected
  have c0 := sq_nonneg (Real.cos (5 * Real.pi * x))
  have c1 := Real.cos_sq_le_one (5 * Real.pi * x)
  have r0 : 0 ≤ x * Real.cos (5 * Real.pi * x) ^ 2 := by positivity
  have r1 : x * Real.cos (5 * Real.pi * x) ^ 2 ≤ 1 := mul_le_one₀ h1 c0 c1
  rw [correct01_of_mem (by linarith) (by linarith)]
  constructor <;> linarith

end Verif.Prob.WFG
