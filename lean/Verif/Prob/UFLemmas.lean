import Verif.Prob.UF
import Mathlib.Analysis.SpecialFunctions.Trigonometric.Bounds
import Mathlib.Analysis.SpecialFunctions.Trigonometric.Inverse
import Mathlib.Algebra.Order.BigOperators.Group.List
import Mathlib.Tactic.Linarith
import Mathlib.Tactic.NormNum
import Mathlib.Tactic.Positivity
import Mathlib.Tactic.Ring
import Mathlib.Tactic.FieldSimp
import Mathlib.Tactic.IntervalCases

/-!
# Lemmas about the UF problems
-/

namespace Verif.Prob

open Real

theorem mem_arange_iff {a b step i : ℕ} (hs : 0 < step) :
    i ∈ arange a b step ↔ a ≤ i ∧ i < b ∧ (i - a) % step = 0 := by
  unfold arange
  rw [List.mem_map]
  constructor
  · rintro ⟨k, hk, rfl⟩
    rw [List.mem_range, Nat.lt_div_iff_mul_lt hs] at hk
    refine ⟨by omega, ?_, by simp⟩
    have : k * step = step * k := Nat.mul_comm _ _
    omega
  · rintro ⟨h1, h2, h3⟩
    refine ⟨(i - a) / step, ?_, ?_⟩
    · rw [List.mem_range, Nat.lt_div_iff_mul_lt hs]
      have : (i - a) / step * step = i - a := Nat.div_mul_cancel (Nat.dvd_of_mod_eq_zero h3)
      omega
    · have : (i - a) / step * step = i - a := Nat.div_mul_cancel (Nat.dvd_of_mod_eq_zero h3)
      omega

/-- A penalty that is defined and not negative on every non-empty group. -/
def Penalty (p : List ℕ → Option ℝ) : Prop := ∀ J, J ≠ [] → ∃ a, p J = some a ∧ 0 ≤ a

/-- A penalty that vanishes on every non-empty group of indices with the property `P`. -/
def VanishesOn (p : List ℕ → Option ℝ) (P : ℕ → Prop) : Prop := ∀ J, J ≠ [] → (∀ i ∈ J, P i) → p J = some 0

theorem twiceMean_penalty {h : ℕ → ℝ} (hh : ∀ i, 0 ≤ h i) : Penalty (twiceMean h) := by
  intro J hJ
  refine ⟨2 * ((J.map h).sum / (J.map h).length), ?_, ?_⟩
  · unfold twiceMean groupMean zdtMean
    rw [if_neg (by simpa using hJ)]
    rfl
  · refine mul_nonneg (by norm_num) (div_nonneg (List.sum_nonneg ?_) (by positivity))
    intro a ha
    obtain ⟨i, -, rfl⟩ := List.mem_map.mp ha
    exact hh i

theorem sum_map_zero {J : List ℕ} {h : ℕ → ℝ} (hh : ∀ i ∈ J, h i = 0) : (J.map h).sum = 0 := by
  induction J with
  | nil => rfl
  | cons i J ih =>
    rw [List.map_cons, List.sum_cons, hh i (by simp), ih fun j hj => hh j (by simp [hj]), add_zero]

theorem twiceMean_vanishes {h : ℕ → ℝ} {P : ℕ → Prop} (hh : ∀ i, P i → h i = 0) : VanishesOn (twiceMean h) P := by
  intro J hJ hP
  unfold twiceMean groupMean zdtMean
  rw [if_neg (by simpa using hJ), sum_map_zero fun i hi => hh i (hP i hi)]
  simp

theorem prod_cos_le (J : List ℕ) (c : ℕ → ℝ) : |(J.map fun i => cos (c i)).prod| ≤ 1 := by
  induction J with
  | nil => simp
  | cons i J ih =>
    rw [List.map_cons, List.prod_cons, abs_mul]
    exact mul_le_one₀ (abs_cos_le_one _) (abs_nonneg _) ih

theorem productPenalty_penalty (y : ℕ → ℝ) : Penalty (productPenalty y) := by
  intro J hJ
  unfold productPenalty
  rw [if_neg hJ]
  refine ⟨_, rfl, mul_nonneg (by positivity) ?_⟩
  have h1 : 0 ≤ (J.map fun i => y i ^ 2).sum := List.sum_nonneg fun a ha => by
    obtain ⟨i, -, rfl⟩ := List.mem_map.mp ha
    positivity
  have h2 := (abs_le.mp (prod_cos_le J fun i => 20 * π * y i / √((i + 1 : ℕ) : ℝ))).2
  linarith

theorem productPenalty_vanishes {y : ℕ → ℝ} {P : ℕ → Prop} (hy : ∀ i, P i → y i = 0) :
    VanishesOn (productPenalty y) P := by
  intro J hJ hP
  unfold productPenalty
  rw [if_neg hJ, sum_map_zero fun i hi => by rw [hy i (hP i hi)]; ring]
  have : (J.map fun i => cos (20 * π * y i / √((i + 1 : ℕ) : ℝ))).prod = 1 := by
    rw [show J.map (fun i => cos (20 * π * y i / √((i + 1 : ℕ) : ℝ))) = J.map fun _ => (1 : ℝ) from
      List.map_congr_left fun i hi => by rw [hy i (hP i hi)]; simp]
    simp
  rw [this]
  norm_num

/-- With penalties the objectives are at least their first parts. -/
theorem uf2d_ge {n : ℕ} (hn : 3 ≤ n) {p1 p2 : List ℕ → Option ℝ} (h1 : Penalty p1) (h2 : Penalty p2) (f1 f2 : ℝ) :
    ∃ a b, 0 ≤ a ∧ 0 ≤ b ∧ uf2d n p1 p2 f1 f2 = some [f1 + a, f2 + b] := by
  obtain ⟨a, ha, ha0⟩ := h1 (arange 2 n 2) (List.ne_nil_of_mem ((mem_arange_iff (i := 2) (by omega)).mpr (by omega)))
  obtain ⟨b, hb, hb0⟩ := h2 (arange 1 n 2) (List.ne_nil_of_mem ((mem_arange_iff (i := 1) (by omega)).mpr (by omega)))
  refine ⟨a, b, ha0, hb0, ?_⟩
  unfold uf2d uf2dGroups
  rw [if_neg (by omega), Option.bind_some, ha, Option.bind_some, hb, Option.map_some]

/-- Without penalties the objectives are their first parts. -/
theorem uf2d_eq {n : ℕ} (hn : 3 ≤ n) {p1 p2 : List ℕ → Option ℝ}
    (h1 : VanishesOn p1 fun i => 1 ≤ i ∧ i < n ∧ i % 2 = 0) (h2 : VanishesOn p2 fun i => 1 ≤ i ∧ i < n ∧ i % 2 = 1)
    (f1 f2 : ℝ) : uf2d n p1 p2 f1 f2 = some [f1, f2] := by
  have ha := h1 (arange 2 n 2) (List.ne_nil_of_mem ((mem_arange_iff (i := 2) (by omega)).mpr (by omega)))
    fun i hi => by
      have := (mem_arange_iff (by omega)).mp hi
      omega
  have hb := h2 (arange 1 n 2) (List.ne_nil_of_mem ((mem_arange_iff (i := 1) (by omega)).mpr (by omega)))
    fun i hi => by
      have := (mem_arange_iff (by omega)).mp hi
      omega
  unfold uf2d uf2dGroups
  rw [if_neg (by omega), Option.bind_some, ha, Option.bind_some, hb, Option.map_some, add_zero, add_zero]

theorem uf3d_ge {n : ℕ} (hn : 5 ≤ n) {p : List ℕ → Option ℝ} (h : Penalty p) (f1 f2 f3 : ℝ) :
    ∃ a b c, 0 ≤ a ∧ 0 ≤ b ∧ 0 ≤ c ∧ uf3d n p f1 f2 f3 = some [f1 + a, f2 + b, f3 + c] := by
  obtain ⟨a, ha, ha0⟩ := h (arange 3 n 3) (List.ne_nil_of_mem ((mem_arange_iff (i := 3) (by omega)).mpr (by omega)))
  obtain ⟨b, hb, hb0⟩ := h (arange 4 n 3) (List.ne_nil_of_mem ((mem_arange_iff (i := 4) (by omega)).mpr (by omega)))
  obtain ⟨c, hc, hc0⟩ := h (arange 2 n 3) (List.ne_nil_of_mem ((mem_arange_iff (i := 2) (by omega)).mpr (by omega)))
  refine ⟨a, b, c, ha0, hb0, hc0, ?_⟩
  unfold uf3d uf3dGroups
  rw [if_neg (by omega), Option.bind_some, ha, Option.bind_some, hb, Option.bind_some, hc, Option.map_some]

theorem uf3d_eq {n : ℕ} (hn : 5 ≤ n) {p : List ℕ → Option ℝ} (h : VanishesOn p fun i => 2 ≤ i ∧ i < n)
    (f1 f2 f3 : ℝ) : uf3d n p f1 f2 f3 = some [f1, f2, f3] := by
  have hg : ∀ a, 2 ≤ a → a < n → p (arange a n 3) = some 0 := fun a h1 h2 =>
    h _ (List.ne_nil_of_mem ((mem_arange_iff (i := a) (by omega)).mpr (by simp; omega))) fun i hi => by
      have := (mem_arange_iff (by omega)).mp hi
      omega
  unfold uf3d uf3dGroups
  rw [if_neg (by omega), Option.bind_some, hg 3 (by omega) (by omega), Option.bind_some,
    hg 4 (by omega) (by omega), Option.bind_some, hg 2 (by omega) (by omega), Option.map_some, add_zero, add_zero,
    add_zero]

/-! ### Trigonometry -/

/-- Jordan's inequality, with the factor `π`. -/
theorem two_mul_le_sin {s : ℝ} (h0 : 0 ≤ s) (h1 : s ≤ 1 / 2) : 2 * s ≤ sin (π * s) := by
  have := mul_le_sin (x := π * s) (mul_nonneg pi_pos.le h0) (by nlinarith [pi_pos])
  rwa [show 2 / π * (π * s) = 2 * s by field_simp] at this

theorem two_mul_le_sin' {s : ℝ} (h0 : 1 / 2 ≤ s) (h1 : s ≤ 1) : 2 * (1 - s) ≤ sin (π * s) := by
  have := two_mul_le_sin (s := 1 - s) (by linarith) (by linarith)
  rwa [show π * (1 - s) = π - π * s by ring, sin_pi_sub] at this

theorem two_mul_le_abs_sin {s : ℝ} (h : |s| ≤ 1 / 2) : 2 * |s| ≤ |sin (π * s)| := by
  have := two_mul_le_sin (abs_nonneg s) h
  rcases abs_cases s with ⟨h1, -⟩ | ⟨h1, -⟩
  · rw [h1] at this ⊢
    exact this.trans (le_abs_self _)
  · rw [h1] at this ⊢
    rw [show π * -s = -(π * s) by ring, sin_neg] at this
    exact this.trans (neg_le_abs _)

theorem abs_sin_round (s : ℝ) : 2 * |s - round s| ≤ |sin (π * s)| := by
  have h := two_mul_le_abs_sin (abs_sub_round s)
  rwa [show π * (s - round s) = π * s - (round s : ℤ) * π by ring, sin_sub_int_mul_pi, abs_mul, abs_zpow, abs_neg,
    abs_one, one_zpow, one_mul] at h

/-- The sign of `sin (4 π t)` on the second and fourth quarter. -/
theorem sin_four_nonpos {t : ℝ} (h : (1 / 4 ≤ t ∧ t ≤ 1 / 2) ∨ (3 / 4 ≤ t ∧ t ≤ 1)) : sin (4 * π * t) ≤ 0 := by
  rcases h with ⟨h1, h2⟩ | ⟨h1, h2⟩
  · have := sin_nonneg_of_nonneg_of_le_pi (x := 4 * π * t - π) (by nlinarith [pi_pos]) (by nlinarith [pi_pos])
    rw [sin_sub_pi] at this
    linarith
  · have := sin_nonneg_of_nonneg_of_le_pi (x := 4 * π * t - 2 * π - π) (by nlinarith [pi_pos])
      (by nlinarith [pi_pos])
    rw [sin_sub_pi, sin_sub_two_pi] at this
    linarith

theorem sphere_angle {c : ℝ} (h0 : 0 ≤ c) (h1 : c ≤ 1) :
    ∃ t, 0 ≤ t ∧ t ≤ 1 ∧ sin (0.5 * π * t) = c ∧ cos (0.5 * π * t) = √(1 - c ^ 2) := by
  refine ⟨arcsin c / (π / 2), div_nonneg (arcsin_nonneg.mpr h0) (by positivity), ?_, ?_, ?_⟩
  · rw [div_le_one (by positivity)]
    exact arcsin_le_pi_div_two c
  all_goals
    have h : 0.5 * π * (arcsin c / (π / 2)) = arcsin c := by
      field_simp
      norm_num
      ring
    rw [h]
  · exact sin_arcsin (by linarith) h1
  · exact cos_arcsin c

/-- Every point of the positive part of the unit sphere is given by two angles. -/
theorem sphere_angles {a b c : ℝ} (ha : 0 ≤ a) (hb : 0 ≤ b) (hc : 0 ≤ c) (h : a ^ 2 + b ^ 2 + c ^ 2 = 1) :
    ∃ s t, 0 ≤ s ∧ s ≤ 1 ∧ 0 ≤ t ∧ t ≤ 1 ∧ cos (0.5 * π * s) * cos (0.5 * π * t) = a ∧
      cos (0.5 * π * s) * sin (0.5 * π * t) = b ∧ sin (0.5 * π * s) = c := by
  have hc1 : c ≤ 1 := by nlinarith
  obtain ⟨s, s0, s1, hs, hs'⟩ := sphere_angle hc hc1
  have hr : √(1 - c ^ 2) ^ 2 = a ^ 2 + b ^ 2 := by rw [sq_sqrt (by nlinarith)]; linarith
  have hr0 := sqrt_nonneg (1 - c ^ 2)
  rw [← hs'] at hr hr0
  rcases eq_or_lt_of_le hr0 with hz | hpos
  · rw [← hz] at hr
    have h1 : a = 0 := by nlinarith
    have h2 : b = 0 := by nlinarith
    exact ⟨s, 0, s0, s1, le_rfl, zero_le_one, by rw [← hz, h1, zero_mul], by rw [← hz, h2, zero_mul], hs⟩
  · have hbr : b / cos (0.5 * π * s) ≤ 1 := by
      rw [div_le_one hpos]
      nlinarith
    obtain ⟨t, t0, t1, ht, ht'⟩ := sphere_angle (div_nonneg hb hpos.le) hbr
    refine ⟨s, t, s0, s1, t0, t1, ?_, ?_, hs⟩
    · rw [ht', show 1 - (b / cos (0.5 * π * s)) ^ 2 = (a / cos (0.5 * π * s)) ^ 2 by
        field_simp
        linarith, sqrt_sq (div_nonneg ha hpos.le)]
      field_simp
    · rw [ht]
      field_simp

end Verif.Prob
