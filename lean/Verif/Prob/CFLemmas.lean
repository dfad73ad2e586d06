import Verif.Prob.CF
import Verif.Prob.UFLemmas

/-!
# Lemmas about the CF problems
-/

namespace Verif.Prob

open Real

/-! ### Index groups -/

theorem arange_cons {a b s : ℕ} (h : a < b) (hs : 0 < s) : arange a b s = a :: arange (a + s) b s := by
  unfold arange
  have hl : (b - a + s - 1) / s = (b - (a + s) + s - 1) / s + 1 := by
    rcases le_or_gt (a + s) b with hle | hlt
    · rw [show b - a + s - 1 = (b - (a + s) + s - 1) + s by omega, Nat.add_div_right _ hs]
    · have h1 : (s - 1) / s = 0 := Nat.div_eq_of_lt (by omega)
      have h2 : (b - a - 1) / s = 0 := Nat.div_eq_of_lt (by omega)
      rw [show b - (a + s) + s - 1 = s - 1 by omega, h1, show b - a + s - 1 = (b - a - 1) + s by omega,
        Nat.add_div_right _ hs, h2]
  rw [hl, List.range_succ_eq_map, List.map_cons, List.map_map, Nat.zero_mul, Nat.add_zero]
  refine congrArg _ (List.map_congr_left fun i _ => ?_)
  simp only [Function.comp_apply, Nat.succ_eq_add_one]
  ring

/-- The indices of `J1`. -/
def In1 (n i : ℕ) : Prop := 2 ≤ i ∧ i + 1 < n ∧ i % 2 = 0

/-- The indices of `J2`. -/
def In2 (n i : ℕ) : Prop := 1 ≤ i ∧ i ≤ n ∧ i % 2 = 1

theorem mem_cfGroups1 {n i : ℕ} : i ∈ (cfGroups n).1 ↔ In1 n i := by
  unfold cfGroups In1
  rw [List.mem_map]
  constructor
  · rintro ⟨j, hj, rfl⟩
    have := (mem_arange_iff (by omega)).mp hj
    omega
  · intro h
    exact ⟨i + 1, (mem_arange_iff (by omega)).mpr (by omega), by omega⟩

theorem mem_cfGroups2 {n i : ℕ} : i ∈ (cfGroups n).2 ↔ In2 n i := by
  unfold cfGroups In2
  rw [List.mem_map]
  constructor
  · rintro ⟨j, hj, rfl⟩
    have := (mem_arange_iff (by omega)).mp hj
    omega
  · intro h
    exact ⟨i + 1, (mem_arange_iff (by omega)).mpr (by omega), by omega⟩

theorem cfGroups2_cons {n : ℕ} (h : 1 ≤ n) :
    ∃ J, (cfGroups n).2 = 1 :: J ∧ ∀ i ∈ J, 3 ≤ i ∧ i ≤ n ∧ i % 2 = 1 := by
  refine ⟨(arange 4 (n + 2) 2).map (· - 1), ?_, fun i hi => ?_⟩
  · unfold cfGroups
    rw [arange_cons (a := 2) (by omega) (by omega)]
    rfl
  · obtain ⟨j, hj, rfl⟩ := List.mem_map.mp hi
    have := (mem_arange_iff (by omega)).mp hj
    omega

theorem cfGroups2_cons₂ {n : ℕ} (h : 3 ≤ n) :
    ∃ J, (cfGroups n).2 = 1 :: 3 :: J ∧ ∀ i ∈ J, 5 ≤ i ∧ i ≤ n ∧ i % 2 = 1 := by
  refine ⟨(arange 6 (n + 2) 2).map (· - 1), ?_, fun i hi => ?_⟩
  · unfold cfGroups
    rw [arange_cons (a := 2) (by omega) (by omega), arange_cons (a := 2 + 2) (by omega) (by omega)]
    rfl
  · obtain ⟨j, hj, rfl⟩ := List.mem_map.mp hi
    have := (mem_arange_iff (by omega)).mp hj
    omega

theorem cf2d_ge {n : ℕ} (hn : 4 ≤ n) {p1 p2 : List ℕ → Option ℝ} (h1 : Penalty p1) (h2 : Penalty p2) (f1 f2 : ℝ) :
    ∃ a b, 0 ≤ a ∧ 0 ≤ b ∧ cf2d n p1 p2 f1 f2 = some [f1 + a, f2 + b] := by
  obtain ⟨a, ha, ha0⟩ := h1 _ (List.ne_nil_of_mem (mem_cfGroups1.mpr (⟨by omega, by omega, by omega⟩ : In1 n 2)))
  obtain ⟨b, hb, hb0⟩ := h2 _ (List.ne_nil_of_mem (mem_cfGroups2.mpr (⟨by omega, by omega, by omega⟩ : In2 n 1)))
  refine ⟨a, b, ha0, hb0, ?_⟩
  unfold cf2d
  rw [ha, Option.bind_some, hb, Option.map_some]

theorem cf2d_eq {n : ℕ} (hn : 4 ≤ n) {p1 p2 : List ℕ → Option ℝ} (h1 : VanishesOn p1 (In1 n)) (h2 : VanishesOn p2 (In2 n))
    (f1 f2 : ℝ) : cf2d n p1 p2 f1 f2 = some [f1, f2] := by
  have ha := h1 _ (List.ne_nil_of_mem (mem_cfGroups1.mpr (⟨by omega, by omega, by omega⟩ : In1 n 2)))
    fun i hi => mem_cfGroups1.mp hi
  have hb := h2 _ (List.ne_nil_of_mem (mem_cfGroups2.mpr (⟨by omega, by omega, by omega⟩ : In2 n 1)))
    fun i hi => mem_cfGroups2.mp hi
  unfold cf2d
  rw [ha, Option.bind_some, hb, Option.map_some, add_zero, add_zero]

theorem cf2d_none {n : ℕ} (hn : n < 4) {p1 p2 : List ℕ → Option ℝ} (h1 : p1 [] = none) (f1 f2 : ℝ) :
    cf2d n p1 p2 f1 f2 = none := by
  have : (cfGroups n).1 = [] := by
    rw [List.eq_nil_iff_forall_not_mem]
    intro i hi
    have := mem_cfGroups1.mp hi
    unfold In1 at this
    omega
  unfold cf2d
  rw [this, h1]
  rfl

theorem groupSum_nonneg {h : ℕ → ℝ} (hh : ∀ i, 0 ≤ h i) (J : List ℕ) : 0 ≤ groupSum h J :=
  List.sum_nonneg fun a ha => by
    obtain ⟨i, -, rfl⟩ := List.mem_map.mp ha
    exact hh i

theorem groupSum_zero {h : ℕ → ℝ} {J : List ℕ} (hh : ∀ i ∈ J, h i = 0) : groupSum h J = 0 := sum_map_zero hh

theorem groupSum_cons (h : ℕ → ℝ) (i : ℕ) (J : List ℕ) : groupSum h (i :: J) = h i + groupSum h J := rfl

/-- A decision vector with the first entry `t` from which `x[:, j]` reads `v j`, for all `j` in the groups. -/
noncomputable def vec (n : ℕ) (t : ℝ) (v : ℕ → ℝ) (i : ℕ) : ℝ :=
  if i = 0 then t else if n % 2 = 1 ∧ i + 1 = n then v n else v i

theorem vec_zero (n : ℕ) (t : ℝ) (v : ℕ → ℝ) : vec n t v 0 = t := if_pos rfl

theorem vec_clamp1 {n j : ℕ} {t : ℝ} {v : ℕ → ℝ} (h : In1 n j) : vec n t v (clamp n j) = v j := by
  unfold In1 at h
  unfold vec clamp
  rw [min_eq_left (by omega), if_neg (by omega), if_neg (by omega)]

theorem vec_clamp2 {n j : ℕ} {t : ℝ} {v : ℕ → ℝ} (hn : 2 ≤ n) (h : In2 n j) : vec n t v (clamp n j) = v j := by
  unfold In2 at h
  unfold vec clamp
  rcases Nat.lt_or_ge j n with hj | hj
  · rw [min_eq_left (by omega), if_neg (by omega), if_neg (by omega)]
  · obtain rfl : j = n := by omega
    rw [min_eq_right (by omega), if_neg (by omega), if_pos (by omega)]

theorem vec_bounds {n : ℕ} {t a b : ℝ} {v : ℕ → ℝ} (hv : ∀ i, 1 ≤ i → a ≤ v i ∧ v i ≤ b) (i : ℕ) (hi : 1 ≤ i) :
    a ≤ vec n t v i ∧ vec n t v i ≤ b := by
  unfold vec
  rw [if_neg (by omega)]
  split
  · exact hv n (by omega)
  · exact hv i hi

/-! ### Clipping -/

theorem clip_eq {lo hi x : ℕ → ℝ} (h : ∀ i, lo i ≤ x i ∧ x i ≤ hi i) : clip lo hi x = x := by
  funext i
  unfold clip
  rw [max_eq_left (h i).1, min_eq_left (h i).2]

theorem clip_apply {lo hi x : ℕ → ℝ} {i : ℕ} (h1 : lo i ≤ x i) (h2 : x i ≤ hi i) : clip lo hi x i = x i := by
  unfold clip
  rw [max_eq_left h1, min_eq_left h2]

theorem clip_mem {lo hi : ℕ → ℝ} (x : ℕ → ℝ) {i : ℕ} (h : lo i ≤ hi i) : lo i ≤ clip lo hi x i ∧ clip lo hi x i ≤ hi i :=
  ⟨le_min (le_max_right _ _) h, min_le_right _ _⟩

theorem damped_nonpos {t : ℝ} : damped t ≤ 0 ↔ 0 ≤ t := by
  unfold damped
  have h : 0 < 1 + exp (4 * |t|) := by positivity
  rw [div_le_iff₀ h, zero_mul, neg_nonpos]

/-! ### The gaps -/

/-- The numbers `i / m` in `[0, 1]`. -/
def Fractions (m : ℕ) : Set ℝ := {t | ∃ i : ℕ, i ≤ m ∧ t = (i : ℝ) / m}

theorem sin_gap {p q m : ℝ} (hm : 1 ≤ m) (hp0 : 0 < p) (hp : p < 1 / m) (hq0 : 0 < q) (hq : q < 1 / m) :
    p - q < sin (π * (m / 2 * (p + q))) := by
  have hm0 : 0 < m := by linarith
  rw [lt_div_iff₀ hm0] at hp hq
  rcases le_total (m / 2 * (p + q)) (1 / 2) with h | h
  · have := two_mul_le_sin (by positivity) h
    nlinarith
  · have := two_mul_le_sin' h (by nlinarith)
    nlinarith

/-- A feasible pair is weakly dominated by one of finitely many points. -/
theorem cover_fractions {m : ℕ} (hm : 1 ≤ m) {u v : ℝ} (hu : 0 ≤ u) (hv : 0 ≤ v) (h1 : 1 ≤ u + v)
    (h : |sin (π * (m / 2 * (u - v + 1)))| ≤ u + v - 1) : ∃ t ∈ Fractions m, t ≤ u ∧ 1 - t ≤ v := by
  have hm' : (1 : ℝ) ≤ m := by exact_mod_cast hm
  have hm0 : (0 : ℝ) < m := by linarith
  rcases le_or_gt 1 u with hu1 | hu1
  · exact ⟨1, ⟨m, le_rfl, by rw [div_self hm0.ne']⟩, hu1, by linarith⟩
  have f1 := Nat.floor_le (mul_nonneg hm0.le hu)
  have f2 := Nat.lt_floor_add_one ((m : ℝ) * u)
  generalize hi : ⌊(m : ℝ) * u⌋₊ = i at f1 f2
  have him : i ≤ m := by
    have : (i : ℝ) < m := by nlinarith
    exact_mod_cast this.le
  have g1 : (i : ℝ) / m ≤ u := by
    rw [div_le_iff₀ hm0]
    linarith
  rcases le_or_gt (1 - (i : ℝ) / m) v with hv1 | hv1
  · exact ⟨(i : ℝ) / m, ⟨i, him, rfl⟩, g1, hv1⟩
  exfalso
  have g2 : u - (i : ℝ) / m < 1 / m := by
    rw [lt_div_iff₀ hm0, sub_mul, div_mul_cancel₀ _ hm0.ne']
    linarith
  have key := sin_gap hm' (p := u - (i : ℝ) / m) (q := 1 - (i : ℝ) / m - v) (by linarith) g2 (by linarith) (by linarith)
  have e : π * ((m : ℝ) / 2 * (u - v + 1)) =
      π * ((m : ℝ) / 2 * (u - (i : ℝ) / m + (1 - (i : ℝ) / m - v))) + (i : ℕ) * π := by
    field_simp
    ring
  rw [e, sin_add_nat_mul_pi, abs_mul, abs_pow, abs_neg, abs_one, one_pow, one_mul] at h
  have := le_abs_self (sin (π * ((m : ℝ) / 2 * (u - (i : ℝ) / m + (1 - (i : ℝ) / m - v)))))
  linarith

/-- The point 0 and two intervals. -/
def Intervals : Set ℝ := {t | t = 0 ∨ (1 / 4 ≤ t ∧ t ≤ 1 / 2) ∨ (3 / 4 ≤ t ∧ t ≤ 1)}

/-- A feasible pair is weakly dominated by a point over the intervals. -/
theorem cover_intervals {u v : ℝ} (hu : 0 ≤ u) (hv : 0 ≤ v) (h1 : 1 ≤ u + v)
    (h : sin (2 * π * (u - v + 1)) ≤ u + v - 1) : ∃ t ∈ Intervals, t ≤ u ∧ 1 - t ≤ v := by
  rcases le_or_gt 1 u with hu1 | hu1
  · exact ⟨1, Or.inr (Or.inr (by norm_num)), hu1, by linarith⟩
  by_cases hk : u ∈ Intervals
  · exact ⟨u, hk, le_rfl, by linarith⟩
  have hgap : ∃ k : ℕ, (k = 0 ∨ k = 1) ∧ (k : ℝ) / 2 < u ∧ u < (k : ℝ) / 2 + 1 / 4 := by
    unfold Intervals at hk
    simp only [Set.mem_setOf_eq, not_or, not_and, not_le] at hk
    obtain ⟨k0, k1, k2⟩ := hk
    have hpos : 0 < u := lt_of_le_of_ne hu (Ne.symm k0)
    rcases le_or_gt u (1 / 2) with h2 | h2
    · refine ⟨0, Or.inl rfl, by simpa using hpos, ?_⟩
      by_contra hc
      have := k1 (by push_cast at hc; linarith)
      linarith
    · refine ⟨1, Or.inr rfl, by simpa using h2, ?_⟩
      by_contra hc
      have := k2 (by push_cast at hc; linarith)
      linarith
  obtain ⟨k, hk01, g1, g2⟩ := hgap
  rcases le_or_gt (1 - (k : ℝ) / 2) v with hv1 | hv1
  · refine ⟨(k : ℝ) / 2, ?_, g1.le, hv1⟩
    rcases hk01 with rfl | rfl
    · left
      norm_num
    · right
      left
      norm_num
  exfalso
  have key := sin_gap (m := 4) (by norm_num) (p := u - (k : ℝ) / 2) (q := 1 - (k : ℝ) / 2 - v) (by linarith) (by linarith)
    (by linarith) (by linarith)
  have e : 2 * π * (u - v + 1) = π * (4 / 2 * (u - (k : ℝ) / 2 + (1 - (k : ℝ) / 2 - v))) + (k : ℕ) * (2 * π) := by ring
  rw [e, sin_add_nat_mul_two_pi] at h
  linarith

theorem sin_intervals {t : ℝ} (h : t ∈ Intervals) : sin (4 * π * t) ≤ 0 := by
  rcases h with rfl | h
  · simp
  · exact sin_four_nonpos h

/-! ### The square roots of CF6 and CF7 -/

theorem signedSqrt_le (a : ℝ) : signedSqrt a ≤ √(max a 0) := by
  unfold signedSqrt
  rcases lt_trichotomy a 0 with h | rfl | h
  · rw [sign_neg h, max_eq_right h.le, sqrt_zero]
    have := sqrt_nonneg |a|
    simp [this]
  · simp
  · rw [sign_pos h, max_eq_left h.le, abs_of_pos h]
    simp

theorem signedSqrt_sq {a y : ℝ} (h : signedSqrt a ≤ y) : max a 0 ≤ y ^ 2 := by
  rcases le_or_gt a 0 with ha | ha
  · rw [max_eq_right ha]
    positivity
  · unfold signedSqrt at h
    rw [sign_pos ha, abs_of_pos ha] at h
    rw [max_eq_left ha.le]
    have h : √a ≤ y := by simpa using h
    exact (sqrt_le_left ((sqrt_nonneg a).trans h)).mp h

end Verif.Prob
