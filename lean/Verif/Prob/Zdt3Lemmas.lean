import Mathlib.Analysis.Complex.Trigonometric
import Mathlib.Analysis.Real.Pi.Bounds
import Mathlib.Analysis.SpecialFunctions.Trigonometric.Bounds
import Mathlib.Analysis.SpecialFunctions.Trigonometric.Deriv
import Mathlib.Analysis.SpecialFunctions.Sqrt
import Mathlib.Analysis.Calculus.Deriv.MeanValue
import Mathlib.Order.Monotone.Union

/-!
# Helper lemmas for ZDT3: numerical bounds for sine and cosine
-/

namespace Verif.Prob

/-- Taylor polynomial of the sine, Horner form. -/
noncomputable def sinT (t : ℝ) : ℝ :=
  t * (1 - t ^ 2 / (2 * 3) * (1 - t ^ 2 / (4 * 5) * (1 - t ^ 2 / (6 * 7) * (1 - t ^ 2 / (8 * 9) *
    (1 - t ^ 2 / (10 * 11) * (1 - t ^ 2 / (12 * 13) * (1 - t ^ 2 / (14 * 15) * (1 - t ^ 2 / (16 * 17) *
      (1 - t ^ 2 / (18 * 19) * (1 - t ^ 2 / (20 * 21) * (1 - t ^ 2 / (22 * 23) * (1 - t ^ 2 / (24 * 25)))))))))))))

/-- Taylor polynomial of the cosine, Horner form. -/
noncomputable def cosT (t : ℝ) : ℝ :=
  1 - t ^ 2 / (1 * 2) * (1 - t ^ 2 / (3 * 4) * (1 - t ^ 2 / (5 * 6) * (1 - t ^ 2 / (7 * 8) *
    (1 - t ^ 2 / (9 * 10) * (1 - t ^ 2 / (11 * 12) * (1 - t ^ 2 / (13 * 14) * (1 - t ^ 2 / (15 * 16) *
      (1 - t ^ 2 / (17 * 18) * (1 - t ^ 2 / (19 * 20) * (1 - t ^ 2 / (21 * 22) * (1 - t ^ 2 / (23 * 24))))))))))))

theorem exp_taylor (t : ℝ) : ∑ m ∈ Finset.range 26, ((t : ℂ) * Complex.I) ^ m / (m.factorial : ℂ) =
    (cosT t : ℂ) + (sinT t : ℂ) * Complex.I := by
  have h2 : Complex.I ^ 2 = -1 := Complex.I_sq
  have hI : ∀ j, Complex.I ^ (j + 2) = -Complex.I ^ j := fun j => by rw [pow_add, h2]; ring
  simp only [Finset.sum_range_succ, Finset.sum_range_zero, Nat.factorial, mul_pow, hI, pow_zero, pow_one]
  unfold cosT sinT
  push_cast
  ring

theorem trig_taylor {t : ℝ} (h : |t| ≤ 3) : |Real.sin t - sinT t| ≤ 1e-13 ∧ |Real.cos t - cosT t| ≤ 1e-13 := by
  have hn : ‖(t : ℂ) * Complex.I‖ = |t| := by simp
  have hb := Complex.exp_bound' (x := (t : ℂ) * Complex.I) (n := 26) (by rw [hn]; push_cast; linarith)
  rw [exp_taylor, hn, Complex.exp_mul_I] at hb
  have he : |t| ^ 26 / (Nat.factorial 26 : ℝ) * 2 ≤ 1e-13 := by
    have : |t| ^ 26 ≤ 3 ^ 26 := pow_le_pow_left₀ (abs_nonneg _) h 26
    calc |t| ^ 26 / (Nat.factorial 26 : ℝ) * 2 ≤ 3 ^ 26 / (Nat.factorial 26 : ℝ) * 2 := by gcongr
      _ ≤ 1e-13 := by norm_num [Nat.factorial]
  have hz : Complex.cos t + Complex.sin t * Complex.I - ((cosT t : ℂ) + (sinT t : ℂ) * Complex.I) =
      ⟨Real.cos t - cosT t, Real.sin t - sinT t⟩ := by
    apply Complex.ext <;> simp [← Complex.ofReal_cos, ← Complex.ofReal_sin]
  rw [hz] at hb
  exact ⟨(Complex.abs_im_le_norm ⟨Real.cos t - cosT t, Real.sin t - sinT t⟩).trans (hb.trans he),
    (Complex.abs_re_le_norm ⟨Real.cos t - cosT t, Real.sin t - sinT t⟩).trans (hb.trans he)⟩

/-- Sine and cosine of `10 π x`, where `x` differs from `k / 5` by less than `0.09`. -/
theorem trig_value (k : ℕ) {x t : ℝ} (hx : |x - k / 5| ≤ 0.09)
    (ht : t = 31.4159265358979323846 * (x - k / 5)) :
    |Real.sin (10 * Real.pi * x) - sinT t| ≤ 2e-13 ∧ |Real.cos (10 * Real.pi * x) - cosT t| ≤ 2e-13 := by
  have hp : 10 * Real.pi * x = 10 * Real.pi * (x - k / 5) + k * (2 * Real.pi) := by ring
  rw [hp, Real.sin_add_nat_mul_two_pi, Real.cos_add_nat_mul_two_pi]
  have h1 := Real.pi_gt_d20
  have h2 := Real.pi_lt_d20
  have hd : |10 * Real.pi * (x - k / 5) - t| ≤ 1e-13 := by
    rw [ht, ← sub_mul, abs_mul, abs_of_nonneg (by norm_num at h1 ⊢; linarith)]
    calc (10 * Real.pi - 31.4159265358979323846) * |x - k / 5| ≤ 1e-19 * 0.09 := by
          apply mul_le_mul _ hx (abs_nonneg _) (by norm_num)
          norm_num at h2 ⊢
          linarith
      _ ≤ 1e-13 := by norm_num
  have ht3 : |t| ≤ 3 := by
    rw [ht, abs_mul, abs_of_pos (by norm_num)]
    calc (31.4159265358979323846 : ℝ) * |x - k / 5| ≤ 31.4159265358979323846 * 0.09 := by gcongr
      _ ≤ 3 := by norm_num
  obtain ⟨hs, hc⟩ := trig_taylor ht3
  have hs' := Real.abs_sin_sub_sin_le (10 * Real.pi * (x - k / 5)) t
  have hc' := Real.abs_cos_sub_cos_le (10 * Real.pi * (x - k / 5)) t
  constructor
  · calc _ ≤ _ := abs_sub_le _ (Real.sin t) _
      _ ≤ 1e-13 + 1e-13 := add_le_add (hs'.trans hd) hs
      _ = 2e-13 := by norm_num
  · calc _ ≤ _ := abs_sub_le _ (Real.cos t) _
      _ ≤ 1e-13 + 1e-13 := add_le_add (hc'.trans hd) hc
      _ = 2e-13 := by norm_num

/-- Bounds for sine and cosine of `10 π x` and for the root of `x`. -/
structure Num (x s₀ s₁ c₀ c₁ q₀ q₁ : ℝ) : Prop where
  sinLo : s₀ ≤ Real.sin (10 * Real.pi * x)
  sinHi : Real.sin (10 * Real.pi * x) ≤ s₁
  cosLo : c₀ ≤ Real.cos (10 * Real.pi * x)
  cosHi : Real.cos (10 * Real.pi * x) ≤ c₁
  sqrtLo : q₀ ≤ Real.sqrt x
  sqrtHi : Real.sqrt x ≤ q₁

theorem num_of (k : ℕ) {x t s₀ s₁ c₀ c₁ q₀ q₁ : ℝ} (hx : |x - k / 5| ≤ 0.09)
    (ht : t = 31.4159265358979323846 * (x - k / 5))
    (h1 : s₀ + 2e-13 ≤ sinT (31.4159265358979323846 * (x - k / 5)))
    (h2 : sinT (31.4159265358979323846 * (x - k / 5)) ≤ s₁ - 2e-13)
    (h3 : c₀ + 2e-13 ≤ cosT (31.4159265358979323846 * (x - k / 5)))
    (h4 : cosT (31.4159265358979323846 * (x - k / 5)) ≤ c₁ - 2e-13) (h5 : q₀ ^ 2 ≤ x) (h6 : x ≤ q₁ ^ 2)
    (h7 : 0 ≤ q₁) : Num x s₀ s₁ c₀ c₁ q₀ q₁ := by
  obtain ⟨hs, hc⟩ := trig_value k hx ht
  rw [abs_le] at hs hc
  rw [← ht] at h1 h2 h3 h4
  exact ⟨by linarith [hs.1], by linarith [hs.2], by linarith [hc.1], by linarith [hc.2], Real.le_sqrt_of_sq_le h5,
    Real.sqrt_le_iff.mpr ⟨h7, h6⟩⟩

theorem num_a0 : Num 0.0830015339 (0.508999936955) (0.508999936958) (-0.860766556147) (-0.860766556144)
    0.288099867926 0.288099867929 :=
  num_of 0 (by norm_num [abs_le]) rfl (by norm_num [sinT]) (by norm_num [sinT]) (by norm_num [cosT])
    (by norm_num [cosT]) (by norm_num) (by norm_num) (by norm_num)

theorem num_b0 : Num 0.0830015359 (0.508999882872) (0.508999882875) (-0.860766588128) (-0.860766588125)
    0.288099871397 0.288099871400 :=
  num_of 0 (by norm_num [abs_le]) rfl (by norm_num [sinT]) (by norm_num [sinT]) (by norm_num [cosT])
    (by norm_num [cosT]) (by norm_num) (by norm_num) (by norm_num)

theorem num_a1 : Num 0.2577623624 (0.970412772448) (0.970412772451) (-0.241451964309) (-0.241451964306)
    0.507703025792 0.507703025795 :=
  num_of 1 (by norm_num [abs_le]) rfl (by norm_num [sinT]) (by norm_num [sinT]) (by norm_num [cosT])
    (by norm_num [cosT]) (by norm_num) (by norm_num) (by norm_num)

theorem num_b1 : Num 0.2577623644 (0.970412757277) (0.970412757280) (-0.241452025281) (-0.241452025278)
    0.507703027762 0.507703027765 :=
  num_of 1 (by norm_num [abs_le]) rfl (by norm_num [sinT]) (by norm_num [sinT]) (by norm_num [cosT])
    (by norm_num [cosT]) (by norm_num) (by norm_num) (by norm_num)

theorem num_l1 : Num 0.182228781 (-0.529744512608) (-0.529744512605) (0.848157268059) (0.848157268062)
    0.426882631409 0.426882631412 :=
  num_of 1 (by norm_num [abs_le]) rfl (by norm_num [sinT]) (by norm_num [sinT]) (by norm_num [cosT])
    (by norm_num [cosT]) (by norm_num) (by norm_num) (by norm_num)

theorem num_a2 : Num 0.4538821031 (0.992572109417) (0.992572109420) (-0.121657747819) (-0.121657747816)
    0.673707728246 0.673707728249 :=
  num_of 2 (by norm_num [abs_le]) rfl (by norm_num [sinT]) (by norm_num [sinT]) (by norm_num [cosT])
    (by norm_num [cosT]) (by norm_num) (by norm_num) (by norm_num)

theorem num_b2 : Num 0.4538821051 (0.992572101773) (0.992572101776) (-0.121657810184) (-0.121657810181)
    0.673707729730 0.673707729733 :=
  num_of 2 (by norm_num [abs_le]) rfl (by norm_num [sinT]) (by norm_num [sinT]) (by norm_num [cosT])
    (by norm_num [cosT]) (by norm_num) (by norm_num) (by norm_num)

theorem num_l2 : Num 0.4093136758 (0.288440539997) (0.288440540000) (0.957497809336) (0.957497809339)
    0.639776270112 0.639776270115 :=
  num_of 2 (by norm_num [abs_le]) rfl (by norm_num [sinT]) (by norm_num [sinT]) (by norm_num [cosT])
    (by norm_num [cosT]) (by norm_num) (by norm_num) (by norm_num)

theorem num_a3 : Num 0.6525117028 (0.996888420531) (0.996888420534) (-0.078825611368) (-0.078825611365)
    0.807781964888 0.807781964891 :=
  num_of 3 (by norm_num [abs_le]) rfl (by norm_num [sinT]) (by norm_num [sinT]) (by norm_num [cosT])
    (by norm_num [cosT]) (by norm_num) (by norm_num) (by norm_num)

theorem num_b3 : Num 0.6525117048 (0.996888415579) (0.996888415582) (-0.078825674004) (-0.078825674001)
    0.807781966125 0.807781966128 :=
  num_of 3 (by norm_num [abs_le]) rfl (by norm_num [sinT]) (by norm_num [sinT]) (by norm_num [cosT])
    (by norm_num [cosT]) (by norm_num) (by norm_num) (by norm_num)

theorem num_l3 : Num 0.6183967954 (0.546310025428) (0.546310025431) (0.837583044308) (0.837583044311)
    0.786382092496 0.786382092499 :=
  num_of 3 (by norm_num [abs_le]) rfl (by norm_num [sinT]) (by norm_num [sinT]) (by norm_num [cosT])
    (by norm_num [cosT]) (by norm_num) (by norm_num) (by norm_num)

theorem num_a4 : Num 0.8518328644 (0.998342664536) (0.998342664539) (-0.057549319408) (-0.057549319405)
    0.922947920739 0.922947920742 :=
  num_of 4 (by norm_num [abs_le]) rfl (by norm_num [sinT]) (by norm_num [sinT]) (by norm_num [cosT])
    (by norm_num [cosT]) (by norm_num) (by norm_num) (by norm_num)

theorem num_l4 : Num 0.8233317993 (0.669094791143) (0.669094791146) (0.743177072077) (0.743177072080)
    0.907376327274 0.907376327277 :=
  num_of 4 (by norm_num [abs_le]) rfl (by norm_num [sinT]) (by norm_num [sinT]) (by norm_num [cosT])
    (by norm_num [cosT]) (by norm_num) (by norm_num) (by norm_num)

theorem num_h2 : Num 0.4538821041 (0.992572105595) (0.992572105598) (-0.121657779001) (-0.121657778998)
    0.673707728988 0.673707728991 :=
  num_of 2 (by norm_num [abs_le]) rfl (by norm_num [sinT]) (by norm_num [sinT]) (by norm_num [cosT])
    (by norm_num [cosT]) (by norm_num) (by norm_num) (by norm_num)

theorem num_l3x : Num 0.6183967944 (0.546309999115) (0.546309999118) (0.837583061471) (0.837583061474)
    0.786382091860 0.786382091863 :=
  num_of 3 (by norm_num [abs_le]) rfl (by norm_num [sinT]) (by norm_num [sinT]) (by norm_num [cosT])
    (by norm_num [cosT]) (by norm_num) (by norm_num) (by norm_num)

/-! ## The curve -/

/-- The front of ZDT3 as a function of the first objective. -/
noncomputable def curve3 (x : ℝ) : ℝ := 1 - Real.sqrt x - x * Real.sin (10 * Real.pi * x)

/-- Its derivative. -/
noncomputable def slope3 (x : ℝ) : ℝ :=
  -(1 / (2 * Real.sqrt x)) - Real.sin (10 * Real.pi * x) - 10 * Real.pi * x * Real.cos (10 * Real.pi * x)

theorem curve3_hasDerivAt {x : ℝ} (hx : 0 < x) : HasDerivAt curve3 (slope3 x) x := by
  have h1 : HasDerivAt (fun y : ℝ => 10 * Real.pi * y) (10 * Real.pi) x := by
    simpa using (hasDerivAt_id x).const_mul (10 * Real.pi)
  have h2 := (hasDerivAt_id x).mul h1.sin
  have h3 := (((hasDerivAt_const x (1 : ℝ)).sub (Real.hasDerivAt_sqrt hx.ne')).sub h2)
  have he : slope3 x = 0 - 1 / (2 * Real.sqrt x) -
      (1 * Real.sin (10 * Real.pi * x) + id x * (Real.cos (10 * Real.pi * x) * (10 * Real.pi))) := by
    unfold slope3
    simp only [id]
    ring
  rw [he]
  exact h3

theorem curve3_continuous : Continuous curve3 := by
  unfold curve3
  fun_prop

theorem slope3_lt {x s₀ s₁ c₀ c₁ q₀ q₁ : ℝ} (h : Num x s₀ s₁ c₀ c₁ q₀ q₁) (hx : 0 < x) (hc : c₀ ≤ 0) {b : ℝ}
    (hb : -(1 / (2 * q₁)) - s₀ - 31.4159265358979323847 * x * c₀ < b) : slope3 x < b := by
  have hq : 0 < Real.sqrt x := Real.sqrt_pos.mpr hx
  have h1 : 1 / (2 * q₁) ≤ 1 / (2 * Real.sqrt x) := by
    apply one_div_le_one_div_of_le (by positivity)
    linarith [h.sqrtHi]
  have hp := Real.pi_lt_d20
  have hp0 := Real.pi_pos
  have h2 : 10 * Real.pi * x * c₀ ≤ 10 * Real.pi * x * Real.cos (10 * Real.pi * x) :=
    mul_le_mul_of_nonneg_left h.cosLo (by positivity)
  have h3 : 31.4159265358979323847 * (x * c₀) ≤ 10 * Real.pi * (x * c₀) := by
    apply mul_le_mul_of_nonpos_right _ (mul_nonpos_of_nonneg_of_nonpos hx.le hc)
    norm_num at hp ⊢
    linarith
  unfold slope3
  have := h.sinLo
  nlinarith

theorem slope3_gt {x s₀ s₁ c₀ c₁ q₀ q₁ : ℝ} (h : Num x s₀ s₁ c₀ c₁ q₀ q₁) (hx : 0 < x) (hc : c₁ ≤ 0) (hq : 0 < q₀)
    {b : ℝ} (hb : b < -(1 / (2 * q₀)) - s₁ - 31.4159265358979323846 * x * c₁) : b < slope3 x := by
  have h1 : 1 / (2 * Real.sqrt x) ≤ 1 / (2 * q₀) := by
    apply one_div_le_one_div_of_le (by positivity)
    linarith [h.sqrtLo]
  have hp := Real.pi_gt_d20
  have hp0 := Real.pi_pos
  have h2 : 10 * Real.pi * x * Real.cos (10 * Real.pi * x) ≤ 10 * Real.pi * x * c₁ :=
    mul_le_mul_of_nonneg_left h.cosHi (by positivity)
  have h3 : 10 * Real.pi * (x * c₁) ≤ 31.4159265358979323846 * (x * c₁) := by
    apply mul_le_mul_of_nonpos_right _ (mul_nonpos_of_nonneg_of_nonpos hx.le hc)
    norm_num at hp ⊢
    linarith
  unfold slope3
  have := h.sinHi
  nlinarith

theorem curve3_lt {x s₀ s₁ c₀ c₁ q₀ q₁ : ℝ} (h : Num x s₀ s₁ c₀ c₁ q₀ q₁) (hx : 0 < x) {b : ℝ}
    (hb : 1 - q₀ - x * s₀ < b) : curve3 x < b := by
  have := mul_le_mul_of_nonneg_left h.sinLo hx.le
  have := h.sqrtLo
  unfold curve3
  linarith

theorem curve3_gt {x s₀ s₁ c₀ c₁ q₀ q₁ : ℝ} (h : Num x s₀ s₁ c₀ c₁ q₀ q₁) (hx : 0 < x) {b : ℝ}
    (hb : b < 1 - q₁ - x * s₁) : b < curve3 x := by
  have := mul_le_mul_of_nonneg_left h.sinHi hx.le
  have := h.sqrtHi
  unfold curve3
  linarith

/-- The angle within a period. -/
theorem sin_period (k : ℕ) (x : ℝ) : Real.sin (10 * Real.pi * x) = Real.sin (10 * Real.pi * (x - k / 5)) := by
  have hp : 10 * Real.pi * x = 10 * Real.pi * (x - k / 5) + k * (2 * Real.pi) := by ring
  rw [hp, Real.sin_add_nat_mul_two_pi]

theorem cos_period (k : ℕ) (x : ℝ) : Real.cos (10 * Real.pi * x) = Real.cos (10 * Real.pi * (x - k / 5)) := by
  have hp : 10 * Real.pi * x = 10 * Real.pi * (x - k / 5) + k * (2 * Real.pi) := by ring
  rw [hp, Real.cos_add_nat_mul_two_pi]

/-- First quarter of a period: the curve falls. -/
theorem anti_first (k : ℕ) : StrictAntiOn curve3 (Set.Icc ((k : ℝ) / 5) (k / 5 + 1 / 20)) := by
  intro a ha b hb hab
  have hk : (0 : ℝ) ≤ k / 5 := by positivity
  have ha0 : 0 ≤ a := hk.trans ha.1
  have hpi := Real.pi_pos
  have h1 : Real.sqrt a < Real.sqrt b := Real.sqrt_lt_sqrt ha0 hab
  have h2 : Real.sin (10 * Real.pi * (a - k / 5)) ≤ Real.sin (10 * Real.pi * (b - k / 5)) := by
    apply Real.sin_le_sin_of_le_of_le_pi_div_two
    · nlinarith [ha.1]
    · nlinarith [hb.2]
    · nlinarith
  have h3 : 0 ≤ Real.sin (10 * Real.pi * (a - k / 5)) := by
    apply Real.sin_nonneg_of_nonneg_of_le_pi
    · nlinarith [ha.1]
    · nlinarith [ha.2, hab, hb.2]
  unfold curve3
  rw [sin_period k a, sin_period k b]
  nlinarith [mul_le_mul hab.le h2 h3 (ha0.trans hab.le)]

/-- Second quarter: the slope increases. -/
theorem slope_second (k : ℕ) {a b : ℝ} (ha : (k : ℝ) / 5 + 1 / 20 ≤ a) (hab : a ≤ b) (hb : b ≤ k / 5 + 1 / 10) :
    slope3 a ≤ slope3 b := by
  have hk : (0 : ℝ) ≤ k / 5 := by positivity
  have ha0 : 0 < a := by linarith
  have hpi := Real.pi_pos
  have h1 : 1 / (2 * Real.sqrt b) ≤ 1 / (2 * Real.sqrt a) := by
    have := Real.sqrt_pos.mpr ha0
    apply one_div_le_one_div_of_le (by positivity)
    linarith [Real.sqrt_le_sqrt hab]
  have h2 : Real.sin (10 * Real.pi * (b - k / 5)) ≤ Real.sin (10 * Real.pi * (a - k / 5)) := by
    rw [← Real.cos_sub_pi_div_two, ← Real.cos_sub_pi_div_two]
    apply Real.cos_le_cos_of_nonneg_of_le_pi
    · nlinarith
    · nlinarith
    · nlinarith
  have h3 : Real.cos (10 * Real.pi * (b - k / 5)) ≤ Real.cos (10 * Real.pi * (a - k / 5)) := by
    apply Real.cos_le_cos_of_nonneg_of_le_pi
    · nlinarith
    · nlinarith
    · nlinarith
  have h4 : Real.cos (10 * Real.pi * (a - k / 5)) ≤ 0 := by
    apply Real.cos_nonpos_of_pi_div_two_le_of_le
    · nlinarith
    · nlinarith
  have h5 : b * Real.cos (10 * Real.pi * (b - k / 5)) ≤ a * Real.cos (10 * Real.pi * (a - k / 5)) := by
    nlinarith
  unfold slope3
  rw [sin_period k a, sin_period k b, cos_period k a, cos_period k b]
  nlinarith [mul_le_mul_of_nonneg_left h5 (by positivity : 0 ≤ 10 * Real.pi)]

/-- Second quarter: the curve falls as long as the slope is negative. -/
theorem anti_second (k : ℕ) {r : ℝ} (hr : r ≤ k / 5 + 1 / 10) (hs : slope3 r < 0) :
    StrictAntiOn curve3 (Set.Icc ((k : ℝ) / 5 + 1 / 20) r) := by
  have hk : (0 : ℝ) ≤ k / 5 := by positivity
  refine strictAntiOn_of_deriv_neg (convex_Icc _ _) curve3_continuous.continuousOn fun x hx => ?_
  rw [interior_Icc] at hx
  rw [(curve3_hasDerivAt (by linarith [hx.1])).deriv]
  exact (slope_second k hx.1.le hx.2.le hr).trans_lt hs

/-- Second quarter: beyond `r` the curve stays above a value slightly below the one at `r`. -/
theorem second_ge (k : ℕ) {r r' z : ℝ} (hr : (k : ℝ) / 5 + 1 / 20 ≤ r) (hrr : r ≤ r') (hs : -1e-6 ≤ slope3 r)
    (hs' : 0 ≤ slope3 r') (hw : r' - r ≤ 1e-8) (hz : r ≤ z) (hz' : z ≤ k / 5 + 1 / 10)
    (hr' : r' ≤ k / 5 + 1 / 10) : curve3 r - 1e-14 ≤ curve3 z := by
  have hk : (0 : ℝ) ≤ k / 5 := by positivity
  have near : ∀ y, r ≤ y → y ≤ r' → curve3 r - 1e-14 ≤ curve3 y := by
    intro y h1 h2
    have hm : MonotoneOn (fun x => curve3 x + 1e-6 * x) (Set.Icc r r') := by
      have hd : ∀ x, 0 < x → HasDerivAt (fun x => curve3 x + 1e-6 * x) (slope3 x + 1e-6) x := fun x hx => by
        have h := (curve3_hasDerivAt hx).add ((hasDerivAt_id x).const_mul (1e-6 : ℝ))
        rw [mul_one] at h
        exact h
      refine monotoneOn_of_deriv_nonneg (convex_Icc _ _) (by
        have := curve3_continuous
        fun_prop) (fun x hx => ?_) fun x hx => ?_
      · rw [interior_Icc] at hx
        exact (hd x (by linarith [hx.1])).differentiableAt.differentiableWithinAt
      · rw [interior_Icc] at hx
        rw [(hd x (by linarith [hx.1])).deriv]
        linarith [slope_second k hr hx.1.le (hx.2.le.trans hr')]
    have := hm (Set.left_mem_Icc.mpr hrr) ⟨h1, h2⟩ h1
    simp only at this
    nlinarith
  by_cases hc : z ≤ r'
  · exact near z hz hc
  · have hc' := (not_le.mp hc).le
    refine (near r' hrr le_rfl).trans ?_
    have hm : MonotoneOn curve3 (Set.Icc r' z) := by
      refine monotoneOn_of_deriv_nonneg (convex_Icc _ _) curve3_continuous.continuousOn (fun x hx => ?_) fun x hx => ?_
      · rw [interior_Icc] at hx
        exact (curve3_hasDerivAt (by linarith [hx.1])).differentiableAt.differentiableWithinAt
      · rw [interior_Icc] at hx
        rw [(curve3_hasDerivAt (by linarith [hx.1])).deriv]
        linarith [slope_second k (hr.trans hrr) hx.1.le (hx.2.le.trans hz')]
    exact hm (Set.left_mem_Icc.mpr hc') (Set.right_mem_Icc.mpr hc') hc'

/-- Third and part of the fourth quarter: the curve stays above its value in the middle of the period. -/
theorem third_ge (k : ℕ) {z q : ℝ} (hz : (k : ℝ) / 5 + 1 / 10 ≤ z) (hz' : z ≤ k / 5 + 7 / 40)
    (hq : Real.sqrt (k / 5 + 1 / 10) = q)
    (hs : Real.sqrt (k / 5 + 7 / 40) ≤ q + 0.7 * (k / 5 + 3 / 20)) : 1 - q ≤ curve3 z := by
  have hk : (0 : ℝ) ≤ k / 5 := by positivity
  have hpi := Real.pi_pos
  have hsin : Real.sin (10 * Real.pi * z) = -Real.sin (10 * Real.pi * (z - k / 5 - 1 / 10)) := by
    have he : 10 * Real.pi * (z - k / 5 - 1 / 10) = 10 * Real.pi * (z - k / 5) - Real.pi := by ring
    rw [sin_period k, he, Real.sin_sub_pi, neg_neg]
  have hz0 : 0 < z := by linarith
  have hq0 : 0.3 ≤ q := by
    rw [← hq]
    apply Real.le_sqrt_of_sq_le
    norm_num
    linarith
  have hqq : q ^ 2 = k / 5 + 1 / 10 := by
    rw [← hq, Real.sq_sqrt (by positivity)]
  unfold curve3
  rw [hsin]
  by_cases hc : z ≤ k / 5 + 3 / 20
  · have hj := Real.mul_le_sin (x := 10 * Real.pi * (z - k / 5 - 1 / 10)) (by nlinarith) (by nlinarith)
    have he : 2 / Real.pi * (10 * Real.pi * (z - k / 5 - 1 / 10)) = 20 * (z - k / 5 - 1 / 10) := by
      field_simp
      ring
    rw [he] at hj
    have hsq : Real.sqrt z ≤ q + 2 * (z - k / 5 - 1 / 10) := by
      apply Real.sqrt_le_iff.mpr ⟨by linarith, ?_⟩
      nlinarith
    have : z * (20 * (z - k / 5 - 1 / 10)) ≤ z * Real.sin (10 * Real.pi * (z - k / 5 - 1 / 10)) :=
      mul_le_mul_of_nonneg_left hj hz0.le
    nlinarith
  · have hc' := not_le.mp hc
    have hsq : Real.sqrt z ≤ q + 0.7 * (k / 5 + 3 / 20) := (Real.sqrt_le_sqrt hz').trans hs
    have h7 : 0.7 ≤ Real.sin (10 * Real.pi * (z - k / 5 - 1 / 10)) := by
      have h8 : Real.sin (Real.pi / 4) ≤ Real.sin (Real.pi - 10 * Real.pi * (z - k / 5 - 1 / 10)) := by
        apply Real.sin_le_sin_of_le_of_le_pi_div_two
        · nlinarith
        · nlinarith
        · nlinarith
      rw [Real.sin_pi_div_four, Real.sin_pi_sub] at h8
      have : (1.4 : ℝ) ≤ Real.sqrt 2 := Real.le_sqrt_of_sq_le (by norm_num)
      norm_num at this ⊢
      linarith
    have : z * 0.7 ≤ z * Real.sin (10 * Real.pi * (z - k / 5 - 1 / 10)) := mul_le_mul_of_nonneg_left h7 hz0.le
    nlinarith

/-- The end of a period: the curve falls. -/
theorem anti_fourth (k : ℕ) : StrictAntiOn curve3 (Set.Icc ((k : ℝ) / 5 + 7 / 40) ((k + 1 : ℕ) / 5)) := by
  have hk : (0 : ℝ) ≤ k / 5 := by positivity
  have hpi := Real.pi_gt_three
  refine strictAntiOn_of_deriv_neg (convex_Icc _ _) curve3_continuous.continuousOn fun x hx => ?_
  rw [interior_Icc] at hx
  obtain ⟨h1, h2⟩ := hx
  push_cast at h2
  have hx0 : 0 < x := by linarith
  rw [(curve3_hasDerivAt hx0).deriv]
  have hc : 0.7 ≤ Real.cos (10 * Real.pi * x) := by
    rw [cos_period (k + 1)]
    have h8 : Real.cos (Real.pi / 4) ≤ Real.cos (-(10 * Real.pi * (x - ((k + 1 : ℕ) : ℝ) / 5))) := by
      push_cast
      apply Real.cos_le_cos_of_nonneg_of_le_pi
      · nlinarith
      · nlinarith
      · nlinarith
    rw [Real.cos_pi_div_four, Real.cos_neg] at h8
    have : (1.4 : ℝ) ≤ Real.sqrt 2 := Real.le_sqrt_of_sq_le (by norm_num)
    refine le_trans ?_ h8
    norm_num at this ⊢
    linarith
  have hs := Real.neg_one_le_sin (10 * Real.pi * x)
  have hq : 0 < 1 / (2 * Real.sqrt x) := by
    have := Real.sqrt_pos.mpr hx0
    positivity
  have h3 : 30 * (7 / 40) * 0.7 ≤ 10 * Real.pi * x * Real.cos (10 * Real.pi * x) := by
    apply mul_le_mul _ hc (by norm_num) (by positivity)
    nlinarith
  unfold slope3
  norm_num at h3
  linarith

theorem anti_glue {f : ℝ → ℝ} {a b c : ℝ} (h1 : StrictAntiOn f (Set.Icc a b)) (h2 : StrictAntiOn f (Set.Icc b c))
    (hab : a ≤ b) (hbc : b ≤ c) : StrictAntiOn f (Set.Icc a c) := by
  have h := h1.union h2 (isGreatest_Icc hab) (isLeast_Icc hbc)
  rwa [Set.Icc_union_Icc_eq_Icc hab hbc] at h

/-- From the last eighth of a period the curve falls into the next one. -/
theorem anti_joined (k : ℕ) {r : ℝ} (hr : r ≤ (k + 1 : ℕ) / 5 + 1 / 10) (hr0 : ((k + 1 : ℕ) : ℝ) / 5 + 1 / 20 ≤ r)
    (hs : slope3 r < 0) : StrictAntiOn curve3 (Set.Icc ((k : ℝ) / 5 + 7 / 40) r) := by
  have e : ((k + 1 : ℕ) : ℝ) / 5 = k / 5 + 1 / 5 := by push_cast; ring
  exact anti_glue (anti_glue (anti_fourth k) (anti_first (k + 1)) (by rw [e]; linarith) (by linarith))
    (anti_second (k + 1) hr hs) (by rw [e]; linarith) hr0

/-- A lower bound of the curve up to the last eighth of a period, from one on the previous period. -/
theorem curve_ge (k : ℕ) {s r r' m : ℝ} (hs : ∀ z, 0 ≤ z → z < s → m ≤ curve3 z)
    (ha : StrictAntiOn curve3 (Set.Icc s r)) (hsr : s ≤ r) (hr : (k : ℝ) / 5 + 1 / 20 ≤ r) (hrr : r ≤ r')
    (h1 : -1e-6 ≤ slope3 r) (h2 : 0 ≤ slope3 r') (hw : r' - r ≤ 1e-8) (hr' : r' ≤ k / 5 + 1 / 10)
    (hm : m ≤ curve3 r - 1e-14)
    (hq : Real.sqrt (k / 5 + 7 / 40) ≤ Real.sqrt (k / 5 + 1 / 10) + 0.7 * (k / 5 + 3 / 20)) {z : ℝ} (hz : 0 ≤ z)
    (hz' : z < k / 5 + 7 / 40) : m ≤ curve3 z := by
  have hk : (0 : ℝ) ≤ k / 5 := by positivity
  by_cases c1 : z < s
  · exact hs z hz c1
  by_cases c2 : z ≤ r
  · have := ha.antitoneOn ⟨not_lt.mp c1, c2⟩ ⟨hsr, le_rfl⟩ c2
    linarith
  have c2' := (not_le.mp c2).le
  by_cases c3 : z ≤ k / 5 + 1 / 10
  · exact hm.trans (second_ge k hr hrr h1 h2 hw c2' c3 hr')
  · have c3' := (not_le.mp c3).le
    have hmid : m ≤ curve3 (k / 5 + 1 / 10) :=
      hm.trans (second_ge k hr hrr h1 h2 hw (hrr.trans hr') le_rfl hr')
    have he : curve3 (k / 5 + 1 / 10) = 1 - Real.sqrt (k / 5 + 1 / 10) := by
      unfold curve3
      rw [sin_period k, show 10 * Real.pi * ((k : ℝ) / 5 + 1 / 10 - k / 5) = Real.pi by ring, Real.sin_pi]
      ring
    rw [he] at hmid
    exact hmid.trans (third_ge k c3' hz'.le rfl hq)

theorem root_gap (k : ℕ) (hk : k ≤ 3) :
    Real.sqrt (k / 5 + 7 / 40) ≤ Real.sqrt (k / 5 + 1 / 10) + 0.7 * (k / 5 + 3 / 20) := by
  have hk0 : (0 : ℝ) ≤ k := by positivity
  have h1 : (0.316 : ℝ) ≤ Real.sqrt (k / 5 + 1 / 10) := by
    apply Real.le_sqrt_of_sq_le
    norm_num
    linarith
  have h2 := Real.sq_sqrt (show (0 : ℝ) ≤ k / 5 + 1 / 10 by positivity)
  apply Real.sqrt_le_iff.mpr ⟨by positivity, ?_⟩
  nlinarith

/-- The curve falls on the first part, up to the end of the first region. -/
theorem anti0 : StrictAntiOn curve3 (Set.Icc 0 0.0830015339) := by
  have h1 := anti_first 0
  have h2 := anti_second 0 (r := 0.0830015339) (by norm_num)
    (slope3_lt num_a0 (by norm_num) (by norm_num) (by norm_num))
  norm_num at h1 h2 ⊢
  exact anti_glue h1 h2 (by norm_num) (by norm_num)

theorem anti1 : StrictAntiOn curve3 (Set.Icc (7 / 40 : ℝ) 0.2577623624) := by
  have h := anti_joined 0 (r := 0.2577623624) (by norm_num) (by norm_num)
    (slope3_lt num_a1 (by norm_num) (by norm_num) (by norm_num))
  norm_num at h ⊢
  exact h

theorem anti2 : StrictAntiOn curve3 (Set.Icc (3 / 8 : ℝ) 0.4538821031) := by
  have h := anti_joined 1 (r := 0.4538821031) (by norm_num) (by norm_num)
    (slope3_lt num_a2 (by norm_num) (by norm_num) (by norm_num))
  norm_num at h ⊢
  exact h

theorem anti3 : StrictAntiOn curve3 (Set.Icc (23 / 40 : ℝ) 0.6525117028) := by
  have h := anti_joined 2 (r := 0.6525117028) (by norm_num) (by norm_num)
    (slope3_lt num_a3 (by norm_num) (by norm_num) (by norm_num))
  norm_num at h ⊢
  exact h

theorem anti4 : StrictAntiOn curve3 (Set.Icc (31 / 40 : ℝ) 0.8518328644) := by
  have h := anti_joined 3 (r := 0.8518328644) (by norm_num) (by norm_num)
    (slope3_lt num_a4 (by norm_num) (by norm_num) (by norm_num))
  norm_num at h ⊢
  exact h

theorem low0 {z : ℝ} (hz : 0 ≤ z) (hz' : z < 7 / 40) : 0.66965235455 ≤ curve3 z := by
  refine curve_ge 0 (r := 0.0830015339) (r' := 0.0830015359) (fun z h1 h2 => absurd h1 (not_le.mpr h2)) anti0 (by norm_num) (by norm_num) (by norm_num)
    (slope3_gt num_a0 (by norm_num) (by norm_num) (by norm_num) (by norm_num)).le
    (slope3_gt num_b0 (by norm_num) (by norm_num) (by norm_num) (by norm_num)).le (by norm_num) (by norm_num)
    ?_ (root_gap 0 (by norm_num)) hz (by norm_num; norm_num at hz'; exact hz')
  have := curve3_gt num_a0 (by norm_num) (b := 0.66965235455 + 1e-14) (by norm_num)
  linarith

theorem low1 {z : ℝ} (hz : 0 ≤ z) (hz' : z < 3 / 8) : 0.24216108348 ≤ curve3 z := by
  refine curve_ge 1 (r := 0.2577623624) (r' := 0.2577623644) (fun z h1 h2 => le_trans (by norm_num) (low0 h1 h2)) anti1 (by norm_num) (by norm_num) (by norm_num)
    (slope3_gt num_a1 (by norm_num) (by norm_num) (by norm_num) (by norm_num)).le
    (slope3_gt num_b1 (by norm_num) (by norm_num) (by norm_num) (by norm_num)).le (by norm_num) (by norm_num)
    ?_ (root_gap 1 (by norm_num)) hz (by norm_num; norm_num at hz'; exact hz')
  have := curve3_gt num_a1 (by norm_num) (b := 0.24216108348 + 1e-14) (by norm_num)
  linarith

theorem low2 {z : ℝ} (hz : 0 ≤ z) (hz' : z < 23 / 40) : (-0.12421844675) ≤ curve3 z := by
  refine curve_ge 2 (r := 0.4538821031) (r' := 0.4538821051) (fun z h1 h2 => le_trans (by norm_num) (low1 h1 h2)) anti2 (by norm_num) (by norm_num) (by norm_num)
    (slope3_gt num_a2 (by norm_num) (by norm_num) (by norm_num) (by norm_num)).le
    (slope3_gt num_b2 (by norm_num) (by norm_num) (by norm_num) (by norm_num)).le (by norm_num) (by norm_num)
    ?_ (root_gap 2 (by norm_num)) hz (by norm_num; norm_num at hz'; exact hz')
  have := curve3_gt num_a2 (by norm_num) (b := (-0.12421844675) + 1e-14) (by norm_num)
  linarith

theorem low3 {z : ℝ} (hz : 0 ≤ z) (hz' : z < 31 / 40) : (-0.45826332767) ≤ curve3 z := by
  refine curve_ge 3 (r := 0.6525117028) (r' := 0.6525117048) (fun z h1 h2 => le_trans (by norm_num) (low2 h1 h2)) anti3 (by norm_num) (by norm_num) (by norm_num)
    (slope3_gt num_a3 (by norm_num) (by norm_num) (by norm_num) (by norm_num)).le
    (slope3_gt num_b3 (by norm_num) (by norm_num) (by norm_num) (by norm_num)).le (by norm_num) (by norm_num)
    ?_ (root_gap 3 (by norm_num)) hz (by norm_num; norm_num at hz'; exact hz')
  have := curve3_gt num_a3 (by norm_num) (b := (-0.45826332767) + 1e-14) (by norm_num)
  linarith

/-- On the later regions the curve lies below everything to the left. -/
theorem region_later {a l r m : ℝ} (ha : StrictAntiOn curve3 (Set.Icc a r)) (hal : a ≤ l)
    (hlow : ∀ z, 0 ≤ z → z < a → m ≤ curve3 z) (hl : curve3 l < m) {f z : ℝ} (hf : l ≤ f) (hf' : f ≤ r)
    (hz : 0 ≤ z) (hzf : z < f) : curve3 f < curve3 z := by
  by_cases hc : z < a
  · have := ha.antitoneOn ⟨hal, hf.trans hf'⟩ ⟨hal.trans hf, hf'⟩ hf
    linarith [hlow z hz hc]
  · exact ha ⟨not_lt.mp hc, hzf.le.trans hf'⟩ ⟨hal.trans hf, hf'⟩ hzf

/-- On the regions, up to `10⁻⁹` at their ends, the curve lies below everything to the left. -/
theorem regions3 {l r : ℝ} (h : (l, r) ∈ [((0 : ℝ), (0.0830015349 : ℝ)), (0.182228780, 0.2577623634),
    (0.4093136748, 0.4538821041), (0.6183967944, 0.6525117038), (0.8233317983, 0.8518328654)]) {f z : ℝ}
    (hf : l + 1e-9 ≤ f) (hf' : f ≤ r - 1e-9) (hz : 0 ≤ z) (hzf : z < f) : curve3 f < curve3 z := by
  simp only [List.mem_cons, Prod.mk.injEq, List.not_mem_nil, or_false] at h
  rcases h with ⟨rfl, rfl⟩ | ⟨rfl, rfl⟩ | ⟨rfl, rfl⟩ | ⟨rfl, rfl⟩ | ⟨rfl, rfl⟩
  · norm_num at hf hf'
    exact anti0 ⟨hz, by norm_num; linarith⟩ ⟨by linarith, by norm_num; linarith⟩ hzf
  · norm_num at hf hf'
    exact region_later anti1 (by norm_num) (fun z h1 h2 => low0 h1 h2)
      (curve3_lt num_l1 (by norm_num) (by norm_num)) (by norm_num; exact hf) (by norm_num; exact hf') hz hzf
  · norm_num at hf hf'
    exact region_later anti2 (by norm_num) (fun z h1 h2 => low1 h1 h2)
      (curve3_lt num_l2 (by norm_num) (by norm_num)) (by norm_num; exact hf) (by norm_num; exact hf') hz hzf
  · norm_num at hf hf'
    exact region_later anti3 (by norm_num) (fun z h1 h2 => low2 h1 h2)
      (curve3_lt num_l3 (by norm_num) (by norm_num)) (by norm_num; exact hf) (by norm_num; exact hf') hz hzf
  · norm_num at hf hf'
    exact region_later anti4 (by norm_num) (fun z h1 h2 => low3 h1 h2)
      (curve3_lt num_l4 (by norm_num) (by norm_num)) (by norm_num; exact hf) (by norm_num; exact hf') hz hzf

/-- The left end of the fourth region lies above the right end of the third one. -/
theorem ends3 : curve3 0.4538821041 < curve3 0.6183967944 :=
  (curve3_lt num_h2 (by norm_num) (b := -0.12421844440) (by norm_num)).trans
    (curve3_gt num_l3x (by norm_num) (by norm_num))

end Verif.Prob
