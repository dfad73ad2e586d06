import Verif.Props.ZDT
import Mathlib.Analysis.Real.Pi.Bounds
import Mathlib.Analysis.SpecialFunctions.Trigonometric.ArctanDeriv
import Mathlib.Analysis.Complex.Exponential
import Mathlib.Topology.Order.IntermediateValue

/-!
# How far the documented front of ZDT6 is from the attainable one

`_EPS = 1e-12` enters `g` of ZDT6 through the fourth root, so that `g` never drops below `1.009`. The first objectives of
`get_pareto_front` are all attained in the box, but the second objective lies at least `0.009` above the documented one.
-/

namespace Verif.Props

open Verif.Prob

theorem arctan_lower {t : ℝ} (ht : 0 ≤ t) : t - t ^ 3 / 3 + t ^ 5 / 5 - t ^ 7 / 7 ≤ Real.arctan t := by
  have hd : ∀ x : ℝ, HasDerivAt (fun x : ℝ => Real.arctan x - (x - x ^ 3 / 3 + x ^ 5 / 5 - x ^ 7 / 7))
      (1 / (1 + x ^ 2) - (1 - x ^ 2 + x ^ 4 - x ^ 6)) x := by
    intro x
    have h3 := ((hasDerivAt_id' x).fun_pow 3).div_const 3
    have h5 := ((hasDerivAt_id' x).fun_pow 5).div_const 5
    have h7 := ((hasDerivAt_id' x).fun_pow 7).div_const 7
    refine ((Real.hasDerivAt_arctan x).fun_sub ((((hasDerivAt_id' x).fun_sub h3).fun_add h5).fun_sub h7)).congr_deriv ?_
    norm_num
  have hm : Monotone (fun x : ℝ => Real.arctan x - (x - x ^ 3 / 3 + x ^ 5 / 5 - x ^ 7 / 7)) := by
    refine monotone_of_hasDerivAt_nonneg hd fun x => ?_
    have h1 : (0 : ℝ) < 1 + x ^ 2 := by positivity
    have : 1 / (1 + x ^ 2) - (1 - x ^ 2 + x ^ 4 - x ^ 6) = x ^ 8 / (1 + x ^ 2) := by
      field_simp
      ring
    show 0 ≤ 1 / (1 + x ^ 2) - (1 - x ^ 2 + x ^ 4 - x ^ 6)
    rw [this]
    positivity
  have := hm ht
  simp at this
  linarith

/-- The value `0.2807753191` that `get_pareto_front` starts at is not below the smallest first objective. -/
theorem zdt6f_start : ∃ x, 0 ≤ x ∧ x ≤ 1 ∧ zdt6f x ≤ 0.2807753191 := by
  have hp := Real.pi_gt_d20
  have hp' := Real.pi_lt_d20
  have hpi := Real.pi_pos
  set t : ℝ := 0.035367765 with ht
  have ha := arctan_lower (t := t) (by norm_num [ht])
  have ha1 := Real.arctan_lt_pi_div_two t
  set a := Real.arctan t with hadef
  have ha0 : 0 < a := lt_of_lt_of_le (by norm_num [ht]) ha
  refine ⟨1 / 12 - a / (6 * Real.pi), ?_, ?_, ?_⟩
  · rw [sub_nonneg, div_le_div_iff₀ (by positivity) (by norm_num)]
    nlinarith
  · have : 0 ≤ a / (6 * Real.pi) := by positivity
    linarith
  · have hs : Real.sin (6 * Real.pi * (1 / 12 - a / (6 * Real.pi))) = Real.cos a := by
      rw [← Real.sin_pi_div_two_sub]
      congr 1
      field_simp
      ring
    have hc : Real.cos a ^ 6 = (1 / (1 + t ^ 2)) ^ 3 := by
      rw [hadef, ← Real.cos_sq_arctan t]
      ring
    have he : -0.3258311875482 ≤ -4 * (1 / 12 - a / (6 * Real.pi)) := by
      have : 0.0018755364463 ≤ a / (6 * Real.pi) := by
        rw [le_div_iff₀ (by positivity)]
        refine le_trans ?_ ha
        rw [ht]
        nlinarith
      linarith
    have hexp : 0.72192704742 ≤ Real.exp (-0.3258311875482 : ℝ) := by
      have h := Real.exp_bound' (x := 0.3258311875482) (by norm_num) (by norm_num) (n := 10) (by norm_num)
      rw [Real.exp_neg, le_inv_comm₀ (by norm_num) (Real.exp_pos _)]
      refine h.trans ?_
      norm_num [Finset.sum_range_succ, Nat.factorial]
    have hexp' := hexp.trans (Real.exp_le_exp.mpr he)
    unfold zdt6f
    rw [hs, hc]
    have h3 : (0.99625673224 : ℝ) ≤ (1 / (1 + t ^ 2)) ^ 3 := by
      rw [ht]
      norm_num
    nlinarith

/-- Every value from the start of the documented front to 1 is a first objective of ZDT6. -/
theorem zdt6f_surj {f : ℝ} (h : 0.2807753191 ≤ f) (h1 : f ≤ 1) : ∃ x, 0 ≤ x ∧ x ≤ 1 ∧ zdt6f x = f := by
  obtain ⟨x, hx0, hx1, hx⟩ := zdt6f_start
  have hc : Continuous zdt6f := by
    unfold zdt6f
    fun_prop
  have h0 : zdt6f 0 = 1 := by simp [zdt6f]
  obtain ⟨y, hy, e⟩ := intermediate_value_Icc' hx0 hc.continuousOn (show f ∈ Set.Icc (zdt6f x) (zdt6f 0) from
    ⟨hx.trans h, by rw [h0]; exact h1⟩)
  exact ⟨y, hy.1, hy.2.trans hx1, e⟩

theorem zdtEps_root : zdtEps ^ (0.25 : ℝ) = 0.001 := by
  have : zdtEps = (0.001 : ℝ) ^ (4 : ℝ) := by
    rw [show (4 : ℝ) = ((4 : ℕ) : ℝ) by norm_num, Real.rpow_natCast]
    norm_num [zdtEps]
  rw [this, ← Real.rpow_mul (by norm_num)]
  norm_num

/-- The documented points `(f₁, f₂)` of ZDT6 are missed by at least `0.009` and at most `0.018`: with distance variables
zero the box contains a decision vector with first objective `f₁` and second objective between `f₂ + 0.009` and
`f₂ + 0.018`, and no decision vector in the box with first objective `f₁` does better than that one. -/
theorem C52_zdt6_gap {n k : ℕ} (hk : 1 ≤ k) {y : List ℝ} (hy : y ∈ zdtFront6 n) :
    ∃ f₁ f₂, y = [f₁, f₂] ∧ ∃ x₀ z₂, ZdtBox (x₀ :: List.replicate k 0) ∧
      zdt6 (x₀ :: List.replicate k 0) = some [f₁, z₂] ∧ f₂ + 0.009 ≤ z₂ ∧ z₂ ≤ f₂ + 0.018 ∧
      ∀ x z, ZdtBox x → zdt6 x = some [f₁, z] → z₂ ≤ z := by
  obtain ⟨f, hf, rfl⟩ := List.mem_map.mp hy
  have hf' : 0.2807753191 ≤ f ∧ f ≤ 1 := by
    obtain ⟨i, hi, rfl⟩ := List.mem_map.mp hf
    rcases Nat.eq_zero_or_pos i with rfl | hi0
    · norm_num
    have hi' : i + 1 ≤ n := List.mem_range.mp hi
    have hir : (i : ℝ) ≤ (n : ℝ) - 1 := by
      have : ((i + 1 : ℕ) : ℝ) ≤ n := by exact_mod_cast hi'
      push_cast at this
      linarith
    have hn1 : (0 : ℝ) < (n : ℝ) - 1 := by
      have : (2 : ℝ) ≤ n := by exact_mod_cast (show 2 ≤ n by omega)
      linarith
    have h0 : (0 : ℝ) ≤ i / ((n : ℝ) - 1) := by positivity
    have h1 : (i : ℝ) / ((n : ℝ) - 1) ≤ 1 := (div_le_one hn1).mpr hir
    have e : (i : ℝ) * ((1 - 0.2807753191) / ((n : ℝ) - 1)) = (1 - 0.2807753191) * (i / ((n : ℝ) - 1)) := by ring
    constructor
    · rw [e]
      nlinarith
    · rw [e]
      nlinarith
  obtain ⟨x₀, hx0, hx1, hxf⟩ := zdt6f_surj hf'.1 hf'.2
  have hm : zdtMean (List.replicate k (0 : ℝ)) = some 0 := by
    rw [zdtMean, if_neg (by rw [List.replicate_eq_nil_iff]; omega)]
    simp
  have hf0 : 0 ≤ f := le_trans (by norm_num) hf'.1
  have hff : f ^ 2 ≤ 1 := by nlinarith [hf'.2]
  refine ⟨f, 1 - f ^ 2, rfl, x₀, 1.009 * (1 - (f / 1.009) ^ 2), ⟨by simp; omega, ?_⟩, ?_, ?_, ?_, ?_⟩
  · intro z hz
    rcases List.mem_cons.mp hz with rfl | hz
    · exact ⟨hx0, hx1⟩
    · rw [List.eq_of_mem_replicate hz]
      norm_num
  · rw [zdt6, hm, Option.map_some, max_eq_right (by norm_num [zdtEps]), zdtEps_root, hxf]
    norm_num
  · have e : (1.009 : ℝ) * (1 - (f / 1.009) ^ 2) = 1.009 - f ^ 2 / 1.009 := by ring
    have : f ^ 2 / 1.009 ≤ f ^ 2 := div_le_self (sq_nonneg _) (by norm_num)
    rw [e]
    linarith
  · have e : (1.009 : ℝ) * (1 - (f / 1.009) ^ 2) = 1.009 - f ^ 2 / 1.009 := by ring
    have e2 : f ^ 2 / 1.009 = f ^ 2 * (1 / 1.009) := by ring
    have e3 : (0.991 : ℝ) ≤ 1 / 1.009 := by norm_num
    rw [e, e2]
    nlinarith [sq_nonneg f]
  · intro x z hx hz
    obtain ⟨x0, xs, m, rfl, h0, h1, hm, hm0⟩ := zdtBox_cons hx
    rw [zdt6, hm, Option.map_some, Option.some.injEq] at hz
    dsimp only at hz
    have e1 := (List.cons.inj hz).1
    have e2 := (List.cons.inj (List.cons.inj hz).2).1
    rw [e1] at e2
    have hr : (0.001 : ℝ) ≤ (max m zdtEps) ^ (0.25 : ℝ) := by
      rw [← zdtEps_root]
      exact Real.rpow_le_rpow (by norm_num [zdtEps]) (le_max_right _ _) (by norm_num)
    set g := 1 + 9 * (max m zdtEps) ^ (0.25 : ℝ) with hg
    have hg9 : (1.009 : ℝ) ≤ g := by linarith
    have hgp : 0 < g := by linarith
    have ea : g * (1 - (f / g) ^ 2) = g - f ^ 2 / g := by field_simp
    have eb : (1.009 : ℝ) * (1 - (f / 1.009) ^ 2) = 1.009 - f ^ 2 / 1.009 := by ring
    rw [← e2, ea, eb]
    have : f ^ 2 / g ≤ f ^ 2 / 1.009 := div_le_div_of_nonneg_left (sq_nonneg _) (by norm_num) hg9
    linarith

/-- Hypotheses: the last of three documented points of ZDT6. -/
example : [1, 1 - (1 : ℝ) ^ 2] ∈ zdtFront6 3 :=
  List.mem_map.mpr ⟨1, List.mem_map.mpr ⟨2, by simp, by norm_num⟩, rfl⟩

end Verif.Props
