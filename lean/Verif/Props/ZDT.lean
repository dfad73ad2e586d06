import Verif.Prob.ZDT
import Verif.Prob.Zdt3Lemmas
import Verif.Props.DTLZ

/-!
# C52: the ZDT problems
-/

namespace Verif.Props

open Verif.Prob

/-- The box of ZDT1, ZDT2, ZDT3 and ZDT6, with at least two variables. -/
def ZdtBox (x : List ℝ) : Prop := 2 ≤ x.length ∧ ∀ z ∈ x, 0 ≤ z ∧ z ≤ 1

/-- The box of ZDT4. -/
def Zdt4Box (x : List ℝ) : Prop :=
  ∃ x0 xs, x = x0 :: xs ∧ (0 ≤ x0 ∧ x0 ≤ 1) ∧ ∀ z ∈ xs, -5 ≤ z ∧ z ≤ 5

theorem zdtBox_cons {x : List ℝ} (h : ZdtBox x) : ∃ x0 xs m, x = x0 :: xs ∧ 0 ≤ x0 ∧ x0 ≤ 1 ∧
    zdtMean xs = some m ∧ 0 ≤ m := by
  obtain ⟨h1, h2⟩ := h
  match x, h1 with
  | x0 :: z :: xs, _ =>
    obtain ⟨a, b⟩ := h2 x0 (by simp)
    refine ⟨x0, z :: xs, _, rfl, a, b, by rw [zdtMean, if_neg (by simp)], ?_⟩
    refine div_nonneg (List.sum_nonneg fun y hy => (h2 y (by simp only [List.mem_cons] at hy ⊢; tauto)).1)
      (by positivity)

theorem zdtEps_sqrt : Real.sqrt zdtEps = 1e-6 := by
  rw [show zdtEps = (1e-6) ^ 2 by norm_num [zdtEps], Real.sqrt_sq (by norm_num)]

/-- With `g ≥ 1` the second objective of ZDT1 is at least the front, with the cap `_EPS`. -/
theorem zdtSqrt_ge {g x0 : ℝ} (hg : 1 ≤ g) (h0 : 0 ≤ x0) (h1 : x0 ≤ 1) :
    1 - Real.sqrt (max x0 zdtEps) ≤ zdtSqrt g x0 := by
  have hg0 : 0 < g := by linarith
  unfold zdtSqrt
  by_cases hc : x0 / g ≤ zdtEps
  · rw [max_eq_right hc, zdtEps_sqrt]
    have : (1e-6 : ℝ) ≤ Real.sqrt (max x0 zdtEps) := by
      rw [← zdtEps_sqrt]
      exact Real.sqrt_le_sqrt (le_max_right _ _)
    nlinarith
  · have hc' := not_le.mp hc
    rw [max_eq_left hc'.le]
    have hx : zdtEps ≤ x0 := hc'.le.trans (div_le_self h0 hg)
    rw [max_eq_left hx]
    have hs := Real.sqrt_nonneg x0
    have hs1 : Real.sqrt x0 ≤ 1 := Real.sqrt_le_one.mpr h1
    have hr : 1 ≤ Real.sqrt g := Real.one_le_sqrt.mpr hg
    have hd : Real.sqrt (x0 / g) = Real.sqrt x0 / Real.sqrt g := Real.sqrt_div h0 g
    have hgg : Real.sqrt g * Real.sqrt g = g := Real.mul_self_sqrt hg0.le
    have he : g * (Real.sqrt x0 / Real.sqrt g) = Real.sqrt g * Real.sqrt x0 := by
      field_simp
      nlinarith
    rw [hd, mul_sub, mul_one, he]
    nlinarith [mul_nonneg (sub_nonneg.mpr hr) (by linarith : (0 : ℝ) ≤ Real.sqrt g + 1 - Real.sqrt x0)]

theorem zdtSqrt_one {f : ℝ} (hf : zdtEps ≤ f) : zdtSqrt 1 f = 1 - Real.sqrt f := by
  unfold zdtSqrt
  rw [div_one, max_eq_left hf, one_mul]

/-- No point `(x0, y)` with `y` at least the capped front dominates a point of the front beyond the cap. -/
theorem zdt_not_dominated {x0 y f : ℝ} (hf : zdtEps < f) (hy : 1 - Real.sqrt (max x0 zdtEps) ≤ y) :
    ¬ ParetoLess [x0, y] [f, 1 - Real.sqrt f] := by
  rintro ⟨h1, h2⟩
  have h3 : x0 ≤ f ∧ y ≤ 1 - Real.sqrt f := by simpa using h1
  rcases lt_or_eq_of_le h3.1 with hlt | heq
  · have : Real.sqrt (max x0 zdtEps) < Real.sqrt f :=
      Real.sqrt_lt_sqrt ((by norm_num [zdtEps] : (0 : ℝ) ≤ zdtEps).trans (le_max_right _ _)) (max_lt hlt hf)
    linarith [h3.2]
  · subst heq
    rw [max_eq_left hf.le] at hy
    exact h2 (by rw [le_antisymm h3.2 hy])

/-- C52 for ZDT1: every front point with `f₁` beyond the cap `_EPS` is the objective vector of the decision vector
with all distance variables zero, and not dominated by any decision vector in the box. What is missing is the point
with `f₁ = 0`, see `C52_violated_zero`. -/
theorem C52_zdt1_partial {n k : ℕ} {y : List ℝ} (hy : y ∈ zdtFront1 n) {f f2 : ℝ} (hyf : y = [f, f2])
    (hf : 1e-12 < f) (hk : 1 ≤ k) : zdt1 (f :: List.replicate k 0) = some y ∧
      ∀ x z, ZdtBox x → zdt1 x = some z → ¬ ParetoLess z y := by
  obtain ⟨f', -, h⟩ := List.mem_map.mp hy
  have hff : f' = f ∧ 1 - Real.sqrt f' = f2 := by simpa [hyf] using h
  obtain ⟨rfl, rfl⟩ := hff
  rw [hyf]
  have hm : zdtMean (List.replicate k (0 : ℝ)) = some 0 := by
    rw [zdtMean, if_neg (by rw [List.replicate_eq_nil_iff]; omega)]
    simp
  constructor
  · rw [zdt1, hm, Option.map_some, mul_zero, add_zero, zdtSqrt_one hf.le]
  · intro x z hx hz
    obtain ⟨x0, xs, m, rfl, h0, h1, hm, hm0⟩ := zdtBox_cons hx
    rw [zdt1, hm, Option.map_some, Option.some.injEq] at hz
    subst hz
    exact zdt_not_dominated hf (zdtSqrt_ge (by linarith) h0 h1)

theorem zdt4g_ge (xs : List ℝ) : 1 ≤ zdt4g (xs.length + 1) xs := by
  unfold zdt4g
  have : -10 * (xs.length : ℝ) ≤ (xs.map fun z => z ^ 2 - 10 * Real.cos (4 * Real.pi * z)).sum := by
    induction xs with
    | nil => simp
    | cons a l ih =>
      simp only [List.length_cons, List.map_cons, List.sum_cons]
      push_cast
      have := Real.cos_le_one (4 * Real.pi * a)
      nlinarith [sq_nonneg a]
  push_cast
  linarith

/-- C52 for ZDT4, as for ZDT1. -/
theorem C52_zdt4_partial {n k : ℕ} {y : List ℝ} (hy : y ∈ zdtFront1 n) {f f2 : ℝ} (hyf : y = [f, f2])
    (hf : 1e-12 < f) : zdt4 (k + 1) (f :: List.replicate k 0) = some y ∧
      ∀ x z, Zdt4Box x → x.length = k + 1 → zdt4 (k + 1) x = some z → ¬ ParetoLess z y := by
  obtain ⟨f', -, h⟩ := List.mem_map.mp hy
  have hff : f' = f ∧ 1 - Real.sqrt f' = f2 := by simpa [hyf] using h
  obtain ⟨rfl, rfl⟩ := hff
  rw [hyf]
  constructor
  · have hg : zdt4g (k + 1) (List.replicate k 0) = 1 := by
      unfold zdt4g
      rw [List.map_replicate, List.sum_replicate]
      simp
      ring
    rw [zdt4, hg, zdtSqrt_one hf.le]
  · rintro x z ⟨x0, xs, rfl, ⟨h0, h1⟩, -⟩ hl hz
    rw [zdt4, Option.some.injEq] at hz
    subst hz
    have : k = xs.length := by simpa using hl.symm
    subst this
    exact zdt_not_dominated hf (zdtSqrt_ge (zdt4g_ge xs) h0 h1)

/-- C52 is violated by ZDT1, ZDT3 and ZDT4 at the first point of every documented front: the decision vector with all
variables zero has the objectives `(0, 1 - 1e-6)`, which dominate the point `(0, 1)` of the front. -/
theorem C52_violated_zero {n k : ℕ} (hn : 1 ≤ n) (hk : 1 ≤ k) :
    [0, 1] ∈ zdtFront1 n ∧ [0, 1] ∈ zdtFront3 n ∧
    zdt1 (List.replicate (k + 1) 0) = some [0, 1 - 1e-6] ∧ zdt3 (List.replicate (k + 1) 0) = some [0, 1 - 1e-6] ∧
    zdt4 (k + 1) (List.replicate (k + 1) 0) = some [0, 1 - 1e-6] ∧
    ParetoLess [0, 1 - 1e-6] [0, 1] := by
  have hm : zdtMean (List.replicate k (0 : ℝ)) = some 0 := by
    rw [zdtMean, if_neg (by rw [List.replicate_eq_nil_iff]; omega)]
    simp
  have he : max (0 : ℝ) zdtEps = zdtEps := max_eq_right (by norm_num [zdtEps])
  have hg : zdt4g (k + 1) (List.replicate k 0) = 1 := by
    unfold zdt4g
    rw [List.map_replicate, List.sum_replicate]
    simp
    ring
  refine ⟨?_, ?_, ?_, ?_, ?_, ?_, ?_⟩
  · refine List.mem_map.mpr ⟨0, List.mem_map.mpr ⟨0, List.mem_range.mpr (by omega), by simp⟩, by simp⟩
  · refine List.mem_flatMap.mpr ⟨(0, 0.0830015349), by simp [zdt3Regions], ?_⟩
    refine List.mem_map.mpr ⟨0, List.mem_map.mpr ⟨0, List.mem_range.mpr (by omega), by simp⟩, by simp⟩
  · rw [List.replicate_succ, zdt1, hm]
    simp [zdtSqrt, he, zdtEps_sqrt]
  · rw [List.replicate_succ, zdt3, hm]
    simp [he, zdtEps_sqrt]
  · rw [List.replicate_succ, zdt4, hg]
    simp [zdtSqrt, he, zdtEps_sqrt]
  · refine List.Forall₂.cons le_rfl (List.Forall₂.cons (by norm_num) List.Forall₂.nil)
  · intro h
    have := (List.cons.inj (List.cons.inj h).2).1
    norm_num at this

/-- With `g ≥ 1` the second objective of ZDT2 and ZDT6 is at least the front. -/
theorem zdtSq_ge {g f : ℝ} (hg : 1 ≤ g) : 1 - f ^ 2 ≤ g * (1 - (f / g) ^ 2) ∧
    (1 < g → 1 - f ^ 2 < g * (1 - (f / g) ^ 2)) := by
  have hg0 : 0 < g := by linarith
  have he : g * (1 - (f / g) ^ 2) - (1 - f ^ 2) = (g - 1) * (1 + f ^ 2 / g) := by
    field_simp
    ring
  have hp : 0 < 1 + f ^ 2 / g := by positivity
  constructor
  · have := mul_nonneg (sub_nonneg.mpr hg) hp.le
    linarith
  · intro h
    have := mul_pos (sub_pos.mpr h) hp
    linarith

theorem zdtSq_not_dominated {a y f : ℝ} (ha : 0 ≤ a) (hy : 1 - a ^ 2 ≤ y) :
    ¬ ParetoLess [a, y] [f, 1 - f ^ 2] := by
  rintro ⟨h1, h2⟩
  have h3 : a ≤ f ∧ y ≤ 1 - f ^ 2 := by simpa using h1
  have h4 : a ^ 2 = f ^ 2 := le_antisymm (pow_le_pow_left₀ ha h3.1 2) (by linarith [h3.2])
  have h5 : a = f := (pow_left_inj₀ ha (ha.trans h3.1) two_ne_zero).mp h4
  subst h5
  exact h2 (by rw [le_antisymm h3.2 hy])

/-- C52 for ZDT2, in full. -/
theorem C52_zdt2 {n k : ℕ} {y : List ℝ} (hy : y ∈ zdtFront2 n) (hk : 1 ≤ k) :
    (∃ f, zdt2 (f :: List.replicate k 0) = some y) ∧
      ∀ x z, ZdtBox x → zdt2 x = some z → ¬ ParetoLess z y := by
  obtain ⟨f, -, rfl⟩ := List.mem_map.mp hy
  have hm : zdtMean (List.replicate k (0 : ℝ)) = some 0 := by
    rw [zdtMean, if_neg (by rw [List.replicate_eq_nil_iff]; omega)]
    simp
  constructor
  · exact ⟨f, by rw [zdt2, hm]; simp⟩
  · intro x z hx hz
    obtain ⟨x0, xs, m, rfl, h0, h1, hm, hm0⟩ := zdtBox_cons hx
    rw [zdt2, hm, Option.map_some, Option.some.injEq] at hz
    subst hz
    exact zdtSq_not_dominated h0 (zdtSq_ge (by linarith)).1

/-- The first coordinates of the fronts are in the box. -/
theorem C52_linspace {lo hi : ℝ} (h : lo ≤ hi) {n : ℕ} : ∀ f ∈ linspace lo hi n, lo ≤ f ∧ f ≤ hi := by
  intro f hf
  obtain ⟨i, hi', rfl⟩ := List.mem_map.mp hf
  have hi' := List.mem_range.mp hi'
  have hin : (i : ℝ) ≤ (n : ℝ) - 1 := by
    have : (i : ℝ) + 1 ≤ n := by exact_mod_cast hi'
    linarith
  have hi0 : (0 : ℝ) ≤ i := by positivity
  have h0 : 0 ≤ (hi - lo) / ((n : ℝ) - 1) := div_nonneg (by linarith) (by linarith)
  refine ⟨by nlinarith [mul_nonneg hi0 h0], ?_⟩
  by_cases hz : (n : ℝ) - 1 = 0
  · rw [hz, div_zero, mul_zero, add_zero]
    exact h
  · have := mul_le_mul_of_nonneg_right hin h0
    rw [mul_div_cancel₀ _ hz] at this
    linarith

/-- ZDT3: the front points beyond the cap are attained, and the second objective of any decision vector is at least
that of the one with the same first variable and all distance variables zero. -/
theorem zdt3_reduce {k : ℕ} (hk : 1 ≤ k) : (∀ f : ℝ, 1e-12 ≤ f → zdt3 (f :: List.replicate k 0) =
      some [f, 1 - Real.sqrt f - f * Real.sin (10 * Real.pi * f)]) ∧
    ∀ x, ZdtBox x → ∃ x0 y, x.head? = some x0 ∧ 0 ≤ x0 ∧ zdt3 x = some [x0, y] ∧
      1 - Real.sqrt (max x0 1e-12) - x0 * Real.sin (10 * Real.pi * x0) ≤ y := by
  have hm : zdtMean (List.replicate k (0 : ℝ)) = some 0 := by
    rw [zdtMean, if_neg (by rw [List.replicate_eq_nil_iff]; omega)]
    simp
  constructor
  · intro f hf
    rw [zdt3, hm]
    simp [max_eq_left (show zdtEps ≤ f from hf)]
  · intro x hx
    obtain ⟨x0, xs, m, rfl, h0, h1, hm', hm0⟩ := zdtBox_cons hx
    refine ⟨x0, _, rfl, h0, by rw [zdt3, hm', Option.map_some], ?_⟩
    have h := zdtSqrt_ge (g := 1 + 9 * m) (by linarith) h0 h1
    unfold zdtSqrt at h
    have hg : (1 + 9 * m) ≠ 0 := by positivity
    have he : (1 + 9 * m) * (x0 / (1 + 9 * m) * Real.sin (10 * Real.pi * x0)) =
        x0 * Real.sin (10 * Real.pi * x0) := by
      field_simp
    rw [mul_sub (1 + 9 * m), he]
    change 1 - Real.sqrt (max x0 zdtEps) - _ ≤ _
    linarith

/-- C52 for ZDT3: every point of the documented regions is attained and not dominated by any decision vector of the
box, up to a distance of `10⁻⁹` from the ends of the regions. At the ends this is wrong (`C52_violated_zdt3`). -/
theorem C52_zdt3_partial {k : ℕ} (hk : 1 ≤ k) {r : ℝ × ℝ} (hr : r ∈ zdt3Regions) {f : ℝ} (hf : r.1 + 1e-9 ≤ f)
    (hf' : f ≤ r.2 - 1e-9) :
    zdt3 (f :: List.replicate k 0) = some [f, 1 - Real.sqrt f - f * Real.sin (10 * Real.pi * f)] ∧
    ∀ x z, ZdtBox x → zdt3 x = some z →
      ¬ ParetoLess z [f, 1 - Real.sqrt f - f * Real.sin (10 * Real.pi * f)] := by
  have hf9 : 1e-9 ≤ f := by
    have : 0 ≤ r.1 := by
      simp only [zdt3Regions, List.mem_cons, List.not_mem_nil, or_false] at hr
      rcases hr with rfl | rfl | rfl | rfl | rfl <;> norm_num
    linarith
  have hcap : (1e-12 : ℝ) ≤ f := le_trans (by norm_num) hf9
  refine ⟨(zdt3_reduce hk).1 f hcap, fun x z hx hz => ?_⟩
  obtain ⟨x0, y, -, h0, hxy, hy⟩ := (zdt3_reduce hk).2 x hx
  rw [hz, Option.some.injEq] at hxy
  subst hxy
  rintro ⟨h1, h2⟩
  have h3 : x0 ≤ f ∧ y ≤ 1 - Real.sqrt f - f * Real.sin (10 * Real.pi * f) := by simpa using h1
  rcases h3.1.lt_or_eq with hlt | heq
  · have hmain : ∀ z, 0 ≤ z → z < f → curve3 f < curve3 z := fun z hz hzf =>
      regions3 (l := r.1) (r := r.2) hr hf hf' hz hzf
    by_cases hc : (1e-12 : ℝ) ≤ x0
    · rw [max_eq_left hc] at hy
      have := hmain x0 h0 hlt
      unfold curve3 at this
      linarith [h3.2]
    · have hc' := (not_le.mp hc).le
      rw [max_eq_right hc'] at hy
      have hlt2 : (1e-12 : ℝ) < f := lt_of_lt_of_le (by norm_num) hf9
      have := hmain 1e-12 (by norm_num) hlt2
      unfold curve3 at this
      have hpi := Real.pi_pos
      have hpi4 := Real.pi_lt_four
      have hs : Real.sin (10 * Real.pi * x0) ≤ Real.sin (10 * Real.pi * 1e-12) := by
        apply Real.sin_le_sin_of_le_of_le_pi_div_two
        · nlinarith
        · nlinarith
        · nlinarith
      have hs0 : 0 ≤ Real.sin (10 * Real.pi * 1e-12) := by
        apply Real.sin_nonneg_of_nonneg_of_le_pi
        · positivity
        · nlinarith
      have hprod : x0 * Real.sin (10 * Real.pi * x0) ≤ 1e-12 * Real.sin (10 * Real.pi * 1e-12) :=
        (mul_le_mul_of_nonneg_left hs h0).trans (mul_le_mul_of_nonneg_right hc' hs0)
      linarith [h3.2]
  · subst heq
    rw [max_eq_left hcap] at hy
    exact h2 (by rw [le_antisymm h3.2 hy])

/-- C52 is violated by ZDT3 at the start of the fourth region, for every number of points: the rounded end lies too far
to the left, and the end of the third region, which a decision vector attains, dominates it. -/
theorem C52_violated_zdt3 {n k : ℕ} (hk : 1 ≤ k) : ∃ y ∈ zdtFront3 n, ∃ x z, ZdtBox x ∧ x.length = k + 1 ∧
    zdt3 x = some z ∧ ParetoLess z y ∧ y.head? = some 0.6183967944 := by
  refine ⟨[0.6183967944, curve3 0.6183967944], ?_, (0.4538821041 : ℝ) :: List.replicate k 0,
    [0.4538821041, curve3 0.4538821041], ⟨by simp; omega, ?_⟩, by simp,
    (zdt3_reduce hk).1 _ (by norm_num), ⟨?_, ?_⟩, rfl⟩
  · refine List.mem_flatMap.mpr ⟨(0.6183967944, 0.6525117038), by simp [zdt3Regions], ?_⟩
    exact List.mem_map.mpr ⟨0.6183967944, List.mem_map.mpr ⟨0, List.mem_range.mpr (by omega), by simp⟩, rfl⟩
  · intro z hz
    rcases List.mem_cons.mp hz with rfl | hz
    · norm_num
    · rw [List.eq_of_mem_replicate hz]
      norm_num
  · exact List.Forall₂.cons (by norm_num) (List.Forall₂.cons ends3.le List.Forall₂.nil)
  · intro h
    have := (List.cons.inj h).1
    norm_num at this

theorem zdt6g_gt (m : ℝ) : 1 < 1 + 9 * (max m zdtEps) ^ (0.25 : ℝ) := by
  have : 0 < (max m zdtEps) ^ (0.25 : ℝ) :=
    Real.rpow_pos_of_pos (lt_of_lt_of_le (by norm_num [zdtEps]) (le_max_right _ _)) _
  linarith

/-- C52 is violated by ZDT6: no decision vector at all attains a point of the documented front, since `_EPS` keeps
`g` above 1. -/
theorem C52_violated_zdt6 {n : ℕ} {y : List ℝ} (hy : y ∈ zdtFront6 n) (x : List ℝ) : zdt6 x ≠ some y := by
  obtain ⟨f, -, rfl⟩ := List.mem_map.mp hy
  intro h
  match x, h with
  | x0 :: xs, h =>
    rw [zdt6] at h
    obtain ⟨m, -, h⟩ := Option.map_eq_some_iff.mp h
    have h1 := (List.cons.inj h).1
    have h2 := (List.cons.inj (List.cons.inj h).2).1
    have := (zdtSq_ge (f := zdt6f x0) (zdt6g_gt m).le).2 (zdt6g_gt m)
    rw [h2, h1] at this
    exact lt_irrefl _ this

/-- The part of C52 that holds for ZDT6: no decision vector in the box dominates a point of the front. -/
theorem C52_zdt6_partial {n : ℕ} {y : List ℝ} (hy : y ∈ zdtFront6 n) :
    ∀ x z, ZdtBox x → zdt6 x = some z → ¬ ParetoLess z y := by
  obtain ⟨f, -, rfl⟩ := List.mem_map.mp hy
  intro x z hx hz
  obtain ⟨x0, xs, m, rfl, h0, h1, hm, hm0⟩ := zdtBox_cons hx
  rw [zdt6, hm, Option.map_some, Option.some.injEq] at hz
  subst hz
  refine zdtSq_not_dominated ?_ (zdtSq_ge (zdt6g_gt m).le).1
  unfold zdt6f
  have e1 : Real.exp (-4 * x0) ≤ 1 := Real.exp_le_one_iff.mpr (by linarith)
  have e0 := Real.exp_pos (-4 * x0)
  have s1 : Real.sin (6 * Real.pi * x0) ^ 6 ≤ 1 := by
    have h2 : Real.sin (6 * Real.pi * x0) ^ 2 ≤ 1 := Real.sin_sq_le_one _
    calc Real.sin (6 * Real.pi * x0) ^ 6 = (Real.sin (6 * Real.pi * x0) ^ 2) ^ 3 := by ring
      _ ≤ 1 := pow_le_one₀ (sq_nonneg _) h2
  have s0 : 0 ≤ Real.sin (6 * Real.pi * x0) ^ 6 := by positivity
  nlinarith

/-- Hypotheses: the second of three front points of ZDT1. -/
example : [1 / 2, 1 - Real.sqrt (1 / 2)] ∈ zdtFront1 3 ∧ (1e-12 : ℝ) < 1 / 2 ∧ ZdtBox [1 / 2, 1, 0] := by
  refine ⟨List.mem_map.mpr ⟨1 / 2, List.mem_map.mpr ⟨1, by simp, by norm_num⟩, rfl⟩, by norm_num, by simp, ?_⟩
  simp only [List.mem_cons, List.not_mem_nil, or_false]
  rintro z (rfl | rfl | rfl) <;> norm_num

/-- Hypotheses: a point inside the second region of ZDT3. -/
example : (0.182228780, 0.2577623634) ∈ zdt3Regions ∧ (0.182228780 : ℝ) + 1e-9 ≤ 0.2 ∧
    (0.2 : ℝ) ≤ 0.2577623634 - 1e-9 := by
  refine ⟨by simp [zdt3Regions], by norm_num, by norm_num⟩

end Verif.Props
