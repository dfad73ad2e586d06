import Verif.Prob.Misc
import Mathlib.Analysis.Convex.StdSimplex
import Mathlib.Analysis.SpecialFunctions.ExpDeriv
import Mathlib.Analysis.SpecialFunctions.Sqrt
import Mathlib.Analysis.SpecialFunctions.Exponential
import Mathlib.Analysis.Calculus.Deriv.MeanValue
import Mathlib.Topology.Order.Compact
import Mathlib.Topology.Algebra.Ring.Real
import Mathlib.Topology.Instances.Real.Lemmas
import Mathlib.Algebra.BigOperators.Fin
import Mathlib.Algebra.Order.BigOperators.Group.Finset
import Mathlib.Tactic.Linarith
import Mathlib.Tactic.LinearCombination
import Mathlib.Tactic.NormNum

/-!
# Lemmas on the problems of misc.py
-/

namespace Verif.Prob

open Real

/-! ### Nearest points of a convex hull -/

/-- The weights of convex combinations of `m` points. -/
def Weights (m : ℕ) (w : ℕ → ℝ) : Prop := (∀ j < m, 0 ≤ w j) ∧ ∑ j ∈ Finset.range m, w j = 1

/-- The combination of the points `a j` with the weights `w`. -/
noncomputable def combine (m : ℕ) (a : ℕ → ℕ → ℝ) (w : ℕ → ℝ) (i : ℕ) : ℝ := ∑ j ∈ Finset.range m, w j * a j i

theorem dist2_nonneg (n : ℕ) (x a : ℕ → ℝ) : 0 ≤ dist2 n x a := Finset.sum_nonneg fun _ _ => sq_nonneg _

theorem dist2_eq_zero {n : ℕ} {x a : ℕ → ℝ} (h : dist2 n x a ≤ 0) : ∀ i < n, x i = a i := by
  intro i hi
  have h0 : dist2 n x a = 0 := le_antisymm h (dist2_nonneg n x a)
  have := (Finset.sum_eq_zero_iff_of_nonneg fun _ _ => sq_nonneg _).mp h0 i (Finset.mem_range.mpr hi)
  have := pow_eq_zero_iff (two_ne_zero) |>.mp this
  linarith

theorem dist2_congr {n : ℕ} {x y : ℕ → ℝ} (h : ∀ i < n, x i = y i) (a : ℕ → ℝ) : dist2 n x a = dist2 n y a :=
  Finset.sum_congr rfl fun i hi => by rw [h i (Finset.mem_range.mp hi)]

/-- The weighted squared distances from the points are those from the combination up to a constant. -/
theorem sum_dist2 {n m : ℕ} {a : ℕ → ℕ → ℝ} {w : ℕ → ℝ} (hw : Weights m w) (y : ℕ → ℝ) :
    ∑ j ∈ Finset.range m, w j * dist2 n y (a j) =
      ∑ j ∈ Finset.range m, w j * dist2 n (combine m a w) (a j) + dist2 n y (combine m a w) := by
  have key : ∀ i, ∑ j ∈ Finset.range m, w j * (y i - a j i) ^ 2 =
      ∑ j ∈ Finset.range m, w j * (combine m a w i - a j i) ^ 2 + (y i - combine m a w i) ^ 2 := by
    intro i
    have e1 : ∀ c : ℝ, ∑ j ∈ Finset.range m, w j * (c - a j i) ^ 2 =
        c ^ 2 - 2 * c * combine m a w i + ∑ j ∈ Finset.range m, w j * a j i ^ 2 := by
      intro c
      have : ∑ j ∈ Finset.range m, w j * (c - a j i) ^ 2 =
          c ^ 2 * ∑ j ∈ Finset.range m, w j - 2 * c * ∑ j ∈ Finset.range m, w j * a j i +
            ∑ j ∈ Finset.range m, w j * a j i ^ 2 := by
        rw [Finset.mul_sum, Finset.mul_sum, ← Finset.sum_sub_distrib, ← Finset.sum_add_distrib]
        exact Finset.sum_congr rfl fun j _ => by ring
      rw [this, hw.2, mul_one]
      rfl
    rw [e1, e1]
    ring
  unfold dist2
  simp only [Finset.mul_sum]
  rw [Finset.sum_comm, Finset.sum_comm (s := Finset.range m) (t := Finset.range n), ← Finset.sum_add_distrib]
  exact Finset.sum_congr rfl fun i _ => key i

/-- A vector that is at least as close to all the points as a combination of them is this combination. -/
theorem combine_unique {n m : ℕ} {a : ℕ → ℕ → ℝ} {w : ℕ → ℝ} (hw : Weights m w) {y : ℕ → ℝ}
    (h : ∀ j < m, dist2 n y (a j) ≤ dist2 n (combine m a w) (a j)) : ∀ i < n, y i = combine m a w i := by
  refine dist2_eq_zero ?_
  have h1 := sum_dist2 (n := n) (a := a) hw y
  have h2 : ∑ j ∈ Finset.range m, w j * dist2 n y (a j) ≤ ∑ j ∈ Finset.range m, w j * dist2 n (combine m a w) (a j) :=
    Finset.sum_le_sum fun j hj => mul_le_mul_of_nonneg_left (h j (Finset.mem_range.mp hj)) (hw.1 j (Finset.mem_range.mp hj))
  linarith

theorem combine_bounds {m : ℕ} {a : ℕ → ℕ → ℝ} {w : ℕ → ℝ} (hw : Weights m w) {lo hi : ℝ} {i : ℕ}
    (h : ∀ j < m, lo ≤ a j i ∧ a j i ≤ hi) : lo ≤ combine m a w i ∧ combine m a w i ≤ hi := by
  have e : ∀ c : ℝ, ∑ j ∈ Finset.range m, w j * c = c := fun c => by rw [← Finset.sum_mul, hw.2, one_mul]
  unfold combine
  constructor
  · rw [← e lo]
    exact Finset.sum_le_sum fun j hj =>
      mul_le_mul_of_nonneg_left (h j (Finset.mem_range.mp hj)).1 (hw.1 j (Finset.mem_range.mp hj))
  · rw [← e hi]
    exact Finset.sum_le_sum fun j hj =>
      mul_le_mul_of_nonneg_left (h j (Finset.mem_range.mp hj)).2 (hw.1 j (Finset.mem_range.mp hj))

/-- Moving a combination towards one of the points. -/
theorem weights_move {m k : ℕ} {w : ℕ → ℝ} (hw : Weights m w) (hk : k < m) {t : ℝ} (t0 : 0 ≤ t) (t1 : t ≤ 1) :
    Weights m fun j => (1 - t) * w j + t * if j = k then 1 else 0 := by
  refine ⟨fun j hj => add_nonneg (mul_nonneg (by linarith) (hw.1 j hj)) (mul_nonneg t0 (by split <;> norm_num)), ?_⟩
  rw [Finset.sum_add_distrib, ← Finset.mul_sum, ← Finset.mul_sum, hw.2, Finset.sum_ite_eq' (Finset.range m) k,
    if_pos (Finset.mem_range.mpr hk)]
  ring

theorem combine_move {m k : ℕ} {a : ℕ → ℕ → ℝ} {w : ℕ → ℝ} (hk : k < m) (t : ℝ) (i : ℕ) :
    combine m a (fun j => (1 - t) * w j + t * if j = k then 1 else 0) i =
      combine m a w i + t * (a k i - combine m a w i) := by
  unfold combine
  have : ∀ j, ((1 - t) * w j + t * if j = k then 1 else 0) * a j i =
      (1 - t) * (w j * a j i) + t * (if j = k then a k i else 0) := fun j => by
    split
    · next h => rw [h]; ring
    · ring
  simp only [this]
  rw [Finset.sum_add_distrib, ← Finset.mul_sum, ← Finset.mul_sum, Finset.sum_ite_eq' (Finset.range m) k,
    if_pos (Finset.mem_range.mpr hk)]
  ring

/-- The nearest combination is closer to all the points, by its own distance. -/
theorem exists_nearest {n m : ℕ} (hm : 0 < m) (a : ℕ → ℕ → ℝ) (x : ℕ → ℝ) : ∃ w, Weights m w ∧
    ∀ k < m, dist2 n (combine m a w) (a k) + dist2 n x (combine m a w) ≤ dist2 n x (a k) := by
  have hmin : ∃ w, Weights m w ∧ ∀ v, Weights m v → dist2 n x (combine m a w) ≤ dist2 n x (combine m a v) := by
    have hc : Continuous fun v : Fin m → ℝ => ∑ i ∈ Finset.range n, (x i - ∑ j, v j * a j i) ^ 2 := by fun_prop
    have hne : (stdSimplex ℝ (Fin m)).Nonempty := ⟨_, single_mem_stdSimplex ℝ (⟨0, hm⟩ : Fin m)⟩
    obtain ⟨v, hv, hmin⟩ := (isCompact_stdSimplex ℝ (Fin m)).exists_isMinOn hne hc.continuousOn
    refine ⟨fun j => if h : j < m then v ⟨j, h⟩ else 0, ⟨fun j hj => ?_, ?_⟩, fun u hu => ?_⟩
    · dsimp only
      rw [dif_pos hj]
      exact hv.1 _
    · rw [Finset.sum_range]
      simpa using hv.2
    · have := hmin (a := fun j : Fin m => u j) ⟨fun j => hu.1 j j.2, by rw [← hu.2, Finset.sum_range]⟩
      have e1 : ∀ i, combine m a (fun j => if h : j < m then v ⟨j, h⟩ else 0) i = ∑ j, v j * a j i := fun i => by
        unfold combine
        rw [Finset.sum_range]
        simp
      have e2 : ∀ i, combine m a u i = ∑ j : Fin m, u j * a j i := fun i => by
        unfold combine
        rw [Finset.sum_range]
      unfold dist2
      simp only [e1, e2]
      exact this
  obtain ⟨w, hw, hmin⟩ := hmin
  refine ⟨w, hw, fun k hk => ?_⟩
  set p := combine m a w with hp
  have hexp : ∀ t, 0 ≤ t → t ≤ 1 → 0 ≤ -2 * t * ∑ i ∈ Finset.range n, (x i - p i) * (a k i - p i) + t ^ 2 * dist2 n (a k) p := by
    intro t t0 t1
    have h := hmin _ (weights_move hw hk t0 t1)
    have e : dist2 n x (combine m a fun j => (1 - t) * w j + t * if j = k then 1 else 0) =
        dist2 n x p + (-2 * t * ∑ i ∈ Finset.range n, (x i - p i) * (a k i - p i) + t ^ 2 * dist2 n (a k) p) := by
      unfold dist2
      rw [Finset.mul_sum, Finset.mul_sum, ← Finset.sum_add_distrib, ← Finset.sum_add_distrib]
      refine Finset.sum_congr rfl fun i _ => ?_
      rw [combine_move hk, ← hp]
      ring
    rw [e] at h
    linarith
  have hinner : ∑ i ∈ Finset.range n, (x i - p i) * (a k i - p i) ≤ 0 := by
    by_contra hc
    push Not at hc
    set s := ∑ i ∈ Finset.range n, (x i - p i) * (a k i - p i) with hs
    have hd := dist2_nonneg n (a k) p
    have hden : 0 < s + dist2 n (a k) p := by linarith
    have ht0 : 0 < s / (s + dist2 n (a k) p) := div_pos hc hden
    have ht1 : s / (s + dist2 n (a k) p) ≤ 1 := div_le_one_of_le₀ (by linarith) hden.le
    have h := hexp _ ht0.le ht1
    set t := s / (s + dist2 n (a k) p) with ht
    have hts : t * (s + dist2 n (a k) p) = s := div_mul_cancel₀ _ hden.ne'
    have : t * (t * dist2 n (a k) p - 2 * s) < 0 := by
      refine mul_neg_of_pos_of_neg ht0 ?_
      nlinarith
    nlinarith
  have e : dist2 n x (a k) = dist2 n x p + dist2 n p (a k) - 2 * ∑ i ∈ Finset.range n, (x i - p i) * (a k i - p i) := by
    unfold dist2
    rw [Finset.mul_sum, ← Finset.sum_add_distrib, ← Finset.sum_sub_distrib]
    exact Finset.sum_congr rfl fun i _ => by ring
  linarith

/-! ### The dent -/

/-- The first objective of DENT on the diagonal. -/
noncomputable def dentArc (d : ℝ) : ℝ := 0.5 * (1 + √(1 + d ^ 2) + d) + 0.85 * exp (-(d ^ 2))

theorem dent_poly_small {d : ℝ} (h0 : 0 ≤ d) (h1 : d ≤ 1 / 2) : 3.4 * d < (1 + d - d ^ 3 / 2) * (1 + d ^ 2 + d ^ 4 / 2) := by
  have h : ∀ i j : ℕ, 0 ≤ (2 * d) ^ i * (1 - 2 * d) ^ j := fun i j =>
    mul_nonneg (pow_nonneg (by linarith) _) (pow_nonneg (by linarith) _)
  linarith [h 0 7, h 1 6, h 2 5, h 3 4, h 4 3, h 5 2, h 6 1, h 7 0]

theorem dent_poly_large {d : ℝ} (h0 : 1 / 2 ≤ d) (h1 : d ≤ 1) : 3.4 * d < (1 + d - d ^ 3 / 2) * (1 + d ^ 2 + d ^ 4 / 2) := by
  have h : ∀ i j : ℕ, 0 ≤ (2 * d - 1) ^ i * (2 - 2 * d) ^ j := fun i j =>
    mul_nonneg (pow_nonneg (by linarith) _) (pow_nonneg (by linarith) _)
  linarith [h 0 7, h 1 6, h 2 5, h 3 4, h 4 3, h 5 2, h 6 1, h 7 0]

/-- The dent is not deep enough to break the front. -/
theorem dent_slope (d : ℝ) : 0 < 0.5 * (d / √(1 + d ^ 2) + 1) + 0.85 * (exp (-(d ^ 2)) * -(2 * d)) := by
  have hs : 0 < √(1 + d ^ 2) := sqrt_pos.mpr (by positivity)
  have hs2 := sq_sqrt (show 0 ≤ 1 + d ^ 2 by positivity)
  have he := exp_pos (-(d ^ 2))
  rcases le_or_gt d 0 with hd | hd
  · have h1 : -1 < d / √(1 + d ^ 2) := by
      rw [lt_div_iff₀ hs]
      nlinarith
    nlinarith [mul_nonneg he.le (neg_nonneg.mpr hd)]
  · have hq : 1 + d ^ 2 + d ^ 4 / 2 ≤ exp (d ^ 2) := by
      have := quadratic_le_exp_of_nonneg (sq_nonneg d)
      nlinarith
    have hpos : 0 < 1 + d ^ 2 + d ^ 4 / 2 := by positivity
    have hinv : exp (-(d ^ 2)) * (1 + d ^ 2 + d ^ 4 / 2) ≤ 1 := by
      calc exp (-(d ^ 2)) * (1 + d ^ 2 + d ^ 4 / 2) ≤ exp (-(d ^ 2)) * exp (d ^ 2) :=
            mul_le_mul_of_nonneg_left hq he.le
        _ = 1 := by rw [← exp_add]; simp
    obtain ⟨L, hL, hLp⟩ : ∃ L, L ≤ d / √(1 + d ^ 2) ∧ 3.4 * d < (1 + L) * (1 + d ^ 2 + d ^ 4 / 2) := by
      rcases le_total d 1 with h1 | h1
      · refine ⟨d - d ^ 3 / 2, ?_, ?_⟩
        · rw [le_div_iff₀ hs]
          have hle : √(1 + d ^ 2) ≤ 1 + d ^ 2 / 2 := sqrt_le_iff.mpr ⟨by positivity, by nlinarith [sq_nonneg (d ^ 2)]⟩
          have h3 : 0 ≤ d - d ^ 3 / 2 := by nlinarith [mul_nonneg hd.le (show 0 ≤ 1 - d ^ 2 by nlinarith)]
          calc (d - d ^ 3 / 2) * √(1 + d ^ 2) ≤ (d - d ^ 3 / 2) * (1 + d ^ 2 / 2) := mul_le_mul_of_nonneg_left hle h3
            _ = d - d ^ 5 / 4 := by ring
            _ ≤ d := by have := pow_pos hd 5; linarith
        · have h2 : (1 + (d - d ^ 3 / 2)) = 1 + d - d ^ 3 / 2 := by ring
          rw [h2]
          rcases le_total d (1 / 2) with h | h
          · exact dent_poly_small hd.le h
          · exact dent_poly_large h h1
      · refine ⟨0.7, ?_, ?_⟩
        · rw [le_div_iff₀ hs]
          nlinarith
        · nlinarith [sq_nonneg (d - 1), pow_pos hd 4]
    have h4 : exp (-(d ^ 2)) * (3.4 * d) < 1 + L := by
      rcases le_or_gt (1 + L) 0 with hneg | hL0
      · nlinarith [mul_nonneg (neg_nonneg.mpr hneg) hpos.le]
      · calc exp (-(d ^ 2)) * (3.4 * d) < exp (-(d ^ 2)) * ((1 + L) * (1 + d ^ 2 + d ^ 4 / 2)) :=
              mul_lt_mul_of_pos_left hLp he
          _ = (1 + L) * (exp (-(d ^ 2)) * (1 + d ^ 2 + d ^ 4 / 2)) := by ring
          _ ≤ (1 + L) * 1 := mul_le_mul_of_nonneg_left hinv hL0.le
          _ = 1 + L := mul_one _
    nlinarith

theorem dentArc_strictMono : StrictMono dentArc := by
  refine strictMono_of_hasDerivAt_pos (f' := fun d => 0.5 * (d / √(1 + d ^ 2) + 1) + 0.85 * (exp (-(d ^ 2)) * -(2 * d)))
    (fun d => ?_) dent_slope
  have hne : 1 + d ^ 2 ≠ 0 := by positivity
  have h1 : HasDerivAt (fun d : ℝ => d ^ 2) (2 * d) d := by simpa using hasDerivAt_pow 2 d
  have h2 := (h1.const_add 1).sqrt hne
  have h3 := (h1.fun_neg).exp
  have h4 := (((h2.const_add 1).add (hasDerivAt_id d)).const_mul (0.5 : ℝ)).add (h3.const_mul (0.85 : ℝ))
  refine h4.congr_deriv ?_
  field_simp

end Verif.Prob
