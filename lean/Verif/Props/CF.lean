import Verif.Prob.CFLemmas
import Verif.Props.UF
import Mathlib.Tactic.NormNum.RealSqrt

/-!
# C64: the documented fronts of the CF problems

The full statement for each problem is: the given set is the Pareto front over the feasible decision vectors, and
`get_pareto_front` returns exactly the points of it on the grid (CF9, CF10: in the random directions). The second half is
violated by CF1, CF2, CF8, CF9 and CF10, for which there is a `_partial` theorem and a witness.
-/

namespace Verif.Props

open Verif.Prob Real

/-! ## CF1 - CF3 -/

/-- The feasible decision vectors of CF1. -/
def Cf1Feasible (n : ℕ) (x : ℕ → ℝ) : Prop := UfBox n 0 1 x ∧ ∃ g, cf1G n x = some g ∧ g ≤ 0

/-- The feasible decision vectors of CF2. -/
def Cf2Feasible (n : ℕ) (x : ℕ → ℝ) : Prop := UfBox n (-1) 1 x ∧ ∃ g, cf2G n x = some g ∧ g ≤ 0

/-- The feasible decision vectors of CF3. -/
def Cf3Feasible (n : ℕ) (x : ℕ → ℝ) : Prop := UfBox n (-2) 2 x ∧ ∃ g, cf3G n x = some g ∧ g ≤ 0

theorem bound1_clip {a b : ℝ} (hab : a ≤ b) (x : ℕ → ℝ) :
    0 ≤ clip (bound1 0 a) (bound1 1 b) x 0 ∧ clip (bound1 0 a) (bound1 1 b) x 0 ≤ 1 := by
  have := clip_mem (lo := bound1 0 a) (hi := bound1 1 b) x (i := 0) (by simp [bound1])
  simpa [bound1] using this

theorem cf1_value {n : ℕ} (hn : 4 ≤ n) (x : ℕ → ℝ) :
    ∃ t a b, 0 ≤ t ∧ t ≤ 1 ∧ t ≤ a ∧ 1 - t ≤ b ∧ cf1 n x = some [a, b] := by
  have h0 := clip_mem (lo := fun _ => 0) (hi := fun _ => 1) x (i := 0) zero_le_one
  unfold cf1 cf1Raw
  generalize clip (fun _ => 0) (fun _ => 1) x = x' at h0
  obtain ⟨a, b, ha, hb, h⟩ := cf2d_ge hn
    (twiceMean_penalty fun i => sq_nonneg (x' (clamp n i) - x' 0 ^ uf3Exponent n i))
    (twiceMean_penalty fun i => sq_nonneg (x' (clamp n i) - x' 0 ^ uf3Exponent n i)) (x' 0) (1 - x' 0)
  exact ⟨x' 0, _, _, h0.1, h0.2, by linarith, by linarith, h⟩

/-- C64 for CF1: only 21 points are Pareto optimal. The front of the code contains them if they are on its grid, but its
other points are not even attained. -/
theorem C64_cf1_partial {n : ℕ} (hn : 4 ≤ n) :
    IsParetoFront (Cf1Feasible n) (cf1 n) (Graph (fun t => 1 - t) (Fractions 20)) ∧
      ∀ N : ℕ, (∀ z ∈ Graph (fun t => 1 - t) (Fractions 20),
          (∃ i < N, z.head? = some ((i : ℝ) / ((N : ℝ) - 1))) → z ∈ cf1Front N) ∧
        ∀ z ∈ cf1Front N, z ∈ Graph (fun t => 1 - t) (Fractions 20) ∨ ¬ Attains (Cf1Feasible n) (cf1 n) z := by
  have hcov : ∀ x, Cf1Feasible n x → ∀ z, cf1 n x = some z →
      ∃ t ∈ Fractions 20, ∃ a b, z = [a, b] ∧ t ≤ a ∧ 1 - t ≤ b := by
    rintro x ⟨-, g, hg, hg0⟩ z hz
    obtain ⟨t, a, b, t0, t1, ha, hb, h⟩ := cf1_value hn x
    unfold cf1G at hg
    rw [h] at hg hz
    obtain rfl := Option.some.inj hz
    have hg : 1 - a - b + |sin (10 * π * (a - b + 1))| = g := Option.some.inj hg
    obtain ⟨s, hs, h1, h2⟩ := cover_fractions (m := 20) (by norm_num) (u := a) (v := b) (by linarith) (by linarith)
      (by linarith) (by
        rw [show π * ((20 : ℕ) / 2 * (a - b + 1)) = 10 * π * (a - b + 1) by push_cast; ring]
        linarith)
    exact ⟨s, hs, a, b, rfl, h1, h2⟩
  refine ⟨isParetoFront_graph (one_sub_anti _) ?_ hcov, fun N => ⟨?_, ?_⟩⟩
  · rintro t ⟨i, hi, rfl⟩
    have hi' : (i : ℝ) ≤ 20 := by exact_mod_cast hi
    set t : ℝ := (i : ℝ) / (20 : ℕ) with ht
    have t0 : 0 ≤ t := by positivity
    have t1 : t ≤ 1 := by
      rw [ht]
      push_cast
      linarith
    have hb : ∀ j, 1 ≤ j → 0 ≤ vec n t (fun i => t ^ uf3Exponent n i) j ∧ vec n t (fun i => t ^ uf3Exponent n i) j ≤ 1 :=
      vec_bounds fun i hi => ⟨rpow_nonneg t0 _, rpow_le_one t0 t1 (uf3Exponent_nonneg (by omega) hi)⟩
    have hobj : cf1 n (vec n t fun i => t ^ uf3Exponent n i) = some [t, 1 - t] := by
      unfold cf1
      rw [clip_eq fun j => by
        rcases Nat.eq_zero_or_pos j with rfl | hj
        · rw [vec_zero]
          exact ⟨t0, t1⟩
        · exact hb j hj]
      unfold cf1Raw
      rw [cf2d_eq hn, vec_zero]
      · exact twiceMean_vanishes fun i hi => by rw [vec_clamp1 hi, vec_zero]; ring
      · exact twiceMean_vanishes fun i hi => by rw [vec_clamp2 (by omega) hi, vec_zero]; ring
    refine ⟨_, ⟨⟨by rw [vec_zero]; exact ⟨t0, t1⟩, fun j h1 _ => hb j h1⟩, 0, ?_, le_rfl⟩, hobj⟩
    unfold cf1G
    rw [hobj]
    change some (1 - t - (1 - t) + |sin (10 * π * (t - (1 - t) + 1))|) = some 0
    rw [Option.some.injEq, show 10 * π * (t - (1 - t) + 1) = (i : ℕ) * π by
      rw [ht]
      push_cast
      ring, sin_nat_mul_pi]
    simp
  · rintro z ⟨t, -, rfl⟩ ⟨i, hi, e⟩
    exact List.mem_map.mpr ⟨t, mem_linspace.mpr ⟨i, hi, by simpa using e⟩, rfl⟩
  · intro z hz
    obtain ⟨t, ht, rfl⟩ := List.mem_map.mp hz
    by_contra hc
    push Not at hc
    obtain ⟨h1, x, hx, h2⟩ := hc
    obtain ⟨s, hs, a, b, e, h3, h4⟩ := hcov x hx _ h2
    obtain ⟨rfl, rfl⟩ : t = a ∧ 1 - t = b := by simpa using e
    exact h1 ⟨s, hs, by rw [show s = t by linarith]⟩

/-- C64 is violated by CF1: with the default number of points the front contains a vector that no feasible decision vector
attains. -/
theorem C64_violated_cf1 {n : ℕ} (hn : 4 ≤ n) : ∃ z ∈ cf1Front 1000, ¬ Attains (Cf1Feasible n) (cf1 n) z := by
  have hz : [(1 : ℝ) / 999, 1 - 1 / 999] ∈ cf1Front 1000 :=
    List.mem_map.mpr ⟨1 / 999, mem_linspace.mpr ⟨1, by norm_num, by norm_num⟩, rfl⟩
  refine ⟨_, hz, ((C64_cf1_partial hn).2 1000).2 _ hz |>.resolve_left ?_⟩
  rintro ⟨t, ⟨i, -, rfl⟩, e⟩
  have e : (1 : ℝ) / 999 = (i : ℝ) / (20 : ℕ) := by
    have := congrArg List.head? e
    simpa using this
  field_simp at e
  have : 20 = 999 * i := by exact_mod_cast e
  omega

/-- The arguments of the front of CF2. -/
def Cf2Kept : Set ℝ := {t | t = 0 ∨ (1 / 16 ≤ t ∧ t ≤ 1 / 4) ∨ (9 / 16 ≤ t ∧ t ≤ 1)}

theorem cf2Kept_sq {s : ℝ} (h : s ∈ Intervals) : s ^ 2 ∈ Cf2Kept := by
  rcases h with rfl | ⟨h1, h2⟩ | ⟨h1, h2⟩
  · left
    norm_num
  · right; left
    constructor <;> nlinarith
  · right; right
    constructor <;> nlinarith

theorem cf2Kept_sqrt {t : ℝ} (h : t ∈ Cf2Kept) : √t ∈ Intervals := by
  rcases h with rfl | ⟨h1, h2⟩ | ⟨h1, h2⟩
  · left
    norm_num
  · right; left
    exact ⟨le_sqrt_of_sq_le (by norm_num; linarith), sqrt_le_iff.mpr ⟨by norm_num, by norm_num; linarith⟩⟩
  · right; right
    exact ⟨le_sqrt_of_sq_le (by norm_num; linarith), sqrt_le_iff.mpr ⟨by norm_num, by norm_num; linarith⟩⟩

theorem cf2Kept_icc {t : ℝ} (h : t ∈ Cf2Kept) : t ∈ Set.Icc (0 : ℝ) 1 := by
  rcases h with rfl | ⟨h1, h2⟩ | ⟨h1, h2⟩
  · norm_num
  · exact ⟨by linarith, by linarith⟩
  · exact ⟨by linarith, by linarith⟩

theorem cf2_value {n : ℕ} (hn : 4 ≤ n) (x : ℕ → ℝ) :
    ∃ t a b, 0 ≤ t ∧ t ≤ 1 ∧ t ≤ a ∧ 1 - √t ≤ b ∧ cf2 n x = some [a, b] := by
  have h0 := clip_mem (lo := bound1 0 (-1)) (hi := fun _ => 1) x (i := 0) (by simp [bound1])
  unfold cf2 cf2Raw
  generalize clip (bound1 0 (-1)) (fun _ => 1) x = x' at h0
  obtain ⟨a, b, ha, hb, h⟩ := cf2d_ge hn
    (twiceMean_penalty fun i => sq_nonneg (x' (clamp n i) - sin (6 * π * x' 0 + (i + 1 : ℕ) * π / n)))
    (twiceMean_penalty fun i => sq_nonneg (x' (clamp n i) - cos (6 * π * x' 0 + (i + 1 : ℕ) * π / n)))
    (x' 0) (1 - √(x' 0))
  exact ⟨x' 0, _, _, by simpa [bound1] using h0.1, h0.2, by linarith, by linarith, h⟩

/-- C64 for CF2: the Pareto front; the front of the code contains the points of it on the grid except `(0, 1)`. -/
theorem C64_cf2_partial {n : ℕ} (hn : 4 ≤ n) :
    IsParetoFront (Cf2Feasible n) (cf2 n) (Graph (fun t => 1 - √t) Cf2Kept) ∧
      ∀ N, Samples {z | z ∈ Graph (fun t => 1 - √t) Cf2Kept ∧ z ≠ [0, 1]} N (cf2Front N) := by
  refine ⟨isParetoFront_graph (one_sub_sqrt_anti.mono fun t => cf2Kept_icc) (fun t ht => ?_) ?_, fun N z => ?_⟩
  · obtain ⟨t0, t1⟩ := cf2Kept_icc ht
    set v : ℕ → ℝ := fun i => if i % 2 = 0 then sin (6 * π * t + (i + 1 : ℕ) * π / n)
      else cos (6 * π * t + (i + 1 : ℕ) * π / n) with hv
    have hb : ∀ j, 1 ≤ j → -1 ≤ vec n t v j ∧ vec n t v j ≤ 1 := vec_bounds fun i _ => by
      rw [hv]
      dsimp only
      split
      · exact ⟨neg_one_le_sin _, sin_le_one _⟩
      · exact ⟨neg_one_le_cos _, cos_le_one _⟩
    have hobj : cf2 n (vec n t v) = some [t, 1 - √t] := by
      unfold cf2
      rw [clip_eq fun j => by
        rcases Nat.eq_zero_or_pos j with rfl | hj
        · rw [vec_zero]
          exact ⟨by simpa [bound1] using t0, t1⟩
        · have : bound1 0 (-1) j = -1 := if_neg (by omega)
          rw [this]
          exact hb j hj]
      unfold cf2Raw
      rw [cf2d_eq hn, vec_zero]
      · exact twiceMean_vanishes fun i hi => by
          rw [vec_clamp1 hi, vec_zero, hv]
          dsimp only
          rw [if_pos hi.2.2]
          ring
      · exact twiceMean_vanishes fun i hi => by
          rw [vec_clamp2 (by omega) hi, vec_zero, hv]
          dsimp only
          rw [if_neg (by have := hi.2.2; omega)]
          ring
    refine ⟨_, ⟨⟨by rw [vec_zero]; exact ⟨t0, t1⟩, fun j h1 _ => hb j h1⟩,
      damped (1 - √t + √t - sin (2 * π * (√t - (1 - √t) + 1)) - 1), ?_, ?_⟩, hobj⟩
    · unfold cf2G
      rw [hobj]
      rfl
    · rw [damped_nonpos, show 2 * π * (√t - (1 - √t) + 1) = 4 * π * √t by ring]
      linarith [sin_intervals (cf2Kept_sqrt ht)]
  · rintro x ⟨-, g, hg, hg0⟩ z hz
    obtain ⟨t, a, b, t0, t1, ha, hb, h⟩ := cf2_value hn x
    unfold cf2G at hg
    rw [h] at hg hz
    obtain rfl := Option.some.inj hz
    have hg : damped (b + √a - sin (2 * π * (√a - b + 1)) - 1) = g := Option.some.inj hg
    rw [← hg, damped_nonpos] at hg0
    have hs := sqrt_le_sqrt ha
    have h1 : √t ≤ 1 := sqrt_le_one.mpr t1
    obtain ⟨s, hs, h1, h2⟩ := cover_intervals (u := √a) (v := b) (sqrt_nonneg a) (by linarith) (by linarith) (by linarith)
    have hs0 : 0 ≤ s := by
      rcases hs with rfl | h | h
      · exact le_rfl
      · linarith
      · linarith
    refine ⟨s ^ 2, cf2Kept_sq hs, a, b, rfl, ?_, by rw [sqrt_sq hs0]; exact h2⟩
    rw [← sq_sqrt (t0.trans ha)]
    exact pow_le_pow_left₀ hs0 h1 2
  · unfold cf2Front
    constructor
    · intro hz
      obtain ⟨t, ht, rfl⟩ := List.mem_map.mp hz
      obtain ⟨h1, h2⟩ := List.mem_filter.mp ht
      obtain ⟨i, hi, e⟩ := mem_linspace.mp h1
      have h2 : (1 / 16 ≤ t ∧ t ≤ 4 / 16) ∨ (9 / 16 ≤ t ∧ t ≤ 1) := by simpa using h2
      refine ⟨⟨⟨t, ?_, rfl⟩, ?_⟩, i, hi, by simp [e]⟩
      · rcases h2 with h2 | h2
        · exact Or.inr (Or.inl ⟨h2.1, by linarith [h2.2]⟩)
        · exact Or.inr (Or.inr h2)
      · intro he
        have : t = 0 := by
          have := congrArg List.head? he
          simpa using this
        rcases h2 with h2 | h2 <;> linarith [h2.1]
    · rintro ⟨⟨⟨t, ht, rfl⟩, hne⟩, i, hi, e⟩
      refine List.mem_map.mpr ⟨t, List.mem_filter.mpr ⟨mem_linspace.mpr ⟨i, hi, by simpa using e⟩, ?_⟩, rfl⟩
      have : (1 / 16 ≤ t ∧ t ≤ 4 / 16) ∨ (9 / 16 ≤ t ∧ t ≤ 1) := by
        rcases ht with rfl | h | h
        · simp at hne
        · exact Or.inl ⟨h.1, by linarith [h.2]⟩
        · exact Or.inr h
      simpa using this

/-- C64 is violated by CF2: `(0, 1)` is Pareto optimal and on every grid, and missing in the front of the code. -/
theorem C64_violated_cf2 {n : ℕ} (hn : 4 ≤ n) : Attains (Cf2Feasible n) (cf2 n) [0, 1] ∧
    (∀ w, Attains (Cf2Feasible n) (cf2 n) w → ¬ ParetoLess w [0, 1]) ∧ ∀ N, [0, 1] ∉ cf2Front N := by
  have h : [0, 1] ∈ Graph (fun t => 1 - √t) Cf2Kept := ⟨0, Or.inl rfl, by simp⟩
  obtain ⟨h1, h2⟩ := ((C64_cf2_partial hn).1 _).mp h
  exact ⟨h1, h2, fun N hc => (((C64_cf2_partial hn).2 N _).mp hc).1.2 rfl⟩

/-- The arguments of the front of CF3. -/
def Cf3Kept : Set ℝ := {t | t = 0 ∨ (1 / 2 ≤ t ∧ t ≤ √(1 / 2)) ∨ (√(3 / 4) ≤ t ∧ t ≤ 1)}

theorem cf3Kept_icc {t : ℝ} (h : t ∈ Cf3Kept) : t ∈ Set.Icc (0 : ℝ) 1 := by
  rcases h with rfl | ⟨h1, h2⟩ | ⟨h1, h2⟩
  · norm_num
  · exact ⟨by linarith, h2.trans (sqrt_le_one.mpr (by norm_num))⟩
  · exact ⟨(sqrt_nonneg _).trans h1, h2⟩

theorem cf3Kept_sq {t : ℝ} (h : t ∈ Cf3Kept) : t ^ 2 ∈ Intervals := by
  have h0 := (cf3Kept_icc h).1
  rcases h with rfl | ⟨h1, h2⟩ | ⟨h1, h2⟩
  · left
    norm_num
  · right; left
    exact ⟨by nlinarith, (le_sqrt h0 (by norm_num)).mp h2⟩
  · right; right
    exact ⟨(sqrt_le_left h0).mp h1, by nlinarith⟩

theorem cf3Kept_sqrt {s : ℝ} (h : s ∈ Intervals) : √s ∈ Cf3Kept := by
  rcases h with rfl | ⟨h1, h2⟩ | ⟨h1, h2⟩
  · left
    norm_num
  · right; left
    exact ⟨le_sqrt_of_sq_le (by norm_num; linarith), sqrt_le_sqrt h2⟩
  · right; right
    exact ⟨sqrt_le_sqrt h1, sqrt_le_one.mpr h2⟩

theorem cf3_value {n : ℕ} (hn : 4 ≤ n) (x : ℕ → ℝ) :
    ∃ t a b, 0 ≤ t ∧ t ≤ 1 ∧ t ≤ a ∧ 1 - t ^ 2 ≤ b ∧ cf3 n x = some [a, b] := by
  have h0 := bound1_clip (a := -2) (b := 2) (by norm_num) x
  unfold cf3 cf3Raw
  generalize clip (bound1 0 (-2)) (bound1 1 2) x = x' at h0
  obtain ⟨a, b, ha, hb, h⟩ := cf2d_ge hn (productPenalty_penalty fun i => sineY n x' (clamp n i))
    (productPenalty_penalty fun i => sineY n x' (clamp n i)) (x' 0) (1 - x' 0 ^ 2)
  exact ⟨x' 0, _, _, h0.1, h0.2, by linarith, by linarith, h⟩

theorem sineVector_bound1 {n : ℕ} {t : ℝ} (ht : t ∈ Set.Icc (0 : ℝ) 1) (i : ℕ) :
    bound1 0 (-2) i ≤ sineVector n t i ∧ sineVector n t i ≤ bound1 1 2 i := by
  unfold bound1
  rcases Nat.eq_zero_or_pos i with rfl | hi
  · rw [sineVector_zero, if_pos rfl, if_pos rfl]
    exact ht
  · rw [if_neg (by omega), if_neg (by omega), sineVector, withFirst_pos hi]
    have h1 := neg_one_le_sin (6 * π * t + (i + 1 : ℕ) * π / n)
    have h2 := sin_le_one (6 * π * t + (i + 1 : ℕ) * π / n)
    constructor <;> linarith

theorem cf3_one_sub_sq_anti : StrictAntiOn (fun t : ℝ => 1 - t ^ 2) Cf3Kept := one_sub_sq_anti.mono fun _ => cf3Kept_icc

/-- C64 for CF3. -/
theorem C64_cf3 {n : ℕ} (hn : 4 ≤ n) : IsParetoFront (Cf3Feasible n) (cf3 n) (Graph (fun t => 1 - t ^ 2) Cf3Kept) ∧
    ∀ N, Samples (Graph (fun t => 1 - t ^ 2) Cf3Kept) N (cf3Front N) := by
  refine ⟨isParetoFront_graph cf3_one_sub_sq_anti (fun t ht => ?_) ?_, fun N z => ?_⟩
  · have hobj : cf3 n (sineVector n t) = some [t, 1 - t ^ 2] := by
      unfold cf3
      rw [clip_eq (sineVector_bound1 (cf3Kept_icc ht))]
      unfold cf3Raw
      have hc : ∀ i, 1 ≤ i → 1 ≤ clamp n i := fun i hi => by
        unfold clamp
        omega
      rw [cf2d_eq hn, sineVector_zero]
      · exact productPenalty_vanishes fun i hi => sineY_sineVector (hc i (by have := hi.1; omega))
      · exact productPenalty_vanishes fun i hi => sineY_sineVector (hc i hi.1)
    refine ⟨_, ⟨sineVector_box (cf3Kept_icc ht) (by norm_num) (by norm_num),
      1 - (1 - t ^ 2) - t ^ 2 + sin (2 * π * (t ^ 2 - (1 - t ^ 2) + 1)), ?_, ?_⟩, hobj⟩
    · unfold cf3G
      rw [hobj]
      rfl
    · rw [show 2 * π * (t ^ 2 - (1 - t ^ 2) + 1) = 4 * π * t ^ 2 by ring]
      linarith [sin_intervals (cf3Kept_sq ht)]
  · rintro x ⟨-, g, hg, hg0⟩ z hz
    obtain ⟨t, a, b, t0, t1, ha, hb, h⟩ := cf3_value hn x
    unfold cf3G at hg
    rw [h] at hg hz
    obtain rfl := Option.some.inj hz
    have hg : 1 - b - a ^ 2 + sin (2 * π * (a ^ 2 - b + 1)) = g := Option.some.inj hg
    obtain ⟨s, hs, h1, h2⟩ := cover_intervals (u := a ^ 2) (v := b) (by positivity) (by nlinarith) (by nlinarith)
      (by linarith)
    refine ⟨√s, cf3Kept_sqrt hs, a, b, rfl, ?_, ?_⟩
    · exact sqrt_le_iff.mpr ⟨t0.trans ha, h1⟩
    · have hs0 : 0 ≤ s := by
        rcases hs with rfl | h | h
        · exact le_rfl
        · linarith
        · linarith
      rw [sq_sqrt hs0]
      exact h2
  · unfold cf3Front
    have hk : ∀ t, t ∈ Cf3Kept ↔ t ∈ Set.Icc (0 : ℝ) 1 ∧
        ¬ ((0 < t ∧ t < 1 / 2) ∨ (√(1 / 2) < t ∧ t < √(3 / 4))) := by
      intro t
      have r1 : (1 : ℝ) / 2 ≤ √(1 / 2) := le_sqrt_of_sq_le (by norm_num)
      have r2 : √(1 / 2 : ℝ) ≤ √(3 / 4) := sqrt_le_sqrt (by norm_num)
      refine ⟨fun h => ⟨cf3Kept_icc h, ?_⟩, ?_⟩
      · rcases h with rfl | ⟨h1, h2⟩ | ⟨h1, h2⟩
        · rintro (h | h)
          · exact lt_irrefl _ h.1
          · linarith [h.1]
        · rintro (h | h)
          · linarith [h.2]
          · linarith [h.1]
        · rintro (h | h)
          · linarith [h.2]
          · linarith [h.2]
      · rintro ⟨⟨h0, h1⟩, h2⟩
        rw [not_or, not_and_or, not_and_or, not_lt, not_lt, not_lt, not_lt] at h2
        rcases h2.1 with h | h
        · exact Or.inl (le_antisymm h h0)
        · rcases h2.2 with h' | h'
          · exact Or.inr (Or.inl ⟨h, h'⟩)
          · exact Or.inr (Or.inr ⟨h', h1⟩)
    constructor
    · intro hz
      obtain ⟨t, ht, rfl⟩ := List.mem_map.mp hz
      obtain ⟨h1, h2⟩ := List.mem_filter.mp ht
      obtain ⟨i, hi, e⟩ := mem_linspace.mp h1
      exact ⟨⟨t, (hk t).mpr ⟨linspace_mem h1, of_decide_eq_true h2⟩, rfl⟩, i, hi, by simp [e]⟩
    · rintro ⟨⟨t, ht, rfl⟩, i, hi, e⟩
      exact List.mem_map.mpr ⟨t, List.mem_filter.mpr ⟨mem_linspace.mpr ⟨i, hi, by simpa using e⟩,
        decide_eq_true ((hk t).mp ht).2⟩, rfl⟩

/-! ## CF4 and CF5 -/

/-- The feasible decision vectors of CF4. -/
def Cf4Feasible (n : ℕ) (x : ℕ → ℝ) : Prop := UfBox n (-2) 2 x ∧ cf4G n x ≤ 0

/-- The feasible decision vectors of CF5. -/
def Cf5Feasible (n : ℕ) (x : ℕ → ℝ) : Prop := UfBox n (-2) 2 x ∧ cf5G n x ≤ 0

open Classical in
/-- The three segments of the front of CF4 and CF5. -/
noncomputable def segments (t : ℝ) : ℝ := if t ≤ 1 / 2 then 1 - t else if t ≤ 3 / 4 then 3 / 4 - t / 2 else 9 / 8 - t

theorem segments_anti : StrictAntiOn segments (Set.Icc 0 1) := by
  intro s _ t _ hst
  unfold segments
  split_ifs <;> linarith

/-- The front of CF4 and CF5 is the lower envelope that the constraint leaves. -/
theorem segments_eq (t : ℝ) : segments t = 1 - t + max 0 (min (t / 2 - 1 / 4) (1 / 8)) := by
  unfold segments
  split_ifs with h1 h2
  · rw [max_eq_left ((min_le_left _ _).trans (by linarith)), add_zero]
  · rw [min_eq_left (by linarith), max_eq_right (by linarith)]
    ring
  · rw [min_eq_right (by linarith), max_eq_right (by norm_num)]
    ring

theorem threshold_gt : 1 / 4 < cfThreshold := by
  unfold cfThreshold
  have : √(1 / 2 : ℝ) < 3 / 4 := (sqrt_lt' (by norm_num)).mpr (by norm_num)
  linarith

theorem threshold_lt : cfThreshold < 1 := by
  unfold cfThreshold
  have : (1 / 2 : ℝ) < √(1 / 2) := lt_sqrt_of_sq_lt (by norm_num)
  linarith

theorem cf4h_nonneg (n : ℕ) (x : ℕ → ℝ) (i : ℕ) : 0 ≤ cf4h n x i := by
  unfold cf4h
  split_ifs
  · exact abs_nonneg _
  · norm_num
  · exact sq_nonneg _

theorem envelope_le {t y h : ℝ} (hy : t / 2 - 1 / 4 ≤ y) (hh : h = |y| ∨ 1 / 8 ≤ h) (h0 : 0 ≤ h) :
    max 0 (min (t / 2 - 1 / 4) (1 / 8)) ≤ h := by
  refine max_le h0 ?_
  rcases hh with rfl | hh
  · exact (min_le_left _ _).trans (hy.trans (le_abs_self y))
  · exact (min_le_right _ _).trans hh

/-- An offset of the second variable that attains the front: it is feasible and small. -/
theorem envelope_offset (above : ℝ) (h1 : cfThreshold ≤ above) (h2 : above ≤ 1) {t : ℝ} (ht : t ∈ Set.Icc (0 : ℝ) 1) :
    ∃ y, t / 2 - 1 / 4 ≤ y ∧ 0 ≤ y ∧ y ≤ 1 ∧ ((y < cfThreshold ∧ |y| = max 0 (min (t / 2 - 1 / 4) (1 / 8))) ∨
      (y = above ∧ 1 / 8 = max 0 (min (t / 2 - 1 / 4) (1 / 8)))) := by
  have h3 := threshold_gt
  rcases le_or_gt t (3 / 4) with h | h
  · refine ⟨max 0 (t / 2 - 1 / 4), le_max_right _ _, le_max_left _ _, max_le zero_le_one (by linarith), Or.inl ⟨?_, ?_⟩⟩
    · exact max_lt (by linarith) (by linarith)
    · rw [abs_of_nonneg (le_max_left _ _), min_eq_left (by linarith)]
  · refine ⟨above, by linarith [ht.2], by linarith, h2, Or.inr ⟨rfl, ?_⟩⟩
    rw [min_eq_right (by linarith), max_eq_right (by norm_num)]

theorem ufBox_clip {n : ℕ} {x : ℕ → ℝ} (hx : UfBox n (-2) 2 x) {i : ℕ} (hi : i < n) :
    clip (bound1 0 (-2)) (bound1 1 2) x i = x i := by
  rcases Nat.eq_zero_or_pos i with rfl | h
  · exact clip_apply (by simpa [bound1] using hx.1.1) (by simpa [bound1] using hx.1.2)
  · have := hx.2 i h hi
    have e1 : bound1 0 (-2) i = -2 := if_neg (by omega)
    have e2 : bound1 1 2 i = 2 := if_neg (by omega)
    exact clip_apply (by rw [e1]; exact this.1) (by rw [e2]; exact this.2)

theorem cf4Front_samples (N : ℕ) : Samples (Graph segments (Set.Icc 0 1)) N (cf4Front N) := by
  have : cf4Front N = ufFront segments N := by
    unfold cf4Front ufFront
    refine List.map_congr_left fun f _ => ?_
    unfold segments
    split_ifs <;> first | rfl | (exfalso; simp_all; linarith) | (norm_num at *; first | linarith | skip)
  rw [this]
  exact ufFront_samples _ N

/-- C64 for CF4. -/
theorem C64_cf4 {n : ℕ} (hn : 2 ≤ n) : IsParetoFront (Cf4Feasible n) (cf4 n) (Graph segments (Set.Icc 0 1)) ∧
    ∀ N, Samples (Graph segments (Set.Icc 0 1)) N (cf4Front N) := by
  obtain ⟨J, hJ, hJm⟩ := cfGroups2_cons (n := n) (by omega)
  have hc1 : clamp n 1 = 1 := by
    unfold clamp
    omega
  refine ⟨isParetoFront_graph segments_anti (fun t ht => ?_) ?_, cf4Front_samples⟩
  · obtain ⟨y, y1, y2, y3, y4⟩ := envelope_offset cfThreshold le_rfl threshold_lt.le ht
    set x : ℕ → ℝ := fun i => sineVector n t i + if i = 1 then y else 0 with hx
    have x0 : x 0 = t := by simp [hx, sineVector_zero]
    have hY1 : sineY n x 1 = y := by
      have := sineY_sineVector (n := n) (t := t) (i := 1) le_rfl
      unfold sineY at this ⊢
      rw [x0]
      rw [sineVector_zero] at this
      simp only [hx, if_pos]
      linarith
    have hY : ∀ i, 2 ≤ i → sineY n x i = 0 := fun i hi => by
      have := sineY_sineVector (n := n) (t := t) (i := i) (by omega)
      unfold sineY at this ⊢
      rw [x0]
      rw [sineVector_zero] at this
      simp only [hx]
      rw [if_neg (by omega)]
      linarith
    have hb : ∀ i, bound1 0 (-2) i ≤ x i ∧ x i ≤ bound1 1 2 i := fun i => by
      rcases Nat.eq_zero_or_pos i with rfl | hi
      · rw [x0]
        simpa [bound1] using ht
      · have e1 : bound1 0 (-2) i = -2 := if_neg (by omega)
        have e2 : bound1 1 2 i = 2 := if_neg (by omega)
        rw [e1, e2]
        simp only [hx, sineVector, withFirst_pos hi]
        have h1 := neg_one_le_sin (6 * π * t + (i + 1 : ℕ) * π / n)
        have h2 := sin_le_one (6 * π * t + (i + 1 : ℕ) * π / n)
        split <;> constructor <;> linarith
    have hh : ∀ i, 2 ≤ i → cf4h n x i = 0 := fun i hi => by
      unfold cf4h
      rw [if_neg (by omega), hY i hi]
      norm_num
    have hobj : cf4 n x = some [t, segments t] := by
      unfold cf4
      rw [clip_eq hb]
      unfold cf4Raw
      rw [hJ, groupSum_cons, groupSum_zero, groupSum_zero, x0, hc1, segments_eq]
      · unfold cf4h
        rw [if_pos rfl, hY1]
        rcases y4 with ⟨k1, k2⟩ | ⟨k1, k2⟩
        · rw [if_pos k1, k2, add_zero, add_zero]
        · rw [if_neg (by linarith), ← k2, add_zero, add_zero]
          norm_num
      · intro i hi
        have := hJm i hi
        refine hh _ ?_
        unfold clamp
        omega
      · intro i hi
        have := mem_cfGroups1.mp hi
        unfold In1 at this
        refine hh _ ?_
        unfold clamp
        omega
    refine ⟨x, ⟨⟨by rw [x0]; exact ht, fun i h1 _ => ?_⟩, ?_⟩, hobj⟩
    · have := hb i
      rwa [bound1, bound1, if_neg (by omega), if_neg (by omega)] at this
    · unfold cf4G
      rw [damped_nonpos]
      unfold sineY at hY1
      rw [x0, show ((1 + 1 : ℕ) : ℝ) * π / n = 2 * π / n by norm_num] at hY1
      rw [x0]
      linarith
  · rintro x ⟨hx, hg⟩ z hz
    unfold cf4G at hg
    rw [damped_nonpos] at hg
    unfold cf4 at hz
    rw [← ufBox_clip hx (i := 0) (by omega), ← ufBox_clip hx (i := 1) (by omega)] at hg
    have h0 := bound1_clip (a := -2) (b := 2) (by norm_num) x
    generalize clip (bound1 0 (-2)) (bound1 1 2) x = x' at hz hg h0
    unfold cf4Raw at hz
    rw [hJ, groupSum_cons, hc1] at hz
    obtain rfl := Option.some.inj hz
    have p1 := groupSum_nonneg (fun i => cf4h_nonneg n x' (clamp n i)) (cfGroups n).1
    have p2 := groupSum_nonneg (fun i => cf4h_nonneg n x' (clamp n i)) J
    refine ⟨x' 0, h0, _, _, rfl, by linarith, ?_⟩
    have hY : x' 0 / 2 - 1 / 4 ≤ sineY n x' 1 := by
      unfold sineY
      rw [show ((1 + 1 : ℕ) : ℝ) * π / n = 2 * π / n by norm_num]
      linarith
    have := envelope_le hY (h := cf4h n x' 1) (by
      unfold cf4h
      rw [if_pos rfl]
      split
      · exact Or.inl rfl
      · right
        norm_num) (cf4h_nonneg n x' 1)
    rw [segments_eq]
    linarith

theorem cf5h3_nonneg (y : ℝ) : 0 ≤ cf5h3 y := by
  unfold cf5h3
  split
  · exact abs_nonneg _
  · nlinarith [sq_nonneg (y - 1)]

/-- The vector of `scaledY = 0`, up to offsets of some variables. -/
noncomputable def scaledVector (n : ℕ) (t : ℝ) (offset : ℕ → ℝ) : ℕ → ℝ :=
  vec n t fun i => 0.8 * t * (if i % 2 = 0 then cos (6 * π * t + (i + 1 : ℕ) * π / n)
    else sin (6 * π * t + (i + 1 : ℕ) * π / n)) + offset i

theorem scaledY_even {n i : ℕ} {t : ℝ} {o : ℕ → ℝ} (h : In1 n i) : scaledY cos n (scaledVector n t o) i = o i := by
  unfold scaledY scaledVector
  rw [vec_clamp1 h, vec_zero, if_pos h.2.2]
  ring

theorem scaledY_odd {n i : ℕ} {t : ℝ} {o : ℕ → ℝ} (hn : 2 ≤ n) (h : In2 n i) :
    scaledY sin n (scaledVector n t o) i = o i := by
  unfold scaledY scaledVector
  rw [vec_clamp2 hn h, vec_zero, if_neg (by have := h.2.2; omega)]
  ring

theorem scaledVector_box {n : ℕ} {t : ℝ} {o : ℕ → ℝ} (ht : t ∈ Set.Icc (0 : ℝ) 1) (ho : ∀ i, 0 ≤ o i ∧ o i ≤ 1) :
    UfBox n (-2) 2 (scaledVector n t o) := by
  refine ⟨by rw [scaledVector, vec_zero]; exact ht, fun i hi _ => ?_⟩
  refine vec_bounds (fun j _ => ?_) i hi
  have : ∀ c : ℝ, -1 ≤ c → c ≤ 1 → -2 ≤ 0.8 * t * c + o j ∧ 0.8 * t * c + o j ≤ 2 := fun c h1 h2 => by
    have := ho j
    constructor <;> nlinarith [ht.1, ht.2]
  split
  · exact this _ (neg_one_le_cos _) (cos_le_one _)
  · exact this _ (neg_one_le_sin _) (sin_le_one _)

theorem uf5h_zero : uf5h 0 = 0 := by simp [uf5h]

/-- C64 for CF5. -/
theorem C64_cf5 {n : ℕ} (hn : 2 ≤ n) : IsParetoFront (Cf5Feasible n) (cf5 n) (Graph segments (Set.Icc 0 1)) ∧
    ∀ N, Samples (Graph segments (Set.Icc 0 1)) N (cf4Front N) := by
  obtain ⟨J, hJ, hJm⟩ := cfGroups2_cons (n := n) (by omega)
  have hc1 : clamp n 1 = 1 := by
    unfold clamp
    omega
  have hin : In2 n 1 := ⟨le_rfl, by omega, rfl⟩
  have hval : ∀ x, cf5 n x = some [x 0 + groupSum (fun i => uf5h (scaledY cos n x i)) (cfGroups n).1,
      1 - x 0 + groupSum (fun i => uf5h (scaledY sin n x i)) J + cf5h3 (scaledY sin n x 1)] := fun x => by
    unfold cf5
    rw [hJ]
  refine ⟨isParetoFront_graph segments_anti (fun t ht => ?_) ?_, cf4Front_samples⟩
  · obtain ⟨y, y1, y2, y3, y4⟩ := envelope_offset 1 threshold_lt.le le_rfl ht
    set o : ℕ → ℝ := fun i => if i = 1 then y else 0 with ho
    have hY1 : scaledY sin n (scaledVector n t o) 1 = y := by rw [scaledY_odd hn hin, ho]; simp
    have x0 : scaledVector n t o 0 = t := vec_zero _ _ _
    refine ⟨scaledVector n t o, ⟨scaledVector_box ht fun i => ?_, ?_⟩, ?_⟩
    · rw [ho]
      dsimp only
      split
      · exact ⟨y2, y3⟩
      · norm_num
    · unfold cf5G
      unfold scaledY at hY1
      rw [hc1, x0, show ((1 + 1 : ℕ) : ℝ) * π / n = 2 * π / n by norm_num] at hY1
      rw [x0]
      linarith
    · rw [hval, x0, hY1, groupSum_zero, groupSum_zero, segments_eq]
      · unfold cf5h3
        rcases y4 with ⟨k1, k2⟩ | ⟨k1, k2⟩
        · rw [if_pos k1, k2, add_zero, add_zero]
        · rw [if_neg (by rw [k1]; exact not_lt.mpr threshold_lt.le), ← k2, k1, add_zero, add_zero]
          norm_num
      · intro i hi
        have := hJm i hi
        rw [scaledY_odd hn ⟨by omega, this.2.1, this.2.2⟩, ho]
        dsimp only
        rw [if_neg (by omega), uf5h_zero]
      · intro i hi
        have h := mem_cfGroups1.mp hi
        rw [scaledY_even h, ho]
        dsimp only
        rw [if_neg (by have := h.1; omega), uf5h_zero]
  · rintro x ⟨hx, hg⟩ z hz
    unfold cf5G at hg
    rw [hval] at hz
    obtain rfl := Option.some.inj hz
    have p1 := groupSum_nonneg (fun i => uf5h_nonneg (scaledY cos n x i)) (cfGroups n).1
    have p2 := groupSum_nonneg (fun i => uf5h_nonneg (scaledY sin n x i)) J
    refine ⟨x 0, hx.1, _, _, rfl, by linarith, ?_⟩
    have hY : x 0 / 2 - 1 / 4 ≤ scaledY sin n x 1 := by
      unfold scaledY
      rw [hc1, show ((1 + 1 : ℕ) : ℝ) * π / n = 2 * π / n by norm_num]
      linarith
    have := envelope_le hY (h := cf5h3 (scaledY sin n x 1)) (by
      unfold cf5h3
      split
      · exact Or.inl rfl
      · right
        nlinarith [sq_nonneg (scaledY sin n x 1 - 1)]) (cf5h3_nonneg _)
    rw [segments_eq]
    linarith

/-! ## CF6 and CF7 -/

/-- The feasible decision vectors of CF6. -/
def Cf6Feasible (n : ℕ) (x : ℕ → ℝ) : Prop := UfBox n (-2) 2 x ∧ ∀ g ∈ cf6G n x, g ≤ 0

/-- The feasible decision vectors of CF7. -/
def Cf7Feasible (n : ℕ) (x : ℕ → ℝ) : Prop := UfBox n (-2) 2 x ∧ ∀ g ∈ cf7G n x, g ≤ 0

open Classical in
/-- The three arcs of the front of CF6 and CF7. -/
noncomputable def arcs (t : ℝ) : ℝ :=
  if t ≤ 1 / 2 then (1 - t) ^ 2 else if t ≤ 3 / 4 then (1 - t) / 2 else √(1 - t) / 4

theorem sqrt_lt_half {t : ℝ} (h : 3 / 4 < t) : √(1 - t) < 1 / 2 := (sqrt_lt' (by norm_num)).mpr (by linarith)

theorem arcs_anti : StrictAntiOn arcs (Set.Icc 0 1) := by
  intro s hs t ht hst
  unfold arcs
  have h1 := hs.1
  have h2 := ht.2
  split_ifs with a1 a2 a3 a4 a5 a6 a7 a8 <;> try linarith
  all_goals first
    | nlinarith
    | (have := sqrt_lt_half (t := t) (by linarith); nlinarith)
    | (have := sqrt_lt_sqrt (show 0 ≤ 1 - t by linarith) (show 1 - t < 1 - s by linarith); linarith)

/-- The terms that the two constraints add. -/
noncomputable def lift1 (t : ℝ) : ℝ := max (0.5 * (1 - t) - (1 - t) ^ 2) 0

noncomputable def lift2 (t : ℝ) : ℝ := max (0.25 * √(1 - t) - 0.5 * (1 - t)) 0

theorem arcs_eq {t : ℝ} (ht : t ∈ Set.Icc (0 : ℝ) 1) : arcs t = (1 - t) ^ 2 + lift1 t + lift2 t := by
  obtain ⟨t0, t1⟩ := ht
  unfold arcs lift1 lift2
  have hr := sq_sqrt (show 0 ≤ 1 - t by linarith)
  have hr0 := sqrt_nonneg (1 - t)
  by_cases h2 : t ≤ 3 / 4
  · have hge : 1 / 2 ≤ √(1 - t) := le_sqrt_of_sq_le (by norm_num; linarith)
    have e2 : max (0.25 * √(1 - t) - 0.5 * (1 - t)) 0 = 0 := max_eq_right (by nlinarith)
    rw [e2]
    by_cases h1 : t ≤ 1 / 2
    · rw [if_pos h1, max_eq_right (by nlinarith), add_zero, add_zero]
    · rw [if_neg h1, if_pos h2, max_eq_left (by nlinarith)]
      ring
  · have hlt := sqrt_lt_half (not_le.mp h2)
    rw [if_neg (by linarith), if_neg h2, max_eq_left (by nlinarith), max_eq_left (by nlinarith)]
    ring

theorem lift1_le {t : ℝ} (ht : t ∈ Set.Icc (0 : ℝ) 1) : lift1 t ≤ 1 := by
  refine max_le ?_ zero_le_one
  nlinarith [ht.1, ht.2]

theorem lift2_le {t : ℝ} (ht : t ∈ Set.Icc (0 : ℝ) 1) : lift2 t ≤ 1 := by
  refine max_le ?_ zero_le_one
  have : √(1 - t) ≤ 1 := sqrt_le_one.mpr (by linarith [ht.1])
  nlinarith [ht.1, ht.2]

/-- The offsets of the two constrained variables. -/
noncomputable def lifts (t : ℝ) (i : ℕ) : ℝ := if i = 1 then √(lift1 t) else if i = 3 then √(lift2 t) else 0

theorem lifts_bounds {t : ℝ} (ht : t ∈ Set.Icc (0 : ℝ) 1) (i : ℕ) : 0 ≤ lifts t i ∧ lifts t i ≤ 1 := by
  unfold lifts
  split_ifs
  · exact ⟨sqrt_nonneg _, sqrt_le_one.mpr (lift1_le ht)⟩
  · exact ⟨sqrt_nonneg _, sqrt_le_one.mpr (lift2_le ht)⟩
  · norm_num

theorem lifts_one (t : ℝ) : lifts t 1 ^ 2 = lift1 t := by
  unfold lifts
  rw [if_pos rfl]
  exact sq_sqrt (le_max_right _ _)

theorem lifts_three (t : ℝ) : lifts t 3 ^ 2 = lift2 t := by
  unfold lifts
  rw [if_neg (by omega), if_pos rfl]
  exact sq_sqrt (le_max_right _ _)

theorem lifts_other (t : ℝ) {i : ℕ} (h1 : i ≠ 1) (h3 : i ≠ 3) : lifts t i = 0 := by
  unfold lifts
  rw [if_neg h1, if_neg h3]

theorem cf6Front_samples (N : ℕ) : Samples (Graph arcs (Set.Icc 0 1)) N (cf6Front N) := by
  have : cf6Front N = ufFront arcs N := by
    unfold cf6Front ufFront
    refine List.map_congr_left fun f _ => ?_
    unfold arcs
    by_cases h2 : f ≤ 3 / 4
    · rw [if_neg (by norm_num; linarith)]
      by_cases h1 : f ≤ 1 / 2
      · rw [if_neg (by norm_num; intro h; linarith), if_pos h1]
      · rw [if_pos ⟨by norm_num; linarith, by norm_num; linarith⟩, if_neg h1, if_pos h2]
        norm_num
        ring
    · rw [if_pos (by norm_num; linarith), if_neg (by linarith), if_neg h2]
      norm_num
      ring
  rw [this]
  exact ufFront_samples _ N

/-- What the constraints of CF6 and CF7 mean for the shifted variables. -/
theorem cf6Constraints_iff {n : ℕ} {c : ℝ} {x : ℕ → ℝ} : (∀ g ∈ cf6Constraints n c x, g ≤ 0) ↔
    signedSqrt (0.5 * (1 - x 0) - (1 - x 0) ^ 2) ≤
        x (clamp n 1) - c * sin (6 * π * x 0 + (1 + 1 : ℕ) * π / n) ∧
      signedSqrt (0.25 * √(1 - x 0) - 0.5 * (1 - x 0)) ≤
        x (clamp n 3) - c * sin (6 * π * x 0 + (3 + 1 : ℕ) * π / n) := by
  unfold cf6Constraints
  rw [List.forall_mem_cons, List.forall_mem_cons]
  simp only [List.not_mem_nil, false_imp_iff, implies_true, and_true]
  norm_num
  constructor
  · rintro ⟨h1, h2⟩
    constructor <;> linarith
  · rintro ⟨h1, h2⟩
    constructor <;> linarith

/-- C64 for CF6. -/
theorem C64_cf6 {n : ℕ} (hn : 4 ≤ n) : IsParetoFront (Cf6Feasible n) (cf6 n) (Graph arcs (Set.Icc 0 1)) ∧
    ∀ N, Samples (Graph arcs (Set.Icc 0 1)) N (cf6Front N) := by
  obtain ⟨J, hJ, hJm⟩ := cfGroups2_cons₂ (n := n) (by omega)
  have i1 : In2 n 1 := ⟨le_rfl, by omega, rfl⟩
  have i3 : In2 n 3 := ⟨by omega, by omega, rfl⟩
  refine ⟨isParetoFront_graph arcs_anti (fun t ht => ?_) ?_, cf6Front_samples⟩
  · have x0 : scaledVector n t (lifts t) 0 = t := vec_zero _ _ _
    have y1 := scaledY_odd (t := t) (o := lifts t) (by omega) i1
    have y3 := scaledY_odd (t := t) (o := lifts t) (by omega) i3
    refine ⟨scaledVector n t (lifts t), ⟨scaledVector_box ht (lifts_bounds ht), ?_⟩, ?_⟩
    · unfold cf6G
      rw [cf6Constraints_iff]
      unfold scaledY at y1 y3
      rw [y1, y3, x0]
      unfold lifts
      rw [if_pos rfl, if_neg (by omega), if_pos rfl]
      exact ⟨signedSqrt_le _, signedSqrt_le _⟩
    · unfold cf6
      rw [hJ, groupSum_cons, groupSum_cons, groupSum_zero, groupSum_zero, x0, y1, y3, lifts_one, lifts_three, arcs_eq ht]
      · ring_nf
      · intro i hi
        have := hJm i hi
        rw [scaledY_odd (by omega) ⟨by omega, this.2.1, this.2.2⟩, lifts_other t (by omega) (by omega)]
        norm_num
      · intro i hi
        have h := mem_cfGroups1.mp hi
        have h' := h
        unfold In1 at h'
        rw [scaledY_even h, lifts_other t (by omega) (by omega)]
        norm_num
  · rintro x ⟨hx, hg⟩ z hz
    unfold cf6G at hg
    rw [cf6Constraints_iff] at hg
    have g1 := signedSqrt_sq hg.1
    have g3 := signedSqrt_sq hg.2
    unfold cf6 at hz
    rw [hJ, groupSum_cons, groupSum_cons] at hz
    obtain rfl := Option.some.inj hz
    have p1 := groupSum_nonneg (fun i => sq_nonneg (scaledY cos n x i)) (cfGroups n).1
    have p2 := groupSum_nonneg (fun i => sq_nonneg (scaledY sin n x i)) J
    refine ⟨x 0, hx.1, _, _, rfl, by linarith, ?_⟩
    rw [arcs_eq hx.1]
    have e1 : lift1 (x 0) ≤ scaledY sin n x 1 ^ 2 := g1
    have e3 : lift2 (x 0) ≤ scaledY sin n x 3 ^ 2 := g3
    linarith

/-- The vector of `plainY = 0`, up to offsets of some variables. -/
noncomputable def plainVector (n : ℕ) (t : ℝ) (offset : ℕ → ℝ) : ℕ → ℝ :=
  vec n t fun i => (if i % 2 = 0 then cos (6 * π * t + (i + 1 : ℕ) * π / n)
    else sin (6 * π * t + (i + 1 : ℕ) * π / n)) + offset i

theorem plainY_even {n i : ℕ} {t : ℝ} {o : ℕ → ℝ} (h : In1 n i) : plainY cos n (plainVector n t o) i = o i := by
  unfold plainY plainVector
  rw [vec_clamp1 h, vec_zero, if_pos h.2.2]
  ring

theorem plainY_odd {n i : ℕ} {t : ℝ} {o : ℕ → ℝ} (hn : 2 ≤ n) (h : In2 n i) :
    plainY sin n (plainVector n t o) i = o i := by
  unfold plainY plainVector
  rw [vec_clamp2 hn h, vec_zero, if_neg (by have := h.2.2; omega)]
  ring

theorem plainVector_box {n : ℕ} {t : ℝ} {o : ℕ → ℝ} (ht : t ∈ Set.Icc (0 : ℝ) 1) (ho : ∀ i, 0 ≤ o i ∧ o i ≤ 1) :
    UfBox n (-2) 2 (plainVector n t o) := by
  refine ⟨by rw [plainVector, vec_zero]; exact ht, fun i hi _ => ?_⟩
  refine vec_bounds (fun j _ => ?_) i hi
  have := ho j
  split
  · constructor <;> linarith [neg_one_le_cos (6 * π * t + (j + 1 : ℕ) * π / n), cos_le_one (6 * π * t + (j + 1 : ℕ) * π / n)]
  · constructor <;> linarith [neg_one_le_sin (6 * π * t + (j + 1 : ℕ) * π / n), sin_le_one (6 * π * t + (j + 1 : ℕ) * π / n)]

/-- C64 for CF7. -/
theorem C64_cf7 {n : ℕ} (hn : 4 ≤ n) : IsParetoFront (Cf7Feasible n) (cf7 n) (Graph arcs (Set.Icc 0 1)) ∧
    ∀ N, Samples (Graph arcs (Set.Icc 0 1)) N (cf6Front N) := by
  obtain ⟨J, hJ, hJm⟩ := cfGroups2_cons₂ (n := n) (by omega)
  have i1 : In2 n 1 := ⟨le_rfl, by omega, rfl⟩
  have i3 : In2 n 3 := ⟨by omega, by omega, rfl⟩
  have hval : ∀ x, cf7 n x = some [x 0 + groupSum (fun i => uf5h (plainY cos n x i)) (cfGroups n).1,
      (1 - x 0) ^ 2 + groupSum (fun i => uf5h (plainY sin n x i)) J +
        (plainY sin n x 1 ^ 2 + plainY sin n x 3 ^ 2)] := fun x => by
    unfold cf7
    rw [hJ]
    simp [groupSum]
  refine ⟨isParetoFront_graph arcs_anti (fun t ht => ?_) ?_, cf6Front_samples⟩
  · have x0 : plainVector n t (lifts t) 0 = t := vec_zero _ _ _
    have y1 := plainY_odd (t := t) (o := lifts t) (by omega) i1
    have y3 := plainY_odd (t := t) (o := lifts t) (by omega) i3
    refine ⟨plainVector n t (lifts t), ⟨plainVector_box ht (lifts_bounds ht), ?_⟩, ?_⟩
    · unfold cf7G
      rw [cf6Constraints_iff, one_mul, one_mul]
      unfold plainY at y1 y3
      rw [y1, y3, x0]
      unfold lifts
      rw [if_pos rfl, if_neg (by omega), if_pos rfl]
      exact ⟨signedSqrt_le _, signedSqrt_le _⟩
    · rw [hval, groupSum_zero, groupSum_zero, x0, y1, y3, lifts_one, lifts_three, arcs_eq ht]
      · ring_nf
      · intro i hi
        have := hJm i hi
        rw [plainY_odd (by omega) ⟨by omega, this.2.1, this.2.2⟩, lifts_other t (by omega) (by omega), uf5h_zero]
      · intro i hi
        have h := mem_cfGroups1.mp hi
        have h' := h
        unfold In1 at h'
        rw [plainY_even h, lifts_other t (by omega) (by omega), uf5h_zero]
  · rintro x ⟨hx, hg⟩ z hz
    unfold cf7G at hg
    rw [cf6Constraints_iff, one_mul, one_mul] at hg
    have g1 := signedSqrt_sq hg.1
    have g3 := signedSqrt_sq hg.2
    rw [hval] at hz
    obtain rfl := Option.some.inj hz
    have p1 := groupSum_nonneg (fun i => uf5h_nonneg (plainY cos n x i)) (cfGroups n).1
    have p2 := groupSum_nonneg (fun i => uf5h_nonneg (plainY sin n x i)) J
    refine ⟨x 0, hx.1, _, _, rfl, by linarith, ?_⟩
    rw [arcs_eq hx.1]
    have e1 : lift1 (x 0) ≤ plainY sin n x 1 ^ 2 := g1
    have e3 : lift2 (x 0) ≤ plainY sin n x 3 ^ 2 := g3
    linarith

/-! ## CF8 - CF10 -/

/-- The feasible decision vectors of CF8. -/
def Cf8Feasible (n : ℕ) (x : ℕ → ℝ) : Prop := UfBox3 n (-4) 4 x ∧ ∃ g, cf8G n x = some g ∧ g ≤ 0

/-- The feasible decision vectors of CF9. -/
def Cf9Feasible (n : ℕ) (x : ℕ → ℝ) : Prop := UfBox3 n (-2) 2 x ∧ ∃ g, cf9G n x = some g ∧ g ≤ 0

/-- The feasible decision vectors of CF10. -/
def Cf10Feasible (n : ℕ) (x : ℕ → ℝ) : Prop := UfBox3 n (-2) 2 x ∧ ∃ g, cf10G n x = some g ∧ g ≤ 0

/-- The part of the sphere below the pole where the squares of the first two coordinates are in the ratios `a : 1 - a`. -/
def Ring (K : Set ℝ) : Set (List ℝ) :=
  {z | ∃ a ∈ K, ∃ c : ℝ, 0 ≤ c ∧ c < 1 ∧ z = [√(a * (1 - c ^ 2)), √((1 - a) * (1 - c ^ 2)), c]}

theorem ring_sphere {K : Set ℝ} (hK : K ⊆ Set.Icc 0 1) : Ring K ⊆ Sphere := by
  rintro z ⟨a, ha, c, c0, c1, rfl⟩
  have h := hK ha
  have hr : 0 ≤ 1 - c ^ 2 := by nlinarith
  refine ⟨_, _, _, sqrt_nonneg _, sqrt_nonneg _, c0, ?_, rfl⟩
  rw [sq_sqrt (mul_nonneg h.1 hr), sq_sqrt (mul_nonneg (by linarith [h.2]) hr)]
  ring

theorem ringConstraint_ring {wave : ℝ → ℝ} {a c : ℝ} (ha : a ∈ Set.Icc (0 : ℝ) 1) (c0 : 0 ≤ c) (c1 : c < 1) :
    ringConstraint wave [√(a * (1 - c ^ 2)), √((1 - a) * (1 - c ^ 2)), c] = some (wave (2 * π * (2 * a))) := by
  have hr : 0 < 1 - c ^ 2 := by nlinarith
  unfold ringConstraint
  dsimp only
  rw [if_neg hr.ne', sq_sqrt (mul_nonneg ha.1 hr.le), sq_sqrt (mul_nonneg (by linarith [ha.2]) hr.le)]
  congr 1
  rw [← add_mul, ← sub_mul, mul_div_cancel_right₀ _ hr.ne', mul_div_cancel_right₀ _ hr.ne']
  ring_nf

/-- The front of a problem over the sphere with a constraint of the form of CF8 to CF10. -/
theorem ring_front {K : Set ℝ} {wave : ℝ → ℝ} {box : (ℕ → ℝ) → Prop} {obj : (ℕ → ℝ) → Option (List ℝ)}
    {g : (ℕ → ℝ) → Option ℝ} (hg : ∀ x, g x = (obj x).bind (ringConstraint wave))
    (hK : K ⊆ Set.Icc 0 1) (h0 : 0 ∈ K) (h1 : 1 ∈ K) (hw : ∀ a ∈ K, wave (2 * π * (2 * a)) ≤ 0)
    (hw1 : wave (2 * π) = 0)
    (hcov : ∀ u v, 0 ≤ u → 0 ≤ v → 1 ≤ u + v → wave (2 * π * (u - v + 1)) ≤ u + v - 1 → ∃ t ∈ K, t ≤ u ∧ 1 - t ≤ v)
    (hatt : ∀ z ∈ Sphere, Attains box obj z)
    (hval : ∀ x, box x → ∀ z, obj x = some z → ∃ y ∈ Sphere, List.Forall₂ (· ≤ ·) y z) :
    IsParetoFront (fun x => box x ∧ ∃ v, g x = some v ∧ v ≤ 0) obj (Ring K) := by
  refine isParetoFront_of ?_ ?_ fun y hy z hz => sphere_antichain y (ring_sphere hK hy) z (ring_sphere hK hz)
  · intro z hz
    obtain ⟨x, hx, h⟩ := hatt z (ring_sphere hK hz)
    obtain ⟨a, ha, c, c0, c1, rfl⟩ := hz
    refine ⟨x, ⟨hx, wave (2 * π * (2 * a)), ?_, hw a ha⟩, h⟩
    rw [hg, h, Option.bind_some, ringConstraint_ring (hK ha) c0 c1]
  · rintro x ⟨hx, v, hv, hv0⟩ z hz
    obtain ⟨y, ⟨p, q, r, hp, hq, hr, hs, rfl⟩, hy⟩ := hval x hx z hz
    obtain ⟨A, B, C, rfl⟩ : ∃ A B C, z = [A, B, C] := List.length_eq_three.mp (by rw [← hy.length_eq]; rfl)
    obtain ⟨hA, hB, hC⟩ : p ≤ A ∧ q ≤ B ∧ r ≤ C := by simpa using hy
    rw [hg, hz, Option.bind_some] at hv
    unfold ringConstraint at hv
    dsimp only at hv
    have hne : ¬ 1 - C ^ 2 = 0 := fun h => by rw [if_pos h] at hv; exact absurd hv (by simp)
    rw [if_neg hne, Option.some.injEq] at hv
    rcases lt_or_ge C 1 with hC1 | hC1
    · have hpos : 0 < 1 - C ^ 2 := by nlinarith
      have hsum : 1 ≤ A ^ 2 / (1 - C ^ 2) + B ^ 2 / (1 - C ^ 2) := by
        rw [← add_div, le_div_iff₀ hpos]
        nlinarith
      obtain ⟨t, ht, t1, t2⟩ := hcov (A ^ 2 / (1 - C ^ 2)) (B ^ 2 / (1 - C ^ 2)) (div_nonneg (sq_nonneg _) hpos.le)
        (div_nonneg (sq_nonneg _) hpos.le) hsum (by rw [← sub_div, ← add_div]; linarith)
      rw [le_div_iff₀ hpos] at t1 t2
      refine ⟨_, ⟨t, ht, C, hr.trans hC, hC1, rfl⟩, ?_⟩
      simp only [List.forall₂_cons, List.forall₂_nil_left_iff, and_true, le_refl]
      exact ⟨sqrt_le_iff.mpr ⟨hp.trans hA, t1⟩, sqrt_le_iff.mpr ⟨hq.trans hB, t2⟩⟩
    · have hA0 : 0 ≤ A := hp.trans hA
      have hB0 : 0 ≤ B := hq.trans hB
      have key : ∀ D : ℝ, 0 < D → ∃ c, 0 ≤ c ∧ c < 1 ∧ √(1 - c ^ 2) ≤ D := fun D hD => by
        have hm : 0 < min D 1 := lt_min hD one_pos
        have hm1 : min D 1 ≤ 1 := min_le_right _ _
        refine ⟨√(1 - min D 1 ^ 2), sqrt_nonneg _, (sqrt_lt' one_pos).mpr (by nlinarith), ?_⟩
        rw [sq_sqrt (by nlinarith)]
        refine (sqrt_le_left hm.le).mpr ?_ |>.trans (min_le_left _ _)
        linarith
      have hor : 0 < A ∨ 0 < B := by
        by_contra hc
        push Not at hc
        obtain rfl : A = 0 := le_antisymm hc.1 hA0
        obtain rfl : B = 0 := le_antisymm hc.2 hB0
        norm_num [hw1] at hv
        linarith
      rcases hor with h | h
      · obtain ⟨c, c0, c1, c2⟩ := key A h
        refine ⟨_, ⟨1, h1, c, c0, c1, rfl⟩, ?_⟩
        simpa using ⟨c2, hB0, c1.le.trans hC1⟩
      · obtain ⟨c, c0, c1, c2⟩ := key B h
        refine ⟨_, ⟨0, h0, c, c0, c1, rfl⟩, ?_⟩
        simpa using ⟨hA0, c2, c1.le.trans hC1⟩

theorem sineVector3_bound2 {n : ℕ} {s t lo hi : ℝ} (hs : s ∈ Set.Icc (0 : ℝ) 1) (ht : t ∈ Set.Icc (0 : ℝ) 1)
    (hlo : lo ≤ -2) (hhi : 2 ≤ hi) (i : ℕ) :
    bound2 0 lo i ≤ sineVector3 n s t i ∧ sineVector3 n s t i ≤ bound2 1 hi i := by
  have h := sineVector3_box (n := i + 1) hs ht hlo hhi
  unfold bound2
  by_cases hi2 : i < 2
  · rw [if_pos hi2, if_pos hi2]
    interval_cases i
    · simpa [sineVector3] using hs
    · simpa [sineVector3] using ht
  · rw [if_neg hi2, if_neg hi2]
    unfold sineVector3
    rw [if_neg (by omega), if_neg (by omega)]
    have h1 := neg_one_le_sin (2 * π * s + (i + 1 : ℕ) * π / n)
    have h2 := sin_le_one (2 * π * s + (i + 1 : ℕ) * π / n)
    constructor <;> nlinarith [ht.1, ht.2]

theorem uf8_clip_attains {n : ℕ} {lo hi : ℝ} (hn : 5 ≤ n) (hlo : lo ≤ -2) (hhi : 2 ≤ hi) :
    ∀ z ∈ Sphere, Attains (UfBox3 n lo hi) (fun x => uf8 n (clip (bound2 0 lo) (bound2 1 hi) x)) z := by
  rintro z ⟨a, b, c, ha, hb, hc, hs, rfl⟩
  obtain ⟨s, t, s0, s1, t0, t1, rfl, rfl, rfl⟩ := sphere_angles ha hb hc hs
  refine ⟨sineVector3 n s t, sineVector3_box ⟨s0, s1⟩ ⟨t0, t1⟩ hlo hhi, ?_⟩
  dsimp only
  rw [clip_eq (sineVector3_bound2 ⟨s0, s1⟩ ⟨t0, t1⟩ hlo hhi)]
  unfold uf8
  rw [uf3d_eq hn (twiceMean_vanishes fun i hi => by rw [uf3dY_sineVector3 hi.1]; norm_num)]
  simp [sineVector3]

theorem uf8_clip_covered {n : ℕ} {lo hi : ℝ} (hn : 5 ≤ n) (x : ℕ → ℝ) (z : List ℝ)
    (hz : uf8 n (clip (bound2 0 lo) (bound2 1 hi) x) = some z) : ∃ y ∈ Sphere, List.Forall₂ (· ≤ ·) y z := by
  have h0 := clip_mem (lo := bound2 0 lo) (hi := bound2 1 hi) x (i := 0) (by simp [bound2])
  have h1 := clip_mem (lo := bound2 0 lo) (hi := bound2 1 hi) x (i := 1) (by simp [bound2])
  generalize clip (bound2 0 lo) (bound2 1 hi) x = x' at hz h0 h1
  unfold uf8 at hz
  obtain ⟨a, b, c, ha, hb, hc, h⟩ := uf3d_ge hn (twiceMean_penalty fun i => sq_nonneg (uf3dY n x' i))
    (cos (0.5 * π * x' 0) * cos (0.5 * π * x' 1)) (cos (0.5 * π * x' 0) * sin (0.5 * π * x' 1)) (sin (0.5 * π * x' 0))
  rw [h, Option.some.injEq] at hz
  refine ⟨_, angles_sphere (by simpa [bound2] using h0) (by simpa [bound2] using h1), ?_⟩
  rw [← hz]
  simp [ha, hb, hc]

theorem fractions_icc {m : ℕ} : Fractions m ⊆ Set.Icc 0 1 := by
  rintro t ⟨i, hi, rfl⟩
  have : (i : ℝ) ≤ m := by exact_mod_cast hi
  exact ⟨by positivity, div_le_one_of_le₀ this (by positivity)⟩

theorem intervals_icc : Intervals ⊆ Set.Icc 0 1 := by
  rintro t (rfl | h | h)
  · norm_num
  · exact ⟨by linarith [h.1], by linarith [h.2]⟩
  · exact ⟨by linarith [h.1], h.2⟩

theorem cf8_front {n : ℕ} (hn : 5 ≤ n) : IsParetoFront (Cf8Feasible n) (cf8 n) (Ring (Fractions 4)) := by
  refine ring_front (wave := fun s => 4 * |sin s|) (fun x => rfl) fractions_icc ⟨0, by norm_num, by norm_num⟩
    ⟨4, le_rfl, by norm_num⟩ ?_ (by simp) (fun u v hu hv h1 h => ?_) (uf8_clip_attains hn (by norm_num) (by norm_num))
    fun x _ z hz => uf8_clip_covered hn x z hz
  · rintro a ⟨i, -, rfl⟩
    rw [show 2 * π * (2 * ((i : ℝ) / (4 : ℕ))) = (i : ℕ) * π by push_cast; ring, sin_nat_mul_pi]
    simp
  · refine cover_fractions (by norm_num) hu hv h1 ?_
    rw [show π * ((4 : ℕ) / 2 * (u - v + 1)) = 2 * π * (u - v + 1) by push_cast; ring]
    linarith [abs_nonneg (sin (2 * π * (u - v + 1)))]

theorem cf9_front {n : ℕ} (hn : 5 ≤ n) : IsParetoFront (Cf9Feasible n) (cf9 n) (Ring Intervals) := by
  refine ring_front (wave := fun s => 3 * sin s) (fun x => rfl) intervals_icc (Or.inl rfl)
    (Or.inr (Or.inr (by norm_num))) (fun a ha => ?_) (by simp) (fun u v hu hv h1 h => ?_)
    (uf8_clip_attains hn le_rfl le_rfl) fun x _ z hz => uf8_clip_covered hn x z hz
  · have := sin_intervals ha
    rw [show 2 * π * (2 * a) = 4 * π * a by ring]
    linarith
  · refine cover_intervals hu hv h1 ?_
    rcases le_total 0 (sin (2 * π * (u - v + 1))) with h' | h' <;> linarith

theorem arange_pred (a n : ℕ) : (arange (a + 1) (n + 1) 3).map (· - 1) = arange a n 3 := by
  unfold arange
  rw [List.map_map, Nat.add_sub_add_right]
  exact List.map_congr_left fun i _ => by simp only [Function.comp]; omega

theorem cf10_eq {n : ℕ} (hn : 5 ≤ n) (x : ℕ → ℝ) : cf10 n x = uf10 n x := by
  unfold cf10 uf10 uf3d uf3dGroups cf10Groups
  rw [if_neg (by omega), Option.bind_some, arange_pred, arange_pred, arange_pred,
    show 0.5 * x 0 * π = 0.5 * π * x 0 by ring, show 0.5 * x 1 * π = 0.5 * π * x 1 by ring]

theorem cf10_front {n : ℕ} (hn : 5 ≤ n) : IsParetoFront (Cf10Feasible n) (cf10 n) (Ring Intervals) := by
  refine ring_front (wave := sin) (fun x => rfl) intervals_icc (Or.inl rfl)
    (Or.inr (Or.inr (by norm_num))) (fun a ha => ?_) (by simp) (fun u v hu hv h1 h => cover_intervals hu hv h1 h)
    ?_ fun x hx z hz => ?_
  · rw [show 2 * π * (2 * a) = 4 * π * a by ring]
    exact sin_intervals ha
  · intro z hz
    obtain ⟨x, hx, h⟩ := (((C63_uf10 hn).1 z).mp hz).1
    exact ⟨x, hx, by rw [cf10_eq hn, h]⟩
  · rw [cf10_eq hn] at hz
    unfold uf10 at hz
    obtain ⟨a, b, c, ha, hb, hc, h⟩ := uf3d_ge hn (twiceMean_penalty fun i => uf10h_nonneg (uf3dY n x i))
      (cos (0.5 * π * x 0) * cos (0.5 * π * x 1)) (cos (0.5 * π * x 0) * sin (0.5 * π * x 1)) (sin (0.5 * π * x 0))
    rw [h, Option.some.injEq] at hz
    refine ⟨_, angles_sphere hx.1 hx.2.1, ?_⟩
    rw [← hz]
    simp [ha, hb, hc]

theorem mem_cf8Columns {N : ℕ} {r : ℝ × ℝ} (h : r ∈ cf8Columns N) : ∃ a ∈ Fractions 4, 0 ≤ r.2 ∧ r.2 ≤ 1 ∧
    r.1 = √(a * (1 - r.2 ^ 2)) := by
  unfold cf8Columns at h
  obtain ⟨i, hi, h⟩ := List.mem_flatMap.mp h
  obtain ⟨s, hs, rfl⟩ := List.mem_map.mp h
  have hs := linspace_mem hs
  have hi : i < 5 := List.mem_range.mp hi
  refine ⟨(i : ℝ) / 4, ⟨i, by omega, by norm_num⟩, ?_, sin_le_one _, rfl⟩
  have := (quarter_turn (t := s) hs).1
  rwa [show s * π / 2 = 0.5 * π * s by norm_num; ring]

theorem cf8_max {N : ℕ} (hN : 0 < N) : ((cf8Columns N).map fun r => 1 - r.1 ^ 2 - r.2 ^ 2).max? = some 1 := by
  have hk : 0 < (N + 4) / 5 := by omega
  rw [List.max?_eq_some_iff]
  constructor
  · refine List.mem_map.mpr ⟨(0, 0), List.mem_flatMap.mpr ⟨0, List.mem_range.mpr (by norm_num),
      List.mem_map.mpr ⟨0, mem_linspace.mpr ⟨0, hk, by simp⟩, by simp⟩⟩, by norm_num⟩
  · intro v hv
    obtain ⟨r, -, rfl⟩ := List.mem_map.mp hv
    nlinarith [sq_nonneg r.1, sq_nonneg r.2]

/-- C64 for CF8: the Pareto front; the rows of the front of the code are points of it if the second coordinate is replaced
by the one that makes them unit vectors. -/
theorem C64_cf8_partial {n : ℕ} (hn : 5 ≤ n) : IsParetoFront (Cf8Feasible n) (cf8 n) (Ring (Fractions 4)) ∧
    ∀ N R, cf8Front N = some R → ∀ z ∈ R, ∃ a b c, z = [a, b, c] ∧
      (c < 1 → [a, √(1 - a ^ 2 - c ^ 2), c] ∈ Ring (Fractions 4)) := by
  refine ⟨cf8_front hn, fun N R h z hz => ?_⟩
  unfold cf8Front at h
  obtain ⟨m, -, rfl⟩ := Option.map_eq_some_iff.mp h
  obtain ⟨r, hr, rfl⟩ := List.mem_map.mp hz
  obtain ⟨a, ha, h0, h1, e⟩ := mem_cf8Columns hr
  refine ⟨_, _, _, rfl, fun hc => ⟨a, ha, r.2, h0, hc, ?_⟩⟩
  have hr2 : 0 ≤ 1 - r.2 ^ 2 := by nlinarith
  rw [e, sq_sqrt (mul_nonneg (fractions_icc ha).1 hr2)]
  ring_nf

/-- C64 is violated by CF8: the front of the code contains an infeasible vector. -/
theorem C64_violated_cf8 {n N : ℕ} (hN : 0 < N) : ∃ R, cf8Front N = some R ∧
    ∃ z ∈ R, ¬ Attains (Cf8Feasible n) (cf8 n) z := by
  have hk : 0 < (N + 4) / 5 := by omega
  refine ⟨_, by unfold cf8Front; rw [cf8_max hN, Option.map_some], [1 / 2, 1, 0], ?_, ?_⟩
  · refine List.mem_map.mpr ⟨(1 / 2, 0), List.mem_flatMap.mpr ⟨1, List.mem_range.mpr (by norm_num),
      List.mem_map.mpr ⟨0, mem_linspace.mpr ⟨0, hk, by simp⟩, ?_⟩⟩, by simp⟩
    rw [Prod.mk.injEq]
    constructor
    · rw [show ((1 : ℕ) : ℝ) / 4 * (1 - sin (0 * π / 2) ^ 2) = (1 / 2) ^ 2 by norm_num]
      exact sqrt_sq (by norm_num)
    · simp
  · rintro ⟨x, ⟨-, g, hg, hg0⟩, h⟩
    unfold cf8G at hg
    rw [h, Option.bind_some] at hg
    unfold ringConstraint at hg
    dsimp only at hg
    rw [if_neg (by norm_num), Option.some.injEq,
      show 2 * π * (((1 / 2 : ℝ) ^ 2 - 1 ^ 2) / (1 - 0 ^ 2) + 1) = π / 2 by ring, sin_pi_div_two] at hg
    norm_num at hg
    linarith

/-- A row of the random matrix in the front of CF9 and CF10: three numbers in `[0, 1)`. -/
def IsDraw (r : List ℝ) : Prop := r.length = 3 ∧ ∀ v ∈ r, 0 ≤ v ∧ v < 1

/-- The unit vector in the direction of `r`. -/
def UnitOf (r u : List ℝ) : Prop := u ∈ Sphere ∧ ∃ s : ℝ, 0 < s ∧ r = u.map (s * ·)

/-- The rows of the matrix that are kept (cf.py 522-525). -/
def ringKept (r : List ℝ) : Prop := ¬ ((1 / 10 ^ 5 < r.getD 0 0 ∧ r.getD 0 0 < √((1 - r.getD 2 0 ^ 2) / 4)) ∨
      (√((1 - r.getD 2 0 ^ 2) / 2) < r.getD 0 0 ∧ r.getD 0 0 < √(3 * (1 - r.getD 2 0 ^ 2) / 4)))

theorem unitOf_div {r u : List ℝ} (h : UnitOf r u) : (r.map (· ^ 2)).sum ≠ 0 ∧ r.map (· / √(r.map (· ^ 2)).sum) = u := by
  obtain ⟨⟨a, b, c, ha, hb, hc, hs, rfl⟩, s, hs0, rfl⟩ := h
  have e : ((([a, b, c] : List ℝ).map (s * ·)).map (· ^ 2)).sum = s ^ 2 := by
    simp only [List.map_cons, List.map_nil, List.sum_cons, List.sum_nil]
    linear_combination s ^ 2 * hs
  rw [e, sqrt_sq hs0.le]
  refine ⟨by positivity, ?_⟩
  simp only [List.map_cons, List.map_nil]
  rw [mul_div_cancel_left₀ _ hs0.ne', mul_div_cancel_left₀ _ hs0.ne', mul_div_cancel_left₀ _ hs0.ne']

theorem unitOf_exists {r : List ℝ} (h : IsDraw r) (h0 : (r.map (· ^ 2)).sum ≠ 0) :
    UnitOf r (r.map (· / √(r.map (· ^ 2)).sum)) := by
  obtain ⟨a, b, c, rfl⟩ := List.length_eq_three.mp h.1
  have ha := (h.2 a (by simp)).1
  have hb := (h.2 b (by simp)).1
  have hc := (h.2 c (by simp)).1
  have e : (([a, b, c] : List ℝ).map (· ^ 2)).sum = a ^ 2 + b ^ 2 + c ^ 2 := by simp [add_assoc]
  rw [e] at h0 ⊢
  have hpos : 0 < a ^ 2 + b ^ 2 + c ^ 2 := lt_of_le_of_ne (by positivity) (Ne.symm h0)
  have hs := sqrt_pos.mpr hpos
  have hsq := sq_sqrt hpos.le
  refine ⟨⟨_, _, _, div_nonneg ha hs.le, div_nonneg hb hs.le, div_nonneg hc hs.le, ?_, rfl⟩, _, hs, ?_⟩
  · rw [div_pow, div_pow, div_pow, hsq]
    field_simp
  · simp only [List.map_cons, List.map_nil]
    rw [mul_div_cancel₀ _ hs.ne', mul_div_cancel₀ _ hs.ne', mul_div_cancel₀ _ hs.ne']

theorem cf9Front_rows {R F : List (List ℝ)} (hR : ∀ r ∈ R, IsDraw r) (h : cf9Front R = some F) (u : List ℝ) :
    u ∈ F ↔ (∃ r ∈ R, UnitOf r u) ∧ ringKept u := by
  unfold cf9Front at h
  obtain ⟨U, hU, rfl⟩ := Option.map_eq_some_iff.mp h
  have hU' : ∀ u, u ∈ U ↔ ∃ r ∈ R, UnitOf r u := by
    clear h u
    induction R generalizing U with
    | nil =>
      rw [List.mapM_nil] at hU
      obtain rfl := Option.some.inj hU
      simp
    | cons r R ih =>
      rw [List.mapM_cons] at hU
      obtain ⟨v, hv, hU⟩ := Option.bind_eq_some_iff.mp hU
      obtain ⟨V, hV, hU⟩ := Option.bind_eq_some_iff.mp hU
      obtain rfl := Option.some.inj hU
      have hne : (r.map (· ^ 2)).sum ≠ 0 := fun hc => by
        rw [if_pos hc] at hv
        exact absurd hv (by simp)
      rw [if_neg hne, Option.some.injEq] at hv
      intro u
      rw [List.mem_cons, ih (fun r hr => hR r (List.mem_cons_of_mem _ hr)) V hV u, List.exists_mem_cons_iff]
      refine or_congr ⟨?_, ?_⟩ Iff.rfl
      · rintro rfl
        rw [← hv]
        exact unitOf_exists (hR r List.mem_cons_self) hne
      · intro hu
        rw [← hv]
        exact (unitOf_div hu).2.symm
  rw [List.mem_filter, hU' u]
  unfold ringKept
  simp only [decide_eq_true_eq]

/-- A kept unit vector is in the front unless its first coordinate is small or it is the pole. -/
theorem ringKept_iff {a b c : ℝ} (ha : 0 ≤ a) (hb : 0 ≤ b) (hc : 0 ≤ c) (hs : a ^ 2 + b ^ 2 + c ^ 2 = 1) (hc1 : c < 1)
    (hsmall : a = 0 ∨ 1 / 10 ^ 5 < a) : ringKept [a, b, c] ↔ [a, b, c] ∈ Ring Intervals := by
  have hr : 0 < 1 - c ^ 2 := by nlinarith
  have lt1 : ∀ k : ℝ, a < √k ↔ a ^ 2 < k := fun k => lt_sqrt ha
  have lt2 : ∀ k : ℝ, 0 ≤ k → (√k < a ↔ k < a ^ 2) := fun k hk => sqrt_lt hk ha
  have hk : ringKept [a, b, c] ↔ ¬ ((1 / 10 ^ 5 < a ∧ a ^ 2 < (1 - c ^ 2) / 4) ∨
      ((1 - c ^ 2) / 2 < a ^ 2 ∧ a ^ 2 < 3 * (1 - c ^ 2) / 4)) := by
    unfold ringKept
    simp only [List.getD_cons_zero, List.getD_cons_succ]
    rw [lt1, lt1, lt2 _ (by linarith)]
  rw [hk]
  have hring : [a, b, c] ∈ Ring Intervals ↔ a ^ 2 / (1 - c ^ 2) ∈ Intervals := by
    constructor
    · rintro ⟨k, hkI, c', c0, c1, e⟩
      obtain ⟨rfl, rfl, rfl⟩ : a = √(k * (1 - c' ^ 2)) ∧ b = √((1 - k) * (1 - c' ^ 2)) ∧ c = c' := by simpa using e
      rw [sq_sqrt (mul_nonneg (intervals_icc hkI).1 hr.le), mul_div_cancel_right₀ _ hr.ne']
      exact hkI
    · intro h
      refine ⟨_, h, c, hc, hc1, ?_⟩
      rw [div_mul_cancel₀ _ hr.ne', sqrt_sq ha, show (1 - a ^ 2 / (1 - c ^ 2)) * (1 - c ^ 2) = b ^ 2 by
        rw [sub_mul, div_mul_cancel₀ _ hr.ne']
        linarith, sqrt_sq hb]
  rw [hring]
  unfold Intervals
  rw [Set.mem_setOf_eq, le_div_iff₀ hr, div_le_iff₀ hr, le_div_iff₀ hr, div_le_iff₀ hr, div_eq_zero_iff]
  constructor
  · intro h
    rw [not_or, not_and_or, not_and_or, not_lt, not_lt, not_lt, not_lt] at h
    rcases hsmall with rfl | hsmall
    · left
      left
      norm_num
    · right
      have h1 : (1 - c ^ 2) / 4 ≤ a ^ 2 := h.1.resolve_left (by linarith)
      rcases h.2 with h2 | h2
      · exact Or.inl ⟨by linarith, by linarith⟩
      · exact Or.inr ⟨by linarith, by nlinarith⟩
  · rintro (h | h | h) (h' | h')
    · have : a ^ 2 = 0 := h.resolve_right hr.ne'
      have : a = 0 := by simpa using this
      rw [this] at h'
      norm_num at h'
    · have : a ^ 2 = 0 := h.resolve_right hr.ne'
      linarith [h'.1]
    · linarith [h.1, h'.2]
    · linarith [h.2, h'.1]
    · linarith [h.1, h'.2]
    · linarith [h.1, h'.2]

/-- What is expected of the front of CF9 and CF10: among the unit vectors in the directions of the random points it has
those on the Pareto front. The first coordinate must not be small and positive, and the point not the pole. -/
def KeepsFront (F : List (List ℝ) → Option (List (List ℝ))) : Prop :=
  ∀ R out, (∀ r ∈ R, IsDraw r) → F R = some out → ∀ a b c : ℝ, c < 1 → (a = 0 ∨ 1 / 10 ^ 5 < a) →
    ([a, b, c] ∈ out ↔ (∃ r ∈ R, UnitOf r [a, b, c]) ∧ [a, b, c] ∈ Ring Intervals)

theorem cf9Front_keeps : KeepsFront cf9Front := by
  intro R out hR h a b c hc1 hsmall
  rw [cf9Front_rows hR h]
  refine and_congr_right ?_
  rintro ⟨r, -, ⟨a', b', c', ha, hb, hc, hs, e⟩, -⟩
  obtain ⟨rfl, rfl, rfl⟩ : a = a' ∧ b = b' ∧ c = c' := by simpa using e
  exact ringKept_iff ha hb hc hs hc1 hsmall

/-- C64 for CF9. -/
theorem C64_cf9_partial {n : ℕ} (hn : 5 ≤ n) : IsParetoFront (Cf9Feasible n) (cf9 n) (Ring Intervals) ∧
    KeepsFront cf9Front := ⟨cf9_front hn, cf9Front_keeps⟩

/-- C64 for CF10. -/
theorem C64_cf10_partial {n : ℕ} (hn : 5 ≤ n) : IsParetoFront (Cf10Feasible n) (cf10 n) (Ring Intervals) ∧
    KeepsFront cf9Front := ⟨cf10_front hn, cf9Front_keeps⟩

/-- The random point of the counterexample: a unit vector with a small first coordinate. -/
noncomputable def smallDraw : List ℝ := [2 * 10 ^ 6 / (10 ^ 12 + 1), (10 ^ 12 - 1) / (10 ^ 12 + 1), 0]

theorem smallDraw_draw : IsDraw smallDraw := by
  refine ⟨rfl, fun v hv => ?_⟩
  simp only [smallDraw, List.mem_cons, List.not_mem_nil, or_false] at hv
  rcases hv with rfl | rfl | rfl <;> norm_num

theorem smallDraw_kept : ∃ F, cf9Front [smallDraw] = some F ∧ smallDraw ∈ F := by
  have hu : UnitOf smallDraw smallDraw := ⟨⟨_, _, _, by norm_num, by norm_num, by norm_num, by norm_num, rfl⟩, 1, one_pos, by
    simp⟩
  have hex : ∃ F, cf9Front [smallDraw] = some F := by
    unfold cf9Front
    rw [List.mapM_cons, if_neg (unitOf_div hu).1]
    exact ⟨_, rfl⟩
  obtain ⟨F, hF⟩ := hex
  refine ⟨F, hF, (cf9Front_rows (by simpa using smallDraw_draw) hF _).mpr ⟨⟨_, by simp, hu⟩, ?_⟩⟩
  unfold ringKept smallDraw
  simp only [List.getD_cons_zero, List.getD_cons_succ]
  have h : ¬ √((1 - (0 : ℝ) ^ 2) / 2) < 2 * 10 ^ 6 / (10 ^ 12 + 1) := by
    rw [not_lt]
    exact le_sqrt_of_sq_le (by norm_num)
  rintro (h' | h')
  · norm_num at h'
  · exact h h'.1

theorem smallDraw_infeasible {wave : ℝ → ℝ} (hw : ∀ s, 0 < sin s → 0 < wave s) {g : ℝ}
    (h : ringConstraint wave smallDraw = some g) : 0 < g := by
  unfold smallDraw ringConstraint at h
  dsimp only at h
  rw [if_neg (by norm_num), Option.some.injEq] at h
  have hp := pi_pos
  have hs : 0 < sin (2 * π * ((((2 * 10 ^ 6 / (10 ^ 12 + 1) : ℝ)) ^ 2 - ((10 ^ 12 - 1) / (10 ^ 12 + 1)) ^ 2) /
      (1 - 0 ^ 2) + 1)) := by
    refine sin_pos_of_pos_of_lt_pi (mul_pos (by positivity) (by norm_num)) ?_
    rw [mul_comm 2 π, mul_assoc]
    exact mul_lt_of_lt_one_right hp (by norm_num)
  have := hw _ hs
  have e : 1 - (((2 * 10 ^ 6 / (10 ^ 12 + 1) : ℝ)) ^ 2 + ((10 ^ 12 - 1) / (10 ^ 12 + 1)) ^ 2) / (1 - 0 ^ 2) = 0 := by
    norm_num
  linarith

/-- C64 is violated by CF9: a random point with a small first coordinate is kept although it is infeasible. -/
theorem C64_violated_cf9 (n : ℕ) : ∃ R F, (∀ r ∈ R, IsDraw r) ∧ cf9Front R = some F ∧
    ∃ z ∈ F, ¬ Attains (Cf9Feasible n) (cf9 n) z := by
  obtain ⟨F, hF, hm⟩ := smallDraw_kept
  refine ⟨_, F, by simpa using smallDraw_draw, hF, _, hm, ?_⟩
  rintro ⟨x, ⟨-, g, hg, hg0⟩, h⟩
  unfold cf9G at hg
  rw [h, Option.bind_some] at hg
  exact absurd (smallDraw_infeasible (fun s hs => by positivity) hg) (not_lt.mpr hg0)

/-- C64 is violated by CF10 in the same way. -/
theorem C64_violated_cf10 (n : ℕ) : ∃ R F, (∀ r ∈ R, IsDraw r) ∧ cf9Front R = some F ∧
    ∃ z ∈ F, ¬ Attains (Cf10Feasible n) (cf10 n) z := by
  obtain ⟨F, hF, hm⟩ := smallDraw_kept
  refine ⟨_, F, by simpa using smallDraw_draw, hF, _, hm, ?_⟩
  rintro ⟨x, ⟨-, g, hg, hg0⟩, h⟩
  unfold cf10G at hg
  rw [h, Option.bind_some] at hg
  exact absurd (smallDraw_infeasible (fun s hs => hs) hg) (not_lt.mpr hg0)

/-! ## Too few variables -/

/-- C64 for too few variables: the means of CF1, CF2 and CF3 over the empty group are not defined. -/
theorem C64_few {n : ℕ} (hn : n < 4) (x : ℕ → ℝ) : cf1 n x = none ∧ cf2 n x = none ∧ cf3 n x = none :=
  ⟨cf2d_none hn (by simp [twiceMean, groupMean, zdtMean]) _ _, cf2d_none hn (by simp [twiceMean, groupMean, zdtMean]) _ _,
    cf2d_none hn (by simp [productPenalty]) _ _⟩

/-! ## Examples -/

/-- The default numbers of variables meet the hypotheses, and the fronts have points. -/
example : (4 ≤ 10 ∧ 5 ≤ 10) ∧ [(1 : ℝ) / 2, 1 / 2] ∈ Graph segments (Set.Icc 0 1) ∧
    [(1 : ℝ) / 2, 1 / 4] ∈ Graph arcs (Set.Icc 0 1) ∧ [(1 : ℝ), 0, 0] ∈ Ring Intervals := by
  refine ⟨by norm_num, ⟨1 / 2, by norm_num, ?_⟩, ⟨1 / 2, by norm_num, ?_⟩, ⟨1, Or.inr (Or.inr (by norm_num)), 0, ?_⟩⟩
  · norm_num [segments]
  · norm_num [arcs]
  · simp

end Verif.Props
