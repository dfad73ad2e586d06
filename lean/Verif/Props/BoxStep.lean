import Verif.Opt.BoxStepLemmas
import Verif.Opt.DpNIter
import Mathlib.Tactic.NormNum
import Mathlib.Algebra.Field.Rat
import Mathlib.Algebra.Order.Ring.Rat

/-!
# Box handling of the optimizers (C32-C34)
-/

namespace Verif.Props

open Verif.Opt Verif.Util

set_option linter.unusedSectionVars false

section BoxStep

variable {K : Type*} [Field K] [LinearOrder K] [IsStrictOrderedRing K]

/-- All points of the population have as many coordinates as there are bounds and respect the bounds. -/
def PopInBox (xl xu : List K) (X : List (List K)) : Prop :=
  ∀ x ∈ X, x.length = xl.length ∧ ∀ d < xl.length, xl.getD d 0 ≤ x.getD d 0 ∧ x.getD d 0 ≤ xu.getD d 0

/-- A matrix of the shape of the population. -/
def SameShape (xl : List K) (X step : List (List K)) : Prop :=
  step.length = X.length ∧ ∀ r ∈ step, r.length = xl.length

/-! ### C32 -/

/-- C32: the step limit of `HVN` exists, lies in `[0, 1]` and keeps all points inside the box. -/
def C32Statement (K : Type*) [Field K] [LinearOrder K] : Prop :=
  ∀ (xl xu : List K) (X step : List (List K)), xu.length = xl.length → PopInBox xl xu X → SameShape xl X step →
    ∃ m, hvnMaxStep true xl xu X step = some m ∧ 0 ≤ m ∧ m ≤ 1 ∧ ∀ s, 0 ≤ s → s ≤ m →
      ∀ i < X.length, ∀ d < xl.length, xl.getD d 0 ≤ (X.getD i []).getD d 0 + s * (step.getD i []).getD d 0 ∧
        (X.getD i []).getD d 0 + s * (step.getD i []).getD d 0 ≤ xu.getD d 0

/-- C32 for all steps that are not zero; missing is the zero step, for which the code raises an exception. -/
theorem C32_partial (xl xu : List K) (X step : List (List K)) (hu : xu.length = xl.length)
    (hX : PopInBox xl xu X) (hS : SameShape xl X step) (hne : ∃ r ∈ step, ∃ a ∈ r, a ≠ 0) :
    ∃ m, hvnMaxStep true xl xu X step = some m ∧ 0 ≤ m ∧ m ≤ 1 ∧ ∀ s, 0 ≤ s → s ≤ m →
      ∀ i < X.length, ∀ d < xl.length, xl.getD d 0 ≤ (X.getD i []).getD d 0 + s * (step.getD i []).getD d 0 ∧
        (X.getD i []).getD d 0 + s * (step.getD i []).getD d 0 ≤ xu.getD d 0 := by
  have hXr : Rect xl.length X := fun x hx => (hX x hx).1
  have hne' : hvnRatios xl xu X step ≠ [] := by
    rw [ne_eq, hvnRatios_eq_nil hXr hu hS.2 hS.1]
    intro h
    obtain ⟨r, hr, a, ha, ha0⟩ := hne
    obtain ⟨i, hi, rfl⟩ := List.mem_iff_getElem.mp hr
    obtain ⟨d, hd, rfl⟩ := List.mem_iff_getElem.mp ha
    have h1 := hS.1
    have h2 := hS.2 _ (List.getElem_mem hi)
    have := h i (by omega) d (by omega)
    unfold entry at this
    rw [List.getD_eq_getElem _ _ hi, List.getD_eq_getElem _ _ hd] at this
    exact ha0 this
  obtain ⟨c, hc⟩ : ∃ c, (hvnRatios xl xu X step).min? = some c := by
    rcases h : hvnRatios xl xu X step with _ | ⟨a, l⟩
    · exact absurd h hne'
    · exact ⟨_, rfl⟩
  obtain ⟨hmem, hle⟩ := List.min?_eq_some_iff.mp hc
  have h0 : 0 ≤ c := zip_mem_nonneg hmem
  refine ⟨min 1 (1 / 4 * c), by rw [hvnMaxStep_eq, hc]; rfl, le_min zero_le_one (by positivity), min_le_left _ _, ?_⟩
  intro s hs hsm i hi d hd
  have hsc : s ≤ c := by
    have := hsm.trans (min_le_right _ _)
    linarith
  have hx := hX (X.getD i []) (by rw [List.getD_eq_getElem _ _ hi]; exact List.getElem_mem hi)
  exact coord_in_box (hx.2 d hd).1 (hx.2 d hd).2 hs
    (fun h => hsc.trans (hle _ (hvnRatios_lower hXr hu hS.2 hS.1 hi hd h)))
    (fun h => hsc.trans (hle _ (hvnRatios_upper hXr hu hS.2 hS.1 hi hd h)))

/-- The limit is not needlessly small: it is one, or some coordinate would reach its bound with four times
that step. -/
theorem C32_tight (xl xu : List K) (X step : List (List K)) (m : K)
    (hm : hvnMaxStep true xl xu X step = some m) : m = 1 ∨ ∃ a b : K, b < 0 ∧ 4 * m * |b| = a ∧
      ((∃ x ∈ X, ∃ p ∈ x.zip xl, a = |p.1 - p.2|) ∨ ∃ x ∈ X, ∃ p ∈ xu.zip x, a = |p.1 - p.2|) ∧
      ((∃ r ∈ step, b ∈ r) ∨ ∃ r ∈ step, -b ∈ r) := by
  rw [hvnMaxStep_eq] at hm
  obtain ⟨c, hc, rfl⟩ := Option.map_eq_some_iff.mp hm
  obtain ⟨hmem, -⟩ := List.min?_eq_some_iff.mp hc
  rcases le_total 1 (1 / 4 * c) with h | h
  · left; exact min_eq_left h
  · right
    rw [min_eq_right h]
    unfold hvnRatios at hmem
    obtain ⟨⟨a, b⟩, hab, rfl⟩ := List.mem_map.mp hmem
    obtain ⟨hz, hb⟩ := List.mem_filter.mp hab
    have hb : b < 0 := by simpa using hb
    refine ⟨a, b, hb, ?_, ?_, ?_⟩
    · have : |b| ≠ 0 := abs_ne_zero.mpr hb.ne
      field_simp
    · rcases List.mem_append.mp (List.of_mem_zip hz).1 with h | h
      · left
        obtain ⟨r, hr, ha⟩ := List.mem_flatten.mp h
        obtain ⟨x, hx, rfl⟩ := List.mem_map.mp hr
        rw [← List.map_uncurry_zip_eq_zipWith] at ha
        obtain ⟨p, hp, rfl⟩ := List.mem_map.mp ha
        exact ⟨x, hx, p, hp, rfl⟩
      · right
        obtain ⟨r, hr, ha⟩ := List.mem_flatten.mp h
        obtain ⟨x, hx, rfl⟩ := List.mem_map.mp hr
        rw [← List.map_uncurry_zip_eq_zipWith] at ha
        obtain ⟨p, hp, rfl⟩ := List.mem_map.mp ha
        exact ⟨x, hx, p, hp, rfl⟩
    · have := (List.of_mem_zip hz).2
      unfold outward at this
      rcases List.mem_append.mp this with h | h
      · left; exact List.mem_flatten.mp h
      · right
        obtain ⟨w, hw, rfl⟩ := List.mem_map.mp h
        rw [neg_neg]
        exact List.mem_flatten.mp hw

/-- C32 is violated for a zero step: the minimum of the empty array raises an exception. -/
theorem C32_zero_step (xl xu : List K) (X step : List (List K)) (hu : xu.length = xl.length)
    (hX : PopInBox xl xu X) (hS : SameShape xl X step) (h0 : ∀ r ∈ step, ∀ a ∈ r, a = 0) :
    hvnMaxStep true xl xu X step = none := by
  have : hvnRatios xl xu X step = [] := by
    rw [hvnRatios_eq_nil (fun x hx => (hX x hx).1) hu hS.2 hS.1]
    intro i hi d hd
    have h1 := hS.1
    have h2 : step[i].length = xl.length := hS.2 _ (List.getElem_mem (by omega))
    unfold entry
    rw [List.getD_eq_getElem _ _ (by omega : i < step.length), List.getD_eq_getElem _ _ (by omega)]
    exact h0 _ (List.getElem_mem (by omega)) _ (List.getElem_mem (by omega))
  rw [hvnMaxStep_eq, this]
  rfl

theorem C32_violated : ¬ C32Statement ℚ := by
  intro h
  have hp : PopInBox [(0 : ℚ)] [1] [[1 / 2]] := by
    unfold PopInBox; decide +kernel
  have hs : SameShape [(0 : ℚ)] [[1 / 2]] [[0]] := by
    unfold SameShape; decide +kernel
  obtain ⟨m, hm, -⟩ := h [0] [1] [[1 / 2]] [[0]] rfl hp hs
  rw [C32_zero_step [0] [1] [[1 / 2]] [[0]] rfl hp hs (by simp)] at hm
  cases hm

/-- Two points; the second one would leave the box at the upper bound with a quarter of the step. -/
example : hvnMaxStep true [(0 : ℚ), 0] [1, 2] [[1 / 2, 1], [3 / 4, 1]] [[1, -1], [1, 0]] = some (1 / 16) := by
  decide +kernel

example : ∃ m, hvnMaxStep true [(0 : ℚ), 0] [1, 2] [[1 / 2, 1], [3 / 4, 1]] [[1, -1], [1, 0]] = some m ∧ 0 ≤ m := by
  obtain ⟨m, h1, h2, -⟩ := C32_partial [(0 : ℚ), 0] [1, 2] [[1 / 2, 1], [3 / 4, 1]] [[1, -1], [1, 0]] rfl
    (by unfold PopInBox; decide +kernel) (by unfold SameShape; decide +kernel) ⟨[1, -1], by simp, 1, by simp, by simp⟩
  exact ⟨m, h1, h2⟩

/-! ### C33 -/

/-- C33, the box handler: the step bound lies in `[0, 1]`, and moving by at most the bound along the step that
the handler returns stays inside the box. -/
theorem C33_handler (xl xu x step : List K) (h1 : x.length = xl.length) (h2 : xu.length = xl.length)
    (h3 : step.length = xl.length)
    (hx : ∀ d < xl.length, xl.getD d 0 ≤ x.getD d 0 ∧ x.getD d 0 ≤ xu.getD d 0) (r : List K × K)
    (hr : r = dpnBox xl xu x step) :
    r.1.length = xl.length ∧ 0 ≤ r.2 ∧ r.2 ≤ 1 ∧ ∀ s, 0 ≤ s → s ≤ r.2 → ∀ d < xl.length,
      xl.getD d 0 ≤ x.getD d 0 + s * r.1.getD d 0 ∧ x.getD d 0 + s * r.1.getD d 0 ≤ xu.getD d 0 := by
  subst hr
  have hl : (dpnBox xl xu x step).1.length = xl.length := (dpnBox_length ..).trans h3
  have hc := capOne_nanmin (dpnRatios xl xu x (dpnBox xl xu x step).1) fun c hc => div_fin_nonneg hc
  rw [← dpnBox_eq] at hc
  refine ⟨hl, hc.1, hc.2.1, fun s hs hs' d hd => ?_⟩
  have hb : InBox xl xu x := fun d hd => hx d (h1 ▸ hd)
  have := dpn_move_inBox h1.symm (h2.trans h1.symm) (hl.trans h1.symm) hb hs (by rwa [dpnBox_eq] at hs') d
    (by rw [move_length (hl.trans h1.symm)]; omega)
  rwa [move_getD (by omega) (hl.trans h1.symm)] at this

/-- The handler changes at most one component of the step, to zero, and only if the point cannot move at
all: some component of the step leads out of the box from the boundary. -/
theorem C33_projection (xl xu x step : List K) (h1 : x.length = xl.length) (h2 : xu.length = xl.length)
    (h3 : step.length = xl.length) (r : List K × K) (hr : r = dpnBox xl xu x step) :
    r.1 = step ∨ (∃ c, r.1 = step.set c 0) ∧ ∃ d < xl.length, (step.getD d 0 < 0 ∧ x.getD d 0 = xl.getD d 0) ∨
      (0 < step.getD d 0 ∧ x.getD d 0 = xu.getD d 0) := by
  subst hr
  unfold dpnBox
  dsimp only
  split
  · rename_i h0
    right
    refine ⟨⟨_, rfl⟩, ?_⟩
    obtain ⟨j, hj, he, hd⟩ := dpnRatios_zero h0
    rw [outward] at he
    have hjl : j < step.length + step.length := by
      unfold outward at hj
      rwa [List.length_append, List.length_map] at hj
    by_cases hjd : j < step.length
    · refine ⟨j, by omega, .inl ⟨?_, ?_⟩⟩
      · rwa [List.getD_append _ _ _ _ hjd] at he
      · unfold boxDist at hd
        rw [List.getD_append _ _ _ _ (by rw [List.length_zipWith]; omega),
          List.getD_eq_getElem _ _ (by rw [List.length_zipWith]; omega), List.getElem_zipWith,
          abs_eq_zero, sub_eq_zero] at hd
        rw [List.getD_eq_getElem _ _ (by omega), List.getD_eq_getElem _ _ (by omega), hd]
    · have e1 : j - (List.zipWith (fun a l => |a - l|) x xl).length = j - step.length := by
        rw [List.length_zipWith]; omega
      refine ⟨j - step.length, by omega, .inr ⟨?_, ?_⟩⟩
      · rw [List.getD_append_right _ _ _ _ (by omega), List.getD_eq_getElem _ _ (by rw [List.length_map]; omega),
          List.getElem_map] at he
        rw [List.getD_eq_getElem _ _ (by omega)]
        linarith
      · unfold boxDist at hd
        rw [List.getD_append_right _ _ _ _ (by rw [List.length_zipWith]; omega), e1,
          List.getD_eq_getElem _ _ (by rw [List.length_zipWith]; omega), List.getElem_zipWith,
          abs_eq_zero, sub_eq_zero] at hd
        rw [List.getD_eq_getElem _ _ (by omega), List.getD_eq_getElem _ _ (by omega), hd]
  · left; rfl

/-- A finding about the handler: `argmin` returns the position of a NaN (`0/0` on the boundary without an
outward step) before that of the blocking bound, so that it removes the component that is not blocked, and
the point does not move at all. -/
theorem C33_wrong_projection :
    dpnBox [(0 : ℚ), 0] [1, 1] [0, 0] [1, -1] = ([0, -1], 0) := by
  decide +kernel

/-- C33, repeated iterations. -/
def C33Statement (K : Type*) [Field K] [LinearOrder K] : Prop :=
  ∀ (xl xu : List K) (X : List (List K)) (inputs : List (DpNInput K)), xu.length = xl.length → PopInBox xl xu X →
    (∀ inp ∈ inputs, inp.step.length = X.length ∧ ∀ r ∈ inp.step, xl.length ≤ r.length) →
    ∃ X', dpnRun xl xu inputs X = some X' ∧ X'.length = X.length ∧ PopInBox xl xu X'

/-- One iteration: the population stays in the box, unless all entries of the step are close to zero. In that
case it leaves the box by at most `10⁻⁸`. -/
theorem C33_iteration (xl xu : List K) (X : List (List K)) (inp : DpNInput K) (hu : xu.length = xl.length)
    (hX : PopInBox xl xu X) (hS : inp.step.length = X.length) (hr : ∀ r ∈ inp.step, xl.length ≤ r.length) :
    ∃ X', dpnIteration xl xu X inp = some X' ∧ X'.length = X.length ∧
      ((∃ a ∈ dpnEntries xl xu X inp, 1 / 10 ^ 8 < |a|) → PopInBox xl xu X') ∧
      ∀ x ∈ X', x.length = xl.length ∧ ∀ d < xl.length,
        xl.getD d 0 - 1 / 10 ^ 8 ≤ x.getD d 0 ∧ x.getD d 0 ≤ xu.getD d 0 + 1 / 10 ^ 8 := by
  refine ⟨_, dpnIteration_eq xl xu X inp, by simp, ?_, ?_⟩
  · rintro ⟨a, ha, hlt⟩ x hx
    obtain ⟨i, hi, rfl⟩ := List.mem_map.mp hx
    have hi := List.mem_range.mp hi
    have hxi := hX X[i] (List.getElem_mem hi)
    have hri := hr _ (List.getElem_mem (by omega : i < inp.step.length))
    obtain ⟨b1, b2, b3, b4⟩ := C33_handler xl xu X[i] ((inp.step[i]'(by omega)).take xl.length) hxi.1 hu
      (by rw [List.length_take]; omega) hxi.2 _ rfl
    rw [← dpnBoxed_getD hi hS] at b1 b2 b3 b4
    have hns : ¬ ∀ x ∈ dpnEntries xl xu X inp, IsClose x 0 := by
      intro h
      have := h a ha
      unfold IsClose at this
      simp only [sub_zero, abs_zero, mul_zero, add_zero] at this
      exact absurd hlt (not_lt.mpr this)
    have hsz : 0 ≤ dpnSizes xl xu X inp i ∧
        dpnSizes xl xu X inp i ≤ ((dpnBoxed xl xu X inp).getD i ([], 0)).2 := by
      unfold dpnSizes
      rw [if_neg hns]
      exact interpolating_nonneg _ _ _ _ _ _ _ _ b2
    have hg : X.getD i [] = X[i] := List.getD_eq_getElem _ _ hi
    refine ⟨by rw [List.length_zipWith, hg, b1, hxi.1, min_self], fun d hd => ?_⟩
    have := b4 _ hsz.1 hsz.2 d hd
    rw [hg]
    rwa [← move_getD (by omega) (by omega)] at this
  · intro x hx
    obtain ⟨i, hi, rfl⟩ := List.mem_map.mp hx
    have hi := List.mem_range.mp hi
    have hxi := hX X[i] (List.getElem_mem hi)
    have hri := hr _ (List.getElem_mem (by omega : i < inp.step.length))
    obtain ⟨b1, b2, b3, b4⟩ := C33_handler xl xu X[i] ((inp.step[i]'(by omega)).take xl.length) hxi.1 hu
      (by rw [List.length_take]; omega) hxi.2 _ rfl
    rw [← dpnBoxed_getD hi hS] at b1 b2 b3 b4
    have hg : X.getD i [] = X[i] := List.getD_eq_getElem _ _ hi
    refine ⟨by rw [List.length_zipWith, hg, b1, hxi.1, min_self], fun d hd => ?_⟩
    have em := move_getD (x := X[i]) (step := ((dpnBoxed xl xu X inp).getD i ([], 0)).1)
      (t := dpnSizes xl xu X inp i) (d := d) (by omega) (by omega)
    unfold move at em
    rw [hg, em]
    have hpos : (0 : K) < 1 / 10 ^ 8 := by positivity
    by_cases hall : ∀ x ∈ dpnEntries xl xu X inp, IsClose x 0
    · have h1 : dpnSizes xl xu X inp i = 1 := by unfold dpnSizes; rw [if_pos hall]
      have h2 : IsClose (((dpnBoxed xl xu X inp).getD i ([], 0)).1.getD d 0) 0 := by
        refine hall _ (mem_dpnEntries hi hS ?_)
        rw [List.getD_eq_getElem ((dpnBoxed xl xu X inp).getD i ([], 0)).1 0 (by omega)]
        exact List.getElem_mem _
      unfold IsClose at h2
      simp only [sub_zero, abs_zero, mul_zero, add_zero] at h2
      rw [h1, one_mul]
      have h3 := hxi.2 d hd
      obtain ⟨h4, h5⟩ := abs_le.mp h2
      constructor <;> linarith
    · have hsz : 0 ≤ dpnSizes xl xu X inp i ∧
          dpnSizes xl xu X inp i ≤ ((dpnBoxed xl xu X inp).getD i ([], 0)).2 := by
        unfold dpnSizes
        rw [if_neg hall]
        exact interpolating_nonneg _ _ _ _ _ _ _ _ b2
      have := b4 _ hsz.1 hsz.2 d hd
      constructor <;> linarith [this.1, this.2]

/-- The condition under which the line search is not skipped, in all iterations of a run. -/
def NeverSkipped (xl xu : List K) : List (DpNInput K) → List (List K) → Prop
  | [], _ => True
  | inp :: l, X => (∃ a ∈ dpnEntries xl xu X inp, 1 / 10 ^ 8 < |a|) ∧
      ∀ X', dpnIteration xl xu X inp = some X' → NeverSkipped xl xu l X'

/-- C33 for repeated iterations, as long as in each of them the step after the box handling has an entry of
absolute value above `10⁻⁸`; missing are iterations in which the line search is skipped because all entries
are close to zero. -/
theorem C33_partial (xl xu : List K) (X : List (List K)) (inputs : List (DpNInput K)) (hu : xu.length = xl.length)
    (hX : PopInBox xl xu X)
    (hin : ∀ inp ∈ inputs, inp.step.length = X.length ∧ ∀ r ∈ inp.step, xl.length ≤ r.length)
    (hskip : NeverSkipped xl xu inputs X) :
    ∃ X', dpnRun xl xu inputs X = some X' ∧ X'.length = X.length ∧ PopInBox xl xu X' := by
  induction inputs generalizing X with
  | nil => exact ⟨X, rfl, rfl, hX⟩
  | cons inp l ih =>
    obtain ⟨h1, h2⟩ := hin inp (by simp)
    obtain ⟨X1, e1, l1, b1, -⟩ := C33_iteration xl xu X inp hu hX h1 h2
    obtain ⟨X', e2, l2, b2⟩ := ih X1 (b1 hskip.1) (fun i hi => by rw [l1]; exact hin i (by simp [hi]))
      (hskip.2 X1 e1)
    exact ⟨X', by simp only [dpnRun, e1, Option.bind_some, e2], l2.trans l1, b2⟩

/-- The input of the violating iteration: a point at distance `10⁻¹⁰` from its lower bound and a step of
`-10⁻⁹`. The box handler returns the bound `1/10`, which the line search ignores. -/
def excursionInput : DpNInput ℚ :=
  { step := [[-1 / 10 ^ 9]], phi := fun _ _ => 0, phi0 := fun _ => 1, cubic := fun _ _ _ _ => none }

theorem C33_excursion : dpnBox [(0 : ℚ)] [1] [1 / 10 ^ 10] [-1 / 10 ^ 9] = ([-1 / 10 ^ 9], 1 / 10) ∧
    dpnRun [(0 : ℚ)] [1] [excursionInput] [[1 / 10 ^ 10]] = some [[-9 / 10 ^ 10]] := by
  constructor <;> decide +kernel

theorem C33_violated : ¬ C33Statement ℚ := by
  intro h
  obtain ⟨X', e, -, hb⟩ := h [0] [1] [[1 / 10 ^ 10]] [excursionInput] rfl (by unfold PopInBox; decide +kernel)
    (by intro inp hinp; rw [List.mem_singleton] at hinp; subst hinp; decide +kernel)
  rw [C33_excursion.2] at e
  rw [← Option.some.inj e] at hb
  have := ((hb [-9 / 10 ^ 10] (by simp)).2 0 (by decide)).1
  norm_num at this

/-- Two iterations of two points, one of which is projected in the first iteration. -/
def dpnExample : List (DpNInput ℚ) :=
  [{ step := [[-1, 1 / 2, 3], [1 / 4, 1, 0]], phi := fun _ s => if s > 1 / 2 then 2 else 0, phi0 := fun _ => 1,
     cubic := fun _ _ _ _ => none },
   { step := [[1, -1, 3], [1, 1, 0]], phi := fun _ _ => 0, phi0 := fun _ => 1, cubic := fun _ _ _ _ => none }]

example : dpnRun [(0 : ℚ), 0] [1, 1] dpnExample [[0, 1 / 2], [1 / 4, 1 / 4]] =
    some [[3 / 4, 0], [23 / 32, 1]] := by
  decide +kernel

example : ∃ X', dpnRun [(0 : ℚ), 0] [1, 1] dpnExample [[0, 1 / 2], [1 / 4, 1 / 4]] = some X' ∧
    X'.length = 2 ∧ PopInBox [(0 : ℚ), 0] [1, 1] X' := by
  refine C33_partial _ _ _ dpnExample rfl (by unfold PopInBox; decide +kernel) ?_ ?_
  · decide +kernel
  · refine ⟨by decide +kernel, fun X' h => ⟨?_, fun _ _ => trivial⟩⟩
    have e : dpnIteration [(0 : ℚ), 0] [1, 1] [[0, 1 / 2], [1 / 4, 1 / 4]] (dpnExample[0]'(by decide)) =
        some [[0, 3 / 4], [11 / 32, 5 / 8]] := by decide +kernel
    have h' := e.symm.trans h
    rw [← Option.some.inj h']
    decide +kernel

/-! ### C34 -/

/-- C34 with the norm of NumPy as a parameter: whatever the gradients are, one iteration of `Lara` moves the
population to points inside the box. -/
def C34Statement (K : Type*) [Field K] [LinearOrder K] (norm : List K → K) : Prop :=
  ∀ (xl xu : List K) (X : List (List K)) (J : List (List (List K))), xu.length = xl.length → 0 < xl.length →
    X ≠ [] → (∀ d < xl.length, xl.getD d 0 < xu.getD d 0) → PopInBox xl xu X → J.length = X.length →
    (∀ G ∈ J, ∀ v ∈ G, v.length = xl.length) →
    ∃ X', laraIteration norm xl xu X J = some X' ∧ X'.length = X.length ∧ PopInBox xl xu X'

/-- C34 if no gradient has norm zero; missing are vanishing gradients, for which the code divides zero by
zero. -/
theorem C34_partial (norm : List K → K) (xl xu : List K) (X : List (List K)) (J : List (List (List K)))
    (hu : xu.length = xl.length) (hpos : 0 < xl.length) (hne : X ≠ [])
    (hbox : ∀ d < xl.length, xl.getD d 0 < xu.getD d 0) (hX : PopInBox xl xu X) (hJ : J.length = X.length)
    (hJd : ∀ G ∈ J, ∀ v ∈ G, v.length = xl.length) (hnorm : ∀ G ∈ J, ∀ v ∈ G, norm v ≠ 0) :
    ∃ X', laraIteration norm xl xu X J = some X' ∧ X'.length = X.length ∧ PopInBox xl xu X' := by
  obtain ⟨S, hS, hSl, hSd, -⟩ := laraStep_total (norm := norm) (dim := xl.length) hJd hnorm
  have hX' : ∀ i (hi : i < X.length), X[i].length = xl.length ∧ InBox xl xu X[i] := fun i hi =>
    ⟨(hX _ (List.getElem_mem hi)).1, fun d hd => (hX _ (List.getElem_mem hi)).2 d
      ((hX _ (List.getElem_mem hi)).1 ▸ hd)⟩
  obtain ⟨S', m, e1, l1, m0, m1, hS', -⟩ := laraBox_spec (X := X) (step := S) hu hpos hne hbox
    (by omega) hX' hSd
  refine ⟨_, by unfold laraIteration; rw [hS, Option.bind_some, e1, Option.bind_some], ?_, ?_⟩
  · rw [List.length_zipWith, l1, min_self]
  · intro x hx
    obtain ⟨i, hi, rfl⟩ := List.mem_iff_getElem.mp hx
    rw [List.length_zipWith] at hi
    rw [List.getElem_zipWith]
    obtain ⟨h1, h2⟩ := hX' i (by omega)
    obtain ⟨h3, h4⟩ := hS' i (by omega) (by omega)
    have hmm : min (max 1 0) m = m := by rw [max_eq_left zero_le_one, min_eq_right m1]
    have em : List.zipWith (fun a s => a + s * min (max 1 0) m) X[i] S'[i] = move X[i] S'[i] m := by
      unfold move
      simp only [hmm, mul_comm m]
    rw [em]
    refine ⟨by rw [move_length (by omega), h1], fun d hd => ?_⟩
    rw [move_getD (by omega) (by omega)]
    have hb := h2 d (by omega)
    exact coord_in_box hb.1 hb.2 m0 (h4 d hd).1 (h4 d hd).2

/-- C34 is violated: a vanishing gradient gives a NaN step. -/
theorem C34_violated : ∀ norm : List ℚ → ℚ, norm [0] = 0 → ¬ C34Statement ℚ norm := by
  intro norm h0 h
  obtain ⟨X', e, -⟩ := h [0] [1] [[1 / 2]] [[[0]]] rfl (by decide) (by simp) (by decide +kernel)
    (by unfold PopInBox; decide +kernel) rfl (by decide)
  simp [laraIteration, laraStep, h0] at e

/-- Two points with two gradients each (with the norm of `ℓ¹`): the first one is at the boundary. -/
example : laraIteration (fun v : List ℚ => (v.map fun a => |a|).sum) [0, 0] [1, 1] [[0, 1 / 2], [3 / 4, 1 / 2]]
    [[[1, 1], [2, -1]], [[-1, 0], [0, -3]]] = some [[0, 11 / 24], [1, 3 / 4]] := by
  decide +kernel

example : ∃ X', laraIteration (fun v : List ℚ => (v.map fun a => |a|).sum) [0, 0] [1, 1]
    [[0, 1 / 2], [3 / 4, 1 / 2]] [[[1, 1], [2, -1]], [[-1, 0], [0, -3]]] = some X' ∧ X'.length = 2 ∧
      PopInBox [(0 : ℚ), 0] [1, 1] X' :=
  C34_partial _ _ _ _ _ rfl (by decide) (by simp) (by decide +kernel) (by unfold PopInBox; decide +kernel) rfl
    (by decide) (by decide +kernel)

end BoxStep

end Verif.Props
