import Verif.HV.Scale
import Verif.HV.Eval
import Verif.HV.SpecLemmas
import Verif.HV.Congr
import Verif.HV.Improvement

/-!
# C01 - C06: the hypervolume

`IsArgsort argsort` is the contract of `np.argsort`: ties may be broken in any way.
`Admissible d front ref` is defined in `Verif.HV.Correct`; for `d ≤ 3` it only bounds the size of
the numbers.
-/

namespace Verif.Props

open Verif.HV

variable {argsort : List ℝ → List ℕ} {d : ℕ} {front : List (ℕ → ℝ)} {ref : ℕ → ℝ}

/-- Points whose distance to the reference point is within the range of the start value
`-1.0e308` of `bounds` (hypervolume.py 58). -/
def InRange (d : ℕ) (front : List (ℕ → ℝ)) (ref : ℕ → ℝ) : Prop :=
  ∀ p ∈ front, ∀ i < d, ref i - p i ≤ 10 ^ 308

theorem InRange.admissible (h : InRange d front ref) (hd : d ≤ 3) : Admissible d front ref where
  range := fun p hp _ i _ hi => h p hp i hi
  triple := fun h4 => absurd h4 (by omega)
  tie := fun j h1 h2 => absurd h2 (by omega)
  below := fun h4 => absurd h4 (by omega)

/-! ## C01 -/

/-- The property as stated: exact for all inputs in range, whatever the number of objectives. -/
def C01Statement : Prop :=
  ∀ (argsort : List ℝ → List ℕ), IsArgsort argsort → ∀ (d : ℕ), 0 < d →
    ∀ (front : List (ℕ → ℝ)) (ref : ℕ → ℝ), InRange d front ref →
      hypervolume argsort d front ref = some (Spec.hvol d front ref)

/-- C01 for one, two and three objectives: `hypervolume` terminates without error and returns the
Lebesgue measure of the dominated region, for all inputs (ties, duplicates, dominated points and
points outside the reference box included) and every tie-breaking of the sort. -/
theorem C01_three_objectives (ha : IsArgsort argsort) (hd : 0 < d) (hd3 : d ≤ 3)
    (h : InRange d front ref) : hypervolume argsort d front ref = some (Spec.hvol d front ref) :=
  compute_correct ha hd (h.admissible hd3)

example : hypervolume stableArgsort 3
    [pt [1, 2, 1], pt [1, 2, 1], pt [2, 1, 1], pt [9, 0, 0], pt [4, 2, 0]] (pt [4, 4, 4]) =
    some (Spec.hvol 3 [pt [1, 2, 1], pt [1, 2, 1], pt [2, 1, 1], pt [9, 0, 0], pt [4, 2, 0]]
      (pt [4, 4, 4])) := by
  refine C01_three_objectives stableArgsort_isArgsort (by norm_num) le_rfl ?_
  have h308 : (10 : ℝ) ≤ 10 ^ 308 := by
    calc (10 : ℝ) = 10 ^ 1 := by norm_num
      _ ≤ 10 ^ 308 := pow_le_pow_right₀ (by norm_num) (by norm_num)
  intro p hp i hi
  refine le_trans ?_ h308
  simp only [List.mem_cons, List.not_mem_nil, or_false] at hp
  rcases hp with rfl | rfl | rfl | rfl | rfl <;> interval_cases i <;> norm_num [pt]

/-- C01 for any number of objectives. The full statement is `C01Statement`, which is false
(`C01_violated`). Missing: inputs with four or more objectives in which two relevant points agree in
the first three objectives (`C01_violated_ties`, `C01_violated_nondominated`) or tie in one of the
objectives `3, …, d - 2`, and inputs with seven or more objectives in which a relevant point touches
the reference point (`C01_violated_touching`). -/
theorem C01_any_objectives_partial (ha : IsArgsort argsort) (hd : 0 < d)
    (h : Admissible d front ref) : hypervolume argsort d front ref = some (Spec.hvol d front ref) :=
  compute_correct ha hd h

/-- With four objectives it suffices that the relevant points are different and that none of them
dominates another. -/
theorem admissible_four (h : InRange 4 front ref)
    (hnd : (front.filter (fun p => decide (∀ i < 4, p i ≤ ref i))).Pairwise
      (fun p q => (∃ i < 4, p i < q i) ∧ ∃ i < 4, q i < p i)) : Admissible 4 front ref := by
  refine ⟨fun p hp _ i _ hi => h p hp i hi, fun _ => ?_,
    fun j h1 h2 => absurd h2 (by omega), fun h7 => absurd h7 (by omega)⟩
  have e : (fun p => weaklyDominates 4 p ref) = fun p => decide (∀ i < 4, p i ≤ ref i) := by
    funext p
    rw [Bool.eq_iff_iff, weaklyDominates_iff, decide_eq_true_iff]
  rw [e]
  refine hnd.imp ?_
  rintro p q ⟨⟨i, hi, h1⟩, j, hj, h2⟩ e0 e1 e2
  have hi3 : i = 3 := by
    by_contra hcon
    have : i = 0 ∨ i = 1 ∨ i = 2 := by omega
    rcases this with rfl | rfl | rfl <;> linarith
  have hj3 : j = 3 := by
    by_contra hcon
    have : j = 0 ∨ j = 1 ∨ j = 2 := by omega
    rcases this with rfl | rfl | rfl <;> linarith
  subst hi3; subst hj3
  exact lt_asymm h1 h2

/-- C01 for four objectives, the usual case: if the relevant points are different and none of them
dominates another, the result is exact; they may tie in single objectives and touch the reference
point. Missing: repeated and dominated points (`C01_violated_ties`). With five objectives this is
false (`C01_violated_nondominated`). -/
theorem C01_four_objectives_partial (ha : IsArgsort argsort) (h : InRange 4 front ref)
    (hnd : (front.filter (fun p => decide (∀ i < 4, p i ≤ ref i))).Pairwise
      (fun p q => (∃ i < 4, p i < q i) ∧ ∃ i < 4, q i < p i)) :
    hypervolume argsort 4 front ref = some (Spec.hvol 4 front ref) :=
  compute_correct ha (by norm_num) (admissible_four h hnd)

/-- Ties in every objective, and points that touch the reference point. -/
example : hypervolume stableArgsort 4
    [pt [1, 2, 2, 4], pt [1, 2, 3, 1], pt [2, 1, 2, 4], pt [4, 0, 2, 1]] (pt [4, 4, 4, 4]) =
    some (Spec.hvol 4 [pt [1, 2, 2, 4], pt [1, 2, 3, 1], pt [2, 1, 2, 4], pt [4, 0, 2, 1]]
      (pt [4, 4, 4, 4])) := by
  refine C01_four_objectives_partial stableArgsort_isArgsort ?_ (List.Pairwise.filter _ ?_)
  · have h308 : (10 : ℝ) ≤ 10 ^ 308 := by
      calc (10 : ℝ) = 10 ^ 1 := by norm_num
        _ ≤ 10 ^ 308 := pow_le_pow_right₀ (by norm_num) (by norm_num)
    intro p hp i hi
    refine le_trans ?_ h308
    simp only [List.mem_cons, List.not_mem_nil, or_false] at hp
    rcases hp with rfl | rfl | rfl | rfl <;> interval_cases i <;> norm_num [pt]
  · simp only [List.pairwise_cons, List.mem_cons, List.not_mem_nil, or_false, forall_eq_or_imp,
      forall_eq, List.Pairwise.nil, and_true, IsEmpty.forall_iff, implies_true]
    refine ⟨⟨⟨⟨2, ?_⟩, 3, ?_⟩, ⟨⟨0, ?_⟩, 1, ?_⟩, ⟨0, ?_⟩, 1, ?_⟩, ⟨⟨⟨0, ?_⟩, 1, ?_⟩, ⟨0, ?_⟩, 1, ?_⟩,
      ⟨0, ?_⟩, 1, ?_⟩ <;> norm_num [pt]

/-- Five objectives; ties in all objectives except the fourth, a point that touches the reference. -/
theorem example_admissible : Admissible 5
    [pt [1, 5, 2, 3, 1], pt [1, 4, 2, 2, 1], pt [3, 4, 1, 1, 1]] (pt [6, 5, 6, 6, 6]) where
  range := by
    have h308 : (10 : ℝ) ≤ 10 ^ 308 := by
      calc (10 : ℝ) = 10 ^ 1 := by norm_num
        _ ≤ 10 ^ 308 := pow_le_pow_right₀ (by norm_num) (by norm_num)
    intro p hp _ i _ hi
    refine le_trans ?_ h308
    simp only [List.mem_cons, List.not_mem_nil, or_false] at hp
    rcases hp with rfl | rfl | rfl <;> interval_cases i <;> norm_num [pt]
  triple := by
    intro _
    refine List.Pairwise.filter _ ?_
    simp [pt]
  tie := by
    intro j h1 h2
    refine List.Pairwise.filter _ ?_
    obtain rfl : j = 3 := by omega
    simp [pt]
  below := by
    intro h7
    norm_num at h7

example : hypervolume stableArgsort 5
    [pt [1, 5, 2, 3, 1], pt [1, 4, 2, 2, 1], pt [3, 4, 1, 1, 1]] (pt [6, 5, 6, 6, 6]) =
    some (Spec.hvol 5 [pt [1, 5, 2, 3, 1], pt [1, 4, 2, 2, 1], pt [3, 4, 1, 1, 1]]
      (pt [6, 5, 6, 6, 6])) :=
  C01_any_objectives_partial stableArgsort_isArgsort (by norm_num) example_admissible

theorem castP_pt (l : List ℤ) : castP (pt l) = pt (l.map (fun v : ℤ => (v : ℝ))) := by
  funext i
  simp only [castP, pt]
  rw [List.getD_eq_getElem?_getD, List.getD_eq_getElem?_getD, List.getElem?_map]
  rcases l[i]? with _ | v <;> simp

/-- Value of the model on integer points below the origin. -/
theorem eval_code {d : ℕ} (l : List (List ℤ)) (v : ℤ)
    (h : compute stableArgsort d (l.map pt) (pt []) = some v) :
    hypervolume stableArgsort d (l.map (fun p => pt (p.map (fun v : ℤ => (v : ℝ))))) (pt []) =
      some (v : ℝ) := by
  have := compute_cast stableArgsort_cast d (l.map pt) (pt [])
  rw [h, List.map_map] at this
  have e : (castP ∘ pt : List ℤ → ℕ → ℝ) = fun p => pt (p.map (fun v : ℤ => (v : ℝ))) :=
    funext castP_pt
  rw [e, castP_pt] at this
  exact this

/-- Value of the specification on integer points below the origin. -/
theorem eval_spec {d : ℕ} (l : List (List ℤ)) (v : ℤ)
    (hneg : ∀ p ∈ l, ∀ x ∈ p, x ≤ 0)
    (h : naive (cargoOf (l.map pt)) d ((List.range l.length).map (· + 1)) = v) :
    Spec.hvol d (l.map (fun p => pt (p.map (fun v : ℤ => (v : ℝ))))) (pt []) = (v : ℝ) := by
  have := hvol_cast d (l.map pt) (by
    intro p hp i _
    obtain ⟨q, hq, rfl⟩ := List.mem_map.mp hp
    simp only [pt]
    rw [List.getD_eq_getElem?_getD]
    rcases hx : q[i]? with _ | x
    · simp
    · simpa using hneg q hq x (List.mem_of_getElem? hx))
  rw [List.length_map, h, List.map_map] at this
  have e : (castP ∘ pt : List ℤ → ℕ → ℝ) = fun p => pt (p.map (fun v : ℤ => (v : ℝ))) :=
    funext castP_pt
  rw [e] at this
  have hz : (pt [] : ℕ → ℝ) = fun _ => 0 := by funext i; simp [pt]
  rw [hz]; exact this

/-- Four objectives, a dominated point and ties: the code returns 8, the hypervolume is 10. -/
theorem C01_violated_ties :
    hypervolume stableArgsort 4 [pt [-2, -1, -2, -1], pt [-2, -1, -2, -2], pt [-2, -2, -1, -1]]
        (pt []) = some (8 : ℝ) ∧
      Spec.hvol 4 [pt [-2, -1, -2, -1], pt [-2, -1, -2, -2], pt [-2, -2, -1, -1]] (pt []) = 10 := by
  constructor
  · have := eval_code (d := 4) [[-2, -1, -2, -1], [-2, -1, -2, -2], [-2, -2, -1, -1]] 8
      (by decide +kernel)
    simpa using this
  · have := eval_spec (d := 4) [[-2, -1, -2, -1], [-2, -1, -2, -2], [-2, -2, -1, -1]] 10
      (by decide) (by decide +kernel)
    simpa using this

/-- Five objectives, mutually non-dominated points with ties: the code returns 12, the hypervolume
is 14. -/
theorem C01_violated_nondominated :
    hypervolume stableArgsort 5
        [pt [-1, -2, -2, -1, -2], pt [-2, -1, -1, -1, -2], pt [-1, -2, -2, -2, -1]] (pt []) =
        some (12 : ℝ) ∧
      Spec.hvol 5
        [pt [-1, -2, -2, -1, -2], pt [-2, -1, -1, -1, -2], pt [-1, -2, -2, -2, -1]] (pt []) = 14 := by
  constructor
  · have := eval_code (d := 5) [[-1, -2, -2, -1, -2], [-2, -1, -1, -1, -2], [-1, -2, -2, -2, -1]] 12
      (by decide +kernel)
    simpa using this
  · have := eval_spec (d := 5) [[-1, -2, -2, -1, -2], [-2, -1, -1, -1, -2], [-1, -2, -2, -2, -1]] 14
      (by decide) (by decide +kernel)
    simpa using this

/-- Seven objectives, no ties in any objective, but one coordinate of one point equals the reference
point's: the code returns 331, the hypervolume is 327. -/
theorem C01_violated_touching :
    hypervolume stableArgsort 7 [pt [-4, -1, -3, -3, -1, -2, -2], pt [0, -2, -1, -4, -3, -3, -3],
        pt [-3, -4, -4, -1, -4, -1, -1]] (pt []) = some (331 : ℝ) ∧
      Spec.hvol 7 [pt [-4, -1, -3, -3, -1, -2, -2], pt [0, -2, -1, -4, -3, -3, -3],
        pt [-3, -4, -4, -1, -4, -1, -1]] (pt []) = 327 := by
  constructor
  · have := eval_code (d := 7) [[-4, -1, -3, -3, -1, -2, -2], [0, -2, -1, -4, -3, -3, -3],
      [-3, -4, -4, -1, -4, -1, -1]] 331 (by decide +kernel)
    simpa using this
  · have := eval_spec (d := 7) [[-4, -1, -3, -3, -1, -2, -2], [0, -2, -1, -4, -3, -3, -3],
      [-3, -4, -4, -1, -4, -1, -1]] 327 (by decide) (by decide +kernel)
    simpa using this

theorem inRange_of_small {d : ℕ} {l : List (List ℝ)} (h : ∀ p ∈ l, ∀ x ∈ p, -10 ≤ x) :
    InRange d (l.map pt) (pt []) := by
  have h308 : (10 : ℝ) ≤ 10 ^ 308 := by
    calc (10 : ℝ) = 10 ^ 1 := by norm_num
      _ ≤ 10 ^ 308 := pow_le_pow_right₀ (by norm_num) (by norm_num)
  intro p hp i _
  refine le_trans ?_ h308
  obtain ⟨q, hq, rfl⟩ := List.mem_map.mp hp
  simp only [pt]
  rw [List.getD_eq_getElem?_getD]
  rcases hx : q[i]? with _ | x
  · simp [hx]
  · have := h q hq x (List.mem_of_getElem? hx)
    simp [hx]
    linarith

/-- The code violates C01. -/
theorem C01_violated : ¬ C01Statement := by
  intro h
  have h1 := h stableArgsort stableArgsort_isArgsort 4 (by norm_num)
    [pt [-2, -1, -2, -1], pt [-2, -1, -2, -2], pt [-2, -2, -1, -1]] (pt [])
    (inRange_of_small (l := [[-2, -1, -2, -1], [-2, -1, -2, -2], [-2, -2, -1, -1]])
      (by simp; norm_num))
  rw [C01_violated_ties.1, C01_violated_ties.2] at h1
  norm_num at h1

/-! ## C02 -/

/-- C02 for at most three objectives: order, repetitions and tie-breaking do not matter. -/
theorem C02_three_objectives {argsort' : List ℝ → List ℕ} {front' : List (ℕ → ℝ)}
    (ha : IsArgsort argsort) (ha' : IsArgsort argsort') (hd : 0 < d) (hd3 : d ≤ 3)
    (h : InRange d front ref) (hmem : ∀ p, p ∈ front ↔ p ∈ front') :
    hypervolume argsort d front ref = hypervolume argsort' d front' ref := by
  rw [C01_three_objectives ha hd hd3 h,
    C01_three_objectives ha' hd hd3 (fun p hp => h p ((hmem p).mpr hp)), Spec.hvol_congr_mem hmem]

/-- C02 for any number of objectives. Missing: repetitions and the inputs excluded by `Admissible`;
there the statement is false (`C02_violated`). -/
theorem C02_any_objectives_partial {argsort' : List ℝ → List ℕ} {front' : List (ℕ → ℝ)}
    (ha : IsArgsort argsort) (ha' : IsArgsort argsort') (hd : 0 < d)
    (h : Admissible d front ref) (hperm : front.Perm front') :
    hypervolume argsort d front ref = hypervolume argsort' d front' ref := by
  have h' : Admissible d front' ref :=
    { range := fun p hp => h.range p (hperm.mem_iff.mpr hp)
      triple := fun h4 => ((hperm.filter _).pairwise_iff
        (fun hab h0 h1 h2 => hab h0.symm h1.symm h2.symm)).mp (h.triple h4)
      tie := fun j h1 h2 => ((hperm.filter _).pairwise_iff (fun hab hba => hab hba.symm)).mp
        (h.tie j h1 h2)
      below := fun h4 p hp => h.below h4 p (hperm.mem_iff.mpr hp) }
  rw [C01_any_objectives_partial ha hd h, C01_any_objectives_partial ha' hd h',
    Spec.hvol_congr_mem (fun p => hperm.mem_iff)]

example : hypervolume stableArgsort 5
    [pt [1, 5, 2, 3, 1], pt [1, 4, 2, 2, 1], pt [3, 4, 1, 1, 1]] (pt [6, 5, 6, 6, 6]) =
    hypervolume stableArgsort 5
    [pt [3, 4, 1, 1, 1], pt [1, 5, 2, 3, 1], pt [1, 4, 2, 2, 1]] (pt [(6 : ℝ), 5, 6, 6, 6]) :=
  C02_any_objectives_partial stableArgsort_isArgsort stableArgsort_isArgsort (by norm_num)
    example_admissible (by
      refine List.Perm.trans ?_ (List.Perm.swap _ _ _)
      exact List.Perm.cons _ (List.Perm.swap _ _ _))

/-- The code violates C02: exchanging two rows changes the result from 8 to 10. -/
theorem C02_violated :
    hypervolume stableArgsort 4 [pt [-2, -1, -2, -1], pt [-2, -1, -2, -2], pt [-2, -2, -1, -1]]
        (pt []) = some (8 : ℝ) ∧
      hypervolume stableArgsort 4 [pt [-2, -1, -2, -2], pt [-2, -1, -2, -1], pt [-2, -2, -1, -1]]
        (pt []) = some (10 : ℝ) := by
  refine ⟨C01_violated_ties.1, ?_⟩
  have := eval_code (d := 4) [[-2, -1, -2, -2], [-2, -1, -2, -1], [-2, -2, -1, -1]] 10
    (by decide +kernel)
  simpa using this

/-! ## C03 -/

theorem Admissible.sublist {front' : List (ℕ → ℝ)} (h : Admissible d front' ref)
    (hs : front.Sublist front') : Admissible d front ref where
  range := fun p hp => h.range p (hs.subset hp)
  triple := fun h4 => (h.triple h4).sublist (hs.filter _)
  tie := fun j h1 h2 => (h.tie j h1 h2).sublist (hs.filter _)
  below := fun h4 p hp => h.below h4 p (hs.subset hp)

theorem InRange.subset {front' : List (ℕ → ℝ)} (h : InRange d front' ref)
    (hs : ∀ p ∈ front, p ∈ front') : InRange d front ref :=
  fun p hp => h p (hs p hp)

/-- C03, monotonicity, at most three objectives. -/
theorem C03_monotone_three_objectives {front' : List (ℕ → ℝ)} (ha : IsArgsort argsort) (hd : 0 < d)
    (hd3 : d ≤ 3) (h : InRange d front' ref) (hs : ∀ p ∈ front, p ∈ front') :
    ∃ v v', hypervolume argsort d front ref = some v ∧ hypervolume argsort d front' ref = some v' ∧
      0 ≤ v ∧ v ≤ v' :=
  ⟨_, _, C01_three_objectives ha hd hd3 (h.subset hs), C01_three_objectives ha hd hd3 h,
    Spec.hvol_nonneg, Spec.hvol_mono (fun p hp _ => ⟨p, hs p hp, fun _ _ => le_rfl⟩)⟩

/-- C03, monotonicity, any number of objectives. Missing: the inputs excluded by `Admissible`; there
it is false (`C03_violated`). -/
theorem C03_monotone_any_objectives_partial {front' : List (ℕ → ℝ)} (ha : IsArgsort argsort)
    (hd : 0 < d) (h : Admissible d front' ref) (hs : front.Sublist front') :
    ∃ v v', hypervolume argsort d front ref = some v ∧ hypervolume argsort d front' ref = some v' ∧
      0 ≤ v ∧ v ≤ v' :=
  ⟨_, _, C01_any_objectives_partial ha hd (Admissible.sublist h hs),
    C01_any_objectives_partial ha hd h, Spec.hvol_nonneg,
    Spec.hvol_mono (fun p hp _ => ⟨p, hs.subset hp, fun _ _ => le_rfl⟩)⟩

example : ∃ v v', hypervolume stableArgsort 5
      [pt [1, 5, 2, 3, 1], pt [3, 4, 1, 1, 1]] (pt [6, 5, 6, 6, 6]) = some v ∧
    hypervolume stableArgsort 5
      [pt [1, 5, 2, 3, 1], pt [1, 4, 2, 2, 1], pt [3, 4, 1, 1, 1]] (pt [(6 : ℝ), 5, 6, 6, 6]) = some v' ∧
    0 ≤ v ∧ v ≤ v' :=
  C03_monotone_any_objectives_partial stableArgsort_isArgsort (by norm_num) example_admissible
    (by simp)

/-- C03, points that do not weakly dominate the reference point: they never matter, in any dimension
and for any sort function. -/
theorem C03_outside {x : ℕ → ℝ} (hx : ∃ i < d, ref i < x i) :
    hypervolume argsort d (x :: front) ref = hypervolume argsort d front ref := by
  have hf : weaklyDominates d x ref = false := by
    rw [Bool.eq_false_iff]
    intro h
    rw [weaklyDominates_iff] at h
    obtain ⟨i, hi, hlt⟩ := hx
    exact absurd (h i hi) (not_le.mpr hlt)
  unfold hypervolume
  apply compute_congr <;> simp [relevantPoints, hf, Agree]

example : hypervolume stableArgsort 4 [pt [5, 0, 0, 0], pt [1, 1, 1, 1]] (pt [(2 : ℝ), 2, 2, 2]) =
    hypervolume stableArgsort 4 [pt [1, 1, 1, 1]] (pt [(2 : ℝ), 2, 2, 2]) :=
  C03_outside ⟨0, by norm_num, by norm_num [pt]⟩

/-- C03, weakly dominated points, at most three objectives. -/
theorem C03_dominated_three_objectives {x : ℕ → ℝ} (ha : IsArgsort argsort) (hd : 0 < d)
    (hd3 : d ≤ 3) (h : InRange d (x :: front) ref) (hx : ∃ q ∈ front, ∀ i < d, q i ≤ x i) :
    hypervolume argsort d (x :: front) ref = hypervolume argsort d front ref := by
  rw [C01_three_objectives ha hd hd3 h,
    C01_three_objectives ha hd hd3 (h.subset (fun p hp => by simp [hp]))]
  have := Spec.hvi_eq_zero_iff (d := d) (P := front) (ref := ref) (x := x)
  rw [Spec.hvol_cons, this.mpr (Or.inl hx), add_zero]

/-- C03, weakly dominated points, any number of objectives. Missing: the inputs excluded by
`Admissible`; there it is false (`C03_violated`). -/
theorem C03_dominated_any_objectives_partial {x : ℕ → ℝ} (ha : IsArgsort argsort) (hd : 0 < d)
    (h : Admissible d (x :: front) ref) (hx : ∃ q ∈ front, ∀ i < d, q i ≤ x i) :
    hypervolume argsort d (x :: front) ref = hypervolume argsort d front ref := by
  rw [C01_any_objectives_partial ha hd h,
    C01_any_objectives_partial ha hd (Admissible.sublist h (List.sublist_cons_self _ _))]
  have := Spec.hvi_eq_zero_iff (d := d) (P := front) (ref := ref) (x := x)
  rw [Spec.hvol_cons, this.mpr (Or.inl hx), add_zero]

/-- C03, upper bound: the box spanned by a componentwise lower bound and the reference. -/
theorem C03_box_three_objectives {m : ℕ → ℝ} (ha : IsArgsort argsort) (hd : 0 < d) (hd3 : d ≤ 3)
    (h : InRange d front ref) (hm : ∀ p ∈ front, ∀ i < d, m i ≤ p i) (hr : ∀ i < d, m i ≤ ref i) :
    ∃ v, hypervolume argsort d front ref = some v ∧ v ≤ ∏ i ∈ Finset.range d, (ref i - m i) :=
  ⟨_, C01_three_objectives ha hd hd3 h, Spec.hvol_le_box hm hr⟩

/-- C03, upper bound, any number of objectives. Missing: the inputs excluded by `Admissible`. -/
theorem C03_box_any_objectives_partial {m : ℕ → ℝ} (ha : IsArgsort argsort) (hd : 0 < d)
    (h : Admissible d front ref) (hm : ∀ p ∈ front, ∀ i < d, m i ≤ p i)
    (hr : ∀ i < d, m i ≤ ref i) :
    ∃ v, hypervolume argsort d front ref = some v ∧ v ≤ ∏ i ∈ Finset.range d, (ref i - m i) :=
  ⟨_, C01_any_objectives_partial ha hd h, Spec.hvol_le_box hm hr⟩

/-- The code violates C03: adding a dominated point lowers the result from 10 to 8. -/
theorem C03_violated :
    hypervolume stableArgsort 4 [pt [-2, -1, -2, -2], pt [-2, -2, -1, -1]] (pt []) = some (10 : ℝ) ∧
      hypervolume stableArgsort 4 [pt [-2, -1, -2, -1], pt [-2, -1, -2, -2], pt [-2, -2, -1, -1]]
        (pt []) = some (8 : ℝ) ∧
      ∀ i < 4, (pt [-2, -1, -2, -2] : ℕ → ℝ) i ≤ pt [-2, -1, -2, -1] i := by
  refine ⟨?_, C01_violated_ties.1, ?_⟩
  · have := eval_code (d := 4) [[-2, -1, -2, -2], [-2, -2, -1, -1]] 10 (by decide +kernel)
    simpa using this
  · intro i hi
    interval_cases i <;> norm_num [pt]

/-! ## C04 -/

/-- C04, translation: exact for all inputs, in any dimension, for any sort function. -/
theorem C04_translation (v : ℕ → ℝ) :
    hypervolume argsort d (front.map (fun p i => p i + v i)) (fun i => ref i + v i) =
      hypervolume argsort d front ref := by
  obtain ⟨f, hf, hrel⟩ := relevantPoints_spec d front ref
  obtain ⟨f', hf', hrel'⟩ := relevantPoints_spec d (front.map (fun p i => p i + v i))
    (fun i => ref i + v i)
  have hfilter : (front.map (fun p i => p i + v i)).filter
      (fun p => weaklyDominates d p (fun i => ref i + v i)) =
      (front.filter (fun p => weaklyDominates d p ref)).map (fun p i => p i + v i) := by
    rw [List.filter_map]
    congr 1
    apply List.filter_congr
    intro p _
    simp [weaklyDominates]
  rw [hfilter, List.map_map] at hrel'
  unfold hypervolume
  apply compute_congr
  · rw [hrel, hrel']; simp
  · intro z i hi
    rw [hrel, hrel']
    unfold cargoOf
    by_cases hz : z = 0
    · simp [hz]
    · simp only [hz, if_false]
      rw [List.getD_eq_getElem?_getD, List.getD_eq_getElem?_getD, List.getElem?_map,
        List.getElem?_map]
      rcases (front.filter (fun p => weaklyDominates d p ref))[z - 1]? with _ | p
      · simp
      · simp [hf p i hi, hf' _ i hi]

example : hypervolume stableArgsort 4 ([pt [0, 1, 0, 1], pt [0, 1, 0, 0]].map (fun p i => p i + pt [1, 2, 3, 4] i))
    (fun i => pt [2, 2, 2, 2] i + pt [1, 2, 3, 4] i) =
    hypervolume stableArgsort 4 [pt [0, 1, 0, 1], pt [0, 1, 0, 0]] (pt [(2 : ℝ), 2, 2, 2]) :=
  C04_translation _

/-- Points whose distance to the reference point is below the start value of `bounds`. -/
def InsideRange (d : ℕ) (front : List (ℕ → ℝ)) (ref : ℕ → ℝ) : Prop :=
  ∀ p ∈ front, ∀ i < d, ref i - p i < 10 ^ 308

/-- C04, scaling, for all inputs and any number of objectives: ties and dominated points, on which the value itself may be wrong
(C01), included. The sort must not depend on more than the order of the values. -/
theorem C04_scaling (ha : ComparisonSort argsort) (s : ℕ → ℝ) (hs : ∀ i < d, 0 < s i) (h : InsideRange d front ref)
    (h' : InsideRange d (front.map (fun p i => s i * p i)) (fun i => s i * ref i)) :
    hypervolume argsort d (front.map (fun p i => s i * p i)) (fun i => s i * ref i) =
      (hypervolume argsort d front ref).map ((∏ i ∈ Finset.range d, s i) * ·) := by
  cases d with
  | zero => rfl
  | succ d =>
    have hdom : ∀ p : ℕ → ℝ, weaklyDominates (d + 1) (fun i => s i * p i) (fun i => s i * ref i) =
        weaklyDominates (d + 1) p ref := by
      intro p
      rw [Bool.eq_iff_iff, weaklyDominates_iff, weaklyDominates_iff]
      refine forall_congr' fun i => forall_congr' fun hi => ?_
      exact mul_le_mul_iff_right₀ (hs i hi)
    obtain ⟨f, hf, hrel⟩ := relevantPoints_spec (d + 1) front ref
    obtain ⟨f', hf', hrel'⟩ := relevantPoints_spec (d + 1) (front.map (fun p i => s i * p i)) (fun i => s i * ref i)
    have e : ((fun p => weaklyDominates (d + 1) p fun i => s i * ref i) ∘ fun p i => s i * p i) =
        fun p => weaklyDominates (d + 1) p ref := funext hdom
    rw [List.filter_map, e, List.map_map] at hrel'
    set l := front.filter (fun p => weaklyDominates (d + 1) p ref) with hl
    -- coordinates beyond the objectives are replaced by zero
    set c : ℕ → ℕ → ℝ := fun z i => if i < d + 1 then cargoOf (l.map f) z i else 0 with hc
    set s' : ℕ → ℝ := fun i => if i < d + 1 then s i else 1 with hs'
    have hcargo : ∀ z, ∀ i < d + 1, cargoOf (l.map (f' ∘ fun p i => s i * p i)) z i = s i * cargoOf (l.map f) z i := by
      intro z i hi
      unfold cargoOf
      by_cases hz : z = 0
      · simp [hz]
      · simp only [hz, if_false]
        rw [List.getD_eq_getElem?_getD, List.getD_eq_getElem?_getD, List.getElem?_map, List.getElem?_map]
        rcases l[z - 1]? with _ | p
        · simp
        · simp [hf p i hi, hf' _ i hi, mul_sub]
    have hpos : (-((10 ^ 308 : ℕ) : ℝ)) < 0 := by
      rw [neg_lt_zero]
      positivity
    have hrange : ∀ z, ∀ i < d + 1, -((10 ^ 308 : ℕ) : ℝ) < cargoOf (l.map f) z i ∧
        -((10 ^ 308 : ℕ) : ℝ) < s i * cargoOf (l.map f) z i := by
      intro z i hi
      unfold cargoOf
      by_cases hz : z = 0
      · simp [hz]
      · simp only [hz, if_false]
        rw [List.getD_eq_getElem?_getD, List.getElem?_map]
        rcases hp : l[z - 1]? with _ | p
        · simp
        · have hm : p ∈ front := (List.mem_filter.mp (List.mem_of_getElem? hp)).1
          have h1 := h p hm i hi
          have h2 := h' _ (List.mem_map_of_mem hm) i hi
          simp only [Option.map_some, Option.getD_some, hf p i hi]
          push_cast
          constructor
          · linarith
          · rw [mul_sub]
            linarith
    have hsc : ScaledCargo s' c (fun z i => s' i * c z i) := by
      refine ⟨fun i => ?_, fun _ _ => rfl, fun z i => ?_, fun z i => ?_⟩
      · simp only [hs']
        split_ifs with hi
        · exact hs i hi
        · exact one_pos
      · simp only [hc]
        split_ifs with hi
        · exact (hrange z i hi).1
        · exact hpos
      · simp only [hc, hs']
        split_ifs with hi
        · exact (hrange z i hi).2
        · simpa using hpos
    have hprod : ∏ i ∈ Finset.range (d + 1), s i = scaleProd s' (d + 1) := by
      refine Finset.prod_congr rfl fun i hi => ?_
      simp only [hs', Finset.mem_range.mp hi, if_true]
    unfold hypervolume
    rw [hprod, compute_eq_of_agree (front := front) (ref := ref) (c := c) (n := l.length) argsort (by rw [hrel, List.length_map])
        (by rw [hrel]; intro z i hi; simp only [hc, hi, if_true]),
      compute_eq_of_agree (c := fun z i => s' i * c z i) (n := l.length) argsort (by rw [hrel', List.length_map])
        (by rw [hrel']; intro z i hi; rw [hcargo z i hi]; simp only [hc, hs', hi, if_true])]
    exact run_scaled hsc ha d l.length

/-- The sort of the examples depends on the order only. -/
theorem stableArgsort_comparison {K : Type*} [LinearOrder K] : ComparisonSort (stableArgsort (K := K)) := by
  intro l f hf
  unfold stableArgsort
  rw [List.zipIdx_map, ← List.map_insertionSort (fun a b : K × ℕ => a.1 ≤ b.1), List.map_map]
  · rfl
  · intro a _ b _
    exact hf.le_iff_le.symm

/-- A point set with ties in four objectives, on which the value is wrong (`C01_violated`): it is scaled all the same. -/
example : hypervolume stableArgsort 4 ([pt [0, 1, 0, 1], pt [0, 1, 0, 0]].map fun p i => pt [2, 3, 4, 5] i * p i)
      (fun i => pt [2, 3, 4, 5] i * pt [(2 : ℝ), 2, 2, 2] i) =
    (hypervolume stableArgsort 4 [pt [0, 1, 0, 1], pt [0, 1, 0, 0]] (pt [(2 : ℝ), 2, 2, 2])).map
      ((∏ i ∈ Finset.range 4, pt [2, 3, 4, 5] i) * ·) := by
  have h308 : (10 : ℝ) < 10 ^ 308 := by
    calc (10 : ℝ) = 10 ^ 1 := by norm_num
      _ < 10 ^ 308 := pow_lt_pow_right₀ (by norm_num) (by norm_num)
  refine C04_scaling stableArgsort_comparison _ ?_ ?_ ?_
  · intro i hi
    interval_cases i <;> norm_num [pt]
  · intro p hp i hi
    refine lt_of_le_of_lt ?_ h308
    simp only [List.mem_cons, List.not_mem_nil, or_false] at hp
    rcases hp with rfl | rfl <;> interval_cases i <;> norm_num [pt]
  · intro p hp i hi
    refine lt_of_le_of_lt ?_ h308
    simp only [List.map_cons, List.map_nil, List.mem_cons, List.not_mem_nil, or_false] at hp
    rcases hp with rfl | rfl <;> interval_cases i <;> norm_num [pt]

/-- C04, scaling, at most three objectives. -/
theorem C04_scaling_three_objectives (ha : IsArgsort argsort) (hd : 0 < d) (hd3 : d ≤ 3)
    (h : InRange d front ref) (s : ℕ → ℝ) (hs : ∀ i < d, 0 < s i)
    (h' : InRange d (front.map (fun p i => s i * p i)) (fun i => s i * ref i)) :
    ∃ v, hypervolume argsort d front ref = some v ∧
      hypervolume argsort d (front.map (fun p i => s i * p i)) (fun i => s i * ref i) =
        some ((∏ i ∈ Finset.range d, s i) * v) := by
  refine ⟨_, C01_three_objectives ha hd hd3 h, ?_⟩
  rw [C01_three_objectives ha hd hd3 h', Spec.hvol_scale s hs]

/-- C04, scaling, any number of objectives. Missing: the inputs excluded by `Admissible`. -/
theorem C04_scaling_any_objectives_partial (ha : IsArgsort argsort) (hd : 0 < d)
    (h : Admissible d front ref) (s : ℕ → ℝ) (hs : ∀ i < d, 0 < s i)
    (hr : InRange d (front.map (fun p i => s i * p i)) (fun i => s i * ref i)) :
    ∃ v, hypervolume argsort d front ref = some v ∧
      hypervolume argsort d (front.map (fun p i => s i * p i)) (fun i => s i * ref i) =
        some ((∏ i ∈ Finset.range d, s i) * v) := by
  have hdom : ∀ p : ℕ → ℝ, weaklyDominates d (fun i => s i * p i) (fun i => s i * ref i) =
      weaklyDominates d p ref := by
    intro p
    rw [Bool.eq_iff_iff, weaklyDominates_iff, weaklyDominates_iff]
    refine forall_congr' fun i => forall_congr' fun hi => ?_
    exact mul_le_mul_iff_right₀ (hs i hi)
  have h' : Admissible d (front.map (fun p i => s i * p i)) (fun i => s i * ref i) :=
    { range := fun p hp _ i _ hi => hr p hp i hi
      triple := fun h4 => by
        have := h.triple h4
        rw [List.filter_map, List.pairwise_map]
        have e : ((fun p => weaklyDominates d p fun i => s i * ref i) ∘ fun p i => s i * p i) =
            fun p => weaklyDominates d p ref := funext hdom
        rw [e]
        refine this.imp fun {a b} hab h0 h1 h2 => hab ?_ ?_ ?_
        · exact mul_left_cancel₀ (hs 0 (by omega)).ne' h0
        · exact mul_left_cancel₀ (hs 1 (by omega)).ne' h1
        · exact mul_left_cancel₀ (hs 2 (by omega)).ne' h2
      tie := fun j h1 h2 => by
        have := h.tie j h1 h2
        rw [List.filter_map, List.pairwise_map]
        have e : ((fun p => weaklyDominates d p fun i => s i * ref i) ∘ fun p i => s i * p i) =
            fun p => weaklyDominates d p ref := funext hdom
        rw [e]
        refine this.imp fun {a b} hab hc => hab ?_
        exact mul_left_cancel₀ (hs j (by omega)).ne' hc
      below := fun h4 p hp hpr i hi => by
        obtain ⟨q, hq, rfl⟩ := List.mem_map.mp hp
        refine mul_lt_mul_of_pos_left (h.below h4 q hq ?_ i hi) (hs i (by omega))
        intro j hj
        exact le_of_mul_le_mul_left (hpr j hj) (hs j hj) }
  refine ⟨_, C01_any_objectives_partial ha hd h, ?_⟩
  rw [C01_any_objectives_partial ha hd h', Spec.hvol_scale s hs]

/-! ## C05 -/

/-- C05 for at most three objectives: `hypervolume_improvement` is the measure of the exclusive
region; it is never negative and vanishes exactly in the stated cases. -/
theorem C05_three_objectives {x : ℕ → ℝ} (ha : IsArgsort argsort) (hd : 0 < d) (hd3 : d ≤ 3)
    (h : InRange d (x :: front) ref) :
    ∃ v, hypervolumeImprovement argsort d x front ref = some v ∧ v = Spec.hvi d x front ref ∧
      0 ≤ v ∧ (v = 0 ↔ (∃ p ∈ front, ∀ i < d, p i ≤ x i) ∨ ∃ i < d, ref i ≤ x i) := by
  refine ⟨Spec.hvi d x front ref, ?_, rfl, Spec.hvi_nonneg, Spec.hvi_eq_zero_iff⟩
  unfold hypervolumeImprovement
  rw [C01_three_objectives ha hd hd3 h,
    C01_three_objectives ha hd hd3 (h.subset (fun p hp => by simp [hp]))]
  simp [Spec.hvol_cons]

example : ∃ v, hypervolumeImprovement stableArgsort 2 (pt [1, 1]) [pt [0, 2], pt [2, 0]] (pt [3, 3]) =
    some v ∧ v = Spec.hvi 2 (pt [1, 1]) [pt [0, 2], pt [2, 0]] (pt [3, 3]) ∧
      0 ≤ v ∧ (v = 0 ↔ (∃ p ∈ [pt [0, 2], pt [(2 : ℝ), 0]], ∀ i < 2, p i ≤ pt [1, 1] i) ∨
        ∃ i < 2, (pt [3, 3] : ℕ → ℝ) i ≤ pt [1, 1] i) := by
  refine C05_three_objectives stableArgsort_isArgsort (by norm_num) (by norm_num) ?_
  have h308 : (10 : ℝ) ≤ 10 ^ 308 := by
    calc (10 : ℝ) = 10 ^ 1 := by norm_num
      _ ≤ 10 ^ 308 := pow_le_pow_right₀ (by norm_num) (by norm_num)
  intro p hp i hi
  refine le_trans ?_ h308
  simp only [List.mem_cons, List.not_mem_nil, or_false] at hp
  rcases hp with rfl | rfl | rfl <;> interval_cases i <;> norm_num [pt]

/-- C05, any number of objectives. Missing: the inputs excluded by `Admissible`; there it is false
(`C05_violated`). -/
theorem C05_any_objectives_partial {x : ℕ → ℝ} (ha : IsArgsort argsort) (hd : 0 < d)
    (h : Admissible d (x :: front) ref) :
    ∃ v, hypervolumeImprovement argsort d x front ref = some v ∧ v = Spec.hvi d x front ref ∧
      0 ≤ v ∧ (v = 0 ↔ (∃ p ∈ front, ∀ i < d, p i ≤ x i) ∨ ∃ i < d, ref i ≤ x i) := by
  refine ⟨Spec.hvi d x front ref, ?_, rfl, Spec.hvi_nonneg, Spec.hvi_eq_zero_iff⟩
  unfold hypervolumeImprovement
  rw [C01_any_objectives_partial ha hd h,
    C01_any_objectives_partial ha hd (Admissible.sublist h (List.sublist_cons_self _ _))]
  simp [Spec.hvol_cons]

/-- The code violates C05: a negative improvement. -/
theorem C05_violated :
    hypervolumeImprovement stableArgsort 4 (pt [-2, -1, -2, -1])
      [pt [-2, -1, -2, -2], pt [-2, -2, -1, -1]] (pt []) = some (-2 : ℝ) := by
  unfold hypervolumeImprovement
  rw [C03_violated.1, C03_violated.2.1]
  norm_num

/-! ## C06 -/

/-- C06 for at most three objectives. -/
theorem C06_three_objectives {A B : List (ℕ → ℝ)} (ha : IsArgsort argsort) (hd : 0 < d)
    (hd3 : d ≤ 3) (hA : InRange d A ref) (hB : InRange d B ref)
    (hAB : ∀ b ∈ B, ∃ a ∈ A, ∀ i < d, a i ≤ b i)
    (hstrict : ∃ a ∈ A, (∀ i < d, a i < ref i) ∧ ∀ b ∈ B, ¬ ∀ i < d, b i ≤ a i) :
    ∃ v w, hypervolume argsort d A ref = some v ∧ hypervolume argsort d B ref = some w ∧ w < v := by
  obtain ⟨a, haA, har, haB⟩ := hstrict
  refine ⟨_, _, C01_three_objectives ha hd hd3 hA, C01_three_objectives ha hd hd3 hB,
    Spec.hvol_strict hAB haA har fun b hb => ?_⟩
  have := haB b hb
  push Not at this
  exact this

/-- C06, any number of objectives. Missing: the inputs excluded by `Admissible`; there it is false
(`C06_violated`). -/
theorem C06_any_objectives_partial {A B : List (ℕ → ℝ)} (ha : IsArgsort argsort) (hd : 0 < d)
    (hA : Admissible d A ref) (hB : Admissible d B ref)
    (hAB : ∀ b ∈ B, ∃ a ∈ A, ∀ i < d, a i ≤ b i)
    (hstrict : ∃ a ∈ A, (∀ i < d, a i < ref i) ∧ ∀ b ∈ B, ¬ ∀ i < d, b i ≤ a i) :
    ∃ v w, hypervolume argsort d A ref = some v ∧ hypervolume argsort d B ref = some w ∧ w < v := by
  obtain ⟨a, haA, har, haB⟩ := hstrict
  refine ⟨_, _, C01_any_objectives_partial ha hd hA, C01_any_objectives_partial ha hd hB,
    Spec.hvol_strict hAB haA har fun b hb => ?_⟩
  have := haB b hb
  push Not at this
  exact this

example : ∃ v w, hypervolume stableArgsort 5
      [pt [1, 5, 2, 3, 1], pt [1, 4, 2, 2, 1], pt [3, 4, 1, 1, 1]] (pt [(6 : ℝ), 5, 6, 6, 6]) = some v ∧
    hypervolume stableArgsort 5
      [pt [1, 5, 2, 3, 1], pt [1, 4, 2, 2, 1]] (pt [6, 5, 6, 6, 6]) = some w ∧ w < v := by
  refine C06_any_objectives_partial stableArgsort_isArgsort (by norm_num) example_admissible
    (Admissible.sublist example_admissible (by simp)) ?_ ⟨pt [3, 4, 1, 1, 1], by simp, ?_, ?_⟩
  · intro b hb
    exact ⟨b, by simp at hb ⊢; tauto, fun _ _ => le_rfl⟩
  · intro i hi; interval_cases i <;> norm_num [pt]
  · intro b hb h
    have h2 := h 2 (by norm_num)
    simp only [List.mem_cons, List.not_mem_nil, or_false] at hb
    rcases hb with rfl | rfl <;> norm_num [pt] at h2

/-- The code violates C06: the larger set gets no larger value than the single point it contains,
although its third point lies strictly below the reference and is not weakly dominated by it. -/
theorem C06_violated :
    hypervolume stableArgsort 4 [pt [-2, -1, -2, -1], pt [-2, -1, -2, -2], pt [-2, -2, -1, -1]]
        (pt []) = some (8 : ℝ) ∧
      hypervolume stableArgsort 4 [pt [-2, -1, -2, -2]] (pt []) = some (8 : ℝ) ∧
      (∀ i < 4, (pt [-2, -2, -1, -1] : ℕ → ℝ) i < pt [] i) ∧
      ¬ ∀ i < 4, (pt [-2, -1, -2, -2] : ℕ → ℝ) i ≤ pt [-2, -2, -1, -1] i := by
  refine ⟨C01_violated_ties.1, ?_, ?_, ?_⟩
  · have := eval_code (d := 4) [[-2, -1, -2, -2]] 8 (by decide +kernel)
    simpa using this
  · intro i hi
    interval_cases i <;> norm_num [pt]
  · intro h
    have := h 1 (by norm_num)
    norm_num [pt] at this

end Verif.Props
