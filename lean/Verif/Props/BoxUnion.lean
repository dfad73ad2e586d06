import Verif.Scripts.BoxUnion
import Mathlib.Algebra.Order.BigOperators.Ring.Finset
import Mathlib.Algebra.Order.Chebyshev
import Mathlib.Data.Fin.VecNotation
import Mathlib.Tactic.FinCases
import Mathlib.Tactic.NormNum
import Mathlib.Tactic.Linarith
import Mathlib.Tactic.Ring

/-!
# C80: the constraint of a union of boxes
-/

namespace Verif.Props

open Verif.Scripts
open scoped BigOperators

variable {K : Type*} [Field K] [LinearOrder K] [IsStrictOrderedRing K] {d : ℕ}

/-- The point is in one of the boxes. -/
def InBoxes (boxes : List (Box K d)) (x : Fin d → K) : Prop :=
  ∃ b ∈ boxes, ∀ j, b.center j - b.half j ≤ x j ∧ x j ≤ b.center j + b.half j

/-- The full statement of C80: the constraint is satisfied exactly on the union. -/
def UnionRight (boxes : List (Box K d)) : Prop :=
  ∀ x, ∃ g, unionBoxConstraint boxes x = some g ∧ ((∀ j, g j ≤ 0) ↔ InBoxes boxes x)

theorem nearestBox_spec (x : Fin d → K) {boxes : List (Box K d)} (hne : boxes ≠ []) :
    ∃ b ∈ boxes, nearestBox x boxes = some b ∧ ∀ b' ∈ boxes, b.distSq x ≤ b'.distSq x := by
  induction boxes with
  | nil => exact absurd rfl hne
  | cons b bs ih =>
    unfold nearestBox
    by_cases hb : bs = []
    · subst hb
      exact ⟨b, List.mem_cons_self, rfl, by simp⟩
    · obtain ⟨c, h1, h2, h3⟩ := ih hb
      rw [h2]
      dsimp only
      by_cases hle : b.distSq x ≤ c.distSq x
      · rw [if_pos hle]
        refine ⟨b, List.mem_cons_self, rfl, fun b' hb' => ?_⟩
        rcases List.mem_cons.mp hb' with rfl | hb'
        · exact le_rfl
        · exact hle.trans (h3 b' hb')
      · rw [if_neg hle]
        refine ⟨c, List.mem_cons_of_mem _ h1, rfl, fun b' hb' => ?_⟩
        rcases List.mem_cons.mp hb' with rfl | hb'
        · exact (not_le.mp hle).le
        · exact h3 b' hb'

theorem inside_iff {b : Box K d} {x : Fin d → K} {j : Fin d} :
    b.half j - |x j - b.center j| ≥ 0 ↔ b.center j - b.half j ≤ x j ∧ x j ≤ b.center j + b.half j := by
  rw [ge_iff_le, sub_nonneg, abs_le]
  constructor <;> rintro ⟨h1, h2⟩ <;> constructor <;> linarith

/-- The constraint of one box is satisfied exactly on the box; outside it is non-negative, and positive in a component. -/
theorem constraint_spec (b : Box K d) (x : Fin d → K) :
    ((∀ j, b.constraint x j ≤ 0) ↔ ∀ j, b.center j - b.half j ≤ x j ∧ x j ≤ b.center j + b.half j) ∧
      ((¬ ∀ j, b.center j - b.half j ≤ x j ∧ x j ≤ b.center j + b.half j) →
        (∀ j, 0 ≤ b.constraint x j) ∧ ∃ j, 0 < b.constraint x j) := by
  have hout : (¬ ∀ j, b.center j - b.half j ≤ x j ∧ x j ≤ b.center j + b.half j) →
      (∀ j, 0 ≤ b.constraint x j) ∧ ∃ j, 0 < b.constraint x j := by
    intro h
    have hc : ¬ ∀ i, b.half i - |x i - b.center i| ≥ 0 := fun hc => h fun j => inside_iff.mp (hc j)
    have e : ∀ j, b.constraint x j = max (|x j - b.center j| - b.half j) 0 := by
      intro j
      unfold Box.constraint
      rw [if_neg hc]
    refine ⟨fun j => ?_, ?_⟩
    · rw [e]
      exact le_max_right _ _
    · obtain ⟨j, hj⟩ := not_forall.mp hc
      refine ⟨j, ?_⟩
      rw [e, lt_max_iff]
      left
      linarith [not_le.mp hj]
  refine ⟨⟨fun h => ?_, fun h j => ?_⟩, hout⟩
  · by_contra hn
    obtain ⟨-, j, hj⟩ := hout hn
    exact absurd (h j) (not_le.mpr hj)
  · unfold Box.constraint
    rw [if_pos fun i => inside_iff.mpr (h i)]
    have := inside_iff.mpr (h j)
    linarith

/-- C80, the sound direction: where the constraint is satisfied the point is in the union; where it is not, no component is
negative and one is positive. -/
theorem C80_sound {boxes : List (Box K d)} (hne : boxes ≠ []) (x : Fin d → K) :
    ∃ g, unionBoxConstraint boxes x = some g ∧ ((∀ j, g j ≤ 0) → InBoxes boxes x) ∧
      ((¬ ∀ j, g j ≤ 0) → (∀ j, 0 ≤ g j) ∧ ∃ j, 0 < g j) := by
  obtain ⟨b, h1, h2, -⟩ := nearestBox_spec x hne
  refine ⟨b.constraint x, by rw [unionBoxConstraint, h2]; rfl, fun h => ⟨b, h1, (constraint_spec b x).1.mp h⟩, fun h => ?_⟩
  exact (constraint_spec b x).2 fun h' => h ((constraint_spec b x).1.mpr h')

/-- A point of a box is nearer to its centre than to a centre at more than twice the half diagonal. -/
theorem dist_lt_of_mem {b b' : Box K d} {x : Fin d → K}
    (hx : ∀ j, b.center j - b.half j ≤ x j ∧ x j ≤ b.center j + b.half j)
    (hfar : 4 * ∑ j, b.half j ^ 2 < ∑ j, (b.center j - b'.center j) ^ 2) : b.distSq x < b'.distSq x := by
  have h1 : b.distSq x ≤ ∑ j, b.half j ^ 2 := by
    refine Finset.sum_le_sum fun j _ => ?_
    have := hx j
    nlinarith
  have h2 : b'.distSq x = b.distSq x + 2 * (∑ j, (x j - b.center j) * (b.center j - b'.center j)) +
      ∑ j, (b.center j - b'.center j) ^ 2 := by
    unfold Box.distSq
    rw [Finset.mul_sum, ← Finset.sum_add_distrib, ← Finset.sum_add_distrib]
    exact Finset.sum_congr rfl fun j _ => by ring
  have h3 := Finset.sum_mul_sq_le_sq_mul_sq Finset.univ (fun j => x j - b.center j) fun j => b.center j - b'.center j
  have h4 : 0 ≤ b.distSq x := Finset.sum_nonneg fun j _ => sq_nonneg _
  set S := ∑ j, (x j - b.center j) * (b.center j - b'.center j)
  set D := ∑ j, (b.center j - b'.center j) ^ 2
  have h5 : S ^ 2 ≤ b.distSq x * D := h3
  rw [h2]
  by_contra hc
  have h6 : 2 * S ≤ -D := by linarith [not_lt.mp hc]
  have h7 : 0 ≤ D := by linarith
  nlinarith

/-- C80 where the code is right: the centre of every other box is further away than the diagonal of the box. -/
theorem C80_partial {boxes : List (Box K d)} (hne : boxes ≠ [])
    (hfar : ∀ b ∈ boxes, ∀ b' ∈ boxes, b = b' ∨ 4 * ∑ j, b.half j ^ 2 < ∑ j, (b.center j - b'.center j) ^ 2) :
    UnionRight boxes := by
  intro x
  obtain ⟨b, h1, h2, h3⟩ := nearestBox_spec x hne
  refine ⟨b.constraint x, by rw [unionBoxConstraint, h2]; rfl, ?_⟩
  rw [(constraint_spec b x).1]
  constructor
  · exact fun h => ⟨b, h1, h⟩
  · rintro ⟨c, hc, hx⟩
    rcases hfar c hc b h1 with rfl | hf
    · exact hx
    · exact absurd (h3 c hc) (not_le.mpr (dist_lt_of_mem hx hf))

/-- Two boxes of the same shape without common point. -/
def flatBoxes : List (Box ℚ 2) := [⟨![0, 0], ![10, 1]⟩, ⟨![8, 3], ![10, 1]⟩]

/-- C80 is violated: `(9, 1)` is in the first box but nearer to the centre of the second one. -/
theorem C80_violated : ¬ UnionRight flatBoxes := by
  intro h
  obtain ⟨g, h1, h2⟩ := h ![9, 1]
  have hin : InBoxes flatBoxes ![9, 1] := by
    refine ⟨_, List.mem_cons_self, fun j => ?_⟩
    fin_cases j <;> norm_num
  have hg := h2.mpr hin 1
  have e : unionBoxConstraint flatBoxes ![9, 1] = some ((⟨![8, 3], ![10, 1]⟩ : Box ℚ 2).constraint ![9, 1]) := by
    have hn : nearestBox (![9, 1] : Fin 2 → ℚ) flatBoxes = some ⟨![8, 3], ![10, 1]⟩ := by
      simp only [nearestBox, flatBoxes, Box.distSq, Fin.sum_univ_two]
      norm_num
    rw [unionBoxConstraint, hn]
    rfl
  obtain rfl := Option.some.inj (e.symm.trans h1)
  revert hg
  decide +kernel

/-- The four boxes of `test_box_domain` but the first are far apart. -/
example : UnionRight ([⟨![1, 1], ![3 / 10, 3 / 10]⟩, ⟨![-1, 1 / 2], ![2 / 5, 2 / 5]⟩, ⟨![2, -1], ![3 / 5, 3 / 5]⟩] :
    List (Box ℚ 2)) := by
  refine C80_partial (by simp) ?_
  simp only [List.forall_mem_cons, Fin.sum_univ_two]
  norm_num

end Verif.Props
