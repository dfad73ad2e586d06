import Verif.Scripts.MatchCluster
import Mathlib.Algebra.Order.Field.Rat
import Mathlib.Data.List.Forall2
import Mathlib.Data.List.GetD
import Mathlib.Algebra.BigOperators.Fin
import Mathlib.Algebra.BigOperators.Intervals

/-!
# C94: the component of a point in scripts/benchmark_CONV4.py
-/

namespace Verif.Props

open Verif.Scripts

variable {K : Type*} [Field K] [LinearOrder K]

/-- C94 in full: a point of exactly one component is matched with it. -/
def C94Statement : Prop :=
  ∀ (ref : List (List (List ℚ))) (y : List ℚ) (i : ℕ) (hi : i < ref.length), (∀ c ∈ ref, c ≠ []) → y ∈ ref[i] →
    (∀ j (hj : j < ref.length), j ≠ i → y ∉ ref[j]) → matchCluster [y] ref = some [i]

/-- C94 does not hold: the farthest point of each component counts. The point 0 of the component `{0, 10}` is matched with
`{4}`. -/
theorem C94_violated : ¬ C94Statement := by
  intro h
  have := h [[[0], [10]], [[4]]] [0] 0 (by decide) (by decide) (by decide +kernel) (by
    intro j hj hne
    have hj : j < 2 := hj
    obtain rfl : j = 1 := by omega
    change [0] ∉ [[(4 : ℚ)]]
    decide +kernel)
  exact absurd this (by decide +kernel)

theorem directedHausdorff_spec {comp : List (List K)} {y : List K} (h : comp ≠ []) : ∃ d, directedHausdorff comp y = some d ∧
    (∃ r ∈ comp, squareDistance r y = d) ∧ ∀ r ∈ comp, squareDistance r y ≤ d := by
  unfold directedHausdorff
  cases hm : (comp.map fun r => squareDistance r y).max? with
  | none => exact absurd (List.map_eq_nil_iff.mp (List.max?_eq_none_iff.mp hm)) h
  | some d =>
    obtain ⟨h1, h2⟩ := List.max?_eq_some_iff.mp hm
    obtain ⟨r, hr, e⟩ := List.mem_map.mp h1
    exact ⟨d, rfl, ⟨r, hr, e⟩, fun r hr => h2 _ (List.mem_map_of_mem hr)⟩

theorem mapM_forall₂ {A B : Type*} {f : A → Option B} {P : A → B → Prop} {l : List A} (h : ∀ a ∈ l, ∃ b, f a = some b ∧ P a b) :
    ∃ r, l.mapM f = some r ∧ List.Forall₂ P l r := by
  induction l with
  | nil => exact ⟨[], rfl, .nil⟩
  | cons a l ih =>
    obtain ⟨b, hb, hp⟩ := h a (by simp)
    obtain ⟨r, hr, hf⟩ := ih fun x hx => h x (by simp [hx])
    exact ⟨b :: r, by simp [List.mapM_cons, hb, hr], .cons hp hf⟩

/-- The square of the Euclidean distance of two points with `D` coordinates. -/
def gapSq (D : ℕ) (r y : List K) : K := ∑ k ∈ Finset.range D, (r.getD k 0 - y.getD k 0) ^ 2

theorem squareDistance_eq {D : ℕ} {r y : List K} (hr : r.length = D) (hy : y.length = D) : squareDistance r y = gapSq D r y := by
  unfold squareDistance gapSq
  induction D generalizing r y with
  | zero => simp [List.length_eq_zero_iff.mp hr]
  | succ D ih =>
    obtain ⟨a, r, rfl⟩ := List.exists_of_length_succ r hr
    obtain ⟨b, y, rfl⟩ := List.exists_of_length_succ y hy
    rw [List.zipWith_cons_cons, List.sum_cons, ih (by simpa using hr) (by simpa using hy), Finset.sum_range_succ']
    simp [add_comm]

/-- The farthest point of component `c` from `y` is at most as far as the farthest point of component `c'`. -/
def FarthestLe (D : ℕ) (y : List K) (c c' : List (List K)) : Prop := ∀ r ∈ c, ∃ r' ∈ c', gapSq D r y ≤ gapSq D r' y

/-- C94, what is returned: for every point the first of the components whose farthest point is the nearest. -/
theorem C94_farthest {Y : List (List K)} {ref : List (List (List K))} {D : ℕ} (hr : ref ≠ []) (hc : ∀ c ∈ ref, c ≠ [])
    (hY : ∀ y ∈ Y, y.length = D) (hD : ∀ c ∈ ref, ∀ r ∈ c, r.length = D) :
    ∃ idx, matchCluster Y ref = some idx ∧ List.Forall₂ (fun y i => ∃ hi : i < ref.length,
      (∀ j (hj : j < ref.length), FarthestLe D y ref[i] ref[j]) ∧
      ∀ j (hj : j < ref.length), j < i → ¬ FarthestLe D y ref[j] ref[i]) Y idx := by
  unfold matchCluster
  refine mapM_forall₂ fun y hy => ?_
  obtain ⟨V, hV, hf⟩ := mapM_forall₂ (f := fun comp => directedHausdorff comp y) fun c h => directedHausdorff_spec (hc c h)
  have hl : ref.length = V.length := hf.length_eq
  have hat : ∀ j (hj : j < ref.length), (∃ r ∈ ref[j], gapSq D r y = V[j]) ∧ ∀ r ∈ ref[j], gapSq D r y ≤ V[j] := by
    intro j hj
    have e : ∀ r ∈ ref[j], squareDistance r y = gapSq D r y := fun r h =>
      squareDistance_eq (hD _ (List.getElem_mem hj) r h) (hY y hy)
    obtain ⟨⟨r, h1, h2⟩, h3⟩ := hf.get hj (by omega)
    exact ⟨⟨r, h1, (e r h1).symm.trans h2⟩, fun r h => (e r h) ▸ h3 r h⟩
  have hle : ∀ i j (hi : i < ref.length) (hj : j < ref.length), FarthestLe D y ref[i] ref[j] ↔ V[i] ≤ V[j] := by
    intro i j hi hj
    obtain ⟨⟨r, hr1, hr2⟩, hr3⟩ := hat i hi
    obtain ⟨⟨q, hq1, hq2⟩, hq3⟩ := hat j hj
    constructor
    · intro h
      obtain ⟨r', h1, h2⟩ := h r hr1
      exact hr2 ▸ h2.trans (hq3 r' h1)
    · intro h s hs
      exact ⟨q, hq1, hq2 ▸ (hr3 s hs).trans h⟩
  rw [hV, Option.bind_some, Moea.argmin]
  cases hm : V.min? with
  | none =>
    have := List.min?_eq_none_iff.mp hm
    rw [this] at hl
    exact absurd (List.length_eq_zero_iff.mp hl) hr
  | some v =>
    obtain ⟨h1, h2⟩ := List.min?_eq_some_iff.mp hm
    have hk := List.idxOf_lt_length_of_mem h1
    refine ⟨V.idxOf v, rfl, hl ▸ hk, fun j hj => (hle _ _ _ _).mpr ?_, fun j hj hlt h => ?_⟩
    · rw [List.getElem_idxOf hk]
      exact h2 _ (List.getElem_mem _)
    · have h3 := (hle _ _ hj (hl ▸ hk)).mp h
      rw [List.getElem_idxOf hk] at h3
      have h4 : V[j] = v := le_antisymm h3 (h2 _ (List.getElem_mem _))
      have : V.idxOf v ≤ j := by
        by_contra hlt'
        push Not at hlt'
        have := List.not_of_lt_findIdx (show j < V.findIdx (· == v) from hlt')
        simp [h4] at this
      omega

/-- C94 where the components are far apart: if each other component has a point farther from `y` than all the points of component
`i`, then `y` is matched with component `i`. -/
theorem C94_partial {ref : List (List (List K))} {y : List K} {i D : ℕ} (hi : i < ref.length) (hc : ∀ c ∈ ref, c ≠ [])
    (hy : y.length = D) (hD : ∀ c ∈ ref, ∀ r ∈ c, r.length = D)
    (h : ∀ j (hj : j < ref.length), j ≠ i → ∃ r' ∈ ref[j], ∀ r ∈ ref[i], gapSq D r y < gapSq D r' y) :
    matchCluster [y] ref = some [i] := by
  obtain ⟨idx, hidx, hf⟩ := C94_farthest (Y := [y]) (List.ne_nil_of_length_pos (by omega)) hc (by simpa using hy) hD
  rw [hidx]
  cases hf with
  | cons h1 h2 =>
    cases h2
    obtain ⟨hk, hle, -⟩ := h1
    rename_i k
    by_cases hne : k = i
    · rw [hne]
    · obtain ⟨r', hr', hlt⟩ := h k hk hne
      obtain ⟨r, hr, hle'⟩ := hle i hi r' hr'
      exact absurd (hlt r hr) (not_lt.mpr hle')

/-! ### Examples -/

/-- Two components far apart. -/
example : matchCluster [[1, 0]] [[[9, 9], [9, 8]], [[0, 0], [1, 0], [2, (0 : ℚ)]]] = some [1] := by
  refine C94_partial (i := 1) (D := 2) (by decide) (by decide) rfl (by decide) ?_
  intro j hj hne
  have hj : j < 2 := hj
  obtain rfl : j = 0 := by omega
  refine ⟨[9, 9], List.mem_cons_self, ?_⟩
  change ∀ r ∈ [[0, 0], [1, 0], [2, (0 : ℚ)]], _
  decide +kernel

example : matchCluster [[0], [4], [9]] [[[0], [10]], [[4]], [[(4 : ℚ)]]] = some [1, 1, 1] := by decide +kernel

end Verif.Props
