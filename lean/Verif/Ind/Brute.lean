import Verif.Ind.RefSetLemmas
import Mathlib.Data.List.MinMax
import Mathlib.Data.List.Sublists
import Mathlib.Data.List.Permutation

/-!
# A solver that meets the contract of `linear_sum_assignment`

It goes through all assignments. It is only used in examples and witnesses.
-/

namespace Verif.Ind

variable {P K : Type*} [AddCommMonoid K] [LinearOrder K]

/-- All assignments of an `r × c` matrix. -/
def allAssignments (r c : ℕ) : List (List (ℕ × ℕ)) :=
  (List.sublistsLen (min r c) (List.range r)).flatMap fun rows =>
    ((List.sublistsLen (min r c) (List.range c)).flatMap List.permutations').map fun cols => rows.zip cols

/-- The first assignment with the smallest cost. -/
def bruteAssign (C : List (List K)) : List (ℕ × ℕ) :=
  ((allAssignments C.length (C.headD []).length).argmin (assignCost C)).getD []

theorem mem_allAssignments {r c : ℕ} {p : List (ℕ × ℕ)} : p ∈ allAssignments r c ↔ IsAssignment r c p := by
  unfold allAssignments IsAssignment
  simp only [List.mem_flatMap, List.mem_map, List.mem_sublistsLen, List.mem_permutations']
  constructor
  · rintro ⟨rows, ⟨h1, h2⟩, cols, ⟨cols', ⟨h3, h4⟩, h5⟩, rfl⟩
    have hl : rows.length = cols.length := by rw [h5.length_eq, h4, h2]
    refine ⟨by simp [← hl, h2], ?_, ?_, ?_⟩
    · rw [List.map_fst_zip hl.le]
      exact List.pairwise_lt_range.sublist h1
    · rw [List.map_snd_zip hl.ge]
      exact h5.nodup_iff.mpr (List.nodup_range.sublist h3)
    · intro q hq
      obtain ⟨q1, q2⟩ := List.of_mem_zip hq
      exact ⟨List.mem_range.mp (h1.subset q1), List.mem_range.mp (h3.subset (h5.subset q2))⟩
  · rintro ⟨h1, h2, h3, h4⟩
    refine ⟨p.map Prod.fst, ⟨?_, by simpa using h1⟩, p.map Prod.snd, ?_, ?_⟩
    · refine List.sublist_of_subperm_of_pairwise (r := (· < ·))
        (List.subperm_of_subset (h2.imp fun h => h.ne) fun a ha => ?_) h2 List.pairwise_lt_range
      obtain ⟨q, hq, rfl⟩ := List.mem_map.mp ha
      exact List.mem_range.mpr (h4 q hq).1
    · obtain ⟨l, hl1, hl2⟩ : (p.map Prod.snd).Subperm (List.range c) :=
        List.subperm_of_subset h3 fun a ha => by
          obtain ⟨q, hq, rfl⟩ := List.mem_map.mp ha
          exact List.mem_range.mpr (h4 q hq).2
      exact ⟨l, ⟨hl2, by rw [hl1.length_eq]; simpa using h1⟩, hl1.symm⟩
    · rw [List.zip_map', List.map_id'']
      exact fun _ => rfl

theorem solvesAssignment_brute : SolvesAssignment (bruteAssign (K := K)) := by
  intro C c hC
  have hc : allAssignments C.length (C.headD []).length = allAssignments C.length c := by
    cases C with
    | nil => simp [allAssignments]
    | cons row C => simp [hC row]
  unfold bruteAssign
  rw [hc]
  have hne : ∃ p, p ∈ allAssignments C.length c := by
    refine ⟨(List.range (min C.length c)).map fun i => (i, i), mem_allAssignments.mpr ⟨by simp, ?_, ?_, ?_⟩⟩
    · rw [List.map_map]
      simpa [Function.comp_def] using List.pairwise_lt_range
    · rw [List.map_map]
      simpa [Function.comp_def] using List.nodup_range
    · intro q hq
      simp only [List.mem_map, List.mem_range] at hq
      obtain ⟨i, hi, rfl⟩ := hq
      simpa using hi
  cases hm : (allAssignments C.length c).argmin (assignCost C) with
  | none =>
    rw [List.argmin_eq_none] at hm
    simp [hm] at hne
  | some p =>
    rw [Option.getD_some]
    exact ⟨mem_allAssignments.mp (List.argmin_mem hm),
      fun q hq => List.le_of_mem_argmin (mem_allAssignments.mpr hq) hm⟩

/-- A choice of medoids that meets the contract: the first points. -/
def firstMedoids (C : List P) (k : ℕ) : Option (List ℕ) :=
  if 0 < k ∧ k ≤ C.length then some (List.range k) else none

theorem solvesMedoids_first : SolvesMedoids (firstMedoids (P := P)) := by
  intro C k
  unfold firstMedoids
  split_ifs with h
  · refine ⟨by simp [h], fun idx hi => ?_⟩
    simp only [Option.some.injEq] at hi
    subst hi
    exact ⟨by simp, List.nodup_range, fun i hi => by have := List.mem_range.mp hi; omega⟩
  · exact ⟨by simpa using h, by simp⟩

/-- The library functions with a given distance. -/
def bruteEnv (dist : P → P → K) (hausdorff : List P → List P → K) : MatchEnv P K :=
  { dist := dist, hausdorff := hausdorff, assign := bruteAssign, kmedoids := firstMedoids }

theorem bruteEnv_sound (dist : P → P → K) (hausdorff : List P → List P → K) :
    (bruteEnv dist hausdorff).Sound := ⟨solvesAssignment_brute, solvesMedoids_first⟩

end Verif.Ind
