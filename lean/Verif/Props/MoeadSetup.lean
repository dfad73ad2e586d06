import Verif.Moea.MoeadSetup
import Mathlib.Data.List.Nodup
import Mathlib.Order.Basic
import Mathlib.Logic.Function.Iterate

/-!
# C91: set-up and loop of MOEA/D
-/

namespace Verif.Props

open Verif.Moea

variable {K : Type*} [LinearOrder K]

/-- The contract of `np.argsort` on the distances `d` to `size` directions: a permutation that sorts them. -/
structure ArgsortOk (d : ℕ → K) (size : ℕ) (order : List ℕ) : Prop where
  perm : order.Perm (List.range size)
  sorted : order.Pairwise fun i j => d i ≤ d j

/-- The neighbourhood `nb` of the subproblem `k`: itself and nearest other ones, as many as asked for. -/
structure Neighbourhood (d : ℕ → K) (size n k : ℕ) (nb : List ℕ) : Prop where
  length : nb.length = min n size
  nodup : nb.Nodup
  lt : ∀ i ∈ nb, i < size
  nearest : ∀ i ∈ nb, ∀ j < size, j ∉ nb → d i ≤ d j
  self : nb.head? = some k

/-- C91 in full for the neighbourhoods: for all distances with zeros on the diagonal. -/
def C91StatementNeighbours : Prop :=
  ∀ (dist : ℕ → ℕ → ℕ) (size n : ℕ) (order : ℕ → List ℕ), 0 < n → (∀ k, dist k k = 0) →
    (∀ k < size, ArgsortOk (dist k) size (order k)) →
    ∀ k < size, ∃ nb, (neighbours order size n)[k]? = some nb ∧ Neighbourhood (dist k) size n k nb

/-- C91, neighbourhoods: if the directions are different. What is missing: repeated directions. -/
theorem C91_neighbours_partial {dist : ℕ → ℕ → K} {size n : ℕ} {order : ℕ → List ℕ} (hn : 0 < n)
    (hd : ∀ k < size, ∀ j < size, j ≠ k → dist k k < dist k j)
    (ho : ∀ k < size, ArgsortOk (dist k) size (order k)) {k : ℕ} (hk : k < size) :
    ∃ nb, (neighbours order size n)[k]? = some nb ∧ Neighbourhood (dist k) size n k nb := by
  obtain ⟨hp, hs⟩ := ho k hk
  have hnd : (order k).Nodup := hp.nodup_iff.mpr List.nodup_range
  refine ⟨(order k).take n, by simp [neighbours, List.getElem?_range, hk], ?_, ?_, ?_, ?_, ?_⟩
  · rw [List.length_take, hp.length_eq, List.length_range]
  · exact hnd.sublist (List.take_sublist _ _)
  · intro i hi
    exact List.mem_range.mp (hp.mem_iff.mp (List.mem_of_mem_take hi))
  · intro i hi j hj hjn
    have hj' : j ∈ (order k).take n ++ (order k).drop n := by
      rw [List.take_append_drop]
      exact hp.mem_iff.mpr (List.mem_range.mpr hj)
    rcases List.mem_append.mp hj' with h | h
    · exact absurd h hjn
    · have hs' := hs
      rw [← List.take_append_drop n (order k), List.pairwise_append] at hs'
      exact hs'.2.2 i hi j h
  · have hkm : k ∈ order k := hp.mem_iff.mpr (List.mem_range.mpr hk)
    cases ho' : order k with
    | nil => rw [ho'] at hkm; simp at hkm
    | cons i l =>
      obtain ⟨m, rfl⟩ : ∃ m, n = m + 1 := ⟨n - 1, by omega⟩
      rw [List.take_succ_cons, List.head?_cons, Option.some.injEq]
      by_contra hne
      rw [ho'] at hkm hs hp
      have hi : i < size := List.mem_range.mp (hp.mem_iff.mp (by simp))
      rcases List.mem_cons.mp hkm with h | h
      · exact hne h.symm
      · exact absurd ((List.pairwise_cons.mp hs).1 k h) (not_le.mpr (hd k hk i hi hne))

/-- The hypotheses of `C91_neighbours_partial`: three directions on a line, two neighbours. -/
example : let dist : ℕ → ℕ → ℕ := fun k j => (k - j) + (j - k)
    (∀ k < 3, ∀ j < 3, j ≠ k → dist k k < dist k j) ∧
    (∀ k < 3, ArgsortOk (dist k) 3 ([[0, 1, 2], [1, 2, 0], [2, 1, 0]].getD k [])) ∧
    neighbours (fun k => [[0, 1, 2], [1, 2, 0], [2, 1, 0]].getD k []) 3 2 = [[0, 1], [1, 2], [2, 1]] := by
  refine ⟨by decide, fun k hk => ?_, by decide⟩
  match k, hk with
  | 0, _ => exact ⟨by decide, by decide⟩
  | 1, _ => exact ⟨by decide, by decide⟩
  | 2, _ => exact ⟨by decide, by decide⟩

/-- C91 does not hold for repeated directions: a subproblem need not belong to its own neighbourhood. -/
theorem C91_violated_neighbours : ¬ C91StatementNeighbours := by
  intro h
  obtain ⟨nb, h1, h2⟩ := h (fun _ _ => 0) 2 1 (fun _ => [0, 1]) (by decide) (fun _ => rfl)
    (fun k _ => ⟨by decide, by decide⟩) 1 (by decide)
  have e : nb = [0] := by
    have : (neighbours (fun _ => [0, 1]) 2 1)[1]? = some [0] := by decide
    exact (Option.some.inj (this.symm.trans h1)).symm
  subst e
  exact absurd h2.self (by decide)

/-! ### The loop -/

theorem drain_spec {size : ℕ} {stop : ℕ → Bool} (m : ℕ) {s : Loopwise} (hdone : s.done = false)
    (hin : s.inner + (m + 1) = size) {t : ℕ} (ht : m + 1 ≤ t) :
    drain (Loopwise.step size stop) (fun s => !s.done) Loopwise.gen s.gen t s = some ⟨s.gen + 1, 0, stop (s.gen + 1)⟩ ∧
    (Loopwise.step size stop)^[m + 1] s = ⟨s.gen + 1, 0, stop (s.gen + 1)⟩ := by
  induction m generalizing s t with
  | zero =>
    obtain ⟨t, rfl⟩ : ∃ u, t = u + 1 := ⟨t - 1, by omega⟩
    have hstep : Loopwise.step size stop s = ⟨s.gen + 1, 0, stop (s.gen + 1)⟩ := by
      unfold Loopwise.step
      rw [if_neg (by omega)]
    refine ⟨?_, by simpa using hstep⟩
    rw [drain, if_pos (by simp [hdone]), hstep]
    cases t with
    | zero => rw [drain, if_neg (by simp)]
    | succ t => rw [drain, if_neg (by simp)]
  | succ m ih =>
    obtain ⟨t, rfl⟩ : ∃ u, t = u + 1 := ⟨t - 1, by omega⟩
    have hstep : Loopwise.step size stop s = { s with inner := s.inner + 1 } := by
      unfold Loopwise.step
      rw [if_pos (by omega)]
    obtain ⟨h1, h2⟩ := ih (s := { s with inner := s.inner + 1 }) hdone (by simp only; omega) (t := t) (by omega)
    constructor
    · rw [drain, if_pos (by simp [hdone]), hstep]
      exact h1
    · rw [Function.iterate_succ_apply, hstep]
      exact h2

/-- C91, the loop for any algorithm: `next` calls the one of the base class until there is nothing more to do or the counter
changes. -/
theorem C91_next_any {S : Type*} (step : S → S) (hasNext : S → Bool) (nGen : S → ℕ) {fuel : ℕ} {s s' : S} :
    next step hasNext nGen fuel s = some s' ↔ ∃ k ≤ fuel, s' = step^[k] s ∧
      (∀ j < k, hasNext (step^[j] s) = true ∧ nGen (step^[j] s) = nGen s) ∧ ¬ (hasNext s' = true ∧ nGen s' = nGen s) := by
  unfold next
  generalize nGen s = g
  induction fuel generalizing s with
  | zero =>
    rw [drain]
    constructor
    · intro h
      split_ifs at h with hc
      obtain rfl := Option.some.inj h
      exact ⟨0, le_rfl, rfl, by simp, by simpa using hc⟩
    · rintro ⟨k, hk, rfl, -, h⟩
      obtain rfl := Nat.le_zero.mp hk
      rw [if_neg (by simpa using h)]
      rfl
  | succ fuel ih =>
    rw [drain]
    by_cases hc : (hasNext s && nGen s == g) = true
    · rw [if_pos hc, ih]
      have hc' : hasNext s = true ∧ nGen s = g := by simpa using hc
      constructor
      · rintro ⟨k, hk, h1, h2, h3⟩
        refine ⟨k + 1, by omega, h1, fun j hj => ?_, h3⟩
        cases j with
        | zero => exact hc'
        | succ j => exact h2 j (by omega)
      · rintro ⟨k, hk, h1, h2, h3⟩
        cases k with
        | zero => subst h1; exact absurd hc' h3
        | succ k => exact ⟨k, by omega, h1, fun j hj => h2 (j + 1) (by omega), h3⟩
    · rw [if_neg hc]
      have hc' : ¬ (hasNext s = true ∧ nGen s = g) := by simpa using hc
      constructor
      · intro h
        obtain rfl := Option.some.inj h
        exact ⟨0, by omega, rfl, by simp, hc'⟩
      · rintro ⟨k, hk, h1, h2, h3⟩
        cases k with
        | zero => rw [h1]; rfl
        | succ k => exact absurd (h2 0 (by omega)) hc'

/-- An algorithm that ends within a generation. -/
example : next (fun s : ℕ => s + 1) (fun s => decide (s < 3)) (fun _ => 7) 10 0 = some 3 := rfl

/-- C91, the loop: at the begin of a generation, `next` handles one offspring for every subproblem and ends with the
generation. -/
theorem C91_next {size : ℕ} (hsize : 0 < size) (stop : ℕ → Bool) {s : Loopwise} (hdone : s.done = false) (hin : s.inner = 0)
    {fuel : ℕ} (hf : size ≤ fuel) : ∃ s', next (Loopwise.step size stop) (fun s => !s.done) Loopwise.gen fuel s = some s' ∧
      s' = (Loopwise.step size stop)^[size] s ∧ s'.gen = s.gen + 1 ∧ s'.inner = 0 ∧ s'.done = stop s'.gen := by
  obtain ⟨m, rfl⟩ : ∃ m, size = m + 1 := ⟨size - 1, by omega⟩
  obtain ⟨h1, h2⟩ := drain_spec (size := m + 1) (stop := stop) (s := s) m hdone (by omega) hf
  exact ⟨⟨s.gen + 1, 0, stop (s.gen + 1)⟩, h1, h2.symm, rfl, rfl, rfl⟩

/-- The hypotheses of `C91_next`: three subproblems. -/
example : next (Loopwise.step 3 fun g => decide (5 ≤ g)) (fun s => !s.done) Loopwise.gen 3 ⟨4, 0, false⟩ = some ⟨5, 0, true⟩ := rfl

/-! ### The algorithms of the scripts -/

/-- C91 in full for the configurations: with two, three or four objectives there is an algorithm, with directions in as many
dimensions, and not more of them than individuals. -/
def C91StatementConfig (getAlgorithm : ℕ → AlgorithmName → Option AlgorithmConfig) : Prop :=
  ∀ nObj name, 2 ≤ nObj → nObj ≤ 4 → ∃ c, getAlgorithm nObj name = some c ∧
    ∀ count dim, c.directions = some (count, dim) → dim = nObj ∧ count ≤ c.popSize

/-- C91, configurations: benchmark_EA.py. -/
theorem C91_config_bench : C91StatementConfig getAlgorithmBench := by
  intro nObj name h2 h4
  have key : ∀ nObj ∈ [2, 3, 4], ∀ name ∈ [AlgorithmName.nsga2, .nsga3, .moead, .smsEmoa],
      (match getAlgorithmBench nObj name with
        | none => false
        | some c => match c.directions with
          | none => true
          | some p => decide (p.2 = nObj ∧ p.1 ≤ c.popSize)) = true := by decide +kernel
  have := key nObj (by simp; omega) name (by cases name <;> simp)
  cases hc : getAlgorithmBench nObj name with
  | none => rw [hc] at this; exact absurd this (by simp)
  | some c =>
    rw [hc] at this
    refine ⟨c, rfl, fun count dim hcd => ?_⟩
    simp only [hcd, decide_eq_true_eq] at this
    exact this

/-- C91, configurations: run_EA_save_population.py with two or three objectives, where the population size of MOEA/D is the one
of the other algorithms. What is missing: MOEA/D with four objectives. -/
theorem C91_config_save_partial {nObj : ℕ} (h : nObj = 2 ∨ nObj = 3) (name : AlgorithmName) :
    ∃ c, getAlgorithmSave nObj name = some c ∧ some c.popSize = popSizeOf nObj ∧
      ∀ count dim, c.directions = some (count, dim) → dim = nObj ∧ count = c.popSize := by
  have key : ∀ nObj ∈ [2, 3], ∀ name ∈ [AlgorithmName.nsga2, .nsga3, .moead, .smsEmoa],
      (match getAlgorithmSave nObj name with
        | none => false
        | some c => decide (some c.popSize = popSizeOf nObj) && match c.directions with
          | none => true
          | some p => decide (p.2 = nObj ∧ p.1 = c.popSize)) = true := by decide +kernel
  have := key nObj (by simp; omega) name (by cases name <;> simp)
  cases hc : getAlgorithmSave nObj name with
  | none => rw [hc] at this; exact absurd this (by simp)
  | some c =>
    rw [hc] at this
    simp only [Bool.and_eq_true, decide_eq_true_eq] at this
    refine ⟨c, rfl, this.1, fun count dim hcd => ?_⟩
    have h2 := this.2
    simp only [hcd, decide_eq_true_eq] at h2
    exact h2

/-- C91 does not hold for run_EA_save_population.py: with four objectives MOEA/D samples 600 of the 120 directions in three
dimensions, which raises. -/
theorem C91_violated_config : ¬ C91StatementConfig getAlgorithmSave := by
  intro h
  obtain ⟨c, hc, -⟩ := h 4 .moead (by decide) (by decide)
  have : getAlgorithmSave 4 .moead = none := by decide +kernel
  rw [this] at hc
  exact absurd hc (by simp)

end Verif.Props
