import Verif.NDS.Model
import Verif.Util.LineSearch
import Mathlib.Data.List.Sort

/-!
# Partition of the population and removal of duplicates

Models of parts of `HVN.iterate` and of `HVN._check_population` (hvd/newton.py), and of
`Lara._check_points_uniqueness` (hvd/gradient_based.py), which is the same code.
-/

namespace Verif.Opt

open Verif.NDS

variable {K : Type*}

/-- The partition in `HVN.iterate` (newton.py 169-177); `feas` is `state.is_feasible()`. The dictionary is
represented by the list of its values in the order of insertion; `non_domin_sort` puts key 0 first, and `update`
does not change the order. -/
def hvnPartitions [LinearOrder K] [Inhabited K] (fuel : ℕ) (feas : List Bool) (Y : List (List K)) :
    Option (List (List ℕ)) :=
  let N := Y.length
  let feasIdx := (List.range N).filter fun i => feas.getD i false
  let infeasIdx := (List.range N).filter fun i => !feas.getD i false
  if feasIdx.length > 0 then
    (nonDominSort fuel (feasIdx.map fun i => Y.getD i [])).map fun parts =>
      (parts.map fun kv => (kv.1, kv.2.map fun j => feasIdx.getD j 0)).map fun kv =>
        if kv.1 = 0 then (kv.2 ++ infeasIdx).insertionSort (· ≤ ·) else kv.2
  else some [List.range N]

/-- `np.isclose(d, 0, rtol=eps)`: the relative tolerance is multiplied by zero. -/
def closeToZero [Field K] [LinearOrder K] (eps d : K) : Bool := decide (|d - 0| ≤ 1 / 10 ^ 8 + eps * |0|)

/-- One pass of the loop (newton.py 292-294); `D` is the distance matrix, `drop` holds the indices dropped so
far. -/
def dropStep [Field K] [LinearOrder K] (N : ℕ) (eps : K) (D : ℕ → ℕ → K) (drop : List ℕ) (i : ℕ) : List ℕ :=
  if i ∈ drop then drop
  else drop ++ (List.range N).filter fun j => closeToZero eps (D i j) && decide (j ≠ i)

/-- The indices kept by `HVN._check_population` (newton.py 287-303) and `Lara._check_points_uniqueness`
(gradient_based.py 153-171). The code lists the elements of a set of small integers; here they are sorted. -/
def keptIdx [Field K] [LinearOrder K] (N : ℕ) (eps : K) (D : ℕ → ℕ → K) : List ℕ :=
  let drop := (List.range N).foldl (dropStep N eps D) []
  (List.range N).filter fun i => decide (i ∉ drop)

/-! ### Lemmas -/

section Drop

variable [Field K] [LinearOrder K] {N : ℕ} {eps : K} {D : ℕ → ℕ → K}

theorem closeToZero_iff [IsStrictOrderedRing K] (eps d : K) : closeToZero eps d = true ↔ |d| ≤ 1 / 10 ^ 8 := by
  unfold closeToZero
  simp

theorem mem_dropStep {drop : List ℕ} {i j : ℕ} : j ∈ dropStep N eps D drop i ↔
    j ∈ drop ∨ (i ∉ drop ∧ j < N ∧ closeToZero eps (D i j) = true ∧ j ≠ i) := by
  unfold dropStep
  split
  · rename_i h
    simp [h]
  · rename_i h
    simp [h]

/-- The invariant of the loop after the indices below `n`: an index is dropped exactly if an earlier kept index
below `n` is close to it, or a later one. -/
theorem drop_invariant (n : ℕ) (hn : n ≤ N) : ∀ drop, drop = (List.range n).foldl (dropStep N eps D) [] →
    (∀ j ∈ drop, j < N ∧ ∃ i < n, i ≠ j ∧ closeToZero eps (D i j) = true ∧
      i ∉ (List.range i).foldl (dropStep N eps D) []) ∧
    (∀ i < n, i ∉ (List.range i).foldl (dropStep N eps D) [] → ∀ j < N, j ≠ i →
      closeToZero eps (D i j) = true → j ∈ drop) ∧
    (∀ m ≤ n, ∀ j ∈ (List.range m).foldl (dropStep N eps D) [], j ∈ drop) := by
  induction n with
  | zero =>
    rintro drop rfl
    refine ⟨by simp, by simp, fun m hm j hj => ?_⟩
    obtain rfl : m = 0 := by omega
    exact hj
  | succ n ih =>
    rintro drop rfl
    obtain ⟨h1, h2, h3⟩ := ih (by omega) _ rfl
    rw [List.range_succ, List.foldl_append, List.foldl_cons, List.foldl_nil]
    set d := (List.range n).foldl (dropStep N eps D) [] with hd
    refine ⟨fun j hj => ?_, fun i hi hni j hj hne hc => ?_, fun m hm j hj => ?_⟩
    · rcases mem_dropStep.mp hj with hj | ⟨a, b, c, e⟩
      · obtain ⟨h, i, hi, h'⟩ := h1 j hj
        exact ⟨h, i, by omega, h'⟩
      · exact ⟨b, n, by omega, fun h => e h.symm, c, by rw [← hd]; exact a⟩
    · rw [mem_dropStep]
      rcases Nat.lt_succ_iff_lt_or_eq.mp hi with hi | rfl
      · exact .inl (h2 i hi hni j hj hne hc)
      · exact .inr ⟨hni, hj, hc, hne⟩
    · rcases Nat.le_succ_iff.mp hm with hm | rfl
      · rw [mem_dropStep]
        exact .inl (h3 m hm j hj)
      · rw [List.range_succ, List.foldl_append, List.foldl_cons, List.foldl_nil] at hj
        exact hj

/-- With symmetric distances an index is dropped before its own pass or never. -/
theorem dropped_early (hsymm : ∀ i j, D i j = D j i) {j : ℕ} (hj : j < N)
    (h : j ∈ (List.range N).foldl (dropStep N eps D) []) : j ∈ (List.range j).foldl (dropStep N eps D) [] := by
  by_contra hc
  obtain ⟨h1, h2, h3⟩ := drop_invariant (eps := eps) (D := D) N le_rfl _ rfl
  obtain ⟨-, i, hi, hne, hcl, hi2⟩ := h1 j h
  rcases Nat.lt_or_ge i j with hij | hij
  · -- dropped by `i < j`
    obtain ⟨-, g2, -⟩ := drop_invariant (eps := eps) (D := D) j hj.le _ rfl
    exact hc (g2 i hij hi2 j hj (fun h => hne h.symm) hcl)
  · -- `j` was kept at its pass, hence it dropped `i` before the pass of `i`
    obtain ⟨-, g2, -⟩ := drop_invariant (eps := eps) (D := D) i hi.le _ rfl
    exact hi2 (g2 j (by omega) hc i hi hne (by rw [hsymm]; exact hcl))

end Drop

end Verif.Opt
