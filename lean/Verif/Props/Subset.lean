import Verif.Scripts.Subset
import Verif.Props.Moea
import Mathlib.Data.Rat.Defs
import Mathlib.Algebra.Order.Ring.Unbundled.Rat
import Mathlib.Data.List.Nodup
import Mathlib.Tactic.Linarith
import Mathlib.Tactic.NormNum

/-!
# C90: subset selection
-/

namespace Verif.Props

open Verif.Scripts

section

variable {K : Type*} [LinearOrder K]

/-- The contract of `random.sample`: `n` different positions. -/
structure SamplePositions (n len : ℕ) (sample : List ℕ) : Prop where
  length : sample.length = n
  nodup : sample.Nodup
  lt : ∀ p ∈ sample, p < len

/-- `j` is nearest to the centre of its cluster among the points of the cluster. -/
def NearestInCluster (labels : List ℕ) (dist : ℕ → ℕ → K) (j : ℕ) : Prop :=
  ∃ i, labels[j]? = some i ∧ ∀ l, labels[l]? = some i → dist i j ≤ dist i l

/-- The number of clusters with points. -/
def usedClusters (labels : List ℕ) (n : ℕ) : ℕ := ((List.range (2 * n)).filter fun i => decide (i ∈ labels)).length

theorem mem_cluster {labels : List ℕ} {i j : ℕ} : j ∈ cluster labels i ↔ labels[j]? = some i := by
  simp only [cluster, List.mem_filter, List.mem_range, decide_eq_true_eq, and_iff_right_iff_imp]
  intro h
  exact (List.getElem?_eq_some_iff.mp h).1

/-- One step of the loop. -/
theorem representative_spec (labels : List ℕ) (dist : ℕ → ℕ → K) (i : ℕ) :
    (i ∉ labels → (Moea.argmin ((cluster labels i).map (dist i))).bind (fun p => (cluster labels i)[p]?) = none) ∧
    (i ∈ labels → ∃ j, (Moea.argmin ((cluster labels i).map (dist i))).bind (fun p => (cluster labels i)[p]?) = some j ∧
      labels[j]? = some i ∧ ∀ l, labels[l]? = some i → dist i j ≤ dist i l) := by
  constructor
  · intro h
    have : cluster labels i = [] := List.eq_nil_iff_forall_not_mem.mpr fun j hj =>
      h (List.mem_of_getElem? (mem_cluster.mp hj))
    simp [this, Moea.argmin]
  · intro h
    obtain ⟨j0, hj0⟩ := List.mem_iff_getElem?.mp h
    have hne : (cluster labels i).map (dist i) ≠ [] := by
      intro e
      have := mem_cluster.mpr hj0
      rw [List.map_eq_nil_iff.mp e] at this
      simp at this
    obtain ⟨p, hp, hlt, hmin⟩ := moea_argmin_spec hne
    have hlt' : p < (cluster labels i).length := by simpa using hlt
    refine ⟨(cluster labels i)[p], ?_, mem_cluster.mp (List.getElem_mem hlt'), fun l hl => ?_⟩
    · rw [hp, Option.bind_some, List.getElem?_eq_getElem hlt']
    · have := hmin (dist i l) (List.mem_map.mpr ⟨l, mem_cluster.mpr hl, rfl⟩)
      simpa using this

theorem representatives_spec (labels : List ℕ) (dist : ℕ → ℕ → K) (n : ℕ) :
    (representatives labels dist n).length = usedClusters labels n ∧
    (representatives labels dist n).Pairwise (fun j l => labels[j]? ≠ labels[l]?) ∧
    ∀ j ∈ representatives labels dist n, NearestInCluster labels dist j := by
  unfold representatives usedClusters
  refine ⟨?_, ?_, ?_⟩
  · induction List.range (2 * n) with
    | nil => rfl
    | cons i is ih =>
      rw [List.filterMap_cons, List.filter_cons]
      by_cases h : i ∈ labels
      · obtain ⟨j, hj, -⟩ := (representative_spec labels dist i).2 h
        rw [hj]
        simp [h, ih]
      · rw [(representative_spec labels dist i).1 h]
        simp [h, ih]
  · rw [List.pairwise_filterMap]
    refine (List.nodup_range (n := 2 * n)).imp fun {i i'} hne j hj l hl => ?_
    have key : ∀ i j, (Moea.argmin ((cluster labels i).map (dist i))).bind (fun p => (cluster labels i)[p]?) = some j →
        labels[j]? = some i := by
      intro i j h
      by_cases hi : i ∈ labels
      · obtain ⟨j', hj', h', -⟩ := (representative_spec labels dist i).2 hi
        rw [h, Option.some.injEq] at hj'
        rwa [hj']
      · rw [(representative_spec labels dist i).1 hi] at h
        exact absurd h (by simp)
    rw [key i j hj, key i' l hl]
    simpa using hne
  · intro j hj
    obtain ⟨i, -, hi⟩ := List.mem_filterMap.mp hj
    by_cases h : i ∈ labels
    · obtain ⟨j', hj', h1, h2⟩ := (representative_spec labels dist i).2 h
      rw [hi, Option.some.injEq] at hj'
      subst hj'
      exact ⟨i, h1, h2⟩
    · rw [(representative_spec labels dist i).1 h] at hi
      exact absurd hi (by simp)

/-- C90, initial points: they are found if and only if enough clusters have points; they are `n` points of the data from
different clusters, each nearest to its centre. -/
theorem C90_initial {labels : List ℕ} {dist : ℕ → ℕ → K} {n : ℕ} {sample : List ℕ}
    (hs : n ≤ usedClusters labels n → SamplePositions n (usedClusters labels n) sample) :
    ((selectInitialPoints labels dist n sample).isSome ↔ n ≤ usedClusters labels n) ∧
    ∀ idx, selectInitialPoints labels dist n sample = some idx → idx.length = n ∧ idx.Nodup ∧
      idx.Pairwise (fun j l => labels[j]? ≠ labels[l]?) ∧ ∀ j ∈ idx, j < labels.length ∧ NearestInCluster labels dist j := by
  obtain ⟨r1, r2, r3⟩ := representatives_spec labels dist n
  unfold selectInitialPoints
  dsimp only
  by_cases h : n ≤ usedClusters labels n
  · rw [if_neg (by omega)]
    obtain ⟨s1, s2, s3⟩ := hs h
    have hval : (sample.mapM fun p => (representatives labels dist n)[p]?) =
        some (sample.map fun p => (representatives labels dist n).getD p 0) := by
      clear s1 s2 hs
      induction sample with
      | nil => rfl
      | cons p ps ih =>
        have hp : p < (representatives labels dist n).length := by rw [r1]; exact s3 p (by simp)
        rw [List.mapM_cons, ih fun q hq => s3 q (by simp [hq]), List.getElem?_eq_getElem hp]
        simp [List.getD_eq_getElem?_getD, List.getElem?_eq_getElem hp]
    rw [hval]
    refine ⟨by simp [h], ?_⟩
    intro idx hidx
    rw [Option.some.injEq] at hidx
    subst hidx
    have hpw : (sample.map fun p => (representatives labels dist n).getD p 0).Pairwise (fun j l => labels[j]? ≠ labels[l]?) := by
      rw [List.pairwise_map]
      refine List.Pairwise.imp_of_mem (fun {a b} ha hb hab => ?_) s2
      have ha' : a < (representatives labels dist n).length := by rw [r1]; exact s3 a ha
      have hb' : b < (representatives labels dist n).length := by rw [r1]; exact s3 b hb
      rw [List.getD_eq_getElem _ _ ha', List.getD_eq_getElem _ _ hb']
      rw [List.pairwise_iff_getElem] at r2
      rcases lt_or_gt_of_ne hab with hlt | hlt
      · exact r2 a b ha' hb' hlt
      · exact (r2 b a hb' ha' hlt).symm
    refine ⟨by simp [s1], hpw.imp fun {a b} hab e => hab (by rw [e]), hpw, fun j hj => ?_⟩
    obtain ⟨p, hp, rfl⟩ := List.mem_map.mp hj
    have hp' : p < (representatives labels dist n).length := by rw [r1]; exact s3 p hp
    rw [List.getD_eq_getElem _ _ hp']
    have hn := r3 _ (List.getElem_mem hp')
    obtain ⟨i, hi, -⟩ := id hn
    exact ⟨(List.getElem?_eq_some_iff.mp hi).1, hn⟩
  · rw [if_pos (by omega)]
    simp [h]

/-- The hypothesis of `C90_initial`: four points in three clusters, the third and the first cluster are sampled. -/
example : (2 ≤ usedClusters [0, 2, 2, 1] 2 → SamplePositions 2 (usedClusters [0, 2, 2, 1] 2) [2, 0]) ∧
    selectInitialPoints [0, 2, 2, 1] (fun _ j => ([5, 4, 3, 2] : List ℕ).getD j 0) 2 [2, 0] = some [2, 0] :=
  ⟨fun _ => ⟨rfl, by decide, by decide⟩, by decide +kernel⟩

/-- C90, the archive: for every final point an archive point at the least distance. -/
theorem C90_archive {d : List (List K)} (hd : ∀ r ∈ d, r ≠ []) : ∃ idx, selectArchive d = some idx ∧ idx.length = d.length ∧
    ∀ (k : ℕ) (r : List K), d[k]? = some r → ∃ j v, idx[k]? = some j ∧ r[j]? = some v ∧ ∀ u ∈ r, v ≤ u := by
  unfold selectArchive
  induction d with
  | nil => exact ⟨[], rfl, rfl, by simp⟩
  | cons r d ih =>
    obtain ⟨idx, h1, h2, h3⟩ := ih fun r hr => hd r (by simp [hr])
    obtain ⟨p, hp, hlt, hmin⟩ := moea_argmin_spec (hd r (by simp))
    refine ⟨p :: idx, by rw [List.mapM_cons, hp, h1]; rfl, by simp [h2], fun k r' hk => ?_⟩
    cases k with
    | zero =>
      obtain rfl : r = r' := by simpa using hk
      exact ⟨p, r[p], rfl, List.getElem?_eq_getElem hlt, hmin⟩
    | succ k => simpa using h3 k r' (by simpa using hk)

/-- A matrix of distances. -/
example : ∀ r ∈ [[3, 1, 2], [0, 1, 4]], r ≠ ([] : List ℕ) := by decide

/-- C90 in full, the archive: the result is a subset with as many points as there are final points. -/
def C90StatementSubset (K : Type*) [LinearOrder K] : Prop :=
  ∀ (d : List (List K)) (idx : List ℕ), selectArchive d = some idx → (∀ r ∈ d, d.length ≤ r.length) → idx.Nodup

/-- C90 does not hold for the archive: two final points next to the same archive point. -/
theorem C90_violated_subset : ¬ C90StatementSubset ℕ := fun h =>
  absurd (h [[0, 9], [1, 8]] [0, 0] (by decide +kernel) (by decide)) (by decide)

theorem accumulateMax_go (m : K) (l : List K) : (accumulateMax.go m l).length = l.length ∧
    ∀ v, (m :: accumulateMax.go m l).getLast? = some v → v ∈ m :: l ∧ ∀ u ∈ m :: l, u ≤ v := by
  induction l generalizing m with
  | nil => simp [accumulateMax.go]
  | cons y l ih =>
    obtain ⟨h1, h2⟩ := ih (max m y)
    refine ⟨by simp [accumulateMax.go, h1], fun v hv => ?_⟩
    rw [accumulateMax.go, List.getLast?_cons_cons] at hv
    obtain ⟨h3, h4⟩ := h2 v hv
    constructor
    · rcases List.mem_cons.mp h3 with h | h
      · rcases max_choice m y with e | e <;> rw [h, e] <;> simp
      · simp [h]
    · intro u hu
      rcases List.mem_cons.mp hu with rfl | hu
      · exact le_trans (le_max_left _ y) (h4 _ (by simp))
      · rcases List.mem_cons.mp hu with rfl | hu
        · exact le_trans (le_max_right m _) (h4 _ (by simp))
        · exact h4 u (by simp [hu])

/-- C90, the reported values: the first value of the history, and its largest one. What is missing: the value of the final
population, which is the last one of the history. -/
theorem C90_reported_partial {history : List K} {a b : K} (h : reportedValues history = some (a, b)) :
    history.head? = some a ∧ b ∈ history ∧ ∀ u ∈ history, u ≤ b := by
  unfold reportedValues at h
  cases history with
  | nil => simp [accumulateMax] at h
  | cons x l =>
    rw [accumulateMax, List.head?_cons, Option.bind_some, Option.map_eq_some_iff] at h
    obtain ⟨v, hv, e⟩ := h
    obtain ⟨rfl, rfl⟩ := Prod.mk.inj e
    exact ⟨rfl, (accumulateMax_go x l).2 v hv⟩

/-- A history. -/
example : reportedValues [3, 5, 4] = some (3, 5) := by decide

/-- C90 in full, the reported values: those of the first and of the final population. -/
def C90StatementReported (K : Type*) [LinearOrder K] : Prop :=
  ∀ (history : List K) (a b : K), reportedValues history = some (a, b) → history.head? = some a ∧ history.getLast? = some b

/-- C90 does not hold for the reported values if the hypervolume decreases. -/
theorem C90_violated_reported : ¬ C90StatementReported ℕ := fun h =>
  absurd (h [3, 5, 4] 3 5 (by decide)).2 (by decide)

end

/-! ### The reference point -/

/-- C90, the reference point: it lies behind all data if and only if the largest values are positive. -/
theorem C90_reference {K : Type*} [Field K] [LinearOrder K] [IsStrictOrderedRing K] {column : List K} {r : K}
    (h : refEntry column = some r) : (∀ v ∈ column, v < r) ↔ ∃ v ∈ column, 0 < v := by
  unfold refEntry at h
  obtain ⟨m, hm, rfl⟩ := Option.map_eq_some_iff.mp h
  obtain ⟨h1, h2⟩ := List.max?_eq_some_iff.mp hm
  constructor
  · intro hv
    exact ⟨m, h1, by have := hv m h1; linarith⟩
  · rintro ⟨v, hv, hpos⟩ u hu
    have := h2 u hu
    have := h2 v hv
    linarith

/-- Two columns: with a positive value and without. -/
example : refEntry ([-1, 2] : List ℚ) = some 3 ∧ refEntry ([-2, -1] : List ℚ) = some (-3 / 2) := by decide +kernel

/-- C90 in full, the reference point: it lies behind all data. -/
def C90StatementReference : Prop := ∀ (column : List ℚ) (r : ℚ), refEntry column = some r → ∀ v ∈ column, v < r

/-- C90 does not hold for the reference point: with negative values it lies before all data, and all hypervolumes are 0. -/
theorem C90_violated_reference : ¬ C90StatementReference := fun h =>
  absurd (h [-2, -1] (-3 / 2) (by decide +kernel) (-1) (by simp)) (by decide +kernel)

end Verif.Props
