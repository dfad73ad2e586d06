import Verif.NDS.Fronts
import Verif.NDS.NonDominatedLemmas
import Mathlib.Data.Rat.Defs
import Mathlib.Algebra.Order.Ring.Rat
import Mathlib.Tactic.NormNum
import Mathlib.Tactic.IntervalCases
import Mathlib.Data.List.GetD

/-!
# C07 - C11: dominance and non-dominated sorting

`Dominates` (Verif.NDS.Top) is Pareto dominance; `InFront fronts k i` (Verif.NDS.Fronts) says that
row `i` is listed in front `k`; `fuel` is Python's recursion limit and `depthBound` the depth that
is needed: `(D - 1) (log2 n + 2) + log2 n + 1`.
-/

namespace Verif.Props

open Verif.NDS

variable {K : Type*} [LinearOrder K]

/-- A valid input: not empty, all rows with the same number `D ≥ 2` of objectives, and a recursion
limit that is large enough. -/
structure ValidInput (D fuel : ℕ) (Y : List (List K)) : Prop where
  nonempty : Y ≠ []
  two : 2 ≤ D
  rows : ∀ y ∈ Y, y.length = D
  depth : depthBound D Y.length ≤ fuel

/-- For Python's default recursion limit 1000 (a third of it is more than enough): up to ten
objectives and a million points. -/
theorem depth_ok {D n : ℕ} (hD : D ≤ 10) (hn : n < 2 ^ 20) : depthBound D n ≤ 333 := by
  have h : Nat.log 2 n ≤ 19 := Nat.lt_succ_iff.mp (Nat.log_lt_of_lt_pow' (by norm_num) hn)
  unfold depthBound
  have : (D - 1) * (Nat.log 2 n + 2) ≤ 9 * 21 := Nat.mul_le_mul (by omega) (by omega)
  omega

variable [Inhabited K] {D fuel : ℕ} {Y : List (List K)}

omit [Inhabited K] in
private theorem get_label {lab : List ℕ} (h : IsRank Y lab) {i k : ℕ} (hi : i < Y.length) :
    lab[i]? = some k ↔ lab[i]'(h.1 ▸ hi) = k := by
  rw [List.getElem?_eq_getElem (h.1 ▸ hi)]; simp

/-! ## C07 -/

/-- C07: the sort terminates without error and the fronts are a partition of the rows into
non-empty sets labelled `0, 1, …, m` with no dominance inside a front. -/
theorem C07_partition (h : ValidInput D fuel Y) :
    ∃ fronts, nonDominSort fuel Y = some fronts ∧
      fronts.map Prod.fst = List.range fronts.length ∧
      (∀ g ∈ fronts, g.2 ≠ [] ∧ g.2.Nodup ∧ ∀ i ∈ g.2, i < Y.length) ∧
      (∀ i < Y.length, ∃! k, InFront fronts k i) ∧
      (∀ k i j, InFront fronts k i → InFront fronts k j →
        ∀ (hi : i < Y.length) (hj : j < Y.length), ¬ Dominates Y[i] Y[j]) := by
  obtain ⟨lab, hr, hs⟩ := nonDominSort_spec h.nonempty h.two h.rows h.depth
  have hl := hr.1
  refine ⟨frontsOf lab, hs, keys_frontsOf hr.downward, ?_, ?_, ?_⟩
  · rintro ⟨k, ids⟩ hg
    obtain ⟨hk, rfl⟩ := mem_frontsOf.mp hg
    obtain ⟨i, hi, hik⟩ := List.getElem_of_mem hk
    refine ⟨?_, (List.nodup_range).filter _, fun i hi => ?_⟩
    · apply List.ne_nil_of_mem (a := i)
      rw [List.mem_filter, List.mem_range]
      exact ⟨hi, by simp [hi, hik]⟩
    · have := List.mem_range.mp (List.mem_filter.mp hi).1
      omega
  · intro i hi
    refine ⟨lab[i], inFront_frontsOf.mpr (by simp), fun k hk => ?_⟩
    exact ((get_label hr hi).mp (inFront_frontsOf.mp hk)).symm
  · intro k i j hki hkj hi hj hd
    rw [inFront_frontsOf, get_label hr hi] at hki
    rw [inFront_frontsOf, get_label hr hj] at hkj
    have := hr.lt_of_dominates (by omega) (by omega) hj hi hd
    omega

/-- C07, invalid inputs are rejected: an answer is only given for a non-empty list of vectors of
the same length, at least two. -/
theorem C07_rejects {fronts : List (ℕ × List ℕ)} (h : nonDominSort fuel Y = some fronts) :
    Y ≠ [] ∧ ∃ D, 2 ≤ D ∧ ∀ y ∈ Y, y.length = D := by
  rw [nonDominSort_eq] at h
  cases Y with
  | nil => simp [frontLabels] at h
  | cons y Y =>
    refine ⟨by simp, y.length, ?_, ?_⟩
    · by_contra hc
      have : y.length ≤ 1 := by omega
      simp [frontLabels, this] at h
    · intro z hz
      by_contra hc
      have hany : ((y :: Y).any fun z => decide (z.length ≠ y.length)) = true := by
        rw [List.any_eq_true]
        exact ⟨z, hz, by simpa using hc⟩
      unfold frontLabels at h
      simp only [hany] at h
      split_ifs at h <;> simp at h

/-- C07 for the default mode (`only_front_indices=False`, any objective function): the fronts hold
the decisions themselves, each as often as it occurs in the input, with the same labels. -/
theorem C07_decisions {α : Type*} {dec : List α} {get : α → List K}
    (h : ValidInput D fuel (dec.map get)) :
    ∃ r fronts, nonDominSortDecisions fuel dec get = some r ∧
      nonDominSort fuel (dec.map get) = some fronts ∧
      (r.map Prod.fst).Perm (fronts.map Prod.fst) ∧
      ∀ k ds, (k, ds) ∈ r → ∃ ids, (k, ids) ∈ fronts ∧ ds.Perm (ids.filterMap (fun i => dec[i]?)) := by
  obtain ⟨lab, hlab, hr⟩ := frontLabels_spec h.nonempty h.two h.rows h.depth
  have hF : ∃ F : List K → ℕ, lab = (dec.map get).map F := by
    generalize dec.map get = Y at hlab
    cases Y with
    | nil => simp [frontLabels] at hlab
    | cons y Y =>
      unfold frontLabels at hlab
      simp only at hlab
      split_ifs at hlab
      rw [Option.map_eq_some_iff] at hlab
      obtain ⟨f, -, rfl⟩ := hlab
      exact ⟨_, rfl⟩
  obtain ⟨F, hF⟩ := hF
  set u := uniqueObjs (dec.map get) with hu
  set groups : List (ℕ × List α) := u.map fun z =>
      (lab.getD ((dec.map get).idxOf z) 0, dec.filter (fun x => get x = z)) with hg
  have hgroups : groups = u.map fun z => (F z, dec.filter (fun x => get x = z)) := by
    rw [hg]
    apply List.map_congr_left
    intro z hz
    have hz' := mem_uniqueObjs.mp hz
    have hlt := List.idxOf_lt_length_iff.mpr hz'
    rw [hF, List.getD_eq_getElem?_getD, List.getElem?_map, List.getElem?_eq_getElem hlt,
      List.getElem_idxOf]
    rfl
  have hmemk : ∀ v, v ∈ groups.map Prod.fst ↔ v ∈ lab := by
    intro v
    rw [hgroups, List.map_map, hF]
    simp only [List.mem_map, Function.comp]
    constructor
    · rintro ⟨z, hz, rfl⟩
      exact ⟨z, List.mem_map.mp (mem_uniqueObjs.mp hz), rfl⟩
    · rintro ⟨z, hz, rfl⟩
      exact ⟨z, mem_uniqueObjs.mpr (List.mem_map.mpr hz), rfl⟩
  refine ⟨(groups.map Prod.fst).reverse.dedup.reverse.map fun v =>
      (v, ((groups.filter (fun g => g.1 = v)).map Prod.snd).flatten), frontsOf lab, ?_,
      by rw [nonDominSort_eq, hlab]; rfl, ?_, ?_⟩
  · simp only [nonDominSortDecisions, hlab, Option.map_some]
    rfl
  · have h1 : (frontsOf lab).map Prod.fst = lab.dedup.insertionSort (· ≤ ·) := by
      unfold frontsOf
      rw [List.map_map]
      exact List.map_id _
    rw [h1, List.map_map]
    change (List.map id _).Perm _
    rw [List.map_id]
    refine (List.reverse_perm _).trans (List.Perm.trans ?_ (List.perm_insertionSort _ _).symm)
    rw [List.perm_ext_iff_of_nodup (List.nodup_dedup _) (List.nodup_dedup _)]
    intro v
    rw [List.mem_dedup, List.mem_dedup, List.mem_reverse, hmemk]
  · intro k ds hk
    rw [List.mem_map] at hk
    obtain ⟨v, hv, he⟩ := hk
    cases he
    rw [List.mem_reverse, List.mem_dedup, List.mem_reverse, hmemk] at hv
    refine ⟨_, mem_frontsOf.mpr ⟨hv, rfl⟩, ?_⟩
    have e1 : ((groups.filter (fun g => g.1 = k)).map Prod.snd).flatten =
        (u.filter (fun z => F z = k)).flatMap (fun z => dec.filter (fun x => get x = z)) := by
      rw [hgroups, List.filter_map, List.map_map, List.flatMap_def]
      rfl
    have e2 : ∀ (dec' : List α) (lab' : List ℕ), lab' = (dec'.map get).map F →
        ((List.range lab'.length).filter (fun i => lab'[i]? = some k)).filterMap (fun i => dec'[i]?) =
          dec'.filter (fun x => F (get x) = k) := by
      intro dec'
      induction dec' with
      | nil => intro lab' h; subst h; simp
      | cons x dec' ih =>
        rintro _ rfl
        rw [List.map_cons, List.map_cons, List.length_cons, List.range_succ_eq_map,
          List.filter_cons, List.filter_cons]
        have := ih _ rfl
        simp only [List.filter_map, List.getElem?_cons_zero, Option.some.injEq]
        have htail : (List.map Nat.succ (List.filter ((fun i => decide
            ((F (get x) :: List.map F (List.map get dec'))[i]? = some k)) ∘ Nat.succ)
            (List.range (List.map F (List.map get dec')).length))).filterMap
            (fun i => (x :: dec')[i]?) = dec'.filter (fun x => F (get x) = k) := by
          rw [← this, List.filterMap_map]
          simp only [Function.comp_def, Nat.succ_eq_add_one, List.getElem?_cons_succ]
        split_ifs with hc
        · rw [List.filterMap_cons]
          simp only [List.getElem?_cons_zero]
          rw [htail]
        · exact htail
    rw [e1, e2 dec lab hF]
    refine (flatMap_filter_perm get dec _ ((nodup_uniqueObjs _).filter _)).trans (List.Perm.of_eq ?_)
    apply List.filter_congr
    intro x hx
    have hxu : get x ∈ u := mem_uniqueObjs.mpr (List.mem_map_of_mem hx)
    rw [decide_eq_decide, List.mem_filter]
    rw [decide_eq_true_eq]
    exact and_iff_right hxu

/-! ## C08 -/

/-- C08: front 0 holds exactly the rows that no row dominates. -/
theorem C08_front_zero (h : ValidInput D fuel Y) :
    ∃ fronts, nonDominSort fuel Y = some fronts ∧ ∀ i (hi : i < Y.length),
      (InFront fronts 0 i ↔ ∀ j (hj : j < Y.length), ¬ Dominates Y[j] Y[i]) := by
  obtain ⟨lab, hr, hs⟩ := nonDominSort_spec h.nonempty h.two h.rows h.depth
  refine ⟨_, hs, fun i hi => ?_⟩
  rw [inFront_frontsOf, get_label hr hi, ← Nat.le_zero]
  obtain ⟨hl, hr⟩ := hr
  rw [hr i hi 0]
  simp

/-- C08: front `k + 1` holds exactly the rows that are dominated by a row of front `k` and by no
row of a front above `k`. -/
theorem C08_front_succ (h : ValidInput D fuel Y) :
    ∃ fronts, nonDominSort fuel Y = some fronts ∧ ∀ k i (hi : i < Y.length),
      (InFront fronts (k + 1) i ↔
        (∃ (j : ℕ) (hj : j < Y.length), InFront fronts k j ∧ Dominates Y[j] Y[i]) ∧
        ∀ j (hj : j < Y.length), Dominates Y[j] Y[i] → ∀ l, InFront fronts l j → l ≤ k) := by
  obtain ⟨lab, hr, hs⟩ := nonDominSort_spec h.nonempty h.two h.rows h.depth
  have hl := hr.1
  refine ⟨_, hs, fun k i hi => ?_⟩
  rw [inFront_frontsOf, get_label hr hi]
  constructor
  · intro hk
    refine ⟨?_, fun j hj hd l hlj => ?_⟩
    · obtain ⟨j, hj, hj', hd, he⟩ := hr.exists_dominator (by omega) hi hk
      exact ⟨j, hj', by rw [inFront_frontsOf, get_label hr hj']; exact he, hd⟩
    · rw [inFront_frontsOf, get_label hr hj] at hlj
      have := hr.lt_of_dominates (by omega) (by omega) hi hj hd
      omega
  · rintro ⟨⟨j, hj, hjk, hd⟩, hall⟩
    rw [inFront_frontsOf, get_label hr hj] at hjk
    have h1 := hr.lt_of_dominates (by omega) (by omega) hi hj hd
    have h2 := (hr.2 i hi (k + 1)).mpr fun j hj hd => by
      have := hall j hj hd _ (inFront_frontsOf.mpr ((get_label hr hj).mpr rfl))
      omega
    omega

/-- `i :: c` is a dominance chain in `Y`: every row of it is dominated by the next one. -/
def DomChain (Y : List (List K)) (c : List ℕ) : Prop :=
  List.IsChain (fun a b => ∃ (ha : a < Y.length) (hb : b < Y.length), Dominates Y[b] Y[a]) c

/-- C08: the front number of a row is the length of the longest chain of rows above it. -/
theorem C08_longest_chain (h : ValidInput D fuel Y) :
    ∃ fronts, nonDominSort fuel Y = some fronts ∧ ∀ k i, i < Y.length →
      (InFront fronts k i ↔ (∃ c, DomChain Y (i :: c) ∧ c.length = k) ∧
        ∀ c, DomChain Y (i :: c) → c.length ≤ k) := by
  obtain ⟨lab, hr, hs⟩ := nonDominSort_spec h.nonempty h.two h.rows h.depth
  have hl := hr.1
  refine ⟨_, hs, ?_⟩
  have hex : ∀ k i (hi : i < Y.length), lab[i] = k → ∃ c, DomChain Y (i :: c) ∧ c.length = k := by
    intro k
    induction k with
    | zero => intro i hi _; exact ⟨[], by simp [DomChain], rfl⟩
    | succ k ih =>
      intro i hi hk
      obtain ⟨j, hj, hj', hd, he⟩ := hr.exists_dominator (by omega) hi hk
      obtain ⟨c, hc, hlen⟩ := ih j hj' he
      exact ⟨j :: c, List.isChain_cons_cons.mpr ⟨⟨hi, hj', hd⟩, hc⟩, by simp [hlen]⟩
  have hle : ∀ (c : List ℕ) i (hi : i < Y.length), DomChain Y (i :: c) → c.length ≤ lab[i] := by
    intro c
    induction c with
    | nil => intro i hi _; exact Nat.zero_le _
    | cons j c ih =>
      intro i hi hc
      obtain ⟨⟨_, hj, hd⟩, hc'⟩ := List.isChain_cons_cons.mp hc
      have h1 := ih j hj hc'
      have h2 := hr.lt_of_dominates (by omega) (by omega) hi hj hd
      rw [List.length_cons]; omega
  intro k i hi
  rw [inFront_frontsOf, get_label hr hi]
  constructor
  · rintro rfl
    exact ⟨hex _ i hi rfl, fun c hc => hle c i hi hc⟩
  · rintro ⟨⟨c, hc, rfl⟩, hmax⟩
    obtain ⟨c', hc', hlen⟩ := hex _ i hi rfl
    exact le_antisymm (hlen ▸ hmax c' hc') (hle c i hi hc)

/-! ## C09 -/

omit [Inhabited K] in
private theorem IsRank.reindex {Y Y' : List (List K)} {lab : List ℕ} (hr : IsRank Y lab)
    (φ : ℕ → ℕ) (hφ : ∀ i, i < Y'.length → φ i < Y.length)
    (heq : ∀ i (hi : i < Y'.length), Y'[i] = Y[φ i]'(hφ i hi))
    (hsurj : ∀ j < Y.length, ∃ i < Y'.length, φ i = j) :
    IsRank Y' ((List.range Y'.length).map fun i => lab.getD (φ i) 0) := by
  obtain ⟨hl, hr⟩ := hr
  have hget : ∀ i (hi : i < Y'.length), lab.getD (φ i) 0 = lab[φ i]'(hl ▸ hφ i hi) := by
    intro i hi
    rw [List.getD_eq_getElem?_getD, List.getElem?_eq_getElem (hl ▸ hφ i hi)]; rfl
  refine ⟨by simp, fun i hi n => ?_⟩
  simp only [List.getElem_map, List.getElem_range]
  rw [hget i hi, hr (φ i) (hφ i hi) n]
  constructor
  · intro h j hj hd
    rw [hget j hj]
    exact h (φ j) (hφ j hj) (by rwa [← heq i hi, ← heq j hj])
  · intro h j hj hd
    obtain ⟨i', hi', rfl⟩ := hsurj j hj
    rw [← hget i' hi']
    exact h i' hi' (by rwa [heq i hi, heq i' hi'])

/-- C09: reordering or repeating rows does not change the fronts. `φ` tells for every row of the
new input `Y'` which row of `Y` it is; every row of `Y` must be used. -/
theorem C09_reorder {fuel' : ℕ} {Y' : List (List K)} (h : ValidInput D fuel Y)
    (h' : ValidInput D fuel' Y') (φ : ℕ → ℕ) (hφ : ∀ i, i < Y'.length → φ i < Y.length)
    (heq : ∀ i (hi : i < Y'.length), Y'[i] = Y[φ i]'(hφ i hi))
    (hsurj : ∀ j < Y.length, ∃ i < Y'.length, φ i = j) :
    ∃ fronts fronts', nonDominSort fuel Y = some fronts ∧ nonDominSort fuel' Y' = some fronts' ∧
      ∀ k i, i < Y'.length → (InFront fronts' k i ↔ InFront fronts k (φ i)) := by
  obtain ⟨lab, hr, hs⟩ := nonDominSort_spec h.nonempty h.two h.rows h.depth
  obtain ⟨lab', hr', hs'⟩ := nonDominSort_spec h'.nonempty h'.two h'.rows h'.depth
  refine ⟨_, _, hs, hs', fun k i hi => ?_⟩
  have e := hr'.unique (IsRank.reindex hr φ hφ heq hsurj)
  have hl := hr.1
  have hlt : φ i < lab.length := by have := hφ i hi; omega
  rw [inFront_frontsOf, inFront_frontsOf, e]
  simp [hi, hlt, List.getD_eq_getElem?_getD]

/-- C09: equal rows are in the same front. -/
theorem C09_equal_rows (h : ValidInput D fuel Y) :
    ∃ fronts, nonDominSort fuel Y = some fronts ∧ ∀ k i j (hi : i < Y.length) (hj : j < Y.length),
      Y[i] = Y[j] → (InFront fronts k i ↔ InFront fronts k j) := by
  obtain ⟨lab, hr, hs⟩ := nonDominSort_spec h.nonempty h.two h.rows h.depth
  refine ⟨_, hs, fun k i j hi hj hij => ?_⟩
  have hlab : lab[i]'(hr.1 ▸ hi) = lab[j]'(hr.1 ▸ hj) := by
    obtain ⟨hl, hr⟩ := hr
    have key : ∀ n, lab[i] ≤ n ↔ lab[j] ≤ n := fun n => by
      rw [hr i hi, hr j hj, hij]
    exact le_antisymm ((key _).mpr le_rfl) ((key _).mp le_rfl)
  rw [inFront_frontsOf, inFront_frontsOf, get_label hr hi, get_label hr hj, hlab]

/-- C09: strictly increasing transformations of the objectives leave the result as it is. -/
theorem C09_monotone {L : Type*} [LinearOrder L] [Inhabited L] {fuel' : ℕ} (g : ℕ → K → L)
    (hg : ∀ m, StrictMono (g m)) (h : ValidInput D fuel Y)
    (hf : depthBound D Y.length ≤ fuel') :
    nonDominSort fuel' (Y.map fun y => y.mapIdx g) = nonDominSort fuel Y := by
  obtain ⟨lab, hr, hs⟩ := nonDominSort_spec h.nonempty h.two h.rows h.depth
  obtain ⟨lab', hr', hs'⟩ := nonDominSort_spec (Y := Y.map fun y => y.mapIdx g) (D := D)
    (fuel := fuel') (by simpa using h.nonempty) h.two
    (by
      intro y hy
      obtain ⟨z, hz, rfl⟩ := List.mem_map.mp hy
      simp [h.rows z hz]) (by simpa using hf)
  have hdom : ∀ a b : List K, Dominates (a.mapIdx g) (b.mapIdx g) ↔ Dominates a b := by
    intro a b
    unfold Dominates
    simp only [List.length_mapIdx, List.getElem_mapIdx, (hg _).le_iff_le, (hg _).lt_iff_lt]
  have hr'' : IsRank Y lab' := by
    obtain ⟨hl, hr'⟩ := hr'
    refine ⟨by simpa using hl, fun i hi n => ?_⟩
    have := hr' i (by simpa using hi) n
    simpa [hdom] using this
  rw [hs, hs', hr.unique hr'']

/-! ### C07 - C09: an instance -/

/-- Duplicates, ties and several fronts. -/
def exampleY : List (List ℚ) :=
  [[1, 5, 2], [2, 2, 2], [2, 2, 2], [3, 3, 3], [1, 5, 3], [4, 4, 4], [0, 9, 9], [2, 2, 3]]

example : ValidInput 3 1000 exampleY where
  nonempty := by simp [exampleY]
  two := by norm_num
  rows := by decide
  depth := le_trans (depth_ok (by norm_num) (by simp [exampleY])) (by norm_num)

/-- The rows in another order and one of them repeated. -/
example : ∃ fronts fronts', nonDominSort 1000 exampleY = some fronts ∧
    nonDominSort 1000 (exampleY.reverse ++ [[2, 2, 2]]) = some fronts' ∧
    ∀ k i, i < 9 → (InFront fronts' k i ↔ InFront fronts k ([7, 6, 5, 4, 3, 2, 1, 0, 1].getD i 0)) := by
  refine C09_reorder (D := 3) (Y' := exampleY.reverse ++ [[2, 2, 2]]) ⟨by simp [exampleY], by norm_num,
    by decide, le_trans (depth_ok (by norm_num) (by simp [exampleY])) (by norm_num)⟩
    ⟨by simp [exampleY], by norm_num, by decide,
      le_trans (depth_ok (by norm_num) (by simp [exampleY])) (by norm_num)⟩ _ ?_ ?_ ?_
  · decide
  · decide
  · decide

example : Dominates ([2, 2, 2] : List ℚ) [3, 3, 3] := by
  refine dominates_iff.mpr ⟨rfl, ?_, by decide⟩
  intro m ha hb
  have : m < 3 := ha
  interval_cases m <;> norm_num

/-! ## C10 -/

omit [Inhabited K]

/-- C10: `is_dominate` rejects vectors of different lengths, and otherwise decides Pareto
dominance. -/
theorem C10_dominance (a b : List K) :
    (a.length ≠ b.length → isDominate a b = none) ∧
    (a.length = b.length → ∃ r, isDominate a b = some r ∧ (r = true ↔
      (∀ m (ha : m < a.length) (hb : m < b.length), a[m] ≤ b[m]) ∧
      ∃ (m : ℕ) (ha : m < a.length) (hb : m < b.length), a[m] < b[m])) := by
  refine ⟨fun h => by simp [isDominate, h], fun h => ⟨domLoop a b false, by simp [isDominate, h], ?_⟩⟩
  rw [domLoop_iff a b false h]
  have hd := dominates_iff (a := a) (b := b)
  have h1 : List.Forall₂ (· ≤ ·) a b ↔
      ∀ m (ha : m < a.length) (hb : m < b.length), a[m] ≤ b[m] := by
    rw [List.forall₂_iff_get]
    exact and_iff_right h
  rw [h1]
  constructor
  · rintro ⟨h2, h3⟩
    exact (hd.mpr ⟨h, h2, h3.resolve_left (by simp)⟩).2
  · intro h2
    exact ⟨h2.1, Or.inr (hd.mp ⟨h, h2⟩).2.2⟩

/-- C10: no vector dominates itself. -/
theorem C10_irreflexive (a : List K) : isDominate a a = some false := by
  obtain ⟨r, h1, h2⟩ := (C10_dominance a a).2 rfl
  cases r with
  | false => exact h1
  | true =>
    obtain ⟨-, m, _, _, h⟩ := h2.mp rfl
    exact absurd h (lt_irrefl _)

private theorem isDominate_true {a b : List K} : isDominate a b = some true ↔ Dominates a b := by
  by_cases hl : a.length = b.length
  · obtain ⟨r, h1, h2⟩ := (C10_dominance a b).2 hl
    rw [h1, Option.some.injEq, h2, Dominates]
    simp [hl]
  · rw [(C10_dominance a b).1 hl, Dominates]
    simp [hl]

/-- C10: dominance is asymmetric. -/
theorem C10_asymmetric {a b : List K} (h : isDominate a b = some true) :
    isDominate b a = some false := by
  rw [isDominate_true] at h
  obtain ⟨r, h1, -⟩ := (C10_dominance b a).2 h.1.symm
  cases r with
  | false => exact h1
  | true => exact absurd (h.trans (isDominate_true.mp h1)) (Dominates.irrefl a)

/-- C10: dominance is transitive. -/
theorem C10_transitive {a b c : List K} (h1 : isDominate a b = some true)
    (h2 : isDominate b c = some true) : isDominate a c = some true := by
  rw [isDominate_true] at *
  exact h1.trans h2

example : isDominate ([1, 2, 3] : List ℚ) [1, 3, 3] = some true := by decide +kernel
example : isDominate ([1, 3, 3] : List ℚ) [2, 3, 3] = some true := by decide +kernel
example : isDominate ([1, 3] : List ℚ) [1, 3, 3] = none := by decide +kernel

/-! ## C11 -/

/-- The property as stated: for every finite set of points the returned positions are those of the
undominated points. -/
def C11Statement : Prop :=
  ∀ (D : ℕ) (Y : List (List ℚ)), Y ≠ [] → (∀ y ∈ Y, y.length = D) →
    ∃ r, getNonDominated Y = some r ∧ ∀ i (hi : i < Y.length),
      (i ∈ r ↔ ∀ j (hj : j < Y.length), ¬ Dominates Y[j] Y[i])

/-- C11 fails: a duplicated non-dominated point is lost (all copies of it), -/
theorem C11_violated : ¬ C11Statement := by
  intro h
  obtain ⟨r, h1, h2⟩ := h 2 [[0, 0], [0, 0], [-1, 5]] (by simp) (by decide)
  have hr : getNonDominated ([[0, 0], [0, 0], [-1, 5]] : List (List ℚ)) = some [2] := by decide +kernel
  rw [hr] at h1
  cases h1
  have := (h2 0 (by simp)).mpr fun j hj hd => by
    obtain ⟨-, h3, m, ha, hb, h4⟩ := hd
    have hj' : j < 3 := hj
    interval_cases j
    · exact lt_irrefl _ h4
    · have hm : m < 2 := ha
      interval_cases m <;> exact lt_irrefl (0 : ℚ) h4
    · exact absurd (h3 1 (by simp) (by simp) : (5 : ℚ) ≤ 0) (by norm_num)
  simp at this

/-- and if no point is left the call fails. -/
theorem C11_violated_error : getNonDominated ([[0, 0], [0, 0]] : List (List ℚ)) = none := by
  decide +kernel

/-- C11 for sets without duplicate rows: exactly the undominated rows are returned, in their order,
each row of the input is one of them or dominated by one of them, and the call does not fail.
The full statement is `C11Statement`, which is false for inputs with duplicates. -/
theorem C11_nodup_partial {Y : List (List K)} (hne : Y ≠ []) (hY : ∀ y ∈ Y, y.length = D)
    (hn : Y.Nodup) :
    ∃ r, getNonDominated Y = some r ∧ r.Pairwise (· < ·) ∧
      (∀ i, i ∈ r ↔ ∃ hi : i < Y.length, ∀ j (hj : j < Y.length), ¬ Dominates Y[j] Y[i]) ∧
      ∀ p ∈ Y, ∃ i ∈ r, ∃ hi : i < Y.length, Y[i] = p ∨ Dominates Y[i] p := by
  have hmem : ∀ i, i ∈ keptIndices anyGreater Y ↔
      ∃ hi : i < Y.length, ∀ j (hj : j < Y.length), ¬ Dominates Y[j] Y[i] := by
    intro i
    rw [mem_keptIndices]
    refine exists_congr fun hi => ⟨fun h j hj hd => ?_, fun h j hj hne => ?_⟩
    · have hji : j ≠ i := by rintro rfl; exact Dominates.irrefl _ hd
      have h1 := h j hj hji
      rw [(anyGreater_false_iff hd.1).mpr (Or.inl hd)] at h1
      exact absurd h1 (by simp)
    · by_contra hc
      rw [Bool.not_eq_true, anyGreater_false_iff (by
        rw [hY _ (List.getElem_mem hj), hY _ (List.getElem_mem hi)])] at hc
      rcases hc with hc | hc
      · exact h j hj hc
      · exact hne (hn.getElem_inj_iff.mp hc)
  have hcover : ∀ p ∈ Y, ∃ i ∈ keptIndices anyGreater Y, ∃ hi : i < Y.length,
      Y[i] = p ∨ Dominates Y[i] p := by
    intro p hp
    obtain ⟨q, hq, h1, h2⟩ := exists_minimal Y hp
    obtain ⟨i, hi, rfl⟩ := List.getElem_of_mem hq
    exact ⟨i, (hmem i).mpr ⟨hi, fun j hj => h2 _ (List.getElem_mem hj)⟩, hi, h1⟩
  refine ⟨keptIndices anyGreater Y, ?_, (List.pairwise_lt_range).filter _, hmem, hcover⟩
  unfold getNonDominated
  rw [if_neg]
  intro h0
  obtain ⟨p, hp⟩ := List.exists_mem_of_ne_nil Y hne
  obtain ⟨i, hi, -⟩ := hcover p hp
  rw [h0] at hi
  simp at hi

example : getNonDominated ([[0, 1], [1, 0], [1, 1], [-1, 5]] : List (List ℚ)) = some [0, 1, 3] ∧
    ([[0, 1], [1, 0], [1, 1], [-1, 5]] : List (List ℚ)).Nodup := by
  constructor <;> decide +kernel

/-- C11 for every input: what is returned is exactly the rows that no other row (copies included)
weakly dominates; so a returned row is never dominated. -/
theorem C11_any_partial {Y : List (List K)} (hY : ∀ y ∈ Y, y.length = D) {r : List ℕ}
    (h : getNonDominated Y = some r) (i : ℕ) :
    i ∈ r ↔ ∃ hi : i < Y.length, ∀ j (hj : j < Y.length), j ≠ i →
      ¬ (Dominates Y[j] Y[i] ∨ Y[j] = Y[i]) := by
  have : r = keptIndices anyGreater Y := by
    unfold getNonDominated at h
    simp only at h
    split_ifs at h
    exact (Option.some.inj h).symm
  rw [this, mem_keptIndices]
  refine exists_congr fun hi => forall_congr' fun j => forall_congr' fun hj => forall_congr' fun _ => ?_
  rw [← anyGreater_false_iff (by rw [hY _ (List.getElem_mem hj), hY _ (List.getElem_mem hi)])]
  simp

/-- The mode `weakly_dominated=False` returns a subset of the undominated rows, -/
theorem C11_strict_mode_partial {F : Type*} [Field F] [LinearOrder F] {atol rtol : F}
    {Y : List (List F)} {r : List ℕ}
    (h : getNonDominatedStrict atol rtol Y = some r) :
    ∀ i ∈ r, ∃ hi : i < Y.length, ∀ j (hj : j < Y.length), ¬ Dominates Y[j] Y[i] := by
  have : r = keptIndices (fun q p => anyGreater q p && noneClose atol rtol q p) Y := by
    unfold getNonDominatedStrict at h
    simp only at h
    split_ifs at h
    exact (Option.some.inj h).symm
  intro i hi
  rw [this, mem_keptIndices] at hi
  obtain ⟨hi, hall⟩ := hi
  refine ⟨hi, fun j hj hd => ?_⟩
  have hji : j ≠ i := by rintro rfl; exact Dominates.irrefl _ hd
  have h1 := hall j hj hji
  rw [Bool.and_eq_true] at h1
  have h2 := (anyGreater_false_iff hd.1).mpr (Or.inl hd)
  rw [h2] at h1
  simp at h1

/-- exactly those below every other row in some objective and not close to it in any one, in the sense of `np.isclose`; -/
theorem C11_strict_mode_exact {F : Type*} [Field F] [LinearOrder F] {atol rtol : F} {Y : List (List F)} {D : ℕ}
    (hY : ∀ y ∈ Y, y.length = D) {r : List ℕ} (h : getNonDominatedStrict atol rtol Y = some r) (i : ℕ) :
    i ∈ r ↔ i < Y.length ∧ ∀ j < Y.length, j ≠ i →
      (∃ k < D, (Y.getD i []).getD k 0 < (Y.getD j []).getD k 0) ∧
      ∀ k < D, atol + rtol * |(Y.getD i []).getD k 0| < |(Y.getD j []).getD k 0 - (Y.getD i []).getD k 0| := by
  have : r = keptIndices (fun q p => anyGreater q p && noneClose atol rtol q p) Y := by
    unfold getNonDominatedStrict at h
    simp only at h
    split_ifs at h
    exact (Option.some.inj h).symm
  rw [this, mem_keptIndices, ← exists_prop]
  refine exists_congr fun hi => forall_congr' fun j => forall_congr' fun hj => forall_congr' fun _ => ?_
  have e1 := hY _ (List.getElem_mem hi)
  have e2 := hY _ (List.getElem_mem hj)
  rw [List.getD_eq_getElem _ _ hi, List.getD_eq_getElem _ _ hj, Bool.and_eq_true]
  refine and_congr ?_ ?_
  · rw [anyGreater, List.any_eq_true]
    constructor
    · rintro ⟨b, hb, hb'⟩
      obtain ⟨k, hk, rfl⟩ := List.mem_iff_getElem.mp hb
      rw [List.length_zipWith] at hk
      refine ⟨k, by omega, ?_⟩
      rw [List.getD_eq_getElem _ _ (by omega), List.getD_eq_getElem _ _ (by omega)]
      simpa using hb'
    · rintro ⟨k, hk, hlt⟩
      rw [List.getD_eq_getElem _ _ (by omega), List.getD_eq_getElem _ _ (by omega)] at hlt
      refine ⟨_, List.getElem_mem (n := k) (by rw [List.length_zipWith]; omega), ?_⟩
      simpa using hlt
  · rw [noneClose, List.all_eq_true]
    constructor
    · intro hall k hk
      have := hall _ (List.getElem_mem (n := k) (by rw [List.length_zipWith]; omega))
      rw [List.getD_eq_getElem _ _ (by omega), List.getD_eq_getElem _ _ (by omega)]
      simpa using this
    · intro hall b hb
      obtain ⟨k, hk, rfl⟩ := List.mem_iff_getElem.mp hb
      rw [List.length_zipWith] at hk
      have := hall k (by omega)
      rw [List.getD_eq_getElem _ _ (by omega), List.getD_eq_getElem _ _ (by omega)] at this
      simpa using this

/-- but not all of them, not even all rows that are not weakly dominated: a common value in one
objective is enough to be dropped. Here nothing is left and the call fails. -/
theorem C11_strict_mode_violated :
    getNonDominatedStrict (1 / 100000000) (1 / 100000) ([[0, 1, 2], [0, 2, 1]] : List (List ℚ)) = none := by
  decide +kernel

example : getNonDominatedStrict (1 / 100000000) (1 / 100000)
    ([[0, 2], [1, 1], [2, 3]] : List (List ℚ)) = some [0, 1] := by decide +kernel

/-- The relative tolerance counts: 100000 and 100001 are close. -/
example : getNonDominatedStrict (1 / 100000000) (1 / 100000)
    ([[0, 100001], [1, 100000], [-1, 7]] : List (List ℚ)) = some [2] := by decide +kernel

end Verif.Props
