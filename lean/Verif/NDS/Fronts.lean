import Verif.NDS.Top
import Mathlib.Data.List.NodupEquivFin
import Mathlib.Data.List.Perm.Basic

/-!
# From labels to the dictionary of fronts
-/

namespace Verif.NDS

variable {K : Type*} [LinearOrder K]

/-- Row `i` is in front `k` of the result. -/
def InFront (fronts : List (ℕ × List ℕ)) (k i : ℕ) : Prop := ∃ ids, (k, ids) ∈ fronts ∧ i ∈ ids

/-- The dictionary built from the labels. -/
def frontsOf (lab : List ℕ) : List (ℕ × List ℕ) :=
  (lab.dedup.insertionSort (· ≤ ·)).map fun v =>
    (v, (List.range lab.length).filter (fun i => lab[i]? = some v))

theorem nonDominSort_eq [Inhabited K] (fuel : ℕ) (Y : List (List K)) :
    nonDominSort fuel Y = (frontLabels fuel Y).map frontsOf := rfl

theorem mem_frontsOf {lab : List ℕ} {k : ℕ} {ids : List ℕ} :
    (k, ids) ∈ frontsOf lab ↔
      k ∈ lab ∧ ids = (List.range lab.length).filter (fun i => lab[i]? = some k) := by
  unfold frontsOf
  rw [List.mem_map]
  constructor
  · rintro ⟨v, hv, he⟩
    rw [(List.perm_insertionSort _ _).mem_iff, List.mem_dedup] at hv
    cases he
    exact ⟨hv, rfl⟩
  · rintro ⟨hk, rfl⟩
    exact ⟨k, by rwa [(List.perm_insertionSort _ _).mem_iff, List.mem_dedup], rfl⟩

theorem inFront_frontsOf {lab : List ℕ} {k i : ℕ} :
    InFront (frontsOf lab) k i ↔ lab[i]? = some k := by
  unfold InFront
  constructor
  · rintro ⟨ids, h1, h2⟩
    obtain ⟨-, rfl⟩ := mem_frontsOf.mp h1
    rw [List.mem_filter] at h2
    simpa using h2.2
  · intro h
    refine ⟨_, mem_frontsOf.mpr ⟨List.mem_of_getElem? h, rfl⟩, ?_⟩
    obtain ⟨hi, -⟩ := List.getElem?_eq_some_iff.mp h
    rw [List.mem_filter, List.mem_range]
    exact ⟨hi, by simpa using h⟩

/-- A strictly increasing list of naturals closed downwards is an initial segment. -/
theorem eq_range_of_sorted {l : List ℕ} (hs : l.Pairwise (· < ·)) (hd : ∀ x ∈ l, ∀ y < x, y ∈ l) :
    l = List.range l.length := by
  have key : ∀ i (hi : i < l.length), l[i] = i := by
    intro i
    induction i using Nat.strong_induction_on with
    | _ i ih =>
      intro hi
      apply le_antisymm
      · by_contra hc
        push Not at hc
        obtain ⟨j, hj, hji⟩ := List.getElem_of_mem (hd _ (List.getElem_mem hi) i hc)
        rcases lt_trichotomy j i with h | h | h
        · have := ih j h hj; omega
        · subst h; omega
        · have := List.pairwise_iff_getElem.mp hs i j hi hj h; omega
      · rcases Nat.eq_zero_or_pos i with h0 | h0
        · omega
        · have h1 := ih (i - 1) (by omega) (by omega)
          have := List.pairwise_iff_getElem.mp hs (i - 1) i (by omega) hi (by omega)
          omega
  exact List.ext_getElem (by simp) fun i h1 h2 => by simp [key i h1]

theorem keys_frontsOf {lab : List ℕ} (hd : ∀ x ∈ lab, ∀ y < x, y ∈ lab) :
    (frontsOf lab).map Prod.fst = List.range (frontsOf lab).length := by
  have h1 : (frontsOf lab).map Prod.fst = lab.dedup.insertionSort (· ≤ ·) := by
    unfold frontsOf
    rw [List.map_map]
    exact List.map_id _
  have h2 : (frontsOf lab).length = (lab.dedup.insertionSort (· ≤ ·)).length := by
    simp [frontsOf]
  rw [h1, h2]
  apply eq_range_of_sorted
  · have hs : (lab.dedup.insertionSort (· ≤ ·)).Pairwise (· ≤ ·) := List.pairwise_insertionSort _ _
    have hn : (lab.dedup.insertionSort (· ≤ ·)).Nodup :=
      (List.perm_insertionSort _ _).nodup_iff.mpr (List.nodup_dedup _)
    exact (hs.and hn).imp fun h => lt_of_le_of_ne h.1 h.2
  · intro x hx y hy
    rw [(List.perm_insertionSort _ _).mem_iff, List.mem_dedup] at hx ⊢
    exact hd x hx y hy

theorem IsRank.downward {Y : List (List K)} {lab : List ℕ} (h : IsRank Y lab) :
    ∀ x ∈ lab, ∀ y < x, y ∈ lab := by
  intro x
  induction x with
  | zero => intro _ y hy; omega
  | succ x ih =>
    intro hx y hy
    obtain ⟨i, hi, hix⟩ := List.getElem_of_mem hx
    obtain ⟨hl, -⟩ := id h
    obtain ⟨j, hj, -, -, hjx⟩ := h.exists_dominator hi (by omega) hix
    have hxm : x ∈ lab := hjx ▸ List.getElem_mem hj
    rcases Nat.lt_succ_iff_lt_or_eq.mp hy with h' | rfl
    · exact ih hxm y h'
    · exact hxm

theorem nonDominSort_spec [Inhabited K] {D fuel : ℕ} {Y : List (List K)} (hne : Y ≠ [])
    (hD : 2 ≤ D) (hY : ∀ y ∈ Y, y.length = D) (hfuel : depthBound D Y.length ≤ fuel) :
    ∃ lab, IsRank Y lab ∧ nonDominSort fuel Y = some (frontsOf lab) := by
  obtain ⟨lab, h1, h2⟩ := frontLabels_spec hne hD hY hfuel
  exact ⟨lab, h2, by rw [nonDominSort_eq, h1]; rfl⟩

theorem flatMap_filter_perm {α β : Type*} [DecidableEq β] (g : α → β) (l : List α) :
    ∀ us : List β, us.Nodup →
      (us.flatMap (fun z => l.filter (fun x => g x = z))).Perm (l.filter (fun x => g x ∈ us)) := by
  intro us
  induction us with
  | nil => intro _; simp
  | cons z us ih =>
    intro hn
    rw [List.nodup_cons] at hn
    rw [List.flatMap_cons]
    refine ((List.Perm.refl _).append (ih hn.2)).trans ?_
    have h := List.filter_append_perm (fun x => decide (g x = z))
      (l.filter (fun x => decide (g x ∈ z :: us)))
    refine List.Perm.trans (List.Perm.of_eq ?_) h
    rw [List.filter_filter, List.filter_filter]
    congr 1
    · apply List.filter_congr
      intro x _
      by_cases hx : g x = z <;> simp [hx]
    · apply List.filter_congr
      intro x _
      by_cases hx : g x = z
      · simp [hx, hn.1]
      · simp [hx]

end Verif.NDS
