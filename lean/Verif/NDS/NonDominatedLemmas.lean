import Verif.NDS.NonDominated
import Verif.NDS.Top
import Mathlib.Data.List.Nodup

namespace Verif.NDS

variable {K : Type*}

theorem mem_keptIndices {ok : List K → List K → Bool} {Y : List (List K)} {i : ℕ} :
    i ∈ keptIndices ok Y ↔ ∃ hi : i < Y.length, ∀ j (hj : j < Y.length), j ≠ i → ok Y[j] Y[i] = true := by
  unfold keptIndices
  rw [List.mem_filter, List.mem_range]
  constructor
  · rintro ⟨hi, h⟩
    refine ⟨hi, fun j hj hne => ?_⟩
    rw [List.getElem?_eq_getElem hi] at h
    simp only [Bool.and_eq_true, List.all_eq_true] at h
    rcases lt_or_gt_of_ne hne with hlt | hgt
    · exact h.1 _ (by rw [List.mem_take_iff_getElem]; exact ⟨j, by omega, rfl⟩)
    · refine h.2 _ (by
        rw [List.mem_drop_iff_getElem]
        exact ⟨j - (i + 1), by omega, by congr 1; omega⟩)
  · rintro ⟨hi, h⟩
    refine ⟨hi, ?_⟩
    rw [List.getElem?_eq_getElem hi]
    simp only [Bool.and_eq_true, List.all_eq_true]
    refine ⟨fun q hq => ?_, fun q hq => ?_⟩
    · rw [List.mem_take_iff_getElem] at hq
      obtain ⟨j, hj, rfl⟩ := hq
      exact h j (by omega) (by omega)
    · rw [List.mem_drop_iff_getElem] at hq
      obtain ⟨j, hj, rfl⟩ := hq
      exact h _ (by omega) (by omega)

theorem anyGreater_iff [LinearOrder K] {q p : List K} (hl : q.length = p.length) :
    anyGreater q p = true ↔ ∃ (m : ℕ) (hq : m < q.length) (hp : m < p.length), p[m] < q[m] := by
  unfold anyGreater
  rw [List.any_eq_true]
  constructor
  · rintro ⟨b, hb, h⟩
    obtain ⟨m, hm, rfl⟩ := List.getElem_of_mem hb
    simp only [List.getElem_zipWith, id, decide_eq_true_eq] at h
    rw [List.length_zipWith] at hm
    exact ⟨m, by omega, by omega, h⟩
  · rintro ⟨m, hq, hp, h⟩
    refine ⟨true, ?_, rfl⟩
    rw [List.mem_iff_getElem]
    exact ⟨m, by rw [List.length_zipWith]; omega, by simpa using h⟩

theorem anyGreater_false_iff [LinearOrder K] {q p : List K} (hl : q.length = p.length) :
    anyGreater q p = false ↔ Dominates q p ∨ q = p := by
  rw [← Bool.not_eq_true, anyGreater_iff hl, dominates_iff]
  push Not
  constructor
  · intro h
    by_cases he : q = p
    · exact Or.inr he
    · exact Or.inl ⟨hl, fun m ha hb => h m ha hb, he⟩
  · rintro (h | rfl)
    · exact fun m ha hb => h.2.1 m ha hb
    · exact fun m ha hb => le_rfl

/-- A finite family contains an undominated element that dominates or equals a given one. -/
theorem exists_minimal [LinearOrder K] (Y : List (List K)) {p : List K} (hp : p ∈ Y) :
    ∃ q ∈ Y, (q = p ∨ Dominates q p) ∧ ∀ z ∈ Y, ¬ Dominates z q := by
  induction Y generalizing p with
  | nil => simp at hp
  | cons y Y ih =>
    -- first an undominated element of the tail below `p`, then compare with `y`
    have main : ∀ p ∈ Y, ∃ q ∈ y :: Y, (q = p ∨ Dominates q p) ∧ ∀ z ∈ y :: Y, ¬ Dominates z q := by
      intro p hp
      obtain ⟨q, hq, h1, h2⟩ := ih hp
      by_cases hy : Dominates y q
      · refine ⟨y, List.mem_cons_self, Or.inr ?_, ?_⟩
        · rcases h1 with rfl | h1
          · exact hy
          · exact hy.trans h1
        · intro z hz hd
          rcases List.mem_cons.mp hz with rfl | hz
          · exact Dominates.irrefl _ hd
          · exact h2 z hz (hd.trans hy)
      · refine ⟨q, List.mem_cons_of_mem _ hq, h1, fun z hz hd => ?_⟩
        rcases List.mem_cons.mp hz with rfl | hz
        · exact hy hd
        · exact h2 z hz hd
    rcases List.mem_cons.mp hp with rfl | hp
    · by_cases h : ∃ z ∈ Y, Dominates z p
      · obtain ⟨z, hz, hd⟩ := h
        obtain ⟨q, hq, h1, h2⟩ := main z hz
        refine ⟨q, hq, Or.inr ?_, h2⟩
        rcases h1 with rfl | h1
        · exact hd
        · exact h1.trans hd
      · push Not at h
        refine ⟨p, List.mem_cons_self, Or.inl rfl, fun z hz hd => ?_⟩
        rcases List.mem_cons.mp hz with rfl | hz
        · exact Dominates.irrefl _ hd
        · exact h z hz hd
    · exact main p hp

end Verif.NDS
