import Verif.Props.Piecewise

/-!
# C79: the order of the splines
-/

namespace Verif.Props

open Verif.Scripts

variable {K : Type*} [Field K] [LinearOrder K] [IsStrictOrderedRing K]

/-- All of curve `c` is to the left of curve `c'`. -/
def LeftOf (c c' : Curve K (K × K)) : Prop :=
  ∀ s t, 0 ≤ s → s ≤ 1 → 0 ≤ t → t ≤ 1 → (c.objective s).1 < (c'.objective t).1

/-- C79, order of the pieces: if any two of them lie side by side, they are sorted from left to right. -/
theorem C79_sorted {splines : List (Curve K (K × K))} (h : splines.Pairwise fun c c' => LeftOf c c' ∨ LeftOf c' c) :
    (sortSplines splines).Perm splines ∧ (sortSplines splines).Pairwise LeftOf := by
  have hp : (sortSplines splines).Perm splines := List.mergeSort_perm _ _
  refine ⟨hp, ?_⟩
  have h1 : (sortSplines splines).Pairwise fun c c' => decide ((c.objective 0).1 ≤ (c'.objective 0).1) = true :=
    List.pairwise_mergeSort (fun a b c h1 h2 => by
      rw [decide_eq_true_eq] at h1 h2 ⊢
      exact h1.trans h2) (fun a b => by
      rw [Bool.or_eq_true, decide_eq_true_eq, decide_eq_true_eq]
      exact le_total _ _) splines
  have h2 : (sortSplines splines).Pairwise fun c c' => LeftOf c c' ∨ LeftOf c' c :=
    (hp.pairwise_iff fun hab => hab.symm).mpr h
  refine (h1.and h2).imp fun {c c'} hcc => ?_
  obtain ⟨hle, hl | hr⟩ := hcc
  · exact hl
  · rw [decide_eq_true_eq] at hle
    exact absurd (hr 0 0 le_rfl zero_le_one le_rfl zero_le_one) (not_lt.mpr hle)

/-- If moreover every piece runs from left to right, then so does the whole curve. -/
theorem C79_monotone [FloorRing K] {splines : List (Curve K (K × K))} (hN : splines ≠ [])
    (h : splines.Pairwise fun c c' => LeftOf c c' ∨ LeftOf c' c)
    (hm : ∀ c ∈ splines, ∀ s t, 0 ≤ s → s < t → t ≤ 1 → (c.objective s).1 < (c.objective t).1) {t t' : K} (h0 : 0 ≤ t)
    (hlt : t < t') (h1 : t' ≤ 1) : ∃ u v, piecewise getIndex (sortSplines splines) Curve.objective t = some u ∧
      piecewise getIndex (sortSplines splines) Curve.objective t' = some v ∧ u.1 < v.1 := by
  obtain ⟨hp, hs⟩ := C79_sorted h
  have hlen : 0 < (sortSplines splines).length := by
    rw [hp.length_eq]
    exact List.length_pos_iff.mpr hN
  obtain ⟨u, hu, k, hk, s, s0, s1, ht, rfl⟩ := C79_objective hlen h0 (hlt.le.trans h1)
  obtain ⟨v, hv, k', hk', s', s0', s1', ht', rfl⟩ := C79_objective hlen (h0.trans hlt.le) h1
  refine ⟨_, _, hu, hv, ?_⟩
  have hK : (0 : K) < ((sortSplines splines).length : K) := Nat.cast_pos.mpr hlen
  rw [ht, ht', div_lt_div_iff_of_pos_right hK] at hlt
  rcases Nat.lt_trichotomy k k' with hkk | rfl | hkk
  · exact List.pairwise_iff_getElem.mp hs k k' hk hk' hkk s s' s0 s1 s0' s1'
  · exact hm _ (hp.mem_iff.mp (List.getElem_mem hk)) s s' s0 (by linarith) s1'
  · have : (k' : K) + 1 ≤ k := by exact_mod_cast hkk
    linarith

/-! ### Example -/

/-- The curve `(a + t, -a - t)`. -/
def slope (a : ℚ) : Curve ℚ (ℚ × ℚ) := ⟨fun t => (a + t, -a - t), fun _ => (1, -1), fun _ => (0, 0)⟩

example : ∃ u v, piecewise getIndex (sortSplines [slope 3, slope 0, slope (-5)]) Curve.objective (1 / 4) = some u ∧
    piecewise getIndex (sortSplines [slope 3, slope 0, slope (-5)]) Curve.objective (1 / 2) = some v ∧ u.1 < v.1 := by
  refine C79_monotone (by simp) ?_ ?_ (by norm_num) (by norm_num) (by norm_num)
  · simp only [List.pairwise_cons, List.mem_cons, List.not_mem_nil, or_false, forall_eq_or_imp, forall_eq]
    refine ⟨⟨.inr ?_, .inr ?_⟩, .inr ?_, by simp⟩ <;> intro s t h1 h2 h3 h4 <;> simp only [slope] <;> linarith
  · intro c hc s t h1 h2 h3
    simp only [List.mem_cons, List.not_mem_nil, or_false] at hc
    rcases hc with rfl | rfl | rfl <;> simp only [slope] <;> linarith

end Verif.Props
