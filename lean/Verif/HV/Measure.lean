import Verif.HV.Spec
import Mathlib.MeasureTheory.Constructions.Pi
import Mathlib.MeasureTheory.Measure.Lebesgue.Basic
import Mathlib.Data.Finset.Max

/-!
# Lebesgue measure of finite unions of boxes

The laws of the volume function used in `Verif.HV.Ctx`, proved for Lebesgue measure.
-/

namespace Verif.HV

open MeasureTheory

/-- Union of the boxes `[c z, 0]`, `z ∈ A`, in the first `d` coordinates. -/
def U (c : ℕ → ℕ → ℝ) (d : ℕ) (A : Finset ℕ) : Set (Fin d → ℝ) :=
  {x | (∃ z ∈ A, ∀ i : Fin d, c z i ≤ x i) ∧ ∀ i : Fin d, x i ≤ 0}

/-- Its volume. -/
noncomputable def vol (c : ℕ → ℕ → ℝ) (d : ℕ) (A : Finset ℕ) : ℝ := (volume (U c d A)).toReal

variable {c : ℕ → ℕ → ℝ}

/-- One box. -/
def box (c : ℕ → ℕ → ℝ) (d z : ℕ) : Set (Fin d → ℝ) := Set.Icc (fun i => c z i) (fun _ => 0)

theorem U_eq (d : ℕ) (A : Finset ℕ) : U c d A = ⋃ z ∈ A, box c d z := by
  ext x
  simp only [U, box, Set.mem_ofPred_eq, Set.mem_iUnion, Set.mem_Icc, Pi.le_def, exists_prop]
  constructor
  · rintro ⟨⟨z, hz, h⟩, h0⟩; exact ⟨z, hz, h, h0⟩
  · rintro ⟨z, hz, h, h0⟩; exact ⟨⟨z, hz, h⟩, h0⟩

theorem measurableSet_U (d : ℕ) (A : Finset ℕ) : MeasurableSet (U c d A) := by
  rw [U_eq]
  exact Finset.measurableSet_biUnion _ (fun z _ => measurableSet_Icc)

theorem volume_U_lt_top (d : ℕ) (A : Finset ℕ) : volume (U c d A) < ⊤ := by
  rw [U_eq]
  exact measure_biUnion_lt_top A.finite_toSet (fun z _ => isCompact_Icc.measure_lt_top)

theorem U_insert (d : ℕ) (A : Finset ℕ) (x : ℕ) : U c d (insert x A) = box c d x ∪ U c d A := by
  rw [U_eq, U_eq, Finset.set_biUnion_insert]

theorem U_mono (d : ℕ) {A B : Finset ℕ} (h : A ⊆ B) : U c d A ⊆ U c d B := by
  rintro x ⟨⟨z, hz, hx⟩, h0⟩
  exact ⟨⟨z, h hz, hx⟩, h0⟩

theorem vol_insert (d : ℕ) (A : Finset ℕ) (x : ℕ) :
    vol c d (insert x A) = vol c d A + (volume (U c d (insert x A) \ U c d A)).toReal := by
  have hsub := U_mono (c := c) d (Finset.subset_insert x A)
  have hfin : volume (U c d (insert x A) \ U c d A) ≠ ⊤ :=
    ne_top_of_le_ne_top (volume_U_lt_top d (insert x A)).ne (measure_mono Set.sdiff_subset)
  unfold vol
  rw [← ENNReal.toReal_add (volume_U_lt_top d A).ne hfin,
    ← measure_union Set.disjoint_sdiff_right ((measurableSet_U d _).diff (measurableSet_U d _)),
    Set.union_sdiff_cancel hsub]

theorem vol_empty (d : ℕ) : vol c d ∅ = 0 := by
  simp [vol, U_eq]

theorem vol_mono (d : ℕ) {A B : Finset ℕ} (h : A ⊆ B) : vol c d A ≤ vol c d B :=
  ENNReal.toReal_mono (volume_U_lt_top d B).ne (measure_mono (U_mono d h))

theorem vol_zero (A : Finset ℕ) (h : A.Nonempty) : vol c 0 A = 1 := by
  obtain ⟨z, hz⟩ := h
  have : U c 0 A = Set.univ := by
    ext x; simp only [U, Set.mem_ofPred_eq, Set.mem_univ, iff_true]
    exact ⟨⟨z, hz, fun i => i.elim0⟩, fun i => i.elim0⟩
  rw [vol, this]
  have h2 : (Set.univ : Set (Fin 0 → ℝ)) = Set.Icc (fun _ => 0) (fun _ => 0) := by
    ext x
    simp only [Set.mem_univ, Set.mem_Icc, Pi.le_def, true_iff]
    exact ⟨fun i => i.elim0, fun i => i.elim0⟩
  rw [h2, Real.volume_Icc_pi]
  simp

theorem volume_box (d x : ℕ) (h : ∃ i < d, c x i = 0) : volume (box c d x) = 0 := by
  obtain ⟨i, hi, h0⟩ := h
  rw [box, Real.volume_Icc_pi]
  apply Finset.prod_eq_zero (Finset.mem_univ (⟨i, hi⟩ : Fin d))
  simp [h0]

theorem vol_dom (d : ℕ) (A : Finset ℕ) (x : ℕ)
    (h : (∃ i < d, c x i = 0) ∨ ∃ z ∈ A, ∀ i < d, c z i ≤ c x i) :
    vol c d (insert x A) = vol c d A := by
  rcases h with h | ⟨z, hz, h⟩
  · unfold vol
    congr 1
    apply le_antisymm
    · rw [U_insert]
      calc volume (box c d x ∪ U c d A) ≤ volume (box c d x) + volume (U c d A) := measure_union_le _ _
        _ = volume (U c d A) := by rw [volume_box d x h, zero_add]
    · exact measure_mono (U_mono d (Finset.subset_insert x A))
  · unfold vol
    congr 2
    rw [U_insert]
    apply Set.union_eq_self_of_subset_left
    rintro y ⟨hy1, hy2⟩
    exact ⟨⟨z, hz, fun i => (h i i.2).trans (hy1 i)⟩, fun i => hy2 i⟩

/-- The slab law. -/
theorem vol_slab (d : ℕ) (A : Finset ℕ) (x : ℕ) (hx : c x d ≤ 0) (hA : ∀ z ∈ A, c z d ≤ c x d) :
    vol c (d + 1) (insert x A) =
      vol c (d + 1) A + (vol c d (insert x A) - vol c d A) * -(c x d) := by
  rw [vol_insert (d + 1), vol_insert d, add_sub_cancel_left]
  congr 1
  set e := MeasurableEquiv.piFinSuccAbove (fun _ : Fin (d + 1) => ℝ) (Fin.last d) with he
  have hpre : U c (d + 1) (insert x A) \ U c (d + 1) A =
      e ⁻¹' (Set.Icc (c x d) 0 ×ˢ (U c d (insert x A) \ U c d A)) := by
    ext y
    have h1 : (e y).1 = y (Fin.last d) := rfl
    have h2 : ∀ i : Fin d, (e y).2 i = y (Fin.castSucc i) := by
      intro i
      simp [he, Fin.init]
    simp only [Set.mem_sdiff, Set.mem_preimage, Set.mem_prod, Set.mem_Icc, U, Set.mem_ofPred_eq,
      Fin.forall_fin_succ', h1, h2, Fin.val_castSucc, Fin.val_last]
    constructor
    · rintro ⟨⟨⟨z, hz, hz1, hz2⟩, h01, h02⟩, hn⟩
      have hzx : z = x := by
        rcases Finset.mem_insert.mp hz with h | h
        · exact h
        · exact absurd ⟨⟨z, h, hz1, hz2⟩, h01, h02⟩ hn
      subst hzx
      refine ⟨⟨hz2, h02⟩, ⟨⟨z, hz, hz1⟩, h01⟩, ?_⟩
      rintro ⟨⟨w, hw, hw1⟩, -⟩
      exact hn ⟨⟨w, hw, hw1, (hA w hw).trans hz2⟩, h01, h02⟩
    · rintro ⟨⟨hx1, hx2⟩, ⟨⟨z, hz, hz1⟩, h01⟩, hn⟩
      have hzx : z = x := by
        rcases Finset.mem_insert.mp hz with h | h
        · exact h
        · exact absurd ⟨⟨z, h, hz1⟩, h01⟩ hn
      subst hzx
      refine ⟨⟨⟨z, hz, hz1, hx1⟩, h01, hx2⟩, ?_⟩
      rintro ⟨⟨w, hw, hw1, -⟩, -⟩
      exact hn ⟨⟨w, hw, hw1⟩, h01⟩
  have hmeas : MeasurableSet (Set.Icc (c x d) 0 ×ˢ (U c d (insert x A) \ U c d A)) :=
    measurableSet_Icc.prod ((measurableSet_U d _).diff (measurableSet_U d _))
  rw [hpre, (volume_preserving_piFinSuccAbove (fun _ : Fin (d + 1) => ℝ)
    (Fin.last d)).measure_preimage hmeas.nullMeasurableSet, Measure.volume_eq_prod, Measure.prod_prod,
    Real.volume_Icc, ENNReal.toReal_mul, ENNReal.toReal_ofReal (by linarith), mul_comm]
  ring

/-- A box that adds no volume is degenerate or dominated. -/
theorem vol_le (d : ℕ) (A : Finset ℕ) (x : ℕ) (hx : ∀ i < d, c x i ≤ 0)
    (h : vol c d (insert x A) ≤ vol c d A) :
    (∃ i < d, c x i = 0) ∨ ∃ z ∈ A, ∀ i < d, c z i ≤ c x i := by
  by_contra hcon
  push Not at hcon
  obtain ⟨hne, hnd⟩ := hcon
  -- the corner `y` of a small box at `x` that avoids all other boxes
  let cand : ℕ → Finset ℝ := fun i => insert 0 ((A.filter (fun z => c x i < c z i)).image (fun z => c z i))
  have hcne : ∀ i, (cand i).Nonempty := fun i => ⟨0, Finset.mem_insert_self _ _⟩
  let y : ℕ → ℝ := fun i => (cand i).min' (hcne i)
  have hy0 : ∀ i, y i ≤ 0 := fun i => Finset.min'_le _ _ (Finset.mem_insert_self _ _)
  have hyz : ∀ i, ∀ z ∈ A, c x i < c z i → y i ≤ c z i := by
    intro i z hz hlt
    apply Finset.min'_le
    apply Finset.mem_insert_of_mem
    rw [Finset.mem_image]
    exact ⟨z, by simp [hz, hlt], rfl⟩
  have hxy : ∀ i < d, c x i < y i := by
    intro i hi
    rw [Finset.lt_min'_iff]
    intro w hw
    rcases Finset.mem_insert.mp hw with rfl | hw
    · exact lt_of_le_of_ne (hx i hi) (hne i hi)
    · rw [Finset.mem_image] at hw
      obtain ⟨z, hz, rfl⟩ := hw
      exact (Finset.mem_filter.mp hz).2
  have hsub : Set.pi Set.univ (fun i : Fin d => Set.Ioo (c x i) (y i)) ⊆
      U c d (insert x A) \ U c d A := by
    intro u hu
    simp only [Set.mem_pi, Set.mem_univ, true_implies, Set.mem_Ioo] at hu
    have hu0 : ∀ i : Fin d, u i ≤ 0 := fun i => (hu i).2.le.trans (hy0 i)
    refine ⟨⟨⟨x, Finset.mem_insert_self _ _, fun i => (hu i).1.le⟩, hu0⟩, ?_⟩
    rintro ⟨⟨z, hz, hzu⟩, -⟩
    obtain ⟨i, hi, hlt⟩ := hnd z hz
    have h1 := hyz i z hz hlt
    have h2 := hzu ⟨i, hi⟩
    have h3 := (hu ⟨i, hi⟩).2
    simp only at h2 h3
    linarith
  have hpos : 0 < volume (Set.pi Set.univ (fun i : Fin d => Set.Ioo (c x i) (y i))) := by
    rw [Real.volume_pi_Ioo]
    rw [pos_iff_ne_zero, Finset.prod_ne_zero_iff]
    intro i _
    rw [← pos_iff_ne_zero, ENNReal.ofReal_pos]
    linarith [hxy i i.2]
  have hfin : volume (U c d (insert x A) \ U c d A) ≠ ⊤ :=
    ne_top_of_le_ne_top (volume_U_lt_top d (insert x A)).ne (measure_mono Set.sdiff_subset)
  have : 0 < (volume (U c d (insert x A) \ U c d A)).toReal :=
    ENNReal.toReal_pos (lt_of_lt_of_le hpos (measure_mono hsub)).ne' hfin
  rw [vol_insert] at h
  linarith

end Verif.HV
