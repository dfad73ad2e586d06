import Verif.HV.Spec

/-!
# Facts about the specification `Spec.hvol`
-/

namespace Verif.HV.Spec

open MeasureTheory

variable {d : ℕ} {P Q : List (ℕ → ℝ)} {ref : ℕ → ℝ}

/-- Restriction of a point to the first `d` coordinates. -/
def res (d : ℕ) (p : ℕ → ℝ) : Fin d → ℝ := fun i => p i

theorem region_nil : region d [] ref = ∅ := by
  ext x; simp [region]

theorem region_cons (p : ℕ → ℝ) :
    region d (p :: P) ref = Set.Icc (res d p) (res d ref) ∪ region d P ref := by
  ext x
  simp only [region, Set.mem_ofPred_eq, Set.mem_union, List.mem_cons, exists_eq_or_imp, Set.mem_Icc,
    Pi.le_def, res]
  constructor
  · rintro ⟨h1 | h1, h2⟩
    · exact Or.inl ⟨h1, h2⟩
    · exact Or.inr ⟨h1, h2⟩
  · rintro (⟨h1, h2⟩ | ⟨h1, h2⟩)
    · exact ⟨Or.inl h1, h2⟩
    · exact ⟨Or.inr h1, h2⟩

theorem measurableSet_region : MeasurableSet (region d P ref) := by
  induction P with
  | nil => rw [region_nil]; exact MeasurableSet.empty
  | cons p P ih => rw [region_cons]; exact measurableSet_Icc.union ih

theorem volume_region_lt_top : volume (region d P ref) < ⊤ := by
  induction P with
  | nil => rw [region_nil]; simp
  | cons p P ih =>
    rw [region_cons]
    exact lt_of_le_of_lt (measure_union_le _ _)
      (ENNReal.add_lt_top.mpr ⟨isCompact_Icc.measure_lt_top, ih⟩)

theorem hvol_nonneg : 0 ≤ hvol d P ref := ENNReal.toReal_nonneg

theorem hvol_mono_region (h : region d P ref ⊆ region d Q ref) : hvol d P ref ≤ hvol d Q ref :=
  ENNReal.toReal_mono volume_region_lt_top.ne (measure_mono h)

/-- If every relevant point of `P` is weakly dominated by a point of `Q`, the region grows. -/
theorem region_subset (h : ∀ p ∈ P, (∀ i < d, p i ≤ ref i) → ∃ q ∈ Q, ∀ i < d, q i ≤ p i) :
    region d P ref ⊆ region d Q ref := by
  rintro x ⟨⟨p, hp, hx⟩, hr⟩
  obtain ⟨q, hq, hqp⟩ := h p hp (fun i hi => le_trans (hx ⟨i, hi⟩) (hr ⟨i, hi⟩))
  exact ⟨⟨q, hq, fun i => le_trans (hqp i i.2) (hx i)⟩, hr⟩

theorem hvol_mono (h : ∀ p ∈ P, (∀ i < d, p i ≤ ref i) → ∃ q ∈ Q, ∀ i < d, q i ≤ p i) :
    hvol d P ref ≤ hvol d Q ref := hvol_mono_region (region_subset h)

theorem hvol_congr_mem (h : ∀ p, p ∈ P ↔ p ∈ Q) : hvol d P ref = hvol d Q ref := by
  apply le_antisymm <;> apply hvol_mono
  · intro p hp _; exact ⟨p, (h p).mp hp, fun _ _ => le_rfl⟩
  · intro p hp _; exact ⟨p, (h p).mpr hp, fun _ _ => le_rfl⟩

theorem hvol_le_box {m : ℕ → ℝ} (hm : ∀ p ∈ P, ∀ i < d, m i ≤ p i) (hr : ∀ i < d, m i ≤ ref i) :
    hvol d P ref ≤ ∏ i ∈ Finset.range d, (ref i - m i) := by
  have h1 : region d P ref ⊆ Set.Icc (res d m) (res d ref) := by
    rintro x ⟨⟨p, hp, hx⟩, hx'⟩
    exact ⟨fun i => le_trans (hm p hp i i.2) (hx i), hx'⟩
  have h2 : (volume (Set.Icc (res d m) (res d ref))).toReal = ∏ i : Fin d, (ref i - m i) := by
    have hle : res d m ≤ res d ref := fun i => hr i i.2
    rw [Real.volume_Icc_pi_toReal hle]
    rfl
  rw [Finset.prod_range, ← h2]
  exact ENNReal.toReal_mono isCompact_Icc.measure_lt_top.ne (measure_mono h1)

/-- One point inside the reference box. -/
theorem hvol_single {q : ℕ → ℝ} (hq : ∀ i < d, q i ≤ ref i) : hvol d [q] ref = ∏ i ∈ Finset.range d, (ref i - q i) := by
  have h1 : region d [q] ref = Set.Icc (res d q) (res d ref) := by
    ext x
    constructor
    · rintro ⟨⟨p, hp, hx⟩, hx'⟩
      obtain rfl : p = q := by simpa using hp
      exact ⟨fun i => hx i, hx'⟩
    · rintro ⟨hx, hx'⟩
      exact ⟨⟨q, by simp, fun i => hx i⟩, hx'⟩
  have hle : res d q ≤ res d ref := fun i => hq i i.2
  rw [hvol, h1, Real.volume_Icc_pi_toReal hle, Finset.prod_range]
  rfl

/-- Shifting points and reference. -/
theorem hvol_translate (v : ℕ → ℝ) :
    hvol d (P.map (fun p i => p i + v i)) (fun i => ref i + v i) = hvol d P ref := by
  unfold hvol
  congr 1
  have : region d P ref = (fun x => res d v + x) ⁻¹'
      region d (P.map (fun p i => p i + v i)) (fun i => ref i + v i) := by
    ext x
    simp only [region, Set.mem_ofPred_eq, Set.mem_preimage, Pi.add_apply, List.mem_map, res]
    constructor
    · rintro ⟨⟨p, hp, h⟩, h'⟩
      exact ⟨⟨_, ⟨p, hp, rfl⟩, fun i => by linarith [h i]⟩, fun i => by linarith [h' i]⟩
    · rintro ⟨⟨_, ⟨p, hp, rfl⟩, h⟩, h'⟩
      exact ⟨⟨p, hp, fun i => by linarith [h i]⟩, fun i => by linarith [h' i]⟩
  rw [this, measure_preimage_add]

/-- Scaling the axes. -/
theorem hvol_scale (s : ℕ → ℝ) (hs : ∀ i < d, 0 < s i) :
    hvol d (P.map (fun p i => s i * p i)) (fun i => s i * ref i) =
      (∏ i ∈ Finset.range d, s i) * hvol d P ref := by
  classical
  have hpre : region d P ref = (fun x : Fin d → ℝ => fun i => res d s i * x i) ⁻¹'
      region d (P.map (fun p i => s i * p i)) (fun i => s i * ref i) := by
    ext x
    simp only [region, Set.mem_ofPred_eq, Set.mem_preimage, List.mem_map, res]
    constructor
    · rintro ⟨⟨p, hp, h⟩, h'⟩
      exact ⟨⟨_, ⟨p, hp, rfl⟩, fun i => mul_le_mul_of_nonneg_left (h i) (hs i i.2).le⟩,
        fun i => mul_le_mul_of_nonneg_left (h' i) (hs i i.2).le⟩
    · rintro ⟨⟨_, ⟨p, hp, rfl⟩, h⟩, h'⟩
      exact ⟨⟨p, hp, fun i => le_of_mul_le_mul_left (h i) (hs i i.2)⟩,
        fun i => le_of_mul_le_mul_left (h' i) (hs i i.2)⟩
  have hdet : (Matrix.diagonal (res d s)).det ≠ 0 := by
    rw [Matrix.det_diagonal, Finset.prod_ne_zero_iff]
    exact fun i _ => (hs i i.2).ne'
  have hmap := Real.map_matrix_volume_pi_eq_smul_volume_pi hdet
  set A := region d (P.map (fun p i => s i * p i)) (fun i => s i * ref i) with hA
  have hfun : (fun x : Fin d → ℝ => fun i => res d s i * x i) =
      ⇑(Matrix.toLin' (Matrix.diagonal (res d s))) := by
    funext x i
    simp [Matrix.mulVec_diagonal]
  have hmeas : Measurable ⇑(Matrix.toLin' (Matrix.diagonal (res d s))) :=
    (LinearMap.continuous_on_pi _).measurable
  have h1 : volume (region d P ref) = ENNReal.ofReal |(Matrix.diagonal (res d s)).det⁻¹| * volume A := by
    rw [hpre, hfun, ← Measure.map_apply hmeas measurableSet_region, hmap]
    rfl
  have hpos : 0 < ∏ i : Fin d, s i := Finset.prod_pos (fun i _ => hs i i.2)
  unfold hvol
  rw [h1, ENNReal.toReal_mul, Matrix.det_diagonal, Finset.prod_range]
  have : ∏ i : Fin d, res d s i = ∏ i : Fin d, s i := rfl
  rw [this, ENNReal.toReal_ofReal (abs_nonneg _), abs_of_pos (inv_pos.mpr hpos), ← mul_assoc,
    mul_inv_cancel₀ hpos.ne', one_mul]

/-- The region dominated by `x` inside the reference box and by no point of `P`. -/
def exclusive (d : ℕ) (x : ℕ → ℝ) (P : List (ℕ → ℝ)) (ref : ℕ → ℝ) : Set (Fin d → ℝ) :=
  {z | (∀ i : Fin d, x i ≤ z i) ∧ (∀ i : Fin d, z i ≤ ref i) ∧ ¬ ∃ p ∈ P, ∀ i : Fin d, p i ≤ z i}

/-- Measure of the exclusive region. -/
noncomputable def hvi (d : ℕ) (x : ℕ → ℝ) (P : List (ℕ → ℝ)) (ref : ℕ → ℝ) : ℝ :=
  (volume (exclusive d x P ref)).toReal

theorem exclusive_eq (x : ℕ → ℝ) :
    exclusive d x P ref = region d (x :: P) ref \ region d P ref := by
  ext z
  simp only [exclusive, region, Set.mem_ofPred_eq, Set.mem_sdiff, List.mem_cons, exists_eq_or_imp]
  by_cases h1 : ∀ i : Fin d, x i ≤ z i <;> by_cases h2 : ∀ i : Fin d, z i ≤ ref i <;>
    by_cases h3 : ∃ p ∈ P, ∀ i : Fin d, p i ≤ z i <;> simp [h1, h2, h3]

theorem hvol_cons (x : ℕ → ℝ) : hvol d (x :: P) ref = hvol d P ref + hvi d x P ref := by
  unfold hvol hvi
  have hsub : region d P ref ⊆ region d (x :: P) ref :=
    region_subset (fun p hp _ => ⟨p, by simp [hp], fun _ _ => le_rfl⟩)
  rw [exclusive_eq, measure_sdiff hsub measurableSet_region.nullMeasurableSet volume_region_lt_top.ne,
    ENNReal.toReal_sub_of_le (measure_mono hsub) volume_region_lt_top.ne]
  ring

/-- A point strictly below the reference and not weakly dominated by `P` has positive exclusive
volume. -/
theorem hvi_pos {x : ℕ → ℝ} (hx : ∀ i < d, x i < ref i)
    (hP : ∀ p ∈ P, ∃ i < d, x i < p i) : 0 < hvi d x P ref := by
  -- a common margin
  have hm : ∃ ε > 0, (∀ i < d, x i + ε ≤ ref i) ∧ ∀ p ∈ P, ∃ i < d, x i + ε ≤ p i := by
    have h1 : ∃ ε > 0, ∀ i < d, x i + ε ≤ ref i := by
      clear hP
      induction d with
      | zero => exact ⟨1, one_pos, by simp⟩
      | succ d ih =>
        obtain ⟨ε, he, h⟩ := ih (fun i hi => hx i (by omega))
        refine ⟨min ε (ref d - x d), lt_min he (by linarith [hx d (by omega)]), fun i hi => ?_⟩
        rcases Nat.lt_succ_iff_lt_or_eq.mp hi with hi | rfl
        · linarith [h i hi, min_le_left ε (ref d - x d)]
        · linarith [min_le_right ε (ref i - x i)]
    have h2 : ∃ ε > 0, ∀ p ∈ P, ∃ i < d, x i + ε ≤ p i := by
      clear hx h1
      induction P with
      | nil => exact ⟨1, one_pos, by simp⟩
      | cons p P ih =>
        obtain ⟨ε, he, h⟩ := ih (fun q hq => hP q (by simp [hq]))
        obtain ⟨i, hi, hip⟩ := hP p (by simp)
        refine ⟨min ε (p i - x i), lt_min he (by linarith), fun q hq => ?_⟩
        rcases List.mem_cons.mp hq with rfl | hq
        · exact ⟨i, hi, by linarith [min_le_right ε (q i - x i)]⟩
        · obtain ⟨j, hj, hjq⟩ := h q hq
          exact ⟨j, hj, by linarith [min_le_left ε (p i - x i)]⟩
    obtain ⟨a, ha, h1⟩ := h1
    obtain ⟨b, hb, h2⟩ := h2
    refine ⟨min a b, lt_min ha hb, fun i hi => by linarith [h1 i hi, min_le_left a b], ?_⟩
    intro p hp
    obtain ⟨i, hi, h⟩ := h2 p hp
    exact ⟨i, hi, by linarith [min_le_right a b]⟩
  obtain ⟨ε, he, h1, h2⟩ := hm
  have hsub : Set.Icc (res d x) (res d (fun i => x i + ε / 2)) ⊆ exclusive d x P ref := by
    rintro z ⟨hz, hz'⟩
    refine ⟨hz, fun i => ?_, ?_⟩
    · have := hz' i
      simp only [res] at this
      linarith [h1 i i.2]
    · rintro ⟨p, hp, h⟩
      obtain ⟨i, hi, hi'⟩ := h2 p hp
      have a := h ⟨i, hi⟩
      have b := hz' ⟨i, hi⟩
      simp only [res] at a b
      linarith
  have hfin : volume (exclusive d x P ref) ≠ ⊤ := by
    rw [exclusive_eq]
    exact (lt_of_le_of_lt (measure_mono Set.sdiff_subset) volume_region_lt_top).ne
  have hbox : (volume (Set.Icc (res d x) (res d (fun i => x i + ε / 2)))).toReal = (ε / 2) ^ d := by
    rw [Real.volume_Icc_pi_toReal (fun i => by simp only [res]; linarith)]
    simp [res, div_pow]
  have : (ε / 2) ^ d ≤ hvi d x P ref := by
    rw [← hbox]
    exact ENNReal.toReal_mono hfin (measure_mono hsub)
  exact lt_of_lt_of_le (pow_pos (by linarith) d) this

/-- The exclusive volume vanishes exactly for weakly dominated points and points that do not
strictly dominate the reference. -/
theorem hvi_eq_zero_iff {x : ℕ → ℝ} :
    hvi d x P ref = 0 ↔ (∃ p ∈ P, ∀ i < d, p i ≤ x i) ∨ ∃ i < d, ref i ≤ x i := by
  constructor
  · intro h
    by_contra hc
    push Not at hc
    exact (hvi_pos hc.2 hc.1).ne' h
  · rintro (⟨p, hp, h⟩ | ⟨i, hi, h⟩)
    · have : exclusive d x P ref = ∅ := by
        ext z
        simp only [exclusive, Set.mem_ofPred_eq, Set.mem_empty_iff_false, iff_false]
        rintro ⟨h1, _, h3⟩
        exact h3 ⟨p, hp, fun i => le_trans (h i i.2) (h1 i)⟩
      simp [hvi, this]
    · have hsub : exclusive d x P ref ⊆ Set.Icc (res d x) (res d ref) :=
        fun z hz => ⟨hz.1, hz.2.1⟩
      have hz : volume (Set.Icc (res d x) (res d ref)) = 0 := by
        rw [Real.volume_Icc_pi, Finset.prod_eq_zero (Finset.mem_univ (⟨i, hi⟩ : Fin d))]
        simp [res, h]
      have := measure_mono_null hsub hz
      simp [hvi, this]

theorem hvi_nonneg {x : ℕ → ℝ} : 0 ≤ hvi d x P ref := ENNReal.toReal_nonneg

/-- Strict Pareto compliance of the specification. -/
theorem hvol_strict {A B : List (ℕ → ℝ)} (hAB : ∀ b ∈ B, ∃ a ∈ A, ∀ i < d, a i ≤ b i)
    {a : ℕ → ℝ} (ha : a ∈ A) (har : ∀ i < d, a i < ref i) (haB : ∀ b ∈ B, ∃ i < d, a i < b i) :
    hvol d B ref < hvol d A ref := by
  have h1 : hvol d (a :: B) ref ≤ hvol d A ref := by
    apply hvol_mono
    intro p hp _
    rcases List.mem_cons.mp hp with rfl | hp
    · exact ⟨p, ha, fun _ _ => le_rfl⟩
    · exact hAB p hp
  rw [hvol_cons] at h1
  linarith [hvi_pos har haB]

end Verif.HV.Spec
