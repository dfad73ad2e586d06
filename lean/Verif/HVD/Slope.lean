import Verif.HV.SpecLemmas
import Verif.HVD.Model

/-!
# The exclusive volume is piecewise affine in every coordinate
-/

namespace Verif.HVD

open MeasureTheory Verif.HV Verif.HV.Spec

theorem dropAt_succAbove {n : ℕ} (k : Fin (n + 1)) (p : ℕ → ℝ) (j : Fin n) :
    dropAt k p j = p (k.succAbove j) := by
  unfold dropAt
  by_cases h : (j : ℕ) < k
  · rw [if_pos h, Fin.succAbove_of_castSucc_lt _ _ (by simpa [Fin.lt_def] using h)]
    simp
  · rw [if_neg h, Fin.succAbove_of_le_castSucc _ _ (by simpa [Fin.le_def] using h)]
    simp

theorem dropAt_update_self (k : ℕ) (y : ℕ → ℝ) (t : ℝ) : dropAt k (Function.update y k t) = dropAt k y := by
  ext j
  unfold dropAt
  by_cases h : j < k
  · simp [h, h.ne]
  · simp [h, show j + 1 ≠ k by omega]

theorem measurableSet_exclusive {d : ℕ} {x : ℕ → ℝ} {P : List (ℕ → ℝ)} {ref : ℕ → ℝ} :
    MeasurableSet (exclusive d x P ref) := by
  rw [exclusive_eq]
  exact measurableSet_region.diff measurableSet_region

theorem volume_exclusive_lt_top {d : ℕ} {x : ℕ → ℝ} {P : List (ℕ → ℝ)} {ref : ℕ → ℝ} :
    volume (exclusive d x P ref) < ⊤ := by
  rw [exclusive_eq]
  exact lt_of_le_of_lt (measure_mono Set.sdiff_subset) volume_region_lt_top

/-- Within a window that contains no coordinate of the other points, the exclusive volume falls
linearly; the slope is the exclusive volume in the projection, with respect to the points below the
window. -/
theorem hvi_window {n k : ℕ} (hk : k ≤ n) {A : List (ℕ → ℝ)} {y ref : ℕ → ℝ} {lo hi t t' : ℝ}
    (hA : ∀ a ∈ A, a k ≤ lo ∨ hi ≤ a k) (h1 : lo ≤ t) (h2 : t ≤ t') (h3 : t' ≤ hi)
    (h4 : t' ≤ ref k) :
    hvi (n + 1) (Function.update y k t) A ref = hvi (n + 1) (Function.update y k t') A ref +
      (t' - t) * hvi n (dropAt k y) ((A.filter (fun a => a k ≤ lo)).map (dropAt k)) (dropAt k ref) := by
  set κ : Fin (n + 1) := ⟨k, by omega⟩ with hκ
  have hκv : (κ : ℕ) = k := rfl
  set E := exclusive (n + 1) (Function.update y k t) A ref with hE
  set E' := exclusive (n + 1) (Function.update y k t') A ref with hE'
  set S := exclusive n (dropAt k y) ((A.filter (fun a => a k ≤ lo)).map (dropAt k)) (dropAt k ref) with hS
  have hsub : E' ⊆ E := by
    rintro z ⟨hz1, hz2, hz3⟩
    refine ⟨fun i => ?_, hz2, hz3⟩
    have := hz1 i
    by_cases hi : (i : ℕ) = k
    · rw [hi, Function.update_self] at this ⊢
      exact h2.trans this
    · rwa [Function.update_of_ne hi] at this ⊢
  set e := MeasurableEquiv.piFinSuccAbove (fun _ : Fin (n + 1) => ℝ) κ with he
  have hpre : E \ E' = e ⁻¹' (Set.Ico t t' ×ˢ S) := by
    ext z
    have e1 : (e z).1 = z κ := rfl
    have e2 : ∀ i : Fin n, (e z).2 i = z (κ.succAbove i) := fun i => rfl
    have hup : ∀ (s : ℝ) (i : Fin n), Function.update y k s ((κ.succAbove i : Fin (n + 1)) : ℕ) =
        dropAt k y i := by
      intro s i
      rw [Function.update_of_ne, ← hκv, dropAt_succAbove]
      intro h
      exact Fin.succAbove_ne κ i (Fin.ext h)
    have hdr : ∀ (p : ℕ → ℝ) (i : Fin n), p ((κ.succAbove i : Fin (n + 1)) : ℕ) = dropAt k p i := by
      intro p i
      rw [← hκv, dropAt_succAbove]
    simp only [Set.mem_sdiff, Set.mem_preimage, Set.mem_prod, Set.mem_Ico, e1]
    simp only [hE, hE', hS, exclusive, Set.mem_ofPred_eq, Fin.forall_iff_succAbove κ, hup, e2,
      hκv, Function.update_self, List.mem_map, List.mem_filter, decide_eq_true_eq]
    simp only [hdr]
    constructor
    · rintro ⟨⟨⟨a1, a2⟩, ⟨b1, b2⟩, c⟩, hn⟩
      have hlt : z κ < t' := by
        by_contra hc
        push Not at hc
        exact hn ⟨⟨hc, a2⟩, ⟨b1, b2⟩, c⟩
      refine ⟨⟨a1, hlt⟩, a2, b2, ?_⟩
      rintro ⟨_, ⟨a, ⟨ha, hal⟩, rfl⟩, hz⟩
      exact c ⟨a, ha, by linarith, hz⟩
    · rintro ⟨⟨a1, hlt⟩, a2, b2, c⟩
      refine ⟨⟨⟨a1, a2⟩, ⟨by linarith, b2⟩, ?_⟩, ?_⟩
      · rintro ⟨a, ha, hak, hz⟩
        refine c ⟨_, ⟨a, ⟨ha, ?_⟩, rfl⟩, hz⟩
        rcases hA a ha with h | h
        · exact h
        · linarith
      · rintro ⟨⟨a1', -⟩, -⟩
        linarith
  have hmeas : MeasurableSet (Set.Ico t t' ×ˢ S) := measurableSet_Ico.prod measurableSet_exclusive
  have hvol : (volume (E \ E')).toReal = (t' - t) * (volume S).toReal := by
    rw [hpre, (volume_preserving_piFinSuccAbove (fun _ : Fin (n + 1) => ℝ) κ).measure_preimage
      hmeas.nullMeasurableSet, Measure.volume_eq_prod, Measure.prod_prod, Real.volume_Ico,
      ENNReal.toReal_mul, ENNReal.toReal_ofReal (by linarith)]
  rw [measure_sdiff hsub measurableSet_exclusive.nullMeasurableSet volume_exclusive_lt_top.ne,
    ENNReal.toReal_sub_of_le (measure_mono hsub) volume_exclusive_lt_top.ne] at hvol
  unfold hvi
  linarith

/-- The same for any two values in the window. -/
theorem hvi_affine {n k : ℕ} (hk : k ≤ n) {A : List (ℕ → ℝ)} {y ref : ℕ → ℝ} {lo hi t t' : ℝ}
    (hA : ∀ a ∈ A, a k ≤ lo ∨ hi ≤ a k) (ht : lo ≤ t) (ht1 : t ≤ hi) (ht2 : t ≤ ref k)
    (ht' : lo ≤ t') (ht1' : t' ≤ hi) (ht2' : t' ≤ ref k) :
    hvi (n + 1) (Function.update y k t) A ref = hvi (n + 1) (Function.update y k t') A ref +
      (t' - t) * hvi n (dropAt k y) ((A.filter (fun a => a k ≤ lo)).map (dropAt k)) (dropAt k ref) := by
  rcases le_total t t' with h | h
  · exact hvi_window hk hA ht h ht1' ht2'
  · have := hvi_window (y := y) hk hA ht' h ht1 ht2
    linarith

theorem exclusive_congr {d : ℕ} {x x' : ℕ → ℝ} {P P' : List (ℕ → ℝ)} {ref ref' : ℕ → ℝ}
    (hx : ∀ i < d, x i = x' i) (hr : ∀ i < d, ref i = ref' i)
    (h1 : ∀ p ∈ P, ∃ q ∈ P', ∀ i < d, q i ≤ p i) (h2 : ∀ p ∈ P', ∃ q ∈ P, ∀ i < d, q i ≤ p i) :
    exclusive d x P ref = exclusive d x' P' ref' := by
  ext z
  simp only [exclusive, Set.mem_ofPred_eq]
  have e1 : (∀ i : Fin d, x i ≤ z i) ↔ ∀ i : Fin d, x' i ≤ z i :=
    forall_congr' fun i => by rw [hx i i.2]
  have e2 : (∀ i : Fin d, z i ≤ ref i) ↔ ∀ i : Fin d, z i ≤ ref' i :=
    forall_congr' fun i => by rw [hr i i.2]
  have e3 : (∃ p ∈ P, ∀ i : Fin d, p i ≤ z i) ↔ ∃ p ∈ P', ∀ i : Fin d, p i ≤ z i := by
    constructor
    · rintro ⟨p, hp, h⟩
      obtain ⟨q, hq, hqp⟩ := h1 p hp
      exact ⟨q, hq, fun i => (hqp i i.2).trans (h i)⟩
    · rintro ⟨p, hp, h⟩
      obtain ⟨q, hq, hqp⟩ := h2 p hp
      exact ⟨q, hq, fun i => (hqp i i.2).trans (h i)⟩
  rw [e1, e2, e3]

/-- The exclusive volume depends only on the first `d` coordinates, and removing points that are
weakly dominated by others does not change it. -/
theorem hvi_congr {d : ℕ} {x x' : ℕ → ℝ} {P P' : List (ℕ → ℝ)} {ref ref' : ℕ → ℝ}
    (hx : ∀ i < d, x i = x' i) (hr : ∀ i < d, ref i = ref' i)
    (h1 : ∀ p ∈ P, ∃ q ∈ P', ∀ i < d, q i ≤ p i) (h2 : ∀ p ∈ P', ∃ q ∈ P, ∀ i < d, q i ≤ p i) :
    hvi d x P ref = hvi d x' P' ref' := by
  unfold hvi
  rw [exclusive_congr hx hr h1 h2]

/-- A weakly dominated point has no exclusive volume. -/
theorem hvi_eq_zero {d : ℕ} {x : ℕ → ℝ} {P : List (ℕ → ℝ)} {ref : ℕ → ℝ}
    (h : ∃ p ∈ P, ∀ i < d, p i ≤ x i) : hvi d x P ref = 0 := by
  obtain ⟨p, hp, hle⟩ := h
  have : exclusive d x P ref = ∅ := by
    ext z
    simp only [exclusive, Set.mem_ofPred_eq, Set.mem_empty_iff_false, iff_false]
    rintro ⟨h1, -, h3⟩
    exact h3 ⟨p, hp, fun i => (hle i i.2).trans (h1 i)⟩
  unfold hvi
  simp [this]

/-- Volume of the box between `x` and the reference point. -/
noncomputable def boxVol (d : ℕ) (x ref : ℕ → ℝ) : ℝ := hvi d x [] ref

/-- The exclusive volume of `x` is that of its box minus the volume the other points dominate inside
of the box. -/
theorem hvi_eq_clip {d : ℕ} {x : ℕ → ℝ} {P : List (ℕ → ℝ)} {ref : ℕ → ℝ}
    (hP : ∀ p ∈ P, ∀ i < d, p i ≤ ref i) (hx : ∀ i < d, x i ≤ ref i) :
    hvi d x P ref = boxVol d x ref - hvol d (P.map (clip x ref)) ref := by
  have hE : exclusive d x P ref = exclusive d x [] ref \ region d (P.map (clip x ref)) ref := by
    ext z
    simp only [exclusive, region, Set.mem_ofPred_eq, Set.mem_sdiff, List.mem_map, List.not_mem_nil,
      false_and, exists_false, not_false_eq_true, and_true]
    constructor
    · rintro ⟨h1, h2, h3⟩
      refine ⟨⟨h1, h2⟩, ?_⟩
      rintro ⟨⟨_, ⟨p, hp, rfl⟩, hz⟩, -⟩
      refine h3 ⟨p, hp, fun i => ?_⟩
      have := hz i
      unfold clip at this
      have hpi := hP p hp i i.2
      have hxi := hx i i.2
      rw [min_eq_left (max_le hpi hxi)] at this
      exact (le_max_left _ _).trans this
    · rintro ⟨⟨h1, h2⟩, h3⟩
      refine ⟨h1, h2, ?_⟩
      rintro ⟨p, hp, hz⟩
      refine h3 ⟨⟨_, ⟨p, hp, rfl⟩, fun i => ?_⟩, h2⟩
      exact (min_le_left _ _).trans (max_le (hz i) (h1 i))
  have hsub : region d (P.map (clip x ref)) ref ⊆ exclusive d x [] ref := by
    rintro z ⟨⟨q, hq, hz⟩, h2⟩
    refine ⟨fun i => ?_, h2, by simp⟩
    obtain ⟨p, hp, rfl⟩ := List.mem_map.mp hq
    refine le_trans ?_ (hz i)
    exact le_min (le_max_right _ _) (hx i i.2)
  unfold hvi boxVol
  rw [hE, measure_sdiff hsub measurableSet_region.nullMeasurableSet volume_region_lt_top.ne,
    ENNReal.toReal_sub_of_le (measure_mono hsub) volume_exclusive_lt_top.ne]
  rfl

end Verif.HVD
