import Verif.HV.SpecLemmas
import Verif.HVD.Spec
import Mathlib.MeasureTheory.Integral.Bochner.Set
import Mathlib.Analysis.Calculus.ContDiff.Operations

/-!
# The hypervolume is smooth in general position

Near points in general position the hypervolume is a polynomial in the coordinates (inclusion and exclusion).
-/

namespace Verif.HVD

open MeasureTheory Verif.HV

/-- Inclusion and exclusion; `top u k` is the index of a largest coordinate `k` among the points in `u`. -/
theorem hvol_inclusion {N d : ℕ} {y : ℕ → ℕ → ℝ} {ref : ℕ → ℝ} {top : Finset ℕ → ℕ → ℕ}
    (href : ∀ i < N, ∀ k < d, y i k ≤ ref k)
    (hmem : ∀ u ⊆ Finset.range N, u.Nonempty → ∀ k < d, top u k ∈ u)
    (hmax : ∀ u ⊆ Finset.range N, u.Nonempty → ∀ k < d, ∀ j ∈ u, y j k ≤ y (top u k) k) :
    Spec.hvol d ((List.range N).map y) ref = ∑ u ∈ (Finset.range N).powerset with u.Nonempty,
      (-1 : ℝ) ^ (u.card + 1) * ∏ k ∈ Finset.range d, (ref k - y (top u k) k) := by
  have hreg : Spec.region d ((List.range N).map y) ref =
      ⋃ i ∈ Finset.range N, Set.Icc (Spec.res d (y i)) (Spec.res d ref) := by
    ext x
    simp only [Spec.region, Set.mem_ofPred_eq, Set.mem_iUnion, Finset.mem_range, Set.mem_Icc, Pi.le_def, Spec.res,
      List.mem_map, List.mem_range, exists_prop]
    constructor
    · rintro ⟨⟨p, ⟨i, hi, rfl⟩, hx⟩, hx'⟩
      exact ⟨i, hi, hx, hx'⟩
    · rintro ⟨i, hi, hx, hx'⟩
      exact ⟨⟨_, ⟨i, hi, rfl⟩, hx⟩, hx'⟩
  have h1 := measureReal_biUnion_eq_sum_powerset (μ := volume) (t := Finset.range N)
    (s := fun i => Set.Icc (Spec.res d (y i)) (Spec.res d ref)) (fun i _ => measurableSet_Icc)
    (fun i _ => isCompact_Icc.measure_lt_top.ne)
  rw [Spec.hvol, hreg]
  refine h1.trans (Finset.sum_congr rfl fun u hu => ?_)
  obtain ⟨hu1, hu2⟩ := Finset.mem_filter.mp hu
  rw [Finset.mem_powerset] at hu1
  congr 1
  have h2 : ⋂ i ∈ u, Set.Icc (Spec.res d (y i)) (Spec.res d ref) =
      Set.Icc (Spec.res d fun k => y (top u k) k) (Spec.res d ref) := by
    ext x
    simp only [Set.mem_iInter, Set.mem_Icc, Pi.le_def, Spec.res]
    constructor
    · intro h
      refine ⟨fun k => (h _ (hmem u hu1 hu2 k k.2)).1 k, ?_⟩
      obtain ⟨i, hi⟩ := hu2
      exact (h i hi).2
    · intro h i hi
      exact ⟨fun k => (hmax u hu1 hu2 k k.2 i hi).trans (h.1 k), h.2⟩
  rw [h2, measureReal_def, Real.volume_Icc_pi_toReal, Finset.prod_range]
  · rfl
  · exact fun k => href _ (Finset.mem_range.mp (hu1 (hmem u hu1 hu2 k k.2))) k k.2

/-- The hypervolume of points that depend smoothly on a parameter is smooth where the points are in general position. -/
theorem hvol_contDiffAt {E : Type*} [NormedAddCommGroup E] [NormedSpace ℝ E] {n : WithTop ℕ∞} {N d : ℕ}
    {y : ℕ → ℕ → E → ℝ} {ref : ℕ → ℝ} {x0 : E} (hy : ∀ i < N, ∀ k < d, ContDiffAt ℝ n (y i k) x0)
    (hg : GeneralPosition d ((List.range N).map fun i k => y i k x0) ref) :
    ContDiffAt ℝ n (fun x => Spec.hvol d ((List.range N).map fun i k => y i k x) ref) x0 := by
  have hne : ∀ i < N, ∀ j < N, i ≠ j → ∀ k < d, y i k x0 ≠ y j k x0 := by
    have h := List.pairwise_map.mp hg.distinct
    intro i hi j hj hij k hk
    rcases lt_or_gt_of_ne hij with h' | h'
    · have := List.pairwise_iff_getElem.mp h i j (by simpa using hi) (by simpa using hj) h' k hk
      simpa using this
    · have := List.pairwise_iff_getElem.mp h j i (by simpa using hj) (by simpa using hi) h' k hk
      exact fun he => this (by simpa using he.symm)
  have hlt : ∀ i < N, ∀ k < d, y i k x0 < ref k := fun i hi k hk =>
    hg.inside _ (List.mem_map.mpr ⟨i, List.mem_range.mpr hi, rfl⟩) k hk
  have hex : ∀ u : Finset ℕ, u.Nonempty → ∀ k, ∃ i ∈ u, ∀ j ∈ u, y j k x0 ≤ y i k x0 := fun u hu k =>
    u.exists_max_image (fun j => y j k x0) hu
  classical
  let top : Finset ℕ → ℕ → ℕ := fun u k => if h : u.Nonempty then (hex u h k).choose else 0
  have htop : ∀ u : Finset ℕ, u.Nonempty → ∀ k, top u k ∈ u ∧ ∀ j ∈ u, y j k x0 ≤ y (top u k) k x0 := by
    intro u hu k
    simp only [top, dif_pos hu]
    exact (hex u hu k).choose_spec
  have hev1 : ∀ᶠ x in nhds x0, ∀ i ∈ Finset.range N, ∀ k ∈ Finset.range d, y i k x ≤ ref k := by
    refine (Finset.eventually_all _).mpr fun i hi => (Finset.eventually_all _).mpr fun k hk => ?_
    rw [Finset.mem_range] at hi hk
    exact ((hy i hi k hk).continuousAt.eventually_lt continuousAt_const (hlt i hi k hk)).mono fun x hx => hx.le
  have hev2 : ∀ᶠ x in nhds x0, ∀ u ∈ (Finset.range N).powerset, u.Nonempty → ∀ k ∈ Finset.range d, ∀ j ∈ u,
      y j k x ≤ y (top u k) k x := by
    refine (Finset.eventually_all _).mpr fun u hu => ?_
    rw [Finset.mem_powerset] at hu
    by_cases hne' : u.Nonempty
    · refine Filter.Eventually.mono ?_ fun x hx _ => hx
      refine (Finset.eventually_all _).mpr fun k hk => (Finset.eventually_all _).mpr fun j hj => ?_
      obtain ⟨t1, t2⟩ := htop u hne' k
      rw [Finset.mem_range] at hk
      have hjN := Finset.mem_range.mp (hu hj)
      have htN := Finset.mem_range.mp (hu t1)
      rcases eq_or_ne j (top u k) with he | he
      · exact Filter.Eventually.of_forall fun x => by rw [← he]
      · have hlt' : y j k x0 < y (top u k) k x0 := lt_of_le_of_ne (t2 j hj) (hne j hjN _ htN he k hk)
        exact ((hy j hjN k hk).continuousAt.eventually_lt (hy _ htN k hk).continuousAt hlt').mono fun x hx => hx.le
    · exact Filter.Eventually.of_forall fun x h => absurd h hne'
  have heq : (fun x => Spec.hvol d ((List.range N).map fun i k => y i k x) ref) =ᶠ[nhds x0] fun x =>
      ∑ u ∈ (Finset.range N).powerset with u.Nonempty,
        (-1 : ℝ) ^ (u.card + 1) * ∏ k ∈ Finset.range d, (ref k - y (top u k) k x) := by
    filter_upwards [hev1, hev2] with x h1 h2
    exact hvol_inclusion (y := fun i k => y i k x) (top := top)
      (fun i hi k hk => h1 i (Finset.mem_range.mpr hi) k (Finset.mem_range.mpr hk))
      (fun u _ hne' k _ => (htop u hne' k).1)
      (fun u hu hne' k hk j hj => h2 u (Finset.mem_powerset.mpr hu) hne' k (Finset.mem_range.mpr hk) j hj)
  refine ContDiffAt.congr_of_eventuallyEq ?_ heq
  refine ContDiffAt.sum fun u hu => ?_
  obtain ⟨hu1, hu2⟩ := Finset.mem_filter.mp hu
  rw [Finset.mem_powerset] at hu1
  refine contDiffAt_const.mul (contDiffAt_prod fun k hk => contDiffAt_const.sub ?_)
  exact hy _ (Finset.mem_range.mp (hu1 (htop u hu2 k).1)) k (Finset.mem_range.mp hk)

end Verif.HVD
