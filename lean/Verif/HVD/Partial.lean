import Verif.HVD.Spec
import Verif.HVD.Slope
import Mathlib.Analysis.Calculus.Deriv.Add
import Mathlib.Analysis.Calculus.Deriv.Mul
import Mathlib.Analysis.Calculus.Deriv.Slope

/-!
# First and second partial derivatives of the hypervolume
-/

namespace Verif.HVD

open Verif.HV Verif.HV.Spec

/-! ### Moving one coordinate -/

theorem length_setCoord {K : Type*} (Y : List (ℕ → K)) (i k : ℕ) (t : K) :
    (setCoord Y i k t).length = Y.length := by simp [setCoord]

theorem ptOf_eq {K : Type*} [Zero K] {Y : List (ℕ → K)} {i : ℕ} (hi : i < Y.length) : ptOf Y i = Y[i] := by
  simp [ptOf, List.getD_eq_getElem?_getD, hi]

theorem ptOf_setCoord {K : Type*} [Zero K] {Y : List (ℕ → K)} {i j k : ℕ} {t : K} (hj : j < Y.length) :
    ptOf (setCoord Y i k t) j = if i = j then Function.update (ptOf Y j) k t else ptOf Y j := by
  rw [ptOf_eq (by rwa [length_setCoord]), ptOf_eq hj]
  simp only [setCoord, List.getElem_modify]

theorem mem_iff_ptOf {K : Type*} [Zero K] {Y : List (ℕ → K)} {p : ℕ → K} :
    p ∈ Y ↔ ∃ j < Y.length, ptOf Y j = p := by
  rw [List.mem_iff_getElem]
  constructor
  · rintro ⟨j, hj, rfl⟩; exact ⟨j, hj, ptOf_eq hj⟩
  · rintro ⟨j, hj, rfl⟩; exact ⟨j, hj, (ptOf_eq hj).symm⟩

theorem mem_setCoord {K : Type*} [Zero K] {Y : List (ℕ → K)} {i k : ℕ} {t : K} (hi : i < Y.length) {p : ℕ → K} :
    p ∈ setCoord Y i k t ↔ p = Function.update (ptOf Y i) k t ∨ p ∈ Y.eraseIdx i := by
  rw [mem_iff_ptOf, List.mem_eraseIdx_iff_getElem]
  constructor
  · rintro ⟨j, hj, rfl⟩
    rw [length_setCoord] at hj
    rw [ptOf_setCoord hj]
    by_cases h : i = j
    · subst h; exact Or.inl (by simp)
    · refine Or.inr ⟨j, hj, fun e => h e.symm, ?_⟩
      simp [h, ptOf_eq hj]
  · rintro (rfl | ⟨j, hj, hne, rfl⟩)
    · exact ⟨i, by rwa [length_setCoord], by rw [ptOf_setCoord hi]; simp⟩
    · exact ⟨j, by rwa [length_setCoord], by
        rw [ptOf_setCoord hj, if_neg (fun e => hne e.symm), ptOf_eq hj]⟩

theorem mem_eraseIdx_ptOf {K : Type*} [Zero K] {Y : List (ℕ → K)} {i : ℕ} {p : ℕ → K} :
    p ∈ Y.eraseIdx i ↔ ∃ j < Y.length, j ≠ i ∧ ptOf Y j = p := by
  rw [List.mem_eraseIdx_iff_getElem]
  constructor
  · rintro ⟨j, hj, hne, rfl⟩; exact ⟨j, hj, hne, ptOf_eq hj⟩
  · rintro ⟨j, hj, hne, rfl⟩; exact ⟨j, hj, hne, (ptOf_eq hj).symm⟩

theorem setCoord_self {K : Type*} [Zero K] (Y : List (ℕ → K)) {i k : ℕ} (hi : i < Y.length) :
    setCoord Y i k (ptOf Y i k) = Y := by
  apply List.ext_getElem (length_setCoord _ _ _ _)
  intro j h1 h2
  have := ptOf_setCoord (Y := Y) (i := i) (k := k) (t := ptOf Y i k) h2
  rw [ptOf_eq h1, ptOf_eq h2] at this
  rw [this]
  split_ifs with h
  · subst h; rw [ptOf_eq hi]; simp
  · rfl

/-! ### General position -/

theorem GeneralPosition.ne {d : ℕ} {Y : List (ℕ → ℝ)} {ref : ℕ → ℝ} (h : GeneralPosition d Y ref)
    {i j k : ℕ} (hi : i < Y.length) (hj : j < Y.length) (hij : i ≠ j) (hk : k < d) :
    ptOf Y i k ≠ ptOf Y j k := by
  rw [ptOf_eq hi, ptOf_eq hj]
  rcases lt_or_gt_of_ne hij with hlt | hlt
  · exact List.pairwise_iff_getElem.mp h.distinct i j hi hj hlt k hk
  · exact (List.pairwise_iff_getElem.mp h.distinct j i hj hi hlt k hk).symm

theorem GeneralPosition.lt_ref {d : ℕ} {Y : List (ℕ → ℝ)} {ref : ℕ → ℝ} (h : GeneralPosition d Y ref)
    {i k : ℕ} (hi : i < Y.length) (hk : k < d) : ptOf Y i k < ref k := by
  rw [ptOf_eq hi]
  exact h.inside _ (List.getElem_mem hi) k hk

theorem generalPosition_iff {d : ℕ} {Y : List (ℕ → ℝ)} {ref : ℕ → ℝ} :
    GeneralPosition d Y ref ↔ (∀ i < Y.length, ∀ j < Y.length, i ≠ j → ∀ k < d, ptOf Y i k ≠ ptOf Y j k) ∧
      ∀ i < Y.length, ∀ k < d, ptOf Y i k < ref k := by
  constructor
  · intro h
    exact ⟨fun i hi j hj hij k hk => h.ne hi hj hij hk, fun i hi k hk => h.lt_ref hi hk⟩
  · rintro ⟨h1, h2⟩
    refine ⟨List.pairwise_iff_getElem.mpr fun i j hi hj hij k hk => ?_, fun p hp k hk => ?_⟩
    · have := h1 i hi j hj hij.ne k hk
      rwa [ptOf_eq hi, ptOf_eq hj] at this
    · obtain ⟨j, hj, rfl⟩ := mem_iff_ptOf.mp hp
      exact h2 j hj k hk

/-- A number different from finitely many others has a distance to them. -/
theorem exists_gap (l : List ℝ) (t : ℝ) (h : ∀ a ∈ l, a ≠ t) :
    ∃ ε > 0, ∀ a ∈ l, a ≤ t - ε ∨ t + ε ≤ a := by
  induction l with
  | nil => exact ⟨1, one_pos, by simp⟩
  | cons a l ih =>
    obtain ⟨ε, hε, h1⟩ := ih fun b hb => h b (List.mem_cons_of_mem _ hb)
    have hat : 0 < |a - t| := abs_pos.mpr (sub_ne_zero.mpr (h a List.mem_cons_self))
    refine ⟨min ε |a - t|, lt_min hε hat, fun b hb => ?_⟩
    rcases List.mem_cons.mp hb with rfl | hb
    · rcases le_total b t with hle | hle
      · left
        have := abs_of_nonpos (sub_nonpos.mpr hle)
        have := min_le_right ε |b - t|
        linarith
      · right
        have := abs_of_nonneg (sub_nonneg.mpr hle)
        have := min_le_right ε |b - t|
        linarith
    · have := min_le_left ε |a - t|
      rcases h1 b hb with h' | h'
      · left; linarith
      · right; linarith

/-- The slope of the hypervolume in coordinate `k` of point `i`, for `n + 1` objectives: the
exclusive volume in the projection along `k` with respect to the points that are lower in `k`. -/
noncomputable def slope (n : ℕ) (Y : List (ℕ → ℝ)) (ref : ℕ → ℝ) (i k : ℕ) : ℝ :=
  hvi n (dropAt k (ptOf Y i)) ((Y.filter (fun a => a k < ptOf Y i k)).map (dropAt k)) (dropAt k ref)

theorem slope_nonneg {n : ℕ} {Y : List (ℕ → ℝ)} {ref : ℕ → ℝ} {i k : ℕ} : 0 ≤ slope n Y ref i k :=
  hvi_nonneg

/-- The hypervolume is affine in one coordinate, in a window free of other points. -/
theorem hvol_affine {n i k : ℕ} {Y : List (ℕ → ℝ)} {ref : ℕ → ℝ} {lo hi t t' : ℝ} (hk : k ≤ n)
    (hi' : i < Y.length) (hA : ∀ j < Y.length, j ≠ i → ptOf Y j k ≤ lo ∨ hi ≤ ptOf Y j k)
    (ht : lo ≤ t) (ht1 : t ≤ hi) (ht2 : t ≤ ref k) (ht' : lo ≤ t') (ht1' : t' ≤ hi) (ht2' : t' ≤ ref k) :
    hvol (n + 1) (setCoord Y i k t) ref = hvol (n + 1) (setCoord Y i k t') ref +
      (t' - t) * hvi n (dropAt k (ptOf Y i)) (((Y.eraseIdx i).filter (fun a => a k ≤ lo)).map (dropAt k))
        (dropAt k ref) := by
  have hs : ∀ s, hvol (n + 1) (setCoord Y i k s) ref = hvol (n + 1) (Y.eraseIdx i) ref +
      hvi (n + 1) (Function.update (ptOf Y i) k s) (Y.eraseIdx i) ref := by
    intro s
    rw [← hvol_cons]
    apply hvol_congr_mem
    intro p
    rw [mem_setCoord hi', List.mem_cons]
  rw [hs, hs, hvi_affine hk (lo := lo) (hi := hi) (t' := t') _ ht ht1 ht2 ht' ht1' ht2']
  · ring
  · intro a ha
    obtain ⟨j, hj, hne, rfl⟩ := mem_eraseIdx_ptOf.mp ha
    exact hA j hj hne

/-- In a window around the current value the points below the window are the points below it. -/
theorem slope_eq_window {n i k : ℕ} {Y : List (ℕ → ℝ)} {ref : ℕ → ℝ} {lo hi : ℝ}
    (hi' : i < Y.length) (hA : ∀ j < Y.length, j ≠ i → ptOf Y j k ≤ lo ∨ hi ≤ ptOf Y j k)
    (h1 : lo < ptOf Y i k) (h2 : ptOf Y i k < hi) :
    hvi n (dropAt k (ptOf Y i)) (((Y.eraseIdx i).filter (fun a => a k ≤ lo)).map (dropAt k))
      (dropAt k ref) = slope n Y ref i k := by
  have key : ∀ p, p ∈ (Y.eraseIdx i).filter (fun a => a k ≤ lo) ↔ p ∈ Y.filter (fun a => a k < ptOf Y i k) := by
    intro p
    rw [List.mem_filter, List.mem_filter, mem_eraseIdx_ptOf, mem_iff_ptOf]
    simp only [decide_eq_true_eq]
    constructor
    · rintro ⟨⟨j, hj, hne, rfl⟩, hle⟩
      exact ⟨⟨j, hj, rfl⟩, lt_of_le_of_lt hle h1⟩
    · rintro ⟨⟨j, hj, rfl⟩, hlt⟩
      have hne : j ≠ i := by rintro rfl; exact lt_irrefl _ hlt
      refine ⟨⟨j, hj, hne, rfl⟩, ?_⟩
      rcases hA j hj hne with h | h
      · exact h
      · linarith
  apply hvi_congr (fun _ _ => rfl) (fun _ _ => rfl)
  · intro p hp
    obtain ⟨q, hq, rfl⟩ := List.mem_map.mp hp
    exact ⟨_, List.mem_map_of_mem ((key q).mp hq), fun _ _ => le_rfl⟩
  · intro p hp
    obtain ⟨q, hq, rfl⟩ := List.mem_map.mp hp
    exact ⟨_, List.mem_map_of_mem ((key q).mpr hq), fun _ _ => le_rfl⟩

/-- A window around coordinate `k` of point `i`. -/
theorem exists_window {Y : List (ℕ → ℝ)} {ref : ℕ → ℝ} {i k : ℕ}
    (hne : ∀ j < Y.length, j ≠ i → ptOf Y j k ≠ ptOf Y i k) (hr : ptOf Y i k < ref k) :
    ∃ ε > 0, (∀ j < Y.length, j ≠ i → ptOf Y j k ≤ ptOf Y i k - ε ∨ ptOf Y i k + ε ≤ ptOf Y j k) ∧
      ptOf Y i k + ε ≤ ref k := by
  obtain ⟨ε, hε, h⟩ := exists_gap (((List.range Y.length).filter (· ≠ i)).map (fun j => ptOf Y j k))
    (ptOf Y i k) (by
      intro a ha
      obtain ⟨j, hj, rfl⟩ := List.mem_map.mp ha
      rw [List.mem_filter, List.mem_range] at hj
      exact hne j hj.1 (by simpa using hj.2))
  refine ⟨min ε (ref k - ptOf Y i k), lt_min hε (by linarith), fun j hj hji => ?_, ?_⟩
  · have := min_le_left ε (ref k - ptOf Y i k)
    rcases h (ptOf Y j k) (List.mem_map.mpr ⟨j, by simp [hj, hji], rfl⟩) with h' | h'
    · left; linarith
    · right; linarith
  · have := min_le_right ε (ref k - ptOf Y i k)
    linarith

theorem hasDerivAt_of_affine {f : ℝ → ℝ} {t0 s ε : ℝ} (hε : 0 < ε)
    (h : ∀ t, t0 - ε < t → t < t0 + ε → f t = f t0 + (t - t0) * s) : HasDerivAt f s t0 := by
  have h1 : HasDerivAt (fun t => f t0 + (t - t0) * s) s t0 := by
    have := ((hasDerivAt_id t0).sub_const t0).mul_const s
    simpa using this.const_add (f t0)
  refine h1.congr_of_eventuallyEq ?_
  filter_upwards [Ioo_mem_nhds (show t0 - ε < t0 by linarith) (show t0 < t0 + ε by linarith)] with t ht
  exact h t ht.1 ht.2

/-- The partial derivatives of the hypervolume. Only the values of the other points in objective
`k` have to differ from the one that moves. -/
theorem hvol_hasDerivAt {n i k : ℕ} {Y : List (ℕ → ℝ)} {ref : ℕ → ℝ} (hk : k ≤ n) (hi : i < Y.length)
    (hne : ∀ j < Y.length, j ≠ i → ptOf Y j k ≠ ptOf Y i k) (hr : ptOf Y i k < ref k) :
    HasDerivAt (fun t => hvol (n + 1) (setCoord Y i k t) ref) (-slope n Y ref i k) (ptOf Y i k) := by
  obtain ⟨ε, hε, hw, hre⟩ := exists_window hne hr
  refine hasDerivAt_of_affine hε fun t h1 h2 => ?_
  have := hvol_affine (ref := ref) (t := t) (t' := ptOf Y i k) hk hi hw h1.le h2.le (by linarith)
    (by linarith) (by linarith) hr.le
  rw [slope_eq_window hi hw (by linarith) (by linarith)] at this
  rw [this]; ring

/-! ### General position is preserved by small moves -/

theorem GeneralPosition.eventually {d : ℕ} {Y : List (ℕ → ℝ)} {ref : ℕ → ℝ}
    (h : GeneralPosition d Y ref) {j m : ℕ} (hj : j < Y.length) (hm : m < d) :
    ∃ ε > 0, ∀ t, ptOf Y j m - ε < t → t < ptOf Y j m + ε →
      GeneralPosition d (setCoord Y j m t) ref ∧
      ∀ i < Y.length, i ≠ j → (ptOf Y i m < t ↔ ptOf Y i m < ptOf Y j m) := by
  obtain ⟨ε, hε, hw, hre⟩ := exists_window (Y := Y) (ref := ref) (i := j) (k := m)
    (fun i hi hij => h.ne hi hj hij hm) (h.lt_ref hj hm)
  refine ⟨ε, hε, fun t h1 h2 => ⟨?_, ?_⟩⟩
  · rw [generalPosition_iff]
    rw [length_setCoord]
    have hval : ∀ i < Y.length, ∀ k, ptOf (setCoord Y j m t) i k =
        if j = i ∧ k = m then t else ptOf Y i k := by
      intro i hi k
      rw [ptOf_setCoord hi]
      by_cases hji : j = i
      · by_cases hkm : k = m
        · subst hkm; simp [hji]
        · simp [hji, hkm]
      · simp [hji]
    constructor
    · intro i hi i' hi' hne k hk
      rw [hval i hi, hval i' hi']
      by_cases c1 : j = i ∧ k = m
      · have c2 : ¬ (j = i' ∧ k = m) := fun c => hne (c1.1.symm.trans c.1)
        rw [if_pos c1, if_neg c2]
        obtain ⟨rfl, rfl⟩ := c1
        rcases hw i' hi' (Ne.symm hne) with h' | h' <;> intro e <;> linarith
      · rw [if_neg c1]
        by_cases c2 : j = i' ∧ k = m
        · rw [if_pos c2]
          obtain ⟨rfl, rfl⟩ := c2
          rcases hw i hi hne with h' | h' <;> intro e <;> linarith
        · rw [if_neg c2]
          exact h.ne hi hi' hne hk
    · intro i hi k hk
      rw [hval i hi]
      split_ifs with c
      · obtain ⟨rfl, rfl⟩ := c; linarith
      · exact h.lt_ref hi hk
  · intro i hi hij
    rcases hw i hi hij with h' | h'
    · constructor <;> intro <;> linarith
    · constructor <;> intro <;> linarith

theorem partialHV_eq {n i k : ℕ} {Y : List (ℕ → ℝ)} {ref : ℕ → ℝ} (h : GeneralPosition (n + 1) Y ref)
    (hk : k ≤ n) (hi : i < Y.length) : partialHV (n + 1) Y ref i k = -slope n Y ref i k :=
  (hvol_hasDerivAt hk hi (fun _ hj hji => h.ne hj hi hji (by omega)) (h.lt_ref hi (by omega))).deriv

end Verif.HVD
