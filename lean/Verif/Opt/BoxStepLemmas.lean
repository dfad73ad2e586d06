import Verif.Opt.BoxStep
import Mathlib.Data.List.GetD
import Mathlib.Data.List.Zip
import Mathlib.Tactic.Choose

/-!
# Lemmas about the step limits
-/

namespace Verif.Opt

open Ext

variable {K : Type*} [Field K] [LinearOrder K] [IsStrictOrderedRing K]

/-- Moving a coordinate by at most the distance to its bound, divided by the speed, stays within the bound. -/
theorem coord_in_box {l u x s t : K} (hl : l ≤ x) (hu : x ≤ u) (ht : 0 ≤ t)
    (h1 : s < 0 → t ≤ |x - l| / |s|) (h2 : 0 < s → t ≤ |u - x| / |s|) : l ≤ x + t * s ∧ x + t * s ≤ u := by
  rcases lt_trichotomy s 0 with hs | hs | hs
  · have h := h1 hs
    rw [abs_of_nonneg (sub_nonneg.mpr hl), abs_of_neg hs, le_div_iff₀ (by linarith)] at h
    have := mul_nonneg ht (neg_nonneg.mpr hs.le)
    constructor <;> linarith [mul_neg t s]
  · subst hs
    constructor <;> linarith [mul_zero t]
  · have h := h2 hs
    rw [abs_of_nonneg (sub_nonneg.mpr hu), abs_of_pos hs, le_div_iff₀ hs] at h
    have := mul_nonneg ht hs.le
    constructor <;> linarith

/-! ### `DpN` -/

theorem div_fin_nonneg {xl xu x step : List K} {c : K} (h : fin c ∈ dpnRatios xl xu x step) : 0 ≤ c := by
  unfold dpnRatios at h
  obtain ⟨i, hi, he⟩ := List.mem_iff_getElem.mp h
  rw [List.getElem_zipWith] at he
  refine Ext.div_nonneg ?_ (abs_nonneg _) he
  unfold boxDist
  rw [List.getElem_append]
  split
  · rw [List.getElem_zipWith]; exact abs_nonneg _
  · rw [List.getElem_zipWith]; exact abs_nonneg _

theorem dpnRatios_lower {xl xu x step : List K} {d : ℕ} (hd : d < x.length) (h1 : xl.length = x.length)
    (h2 : xu.length = x.length) (h3 : step.length = x.length) (hs : step.getD d 0 < 0) :
    fin (|x.getD d 0 - xl.getD d 0| / |step.getD d 0|) ∈ dpnRatios xl xu x step := by
  unfold dpnRatios boxDist outward
  rw [List.mem_iff_getElem]
  refine ⟨d, by simp only [List.length_zipWith, List.length_append, List.length_map]; omega, ?_⟩
  rw [List.getElem_zipWith, List.getElem_append_left (by rw [List.length_zipWith]; omega),
    List.getElem_append_left (by omega), List.getElem_zipWith]
  rw [List.getD_eq_getElem _ _ (by omega)] at hs
  rw [List.getD_eq_getElem _ _ (by omega), List.getD_eq_getElem _ _ (by omega), List.getD_eq_getElem _ _ (by omega)]
  rw [min_eq_right hs.le]
  unfold Ext.div
  rw [if_neg (abs_ne_zero.mpr hs.ne)]

theorem dpnRatios_upper {xl xu x step : List K} {d : ℕ} (hd : d < x.length) (h1 : xl.length = x.length)
    (h2 : xu.length = x.length) (h3 : step.length = x.length) (hs : 0 < step.getD d 0) :
    fin (|xu.getD d 0 - x.getD d 0| / |step.getD d 0|) ∈ dpnRatios xl xu x step := by
  unfold dpnRatios boxDist outward
  rw [List.mem_iff_getElem]
  refine ⟨x.length + d, by simp only [List.length_zipWith, List.length_append, List.length_map]; omega, ?_⟩
  have e1 : x.length + d - (List.zipWith (fun a l => |a - l|) x xl).length = d := by
    rw [List.length_zipWith]; omega
  have e2 : x.length + d - step.length = d := by omega
  rw [List.getElem_zipWith, List.getElem_append_right (by simp only [List.length_zipWith]; omega),
    List.getElem_append_right (by omega), List.getElem_zipWith, List.getElem_map]
  simp only [e1, e2]
  rw [List.getD_eq_getElem _ _ (by omega)] at hs
  rw [List.getD_eq_getElem _ _ (by omega), List.getD_eq_getElem _ _ (by omega), List.getD_eq_getElem _ _ (by omega)]
  have h : |min 0 (-step[d])| = |step[d]| := by rw [min_eq_right (by linarith), abs_neg]
  simp only [h, Ext.div, if_neg (abs_ne_zero.mpr hs.ne')]

/-- The bound is zero only if the point is on the boundary and the step leads out of the box. -/
theorem dpnRatios_zero {xl xu x step : List K} (h : (nanmin (dpnRatios xl xu x step)).capOne = 0) :
    ∃ j < (outward step).length, (outward step).getD j 0 < 0 ∧ (boxDist xl xu x).getD j 0 = 0 := by
  have hmem : fin 0 ∈ dpnRatios xl xu x step := by
    unfold nanmin at h
    rcases he : (dpnRatios xl xu x step).foldl fmin nan with c | _ | _
    · rw [he] at h
      unfold capOne at h
      dsimp only at h
      split at h
      · subst h
        rcases foldl_fmin_mem (dpnRatios xl xu x step) nan with h' | h'
        · rw [he] at h'; cases h'
        · rwa [he] at h'
      · exact absurd h one_ne_zero
    · rw [he] at h; exact absurd h one_ne_zero
    · rw [he] at h; exact absurd h one_ne_zero
  obtain ⟨j, hj, he⟩ := List.mem_iff_getElem.mp hmem
  unfold dpnRatios at hj
  rw [List.length_zipWith] at hj
  have he : Ext.div ((boxDist xl xu x)[j]'(by omega)) |min 0 ((outward step)[j]'(by omega))| = fin 0 := by
    rw [← he]; unfold dpnRatios; rw [List.getElem_zipWith]
  refine ⟨j, by omega, ?_⟩
  rw [List.getD_eq_getElem _ _ (by omega), List.getD_eq_getElem _ _ (by omega)]
  unfold Ext.div at he
  split at he
  · split at he <;> cases he
  · rename_i hne
    injection he with he
    rw [abs_eq_zero] at hne
    refine ⟨?_, ?_⟩
    · by_contra hc
      exact hne (min_eq_left (not_lt.mp hc))
    · rcases div_eq_zero_iff.mp he with h | h
      · exact h
      · rw [abs_eq_zero] at h
        exact absurd h hne

/-- The point is inside the box. -/
def InBox (xl xu x : List K) : Prop := ∀ d < x.length, xl.getD d 0 ≤ x.getD d 0 ∧ x.getD d 0 ≤ xu.getD d 0

/-- `x + t * step`. -/
def move (x step : List K) (t : K) : List K := List.zipWith (fun a s => a + t * s) x step

omit [LinearOrder K] [IsStrictOrderedRing K] in
theorem move_getD {x step : List K} {t : K} {d : ℕ} (hd : d < x.length) (h : step.length = x.length) :
    (move x step t).getD d 0 = x.getD d 0 + t * step.getD d 0 := by
  unfold move
  rw [List.getD_eq_getElem _ _ (by rw [List.length_zipWith]; omega), List.getElem_zipWith,
    List.getD_eq_getElem _ _ hd, List.getD_eq_getElem _ _ (by omega)]

omit [LinearOrder K] [IsStrictOrderedRing K] in
theorem move_length {x step : List K} {t : K} (h : step.length = x.length) : (move x step t).length = x.length := by
  unfold move
  rw [List.length_zipWith, h, min_self]

theorem dpn_move_inBox {xl xu x step : List K} (h1 : xl.length = x.length) (h2 : xu.length = x.length)
    (h3 : step.length = x.length) (hx : InBox xl xu x) {t : K} (ht : 0 ≤ t)
    (ht' : t ≤ (nanmin (dpnRatios xl xu x step)).capOne) : InBox xl xu (move x step t) := by
  intro d hd
  rw [move_length h3] at hd
  rw [move_getD hd h3]
  have hc := (capOne_nanmin (dpnRatios xl xu x step) fun c hc => div_fin_nonneg hc).2.2
  exact coord_in_box (hx d hd).1 (hx d hd).2 ht
    (fun hs => ht'.trans (hc _ (dpnRatios_lower hd h1 h2 h3 hs)))
    (fun hs => ht'.trans (hc _ (dpnRatios_upper hd h1 h2 h3 hs)))

omit [IsStrictOrderedRing K] in
theorem dpnBox_length (xl xu x step : List K) : (dpnBox xl xu x step).1.length = step.length := by
  unfold dpnBox
  dsimp only
  split
  · rw [List.length_set]
  · rfl

theorem dpnBox_eq (xl xu x step : List K) :
    (dpnBox xl xu x step).2 = (nanmin (dpnRatios xl xu x (dpnBox xl xu x step).1)).capOne := by
  unfold dpnBox
  dsimp only
  split
  · rfl
  · rfl

/-! ### `HVN` -/

theorem zip_flatten {α β : Type*} {A : List (List α)} {B : List (List β)}
    (h : A.map List.length = B.map List.length) : A.flatten.zip B.flatten = (List.zipWith List.zip A B).flatten := by
  induction A generalizing B with
  | nil =>
    cases B with
    | nil => rfl
    | cons => simp at h
  | cons a A ih =>
    cases B with
    | nil => simp at h
    | cons b B =>
      simp only [List.map_cons, List.cons.injEq] at h
      rw [List.flatten_cons, List.flatten_cons, List.zip_append h.1, List.zipWith_cons_cons, List.flatten_cons,
        ih h.2]

/-- Corresponding entries of two matrices of the same shape. -/
theorem mem_zip_flatten {α β : Type*} {A : List (List α)} {B : List (List β)}
    (h : A.map List.length = B.map List.length) {i d : ℕ} (hi : i < A.length) (hi' : i < B.length)
    (hd : d < A[i].length) (hd' : d < B[i].length) : (A[i][d], B[i][d]) ∈ A.flatten.zip B.flatten := by
  rw [zip_flatten h, List.mem_flatten]
  refine ⟨A[i].zip B[i], ?_, ?_⟩
  · rw [List.mem_iff_getElem]
    exact ⟨i, by rw [List.length_zipWith]; omega, by rw [List.getElem_zipWith]⟩
  · rw [List.mem_iff_getElem]
    exact ⟨d, by rw [List.length_zip]; omega, by rw [List.getElem_zip]⟩

/-- All ratios that matter for the step limit. -/
def hvnRatios (xl xu : List K) (X step : List (List K)) : List K :=
  ((((X.map fun x => List.zipWith (fun a l => |a - l|) x xl).flatten ++
    (X.map fun x => List.zipWith (fun u a => |u - a|) xu x).flatten).zip (outward step.flatten)).filter
      fun dv => decide (dv.2 < 0)).map fun dv => dv.1 / |dv.2|

omit [IsStrictOrderedRing K] in
theorem hvnMaxStep_eq (xl xu : List K) (X step : List (List K)) :
    hvnMaxStep true xl xu X step = (hvnRatios xl xu X step).min?.map fun m => min 1 (1 / 4 * m) := rfl

/-- All rows of the matrix have `n` entries. -/
def Rect {α : Type*} (n : ℕ) (X : List (List α)) : Prop := ∀ x ∈ X, x.length = n

omit [Field K] [LinearOrder K] [IsStrictOrderedRing K] in
theorem rect_map {n : ℕ} {X : List (List K)} (h : Rect n X) : X.map List.length = List.replicate X.length n := by
  rw [List.eq_replicate_iff]
  refine ⟨by simp, fun b hb => ?_⟩
  obtain ⟨x, hx, rfl⟩ := List.mem_map.mp hb
  exact h x hx

omit [Field K] [LinearOrder K] [IsStrictOrderedRing K] in
theorem rect_flatten {n : ℕ} {X : List (List K)} (h : Rect n X) : X.flatten.length = X.length * n := by
  rw [List.length_flatten, rect_map h]
  simp

section

variable {xl xu : List K} {X step : List (List K)}

omit [IsStrictOrderedRing K] in
theorem rect_lower (hX : Rect xl.length X) :
    Rect xl.length (X.map fun x => List.zipWith (fun a l => |a - l|) x xl) := by
  intro y hy
  obtain ⟨x, hx, rfl⟩ := List.mem_map.mp hy
  rw [List.length_zipWith, hX x hx, min_self]

omit [IsStrictOrderedRing K] in
theorem rect_upper (hX : Rect xl.length X) (hu : xu.length = xl.length) :
    Rect xl.length (X.map fun x => List.zipWith (fun u a => |u - a|) xu x) := by
  intro y hy
  obtain ⟨x, hx, rfl⟩ := List.mem_map.mp hy
  rw [List.length_zipWith, hX x hx, hu, min_self]

omit [IsStrictOrderedRing K] in
theorem hvn_zip (hX : Rect xl.length X) (hu : xu.length = xl.length) (hS : Rect xl.length step)
    (hN : step.length = X.length) :
    ((X.map fun x => List.zipWith (fun a l => |a - l|) x xl).flatten ++
      (X.map fun x => List.zipWith (fun u a => |u - a|) xu x).flatten).zip (outward step.flatten) =
    ((X.map fun x => List.zipWith (fun a l => |a - l|) x xl).flatten.zip step.flatten) ++
      ((X.map fun x => List.zipWith (fun u a => |u - a|) xu x).flatten.zip
        (step.map fun r => r.map fun a => -a).flatten) := by
  unfold outward
  rw [List.zip_append]
  · rw [List.map_flatten]
  · rw [rect_flatten (rect_lower hX), rect_flatten hS, List.length_map, hN]

omit [Field K] [LinearOrder K] [IsStrictOrderedRing K] in
theorem same_shape {n : ℕ} {A B : List (List K)} (hA : Rect n A) (hB : Rect n B) (h : A.length = B.length) :
    A.map List.length = B.map List.length := by
  rw [rect_map hA, rect_map hB, h]

/-- The entry `(i, d)` of a matrix. -/
def entry (X : List (List K)) (i d : ℕ) : K := (X.getD i []).getD d 0

theorem hvnRatios_lower (hX : Rect xl.length X) (hu : xu.length = xl.length) (hS : Rect xl.length step)
    (hN : step.length = X.length) {i d : ℕ} (hi : i < X.length) (hd : d < xl.length)
    (hs : entry step i d < 0) :
    |entry X i d - xl.getD d 0| / |entry step i d| ∈ hvnRatios xl xu X step := by
  unfold hvnRatios
  rw [hvn_zip hX hu hS hN]
  have hxl := hX X[i] (List.getElem_mem hi)
  have hsl := hS step[i] (List.getElem_mem (by omega))
  have e : entry step i d = step[i][d] := by
    unfold entry
    rw [List.getD_eq_getElem _ _ (by omega : i < step.length), List.getD_eq_getElem _ _ (by omega)]
  have e' : entry X i d = X[i][d] := by
    unfold entry
    rw [List.getD_eq_getElem _ _ hi, List.getD_eq_getElem _ _ (by omega)]
  refine List.mem_map.mpr ⟨(|entry X i d - xl.getD d 0|, entry step i d), ?_, rfl⟩
  rw [List.mem_filter]
  refine ⟨List.mem_append_left _ ?_, decide_eq_true hs⟩
  have hm := mem_zip_flatten (same_shape (rect_lower hX) hS (by rw [List.length_map, hN]))
    (i := i) (d := d) (by rw [List.length_map]; exact hi) (by omega) (by
      rw [List.getElem_map, List.length_zipWith]; omega) (by omega)
  simp only [List.getElem_map, List.getElem_zipWith] at hm
  rw [e, e', List.getD_eq_getElem _ _ hd]
  exact hm

theorem hvnRatios_upper (hX : Rect xl.length X) (hu : xu.length = xl.length) (hS : Rect xl.length step)
    (hN : step.length = X.length) {i d : ℕ} (hi : i < X.length) (hd : d < xl.length)
    (hs : 0 < entry step i d) :
    |xu.getD d 0 - entry X i d| / |entry step i d| ∈ hvnRatios xl xu X step := by
  unfold hvnRatios
  rw [hvn_zip hX hu hS hN]
  have hxl := hX X[i] (List.getElem_mem hi)
  have hsl := hS step[i] (List.getElem_mem (by omega))
  have e : entry step i d = step[i][d] := by
    unfold entry
    rw [List.getD_eq_getElem _ _ (by omega : i < step.length), List.getD_eq_getElem _ _ (by omega)]
  have e' : entry X i d = X[i][d] := by
    unfold entry
    rw [List.getD_eq_getElem _ _ hi, List.getD_eq_getElem _ _ (by omega)]
  refine List.mem_map.mpr ⟨(|xu.getD d 0 - entry X i d|, -entry step i d), ?_, by simp only [abs_neg]⟩
  rw [List.mem_filter]
  refine ⟨List.mem_append_right _ ?_, decide_eq_true (by simpa using hs)⟩
  have hR : Rect xl.length (step.map fun r => r.map fun a => -a) := by
    intro y hy
    obtain ⟨x, hx, rfl⟩ := List.mem_map.mp hy
    rw [List.length_map, hS x hx]
  have hm := mem_zip_flatten (same_shape (rect_upper hX hu) hR (by rw [List.length_map, List.length_map, hN]))
    (i := i) (d := d) (by rw [List.length_map]; exact hi) (by rw [List.length_map]; omega) (by
      rw [List.getElem_map, List.length_zipWith]; omega) (by rw [List.getElem_map, List.length_map]; omega)
  simp only [List.getElem_map, List.getElem_zipWith] at hm
  rw [e, e', List.getD_eq_getElem _ _ (by omega : d < xu.length)]
  exact hm

omit [IsStrictOrderedRing K] in
theorem zip_mem_nonneg [IsStrictOrderedRing K] {c : K} (h : c ∈ hvnRatios xl xu X step) : 0 ≤ c := by
  unfold hvnRatios at h
  obtain ⟨⟨d, v⟩, hdv, rfl⟩ := List.mem_map.mp h
  have hd := (List.of_mem_zip (List.mem_filter.mp hdv).1).1
  refine div_nonneg ?_ (abs_nonneg _)
  rcases List.mem_append.mp hd with hd | hd
  all_goals
    obtain ⟨r, hr, hd⟩ := List.mem_flatten.mp hd
    obtain ⟨x, _, rfl⟩ := List.mem_map.mp hr
    obtain ⟨k, hk, rfl⟩ := List.mem_iff_getElem.mp hd
    rw [List.getElem_zipWith]
    exact abs_nonneg _

/-- There are no ratios exactly if the step is zero. -/
theorem hvnRatios_eq_nil (hX : Rect xl.length X) (hu : xu.length = xl.length) (hS : Rect xl.length step)
    (hN : step.length = X.length) :
    hvnRatios xl xu X step = [] ↔ ∀ i < X.length, ∀ d < xl.length, entry step i d = 0 := by
  constructor
  · intro h i hi d hd
    rcases lt_trichotomy (entry step i d) 0 with hs | hs | hs
    · have := hvnRatios_lower hX hu hS hN hi hd hs
      rw [h] at this; simp at this
    · exact hs
    · have := hvnRatios_upper hX hu hS hN hi hd hs
      rw [h] at this; simp at this
  · intro h
    unfold hvnRatios
    rw [List.map_eq_nil_iff, List.filter_eq_nil_iff]
    have h0 : ∀ v ∈ step.flatten, v = 0 := by
      intro v hv
      obtain ⟨r, hr, hv⟩ := List.mem_flatten.mp hv
      obtain ⟨i, hi, rfl⟩ := List.mem_iff_getElem.mp hr
      obtain ⟨d, hd, rfl⟩ := List.mem_iff_getElem.mp hv
      have hsl := hS step[i] (List.getElem_mem hi)
      have := h i (by omega) d (by omega)
      unfold entry at this
      rwa [List.getD_eq_getElem _ _ hi, List.getD_eq_getElem _ _ hd] at this
    rintro ⟨d, v⟩ hdv
    have hv := (List.of_mem_zip hdv).2
    have : v = 0 := by
      unfold outward at hv
      rcases List.mem_append.mp hv with hv | hv
      · exact h0 v hv
      · obtain ⟨w, hw, rfl⟩ := List.mem_map.mp hv
        rw [h0 w hw, neg_zero]
    simp [this]

end

/-! ### `Lara` -/

omit [Field K] [IsStrictOrderedRing K] in
theorem foldl_fmin_nan (l : List (Ext K)) (a : Ext K) (h : l.foldl fmin a = nan) : a = nan ∧ ∀ e ∈ l, e = nan := by
  induction l generalizing a with
  | nil => exact ⟨h, by simp⟩
  | cons e l ih =>
    obtain ⟨h1, h2⟩ := ih (fmin a e) h
    have key : a = nan ∧ e = nan := by
      unfold fmin at h1
      rcases a with a | _ | _ <;> rcases e with e | _ | _ <;> simp [isNan, lt] at h1 ⊢
      split at h1 <;> cases h1
    refine ⟨key.1, fun e' he' => ?_⟩
    rcases List.mem_cons.mp he' with rfl | he'
    · exact key.2
    · exact h2 e' he'

/-- The bound of one row is finite, at most one and at most every finite ratio. -/
theorem minimumOne_nanmin (l : List (Ext K)) (hl : ∃ e ∈ l, e ≠ nan) (h0 : ∀ c, fin c ∈ l → 0 ≤ c) :
    ∃ m, (nanmin l).minimumOne = fin m ∧ 0 ≤ m ∧ m ≤ 1 ∧ (∀ c, fin c ∈ l → m ≤ c) ∧ (m = 1 ∨ fin m ∈ l) := by
  unfold nanmin
  rcases h : l.foldl fmin nan with c | _ | _
  · have h1 := (foldl_fmin_le l nan h).2
    have h2 : fin c ∈ l := by
      rcases foldl_fmin_mem l nan with h' | h'
      · rw [h] at h'; cases h'
      · rwa [h] at h'
    exact ⟨min 1 c, rfl, le_min zero_le_one (h0 c h2), min_le_left _ _,
      fun d hd => (min_le_right _ _).trans (h1 _ hd), by
        rcases min_choice 1 c with h | h
        · exact .inl h
        · exact .inr (by rw [h]; exact h2)⟩
  · exact ⟨1, rfl, zero_le_one, le_rfl, fun d hd => absurd rfl ((foldl_fmin_inf l nan (.inl h)).2 _ hd d), .inl rfl⟩
  · obtain ⟨e, he, hne⟩ := hl
    exact absurd ((foldl_fmin_nan l nan h).2 e he) hne

omit [Field K] [IsStrictOrderedRing K] in
theorem pyMin_foldl (ms : List K) (a : K) : ∃ m, (ms.map Ext.fin).foldl (fun a b => if b.lt a then b else a)
    (Ext.fin a) = Ext.fin m ∧ m ≤ a ∧ (∀ c ∈ ms, m ≤ c) ∧ (m = a ∨ m ∈ ms) := by
  induction ms generalizing a with
  | nil => exact ⟨a, rfl, le_rfl, by simp, .inl rfl⟩
  | cons b ms ih =>
    rw [List.map_cons, List.foldl_cons]
    by_cases hba : b < a
    · obtain ⟨m, h1, h2, h3, h4⟩ := ih b
      refine ⟨m, ?_, h2.trans hba.le, ?_, ?_⟩
      · rw [← h1]; simp [lt, hba]
      · intro c hc
        rcases List.mem_cons.mp hc with rfl | hc
        · exact h2
        · exact h3 c hc
      · rcases h4 with rfl | h4
        · exact .inr (List.mem_cons_self ..)
        · exact .inr (List.mem_cons_of_mem _ h4)
    · obtain ⟨m, h1, h2, h3, h4⟩ := ih a
      refine ⟨m, ?_, h2, ?_, ?_⟩
      · rw [← h1]; simp [lt, hba]
      · intro c hc
        rcases List.mem_cons.mp hc with rfl | hc
        · exact h2.trans (not_lt.mp hba)
        · exact h3 c hc
      · rcases h4 with rfl | h4
        · exact .inl rfl
        · exact .inr (List.mem_cons_of_mem _ h4)

theorem laraZero_cases (l u x st : K) :
    laraZero l u x st = 0 ∨ (laraZero l u x st < 0 ∧ 1 / 10 ^ 10 < |x - l|) ∨
      (0 < laraZero l u x st ∧ 1 / 10 ^ 10 < |u - x|) := by
  unfold laraZero
  dsimp only
  by_cases h1 : |x - l| ≤ 1 / 10 ^ 10 ∧ st < 0
  · rw [if_pos h1, if_neg (by simp)]
    exact .inl rfl
  · rw [if_neg h1]
    by_cases h2 : |u - x| ≤ 1 / 10 ^ 10 ∧ 0 < st
    · rw [if_pos h2]
      exact .inl rfl
    · rw [if_neg h2]
      rcases lt_trichotomy st 0 with hs | hs | hs
      · exact .inr (.inl ⟨hs, not_le.mp fun hc => h1 ⟨hc, hs⟩⟩)
      · exact .inl hs
      · exact .inr (.inr ⟨hs, not_le.mp fun hc => h2 ⟨hc, hs⟩⟩)

theorem laraRatio_nonneg {d s c : K} (h : laraRatio d s = fin c) : 0 ≤ c := by
  unfold laraRatio at h
  split at h
  · split at h <;> cases h
  · split at h
    · cases h
    · injection h with h
      rw [← h]
      exact abs_nonneg _

theorem laraRatio_neg {d s : K} (hd : 0 < d) (hs : s < 0) : laraRatio d s = fin (d / |s|) := by
  unfold laraRatio
  have : d / s < 0 := div_neg_of_pos_of_neg hd hs
  rw [if_neg hs.ne, if_neg (not_le.mpr this), abs_div, abs_of_pos hd]

theorem laraRatio_fin {d s c : K} (hd : 0 ≤ d) (h : laraRatio d s = fin c) : s < 0 ∧ c = d / |s| := by
  unfold laraRatio at h
  split at h
  · split at h <;> cases h
  · rename_i hs
    split at h
    · cases h
    · rename_i hn
      injection h with h
      refine ⟨lt_of_le_of_ne (not_lt.mp fun hp => hn (div_nonneg hd hp.le)) hs, ?_⟩
      rw [← h, abs_div, abs_of_nonneg hd]

/-- The bound of one row for the step after the changes at the boundary. -/
theorem laraRow_spec {xl xu x st : List K} (hx : x.length = xl.length) (hu : xu.length = xl.length)
    (hs : st.length = xl.length) (hpos : 0 < xl.length) (hbox : ∀ d < xl.length, xl.getD d 0 < xu.getD d 0)
    (hst : ∀ d < xl.length, st.getD d 0 = 0 ∨ (st.getD d 0 < 0 ∧ 0 < |x.getD d 0 - xl.getD d 0|) ∨
      (0 < st.getD d 0 ∧ 0 < |xu.getD d 0 - x.getD d 0|)) :
    ∃ m, laraRow xl xu x st = fin m ∧ 0 ≤ m ∧ m ≤ 1 ∧ (∀ d < xl.length,
      (st.getD d 0 < 0 → m ≤ |x.getD d 0 - xl.getD d 0| / |st.getD d 0|) ∧
      (0 < st.getD d 0 → m ≤ |xu.getD d 0 - x.getD d 0| / |st.getD d 0|)) ∧
      (m = 1 ∨ ∃ d < xl.length, (st.getD d 0 < 0 ∧ m = |x.getD d 0 - xl.getD d 0| / |st.getD d 0|) ∨
        (0 < st.getD d 0 ∧ m = |xu.getD d 0 - x.getD d 0| / |st.getD d 0|)) := by
  unfold laraRow
  have memL : ∀ d < xl.length, laraRatio |x.getD d 0 - xl.getD d 0| (st.getD d 0) ∈
      List.zipWith (fun d s => laraRatio d s) (List.zipWith (fun a l => |a - l|) x xl) st := by
    intro d hd
    rw [List.mem_iff_getElem]
    refine ⟨d, by simp only [List.length_zipWith]; omega, ?_⟩
    rw [List.getElem_zipWith, List.getElem_zipWith, List.getD_eq_getElem _ _ hd,
      List.getD_eq_getElem _ _ (by omega), List.getD_eq_getElem _ _ (by omega)]
  have memU : ∀ d < xl.length, laraRatio |xu.getD d 0 - x.getD d 0| (-st.getD d 0) ∈
      List.zipWith (fun d s => laraRatio d (-s)) (List.zipWith (fun u a => |u - a|) xu x) st := by
    intro d hd
    rw [List.mem_iff_getElem]
    refine ⟨d, by simp only [List.length_zipWith]; omega, ?_⟩
    rw [List.getElem_zipWith, List.getElem_zipWith, List.getD_eq_getElem _ _ (by omega),
      List.getD_eq_getElem _ _ (by omega), List.getD_eq_getElem _ _ (by omega)]
  have hex : ∃ e ∈ (List.zipWith (fun d s => laraRatio d s) (List.zipWith (fun a l => |a - l|) x xl) st ++
      List.zipWith (fun d s => laraRatio d (-s)) (List.zipWith (fun u a => |u - a|) xu x) st), e ≠ nan := by
    rcases hst 0 hpos with h | h | h
    · by_cases hz : |x.getD 0 0 - xl.getD 0 0| = 0
      · refine ⟨_, List.mem_append_right _ (memU 0 hpos), ?_⟩
        rw [h, neg_zero]
        unfold laraRatio
        rw [if_pos rfl, if_neg]
        · simp
        · rw [abs_eq_zero, sub_eq_zero] at hz ⊢
          rw [hz]
          exact (hbox 0 hpos).ne'
      · refine ⟨_, List.mem_append_left _ (memL 0 hpos), ?_⟩
        rw [h]
        unfold laraRatio
        rw [if_pos rfl, if_neg hz]
        simp
    · refine ⟨_, List.mem_append_left _ (memL 0 hpos), ?_⟩
      rw [laraRatio_neg h.2 h.1]
      simp
    · refine ⟨_, List.mem_append_right _ (memU 0 hpos), ?_⟩
      rw [laraRatio_neg h.2 (neg_neg_of_pos h.1)]
      simp
  have hnn : ∀ c, fin c ∈ (List.zipWith (fun d s => laraRatio d s) (List.zipWith (fun a l => |a - l|) x xl) st ++
      List.zipWith (fun d s => laraRatio d (-s)) (List.zipWith (fun u a => |u - a|) xu x) st) → 0 ≤ c := by
    intro c hc
    rcases List.mem_append.mp hc with hc | hc
    all_goals
      obtain ⟨i, hi, he⟩ := List.mem_iff_getElem.mp hc
      rw [List.getElem_zipWith] at he
      exact laraRatio_nonneg he
  obtain ⟨m, h1, h2, h3, h4, h5⟩ := minimumOne_nanmin _ hex hnn
  · refine ⟨m, h1, h2, h3, fun d hd => ⟨fun hneg => ?_, fun hp => ?_⟩, h5.imp id fun hc => ?_⟩
    · have hd0 : 0 < |x.getD d 0 - xl.getD d 0| := by
        rcases hst d hd with h | h | h
        · exact absurd h hneg.ne
        · exact h.2
        · exact absurd h.1 (not_lt.mpr hneg.le)
      have := List.mem_append_left (List.zipWith (fun d s => laraRatio d (-s))
        (List.zipWith (fun u a => |u - a|) xu x) st) (memL d hd)
      rw [laraRatio_neg hd0 hneg] at this
      exact h4 _ this
    · have hd0 : 0 < |xu.getD d 0 - x.getD d 0| := by
        rcases hst d hd with h | h | h
        · exact absurd h hp.ne'
        · exact absurd h.1 (not_lt.mpr hp.le)
        · exact h.2
      have := List.mem_append_right (List.zipWith (fun d s => laraRatio d s)
        (List.zipWith (fun a l => |a - l|) x xl) st) (memU d hd)
      rw [laraRatio_neg hd0 (neg_neg_of_pos hp), abs_neg] at this
      exact h4 _ this
    · rcases List.mem_append.mp hc with hc | hc
      · obtain ⟨d, hd, he⟩ := List.mem_iff_getElem.mp hc
        simp only [List.length_zipWith] at hd
        rw [List.getElem_zipWith, List.getElem_zipWith] at he
        obtain ⟨e1, e2⟩ := laraRatio_fin (abs_nonneg _) he
        refine ⟨d, by omega, .inl ?_⟩
        rw [List.getD_eq_getElem _ _ (by omega), List.getD_eq_getElem _ _ (by omega), List.getD_eq_getElem _ _ (by omega)]
        exact ⟨e1, e2⟩
      · obtain ⟨d, hd, he⟩ := List.mem_iff_getElem.mp hc
        simp only [List.length_zipWith] at hd
        rw [List.getElem_zipWith, List.getElem_zipWith] at he
        obtain ⟨e1, e2⟩ := laraRatio_fin (abs_nonneg _) he
        refine ⟨d, by omega, .inr ?_⟩
        rw [List.getD_eq_getElem _ _ (by omega), List.getD_eq_getElem _ _ (by omega), List.getD_eq_getElem _ _ (by omega)]
        rw [abs_neg] at e2
        exact ⟨by linarith, e2⟩

omit [IsStrictOrderedRing K] in
theorem laraStep_length {norm : List K → K} {dim : ℕ} {J : List (List K)} (hJ : ∀ v ∈ J, v.length = dim)
    (acc : List K) (hacc : acc.length = dim) :
    (J.foldl (fun acc v => List.zipWith (· + ·) acc (v.map (· / norm v))) acc).length = dim := by
  induction J generalizing acc with
  | nil => exact hacc
  | cons v J ih =>
    rw [List.foldl_cons]
    refine ih (fun w hw => hJ w (by simp [hw])) _ ?_
    rw [List.length_zipWith, List.length_map, hacc, hJ v (by simp), min_self]

omit [IsStrictOrderedRing K] in
theorem laraStep_sum {norm : List K → K} {dim : ℕ} {J : List (List K)} (hJ : ∀ v ∈ J, v.length = dim)
    (acc : List K) (hacc : acc.length = dim) {d : ℕ} (hd : d < dim) :
    (J.foldl (fun acc v => List.zipWith (· + ·) acc (v.map (· / norm v))) acc).getD d 0 =
      acc.getD d 0 + (J.map fun v => v.getD d 0 / norm v).sum := by
  induction J generalizing acc with
  | nil => simp
  | cons v J ih =>
    have hv := hJ v (by simp)
    rw [List.foldl_cons, ih (fun w hw => hJ w (by simp [hw])) _ (by rw [List.length_zipWith, List.length_map, hacc, hv, min_self]),
      List.map_cons, List.sum_cons, ← add_assoc]
    congr 1
    rw [List.getD_eq_getElem _ _ (by rw [List.length_zipWith, List.length_map]; omega), List.getElem_zipWith,
      List.getElem_map, List.getD_eq_getElem acc _ (by omega), List.getD_eq_getElem v _ (by omega)]

omit [IsStrictOrderedRing K] in
/-- Without vanishing gradients there is a step for every point. -/
theorem laraStep_total {norm : List K → K} {dim : ℕ} {J : List (List (List K))}
    (hJ : ∀ G ∈ J, ∀ v ∈ G, v.length = dim) (hn : ∀ G ∈ J, ∀ v ∈ G, norm v ≠ 0) :
    ∃ S, J.mapM (laraStep norm dim) = some S ∧ S.length = J.length ∧ (∀ st ∈ S, st.length = dim) ∧
      ∀ i < J.length, ∀ d < dim, (S.getD i []).getD d 0 = -((J.getD i []).map fun v => v.getD d 0 / norm v).sum := by
  induction J with
  | nil => exact ⟨[], rfl, rfl, by simp, by simp⟩
  | cons G J ih =>
    obtain ⟨S, h1, h2, h3, h4⟩ := ih (fun G' h => hJ G' (by simp [h])) (fun G' h => hn G' (by simp [h]))
    have hG : laraStep norm dim G = some ((G.foldl (fun acc v => List.zipWith (· + ·) acc (v.map (· / norm v)))
        (List.replicate dim 0)).map fun a => -1 * a) := by
      unfold laraStep
      rw [if_neg]
      simp only [List.any_eq_true, decide_eq_true_eq, not_exists, not_and]
      exact fun v hv => hn G (by simp) v hv
    refine ⟨_ :: S, by rw [List.mapM_cons, hG, h1]; rfl, by simp [h2], ?_, ?_⟩
    · intro st hst
      rcases List.mem_cons.mp hst with rfl | hst
      · rw [List.length_map]
        exact laraStep_length (hJ G (by simp)) _ (by simp)
      · exact h3 st hst
    · intro i hi d hd
      rcases i with _ | i
      · have hl := laraStep_length (norm := norm) (hJ G (by simp)) (List.replicate dim 0) (by simp)
        have := laraStep_sum (norm := norm) (hJ G (by simp)) (List.replicate dim 0) (by simp) hd
        rw [List.getD_cons_zero, List.getD_eq_getElem _ _ (by rw [List.length_map, hl]; exact hd), List.getElem_map,
          ← List.getD_eq_getElem _ 0 (by rw [hl]; exact hd), this]
        simp [List.getElem?_replicate, hd]
      · rw [List.getD_cons_succ, List.getD_cons_succ]
        exact h4 i (by simpa using hi) d hd

/-- `Lara._handle_box_constraint`. -/
theorem laraBox_spec {xl xu : List K} {X step : List (List K)} (hu : xu.length = xl.length)
    (hpos : 0 < xl.length) (hne : X ≠ []) (hbox : ∀ d < xl.length, xl.getD d 0 < xu.getD d 0)
    (hN : step.length = X.length) (hX : ∀ i (hi : i < X.length), X[i].length = xl.length ∧ InBox xl xu X[i])
    (hS : ∀ st ∈ step, st.length = xl.length) :
    ∃ S' m, laraBox xl xu X step = some (S', fin m) ∧ S'.length = X.length ∧ 0 ≤ m ∧ m ≤ 1 ∧
      (∀ i (hi : i < X.length) (hi' : i < S'.length), S'[i].length = xl.length ∧ ∀ d < xl.length,
        (S'[i].getD d 0 < 0 → m ≤ |X[i].getD d 0 - xl.getD d 0| / |S'[i].getD d 0|) ∧
        (0 < S'[i].getD d 0 → m ≤ |xu.getD d 0 - X[i].getD d 0| / |S'[i].getD d 0|)) ∧
      (∀ i (hi : i < X.length) (hi' : i < S'.length), ∀ d < xl.length, S'[i].getD d 0 =
        laraZero (xl.getD d 0) (xu.getD d 0) (X[i].getD d 0) ((step[i]'(by omega)).getD d 0)) ∧
      (m = 1 ∨ ∃ i, ∃ (hi : i < X.length) (hi' : i < S'.length), ∃ d < xl.length,
        (S'[i].getD d 0 < 0 ∧ m = |X[i].getD d 0 - xl.getD d 0| / |S'[i].getD d 0|) ∨
        (0 < S'[i].getD d 0 ∧ m = |xu.getD d 0 - X[i].getD d 0| / |S'[i].getD d 0|)) := by
  unfold laraBox
  dsimp only
  set S' := List.zipWith (fun x st => List.zipWith (fun (p : K × K × K) s => laraZero p.1 p.2.1 p.2.2 s)
    (xl.zip (xu.zip x)) st) X step with hS'
  have lS' : S'.length = X.length := by rw [hS', List.length_zipWith]; omega
  have rows : ∀ i (hi : i < X.length), ∃ m, laraRow xl xu X[i] (S'[i]'(by omega)) = fin m ∧ 0 ≤ m ∧ m ≤ 1 ∧
      (S'[i]'(by omega)).length = xl.length ∧ (∀ d < xl.length,
      ((S'[i]'(by omega)).getD d 0 < 0 → m ≤ |X[i].getD d 0 - xl.getD d 0| / |(S'[i]'(by omega)).getD d 0|) ∧
      (0 < (S'[i]'(by omega)).getD d 0 → m ≤ |xu.getD d 0 - X[i].getD d 0| / |(S'[i]'(by omega)).getD d 0|)) ∧
      (∀ d < xl.length, (S'[i]'(by omega)).getD d 0 =
        laraZero (xl.getD d 0) (xu.getD d 0) (X[i].getD d 0) ((step[i]'(by omega)).getD d 0)) ∧
      (m = 1 ∨ ∃ d < xl.length,
        ((S'[i]'(by omega)).getD d 0 < 0 ∧ m = |X[i].getD d 0 - xl.getD d 0| / |(S'[i]'(by omega)).getD d 0|) ∨
        (0 < (S'[i]'(by omega)).getD d 0 ∧ m = |xu.getD d 0 - X[i].getD d 0| / |(S'[i]'(by omega)).getD d 0|)) := by
    intro i hi
    have e : S'[i]'(by omega) = List.zipWith (fun (p : K × K × K) s => laraZero p.1 p.2.1 p.2.2 s)
        (xl.zip (xu.zip X[i])) (step[i]'(by omega)) := by
      simp only [hS', List.getElem_zipWith]
    have hst := hS _ (List.getElem_mem (by omega : i < step.length))
    have hl : (S'[i]'(by omega)).length = xl.length := by
      rw [e, List.length_zipWith, List.length_zip, List.length_zip, hu, (hX i hi).1, hst]
      simp
    have e2 : ∀ d < xl.length, (S'[i]'(by omega)).getD d 0 =
        laraZero (xl.getD d 0) (xu.getD d 0) (X[i].getD d 0) ((step[i]'(by omega)).getD d 0) := by
      intro d hd
      have hxi := (hX i hi).1
      rw [List.getD_eq_getElem _ _ (by omega)]
      simp only [e, List.getElem_zipWith, List.getElem_zip]
      rw [List.getD_eq_getElem _ _ hd, List.getD_eq_getElem _ _ (by omega),
        List.getD_eq_getElem _ _ (by omega), List.getD_eq_getElem _ _ (by omega)]
    obtain ⟨m, h1, h2, h3, h4, h5⟩ := laraRow_spec (xl := xl) (xu := xu) (x := X[i]) (st := S'[i]'(by omega))
      (hX i hi).1 hu hl hpos hbox (by
        intro d hd
        rw [e2 d hd]
        have hp : (0 : K) < 1 / 10 ^ 10 := by positivity
        rcases laraZero_cases (xl.getD d 0) (xu.getD d 0) (X[i].getD d 0) ((step[i]'(by omega)).getD d 0) with h | h | h
        · exact .inl h
        · exact .inr (.inl ⟨h.1, hp.trans h.2⟩)
        · exact .inr (.inr ⟨h.1, hp.trans h.2⟩))
    exact ⟨m, h1, h2, h3, hl, h4, e2, h5⟩
  choose! mf hmf using rows
  have hlist : List.zipWith (fun x st => laraRow xl xu x st) X S' =
      ((List.range X.length).map mf).map Ext.fin := by
    apply List.ext_getElem
    · simp [lS']
    · intro i h1 h2
      simp only [List.getElem_zipWith, List.getElem_map, List.getElem_range]
      exact (hmf i (by simpa using h2)).1
  rw [hlist]
  have hlen : 0 < X.length := List.length_pos_iff.mpr hne
  obtain ⟨n, hn⟩ : ∃ n, X.length = n + 1 := ⟨X.length - 1, by omega⟩
  have hr : List.range X.length = 0 :: (List.range n).map Nat.succ := by rw [hn, List.range_succ_eq_map]
  rw [hr, List.map_cons, List.map_cons, pyMin]
  obtain ⟨m, h1, h2, h3, h4⟩ := pyMin_foldl ((List.map Nat.succ (List.range n)).map mf) (mf 0)
  have hle : ∀ i < X.length, m ≤ mf i := by
    intro i hi
    rcases i with _ | i
    · exact h2
    · refine h3 _ ?_
      simp only [List.map_map, List.mem_map, List.mem_range, Function.comp]
      exact ⟨i, by omega, rfl⟩
  have hmem : ∃ i < X.length, m = mf i := by
    rcases h4 with h | h
    · exact ⟨0, hlen, h⟩
    · simp only [List.map_map, List.mem_map, List.mem_range, Function.comp] at h
      obtain ⟨i, hi, rfl⟩ := h
      exact ⟨i + 1, by omega, rfl⟩
  obtain ⟨i0, hi0, e0⟩ := hmem
  refine ⟨S', m, by rw [h1]; rfl, lS', e0 ▸ (hmf i0 hi0).2.1, e0 ▸ (hmf i0 hi0).2.2.1, ?_,
    fun i hi _ => (hmf i hi).2.2.2.2.2.1, ?_⟩
  rotate_left
  · obtain ⟨-, -, -, -, -, -, h7⟩ := hmf i0 hi0
    rw [← e0] at h7
    exact h7.imp id fun h => ⟨i0, hi0, by omega, h⟩
  intro i hi hi'
  obtain ⟨-, -, -, h5, h6, -⟩ := hmf i hi
  exact ⟨h5, fun d hd => ⟨fun h => (hle i hi).trans ((h6 d hd).1 h), fun h => (hle i hi).trans ((h6 d hd).2 h)⟩⟩

end Verif.Opt
