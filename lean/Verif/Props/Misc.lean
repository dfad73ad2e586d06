import Verif.Prob.MiscLemmas
import Verif.Props.UF
import Mathlib.Algebra.BigOperators.Field

/-!
# C65: the fronts of the problems of misc.py

The full statement for `CONV4_2F` is that of `CONV3` and `CONV4`: all the rows of `get_pareto_front` are Pareto optimal.
It is violated for draws with a single positive entry.
-/

namespace Verif.Props

open Verif.Prob Real

/-- The first `n` variables are in `[lo, hi]`. -/
def Cube (n : ℕ) (lo hi : ℝ) (x : ℕ → ℝ) : Prop := ∀ i < n, lo ≤ x i ∧ x i ≤ hi

/-! ## DENT -/

/-- The values on the antidiagonal of the box. -/
def Antidiagonal : Set (List ℝ) := {z | ∃ t : ℝ, -2 ≤ t ∧ t ≤ 2 ∧ dent (fun i => if i = 0 then t else -t) = some z}

theorem dent_value (x : ℕ → ℝ) : dent x = some [dentArc (x 0 - x 1) + (√(1 + (x 0 + x 1) ^ 2) - 1) / 2,
    dentArc (-(x 0 - x 1)) + (√(1 + (x 0 + x 1) ^ 2) - 1) / 2] := by
  unfold dent dentArc
  rw [neg_sq, Option.some.injEq, List.cons.injEq, List.cons.injEq]
  exact ⟨by ring, by ring, rfl⟩

theorem dent_antidiagonal (t : ℝ) :
    dent (fun i => if i = 0 then t else -t) = some [dentArc (2 * t), dentArc (-(2 * t))] := by
  rw [dent_value]
  norm_num
  constructor <;> congr 1 <;> ring

theorem dent_excess (s : ℝ) : 0 ≤ (√(1 + s ^ 2) - 1) / 2 ∧ (s ≠ 0 → 0 < (√(1 + s ^ 2) - 1) / 2) := by
  constructor
  · have : 1 ≤ √(1 + s ^ 2) := le_sqrt_of_sq_le (by nlinarith [sq_nonneg s])
    linarith
  · intro hs
    have : 1 < √(1 + s ^ 2) := lt_sqrt_of_sq_lt (by have := pow_pos (abs_pos.mpr hs) 2; rw [sq_abs] at this; linarith)
    linarith

/-- C65 for DENT: the Pareto optimal points are those of the antidiagonal, and the code samples it with both ends. -/
theorem C65_dent : IsParetoFront (Cube 2 (-2) 2) dent Antidiagonal ∧
    (∀ x z, Cube 2 (-2) 2 x → dent x = some z → z ∈ Antidiagonal → x 1 = -x 0) ∧
    ∀ N, ∃ R, dentFront N = some R ∧ R.length = N ∧ (∀ z ∈ R, z ∈ Antidiagonal) ∧
      (2 ≤ N → ∃ a ∈ R, ∃ b ∈ R, dent (fun i => if i = 0 then -2 else 2) = some a ∧
        dent (fun i => if i = 0 then 2 else -2) = some b) := by
  have hmem : ∀ z, z ∈ Antidiagonal ↔ ∃ t : ℝ, -2 ≤ t ∧ t ≤ 2 ∧ z = [dentArc (2 * t), dentArc (-(2 * t))] := fun z =>
    exists_congr fun t => and_congr_right fun _ => and_congr_right fun _ => by
      rw [dent_antidiagonal, Option.some.injEq, eq_comm]
  have hdiff : ∀ x, Cube 2 (-2) 2 x → -2 ≤ (x 0 - x 1) / 2 ∧ (x 0 - x 1) / 2 ≤ 2 := fun x hx => by
    have h0 := hx 0 (by norm_num)
    have h1 := hx 1 (by norm_num)
    constructor <;> linarith
  refine ⟨isParetoFront_of ?_ ?_ ?_, ?_, fun N => ?_⟩
  · rintro z ⟨t, h1, h2, h⟩
    refine ⟨_, fun i _ => ?_, h⟩
    split
    · exact ⟨h1, h2⟩
    · constructor <;> linarith
  · intro x hx z hz
    rw [dent_value, Option.some.injEq] at hz
    have he := (dent_excess (x 0 + x 1)).1
    refine ⟨_, (hmem _).mpr ⟨(x 0 - x 1) / 2, (hdiff x hx).1, (hdiff x hx).2, rfl⟩, ?_⟩
    rw [← hz, mul_div_cancel₀ _ two_ne_zero]
    simpa using he
  · intro y hy z hz h
    obtain ⟨s, -, -, rfl⟩ := (hmem y).mp hy
    obtain ⟨t, -, -, rfl⟩ := (hmem z).mp hz
    obtain ⟨h1, h2⟩ : dentArc (2 * s) ≤ dentArc (2 * t) ∧ dentArc (-(2 * s)) ≤ dentArc (-(2 * t)) := by simpa using h
    have h1 := dentArc_strictMono.le_iff_le.mp h1
    have h2 := dentArc_strictMono.le_iff_le.mp h2
    rw [show s = t by linarith]
  · intro x z hx hz hzA
    rw [dent_value, Option.some.injEq] at hz
    obtain ⟨t, -, -, rfl⟩ := (hmem z).mp hzA
    obtain ⟨e1, e2⟩ : dentArc (x 0 - x 1) + (√(1 + (x 0 + x 1) ^ 2) - 1) / 2 = dentArc (2 * t) ∧
      dentArc (-(x 0 - x 1)) + (√(1 + (x 0 + x 1) ^ 2) - 1) / 2 = dentArc (-(2 * t)) := by simpa using hz
    by_contra hne
    have hpos := (dent_excess (x 0 + x 1)).2 fun h => hne (by linarith)
    have h1 : x 0 - x 1 < 2 * t := dentArc_strictMono.lt_iff_lt.mp (by linarith)
    have h2 : -(x 0 - x 1) < -(2 * t) := dentArc_strictMono.lt_iff_lt.mp (by linarith)
    linarith
  · have hrow : ∀ L : List ℝ, (L.map fun (t : ℝ) (i : ℕ) => if i = 0 then t else -t).mapM dent =
        some (L.map fun t => [dentArc (2 * t), dentArc (-(2 * t))]) := fun L => by
      induction L with
      | nil => rfl
      | cons t L ih =>
        rw [List.map_cons, List.mapM_cons, dent_antidiagonal, ih]
        rfl
    refine ⟨_, by unfold dentFront dentSet; exact hrow _, ?_, fun z hz => ?_, fun hN => ?_⟩
    · simp [linspace]
    · obtain ⟨t, ht, rfl⟩ := List.mem_map.mp hz
      unfold linspace at ht
      obtain ⟨i, hi, rfl⟩ := List.mem_map.mp ht
      have hi : i < N := List.mem_range.mp hi
      have h1 : (i : ℝ) ≤ (N : ℝ) - 1 := by
        have : ((i + 1 : ℕ) : ℝ) ≤ N := by exact_mod_cast hi
        push_cast at this
        linarith
      have h0 : (0 : ℝ) ≤ i := by positivity
      refine (hmem _).mpr ⟨_, ?_, ?_, rfl⟩
      · have : 0 ≤ (i : ℝ) * ((2 - -2) / ((N : ℝ) - 1)) := mul_nonneg h0 (div_nonneg (by norm_num) (by linarith))
        linarith
      · rcases eq_or_lt_of_le (h0.trans h1) with h | h
        · rw [← h]
          norm_num
        · have : (i : ℝ) * ((2 - -2) / ((N : ℝ) - 1)) ≤ 4 := by
            rw [← mul_div_assoc, div_le_iff₀ h]
            nlinarith
          linarith
    · have hN' : (2 : ℝ) ≤ N := by exact_mod_cast hN
      have e1 : (fun i : ℕ => if i = 0 then (-2 : ℝ) else 2) = fun i : ℕ => if i = 0 then (-2 : ℝ) else -(-2) := by
        rw [neg_neg]
      refine ⟨_, List.mem_map.mpr ⟨-2, List.mem_map.mpr ⟨0, List.mem_range.mpr (by omega), by simp⟩, rfl⟩,
        _, List.mem_map.mpr ⟨2, List.mem_map.mpr ⟨N - 1, List.mem_range.mpr (by omega), ?_⟩, rfl⟩, ?_, ?_⟩
      · rw [Nat.cast_sub (by omega), Nat.cast_one, mul_div_cancel₀ _ (by linarith)]
        norm_num
      · rw [e1, dent_antidiagonal]
      · rw [dent_antidiagonal]

/-! ## CONV3, CONV4, CONV4_2F -/

/-- The squared distances of `x` from the points `a 0`, ..., `a (m - 1)`. -/
noncomputable def distances (n m : ℕ) (a : ℕ → ℕ → ℝ) (x : ℕ → ℝ) : List ℝ :=
  (List.range m).map fun j => ∑ i ∈ Finset.range n, (x i - a j i) ^ 2

/-- The distances of the convex combinations of the points `a 0`, ..., `a (m - 1)` from them. -/
def HullFront (n m : ℕ) (a : ℕ → ℕ → ℝ) : Set (List ℝ) :=
  {z | ∃ w, Weights m w ∧ z = distances n m a (combine m a w)}

theorem distances_le {n m : ℕ} {a : ℕ → ℕ → ℝ} {x y : ℕ → ℝ} :
    List.Forall₂ (· ≤ ·) (distances n m a x) (distances n m a y) ↔ ∀ j < m, dist2 n x (a j) ≤ dist2 n y (a j) := by
  unfold distances
  rw [List.forall₂_map_left_iff, List.forall₂_map_right_iff, List.forall₂_same]
  simp only [List.mem_range]
  rfl

theorem distances_congr {n m : ℕ} {a : ℕ → ℕ → ℝ} {x y : ℕ → ℝ} (h : ∀ i < n, x i = y i) :
    distances n m a x = distances n m a y := List.map_congr_left fun j _ => dist2_congr h (a j)

/-- The minimisers of the distances from given points in a cube that contains them. -/
theorem hull_front {n m : ℕ} (hm : 0 < m) {a : ℕ → ℕ → ℝ} {lo hi : ℝ} (ha : ∀ j < m, ∀ i < n, lo ≤ a j i ∧ a j i ≤ hi) :
    IsParetoFront (Cube n lo hi) (fun x => some (distances n m a x)) (HullFront n m a) := by
  refine isParetoFront_of ?_ ?_ ?_
  · rintro z ⟨w, hw, rfl⟩
    exact ⟨_, fun i hi' => combine_bounds hw fun j hj => ha j hj i hi', rfl⟩
  · rintro x - z hz
    obtain rfl := Option.some.inj hz
    obtain ⟨w, hw, h⟩ := exists_nearest (n := n) hm a x
    exact ⟨_, ⟨w, hw, rfl⟩, distances_le.mpr fun j hj => by linarith [h j hj, dist2_nonneg n x (combine m a w)]⟩
  · rintro y ⟨v, hv, rfl⟩ z ⟨w, hw, rfl⟩ h
    exact distances_congr (combine_unique hw (distances_le.mp h))

/-- A row of a random matrix with `m` columns: numbers in `[0, 1)`. -/
def IsRandRow (m : ℕ) (r : List ℝ) : Prop := r.length = m ∧ ∀ v ∈ r, 0 ≤ v ∧ v < 1

theorem sum_getD (w : List ℝ) : ∑ j ∈ Finset.range w.length, w.getD j 0 = w.sum := by
  induction w with
  | nil => rfl
  | cons a w ih =>
    rw [List.length_cons, Finset.sum_range_succ', List.sum_cons, ← ih, List.getD_cons_zero, add_comm]
    rfl

theorem normalised_weights {m : ℕ} {r w : List ℝ} (hr : IsRandRow m r) (h : normalised r = some w) :
    w.length = m ∧ Weights m fun j => w.getD j 0 := by
  unfold normalised at h
  by_cases h0 : r.sum = 0
  · rw [if_pos h0] at h
    exact absurd h (by simp)
  rw [if_neg h0] at h
  obtain rfl := Option.some.inj h
  have hsum : 0 ≤ r.sum := List.sum_nonneg fun v hv => (hr.2 v hv).1
  have hl : (r.map (· / r.sum)).length = m := by rw [List.length_map, hr.1]
  refine ⟨hl, fun j hj => ?_, ?_⟩
  · dsimp only
    rw [List.getD_eq_getElem (r.map (· / r.sum)) 0 (by rw [hl]; exact hj), List.getElem_map]
    exact div_nonneg (hr.2 _ (List.getElem_mem _)).1 hsum
  · have := sum_getD (r.map (· / r.sum))
    rw [hl] at this
    rw [this, show r.map (· / r.sum) = r.map (fun v => v * (r.sum)⁻¹) from List.map_congr_left fun v _ => div_eq_mul_inv _ _,
      List.sum_map_mul_right, List.map_id', mul_inv_cancel₀ h0]

theorem rowTimes_combine {m : ℕ} {w : List ℝ} (hw : w.length = m) (A : ℕ → ℕ → ℝ) :
    rowTimes A w = combine m A fun j => w.getD j 0 := by
  funext i
  unfold rowTimes combine
  rw [hw]

/-- The row of which the normalisation is given. -/
noncomputable def halfRow (m : ℕ) (w : ℕ → ℝ) : List ℝ := (List.range m).map fun j => w j / 2

theorem halfRow_spec {m : ℕ} {w : ℕ → ℝ} (hw : Weights m w) : IsRandRow m (halfRow m w) ∧
    ∃ v, normalised (halfRow m w) = some v ∧ v.length = m ∧ ∀ j < m, v.getD j 0 = w j := by
  have hsum : (halfRow m w).sum = 1 / 2 := by
    have := sum_getD (halfRow m w)
    rw [← this]
    have hl : (halfRow m w).length = m := by simp [halfRow]
    rw [hl]
    have : ∀ j ∈ Finset.range m, (halfRow m w).getD j 0 = w j / 2 := fun j hj => by
      have hj := Finset.mem_range.mp hj
      rw [List.getD_eq_getElem _ 0 (by rw [hl]; exact hj)]
      simp [halfRow]
    rw [Finset.sum_congr rfl this, ← Finset.sum_div, hw.2]
  refine ⟨⟨by simp [halfRow], fun v hv => ?_⟩, ?_⟩
  · obtain ⟨j, hj, rfl⟩ := List.mem_map.mp hv
    have hj := List.mem_range.mp hj
    have h0 := hw.1 j hj
    have h1 : w j ≤ 1 := by
      rw [← hw.2]
      exact Finset.single_le_sum (f := w) (fun i hi => hw.1 i (Finset.mem_range.mp hi)) (Finset.mem_range.mpr hj)
    constructor <;> linarith
  · refine ⟨(halfRow m w).map (· / (1 / 2)), ?_, by simp [halfRow], fun j hj => ?_⟩
    · unfold normalised
      rw [hsum, if_neg (by norm_num)]
    · rw [List.getD_eq_getElem _ 0 (by simpa [halfRow] using hj)]
      simp [halfRow]

theorem mapM_rows {f : List ℝ → Option (List ℝ)} {W R : List (List ℝ)} (h : W.mapM f = some R) :
    R.length = W.length ∧ ∀ z ∈ R, ∃ w ∈ W, f w = some z := by
  induction W generalizing R with
  | nil =>
    rw [List.mapM_nil] at h
    obtain rfl := Option.some.inj h
    simp
  | cons w W ih =>
    rw [List.mapM_cons] at h
    obtain ⟨v, hv, h⟩ := Option.bind_eq_some_iff.mp h
    obtain ⟨V, hV, h⟩ := Option.bind_eq_some_iff.mp h
    obtain rfl := Option.some.inj h
    obtain ⟨h1, h2⟩ := ih hV
    refine ⟨by simp [h1], fun z hz => ?_⟩
    rcases List.mem_cons.mp hz with rfl | hz
    · exact ⟨w, List.mem_cons_self, hv⟩
    · obtain ⟨u, hu, e⟩ := h2 z hz
      exact ⟨u, List.mem_cons_of_mem _ hu, e⟩

/-- The random rows lead to points of `F` only, one for each row, and to all of them. -/
def DrawsFrom (m : ℕ) (front : List (List ℝ) → Option (List (List ℝ))) (F : Set (List ℝ)) : Prop :=
  (∀ W R, (∀ r ∈ W, IsRandRow m r) → front W = some R → R.length = W.length ∧ ∀ z ∈ R, z ∈ F) ∧
    ∀ z ∈ F, ∃ r, IsRandRow m r ∧ front [r] = some [z]

theorem draws_hull {n m : ℕ} {a : ℕ → ℕ → ℝ} {obj : (ℕ → ℝ) → Option (List ℝ)} {front : List (List ℝ) → Option (List (List ℝ))}
    (hobj : ∀ x, obj x = some (distances n m a x))
    (hfront : ∀ W, front W = W.mapM fun w => (normalised w).bind fun w => obj (rowTimes a w)) :
    DrawsFrom m front (HullFront n m a) := by
  constructor
  · intro W R hW h
    rw [hfront] at h
    obtain ⟨h1, h2⟩ := mapM_rows h
    refine ⟨h1, fun z hz => ?_⟩
    obtain ⟨r, hr, e⟩ := h2 z hz
    obtain ⟨w, hw, e⟩ := Option.bind_eq_some_iff.mp e
    obtain ⟨k1, k2⟩ := normalised_weights (hW r hr) hw
    rw [hobj, rowTimes_combine k1, Option.some.injEq] at e
    exact ⟨_, k2, e.symm⟩
  · rintro z ⟨w, hw, rfl⟩
    obtain ⟨h1, v, h2, h3, h4⟩ := halfRow_spec hw
    refine ⟨_, h1, ?_⟩
    rw [hfront, List.mapM_cons, h2, Option.bind_some, hobj, rowTimes_combine h3,
      show combine m a (fun j => v.getD j 0) = combine m a w from
        funext fun i => Finset.sum_congr rfl fun j hj => by dsimp only; rw [h4 j (Finset.mem_range.mp hj)]]
    rfl

/-- The minimisers of the three objectives of CONV3. -/
def corner3 (j i : ℕ) : ℝ := (([[-1, -1, -1], [1, 1, 1], [-1, -1, 1]] : List (List ℝ)).getD j []).getD i 0

theorem hullFront_congr {n m : ℕ} {a b : ℕ → ℕ → ℝ} (h : ∀ j < m, ∀ i < n, a j i = b j i) :
    HullFront n m a = HullFront n m b := by
  have hd : ∀ w, distances n m a (combine m a w) = distances n m b (combine m b w) := by
    intro w
    refine List.map_congr_left fun j hj => Finset.sum_congr rfl fun i hi => ?_
    rw [List.mem_range] at hj
    rw [Finset.mem_range] at hi
    have : combine m a w i = combine m b w i :=
      Finset.sum_congr rfl fun l hl => by rw [h l (Finset.mem_range.mp hl) i hi]
    rw [this, h j hj i hi]
  unfold HullFront
  ext z
  simp only [Set.mem_ofPred_eq, hd]

/-- C65 for CONV3: the Pareto optimal points are the convex combinations of the three minimisers. -/
theorem C65_conv3 : IsParetoFront (Cube 3 (-3) 3) conv3 (HullFront 3 3 corner3) ∧
    DrawsFrom 3 conv3Front (HullFront 3 3 corner3) := by
  have hobj : ∀ x, conv3 x = some (distances 3 3 conv3Centers x) := fun x => rfl
  have hc : HullFront 3 3 corner3 = HullFront 3 3 conv3Centers := by
    refine hullFront_congr fun j hj i hi => ?_
    interval_cases j <;> interval_cases i <;> norm_num [corner3, conv3Centers]
  rw [hc]
  refine ⟨?_, draws_hull hobj fun W => rfl⟩
  have := hull_front (n := 3) (m := 3) (a := conv3Centers) (lo := -3) (hi := 3) (by norm_num) fun j _ i _ => by
    unfold conv3Centers
    split_ifs <;> norm_num
  exact this

/-- The unit vectors of `ℝ⁴`. -/
def unit4 (j i : ℕ) : ℝ := if i = j then 1 else 0

/-- C65 for CONV4: the same with the four unit vectors. -/
theorem C65_conv4 : IsParetoFront (Cube 4 (-10) 10) conv4 (HullFront 4 4 unit4) ∧
    DrawsFrom 4 conv4Front (HullFront 4 4 unit4) := by
  have hobj : ∀ x, conv4 x = some (distances 4 4 unit4 x) := fun x => rfl
  refine ⟨?_, draws_hull hobj fun W => rfl⟩
  have := hull_front (n := 4) (m := 4) (a := unit4) (lo := -10) (hi := 10) (by norm_num) fun j _ i _ => by
    unfold unit4
    split_ifs <;> norm_num
  exact this

/-- The lower part of the front of CONV4_2F: the distances of the weights other than the unit vectors from the unit vectors,
shifted by 7 in two coordinates. -/
def LowerFront : Set (List ℝ) :=
  {z | ∃ w, Weights 4 w ∧ (∀ j < 4, w j < 1) ∧ z = List.zipWith (· + ·) (distances 4 4 unit4 w) [-7, 0, 0, 7]}

/-- The upper part of the front of CONV4_2F. -/
def UpperFront : Set (List ℝ) := {z | ∃ w, Weights 4 w ∧ z = distances 4 4 unit4 w}

theorem combine_eye {w : ℕ → ℝ} {i : ℕ} (hi : i < 4) : combine 4 eye w i = w i := by
  unfold combine eye
  rw [Finset.sum_congr rfl fun j _ => show w j * (if i = j then 1 else 0) = if i = j then w j else 0 by split <;> simp,
    Finset.sum_ite_eq, if_pos (Finset.mem_range.mpr hi)]

theorem distances_four (x : ℕ → ℝ) : distances 4 4 unit4 x =
    [dist2 4 x (unit4 0), dist2 4 x (unit4 1), dist2 4 x (unit4 2), dist2 4 x (unit4 3)] := rfl

theorem conv42f_upper {x : ℕ → ℝ} (h : ¬ ∀ i < 4, x i < 0) : conv42f x = some (distances 4 4 unit4 x) := by
  unfold conv42f
  rw [if_neg h]
  rfl

theorem conv42f_lower {x : ℕ → ℝ} (h : ∀ i < 4, x i < 0) :
    conv42f x = some (List.zipWith (· + ·) (distances 4 4 unit4 fun i => x i + 1) [-7, 0, 0, 7]) := by
  unfold conv42f
  rw [if_pos h, distances_four]
  have : List.range 4 = [0, 1, 2, 3] := rfl
  rw [this]
  simp only [List.map_cons, List.map_nil, List.zipWith_cons_cons, List.zipWith_nil_left]
  norm_num [deltay]
  refine ⟨?_, rfl, rfl, rfl⟩
  exact (sub_eq_add_neg _ _)

theorem dist2_weights {w : ℕ → ℝ} (hw : Weights 4 w) {j : ℕ} (hj : j < 4) : dist2 4 w (unit4 j) ≤ 2 := by
  have h0 := hw.1 0 (by norm_num)
  have h1 := hw.1 1 (by norm_num)
  have h2 := hw.1 2 (by norm_num)
  have h3 := hw.1 3 (by norm_num)
  have hs := hw.2
  simp only [Finset.sum_range_succ, Finset.sum_range_zero, zero_add] at hs
  unfold dist2 unit4
  simp only [Finset.sum_range_succ, Finset.sum_range_zero, zero_add]
  interval_cases j <;> norm_num <;>
    nlinarith [mul_nonneg h0 h1, mul_nonneg h0 h2, mul_nonneg h0 h3, mul_nonneg h1 h2, mul_nonneg h1 h3, mul_nonneg h2 h3]

theorem distances_le' {v w : ℕ → ℝ} :
    List.Forall₂ (· ≤ ·) (List.zipWith (· + ·) (distances 4 4 unit4 v) [-7, 0, 0, 7])
      (List.zipWith (· + ·) (distances 4 4 unit4 w) [-7, 0, 0, 7]) ↔
    List.Forall₂ (· ≤ ·) (distances 4 4 unit4 v) (distances 4 4 unit4 w) := by
  rw [distances_four, distances_four]
  simp

/-- A vector that is not a unit vector is weakly dominated by weights that are no unit vector. -/
theorem lower_covered {z : ℕ → ℝ} (hz : ∀ i < 4, z i < 1) : ∃ w, Weights 4 w ∧ (∀ j < 4, w j < 1) ∧
    ∀ j < 4, dist2 4 w (unit4 j) ≤ dist2 4 z (unit4 j) := by
  obtain ⟨w, hw, h⟩ := exists_nearest (n := 4) (m := 4) (by norm_num) eye z
  have hc : ∀ i < 4, combine 4 eye w i = w i := fun i hi => combine_eye hi
  have h : ∀ k < 4, dist2 4 w (unit4 k) + dist2 4 z w ≤ dist2 4 z (unit4 k) := fun k hk => by
    have := h k hk
    rw [dist2_congr hc] at this
    have e : dist2 4 z (combine 4 eye w) = dist2 4 z w :=
      Finset.sum_congr rfl fun i hi => by rw [hc i (Finset.mem_range.mp hi)]
    rw [e] at this
    exact this
  by_cases hlt : ∀ j < 4, w j < 1
  · exact ⟨w, hw, hlt, fun j hj => by linarith [h j hj, dist2_nonneg 4 z w]⟩
  · push Not at hlt
    obtain ⟨k, hk, hwk⟩ := hlt
    have hs := hw.2
    simp only [Finset.sum_range_succ, Finset.sum_range_zero, zero_add] at hs
    have h0 := hw.1 0 (by norm_num)
    have h1 := hw.1 1 (by norm_num)
    have h2 := hw.1 2 (by norm_num)
    have h3 := hw.1 3 (by norm_num)
    have hw1 : ∀ j < 4, w j = unit4 k j := fun j hj => by
      unfold unit4
      interval_cases k <;> interval_cases j <;> norm_num <;> linarith
    have hpos : 0 < dist2 4 z w := by
      refine lt_of_le_of_ne (dist2_nonneg 4 z w) fun he => ?_
      have := dist2_eq_zero he.symm.le k hk
      linarith [hz k hk]
    set δ := dist2 4 z w with hδ
    set t := min (1 / 2) (δ / 2) with ht
    have t0 : 0 < t := lt_min (by norm_num) (by linarith)
    have t1 : t ≤ 1 / 2 := min_le_left _ _
    have t2 : t ≤ δ / 2 := min_le_right _ _
    have hl : (if k = 0 then 1 else 0) < 4 := by split <;> norm_num
    have hv := weights_move hw hl t0.le (by linarith)
    set v : ℕ → ℝ := fun j => (1 - t) * w j + t * if j = (if k = 0 then 1 else 0) then 1 else 0 with hvd
    have hv' : ∀ j < 4, v j = (1 - t) * unit4 k j + t * if j = (if k = 0 then 1 else 0) then 1 else 0 := fun j hj => by
      rw [hvd]
      dsimp only
      rw [hw1 j hj]
    refine ⟨v, hv, fun j hj => ?_, fun j hj => ?_⟩
    · rw [hv' j hj]
      unfold unit4
      interval_cases k <;> interval_cases j <;> norm_num <;> linarith
    · refine le_trans ?_ (h j hj)
      rw [dist2_congr hw1, dist2_congr hv']
      clear_value t v
      unfold dist2 unit4
      simp only [Finset.sum_range_succ, Finset.sum_range_zero, zero_add]
      interval_cases k <;> interval_cases j <;> norm_num <;> nlinarith

/-- C65 for CONV4_2F: the Pareto front has two parts. The rows of the front of the code are points of it if each draw of
the second matrix has no entry that is the sum of its row. -/
theorem C65_conv42f_partial : IsParetoFront (Cube 4 (-10) 10) conv42f (UpperFront ∪ LowerFront) ∧
    ∀ W1 W2 R, (∀ r ∈ W1, IsRandRow 4 r) → (∀ r ∈ W2, IsRandRow 4 r) → (∀ r ∈ W2, ∀ v ∈ r, v < r.sum) →
      conv42fFront W1 W2 = some R → R.length = W1.length + W2.length ∧ ∀ z ∈ R, z ∈ UpperFront ∪ LowerFront := by
  have hnot : ∀ w, Weights 4 w → ∀ x : ℕ → ℝ, (∀ i < 4, x i = w i) → ¬ ∀ i < 4, x i < 0 := fun w hw x hx hc => by
    have := hc 0 (by norm_num)
    rw [hx 0 (by norm_num)] at this
    linarith [hw.1 0 (by norm_num)]
  refine ⟨isParetoFront_of ?_ ?_ ?_, ?_⟩
  · have hle : ∀ w, Weights 4 w → ∀ j < 4, w j ≤ 1 := fun w hw j hj => by
      rw [← hw.2]
      exact Finset.single_le_sum (f := w) (fun i hi => hw.1 i (Finset.mem_range.mp hi)) (Finset.mem_range.mpr hj)
    rintro z (⟨w, hw, rfl⟩ | ⟨w, hw, hlt, rfl⟩)
    · refine ⟨w, fun i hi => ⟨by linarith [hw.1 i hi], by linarith [hle w hw i hi]⟩, ?_⟩
      exact conv42f_upper (hnot w hw w fun _ _ => rfl)
    · refine ⟨fun i => w i - 1, fun i hi => ⟨by linarith [hw.1 i hi], by linarith [hle w hw i hi]⟩, ?_⟩
      rw [conv42f_lower fun i hi => by linarith [hlt i hi]]
      simp only [sub_add_cancel]
  · intro x _ z hz
    by_cases hx : ∀ i < 4, x i < 0
    · rw [conv42f_lower hx, Option.some.injEq] at hz
      obtain ⟨w, hw, hlt, h⟩ := lower_covered (z := fun i => x i + 1) fun i hi => by linarith [hx i hi]
      refine ⟨_, Or.inr ⟨w, hw, hlt, rfl⟩, ?_⟩
      rw [← hz, distances_le', distances_le]
      exact h
    · rw [conv42f_upper hx, Option.some.injEq] at hz
      obtain ⟨w, hw, h⟩ := exists_nearest (n := 4) (m := 4) (by norm_num) eye x
      refine ⟨_, Or.inl ⟨w, hw, rfl⟩, ?_⟩
      rw [← hz, distances_le]
      intro j hj
      have h := h j hj
      rw [dist2_congr fun i hi => combine_eye hi] at h
      have h' : dist2 4 w (unit4 j) + dist2 4 x (combine 4 eye w) ≤ dist2 4 x (unit4 j) := h
      linarith [dist2_nonneg 4 x (combine 4 eye w)]
  · have huniq : ∀ v w, Weights 4 w → List.Forall₂ (· ≤ ·) (distances 4 4 unit4 v) (distances 4 4 unit4 w) →
        distances 4 4 unit4 v = distances 4 4 unit4 w := fun v w hw h => by
      have h := distances_le.mp h
      refine distances_congr fun i hi => ?_
      rw [combine_unique (n := 4) (a := eye) hw (y := v) (fun j hj => ?_) i hi, combine_eye hi]
      rw [dist2_congr (fun i hi => combine_eye hi) (eye j)]
      exact h j hj
    rintro y (⟨v, hv, rfl⟩ | ⟨v, hv, hv1, rfl⟩) z (⟨w, hw, rfl⟩ | ⟨w, hw, hw1, rfl⟩) h
    · exact huniq v w hw h
    · exfalso
      rw [distances_four, distances_four] at h
      simp only [List.zipWith_cons_cons, List.forall₂_cons] at h
      linarith [h.1, dist2_nonneg 4 v (unit4 0), dist2_weights hw (j := 0) (by norm_num)]
    · exfalso
      rw [distances_four, distances_four] at h
      simp only [List.zipWith_cons_cons, List.forall₂_cons] at h
      linarith [h.2.2.2.1, dist2_nonneg 4 v (unit4 3), dist2_weights hw (j := 3) (by norm_num)]
    · rw [huniq v w hw (distances_le'.mp h)]
  · intro W1 W2 R h1 h2 h3 h
    unfold conv42fFront at h
    obtain ⟨R1, e1, h⟩ := Option.bind_eq_some_iff.mp h
    obtain ⟨R2, e2, rfl⟩ := Option.map_eq_some_iff.mp h
    obtain ⟨l1, k1⟩ := mapM_rows e1
    obtain ⟨l2, k2⟩ := mapM_rows e2
    refine ⟨by rw [List.length_append, l1, l2], fun z hz => ?_⟩
    rcases List.mem_append.mp hz with hz | hz
    · obtain ⟨r, hr, e⟩ := k1 z hz
      obtain ⟨w, hw, e⟩ := Option.bind_eq_some_iff.mp e
      obtain ⟨n1, n2⟩ := normalised_weights (h1 r hr) hw
      rw [rowTimes_combine n1, conv42f_upper (hnot _ n2 _ fun i hi => combine_eye hi), Option.some.injEq] at e
      refine Or.inl ⟨_, n2, ?_⟩
      rw [← e]
      exact distances_congr fun i hi => combine_eye hi
    · obtain ⟨r, hr, e⟩ := k2 z hz
      obtain ⟨w, hw, e⟩ := Option.bind_eq_some_iff.mp e
      obtain ⟨n1, n2⟩ := normalised_weights (h2 r hr) hw
      have hlt : ∀ j < 4, w.getD j 0 < 1 := fun j hj => by
        unfold normalised at hw
        by_cases h0 : r.sum = 0
        · rw [if_pos h0] at hw
          exact absurd hw (by simp)
        rw [if_neg h0] at hw
        obtain rfl := Option.some.inj hw
        rw [List.getD_eq_getElem _ 0 (by rw [n1]; exact hj), List.getElem_map]
        have hpos : 0 < r.sum := lt_of_le_of_ne (List.sum_nonneg fun v hv => ((h2 r hr).2 v hv).1) (Ne.symm h0)
        rw [div_lt_one hpos]
        exact h3 r hr _ (List.getElem_mem _)
      have hx : ∀ i < 4, rowTimes (fun j i => eye j i - 1) w i = w.getD i 0 - 1 := fun i hi => by
        rw [rowTimes_combine n1]
        unfold combine
        simp only [mul_sub, mul_one]
        rw [Finset.sum_sub_distrib, n2.2]
        congr 1
        exact combine_eye (w := fun j => w.getD j 0) hi
      rw [conv42f_lower fun i hi => by rw [hx i hi]; linarith [hlt i hi], Option.some.injEq] at e
      refine Or.inr ⟨_, n2, hlt, ?_⟩
      rw [← e, distances_congr fun i hi => by rw [hx i hi, sub_add_cancel]]

/-- C65 is violated by CONV4_2F: a draw of the second matrix with a single positive entry gives a dominated row. -/
theorem C65_violated_conv42f : ∃ W1 W2 R, (∀ r ∈ W1, IsRandRow 4 r) ∧ (∀ r ∈ W2, IsRandRow 4 r) ∧
    conv42fFront W1 W2 = some R ∧ ∃ z ∈ R, ∃ y, Attains (Cube 4 (-10) 10) conv42f y ∧ ParetoLess y z := by
  have hv : ∀ x : ℕ → ℝ, x 0 = 0 → distances 4 4 unit4 x =
      [1 + x 1 ^ 2 + x 2 ^ 2 + x 3 ^ 2, (x 1 - 1) ^ 2 + x 2 ^ 2 + x 3 ^ 2, x 1 ^ 2 + (x 2 - 1) ^ 2 + x 3 ^ 2,
        x 1 ^ 2 + x 2 ^ 2 + (x 3 - 1) ^ 2] := fun x hx => by
    rw [distances_four]
    unfold dist2 unit4
    simp [Finset.sum_range_succ, hx]
  refine ⟨[], [[1 / 2, 0, 0, 0]], [[4, 6, 6, 6]], by simp, ?_, ?_, _, List.mem_singleton_self _, [1, 1, 1, 1], ?_, ?_⟩
  · intro r hr
    obtain rfl := List.mem_singleton.mp hr
    refine ⟨rfl, fun v hv => ?_⟩
    simp only [List.mem_cons, List.not_mem_nil, or_false] at hv
    rcases hv with rfl | rfl | rfl | rfl <;> norm_num
  · have hn : normalised [1 / 2, 0, 0, 0] = some [1, 0, 0, 0] := by
      unfold normalised
      rw [if_neg (by norm_num)]
      norm_num
    have hx : ∀ i < 4, rowTimes (fun j i => eye j i - 1) [1, 0, 0, 0] i = if i = 0 then 0 else -1 := fun i hi => by
      unfold rowTimes eye
      interval_cases i <;> simp [Finset.sum_range_succ]
    unfold conv42fFront
    rw [List.mapM_nil, List.mapM_cons, hn, Option.bind_some,
      conv42f_upper fun hc => by
        have := hc 0 (by norm_num)
        rw [hx 0 (by norm_num)] at this
        simp at this,
      distances_congr hx, hv _ (by simp)]
    norm_num
  · refine ⟨fun _ => 0, fun i _ => by norm_num, ?_⟩
    rw [conv42f_upper fun hc => by simpa using hc 0 (by norm_num), hv _ rfl]
    norm_num
  · exact ⟨by simp only [List.forall₂_cons, List.forall₂_nil_left_iff, and_true]; norm_num, by norm_num⟩

/-- C65, number of rows of CONV4_2F: `N` for at least two, but never less than the second part. -/
theorem C65_conv42f_size (N : ℕ) : (conv42fSizes N).1 + (conv42fSizes N).2 = if N < 2 then N + 1 else N := by
  unfold conv42fSizes
  dsimp only
  split <;> omega

/-! ## DisConnected -/

/-- The feasible decision vectors of DisConnected. -/
def DisFeasible (x : ℕ → ℝ) : Prop :=
  (0 ≤ x 0 ∧ x 0 ≤ 1 ∧ -8 ≤ x 1 ∧ x 1 ≤ 1) ∧ (∀ g ∈ disConnectedG x, g ≤ 0) ∧ disConnectedH x = 0

/-- The two arcs of the front of DisConnected. The second lacks its left end. -/
def TwoArcs : Set (List ℝ) := {z | (∃ t : ℝ, 1 / 10 ≤ t ∧ t ≤ 2 / 5 ∧ z = [t, (5 / 2 * t - 1) ^ 2]) ∨
  ∃ t : ℝ, 3 / 5 < t ∧ t ≤ 4 / 5 ∧ z = [t, -4 - (5 / 2 * t) ^ 2]}

theorem disFeasible_cases {x : ℕ → ℝ} (h : DisFeasible x) :
    (1 / 10 ≤ x 0 ∧ x 0 ≤ 2 / 5 ∧ x 1 = (5 / 2 * x 0 - 1) ^ 2) ∨ (x 0 = 3 / 5 ∧ x 1 = 1 / 4) ∨
      (3 / 5 < x 0 ∧ x 0 ≤ 4 / 5 ∧ x 1 = -4 - (5 / 2 * x 0) ^ 2) := by
  obtain ⟨-, hg, hh⟩ := h
  unfold disConnectedG at hg
  simp only [List.forall_mem_cons] at hg
  obtain ⟨h1, h2, -⟩ := hg
  unfold disConnectedH at hh
  by_cases hx : x 0 ≤ 0.5
  · rw [if_pos hx] at h1 h2
    rw [if_pos (by norm_num at hx ⊢; linarith)] at hh
    left
    norm_num at h1 h2 hh
    exact ⟨by linarith, by linarith, by linarith⟩
  · rw [if_neg hx] at h1 h2
    right
    norm_num at h1 h2
    by_cases hx' : x 0 ≤ 0.6
    · rw [if_pos hx'] at hh
      left
      norm_num at hx'
      have e : x 0 = 3 / 5 := le_antisymm hx' (by linarith)
      rw [e] at hh
      norm_num at hh
      exact ⟨e, by linarith⟩
    · rw [if_neg hx'] at hh
      right
      norm_num at hx' hh
      exact ⟨by linarith, by linarith, by linarith⟩

/-- C65 for DisConnected: the front consists of two arcs, one of which is not closed. The code documents no front for it:
`get_pareto_front` returns `None` (misc.py 196-197). -/
theorem C65_disconnected : IsParetoFront DisFeasible disConnected TwoArcs := by
  have hset : ∀ a b : ℝ, ∃ x : ℕ → ℝ, x 0 = a ∧ x 1 = b := fun a b => ⟨fun i => if i = 0 then a else b, by simp, by simp⟩
  refine isParetoFront_of ?_ ?_ ?_
  · rintro z (⟨t, h1, h2, rfl⟩ | ⟨t, h1, h2, rfl⟩)
    · obtain ⟨x, x0, x1⟩ := hset t ((5 / 2 * t - 1) ^ 2)
      refine ⟨x, ⟨⟨by linarith, by linarith, by rw [x1]; nlinarith, by rw [x1]; nlinarith⟩, ?_, ?_⟩, by
        rw [disConnected, x0, x1]⟩
      · unfold disConnectedG
        rw [x0, if_pos (by norm_num; linarith), if_pos (by norm_num; linarith)]
        simp only [List.forall_mem_cons]
        norm_num
        exact ⟨by linarith, by linarith⟩
      · unfold disConnectedH
        rw [x0, x1, if_pos (by norm_num; linarith)]
        ring
    · obtain ⟨x, x0, x1⟩ := hset t (-4 - (5 / 2 * t) ^ 2)
      refine ⟨x, ⟨⟨by linarith, by linarith, by rw [x1]; nlinarith, by rw [x1]; nlinarith⟩, ?_, ?_⟩, by
        rw [disConnected, x0, x1]⟩
      · unfold disConnectedG
        rw [x0, if_neg (by norm_num; linarith), if_neg (by norm_num; linarith)]
        simp only [List.forall_mem_cons]
        norm_num
        exact ⟨by linarith, by linarith⟩
      · unfold disConnectedH
        rw [x0, x1, if_neg (by norm_num; linarith)]
        ring
  · intro x hx z hz
    obtain rfl := Option.some.inj hz
    rcases disFeasible_cases hx with ⟨h1, h2, e⟩ | ⟨h1, e⟩ | ⟨h1, h2, e⟩
    · exact ⟨_, Or.inl ⟨x 0, h1, h2, rfl⟩, by simp [e]⟩
    · refine ⟨_, Or.inl ⟨2 / 5, by norm_num, le_rfl, rfl⟩, ?_⟩
      rw [h1, e]
      simp only [List.forall₂_cons, List.forall₂_nil_left_iff, and_true]
      norm_num
    · exact ⟨_, Or.inr ⟨x 0, h1, h2, rfl⟩, by simp [e]⟩
  · rintro y (⟨s, s1, s2, rfl⟩ | ⟨s, s1, s2, rfl⟩) z (⟨t, t1, t2, rfl⟩ | ⟨t, t1, t2, rfl⟩) h
    all_goals
      simp only [List.forall₂_cons, List.forall₂_nil_left_iff, and_true] at h
      obtain ⟨h1, h2⟩ := h
    · rw [show s = t by nlinarith]
    · exfalso
      nlinarith [sq_nonneg (5 / 2 * s - 1)]
    · exfalso
      linarith
    · rw [show s = t by nlinarith]

/-! ## ModifiedObjective -/

/-- C65 for ModifiedObjective: the modification keeps the number and the sum of the objectives and preserves dominance, so
that it adds no Pareto optimal points. -/
theorem C65_modified (F : List ℝ) : (modifyRow F).length = F.length ∧ (modifyRow F).sum = F.sum ∧
    ∀ G, ParetoLess F G → ParetoLess (modifyRow F) (modifyRow G) := by
  have hlen : ∀ F, (modifyRow F).length = F.length := fun F => by simp [modifyRow]
  have hsum : ∀ F, (modifyRow F).sum = F.sum := fun F => by
    unfold modifyRow
    rcases eq_or_ne F [] with rfl | hne
    · rfl
    have hpos : (F.length : ℝ) ≠ 0 := by
      have := List.length_pos_iff.mpr hne
      positivity
    have : ∀ (L : List ℝ) (c : ℝ), (L.map fun y => (1 - 0.02) * y + c).sum = (1 - 0.02) * L.sum + L.length * c := by
      intro L c
      induction L with
      | nil => simp
      | cons a L ih =>
        rw [List.map_cons, List.sum_cons, ih, List.sum_cons, List.length_cons]
        push_cast
        ring
    rw [this]
    field_simp
    ring
  refine ⟨hlen F, hsum F, fun G h => ?_⟩
  obtain ⟨h1, h2⟩ := forall₂_sum h.1
  have hlt : F.sum < G.sum := lt_of_le_of_ne h1 fun e => h.2 (h2 e)
  refine ⟨?_, fun e => ?_⟩
  · unfold modifyRow
    rw [List.forall₂_map_left_iff, List.forall₂_map_right_iff, h.1.length_eq]
    refine h.1.imp fun a b hab => ?_
    have : 0.02 * F.sum / (G.length : ℝ) ≤ 0.02 * G.sum / (G.length : ℝ) :=
      div_le_div_of_nonneg_right (by linarith) (by positivity)
    norm_num at this ⊢
    linarith
  · have := congrArg List.sum e
    rw [hsum, hsum] at this
    linarith

/-- The modification is not neutral: it removes Pareto optimal points with a bad trade-off, here `(0, 1000)` against
`(1, 0)`. -/
theorem C65_modified_removes : ParetoLess (modifyRow [1, 0]) (modifyRow [0, 1000]) ∧ ¬ ParetoLess [(1 : ℝ), 0] [0, 1000] := by
  constructor
  · unfold modifyRow
    refine ⟨?_, ?_⟩
    · simp only [List.map_cons, List.map_nil, List.forall₂_cons, List.forall₂_nil_left_iff, and_true]
      norm_num
    · norm_num
  · rintro ⟨h, -⟩
    simp only [List.forall₂_cons] at h
    linarith [h.1]

/-! ## Examples -/

/-- Draws that meet the hypotheses, and points of the fronts. -/
example : IsRandRow 4 [1 / 2, 1 / 4, 0, 1 / 4] ∧ (∀ v ∈ [(1 : ℝ) / 2, 1 / 4, 0, 1 / 4], v < [(1 : ℝ) / 2, 1 / 4, 0, 1 / 4].sum) ∧
    [(1 : ℝ) / 4, 9 / 64] ∈ TwoArcs := by
  refine ⟨⟨rfl, ?_⟩, ?_, Or.inl ⟨1 / 4, by norm_num, by norm_num, by norm_num⟩⟩
  · intro v hv
    simp only [List.mem_cons, List.not_mem_nil, or_false] at hv
    rcases hv with rfl | rfl | rfl | rfl <;> norm_num
  · intro v hv
    simp only [List.mem_cons, List.not_mem_nil, or_false] at hv
    rcases hv with rfl | rfl | rfl | rfl <;> norm_num

end Verif.Props
