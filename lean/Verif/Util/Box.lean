import Mathlib.Algebra.Order.Round
import Mathlib.Algebra.Order.Field.Basic
import Mathlib.Tactic.FieldSimp
import Mathlib.Tactic.Linarith
import Mathlib.Tactic.Ring

/-!
# Model of `set_bounds` and `handle_box_constraint` (hvd/utils.py 249-300)

A matrix is the list of its rows. A bound is `none` if it is not finite. `none` as a result is an
exception.
-/

namespace Verif.Util

/-! ### `set_bounds` -/

/-- The argument of `set_bounds`: a string, a number, an iterable, or another object without length. -/
inductive Bound (K : Type*) where
  | str (s : String)
  | num (b : K)
  | seq (l : List K)
  | other

/-- `set_bounds` (lines 249-259). `ev` is Python's `eval` (`none` if it raises); its result is not
converted any further, so that `len` fails for a number. -/
def setBounds {K : Type*} (ev : String → Option (Bound K)) (b : Bound K) (dim : ℕ) : Option (List K) :=
  let l : Option (List K) := match b with
    | .str s => match ev s with
      | some (.seq l) => some l
      | _ => none
    | .num a => some (List.replicate dim a)
    | .seq [a] => some (List.replicate dim a)
    | .seq l => some l
    | .other => none
  match l with
  | some l => if l.length = dim then some l else none
  | none => none

/-! ### `handle_box_constraint` -/

variable {K : Type*} [Field K] [LinearOrder K] [IsStrictOrderedRing K] [FloorRing K]

/-- One entry (lines 290-296): the distance to the lower bound in units of the width is folded into
`[0, 1]`. -/
def reflect (lb ub x : K) : K :=
  let y := (x - lb) / (ub - lb)
  let y' := if ⌊y⌋ % 2 = 0 then |y - ⌊y⌋| else 1 - |y - ⌊y⌋|
  lb + (ub - lb) * y'

/-- Only coordinates with two finite bounds are treated (lines 282-285). -/
def reflect? (lb ub : Option K) (x : K) : K :=
  match lb, ub with
  | some l, some u => reflect l u x
  | _, _ => x

/-- `x.T` for a matrix with `c` columns. -/
def transpose (c : ℕ) (X : List (List K)) : List (List K) :=
  (List.range c).map fun j => X.map fun r => r.getD j 0

/-- Lines 281-296: row `i` is treated with the bounds `i`. The boolean mask has to fit the rows. -/
def reflectRows (X : List (List K)) (lb ub : List (Option K)) : Option (List (List K)) :=
  if X.length = lb.length ∧ X.length = ub.length then
    some (List.zipWith (fun r b => r.map (reflect? b.1 b.2)) X (lb.zip ub))
  else none

/-- `handle_box_constraint` (lines 262-300) for a matrix with `c` columns: it is transposed unless the
number of rows is the number of bounds. -/
def handleBox (c : ℕ) (X : List (List K)) (lb ub : List (Option K)) : Option (List (List K)) :=
  if X.length = lb.length then reflectRows X lb ub
  else (reflectRows (transpose c X) lb ub).map (transpose X.length)

/-- The same for a vector (`np.atleast_2d` makes it one row). -/
def handleBox1 (x : List K) (lb ub : List (Option K)) : Option (List K) :=
  (handleBox x.length [x] lb ub).map List.flatten

/-! ### Lemmas -/

theorem reflect_eq {lb ub x : K} : reflect lb ub x = lb + (ub - lb) *
    (if ⌊(x - lb) / (ub - lb)⌋ % 2 = 0 then Int.fract ((x - lb) / (ub - lb))
      else 1 - Int.fract ((x - lb) / (ub - lb))) := by
  unfold reflect
  simp only
  rw [← Int.fract, abs_of_nonneg (Int.fract_nonneg _)]

theorem reflect_mem {lb ub : K} (h : lb < ub) (x : K) : lb ≤ reflect lb ub x ∧ reflect lb ub x ≤ ub := by
  rw [reflect_eq]
  have h0 := Int.fract_nonneg ((x - lb) / (ub - lb))
  have h1 := (Int.fract_lt_one ((x - lb) / (ub - lb))).le
  have hw : 0 < ub - lb := sub_pos.mpr h
  generalize Int.fract ((x - lb) / (ub - lb)) = f at *
  split_ifs
  · constructor
    · nlinarith
    · nlinarith
  · constructor
    · nlinarith
    · nlinarith

theorem reflect_of_mem {lb ub x : K} (h : lb < ub) (h1 : lb ≤ x) (h2 : x ≤ ub) : reflect lb ub x = x := by
  rw [reflect_eq]
  have hw : 0 < ub - lb := sub_pos.mpr h
  rcases h2.lt_or_eq with h2 | rfl
  · have hf : ⌊(x - lb) / (ub - lb)⌋ = 0 := by
      rw [Int.floor_eq_zero_iff]
      exact ⟨div_nonneg (by linarith) hw.le, by rw [div_lt_one hw]; linarith⟩
    have hfr : Int.fract ((x - lb) / (ub - lb)) = (x - lb) / (ub - lb) := by
      rw [Int.fract, hf]; simp
    rw [hf, hfr, if_pos (by norm_num)]
    field_simp
    ring
  · rw [div_self hw.ne']
    simp

theorem reflect_idem {lb ub : K} (h : lb < ub) (x : K) : reflect lb ub (reflect lb ub x) = reflect lb ub x :=
  reflect_of_mem h (reflect_mem h x).1 (reflect_mem h x).2

/-- Moving by an even number of widths does not change the result. -/
theorem reflect_periodic {lb ub : K} (h : lb < ub) (x : K) (k : ℤ) :
    reflect lb ub (x + 2 * k * (ub - lb)) = reflect lb ub x := by
  have hw : ub - lb ≠ 0 := (sub_pos.mpr h).ne'
  have hy : (x + 2 * k * (ub - lb) - lb) / (ub - lb) = (x - lb) / (ub - lb) + ((2 * k : ℤ) : K) := by
    push_cast
    field_simp
    ring
  rw [reflect_eq, reflect_eq, hy, Int.fract_add_intCast, Int.floor_add_intCast]
  have : (⌊(x - lb) / (ub - lb)⌋ + 2 * k) % 2 = ⌊(x - lb) / (ub - lb)⌋ % 2 := by omega
  rw [this]

/-- The result is the mirror image: symmetric about both bounds. -/
theorem reflect_mirror {lb ub : K} (h : lb < ub) (x : K) : reflect lb ub (2 * lb - x) = reflect lb ub x := by
  have hw : ub - lb ≠ 0 := (sub_pos.mpr h).ne'
  have hy : (2 * lb - x - lb) / (ub - lb) = -((x - lb) / (ub - lb)) := by
    field_simp
    ring
  rw [reflect_eq, reflect_eq, hy]
  generalize (x - lb) / (ub - lb) = y
  by_cases hz : Int.fract y = 0
  · have hy' : y = ⌊y⌋ := by rw [← Int.self_sub_fract]; rw [hz, sub_zero]
    have hneg : Int.fract (-y) = 0 := by rw [Int.fract_neg_eq_zero]; exact hz
    have hfl : ⌊-y⌋ = -⌊y⌋ := by
      conv_lhs => rw [hy']
      rw [← Int.cast_neg, Int.floor_intCast]
    rw [hneg, hz, hfl]
    by_cases h2 : ⌊y⌋ % 2 = 0
    · rw [if_pos h2, if_pos (by omega)]
    · rw [if_neg h2, if_neg (by omega)]
  · have hneg : Int.fract (-y) = 1 - Int.fract y := Int.fract_neg hz
    have hfl : ⌊-y⌋ = -⌊y⌋ - 1 := by
      have h1 := Int.floor_add_fract y
      have h2 := Int.floor_add_fract (-y)
      rw [hneg] at h2
      have : ((⌊-y⌋ : ℤ) : K) = ((-⌊y⌋ - 1 : ℤ) : K) := by
        push_cast
        linarith
      exact_mod_cast this
    rw [hneg, hfl]
    by_cases h2 : ⌊y⌋ % 2 = 0
    · rw [if_pos h2, if_neg (by omega)]
      ring
    · rw [if_neg h2, if_pos (by omega)]

/-! ### Entries -/

/-- Entry `(i, j)` of a matrix. -/
def entry (X : List (List K)) (i j : ℕ) : K := (X.getD i []).getD j 0

/-- The matrix has `N` rows and `c` columns. -/
def Shape (N c : ℕ) (X : List (List K)) : Prop := X.length = N ∧ ∀ r ∈ X, r.length = c

theorem entry_eq {N c : ℕ} {X : List (List K)} (h : Shape N c X) {i j : ℕ} (hi : i < N) (hj : j < c) :
    ∃ (h1 : i < X.length) (h2 : j < X[i].length), entry X i j = X[i][j] := by
  have h1 : i < X.length := by rw [h.1]; exact hi
  have h2 : j < X[i].length := by rw [h.2 _ (List.getElem_mem h1)]; exact hj
  refine ⟨h1, h2, ?_⟩
  unfold entry
  simp [List.getD_eq_getElem?_getD, h1, h2]

theorem shape_transpose {N c : ℕ} {X : List (List K)} (h : Shape N c X) : Shape c N (transpose c X) := by
  refine ⟨by simp [transpose], fun r hr => ?_⟩
  obtain ⟨j, _, rfl⟩ := List.mem_map.mp hr
  simp [h.1]

theorem entry_transpose {N c : ℕ} {X : List (List K)} (h : Shape N c X) {i j : ℕ} (hi : i < N) (hj : j < c) :
    entry (transpose c X) j i = entry X i j := by
  have h1 : i < X.length := by rw [h.1]; exact hi
  unfold entry transpose
  simp [List.getD_eq_getElem?_getD, h1, hj]

theorem reflectRows_spec {N c : ℕ} {X : List (List K)} {lb ub : List (Option K)} (h : Shape N c X)
    (hl : lb.length = N) (hu : ub.length = N) :
    ∃ Z, reflectRows X lb ub = some Z ∧ Shape N c Z ∧
      ∀ i < N, ∀ j < c, entry Z i j = reflect? (lb.getD i none) (ub.getD i none) (entry X i j) := by
  refine ⟨_, by unfold reflectRows; rw [if_pos ⟨by rw [h.1, hl], by rw [h.1, hu]⟩], ⟨?_, ?_⟩, ?_⟩
  · simp [h.1, hl, hu]
  · intro r hr
    obtain ⟨i, hi, rfl⟩ := List.getElem_of_mem hr
    simp only [List.length_zipWith, List.length_zip, lt_min_iff] at hi
    rw [List.getElem_zipWith, List.length_map]
    exact h.2 _ (List.getElem_mem hi.1)
  · intro i hi j hj
    obtain ⟨h1, h2, e⟩ := entry_eq h hi hj
    rw [e]
    unfold entry
    have hli : i < lb.length := by omega
    have hui : i < ub.length := by omega
    simp [List.getD_eq_getElem?_getD, List.getElem?_zipWith, h1, h2, hli, hui, List.getElem?_zip_eq_some,
      List.zip_eq_zipWith]

/-- The result for `N` points in `d` dimensions, unless the layout is ambiguous. -/
theorem handleBox_spec {N d : ℕ} {X : List (List K)} {lb ub : List (Option K)} (h : Shape N d X)
    (hl : lb.length = d) (hu : ub.length = d)
    (hN : N ≠ d ∨ ∀ i < d, ∀ j < d, lb.getD i none = lb.getD j none ∧ ub.getD i none = ub.getD j none) :
    ∃ Z, handleBox d X lb ub = some Z ∧ Shape N d Z ∧
      ∀ i < N, ∀ j < d, entry Z i j = reflect? (lb.getD j none) (ub.getD j none) (entry X i j) := by
  unfold handleBox
  by_cases hNd : N = d
  · subst hNd
    rw [if_pos (by rw [h.1, hl])]
    obtain ⟨Z, h1, h2, h3⟩ := reflectRows_spec h hl hu
    refine ⟨Z, h1, h2, fun i hi j hj => ?_⟩
    rw [h3 i hi j hj]
    rcases hN with hN | hN
    · exact absurd rfl hN
    · rw [(hN i hi j hj).1, (hN i hi j hj).2]
  · rw [if_neg (by rw [h.1, hl]; exact hNd)]
    obtain ⟨Z, h1, h2, h3⟩ := reflectRows_spec (shape_transpose h) hl hu
    refine ⟨transpose N Z, by rw [h1, h.1]; rfl, shape_transpose h2, fun i hi j hj => ?_⟩
    rw [entry_transpose h2 hj hi, h3 j hj i hi, entry_transpose h hi hj]

theorem matrix_ext {N c : ℕ} {X Z : List (List K)} (hX : Shape N c X) (hZ : Shape N c Z)
    (h : ∀ i < N, ∀ j < c, entry X i j = entry Z i j) : X = Z := by
  apply List.ext_getElem (by rw [hX.1, hZ.1])
  intro i h1 h2
  have hi : i < N := by rw [← hX.1]; exact h1
  apply List.ext_getElem (by rw [hX.2 _ (List.getElem_mem h1), hZ.2 _ (List.getElem_mem h2)])
  intro j h3 h4
  have hj : j < c := by rw [← hX.2 _ (List.getElem_mem h1)]; exact h3
  obtain ⟨_, _, e1⟩ := entry_eq hX hi hj
  obtain ⟨_, _, e2⟩ := entry_eq hZ hi hj
  rw [← e1, ← e2, h i hi j hj]

end Verif.Util
