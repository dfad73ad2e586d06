import Verif.Util.Pack
import Verif.Util.Box
import Verif.Util.Precondition
import Verif.Util.LineSearch
import Mathlib.Analysis.Matrix.Order
import Mathlib.Data.Rat.Floor
import Mathlib.Tactic.IntervalCases

/-!
# Packing, box reflection, bounds, preconditioning and line searches (C17-C22)
-/

namespace Verif.Props

open Verif.Util

set_option linter.unusedSectionVars false

/-! ### C17: packing and unpacking -/

section Pack

variable {K : Type*} [Zero K]

/-- Entry of a matrix given by its rows. -/
def at2 (X : List (List K)) (i k : ℕ) : K := (X.getD i []).getD k 0

/-- The flag of dual variable `j` of point `i`. -/
def flag (act : List (List Bool)) (i j : ℕ) : Bool := (act.getD i []).getD j false

/-- A matrix of `N` rows of length `D`. -/
def IsMat {α : Type*} (N D : ℕ) (X : List (List α)) : Prop := X.length = N ∧ ∀ r ∈ X, r.length = D

/-- C17, first part: unpacking the packed matrix gives the matrix back, with zeros for the inactive
dual variables. The same holds for the version of mmd_newton.py, which takes the mask of all variables. -/
theorem C17_unpack_pack {N n p : ℕ} {X : List (List K)} {act : List (List Bool)} (hN : 0 < N)
    (hX : IsMat N (n + p) X) (ha : IsMat N p act) :
    ∃ v Z, pack X n act = some v ∧ unpack v N (n + p) n act = some Z ∧
      unpackFull v N (n + p) n (act.map fun m => List.replicate n true ++ m) = some Z ∧ IsMat N (n + p) Z ∧
      ∀ i < N, ∀ k < n + p, at2 Z i k = if k < n ∨ flag act i (k - n) = true then at2 X i k else 0 := by
  have hne : X ≠ [] := by
    rintro rfl
    have := hX.1
    simp at this
    omega
  obtain ⟨v, h1, h2⟩ := unpack_pack (n := n) (dim := n + p) hne (by rw [hX.1, ha.1]) hX.2
    (fun m hm => by rw [ha.2 m hm])
  rw [hX.1] at h2
  refine ⟨v, _, h1, h2, h2, ⟨by simp [hX.1, ha.1], ?_⟩, ?_⟩
  · intro r hr
    obtain ⟨i, hi, rfl⟩ := List.getElem_of_mem hr
    simp only [List.length_zipWith, lt_min_iff] at hi
    rw [List.getElem_zipWith]
    have e1 := hX.2 _ (List.getElem_mem hi.1)
    have e2 := ha.2 _ (List.getElem_mem hi.2)
    simp only [zeroOut, List.length_append, List.length_take, List.length_zipWith, List.length_drop, e1, e2]
    omega
  · intro i hi k hk
    have hi1 : i < X.length := by rw [hX.1]; exact hi
    have hi2 : i < act.length := by rw [ha.1]; exact hi
    have e1 := hX.2 _ (List.getElem_mem hi1)
    have e2 := ha.2 _ (List.getElem_mem hi2)
    unfold at2 flag
    have hrow : (List.zipWith (fun r m => r.take n ++ zeroOut m (r.drop n)) X act).getD i [] =
        X[i].take n ++ zeroOut act[i] (X[i].drop n) := by
      simp [List.getD_eq_getElem?_getD, List.getElem?_zipWith, hi1, hi2]
    have hr1 : X.getD i [] = X[i] := by simp [List.getD_eq_getElem?_getD, hi1]
    have hr2 : act.getD i [] = act[i] := by simp [List.getD_eq_getElem?_getD, hi2]
    rw [hrow, hr1, hr2]
    generalize X[i] = x at *
    generalize act[i] = m at *
    have hlt : (x.take n).length = n := by simp [e1]
    by_cases hkn : k < n
    · rw [if_pos (Or.inl hkn)]
      simp only [List.getD_eq_getElem?_getD]
      rw [List.getElem?_append_left (by rw [hlt]; exact hkn), List.getElem?_take_of_lt hkn]
    · have hk1 : k - n < m.length := by omega
      have hk2 : k - n < (x.drop n).length := by simp [e1]; omega
      have hk3 : k < x.length := by omega
      simp only [List.getD_eq_getElem?_getD]
      rw [List.getElem?_append_right (by rw [hlt]; omega), hlt]
      have hz : (zeroOut m (x.drop n))[k - n]? = some (if m[k - n] then x[k] else 0) := by
        unfold zeroOut
        rw [List.getElem?_zipWith, List.getElem?_eq_getElem hk1, List.getElem?_eq_getElem hk2]
        simp only [List.getElem_drop]
        simp [Nat.add_sub_cancel' (by omega : n ≤ k)]
      rw [hz, List.getElem?_eq_getElem hk1, List.getElem?_eq_getElem hk3]
      simp [hkn]

/-- C17, second part: packing the unpacked vector gives the vector back. The vector has one entry per
primal variable and per active dual variable. -/
theorem C17_pack_unpack {N n p : ℕ} {v : List K} {act : List (List Bool)} (hN : 0 < N) (ha : IsMat N p act)
    (hv : v.length = N * n + (act.map fun m => m.count true).sum) :
    ∃ Z, unpack v N (n + p) n act = some Z ∧ IsMat N (n + p) Z ∧ pack Z n act = some v := by
  obtain ⟨Z, h1, h2, h3, h4⟩ := pack_unpack (n := n) (dim := n + p) hN ha.1
    (fun m hm => by rw [ha.2 m hm]) hv
  exact ⟨Z, h1, ⟨h2, h3⟩, h4⟩

/-- Two points, two primal and two dual variables, one dual variable of the second point inactive. -/
example : ∃ v Z, pack [[1, 2, 3, 4], [5, 6, 7, 8]] 2 [[true, true], [false, true]] = some v ∧
    unpack v 2 4 2 [[true, true], [false, true]] = some Z ∧ v = [1, 2, 5, 6, 3, 4, 8] ∧
    Z = [[1, 2, 3, 4], [5, 6, 0, (8 : ℤ)]] := ⟨_, _, by decide, by decide, rfl, rfl⟩

example : ∃ v Z, pack [[1, 2, 3, 4], [5, 6, 7, 8]] 2 [[true, true], [false, true]] = some v ∧
    unpack v 2 (2 + 2) 2 [[true, true], [false, true]] = some Z ∧
    unpackFull v 2 (2 + 2) 2 [[true, true, true, true], [true, true, false, true]] = some Z ∧ IsMat 2 (2 + 2) Z ∧
    ∀ i < 2, ∀ k < 2 + 2, at2 Z i k =
      if k < 2 ∨ flag [[true, true], [false, true]] i (k - 2) = true
      then at2 [[1, 2, 3, 4], [5, 6, 7, (8 : ℤ)]] i k else 0 :=
  C17_unpack_pack (by decide) ⟨rfl, by decide⟩ ⟨rfl, by decide⟩

example : ∃ Z, unpack [1, 2, 5, 6, 3, 4, (8 : ℤ)] 2 (2 + 2) 2 [[true, true], [false, true]] = some Z ∧
    IsMat 2 (2 + 2) Z ∧ pack Z 2 [[true, true], [false, true]] = some [1, 2, 5, 6, 3, 4, 8] :=
  C17_pack_unpack (by decide) ⟨rfl, by decide⟩ (by decide)

end Pack

/-! ### C18: reflection into the box -/

section Box

variable {K : Type*} [Field K] [LinearOrder K] [IsStrictOrderedRing K] [FloorRing K]

/-- The bounds of dimension `j`; the bounds are finite. -/
def boundsOf (lb ub : List K) : List (Option K) × List (Option K) := (lb.map some, ub.map some)

/-- All entries of the matrix are between the bounds of their column. -/
def InBox (lb ub : List K) (Z : List (List K)) : Prop :=
  ∀ r ∈ Z, ∀ j < r.length, lb.getD j 0 ≤ r.getD j 0 ∧ r.getD j 0 ≤ ub.getD j 0

/-- C18 for the given number of points and bounds: the result is in the box, points inside do not
move, the function is idempotent and periodic with twice the width of each interval. -/
def C18Statement (N d : ℕ) (lb ub : List K) : Prop :=
  ∀ X : List (List K), IsMat N d X →
    ∃ Z, handleBox d X (lb.map some) (ub.map some) = some Z ∧ IsMat N d Z ∧ InBox lb ub Z ∧
      (InBox lb ub X → Z = X) ∧
      handleBox d Z (lb.map some) (ub.map some) = some Z ∧
      ∀ X' : List (List K), IsMat N d X' →
        (∀ i < N, ∀ j < d, ∃ k : ℤ, at2 X' i j = at2 X i j + 2 * k * (ub.getD j 0 - lb.getD j 0)) →
        handleBox d X' (lb.map some) (ub.map some) = some Z

theorem at2_eq_entry (X : List (List K)) (i j : ℕ) : at2 X i j = entry X i j := rfl

theorem inBox_iff {N d : ℕ} {lb ub : List K} {Z : List (List K)} (hZ : IsMat N d Z) :
    InBox lb ub Z ↔ ∀ i < N, ∀ j < d, lb.getD j 0 ≤ at2 Z i j ∧ at2 Z i j ≤ ub.getD j 0 := by
  constructor
  · intro h i hi j hj
    have h1 : i < Z.length := by rw [hZ.1]; exact hi
    have hr : Z.getD i [] = Z[i] := by simp [List.getD_eq_getElem?_getD, h1]
    unfold at2
    rw [hr]
    exact h _ (List.getElem_mem h1) j (by rw [hZ.2 _ (List.getElem_mem h1)]; exact hj)
  · intro h r hr j hj
    obtain ⟨i, hi, rfl⟩ := List.getElem_of_mem hr
    have := h i (by rw [← hZ.1]; exact hi) j (by rw [← hZ.2 _ hr]; exact hj)
    have hr : Z.getD i [] = Z[i] := by simp [List.getD_eq_getElem?_getD, hi]
    unfold at2 at this
    rw [hr] at this
    exact this

/-- C18 for all matrices whose layout is not ambiguous: the number of points differs from the number of
dimensions, or the bounds are the same in all dimensions. -/
theorem C18_reflect_partial {N d : ℕ} {lb ub : List K} (hl : lb.length = d) (hu : ub.length = d)
    (hlu : ∀ j < d, lb.getD j 0 < ub.getD j 0)
    (hN : N ≠ d ∨ ∀ i < d, ∀ j < d, lb.getD i 0 = lb.getD j 0 ∧ ub.getD i 0 = ub.getD j 0) :
    C18Statement N d lb ub := by
  have hgl : ∀ j < d, (lb.map some).getD j none = some (lb.getD j 0) := by
    intro j hj
    have : j < lb.length := by omega
    simp [List.getD_eq_getElem?_getD, this]
  have hgu : ∀ j < d, (ub.map some).getD j none = some (ub.getD j 0) := by
    intro j hj
    have : j < ub.length := by omega
    simp [List.getD_eq_getElem?_getD, this]
  have hN' : N ≠ d ∨ ∀ i < d, ∀ j < d, (lb.map some).getD i none = (lb.map some).getD j none ∧
      (ub.map some).getD i none = (ub.map some).getD j none := by
    rcases hN with hN | hN
    · exact Or.inl hN
    · refine Or.inr fun i hi j hj => ?_
      rw [hgl i hi, hgl j hj, hgu i hi, hgu j hj, (hN i hi j hj).1, (hN i hi j hj).2]
      exact ⟨rfl, rfl⟩
  have key : ∀ X : List (List K), IsMat N d X → ∃ Z, handleBox d X (lb.map some) (ub.map some) = some Z ∧
      IsMat N d Z ∧ ∀ i < N, ∀ j < d, at2 Z i j = reflect (lb.getD j 0) (ub.getD j 0) (at2 X i j) := by
    intro X hX
    obtain ⟨Z, h1, h2, h3⟩ := handleBox_spec (X := X) hX (by simpa using hl) (by simpa using hu) hN'
    refine ⟨Z, h1, h2, fun i hi j hj => ?_⟩
    have := h3 i hi j hj
    rw [hgl j hj, hgu j hj] at this
    exact this
  intro X hX
  obtain ⟨Z, h1, h2, h3⟩ := key X hX
  refine ⟨Z, h1, h2, ?_, ?_, ?_, ?_⟩
  · rw [inBox_iff h2]
    intro i hi j hj
    rw [h3 i hi j hj]
    exact reflect_mem (hlu j hj) _
  · intro hb
    rw [inBox_iff hX] at hb
    refine matrix_ext h2 hX fun i hi j hj => ?_
    rw [← at2_eq_entry, ← at2_eq_entry, h3 i hi j hj]
    exact reflect_of_mem (hlu j hj) (hb i hi j hj).1 (hb i hi j hj).2
  · obtain ⟨W, w1, w2, w3⟩ := key Z h2
    rw [w1, matrix_ext w2 h2 fun i hi j hj => ?_]
    rw [← at2_eq_entry, ← at2_eq_entry, w3 i hi j hj, h3 i hi j hj, reflect_idem (hlu j hj)]
  · intro X' hX' hper
    obtain ⟨W, w1, w2, w3⟩ := key X' hX'
    rw [w1, matrix_ext w2 h2 fun i hi j hj => ?_]
    obtain ⟨k, hk⟩ := hper i hi j hj
    rw [← at2_eq_entry, ← at2_eq_entry, w3 i hi j hj, h3 i hi j hj, hk, reflect_periodic (hlu j hj)]

/-- What the reflection does to a coordinate: mirrored at the lower and at the upper bound. -/
theorem C18_mirror {lb ub : K} (h : lb < ub) (x : K) :
    reflect lb ub (2 * lb - x) = reflect lb ub x ∧ reflect lb ub (2 * ub - x) = reflect lb ub x := by
  refine ⟨reflect_mirror h x, ?_⟩
  rw [← reflect_mirror h, ← reflect_periodic h x (-1)]
  congr 1
  push_cast
  ring

/-- With non-finite bounds: a coordinate without two finite bounds is not touched. -/
theorem C18_unbounded {N d : ℕ} {X : List (List K)} {lb ub : List (Option K)} (hX : IsMat N d X)
    (hl : lb.length = d) (hu : ub.length = d) (hN : N ≠ d) :
    ∃ Z, handleBox d X lb ub = some Z ∧ IsMat N d Z ∧
      ∀ i < N, ∀ j < d, lb.getD j none = none ∨ ub.getD j none = none → at2 Z i j = at2 X i j := by
  obtain ⟨Z, h1, h2, h3⟩ := handleBox_spec (X := X) hX hl hu (Or.inl hN)
  refine ⟨Z, h1, h2, fun i hi j hj h => ?_⟩
  rw [at2_eq_entry, h3 i hi j hj, at2_eq_entry]
  unfold reflect?
  rcases h with h | h <;> rw [h]
  rcases lb.getD j none with _ | a <;> rfl

/-- C18 is violated: with two points in two dimensions the bounds are applied to the points instead of
the dimensions. Both points are inside `[0, 1] × [10, 20]`, but they are moved out of the box. -/
theorem C18_witness : handleBox 2 [[1 / 2, 15], [1 / 2, 15]] ([0, 10].map some) ([1, 20].map some) =
      some [[1 / 2, 1], [39 / 2, (15 : ℚ)]] ∧
    InBox [0, 10] [1, 20] [[1 / 2, (15 : ℚ)], [1 / 2, 15]] ∧
    ¬ InBox [0, 10] [1, 20] [[1 / 2, 1], [39 / 2, (15 : ℚ)]] := by
  refine ⟨by decide +kernel, ?_, ?_⟩
  · intro r hr j hj
    simp only [List.mem_cons, List.not_mem_nil, or_false, or_self] at hr
    subst hr
    simp only [List.length_cons, List.length_nil] at hj
    interval_cases j <;> simp <;> norm_num
  · intro h
    have := (h [1 / 2, 1] (by simp) 1 (by simp)).1
    norm_num at this

theorem C18_violated : ¬ ∀ (N d : ℕ) (lb ub : List ℚ), lb.length = d → ub.length = d →
    (∀ j < d, lb.getD j 0 < ub.getD j 0) → C18Statement N d lb ub := by
  intro h
  obtain ⟨Z, h1, _, h2, _⟩ := h 2 2 [0, 10] [1, 20] rfl rfl
    (by intro j hj; interval_cases j <;> simp <;> norm_num) [[1 / 2, 15], [1 / 2, 15]] ⟨rfl, by simp⟩
  rw [C18_witness.1] at h1
  rw [← Option.some.inj h1] at h2
  exact C18_witness.2.2 h2

/-- Three points in two dimensions, the second one outside. -/
example : handleBox 2 [[1 / 2, 15], [-1 / 4, 23], [9 / 4, 12]] ([0, 10].map some) ([1, 20].map some) =
    some [[1 / 2, 15], [1 / 4, 17], [1 / 4, (12 : ℚ)]] := by decide +kernel

example : C18Statement 3 2 [0, 10] [1, (20 : ℚ)] :=
  C18_reflect_partial rfl rfl (by intro j hj; interval_cases j <;> simp <;> norm_num) (Or.inl (by decide))

example : C18Statement 2 2 [0, 0] [1, (1 : ℚ)] :=
  C18_reflect_partial rfl rfl (by intro j hj; interval_cases j <;> simp)
    (Or.inr (by intro i hi j hj; interval_cases i <;> interval_cases j <;> simp))

example : reflect 10 20 (23 : ℚ) = 17 ∧ reflect 10 20 (-3 : ℚ) = 17 := by decide +kernel

example : ∃ Z, handleBox 2 [[3, (5 : ℚ)]] [some 0, none] [some 1, some 2] = some Z ∧ IsMat 1 2 Z ∧
    ∀ i < 1, ∀ j < 2, [some (0 : ℚ), none].getD j none = none ∨ [some (1 : ℚ), some 2].getD j none = none →
      at2 Z i j = at2 [[3, (5 : ℚ)]] i j :=
  C18_unbounded (N := 1) (d := 2) (X := [[3, (5 : ℚ)]]) ⟨rfl, by simp⟩ rfl rfl (by decide)

end Box

/-! ### C19: bounds -/

section Bounds

variable {K : Type*}

/-- C19: what `set_bounds` returns; it never returns a list of another length. -/
theorem C19_setBounds (ev : String → Option (Bound K)) (dim : ℕ) :
    (∀ b l, setBounds ev b dim = some l → l.length = dim) ∧
    (∀ a, setBounds ev (.num a) dim = some (List.replicate dim a)) ∧
    (∀ a, setBounds ev (.seq [a]) dim = some (List.replicate dim a)) ∧
    (∀ l, l.length = dim → setBounds ev (.seq l) dim = some l) ∧
    (∀ l, l.length ≠ dim → l.length ≠ 1 → setBounds ev (.seq l) dim = none) ∧
    setBounds ev .other dim = none := by
  refine ⟨?_, ?_, ?_, ?_, ?_, rfl⟩
  · intro b l h
    unfold setBounds at h
    simp only at h
    split at h
    · split at h
      · rename_i hl
        rw [← Option.some.inj h]; exact hl
      · exact absurd h (by simp)
    · exact absurd h (by simp)
  · intro a; simp [setBounds]
  · intro a; simp [setBounds]
  · intro l hl
    rcases l with _ | ⟨a, _ | ⟨b, l⟩⟩
    · simp [setBounds, ← hl]
    · subst hl; simp [setBounds]
    · simp [setBounds, ← hl]
  · intro l h1 h2
    rcases l with _ | ⟨a, _ | ⟨b, l⟩⟩
    · simp only [setBounds]; rw [if_neg h1]
    · simp at h2
    · simp only [setBounds]; rw [if_neg h1]

/-- A string is evaluated, but the value is neither replicated nor broadcast: only a string for a list
of the right length is accepted. -/
theorem C19_string (ev : String → Option (Bound K)) (dim : ℕ) (s : String) (l : List K) :
    setBounds ev (.str s) dim = some l ↔ ev s = some (.seq l) ∧ l.length = dim := by
  unfold setBounds
  simp only
  rcases ev s with _ | _ | _ | l' | _
  · simp
  · simp
  · simp
  · simp only [Option.some.injEq, Bound.seq.injEq]
    constructor
    · intro h
      split_ifs at h with hl
      · cases h; exact ⟨rfl, hl⟩
    · rintro ⟨rfl, h⟩
      rw [if_pos h]
  · simp

example : setBounds (fun _ => none) (.num 3) 2 = some [3, 3] ∧ setBounds (fun _ => none) (.seq [3]) 2 = some [3, 3] ∧
    setBounds (fun _ => none) (.seq [3, 4]) 2 = some [3, 4] ∧ setBounds (fun _ => none) (.seq [3, 4, 5]) 2 = none ∧
    setBounds (fun _ => some (.num 3)) (.str "3") 2 = none ∧
    setBounds (fun _ => some (.seq [3, 4])) (.str "[3, 4]") 2 = some [3, 4] := by decide

end Bounds

/-! ### C20: preconditioning -/

section Precondition

open Matrix
open scoped MatrixOrder Matrix.Norms.L2Operator

variable {n : ℕ} {chol : Matrix (Fin n) (Fin n) ℝ → Option (Matrix (Fin n) (Fin n) ℝ)}

/-- The shift used after `k` failures. -/
noncomputable def shiftAfter (H : Matrix (Fin n) (Fin n) ℝ) (k : ℕ) : ℝ :=
  Nat.rec (precTau0 H) (fun _ t => max (2 * t) (1 / 10 ^ 6)) k

theorem shiftAfter_eq (H : Matrix (Fin n) (Fin n) ℝ) : ∀ k, shiftAfter H k = tauSeq (precTau0 H) k
  | 0 => rfl
  | k + 1 => by
    show max (2 * shiftAfter H k) (1 / 10 ^ 6) = _
    rw [shiftAfter_eq H k]
    rfl

/-- C20: the result is `H + tau I` with a non-negative `tau`. It is `H` itself if `H` is positive definite.
Otherwise the shifts are tried one after the other; if one of the first 45 works, the first such one is
used and the result is positive definite. No more than 45 factorizations are done after the first one. -/
theorem C20_precondition (hc : IsCholesky chol) {H : Matrix (Fin n) (Fin n) ℝ} (hH : H.IsSymm) :
    (∃ tau : ℝ, 0 ≤ tau ∧ preconditionHessian chol H = H + tau • 1) ∧
    (H.PosDef → preconditionHessian chol H = H) ∧
    (∀ k < 45, ¬ H.PosDef → (H + shiftAfter H k • 1).PosDef → (∀ l < k, ¬ (H + shiftAfter H l • 1).PosDef) →
      preconditionHessian chol H = H + shiftAfter H k • 1) ∧
    ((∃ k < 45, (H + shiftAfter H k • 1).PosDef) → (preconditionHessian chol H).PosDef) ∧
    (precLoop chol H 45 (precTau0 H)).2 ≤ 45 := by
  obtain ⟨hcount, hloop⟩ := precLoop_spec hc hH 45 (precTau0 H)
  have h0 := tauSeq_nonneg (precTau0_nonneg H)
  simp only [shiftAfter_eq]
  rcases hcase : chol H with _ | L
  · have hn : ¬ H.PosDef := by rw [← hc.complete H hH, hcase]; simp
    unfold preconditionHessian
    rw [hcase]
    simp only
    rcases hloop with ⟨k, hk, L, e1, e2, e3, e4⟩ | ⟨e1, e2⟩
    · rw [e1]
      simp only [e2]
      refine ⟨⟨tauSeq (precTau0 H) k, h0 k, rfl⟩, fun h => absurd h hn, ?_, fun _ => e3, hcount⟩
      intro k' _ _ hp hl
      rcases lt_trichotomy k k' with h | h | h
      · exact absurd e3 (hl k h)
      · rw [h]
      · exact absurd hp (e4 k' h)
    · rw [e1]
      refine ⟨⟨tauSeq (precTau0 H) 45, h0 45, rfl⟩, fun h => absurd h hn, ?_, ?_, hcount⟩
      · intro k hk _ hp
        exact absurd hp (e2 k hk)
      · rintro ⟨k, hk, hp⟩
        exact absurd hp (e2 k hk)
  · have hp : H.PosDef := by rw [← hc.complete H hH, hcase]; rfl
    have he : preconditionHessian chol H = H := by
      unfold preconditionHessian
      rw [hcase]
      exact hc.sound _ _ hH hcase
    rw [he]
    exact ⟨⟨0, le_rfl, by simp⟩, fun _ => rfl, fun _ _ h => absurd hp h, fun _ => hp, hcount⟩

/-- The result is positive definite unless an eigenvalue of `H` is below `-8·10^6`. -/
theorem C20_range (hc : IsCholesky chol) {H : Matrix (Fin n) (Fin n) ℝ} (hH : H.IsSymm)
    (h : (H + (8 * 10 ^ 6 : ℝ) • 1).PosDef) : (preconditionHessian chol H).PosDef := by
  refine (C20_precondition hc hH).2.2.2.1 ⟨44, by norm_num, ?_⟩
  rw [shiftAfter_eq]
  refine posDef_mono ?_ h
  have := tauSeq_ge (precTau0_nonneg H) 43
  refine le_trans ?_ this
  unfold precBeta
  norm_num

/-- The contract can be met. -/
theorem exists_isCholesky (n : ℕ) :
    ∃ chol : Matrix (Fin n) (Fin n) ℝ → Option (Matrix (Fin n) (Fin n) ℝ), IsCholesky chol := by
  classical
  have hex : ∀ A : Matrix (Fin n) (Fin n) ℝ, A.PosDef → ∃ L : Matrix (Fin n) (Fin n) ℝ, L * Lᵀ = A := by
    intro A hA
    obtain ⟨B, hB⟩ := CStarAlgebra.nonneg_iff_eq_star_mul_self.mp hA.posSemidef.nonneg
    exact ⟨Bᵀ, by rw [hB, transpose_transpose, star_eq_conjTranspose, conjTranspose_eq_transpose_of_trivial]⟩
  refine ⟨fun A => if h : A.PosDef then some (hex A h).choose else none, ⟨?_, ?_⟩⟩
  · intro A L _ h
    by_cases hp : A.PosDef
    · simp only [hp, dif_pos] at h
      rw [← Option.some.inj h]
      exact (hex A hp).choose_spec
    · simp [hp] at h
  · intro A _
    by_cases hp : A.PosDef <;> simp [hp]

/-- The matrix `-I` of size 3 is made positive definite. -/
example : ∃ chol, IsCholesky chol ∧ ¬ (-1 : Matrix (Fin 3) (Fin 3) ℝ).PosDef ∧
    (preconditionHessian chol (-1 : Matrix (Fin 3) (Fin 3) ℝ)).PosDef := by
  obtain ⟨chol, hc⟩ := exists_isCholesky 3
  refine ⟨chol, hc, ?_, C20_range hc ?_ ?_⟩
  · intro h
    have := h.diag_pos (i := 0)
    simp at this
    linarith
  · show (-1 : Matrix (Fin 3) (Fin 3) ℝ)ᵀ = -1
    simp
  · have : (-1 : Matrix (Fin 3) (Fin 3) ℝ) + (8 * 10 ^ 6 : ℝ) • 1 = (8 * 10 ^ 6 - 1 : ℝ) • 1 := by
      rw [sub_smul, one_smul]; abel
    rw [this]
    exact PosDef.one.smul (by norm_num)

end Precondition

/-! ### C21: backtracking line search -/

section LineSearch

variable {K : Type*} [Field K] [LinearOrder K] [IsStrictOrderedRing K]

/-- The sufficient decrease test of step `s`, or the merit at the start is close to the machine
precision `2^-52` (in the sense of `np.isclose`). -/
def Sufficient (c1 : K) (phi : K → K) (phi0 s : K) : Prop :=
  phi s ≤ (1 - c1 * s) * phi0 ∨ |phi0 - 1 / 2 ^ 52| ≤ 1 / 10 ^ 8 + 1 / 10 ^ 5 * |1 / 2 ^ 52|

/-- C21: the result is `maxStep / 2^k` for the first `k < 6` at which the test succeeds, and
`maxStep / 2^6` if there is none. The merit function is evaluated at `maxStep / 2^l` for `l ≤ k`, `l < 6`,
in this order. -/
theorem C21_lineSearch (phi : K → K) (phi0 maxStep : K) :
    ∃ k ≤ 6, (backtrackingLineSearch phi phi0 maxStep).1 = maxStep / 2 ^ k ∧
      (k < 6 → Sufficient (1 / 10 ^ 5) phi phi0 (maxStep / 2 ^ k)) ∧
      (∀ l < k, ¬ Sufficient (1 / 10 ^ 5) phi phi0 (maxStep / 2 ^ l)) ∧
      (backtrackingLineSearch phi phi0 maxStep).2 =
        (List.range (min (k + 1) 6)).map (fun l => maxStep / 2 ^ l) ∧
      (0 < maxStep → 0 < (backtrackingLineSearch phi phi0 maxStep).1 ∧
        (backtrackingLineSearch phi phi0 maxStep).1 ≤ maxStep) := by
  obtain ⟨k, hk, h1, h2, h3, h4⟩ := halving_spec (1 / 10 ^ 5) phi phi0 6 maxStep
  have hpow : ∀ l, maxStep * (1 / 2) ^ l = maxStep / 2 ^ l := fun l => by
    rw [one_div, inv_pow, ← div_eq_mul_inv]
  simp only [hpow] at h1 h2 h3 h4
  refine ⟨k, hk, h1, h3, h2, h4, fun hpos => ?_⟩
  unfold backtrackingLineSearch
  rw [h1]
  refine ⟨by positivity, div_le_self hpos.le ?_⟩
  exact one_le_pow₀ (by norm_num)

/-- The first two steps are rejected, the third one is accepted. -/
example : backtrackingLineSearch (fun s : ℚ => if s ≤ 1 / 4 then 1 / 2 else 2) 1 1 = (1 / 4, [1, 1 / 2, 1 / 4]) := by
  decide +kernel

/-- All steps are rejected; the returned step was not tried. -/
example : backtrackingLineSearch (fun _ : ℚ => 2) 1 1 = (1 / 64, [1, 1 / 2, 1 / 4, 1 / 8, 1 / 16, 1 / 32]) := by
  decide +kernel

/-! ### C22: the line searches of the Newton methods -/

/-- C22 for one line search with interpolation, as in `DpN` (`t = 8`) and the individual search of
`MMDNewton` (`t = 6`): `r` is the result and the list of the steps at which the merit function was
evaluated. -/
theorem C22_interpolating (c1 : K) (cubic : K → K → K → K → Option K) (phi : K → K) (phi0 maxStep : K) (t : ℕ)
    (hpos : 0 < maxStep) (r : K × List K) (hr : r = interpolating c1 cubic phi phi0 t phi0 0 maxStep) :
    0 < r.1 ∧ r.1 ≤ maxStep ∧ (4 / 10) ^ t * maxStep ≤ r.1 ∧ r.2.length ≤ t ∧
      (r.2.IsChain fun a b => 4 / 10 * a ≤ b ∧ b ≤ 6 / 10 * a) ∧ (∀ a, r.2.head? = some a → a = maxStep) ∧
      ((Sufficient c1 phi phi0 r.1 ∧ r.2.getLast? = some r.1 ∧
          ∀ a ∈ r.2.dropLast, ¬ Sufficient c1 phi phi0 a) ∨
        (r.2.length = t ∧ ∀ a ∈ r.2, ¬ Sufficient c1 phi phi0 a)) := by
  obtain ⟨a1, a2, a3, a4, a5, a6, a7, a8⟩ := interpolating_spec c1 cubic phi phi0 t phi0 0 maxStep hpos r hr
  refine ⟨a1, a2, a3, a4, a7, a8, ?_⟩
  rcases a6 with ⟨h1, h2⟩ | ⟨h1, h2⟩
  · exact Or.inl ⟨h1, h2, a5⟩
  · exact Or.inr ⟨h1, h2⟩

/-- C22 for `DpN`: all steps are positive, at most the maximal step and at least `0.4^8` of it. -/
def C22Statement (K : Type*) [Field K] [LinearOrder K] : Prop :=
  ∀ (cubic : K → K → K → K → Option K) (N : ℕ) (step : List K) (phi : ℕ → K → K) (phi0 maxStep : ℕ → K),
    (∀ i < N, 0 < maxStep i) → ∀ i < N, ∃ s, dpnLineSearch cubic N step phi phi0 (some maxStep) i = some s ∧
      0 < s ∧ s ≤ maxStep i ∧ (4 / 10) ^ 8 * maxStep i ≤ s

/-- C22 for `DpN`, unless all entries of the step are close to zero. -/
theorem C22_dpn_partial (cubic : K → K → K → K → Option K) (N : ℕ) (step : List K) (phi : ℕ → K → K)
    (phi0 maxStep : ℕ → K) (hmax : ∀ i < N, 0 < maxStep i) (hstep : ∃ x ∈ step, 1 / 10 ^ 8 < |x|) :
    ∀ i < N, ∃ s, dpnLineSearch cubic N step phi phi0 (some maxStep) i = some s ∧
      0 < s ∧ s ≤ maxStep i ∧ (4 / 10) ^ 8 * maxStep i ≤ s := by
  intro i hi
  have hns : ¬ ∀ x ∈ step, IsClose x 0 := by
    intro h
    obtain ⟨x, hx, hlt⟩ := hstep
    have := h x hx
    unfold IsClose at this
    simp only [sub_zero, abs_zero, mul_zero, add_zero] at this
    exact absurd hlt (not_lt.mpr this)
  obtain ⟨a1, a2, a3, _⟩ := C22_interpolating (1 / 10 ^ 4) cubic (phi i) (phi0 i) (maxStep i) 8 (hmax i hi) _ rfl
  refine ⟨_, by unfold dpnLineSearch; rw [if_pos hi, if_neg hns]; rfl, a1, a2, a3⟩

/-- C22 is violated: if all entries of the step are close to zero, the step length is one, whatever the
maximal step is. -/
theorem C22_dpn_witness (cubic : ℚ → ℚ → ℚ → ℚ → Option ℚ) :
    dpnLineSearch cubic 1 [1 / 10 ^ 9] (fun _ s => s) (fun _ => 1) (some fun _ => 1 / 2) 0 = some 1 := by
  unfold dpnLineSearch
  rw [if_pos (by decide), if_pos]
  decide +kernel

theorem C22_dpn_violated : ¬ C22Statement ℚ := by
  intro h
  obtain ⟨s, h1, _, h2, _⟩ := h (fun _ _ _ _ => none) 1 [1 / 10 ^ 9] (fun _ s => s) (fun _ => 1) (fun _ => 1 / 2)
    (fun _ _ => by norm_num) 0 (by decide)
  rw [C22_dpn_witness] at h1
  rw [← Option.some.inj h1] at h2
  norm_num at h2

/-- C22 for `MMDNewton`, unless the median of the step is close to zero: the step is the smallest maximal
step halved at most six times. -/
theorem C22_mmd_partial (med : K) (phi : K → K) (phi0 : K) (maxSteps : List K) (hne : maxSteps ≠ [])
    (hpos : ∀ m ∈ maxSteps, 0 < m) (hmed : 1 / 10 ^ 8 + 1 / 10 ^ 5 * (1 / 10 ^ 15) < |med - 1 / 10 ^ 15|) :
    ∃ r, mmdLineSearch med phi phi0 (some maxSteps) = some r ∧ 0 < r.1 ∧ (∀ m ∈ maxSteps, r.1 ≤ m) ∧
      ∃ m ∈ maxSteps, ∃ k ≤ 6, r.1 = m / 2 ^ k ∧ r.2 = (List.range (min (k + 1) 6)).map (fun l => m / 2 ^ l) ∧
        (k < 6 → Sufficient (1 / 10 ^ 6) phi phi0 r.1) ∧
        ∀ l < k, ¬ Sufficient (1 / 10 ^ 6) phi phi0 (m / 2 ^ l) := by
  have hns : ¬ IsClose med (1 / 10 ^ 15 : K) := by
    unfold IsClose
    rw [not_le, abs_of_pos (by positivity : (0 : K) < 1 / 10 ^ 15)]
    exact hmed
  obtain ⟨m, hm⟩ : ∃ m, maxSteps.min? = some m := by
    rcases maxSteps with _ | ⟨a, l⟩
    · exact absurd rfl hne
    · exact ⟨_, rfl⟩
  obtain ⟨hmem, hle⟩ := List.min?_eq_some_iff.mp hm
  obtain ⟨k, hk, h1, h2, h3, h4⟩ := halving_spec (1 / 10 ^ 6) phi phi0 6 m
  have hpow : ∀ l, m * (1 / 2) ^ l = m / 2 ^ l := fun l => by
    rw [one_div, inv_pow, ← div_eq_mul_inv]
  simp only [hpow] at h1 h2 h3 h4
  have hmpos := hpos m hmem
  refine ⟨_, by unfold mmdLineSearch; rw [if_neg hns]; simp only [hm]; rfl, ?_, ?_, m, hmem, k, hk, h1, h4, ?_, h2⟩
  · rw [h1]; positivity
  · intro m' hm'
    rw [h1]
    exact le_trans (div_le_self hmpos.le (one_le_pow₀ (by norm_num))) (hle m' hm')
  · intro h
    rw [h1]
    exact h3 h

/-- C22 is violated for `MMDNewton` in the same way. -/
theorem C22_mmd_violated : mmdLineSearch (1 / 10 ^ 9 : ℚ) (fun s => s) 1 (some [1 / 2]) = some (1, []) := by
  decide +kernel

/-- Two points; the first one backtracks twice, with an interpolated and a halved step. -/
example : dpnLineSearch (fun _ _ s _ => if s = 0 then some (9 / 20) else none) 2 [1, (0 : ℚ)]
    (fun i s => if i = 0 ∧ s > 3 / 10 then 2 else 0) (fun _ => 1) (some fun _ => 1) 0 = some (9 / 40) := by
  decide +kernel

example : ∃ s, dpnLineSearch (fun _ _ _ _ => none) 2 [1, (0 : ℚ)] (fun _ _ => 2) (fun _ => 1)
    (some fun _ => 1) 1 = some s ∧ 0 < s ∧ s ≤ 1 ∧ (4 / 10) ^ 8 * 1 ≤ s :=
  C22_dpn_partial _ 2 _ _ _ (fun _ => 1) (fun _ _ => by norm_num) ⟨1, by simp, by norm_num⟩ 1 (by decide)

example : mmdLineSearch (1 : ℚ) (fun s => if s ≤ 1 / 4 then 0 else 2) 1 (some [1, 1 / 2]) =
    some (1 / 4, [1 / 2, 1 / 4]) := by decide +kernel

end LineSearch

end Verif.Props
