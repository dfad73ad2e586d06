import Verif.HV.Round
import Verif.Props.Hypervolume
import Mathlib.Algebra.Order.Ring.Pow
import Mathlib.Algebra.Order.Round

/-!
# C76: the hypervolume in floating point

The model of `hypervolume` runs on numbers whose sums, differences and products are rounded (`Verif.HV.Rnd`). The
contract `Rounding u fl` says that one operation has a relative error of at most `u`; for doubles `u = 2^-53`. Overflow
and underflow are left out. `IsArgsort` is the contract of `np.argsort`.
-/

namespace Verif.Props

open Verif.HV

variable {u : ℝ} {fl : ℝ → ℝ}

/-- `v` is `x` up to the relative error of `m` roundings. -/
def RelErr (u : ℝ) (m : ℕ) (v x : ℝ) : Prop := |v - x| ≤ ((1 + u) ^ m - 1) * x

/-- The property as stated: for any number of objectives there is a number `m` of roundings that depends only on the
number of objectives and of points, and the result is exact up to `m` roundings, for every input on which the code is
correct in exact arithmetic (C01). -/
def C76Statement : Prop :=
  ∃ m : ℕ → ℕ → ℕ, ∀ (u : ℝ) (fl : ℝ → ℝ), Rounding u fl → ∀ argsort : List (Rnd fl) → List ℕ, IsArgsort argsort →
    ∀ (d : ℕ) (front : List (ℕ → Rnd fl)) (ref : ℕ → Rnd fl), 0 < d → Admissible d (front.map vals) (vals ref) →
      ∃ v, hypervolume argsort d front ref = some v ∧
        RelErr u (m d front.length) v.val (Spec.hvol d (front.map vals) (vals ref))

theorem _root_.Verif.HV.Near.relErr {m : ℕ} {a b : ℝ} (hu : 0 ≤ u) (hu1 : u < 1) (hb : 0 ≤ b) (h : Near u m a b) : RelErr u m a b := by
  have h1 : 1 + (m : ℝ) * u ≤ (1 + u) ^ m := one_add_mul_le_pow (by linarith) m
  have h2 : 1 + (m : ℝ) * (-u) ≤ (1 + -u) ^ m := one_add_mul_le_pow (by linarith) m
  rw [← sub_eq_add_neg] at h2
  have h3 : (2 - (1 + u) ^ m) * b ≤ (1 - u) ^ m * b := mul_le_mul_of_nonneg_right (by linarith) hb
  rw [RelErr, abs_le]
  constructor
  · linarith [h.1]
  · linarith [h.2]

/-- C76 for one, two and three objectives: the computed value has the relative error of `(d - 1) (n + 2) + d` roundings,
for all inputs with `n` points (ties, duplicates, dominated points and points outside the reference box included).
Half of the range of `bounds` (hypervolume.py 58) is used. -/
theorem C76_three_objectives_partial (hr : Rounding u fl) {argsort : List (Rnd fl) → List ℕ} (ha : IsArgsort argsort)
    {d : ℕ} (hd : 0 < d) (hd3 : d ≤ 3) (front : List (ℕ → Rnd fl)) (ref : ℕ → Rnd fl)
    (hrange : d = 3 → ∀ p ∈ front, (∀ i < d, (p i).val ≤ (ref i).val) → 2 * ((ref 2).val - (p 2).val) ≤ 10 ^ 308) :
    ∃ v, hypervolume argsort d front ref = some v ∧
      RelErr u ((d - 1) * (front.length + 2) + d) v.val (Spec.hvol d (front.map vals) (vals ref)) := by
  obtain ⟨v, h1, h2⟩ := compute_near hr ha hd hd3 front ref hrange
  exact ⟨v, h1, h2.relErr hr.nonneg hr.lt_one Spec.hvol_nonneg⟩

/-- The computed value is zero only if the hypervolume is zero, and it is never negative. -/
theorem C76_zero (hr : Rounding u fl) {argsort : List (Rnd fl) → List ℕ} (ha : IsArgsort argsort)
    {d : ℕ} (hd : 0 < d) (hd3 : d ≤ 3) (front : List (ℕ → Rnd fl)) (ref : ℕ → Rnd fl)
    (hrange : d = 3 → ∀ p ∈ front, (∀ i < d, (p i).val ≤ (ref i).val) → 2 * ((ref 2).val - (p 2).val) ≤ 10 ^ 308) :
    ∃ v, hypervolume argsort d front ref = some v ∧ 0 ≤ v.val ∧
      (v.val = 0 ↔ Spec.hvol d (front.map vals) (vals ref) = 0) := by
  obtain ⟨v, h1, h2⟩ := compute_near hr ha hd hd3 front ref hrange
  have h0 : 0 ≤ Spec.hvol d (front.map vals) (vals ref) := Spec.hvol_nonneg
  refine ⟨v, h1, h2.nonneg hr.lt_one h0, fun h => ?_, fun h => ?_⟩
  · have h3 := h2.1
    rw [h] at h3
    have h4 : 0 < (1 - u) ^ ((d - 1) * (front.length + 2) + d) := pow_pos (by linarith [hr.lt_one]) _
    exact le_antisymm (nonpos_of_mul_nonpos_right h3 h4) h0
  · have h3 := h2.1
    have h4 := h2.2
    rw [h, mul_zero] at h3 h4
    exact le_antisymm h4 h3

/-- The usual form of the bound: `m u / (1 - m u)`. -/
theorem RelErr.gamma {m : ℕ} {v x : ℝ} (hu : 0 ≤ u) (hu1 : u < 1) (hx : 0 ≤ x) (hm : m * u < 1) (h : RelErr u m v x) :
    |v - x| ≤ m * u / (1 - m * u) * x := by
  refine h.trans (mul_le_mul_of_nonneg_right ?_ hx)
  have h1 : 1 + (m : ℝ) * (-u) ≤ (1 + -u) ^ m := one_add_mul_le_pow (by linarith) m
  rw [← sub_eq_add_neg, mul_neg, ← sub_eq_add_neg] at h1
  have h2 : (1 + u) ^ m * (1 - u) ^ m ≤ 1 := by
    rw [← mul_pow]
    exact pow_le_one₀ (mul_nonneg (by linarith) (by linarith)) (by nlinarith)
  have h3 : 0 ≤ (1 + u) ^ m := pow_nonneg (by linarith) m
  rw [le_div_iff₀ (by linarith)]
  nlinarith

/-- Doubles: for at most a million points in up to three objectives the relative error is below `10^-9`. -/
theorem C76_doubles (hr : Rounding (1 / 2 ^ 53) fl) {argsort : List (Rnd fl) → List ℕ} (ha : IsArgsort argsort)
    {d : ℕ} (hd : 0 < d) (hd3 : d ≤ 3) (front : List (ℕ → Rnd fl)) (hn : front.length ≤ 10 ^ 6) (ref : ℕ → Rnd fl)
    (hrange : d = 3 → ∀ p ∈ front, (∀ i < d, (p i).val ≤ (ref i).val) → 2 * ((ref 2).val - (p 2).val) ≤ 10 ^ 308) :
    ∃ v, hypervolume argsort d front ref = some v ∧
      |v.val - Spec.hvol d (front.map vals) (vals ref)| ≤
        1 / 10 ^ 9 * Spec.hvol d (front.map vals) (vals ref) := by
  obtain ⟨v, h1, h2⟩ := C76_three_objectives_partial hr ha hd hd3 front ref hrange
  refine ⟨v, h1, ?_⟩
  have h0 : 0 ≤ Spec.hvol d (front.map vals) (vals ref) := Spec.hvol_nonneg
  have hm : (d - 1) * (front.length + 2) + d ≤ 2 * (10 ^ 6 + 2) + 3 := by
    have : (d - 1) * (front.length + 2) ≤ 2 * (10 ^ 6 + 2) := Nat.mul_le_mul (by omega) (by omega)
    omega
  set m := (d - 1) * (front.length + 2) + d
  have hm' : (m : ℝ) ≤ 2 * (10 ^ 6 + 2) + 3 := by exact_mod_cast hm
  have hmu : (m : ℝ) * (1 / 2 ^ 53) ≤ 1 / 10 ^ 9 / 2 := by
    calc (m : ℝ) * (1 / 2 ^ 53) ≤ (2 * (10 ^ 6 + 2) + 3) * (1 / 2 ^ 53) :=
          mul_le_mul_of_nonneg_right hm' (by positivity)
      _ ≤ 1 / 10 ^ 9 / 2 := by norm_num
  have hm0 : 0 ≤ (m : ℝ) * (1 / 2 ^ 53) := by positivity
  refine (h2.gamma hr.nonneg hr.lt_one h0 (by linarith)).trans (mul_le_mul_of_nonneg_right ?_ h0)
  rw [div_le_iff₀ (by linarith)]
  nlinarith

/-- Whatever rounding does, `hypervolume` returns a value, for any number of objectives. -/
theorem C76_returns {argsort : List (Rnd fl) → List ℕ} (ha : IsArgsort argsort) {d : ℕ} (hd : 0 < d)
    (front : List (ℕ → Rnd fl)) (ref : ℕ → Rnd fl) : ∃ v, hypervolume argsort d front ref = some v :=
  compute_total ha hd front ref

/-! ### A rounding function -/

open Classical in
/-- Rounds to the nearest integer when this is within the relative error `u`, and leaves other numbers alone. -/
noncomputable def snap (u x : ℝ) : ℝ := if |(round x : ℝ) - x| ≤ u * |x| then round x else x

theorem snap_rounding (hu : 0 ≤ u) (hu1 : u < 1) : Rounding u (snap u) := by
  refine ⟨hu, hu1, fun x => ?_⟩
  unfold snap
  split
  · assumption
  · simpa using mul_nonneg hu (abs_nonneg x)

theorem snap_int (hu : 0 ≤ u) (n : ℤ) : snap u n = n := by
  unfold snap
  rw [round_intCast, if_pos (by simpa using mul_nonneg hu (abs_nonneg (n : ℝ)))]

/-- Integers are computed with exactly. -/
theorem snap_emb (hu : 0 ≤ u) : Emb (fun v : ℤ => (⟨v⟩ : Rnd (snap u))) where
  zero := by show (⟨_⟩ : Rnd (snap u)) = ⟨0⟩; rw [Int.cast_zero]
  one := by show (⟨_⟩ : Rnd (snap u)) = ⟨1⟩; rw [Int.cast_one]
  add := fun a b => by
    show (⟨_⟩ : Rnd (snap u)) = ⟨snap u (a + b)⟩
    rw [← Int.cast_add, snap_int hu]
  sub := fun a b => by
    show (⟨_⟩ : Rnd (snap u)) = ⟨snap u (a - b)⟩
    rw [← Int.cast_sub, snap_int hu]
  neg := fun a => by show (⟨_⟩ : Rnd (snap u)) = ⟨-a⟩; rw [Int.cast_neg]
  mul := fun a b => by
    show (⟨_⟩ : Rnd (snap u)) = ⟨snap u (a * b)⟩
    rw [← Int.cast_mul, snap_int hu]
  nat := fun n => by show (⟨_⟩ : Rnd (snap u)) = ⟨n⟩; rw [Int.cast_natCast]
  le := fun a b => by rw [Rnd.val_le]; exact Int.cast_le

/-- Three points in three objectives, rounding with unit `1/1000`. -/
example : ∃ v, hypervolume stableArgsort 3 [fun i => (⟨pt [0, 1 / 3, 2] i⟩ : Rnd (snap (1 / 1000))),
      fun i => ⟨pt [1, 0, 1 / 7] i⟩, fun i => ⟨pt [9, 0, 0] i⟩] (fun i => ⟨pt [3, 3, 3] i⟩) = some v ∧
    RelErr (1 / 1000) 13 v.val (Spec.hvol 3 [pt [0, 1 / 3, 2], pt [1, 0, 1 / 7], pt [9, 0, 0]] (pt [3, 3, 3])) := by
  refine C76_three_objectives_partial (snap_rounding (by norm_num) (by norm_num)) stableArgsort_isArgsort (by norm_num)
    le_rfl [fun i => (⟨pt [0, 1 / 3, 2] i⟩ : Rnd (snap (1 / 1000))), fun i => ⟨pt [1, 0, 1 / 7] i⟩,
      fun i => ⟨pt [9, 0, 0] i⟩] (fun i => ⟨pt [3, 3, 3] i⟩) ?_
  intro _ p hp _
  have h308 : (10 : ℝ) ≤ 10 ^ 308 := by
    calc (10 : ℝ) = 10 ^ 1 := by norm_num
      _ ≤ 10 ^ 308 := pow_le_pow_right₀ (by norm_num) (by norm_num)
  refine le_trans ?_ h308
  simp only [List.mem_cons, List.not_mem_nil, or_false] at hp
  rcases hp with rfl | rfl | rfl <;> norm_num [pt]

/-! ### Four objectives -/

/-- Three points in four objectives. They are different in the first objective, where two of them come to agree when
the reference point is subtracted. -/
noncomputable def nearTie (u : ℝ) : List (ℕ → ℝ) := [pt [-1, 0, -1, 0], pt [-1 - u, 0, -1, -1], pt [-1, -1, 0, 0]]

/-- Its reference point. -/
noncomputable def nearTieRef : ℕ → ℝ := pt [1, 1, 1, 1]

theorem nearTie_admissible (hu : 0 < u) (hu1 : u < 1 / 2) : Admissible 4 (nearTie u) nearTieRef where
  range := by
    have h308 : (10 : ℝ) ≤ 10 ^ 308 := by
      calc (10 : ℝ) = 10 ^ 1 := by norm_num
        _ ≤ 10 ^ 308 := pow_le_pow_right₀ (by norm_num) (by norm_num)
    intro p hp _ i h2 hi
    refine le_trans ?_ h308
    simp only [nearTie, List.mem_cons, List.not_mem_nil, or_false] at hp
    rcases hp with rfl | rfl | rfl <;> interval_cases i <;> norm_num [pt, nearTieRef]
  triple := by
    intro _
    refine List.Pairwise.filter _ ?_
    simp [nearTie, pt]
    linarith
  tie := by
    intro j h1 h2
    omega
  below := by
    intro h7
    norm_num at h7

theorem snap_near (hu : 0 ≤ u) (hu1 : u < 1 / 2) : snap u (-1 - u - 1) = -2 := by
  have hr : round (-1 - u - 1) = -2 := by
    rw [round_eq_iff]
    push_cast
    constructor <;> linarith
  unfold snap
  rw [hr, abs_of_nonneg (by push_cast; linarith), abs_of_nonpos (by linarith), if_pos (by push_cast; nlinarith)]
  norm_num

/-- The points after the reference point is subtracted. -/
def tied : List (ℕ → ℤ) := [pt [-2, -1, -2, -1], pt [-2, -1, -2, -2], pt [-2, -2, -1, -1]]

/-- With four objectives the computed value is 8 and the hypervolume at least 10, however small the rounding error. -/
theorem C76_violated_four (hu : 0 < u) (hu1 : u < 1 / 2) :
    hypervolume stableArgsort 4 ((nearTie u).map (fun p i => (⟨p i⟩ : Rnd (snap u)))) (fun i => ⟨nearTieRef i⟩) =
        some ⟨8⟩ ∧
      10 ≤ Spec.hvol 4 (nearTie u) nearTieRef := by
  constructor
  · have hrel : relevantPoints 4 ((nearTie u).map (fun p i => (⟨p i⟩ : Rnd (snap u)))) (fun i => ⟨nearTieRef i⟩) =
        relevantPoints 4 (tied.map (mapP (fun v : ℤ => (⟨v⟩ : Rnd (snap u))))) (mapP (fun v : ℤ => ⟨v⟩) (pt [])) := by
      have hall : ∀ p ∈ (nearTie u).map (fun p i => (⟨p i⟩ : Rnd (snap u))),
          weaklyDominates 4 p (fun i => ⟨nearTieRef i⟩) = true := by
        intro p hp
        rw [weaklyDominates_iff]
        simp only [nearTie, List.map_cons, List.map_nil, List.mem_cons, List.not_mem_nil, or_false] at hp
        intro i hi
        rw [Rnd.val_le]
        rcases hp with rfl | rfl | rfl <;> interval_cases i <;> norm_num [pt, nearTieRef]
        linarith
      have hany : (List.range 4).any (fun i => decide ((⟨nearTieRef i⟩ : Rnd (snap u)) ≠ 0)) = true := by
        rw [List.any_eq_true]
        refine ⟨0, by simp, decide_eq_true ?_⟩
        intro h
        have := congrArg Rnd.val h
        norm_num [nearTieRef, pt] at this
      have hz : relevantPoints 4 tied (pt []) = tied := by
        have h1 : ∀ p ∈ tied, weaklyDominates 4 p (pt []) = true := by decide
        have h2 : (List.range 4).any (fun i => decide ((pt [] : ℕ → ℤ) i ≠ 0)) = false := by decide
        unfold relevantPoints
        simp only [h2, Bool.false_eq_true, if_false]
        exact List.filter_eq_self.mpr h1
      rw [relevantPoints_map (snap_emb hu.le), hz]
      unfold relevantPoints
      simp only [hany, if_true]
      rw [List.filter_eq_self.mpr hall]
      simp only [nearTie, tied, List.map_cons, List.map_nil, List.cons.injEq, and_true]
      have hint : ∀ (a b c : ℤ), ((a : ℝ) - b = c) → snap u ((a : ℝ) - b) = c := by
        intro a b c h
        rw [h, snap_int hu.le]
      have h11 := hint (-1) 1 (-2) (by norm_num)
      have h01 := hint 0 1 (-1) (by norm_num)
      have h00 := hint 0 0 0 (by norm_num)
      push_cast at h11 h01 h00
      rw [zero_sub] at h01
      rw [sub_zero] at h00
      refine ⟨?_, ?_, ?_⟩ <;> funext i <;> apply Rnd.val_injective <;>
        rcases i with _ | _ | _ | _ | i <;>
        simp only [Rnd.val_sub, mapP, pt, nearTieRef] <;>
        simp [h11, h01, h00, snap_near hu.le hu1]
    have hrun := compute_map (snap_emb hu.le) (ar := stableArgsort) (az := stableArgsort)
      (stableArgsort_map (snap_emb hu.le).le) 4 tied (pt [])
    have hz : compute stableArgsort 4 tied (pt []) = some 8 := by decide +kernel
    rw [hz] at hrun
    have e : (8 : ℝ) = ((8 : ℤ) : ℝ) := by norm_num
    rw [e]
    refine Eq.trans ?_ hrun
    unfold hypervolume compute
    dsimp only
    rw [hrel]
  · have h1 := C01_violated_ties.2
    have h2 := Spec.hvol_translate (d := 4) (P := [pt [-2, -1, -2, -1], pt [-2, -1, -2, -2], pt [-2, -2, -1, -1]])
      (ref := pt []) nearTieRef
    rw [h1] at h2
    rw [← h2]
    have e : (fun i => pt [] i + nearTieRef i) = nearTieRef := by funext i; simp [pt]
    rw [e]
    apply Spec.hvol_mono
    intro p hp _
    simp only [List.map_cons, List.map_nil, List.mem_cons, List.not_mem_nil, or_false] at hp
    simp only [nearTie, List.mem_cons, List.not_mem_nil, or_false, exists_eq_or_imp, exists_eq_left]
    rcases hp with rfl | rfl | rfl
    · refine Or.inl fun i hi => ?_
      interval_cases i <;> norm_num [pt, nearTieRef]
    · refine Or.inr (Or.inl fun i hi => ?_)
      interval_cases i <;> norm_num [pt, nearTieRef]
      linarith
    · refine Or.inr (Or.inr fun i hi => ?_)
      interval_cases i <;> norm_num [pt, nearTieRef]

/-- The code violates C76. -/
theorem C76_violated : ¬ C76Statement := by
  rintro ⟨m, h⟩
  set M := m 4 3 with hM
  have hM0 : (0 : ℝ) < 20 * (M + 1) := by positivity
  set u : ℝ := 1 / (20 * (M + 1)) with hu
  have hu0 : 0 < u := by positivity
  have hMu : M * u ≤ 1 / 20 := by
    rw [hu, mul_one_div, div_le_div_iff₀ hM0 (by norm_num)]
    linarith
  have hu1 : u < 1 / 2 := by
    rw [hu, div_lt_div_iff₀ hM0 (by norm_num)]
    have : (0 : ℝ) ≤ M := Nat.cast_nonneg M
    linarith
  obtain ⟨h1, h2⟩ := C76_violated_four hu0 hu1
  have hvals : ((nearTie u).map (fun p i => (⟨p i⟩ : Rnd (snap u)))).map vals = nearTie u := by
    rw [List.map_map]
    exact List.map_id _
  obtain ⟨v, h3, h4⟩ := h u (snap u) (snap_rounding hu0.le (by linarith)) stableArgsort stableArgsort_isArgsort 4
    ((nearTie u).map (fun p i => (⟨p i⟩ : Rnd (snap u)))) (fun i => ⟨nearTieRef i⟩) (by norm_num) (by
      rw [hvals]; exact nearTie_admissible hu0 hu1)
  rw [h1] at h3
  obtain rfl : _ = v := Option.some.inj h3
  rw [hvals] at h4
  have hx : Spec.hvol 4 (nearTie u) (vals (fun i => (⟨nearTieRef i⟩ : Rnd (snap u)))) =
    Spec.hvol 4 (nearTie u) nearTieRef := rfl
  rw [hx] at h4
  have h5 := RelErr.gamma hu0.le (by linarith) (by linarith) (by
    show ((m 4 3 : ℕ) : ℝ) * u < 1
    rw [← hM]; linarith) h4
  have h6 : ((m 4 3 : ℕ) : ℝ) * u ≤ 1 / 20 := hMu
  have h7 : ((m 4 3 : ℕ) : ℝ) * u / (1 - (m 4 3 : ℕ) * u) ≤ 1 / 19 := by
    rw [div_le_iff₀ (by linarith)]
    linarith
  have h8 := h5.trans (mul_le_mul_of_nonneg_right h7 (by linarith))
  have h9 := (abs_le.mp h8).1
  simp only at h9
  linarith

end Verif.Props
