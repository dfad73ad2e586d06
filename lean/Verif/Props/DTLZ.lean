import Verif.Prob.DTLZ
import Verif.Props.RefDirs
import Mathlib.Tactic.Ring
import Mathlib.Tactic.Linarith
import Mathlib.Tactic.FieldSimp
import Mathlib.Tactic.Positivity
import Mathlib.Analysis.SpecialFunctions.Trigonometric.Inverse
import Mathlib.Algebra.Order.BigOperators.Group.List

/-!
# C51: the DTLZ problems
-/

namespace Verif.Props

open Verif.Prob

/-! ### The product form -/

/-- The product form in the opposite order: `s y₀, s x₀ y₁, s x₀ x₁ y₂, ..., s x₀ ... xₙ`. -/
noncomputable def stick : ℝ → List ℝ → List ℝ → List ℝ
  | s, a :: x1, b :: x2 => s * b :: stick (s * a) x1 x2
  | s, _, _ => [s]

theorem stick_eq (s p : ℝ) (x1 x2 : List ℝ) (h : x1.length = x2.length) :
    List.zipWith (· * ·) ((x1.scanl (· * ·) p).map (s * ·)) (x2 ++ [1]) = stick (s * p) x1 x2 := by
  induction x1 generalizing p x2 with
  | nil =>
    cases x2 with
    | nil => simp [stick]
    | cons _ _ => simp at h
  | cons a x1 ih =>
    cases x2 with
    | nil => simp at h
    | cons b x2 =>
      have := ih (p * a) x2 (by simpa using h)
      simp only [List.scanl_cons, List.map_cons, List.cons_append, List.zipWith_cons_cons, stick]
      rw [this, mul_assoc s p a]

theorem productForm_eq (s : ℝ) (x1 x2 : List ℝ) (h : x1.length = x2.length) :
    productForm s x1 x2 = (stick s x1 x2).reverse := by
  have h1 : (1 : ℝ) :: x2.reverse = (x2 ++ [1]).reverse := by simp
  unfold productForm cumprod
  rw [h1, List.map_reverse, ← List.reverse_zipWith]
  · rw [stick_eq s 1 x1 x2 h, mul_one]
  · simp [List.length_scanl, h]

theorem stick_length (s : ℝ) (x1 x2 : List ℝ) (h : x1.length = x2.length) :
    (stick s x1 x2).length = x1.length + 1 := by
  induction x1 generalizing s x2 with
  | nil => simp [stick]
  | cons a x1 ih =>
    cases x2 with
    | nil => simp at h
    | cons b x2 => simp [stick, ih (s * a) x2 (by simpa using h)]

theorem stick_nonneg {s : ℝ} {x1 x2 : List ℝ} (hs : 0 ≤ s) (h1 : ∀ a ∈ x1, 0 ≤ a) (h2 : ∀ b ∈ x2, 0 ≤ b) :
    ∀ f ∈ stick s x1 x2, 0 ≤ f := by
  induction x1 generalizing s x2 with
  | nil => simpa [stick] using hs
  | cons a x1 ih =>
    cases x2 with
    | nil => simpa [stick] using hs
    | cons b x2 =>
      intro f hf
      rw [stick, List.mem_cons] at hf
      rcases hf with rfl | hf
      · exact mul_nonneg hs (h2 b (by simp))
      · exact ih (mul_nonneg hs (h1 a (by simp))) (fun a ha => h1 a (by simp [ha]))
          (fun b hb => h2 b (by simp [hb])) f hf

theorem stick_sum (s : ℝ) (x : List ℝ) : (stick s x (x.map fun z => 1 - z)).sum = s := by
  induction x generalizing s with
  | nil => simp [stick]
  | cons a x ih =>
    rw [List.map_cons, stick, List.sum_cons, ih]
    ring

theorem stick_sq {α : Type*} (c d : α → ℝ) (hcd : ∀ t, c t ^ 2 + d t ^ 2 = 1) (s : ℝ) (t : List α) :
    ((stick s (t.map c) (t.map d)).map fun f => f ^ 2).sum = s ^ 2 := by
  induction t generalizing s with
  | nil => simp [stick]
  | cons a t ih =>
    rw [List.map_cons, List.map_cons, stick, List.map_cons, List.sum_cons, ih]
    have := hcd a
    linear_combination s ^ 2 * this

/-! ### The surface identities -/

/-- The value of `g` at a decision vector. -/
noncomputable def gAt (P : DTLZ) (x : List ℝ) : ℝ := P.g (x.drop (P.nObj - 1))

/-- C51: the objectives of DTLZ1 sum to `0.5 (1 + g)`. -/
theorem C51_dtlz1 (M k : ℕ) (x : List ℝ) :
    ((DTLZ1 M k).objective x).sum = 0.5 * (1 + gAt (DTLZ1 M k) x) := by
  unfold DTLZ.objective
  dsimp only [DTLZ1, transformLinear]
  rw [productForm_eq _ _ _ (by simp), List.sum_reverse, stick_sum]
  rfl

/-- The transformations by cosine and sine of the same angles. -/
def Circular (P : DTLZ) : Prop :=
  ∀ x g, ∃ t : List ℝ, (P.transform x g) = (t.map Real.cos, t.map Real.sin)

theorem circular_all (M k : ℕ) (eps : ℝ) : ∀ P ∈ [DTLZ2 M, DTLZ3 M k, DTLZ4 M, DTLZ5 M, DTLZ6 M eps],
    Circular P ∧ P.scale = 1 := by
  intro P hP
  simp only [List.mem_cons, List.not_mem_nil, or_false] at hP
  rcases hP with rfl | rfl | rfl | rfl | rfl
  · exact ⟨fun x _ => ⟨x.map fun z => z ^ (1 : ℝ) * Real.pi / 2, by simp [DTLZ2, transformSphere]⟩, rfl⟩
  · exact ⟨fun x _ => ⟨x.map fun z => z ^ (1 : ℝ) * Real.pi / 2, by simp [DTLZ3, transformSphere]⟩, rfl⟩
  · refine ⟨fun x _ => ⟨x.map fun z => z ^ (100 : ℝ) * Real.pi / 2, ?_⟩, rfl⟩
    simp only [DTLZ4, transformSphere, List.map_map]
    rfl
  · refine ⟨fun x g => ⟨(thetaCurve x g).map fun z => z * Real.pi / 2, ?_⟩, rfl⟩
    simp only [DTLZ5, transformCurve, List.map_map]
    rfl
  · refine ⟨fun x g => ⟨(thetaCurve x g).map fun z => z * Real.pi / 2, ?_⟩, rfl⟩
    simp only [DTLZ6, transformCurve, List.map_map]
    rfl

/-- C51: the squares of the objectives of DTLZ2 - DTLZ6 sum to `(1 + g)²`. -/
theorem C51_sphere (M k : ℕ) (eps : ℝ) (x : List ℝ) :
    ∀ P ∈ [DTLZ2 M, DTLZ3 M k, DTLZ4 M, DTLZ5 M, DTLZ6 M eps],
      ((P.objective x).map fun f => f ^ 2).sum = (1 + gAt P x) ^ 2 := by
  intro P hP
  obtain ⟨hc, hs⟩ := circular_all M k eps P hP
  unfold DTLZ.objective
  obtain ⟨t, ht⟩ := hc (position P.nObj x) (P.g (distance P.nObj x))
  dsimp only
  rw [ht, hs]
  dsimp only
  rw [productForm_eq _ _ _ (by simp), List.map_reverse, List.sum_reverse,
    stick_sq _ _ fun t => Real.cos_sq_add_sin_sq t, one_mul]
  rfl

/-- There are as many objectives as there should be. -/
theorem C51_length (M k : ℕ) (eps : ℝ) {x : List ℝ} (hM : 1 ≤ M) (hx : M ≤ x.length + 1) :
    ∀ P ∈ [DTLZ1 M k, DTLZ2 M, DTLZ3 M k, DTLZ4 M, DTLZ5 M, DTLZ6 M eps],
      (P.objective x).length = M ∧ (P.inverted x).length = M := by
  have ht : ∀ (x : List ℝ) g, (thetaCurve x g).length = x.length := by
    intro x g
    cases x <;> simp [thetaCurve]
  intro P hP
  have key : ∀ P : DTLZ, P.nObj = M → (∀ x g, (P.transform x g).1.length = x.length ∧
      (P.transform x g).2.length = x.length) → (P.objective x).length = M ∧ (P.inverted x).length = M := by
    intro P h1 h2
    obtain ⟨h3, h4⟩ := h2 (position P.nObj x) (P.g (distance P.nObj x))
    have h5 : (position P.nObj x).length = M - 1 := by
      rw [h1, position, List.length_take]
      omega
    unfold DTLZ.inverted DTLZ.objective
    dsimp only
    rw [List.length_map, productForm_eq _ _ _ (by rw [h3, h4]), List.length_reverse,
      stick_length _ _ _ (by rw [h3, h4]), h3, h5]
    omega
  simp only [List.mem_cons, List.not_mem_nil, or_false] at hP
  rcases hP with rfl | rfl | rfl | rfl | rfl | rfl
  · exact key _ rfl fun x g => by simp [DTLZ1, transformLinear]
  · exact key _ rfl fun x g => by simp [DTLZ2, transformSphere]
  · exact key _ rfl fun x g => by simp [DTLZ3, transformSphere]
  · exact key _ rfl fun x g => by simp [DTLZ4, transformSphere]
  · exact key _ rfl fun x g => by simp [DTLZ5, transformCurve, ht]
  · exact key _ rfl fun x g => by simp [DTLZ6, transformCurve, ht]

/-! ### The distance functions -/

theorem sum_nonneg_eq_zero {l : List ℝ} (h : ∀ a ∈ l, 0 ≤ a) : 0 ≤ l.sum ∧ (l.sum = 0 ↔ ∀ a ∈ l, a = 0) := by
  induction l with
  | nil => simp
  | cons a l ih =>
    obtain ⟨h1, h2⟩ := ih fun a ha => h a (by simp [ha])
    have ha := h a (by simp)
    simp only [List.sum_cons, List.mem_cons, forall_eq_or_imp]
    refine ⟨by linarith, fun hs => ⟨by linarith, h2.mp (by linarith)⟩, fun hs => ?_⟩
    rw [hs.1, h2.mpr hs.2, add_zero]

/-- C51: `g` of DTLZ2, DTLZ4 and DTLZ5 is not negative, and zero exactly if all distance variables are 0.5. -/
theorem C51_gSphere (xM : List ℝ) : 0 ≤ gSphere xM ∧ (gSphere xM = 0 ↔ ∀ z ∈ xM, z = 0.5) := by
  obtain ⟨h1, h2⟩ := sum_nonneg_eq_zero (l := xM.map fun z => (z - 0.5) ^ 2) fun a ha => by
    obtain ⟨z, -, rfl⟩ := List.mem_map.mp ha
    positivity
  refine ⟨h1, h2.trans ?_⟩
  simp only [List.mem_map, forall_exists_index, and_imp, forall_apply_eq_imp_iff₂]
  refine forall₂_congr fun z _ => ?_
  rw [pow_eq_zero_iff two_ne_zero, sub_eq_zero]

/-- C51: `g` of DTLZ1 and DTLZ3 with the right `k` is not negative, and zero exactly if all distance variables are
0.5. -/
theorem C51_gRastrigin (xM : List ℝ) : 0 ≤ gRastrigin xM.length xM ∧
    (gRastrigin xM.length xM = 0 ↔ ∀ z ∈ xM, z = 0.5) := by
  have he : gRastrigin xM.length xM =
      100 * (xM.map fun z => (z - 0.5) ^ 2 + (1 - Real.cos (20 * Real.pi * (z - 0.5)))).sum := by
    unfold gRastrigin
    congr 1
    induction xM with
    | nil => simp
    | cons a l ih =>
      simp only [List.length_cons, List.map_cons, List.sum_cons]
      rw [← ih]
      push_cast
      ring
  have hn : ∀ z : ℝ, 0 ≤ 1 - Real.cos (20 * Real.pi * (z - 0.5)) := fun z => by
    linarith [Real.cos_le_one (20 * Real.pi * (z - 0.5))]
  obtain ⟨h1, h2⟩ := sum_nonneg_eq_zero
    (l := xM.map fun z => (z - 0.5) ^ 2 + (1 - Real.cos (20 * Real.pi * (z - 0.5)))) fun a ha => by
    obtain ⟨z, -, rfl⟩ := List.mem_map.mp ha
    exact add_nonneg (sq_nonneg _) (hn z)
  rw [he]
  refine ⟨by linarith, ?_⟩
  rw [mul_eq_zero, or_iff_right (by norm_num), h2]
  simp only [List.mem_map, forall_exists_index, and_imp, forall_apply_eq_imp_iff₂]
  refine forall₂_congr fun z _ => ⟨fun h => ?_, fun h => ?_⟩
  · have h3 : (z - 0.5) ^ 2 = 0 := by
      have := sq_nonneg (z - 0.5)
      have := hn z
      linarith
    exact sub_eq_zero.mp (pow_eq_zero_iff two_ne_zero |>.mp h3)
  · subst h
    simp

/-- The part of the code's DTLZ6 that is violated: `g` is at least `k / 1000` everywhere, also at the decision
vectors of `get_pareto_set`, since `eps = 1e-30` and the exponent is 0.1. -/
theorem C51_violated_dtlz6 (xM : List ℝ) : (xM.length : ℝ) / 1000 ≤ gPower 1e-30 xM ∧
    gPower 1e-30 (List.replicate xM.length 0) = (xM.length : ℝ) / 1000 := by
  have h0 : (1e-30 : ℝ) ^ (0.1 : ℝ) = 1 / 1000 := by
    rw [show (1e-30 : ℝ) = (1 / 1000) ^ (10 : ℝ) by norm_num, ← Real.rpow_mul (by norm_num)]
    norm_num
  unfold gPower
  constructor
  · induction xM with
    | nil => simp
    | cons a l ih =>
      have : (1e-30 : ℝ) ^ (0.1 : ℝ) ≤ (max |a| 1e-30) ^ (0.1 : ℝ) :=
        Real.rpow_le_rpow (by norm_num) (le_max_right _ _) (by norm_num)
      simp only [List.length_cons, List.map_cons, List.sum_cons]
      push_cast
      linarith
  · rw [List.map_replicate, List.sum_replicate, abs_zero, max_eq_right (by norm_num), h0, nsmul_eq_mul]
    ring

/-! ### The documented fronts -/

/-- The decision vector is in the box and has the right length. -/
def InUnitBox (n : ℕ) (x : List ℝ) : Prop := x.length = n ∧ ∀ z ∈ x, 0 ≤ z ∧ z ≤ 1

/-- Dominance of objective vectors. -/
def ParetoLess (f y : List ℝ) : Prop := List.Forall₂ (· ≤ ·) f y ∧ f ≠ y

theorem forall₂_sum {f y : List ℝ} (h : List.Forall₂ (· ≤ ·) f y) :
    f.sum ≤ y.sum ∧ (f.sum = y.sum → f = y) := by
  induction h with
  | nil => simp
  | cons hab _ ih =>
    obtain ⟨h1, h2⟩ := ih
    simp only [List.sum_cons]
    refine ⟨by linarith, fun h => ?_⟩
    rw [h2 (by linarith), le_antisymm hab (by linarith)]

theorem forall₂_sq {f y : List ℝ} (h : List.Forall₂ (· ≤ ·) f y) (h0 : ∀ a ∈ f, 0 ≤ a) :
    (f.map fun a => a ^ 2).sum ≤ (y.map fun a => a ^ 2).sum ∧
      ((f.map fun a => a ^ 2).sum = (y.map fun a => a ^ 2).sum → f = y) := by
  induction h with
  | nil => simp
  | @cons a b f y hab _ ih =>
    obtain ⟨h1, h2⟩ := ih fun a ha => h0 a (by simp [ha])
    have ha := h0 a (by simp)
    have hsq : a ^ 2 ≤ b ^ 2 := pow_le_pow_left₀ ha hab 2
    simp only [List.map_cons, List.sum_cons]
    refine ⟨by linarith, fun h => ?_⟩
    have h3 : a ^ 2 = b ^ 2 := le_antisymm hsq (by linarith)
    rw [h2 (by linarith), (pow_left_inj₀ ha (ha.trans hab) two_ne_zero).mp h3]

/-- C51: no decision vector has objectives of DTLZ1 dominating a point of the simplex of sum 0.5. -/
theorem C51_optimal1 {M k n : ℕ} (hk : k = n - (M - 1)) {x y : List ℝ} (hx : x.length = n)
    (hy : y.sum = 0.5) : ¬ ParetoLess ((DTLZ1 M k).objective x) y := by
  rintro ⟨h1, h2⟩
  obtain ⟨h3, h4⟩ := forall₂_sum h1
  have hg := (C51_gRastrigin (x.drop (M - 1))).1
  rw [List.length_drop, hx, ← hk] at hg
  have hs := C51_dtlz1 M k x
  have hg' : 0 ≤ gAt (DTLZ1 M k) x := hg
  rw [hy] at h3 h4
  exact h2 (h4 (by linarith))

theorem objective_nonneg_sphere {P : DTLZ} {alpha : ℝ} (hP : P.transform = transformSphere alpha)
    (ha : 0 ≤ alpha) (hs : P.scale = 1) {n : ℕ} {x : List ℝ} (hx : InUnitBox n x) (hg : 0 ≤ gAt P x) :
    ∀ f ∈ P.objective x, 0 ≤ f := by
  unfold DTLZ.objective
  dsimp only
  rw [hP]
  dsimp only [transformSphere]
  rw [productForm_eq _ _ _ (by simp), hs, one_mul]
  intro f hf
  have hang : ∀ z ∈ position P.nObj x, 0 ≤ z ^ alpha * Real.pi / 2 ∧ z ^ alpha * Real.pi / 2 ≤ Real.pi / 2 := by
    intro z hz
    obtain ⟨h0, h1⟩ := hx.2 z (List.mem_of_mem_take hz)
    have h2 : 0 ≤ z ^ alpha := Real.rpow_nonneg h0 _
    have h3 : z ^ alpha ≤ 1 := Real.rpow_le_one h0 h1 ha
    have := Real.pi_pos
    exact ⟨by positivity, by nlinarith⟩
  refine stick_nonneg ?_ ?_ ?_ f (List.mem_reverse.mp hf)
  · have : 0 ≤ P.g (distance P.nObj x) := hg
    linarith
  · intro a ha
    obtain ⟨z, hz, rfl⟩ := List.mem_map.mp ha
    obtain ⟨h1, h2⟩ := hang z hz
    exact Real.cos_nonneg_of_mem_Icc ⟨by linarith, h2⟩
  · intro a ha
    obtain ⟨z, hz, rfl⟩ := List.mem_map.mp ha
    obtain ⟨h1, h2⟩ := hang z hz
    exact Real.sin_nonneg_of_nonneg_of_le_pi h1 (by linarith [Real.pi_pos])

/-- C51: no decision vector in the box has objectives of DTLZ2, DTLZ3 or DTLZ4 dominating a point of norm 1. -/
theorem C51_optimal {M k n : ℕ} (hk : k = n - (M - 1)) {x y : List ℝ} (hx : InUnitBox n x)
    (hy : (y.map fun a => a ^ 2).sum = 1) :
    ∀ P ∈ [DTLZ2 M, DTLZ3 M k, DTLZ4 M], ¬ ParetoLess (P.objective x) y := by
  have key : ∀ P : DTLZ, ((P.objective x).map fun f => f ^ 2).sum = (1 + gAt P x) ^ 2 → 0 ≤ gAt P x →
      (∀ f ∈ P.objective x, 0 ≤ f) → ¬ ParetoLess (P.objective x) y := by
    rintro P hs hg h0 ⟨h1, h2⟩
    obtain ⟨h3, h4⟩ := forall₂_sq h1 h0
    rw [hs, hy] at h3 h4
    exact h2 (h4 (by nlinarith))
  have hr : 0 ≤ gAt (DTLZ3 M k) x := by
    have hg := (C51_gRastrigin (x.drop (M - 1))).1
    rwa [List.length_drop, hx.1, ← hk] at hg
  intro P hP
  have hs := C51_sphere M k 0 x P (by
    simp only [List.mem_cons, List.not_mem_nil, or_false] at hP ⊢
    tauto)
  simp only [List.mem_cons, List.not_mem_nil, or_false] at hP
  rcases hP with rfl | rfl | rfl
  · exact key _ hs (C51_gSphere _).1 (objective_nonneg_sphere rfl zero_le_one rfl hx (C51_gSphere _).1)
  · exact key _ hs hr (objective_nonneg_sphere rfl zero_le_one rfl hx hr)
  · exact key _ hs (C51_gSphere _).1 (objective_nonneg_sphere rfl (by norm_num) rfl hx (C51_gSphere _).1)

/-! ### The fronts are attained -/

theorem exists_stick_sum {y : List ℝ} (hne : y ≠ []) (h0 : ∀ a ∈ y, 0 ≤ a) :
    ∃ x : List ℝ, x.length + 1 = y.length ∧ (∀ z ∈ x, 0 ≤ z ∧ z ≤ 1) ∧
      stick y.sum x (x.map fun z => 1 - z) = y := by
  induction y with
  | nil => exact absurd rfl hne
  | cons a y ih =>
    by_cases hy : y = []
    · subst hy
      exact ⟨[], by simp, by simp, by simp [stick]⟩
    · obtain ⟨x, h1, h2, h3⟩ := ih hy fun b hb => h0 b (by simp [hb])
      have ha := h0 a (by simp)
      have hs : 0 ≤ y.sum := List.sum_nonneg fun b hb => h0 b (by simp [hb])
      by_cases hz : a + y.sum = 0
      · have ha0 : a = 0 := by linarith
        have hs0 : y.sum = 0 := by linarith
        refine ⟨0 :: x, by simp [h1], ?_, ?_⟩
        · simp only [List.mem_cons, forall_eq_or_imp]
          exact ⟨by norm_num, h2⟩
        · rw [List.map_cons, stick, List.sum_cons, ha0, hs0]
          rw [hs0] at h3
          simp [h3]
      · have hpos : 0 < a + y.sum := lt_of_le_of_ne (by linarith) (Ne.symm hz)
        refine ⟨y.sum / (a + y.sum) :: x, by simp [h1], ?_, ?_⟩
        · simp only [List.mem_cons, forall_eq_or_imp]
          exact ⟨⟨by positivity, by rw [div_le_one hpos]; linarith⟩, h2⟩
        · rw [List.map_cons, stick, List.sum_cons, mul_div_cancel₀ _ hz, h3]
          congr 1
          field_simp
          ring

theorem exists_stick_sphere {alpha : ℝ} (hal : 0 < alpha) {y : List ℝ} (hne : y ≠ []) (h0 : ∀ a ∈ y, 0 ≤ a) :
    ∃ x : List ℝ, x.length + 1 = y.length ∧ (∀ z ∈ x, 0 ≤ z ∧ z ≤ 1) ∧
      stick (Real.sqrt (y.map fun a => a ^ 2).sum) (x.map fun z => Real.cos (z ^ alpha * Real.pi / 2))
        (x.map fun z => Real.sin (z ^ alpha * Real.pi / 2)) = y := by
  induction y with
  | nil => exact absurd rfl hne
  | cons a y ih =>
    have ha := h0 a (by simp)
    by_cases hy : y = []
    · subst hy
      exact ⟨[], by simp, by simp, by simp [stick, Real.sqrt_sq ha]⟩
    · obtain ⟨x, h1, h2, h3⟩ := ih hy fun b hb => h0 b (by simp [hb])
      have hs : 0 ≤ (y.map fun a => a ^ 2).sum := List.sum_nonneg fun b hb => by
        obtain ⟨c, -, rfl⟩ := List.mem_map.mp hb
        positivity
      obtain ⟨S, hS⟩ : ∃ S, (y.map fun a => a ^ 2).sum = S := ⟨_, rfl⟩
      rw [hS] at h3 hs
      have hT : ((a :: y).map fun a => a ^ 2).sum = a ^ 2 + S := by rw [List.map_cons, List.sum_cons, hS]
      rw [hT]
      -- an angle
      obtain ⟨t, ht0, ht1, htc, hts⟩ : ∃ t : ℝ, 0 ≤ t ∧ t ≤ Real.pi / 2 ∧
          Real.sqrt (a ^ 2 + S) * Real.cos t = Real.sqrt S ∧ Real.sqrt (a ^ 2 + S) * Real.sin t = a := by
        by_cases hz : a ^ 2 + S = 0
        · have ha0 : a = 0 := pow_eq_zero_iff two_ne_zero |>.mp (by nlinarith [sq_nonneg a])
          have hS0 : S = 0 := by nlinarith [sq_nonneg a]
          exact ⟨0, le_rfl, by positivity, by simp [ha0, hS0], by simp [ha0, hS0]⟩
        · have hpos : 0 < a ^ 2 + S := lt_of_le_of_ne (by positivity) (Ne.symm hz)
          have hr := Real.sqrt_pos.mpr hpos
          have hra : a ≤ Real.sqrt (a ^ 2 + S) := Real.le_sqrt_of_sq_le (by linarith)
          have hq0 : 0 ≤ a / Real.sqrt (a ^ 2 + S) := by positivity
          have hq1 : a / Real.sqrt (a ^ 2 + S) ≤ 1 := by
            rw [div_le_one hr]
            exact hra
          refine ⟨Real.arcsin (a / Real.sqrt (a ^ 2 + S)), Real.arcsin_nonneg.mpr hq0, Real.arcsin_le_pi_div_two _,
            ?_, ?_⟩
          · rw [Real.cos_arcsin]
            rw [← Real.sqrt_mul hpos.le]
            congr 1
            rw [div_pow, Real.sq_sqrt hpos.le]
            field_simp
            ring
          · rw [Real.sin_arcsin (by linarith) hq1]
            field_simp
      have hpi := Real.pi_pos
      have hq0 : 0 ≤ 2 * t / Real.pi := by positivity
      have hq1 : 2 * t / Real.pi ≤ 1 := by
        rw [div_le_one hpi]
        linarith
      have hz : ((2 * t / Real.pi) ^ (1 / alpha)) ^ alpha * Real.pi / 2 = t := by
        rw [← Real.rpow_mul hq0, one_div, inv_mul_cancel₀ hal.ne', Real.rpow_one]
        field_simp
      refine ⟨(2 * t / Real.pi) ^ (1 / alpha) :: x, by simp [h1], ?_, ?_⟩
      · simp only [List.mem_cons, forall_eq_or_imp]
        exact ⟨⟨Real.rpow_nonneg hq0 _, Real.rpow_le_one hq0 hq1 (by positivity)⟩, h2⟩
      · rw [List.map_cons, List.map_cons, stick, hz, htc, hts, h3]

/-- The decision vector with given position variables and all distance variables 0.5. -/
noncomputable def withHalf (x : List ℝ) (k : ℕ) : List ℝ := x ++ List.replicate k 0.5

theorem withHalf_spec {M n : ℕ} (hM : 1 ≤ M) (hn : M ≤ n + 1) {x : List ℝ} (hx : x.length + 1 = M)
    (hb : ∀ z ∈ x, 0 ≤ z ∧ z ≤ 1) : InUnitBox n (withHalf x (n - (M - 1))) ∧
      position M (withHalf x (n - (M - 1))) = x ∧
      distance M (withHalf x (n - (M - 1))) = List.replicate (n - (M - 1)) 0.5 := by
  have hl : M - 1 = x.length := by omega
  refine ⟨⟨?_, ?_⟩, ?_, ?_⟩
  · rw [withHalf, List.length_append, List.length_replicate]
    omega
  · intro z hz
    rcases List.mem_append.mp hz with h | h
    · exact hb z h
    · rw [(List.mem_replicate.mp h).2]
      norm_num
  · rw [position, withHalf, hl, List.take_left]
  · rw [distance, withHalf, hl, List.drop_left]

/-- C51: every point of the simplex of sum 0.5 is attained by DTLZ1 in the box, with all distance variables at
0.5. -/
theorem C51_attained1 {M n : ℕ} (hM : 1 ≤ M) (hn : M ≤ n + 1) {y : List ℝ} (hl : y.length = M)
    (h0 : ∀ a ∈ y, 0 ≤ a) (hy : y.sum = 0.5) : ∃ x, InUnitBox n x ∧ (∀ z ∈ x.drop (M - 1), z = 0.5) ∧
      (DTLZ1 M (n - (M - 1))).objective x = y := by
  have hne : y.reverse ≠ [] := by
    intro h
    have := congrArg List.length h
    simp only [List.length_reverse, List.length_nil] at this
    omega
  obtain ⟨x, h1, h2, h3⟩ := exists_stick_sum hne fun a ha => h0 a (List.mem_reverse.mp ha)
  rw [List.length_reverse, hl] at h1
  rw [List.sum_reverse, hy] at h3
  obtain ⟨w1, w2, w3⟩ := withHalf_spec hM hn h1 h2
  have hd : ∀ z ∈ (withHalf x (n - (M - 1))).drop (M - 1), z = 0.5 := by
    intro z hz
    have : z ∈ distance M (withHalf x (n - (M - 1))) := hz
    rw [w3] at this
    exact (List.mem_replicate.mp this).2
  refine ⟨_, w1, hd, ?_⟩
  have hg : gRastrigin (n - (M - 1)) (distance M (withHalf x (n - (M - 1)))) = 0 := by
    have := (C51_gRastrigin (distance M (withHalf x (n - (M - 1))))).2.mpr hd
    rwa [w3, List.length_replicate, ← w3] at this
  unfold DTLZ.objective
  dsimp only [DTLZ1, transformLinear]
  rw [hg, w2, productForm_eq _ _ _ (by simp), add_zero, mul_one, h3, List.reverse_reverse]

/-- C51: every non-negative point of norm 1 is attained by DTLZ2, DTLZ3 and DTLZ4 in the box, with all distance
variables at 0.5. -/
theorem C51_attained {M n : ℕ} (hM : 1 ≤ M) (hn : M ≤ n + 1) {y : List ℝ} (hl : y.length = M)
    (h0 : ∀ a ∈ y, 0 ≤ a) (hy : (y.map fun a => a ^ 2).sum = 1) :
    ∀ P ∈ [DTLZ2 M, DTLZ3 M (n - (M - 1)), DTLZ4 M], ∃ x, InUnitBox n x ∧ (∀ z ∈ x.drop (M - 1), z = 0.5) ∧
      P.objective x = y := by
  have key : ∀ (P : DTLZ) (alpha : ℝ), 0 < alpha → P.nObj = M → P.scale = 1 →
      P.transform = transformSphere alpha → P.g (List.replicate (n - (M - 1)) 0.5) = 0 →
      ∃ x, InUnitBox n x ∧ (∀ z ∈ x.drop (M - 1), z = 0.5) ∧ P.objective x = y := by
    intro P alpha hal hPM hPs hPt hPg
    have hne : y.reverse ≠ [] := by
      intro h
      have := congrArg List.length h
      simp only [List.length_reverse, List.length_nil] at this
      omega
    obtain ⟨x, h1, h2, h3⟩ := exists_stick_sphere hal hne fun a ha => h0 a (List.mem_reverse.mp ha)
    rw [List.length_reverse, hl] at h1
    rw [List.map_reverse, List.sum_reverse, hy, Real.sqrt_one] at h3
    obtain ⟨w1, w2, w3⟩ := withHalf_spec hM hn h1 h2
    refine ⟨_, w1, ?_, ?_⟩
    · intro z hz
      have : z ∈ distance M (withHalf x (n - (M - 1))) := hz
      rw [w3] at this
      exact (List.mem_replicate.mp this).2
    · unfold DTLZ.objective
      dsimp only
      rw [hPM, w3, hPg, w2, hPs, hPt]
      dsimp only [transformSphere]
      rw [productForm_eq _ _ _ (by simp), add_zero, mul_one, h3, List.reverse_reverse]
  have hg1 : gSphere (List.replicate (n - (M - 1)) 0.5) = 0 :=
    (C51_gSphere _).2.mpr fun z hz => (List.mem_replicate.mp hz).2
  have hg2 : gRastrigin (n - (M - 1)) (List.replicate (n - (M - 1)) 0.5) = 0 := by
    have := (C51_gRastrigin (List.replicate (n - (M - 1)) 0.5)).2.mpr fun z hz => (List.mem_replicate.mp hz).2
    rwa [List.length_replicate] at this
  intro P hP
  simp only [List.mem_cons, List.not_mem_nil, or_false] at hP
  rcases hP with rfl | rfl | rfl
  · exact key _ 1 one_pos rfl rfl rfl hg1
  · exact key _ 1 one_pos rfl rfl rfl hg2
  · exact key _ 100 (by norm_num) rfl rfl rfl hg1

/-- C51: the points of `DTLZ1.get_pareto_front` (`0.5 * get_ref_dirs(n_obj)`) are attained in the box and not
dominated by any decision vector. -/
theorem C51_front1 {M n fuel : ℕ} (hM : 2 ≤ M) (hn : M ≤ n + 1) {dirs : List (List ℝ)}
    (hd : getRefDirs fuel M none none = some dirs) :
    ∀ y ∈ dirs.map (fun d => d.map fun a => 0.5 * a),
      (∃ x, InUnitBox n x ∧ (DTLZ1 M (n - (M - 1))).objective x = y) ∧
      ∀ x, InUnitBox n x → ¬ ParetoLess ((DTLZ1 M (n - (M - 1))).objective x) y := by
  intro y hy
  obtain ⟨d, hd', rfl⟩ := List.mem_map.mp hy
  obtain ⟨h1, h2, h3⟩ := C50_simplex hd d hd'
  have hs : (d.map fun a => 0.5 * a).sum = 0.5 := by
    rw [List.sum_map_mul_left, List.map_id', h3, mul_one]
  refine ⟨?_, fun x hx => C51_optimal1 rfl hx.1 hs⟩
  obtain ⟨x, hx, -, hxy⟩ := C51_attained1 (n := n) (by omega) hn (by simpa using h1) (fun a ha => by
    obtain ⟨b, hb, rfl⟩ := List.mem_map.mp ha
    have := h2 b hb
    positivity) hs
  exact ⟨x, hx, hxy⟩

/-- C51: the points of `DTLZ2.get_pareto_front` (also that of DTLZ3 and DTLZ4, `generic_sphere(get_ref_dirs(n_obj))`)
are attained in the box and not dominated by any decision vector in the box. -/
theorem C51_front {M n fuel : ℕ} (hM : 2 ≤ M) (hn : M ≤ n + 1) {dirs front : List (List ℝ)}
    (hd : getRefDirs fuel M none none = some dirs) (hf : genericSphere dirs = some front) :
    ∀ P ∈ [DTLZ2 M, DTLZ3 M (n - (M - 1)), DTLZ4 M], ∀ y ∈ front,
      (∃ x, InUnitBox n x ∧ P.objective x = y) ∧ ∀ x, InUnitBox n x → ¬ ParetoLess (P.objective x) y := by
  intro P hP y hy
  obtain ⟨out, ho, hl, hall⟩ := C50_sphere hd
  rw [hf, Option.some.injEq] at ho
  subst ho
  obtain ⟨i, hi, rfl⟩ := List.getElem_of_mem hy
  obtain ⟨u, s, h1, h2, h3, h4⟩ := hall i _ (List.getElem?_eq_getElem (hl ▸ hi))
  rw [List.getElem?_eq_getElem hi, Option.some.injEq] at h1
  rw [h1]
  obtain ⟨g1, g2, -⟩ := C50_simplex hd _ (List.getElem_mem (hl ▸ hi))
  obtain ⟨x, hx, -, hxy⟩ := C51_attained (n := n) (by omega) hn (by rw [h3]; simpa using g1) (fun a ha => by
    rw [h3] at ha
    obtain ⟨b, hb, rfl⟩ := List.mem_map.mp ha
    exact div_nonneg (g2 b hb) h2.le) h4 P hP
  exact ⟨⟨x, hx, hxy⟩, fun x hx => C51_optimal rfl hx h4 P hP⟩

/-! ### The inverted problems and the constraint -/

theorem sum_map_sub (c : ℝ) (l : List ℝ) : (l.map fun f => c - f).sum = l.length * c - l.sum := by
  induction l with
  | nil => simp
  | cons a l ih =>
    simp only [List.map_cons, List.sum_cons, List.length_cons, ih]
    push_cast
    ring

/-- C51 for the inverted problems: the objectives of IDTLZ1 sum to `(M - 1) (1 + g) / 2`. -/
theorem C51_inverted1 {M k : ℕ} {x : List ℝ} (hM : 1 ≤ M) (hx : M ≤ x.length + 1) :
    ((DTLZ1 M k).inverted x).sum = ((M : ℝ) - 1) * (1 + gAt (DTLZ1 M k) x) / 2 := by
  have h1 := C51_dtlz1 M k x
  have h2 := (C51_length M k 0 hM hx (DTLZ1 M k) (by simp)).1
  have h3 : (DTLZ1 M k).inverted x =
      ((DTLZ1 M k).objective x).map fun f => (1 + gAt (DTLZ1 M k) x) / 2 - f := rfl
  rw [h3, sum_map_sub, h1, h2]
  norm_num
  ring

/-- C51 for the inverted problems: the distances of the objectives of IDTLZ2 - IDTLZ4 from `(1 + g) / 2` have norm
`1 + g`. -/
theorem C51_inverted {M k : ℕ} {x : List ℝ} : ∀ P ∈ [DTLZ2 M, DTLZ3 M k, DTLZ4 M],
    ((P.inverted x).map fun f => ((1 + gAt P x) / 2 - f) ^ 2).sum = (1 + gAt P x) ^ 2 := by
  intro P hP
  have hs := C51_sphere M k 0 x P (by
    simp only [List.mem_cons, List.not_mem_nil, or_false] at hP ⊢
    tauto)
  have h3 : P.inverted x = (P.objective x).map fun f => (1 + gAt P x) / 2 - f := rfl
  rw [h3, List.map_map, ← hs]
  congr 2
  funext f
  simp

/-- C51 is violated by IDTLZ2: the objective vector of `(0.5, 0.5)`, a point with `g = 0`, is dominated by that of
`(0.5, 1)`: both entries are negative and the factor `1 + g` makes them smaller. -/
theorem C51_violated_inverted : InUnitBox 2 [0.5, 0.5] ∧ InUnitBox 2 [0.5, 1] ∧ gAt (DTLZ2 2) [0.5, 0.5] = 0 ∧
    ParetoLess ((DTLZ2 2).inverted [0.5, 1]) ((DTLZ2 2).inverted [0.5, 0.5]) := by
  have e1 : (0.5 : ℝ) ^ (1 : ℝ) * Real.pi / 2 = Real.pi / 4 := by
    rw [Real.rpow_one]
    ring
  have hq : (1 : ℝ) < Real.sqrt 2 := by
    rw [Real.lt_sqrt (by norm_num)]
    norm_num
  have f1 : (DTLZ2 2).inverted [0.5, 0.5] = [1 / 2 - Real.sqrt 2 / 2, 1 / 2 - Real.sqrt 2 / 2] := by
    simp only [DTLZ.inverted, DTLZ2, distance, position, transformSphere, gSphere, productForm, cumprod,
      List.take, List.drop, List.map, List.sum_cons, List.sum_nil, List.scanl_cons, List.scanl_nil, e1,
      Real.cos_pi_div_four, Real.sin_pi_div_four, List.reverse_cons, List.reverse_nil, List.nil_append,
      List.cons_append, List.zipWith, List.cons.injEq, and_true]
    constructor <;> ring
  have f2 : (DTLZ2 2).inverted [0.5, 1] =
      [5 / 4 * (1 / 2 - Real.sqrt 2 / 2), 5 / 4 * (1 / 2 - Real.sqrt 2 / 2)] := by
    simp only [DTLZ.inverted, DTLZ2, distance, position, transformSphere, gSphere, productForm, cumprod,
      List.take, List.drop, List.map, List.sum_cons, List.sum_nil, List.scanl_cons, List.scanl_nil, e1,
      Real.cos_pi_div_four, Real.sin_pi_div_four, List.reverse_cons, List.reverse_nil, List.nil_append,
      List.cons_append, List.zipWith, List.cons.injEq, and_true]
    constructor <;> ring
  refine ⟨⟨rfl, ?_⟩, ⟨rfl, ?_⟩, ?_, ?_⟩
  · simp only [List.mem_cons, List.not_mem_nil, or_false]
    rintro z (rfl | rfl) <;> norm_num
  · simp only [List.mem_cons, List.not_mem_nil, or_false]
    rintro z (rfl | rfl) <;> norm_num
  · simp [gAt, DTLZ2, gSphere]
  · rw [f1, f2]
    refine ⟨?_, ?_⟩
    · refine List.Forall₂.cons ?_ (List.Forall₂.cons ?_ List.Forall₂.nil) <;> linarith
    · intro h
      have := (List.cons.inj h).1
      linarith

/-- The equality constraint is zero on two spheres, of squared radius 0.1599 and 0.1601; on the sphere of radius 0.4
it is -0.0001. -/
theorem C51_constraint (M : ℕ) (x : List ℝ) :
    (eqConstraint M x = 0 ↔ ((x.take (M - 1)).map fun z => (z - 0.5) ^ 2).sum = 0.1599 ∨
      ((x.take (M - 1)).map fun z => (z - 0.5) ^ 2).sum = 0.1601) ∧
    (((x.take (M - 1)).map fun z => (z - 0.5) ^ 2).sum = 0.4 ^ 2 → eqConstraint M x = -0.0001) := by
  unfold eqConstraint position
  constructor
  · rw [sub_eq_zero, abs_eq (by norm_num)]
    constructor
    · rintro (h | h)
      · exact Or.inr (by linarith)
      · exact Or.inl (by linarith)
    · rintro (h | h)
      · exact Or.inr (by rw [h]; norm_num)
      · exact Or.inl (by rw [h]; norm_num)
  · intro h
    rw [h]
    norm_num

/-- Hypotheses of the front theorems: there are reference directions. -/
example : ∃ dirs : List (List ℝ), getRefDirs 101 2 none none = some dirs ∧ dirs.length = latticeSize 2 99 := by
  obtain ⟨p, dirs, h1, h2, h3, h4, h5, -⟩ := C50_enumerates (K := ℝ) (m := 2) le_rfl none (fuel := 101)
    (by simp [target])
  refine ⟨dirs, h1, ?_⟩
  have hp : p = 99 := by
    have e : ∀ p, latticeSize 2 p = p + 1 := fun p => by simp [latticeSize]
    rw [e] at h3
    have h3' : (100 : Int) ≤ ((p + 1 : ℕ) : Int) := h3
    by_contra hne
    have := h4 99 (by omega) (by omega)
    rw [e] at this
    have : ((99 + 1 : ℕ) : Int) < 100 := this
    omega
  rw [h5, hp]

end Verif.Props
