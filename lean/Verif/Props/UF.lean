import Verif.Prob.UFLemmas
import Verif.Props.DTLZ
import Verif.Props.RefDirs

/-!
# C63: the documented fronts of the UF problems
-/

namespace Verif.Props

open Verif.Prob Real

/-! ## Specification -/

/-- Some feasible decision vector has the objective vector `z`. -/
def Attains (feasible : (ℕ → ℝ) → Prop) (obj : (ℕ → ℝ) → Option (List ℝ)) (z : List ℝ) : Prop :=
  ∃ x, feasible x ∧ obj x = some z

/-- `F` is the Pareto front: the set of the attained objective vectors that no attained vector dominates. -/
def IsParetoFront (feasible : (ℕ → ℝ) → Prop) (obj : (ℕ → ℝ) → Option (List ℝ)) (F : Set (List ℝ)) : Prop :=
  ∀ z, z ∈ F ↔ Attains feasible obj z ∧ ∀ w, Attains feasible obj w → ¬ ParetoLess w z

/-- The first variable is in `[0, 1]` and the others are in `[lo, hi]`. -/
def UfBox (n : ℕ) (lo hi : ℝ) (x : ℕ → ℝ) : Prop :=
  (0 ≤ x 0 ∧ x 0 ≤ 1) ∧ ∀ i, 1 ≤ i → i < n → lo ≤ x i ∧ x i ≤ hi

/-- The first two variables are in `[0, 1]` and the others are in `[lo, hi]`. -/
def UfBox3 (n : ℕ) (lo hi : ℝ) (x : ℕ → ℝ) : Prop :=
  (0 ≤ x 0 ∧ x 0 ≤ 1) ∧ (0 ≤ x 1 ∧ x 1 ≤ 1) ∧ ∀ i, 2 ≤ i → i < n → lo ≤ x i ∧ x i ≤ hi

/-- The part of the graph of `φ` over `T`. -/
def Graph (φ : ℝ → ℝ) (T : Set ℝ) : Set (List ℝ) := {z | ∃ t ∈ T, z = [t, φ t]}

/-- The positive part of the unit sphere. -/
def Sphere : Set (List ℝ) := {z | ∃ a b c : ℝ, 0 ≤ a ∧ 0 ≤ b ∧ 0 ≤ c ∧ a ^ 2 + b ^ 2 + c ^ 2 = 1 ∧ z = [a, b, c]}

/-- The two triangles of the front of UF9. -/
def Triangles : Set (List ℝ) := {z | ∃ a b c : ℝ, 0 ≤ a ∧ 0 ≤ b ∧ 0 ≤ c ∧ a + b + c = 1 ∧
  (a ≤ (1 - c) / 4 ∨ 3 * (1 - c) / 4 ≤ a) ∧ z = [a, b, c]}

/-! ## How to recognise a front -/

theorem forall₂_le_trans {a b c : List ℝ} (h1 : List.Forall₂ (· ≤ ·) a b) (h2 : List.Forall₂ (· ≤ ·) b c) :
    List.Forall₂ (· ≤ ·) a c := by
  induction h1 generalizing c with
  | nil => exact h2
  | cons hab _ ih =>
    cases h2 with
    | cons hbc h3 => exact List.Forall₂.cons (hab.trans hbc) (ih h3)

/-- An antichain of attained vectors that covers all attained vectors is the front. -/
theorem isParetoFront_of {feasible : (ℕ → ℝ) → Prop} {obj : (ℕ → ℝ) → Option (List ℝ)} {F : Set (List ℝ)}
    (hatt : ∀ z ∈ F, Attains feasible obj z)
    (hcov : ∀ x, feasible x → ∀ z, obj x = some z → ∃ y ∈ F, List.Forall₂ (· ≤ ·) y z)
    (hanti : ∀ y ∈ F, ∀ z ∈ F, List.Forall₂ (· ≤ ·) y z → y = z) : IsParetoFront feasible obj F := by
  intro z
  constructor
  · intro hz
    refine ⟨hatt z hz, ?_⟩
    rintro w ⟨x, hx, hw⟩ ⟨h1, h2⟩
    obtain ⟨y, hy, hyw⟩ := hcov x hx w hw
    have h3 := hanti y hy z hz (forall₂_le_trans hyw h1)
    subst h3
    refine h2 (le_antisymm_list h1 hyw)
  · rintro ⟨⟨x, hx, hz⟩, h⟩
    obtain ⟨y, hy, hyz⟩ := hcov x hx z hz
    by_contra hne
    exact h y (hatt y hy) ⟨hyz, fun he => hne (he ▸ hy)⟩
where
  le_antisymm_list {a b : List ℝ} (h1 : List.Forall₂ (· ≤ ·) a b) (h2 : List.Forall₂ (· ≤ ·) b a) : a = b := by
    induction h1 with
    | nil => rfl
    | cons hab _ ih =>
      rw [List.forall₂_cons] at h2
      rw [le_antisymm hab h2.1, ih h2.2]

/-- Two objectives and a decreasing front. -/
theorem isParetoFront_graph {feasible : (ℕ → ℝ) → Prop} {obj : (ℕ → ℝ) → Option (List ℝ)} {T : Set ℝ} {φ : ℝ → ℝ}
    (hφ : StrictAntiOn φ T) (hatt : ∀ t ∈ T, ∃ x, feasible x ∧ obj x = some [t, φ t])
    (hcov : ∀ x, feasible x → ∀ z, obj x = some z → ∃ t ∈ T, ∃ a b, z = [a, b] ∧ t ≤ a ∧ φ t ≤ b) :
    IsParetoFront feasible obj (Graph φ T) := by
  refine isParetoFront_of ?_ ?_ ?_
  · rintro z ⟨t, ht, rfl⟩
    exact hatt t ht
  · intro x hx z hz
    obtain ⟨t, ht, a, b, rfl, h1, h2⟩ := hcov x hx z hz
    exact ⟨[t, φ t], ⟨t, ht, rfl⟩, by simp [h1, h2]⟩
  · rintro y ⟨s, hs, rfl⟩ z ⟨t, ht, rfl⟩ h
    have h : s ≤ t ∧ φ s ≤ φ t := by simpa using h
    rcases lt_or_eq_of_le h.1 with hlt | rfl
    · exact absurd (hφ hs ht hlt) (not_lt.mpr h.2)
    · rfl

theorem sphere_antichain : ∀ y ∈ Sphere, ∀ z ∈ Sphere, List.Forall₂ (· ≤ ·) y z → y = z := by
  rintro y ⟨a, b, c, ha, hb, hc, hs, rfl⟩ z ⟨a', b', c', ha', hb', hc', hs', rfl⟩ h
  obtain ⟨h1, h2, h3⟩ : a ≤ a' ∧ b ≤ b' ∧ c ≤ c' := by simpa using h
  have e1 : a = a' := by nlinarith
  have e2 : b = b' := by nlinarith
  have e3 : c = c' := by nlinarith
  rw [e1, e2, e3]

/-! ## UF1 - UF7 -/

theorem one_sub_sqrt_anti : StrictAntiOn (fun t : ℝ => 1 - √t) (Set.Icc 0 1) := by
  intro s hs t _ hst
  have := Real.sqrt_lt_sqrt hs.1 hst
  dsimp only
  linarith

theorem one_sub_sq_anti : StrictAntiOn (fun t : ℝ => 1 - t ^ 2) (Set.Icc 0 1) := by
  intro s hs t _ hst
  dsimp only
  nlinarith [hs.1]

theorem one_sub_anti (T : Set ℝ) : StrictAntiOn (fun t : ℝ => 1 - t) T := by
  intro s _ t _ hst
  dsimp only
  linarith

theorem mem_linspace {N : ℕ} {t : ℝ} : t ∈ linspace 0 1 N ↔ ∃ i < N, t = (i : ℝ) / ((N : ℝ) - 1) := by
  unfold linspace
  simp only [List.mem_map, List.mem_range, zero_add, sub_zero, mul_one_div]
  exact ⟨fun ⟨i, h, e⟩ => ⟨i, h, e.symm⟩, fun ⟨i, h, e⟩ => ⟨i, h, e.symm⟩⟩

theorem linspace_mem {N : ℕ} {t : ℝ} (h : t ∈ linspace 0 1 N) : t ∈ Set.Icc (0 : ℝ) 1 := by
  obtain ⟨i, hi, rfl⟩ := mem_linspace.mp h
  have h1 : (i : ℝ) ≤ (N : ℝ) - 1 := by
    have : i + 1 ≤ N := hi
    have : ((i + 1 : ℕ) : ℝ) ≤ N := by exact_mod_cast this
    push_cast at this
    linarith
  have h0 : (0 : ℝ) ≤ i := Nat.cast_nonneg i
  exact ⟨div_nonneg h0 (by linarith), div_le_one_of_le₀ h1 (by linarith)⟩

/-- `R` consists of the points of the front `F` whose first coordinate is one of `N` equidistant numbers. -/
def Samples (F : Set (List ℝ)) (N : ℕ) (R : List (List ℝ)) : Prop :=
  ∀ z, z ∈ R ↔ z ∈ F ∧ ∃ i < N, z.head? = some ((i : ℝ) / ((N : ℝ) - 1))

theorem ufFront_samples (front : ℝ → ℝ) (N : ℕ) : Samples (Graph front (Set.Icc 0 1)) N (ufFront front N) := by
  intro z
  constructor
  · intro h
    obtain ⟨t, ht, rfl⟩ := List.mem_map.mp h
    obtain ⟨i, hi, e⟩ := mem_linspace.mp ht
    exact ⟨⟨t, linspace_mem ht, rfl⟩, i, hi, by simp [e]⟩
  · rintro ⟨⟨t, -, rfl⟩, i, hi, e⟩
    refine List.mem_map.mpr ⟨t, mem_linspace.mpr ⟨i, hi, ?_⟩, rfl⟩
    simpa using e

/-- The decision vector with the first entry `t` and the other entries given by `v`. -/
noncomputable def withFirst (t : ℝ) (v : ℕ → ℝ) (i : ℕ) : ℝ := if i = 0 then t else v i

theorem withFirst_zero (t : ℝ) (v : ℕ → ℝ) : withFirst t v 0 = t := if_pos rfl

theorem withFirst_pos {t : ℝ} {v : ℕ → ℝ} {i : ℕ} (h : 1 ≤ i) : withFirst t v i = v i := if_neg (by omega)

/-- The vectors with `_sine_y = 0` beyond the first entry. -/
noncomputable def sineVector (n : ℕ) (t : ℝ) : ℕ → ℝ := withFirst t fun i => sin (6 * π * t + (i + 1 : ℕ) * π / n)

theorem sineVector_zero (n : ℕ) (t : ℝ) : sineVector n t 0 = t := withFirst_zero _ _

theorem sineY_sineVector {n : ℕ} {t : ℝ} {i : ℕ} (hi : 1 ≤ i) : sineY n (sineVector n t) i = 0 := by
  unfold sineY
  rw [sineVector_zero, sineVector, withFirst_pos hi, sub_self]

theorem sineVector_box {n : ℕ} {t lo hi : ℝ} (ht : t ∈ Set.Icc (0 : ℝ) 1) (hlo : lo ≤ -1) (hhi : 1 ≤ hi) :
    UfBox n lo hi (sineVector n t) := by
  refine ⟨by rw [sineVector_zero]; exact ht, fun i hi _ => ?_⟩
  rw [sineVector, withFirst_pos hi]
  have h1 := neg_one_le_sin (6 * π * t + (i + 1 : ℕ) * π / n)
  have h2 := sin_le_one (6 * π * t + (i + 1 : ℕ) * π / n)
  constructor <;> linarith

/-- C63 for UF1: the sampled front consists of points of the Pareto front, which is the graph of the documented
function over `[0, 1]`. -/
theorem C63_uf1 {n : ℕ} (hn : 3 ≤ n) :
    IsParetoFront (UfBox n (-1) 1) (uf1 n) (Graph (fun t => 1 - √t) (Set.Icc 0 1)) ∧
      ∀ N, Samples (Graph (fun t => 1 - √t) (Set.Icc 0 1)) N (uf1Front N) := by
  refine ⟨isParetoFront_graph one_sub_sqrt_anti (fun t ht => ?_) (fun x hx z hz => ?_), ufFront_samples _⟩
  · refine ⟨sineVector n t, sineVector_box ht le_rfl le_rfl, ?_⟩
    unfold uf1
    rw [uf2d_eq hn, sineVector_zero] <;>
    exact twiceMean_vanishes fun i hi => by rw [sineY_sineVector hi.1]; norm_num
  · obtain ⟨a, b, ha, hb, h⟩ := uf2d_ge hn (twiceMean_penalty fun i => sq_nonneg (sineY n x i))
      (twiceMean_penalty fun i => sq_nonneg (sineY n x i)) (x 0) (1 - √(x 0))
    unfold uf1 at hz
    rw [h, Option.some.injEq] at hz
    exact ⟨x 0, hx.1, _, _, hz.symm, by linarith, by linarith⟩

theorem uf2Envelope_abs (n : ℕ) {t : ℝ} (ht : t ∈ Set.Icc (0 : ℝ) 1) (i : ℕ) : |uf2Envelope n t i| ≤ 1 := by
  unfold uf2Envelope
  have h1 := neg_one_le_cos (24 * π * t + 4 * (i + 1 : ℕ) * π / n)
  have h2 := cos_le_one (24 * π * t + 4 * (i + 1 : ℕ) * π / n)
  have h3 : t ^ 2 ≤ 1 := by nlinarith [ht.1, ht.2]
  have h4 : 0 ≤ t ^ 2 := by positivity
  rw [abs_le]
  constructor <;> nlinarith [ht.1, ht.2]

theorem abs_mul_le_one {a b : ℝ} (ha : |a| ≤ 1) (hb : |b| ≤ 1) : -1 ≤ a * b ∧ a * b ≤ 1 := by
  rw [← abs_le, abs_mul]
  exact mul_le_one₀ ha (abs_nonneg _) hb

/-- C63 for UF2. -/
theorem C63_uf2 {n : ℕ} (hn : 3 ≤ n) :
    IsParetoFront (UfBox n (-1) 1) (uf2 n) (Graph (fun t => 1 - √t) (Set.Icc 0 1)) ∧
      ∀ N, Samples (Graph (fun t => 1 - √t) (Set.Icc 0 1)) N (uf1Front N) := by
  refine ⟨isParetoFront_graph one_sub_sqrt_anti (fun t ht => ?_) (fun x hx z hz => ?_), ufFront_samples _⟩
  · refine ⟨withFirst t fun i => uf2Envelope n t i * (if i % 2 = 0 then cos (6 * π * t + (i + 1 : ℕ) * π / n)
      else sin (6 * π * t + (i + 1 : ℕ) * π / n)), ⟨by rw [withFirst_zero]; exact ht, fun i hi _ => ?_⟩, ?_⟩
    · rw [withFirst_pos hi]
      refine abs_mul_le_one (uf2Envelope_abs n ht i) ?_
      split
      · exact abs_cos_le_one _
      · exact abs_sin_le_one _
    · unfold uf2
      rw [uf2d_eq hn, withFirst_zero]
      · refine twiceMean_vanishes fun i hi => ?_
        rw [withFirst_zero, withFirst_pos hi.1, if_pos hi.2.2]
        ring
      · refine twiceMean_vanishes fun i hi => ?_
        rw [withFirst_zero, withFirst_pos hi.1, if_neg (by omega)]
        ring
  · unfold uf2 at hz
    obtain ⟨a, b, ha, hb, h⟩ := uf2d_ge hn
      (twiceMean_penalty fun i => sq_nonneg (x i - uf2Envelope n (x 0) i * cos (6 * π * x 0 + (i + 1 : ℕ) * π / n)))
      (twiceMean_penalty fun i => sq_nonneg (x i - uf2Envelope n (x 0) i * sin (6 * π * x 0 + (i + 1 : ℕ) * π / n)))
      (x 0) (1 - √(x 0))
    rw [h, Option.some.injEq] at hz
    exact ⟨x 0, hx.1, _, _, hz.symm, by linarith, by linarith⟩

theorem uf3Exponent_nonneg {n i : ℕ} (hn : 3 ≤ n) (hi : 1 ≤ i) : 0 ≤ uf3Exponent n i := by
  unfold uf3Exponent
  have h1 : (3 : ℝ) ≤ n := by exact_mod_cast hn
  have h2 : (1 : ℝ) ≤ i := by exact_mod_cast hi
  have : 0 ≤ 3 * (((i + 1 : ℕ) : ℝ) - 2) / ((n : ℝ) - 2) := by
    push_cast
    exact div_nonneg (by linarith) (by linarith)
  linarith

/-- C63 for UF3. -/
theorem C63_uf3 {n : ℕ} (hn : 3 ≤ n) :
    IsParetoFront (UfBox n 0 1) (uf3 n) (Graph (fun t => 1 - √t) (Set.Icc 0 1)) ∧
      ∀ N, Samples (Graph (fun t => 1 - √t) (Set.Icc 0 1)) N (uf1Front N) := by
  refine ⟨isParetoFront_graph one_sub_sqrt_anti (fun t ht => ?_) (fun x hx z hz => ?_), ufFront_samples _⟩
  · refine ⟨withFirst t fun i => t ^ uf3Exponent n i, ⟨by rw [withFirst_zero]; exact ht, fun i hi _ => ?_⟩, ?_⟩
    · rw [withFirst_pos hi]
      exact ⟨rpow_nonneg ht.1 _, rpow_le_one ht.1 ht.2 (uf3Exponent_nonneg hn hi)⟩
    · unfold uf3
      rw [uf2d_eq hn, withFirst_zero] <;>
      exact productPenalty_vanishes fun i hi => by rw [withFirst_zero, withFirst_pos hi.1, sub_self]
  · unfold uf3 at hz
    obtain ⟨a, b, ha, hb, h⟩ := uf2d_ge hn (productPenalty_penalty fun i => x i - x 0 ^ uf3Exponent n i)
      (productPenalty_penalty fun i => x i - x 0 ^ uf3Exponent n i) (x 0) (1 - √(x 0))
    rw [h, Option.some.injEq] at hz
    exact ⟨x 0, hx.1, _, _, hz.symm, by linarith, by linarith⟩

theorem uf4h_nonneg (y : ℝ) : 0 ≤ uf4h y := by
  unfold uf4h
  positivity

/-- C63 for UF4. -/
theorem C63_uf4 {n : ℕ} (hn : 3 ≤ n) :
    IsParetoFront (UfBox n (-2) 2) (uf4 n) (Graph (fun t => 1 - t ^ 2) (Set.Icc 0 1)) ∧
      ∀ N, Samples (Graph (fun t => 1 - t ^ 2) (Set.Icc 0 1)) N (uf4Front N) := by
  refine ⟨isParetoFront_graph one_sub_sq_anti (fun t ht => ?_) (fun x hx z hz => ?_), ufFront_samples _⟩
  · refine ⟨sineVector n t, sineVector_box ht (by norm_num) (by norm_num), ?_⟩
    unfold uf4
    rw [uf2d_eq hn, sineVector_zero] <;>
    exact twiceMean_vanishes fun i hi => by rw [sineY_sineVector hi.1]; simp [uf4h]
  · unfold uf4 at hz
    obtain ⟨a, b, ha, hb, h⟩ := uf2d_ge hn (twiceMean_penalty fun i => uf4h_nonneg (sineY n x i))
      (twiceMean_penalty fun i => uf4h_nonneg (sineY n x i)) (x 0) (1 - x 0 ^ 2)
    rw [h, Option.some.injEq] at hz
    exact ⟨x 0, hx.1, _, _, hz.symm, by linarith, by linarith⟩

theorem uf5h_nonneg (y : ℝ) : 0 ≤ uf5h y := by
  unfold uf5h
  have := cos_le_one (4 * π * y)
  nlinarith [sq_nonneg y]

/-- The 21 points of the front of UF5. -/
def Twentieths : Set ℝ := {t | ∃ i : ℕ, i ≤ 20 ∧ t = (i : ℝ) / 20}

/-- The first part of UF5 is at most the distance to the next of the 21 points. -/
theorem uf5Common_ge {t : ℝ} (ht : t ∈ Set.Icc (0 : ℝ) 1) : ∃ s ∈ Twentieths, |t - s| ≤ uf5Common t := by
  have h := abs_sin_round (20 * t)
  have h1 : (0 : ℤ) ≤ round (20 * t) := by
    rw [round_eq]
    exact Int.floor_nonneg.mpr (by linarith [ht.1])
  have h2 : round (20 * t) ≤ 20 := by
    rw [round_eq]
    have : ⌊20 * t + 1 / 2⌋ < 21 := Int.floor_lt.mpr (by push_cast; linarith [ht.2])
    omega
  obtain ⟨i, hi⟩ := Int.eq_ofNat_of_zero_le h1
  refine ⟨(i : ℝ) / 20, ⟨i, by omega, rfl⟩, ?_⟩
  unfold uf5Common
  rw [hi, show π * (20 * t) = 20 * π * t by ring] at h
  have h3 : |20 * t - ((i : ℤ) : ℝ)| = 20 * |t - (i : ℝ) / 20| := by
    rw [show 20 * t - ((i : ℤ) : ℝ) = 20 * (t - (i : ℝ) / 20) by push_cast; ring, abs_mul]
    norm_num
  rw [h3] at h
  have := abs_nonneg (t - (i : ℝ) / 20)
  linarith

theorem uf5Common_zero (i : ℕ) : uf5Common ((i : ℝ) / 20) = 0 := by
  unfold uf5Common
  rw [show 20 * π * ((i : ℝ) / 20) = (i : ℝ) * π by ring, sin_nat_mul_pi]
  simp

/-- C63 for UF5: the 21 points are exactly the Pareto front. -/
theorem C63_uf5 {n : ℕ} (hn : 3 ≤ n) : IsParetoFront (UfBox n (-1) 1) (uf5 n) {z | z ∈ uf5Front} := by
  have hF : {z | z ∈ uf5Front} = Graph (fun t => 1 - t) Twentieths := by
    ext z
    unfold uf5Front Graph Twentieths
    simp only [List.mem_map, List.mem_range, Set.mem_setOf_eq]
    constructor
    · rintro ⟨i, hi, rfl⟩
      exact ⟨_, ⟨i, by omega, rfl⟩, rfl⟩
    · rintro ⟨t, ⟨i, hi, rfl⟩, rfl⟩
      exact ⟨i, by omega, rfl⟩
  rw [hF]
  refine isParetoFront_graph (one_sub_anti _) ?_ (fun x hx z hz => ?_)
  · rintro t ⟨i, hi, rfl⟩
    have hi' : (i : ℝ) ≤ 20 := by exact_mod_cast hi
    refine ⟨sineVector n ((i : ℝ) / 20), sineVector_box ⟨by positivity, by linarith⟩ le_rfl le_rfl, ?_⟩
    unfold uf5
    rw [uf2d_eq hn, sineVector_zero, uf5Common_zero, add_zero, add_zero] <;>
    exact twiceMean_vanishes fun i hi => by rw [sineY_sineVector hi.1]; simp [uf5h]
  · unfold uf5 at hz
    obtain ⟨a, b, ha, hb, h⟩ := uf2d_ge hn (twiceMean_penalty fun i => uf5h_nonneg (sineY n x i))
      (twiceMean_penalty fun i => uf5h_nonneg (sineY n x i)) (x 0 + uf5Common (x 0)) (1 - x 0 + uf5Common (x 0))
    rw [h, Option.some.injEq] at hz
    obtain ⟨s, hs, hd⟩ := uf5Common_ge hx.1
    obtain ⟨h1, h2⟩ := abs_le.mp hd
    exact ⟨s, hs, _, _, hz.symm, by linarith, by linarith⟩

/-- The part of `[0, 1]` of the front of UF6: the point 0 and two intervals. -/
def Uf6Kept : Set ℝ := {t | t = 0 ∨ (1 / 4 ≤ t ∧ t ≤ 1 / 2) ∨ (3 / 4 ≤ t ∧ t ≤ 1)}

theorem uf6Common_zero {t : ℝ} (h : t ∈ Uf6Kept) : uf6Common t = 0 := by
  unfold uf6Common
  rcases h with rfl | h
  · simp
  · exact max_eq_left (by nlinarith [sin_four_nonpos h])

theorem uf6_gap {t : ℝ} (h0 : 0 ≤ t) (h1 : t ≤ 1 / 4) :
    t ≤ uf6Common t ∨ (1 / 4 - t ≤ uf6Common t) := by
  unfold uf6Common
  rcases le_total t (1 / 8) with h | h
  · left
    have := two_mul_le_sin (s := 4 * t) (by linarith) (by linarith)
    rw [show π * (4 * t) = 4 * π * t by ring] at this
    exact le_max_of_le_right (by linarith)
  · right
    have := two_mul_le_sin' (s := 4 * t) (by linarith) (by linarith)
    rw [show π * (4 * t) = 4 * π * t by ring] at this
    exact le_max_of_le_right (by linarith)

theorem uf6Common_shift (t : ℝ) : uf6Common (t - 1 / 2) = uf6Common t := by
  unfold uf6Common
  rw [show 4 * π * (t - 1 / 2) = 4 * π * t - 2 * π by ring, sin_sub_two_pi]

theorem uf6Common_ge {t : ℝ} (ht : t ∈ Set.Icc (0 : ℝ) 1) : ∃ s ∈ Uf6Kept, |t - s| ≤ uf6Common t := by
  have hc : 0 ≤ uf6Common t := le_max_left _ _
  by_cases hk : t ∈ Uf6Kept
  · exact ⟨t, hk, by simpa using hc⟩
  · have hcase : (0 ≤ t ∧ t ≤ 1 / 4) ∨ (1 / 2 ≤ t ∧ t ≤ 3 / 4) := by
      unfold Uf6Kept at hk
      simp only [Set.mem_setOf_eq, not_or, not_and, not_le] at hk
      rcases le_total t (1 / 2) with h | h
      · left
        refine ⟨ht.1, ?_⟩
        by_contra hc
        linarith [hk.2.1 (by linarith)]
      · right
        refine ⟨h, ?_⟩
        by_contra hc
        linarith [hk.2.2 (by linarith), ht.2]
    rcases hcase with ⟨h0, h1⟩ | ⟨h0, h1⟩
    · rcases uf6_gap h0 h1 with h | h
      · exact ⟨0, Or.inl rfl, by rw [sub_zero, abs_of_nonneg h0]; exact h⟩
      · exact ⟨1 / 4, Or.inr (Or.inl (by norm_num)), by rw [abs_of_nonpos (by linarith)]; linarith⟩
    · have := uf6_gap (t := t - 1 / 2) (by linarith) (by linarith)
      rw [uf6Common_shift] at this
      rcases this with h | h
      · exact ⟨1 / 2, Or.inr (Or.inl (by norm_num)), by rw [abs_of_nonneg (by linarith)]; linarith⟩
      · exact ⟨3 / 4, Or.inr (Or.inr (by norm_num)), by rw [abs_of_nonpos (by linarith)]; linarith⟩

theorem uf6Kept_iff {t : ℝ} : t ∈ Uf6Kept ↔
    t ∈ Set.Icc (0 : ℝ) 1 ∧ ¬ ((0 < t ∧ t < 0.25) ∨ (0.5 < t ∧ t < 0.75)) := by
  unfold Uf6Kept
  simp only [Set.mem_setOf_eq, Set.mem_Icc, not_or, not_and, not_lt]
  constructor
  · rintro (rfl | ⟨h1, h2⟩ | ⟨h1, h2⟩)
    · norm_num
    · exact ⟨⟨by linarith, by linarith⟩, fun _ => by linarith, fun h => by linarith⟩
    · exact ⟨⟨by linarith, by linarith⟩, fun _ => by linarith, fun _ => by linarith⟩
  · rintro ⟨⟨h0, h1⟩, h2, h3⟩
    rcases eq_or_lt_of_le h0 with h | h
    · exact Or.inl h.symm
    · right
      have := h2 h
      rcases le_or_gt t (1 / 2) with h4 | h4
      · exact Or.inl ⟨by linarith, h4⟩
      · exact Or.inr ⟨by linarith [h3 (by linarith)], h1⟩

/-- C63 for UF6. -/
theorem C63_uf6 {n : ℕ} (hn : 3 ≤ n) :
    IsParetoFront (UfBox n (-1) 1) (uf6 n) (Graph (fun t => 1 - t) Uf6Kept) ∧
      ∀ N, Samples (Graph (fun t => 1 - t) Uf6Kept) N (uf6Front N) := by
  refine ⟨isParetoFront_graph (one_sub_anti _) (fun t ht => ?_) (fun x hx z hz => ?_), fun N z => ?_⟩
  · refine ⟨sineVector n t, sineVector_box (uf6Kept_iff.mp ht).1 le_rfl le_rfl, ?_⟩
    unfold uf6
    rw [uf2d_eq hn, sineVector_zero, uf6Common_zero ht, add_zero, add_zero] <;>
    exact productPenalty_vanishes fun i hi => sineY_sineVector hi.1
  · unfold uf6 at hz
    obtain ⟨a, b, ha, hb, h⟩ := uf2d_ge hn (productPenalty_penalty (sineY n x)) (productPenalty_penalty (sineY n x))
      (x 0 + uf6Common (x 0)) (1 - x 0 + uf6Common (x 0))
    rw [h, Option.some.injEq] at hz
    obtain ⟨s, hs, hd⟩ := uf6Common_ge hx.1
    obtain ⟨h1, h2⟩ := abs_le.mp hd
    exact ⟨s, hs, _, _, hz.symm, by linarith, by linarith⟩
  · unfold uf6Front
    constructor
    · intro hz
      obtain ⟨t, ht, rfl⟩ := List.mem_map.mp hz
      obtain ⟨h1, h2⟩ := List.mem_filter.mp ht
      obtain ⟨i, hi, e⟩ := mem_linspace.mp h1
      exact ⟨⟨t, uf6Kept_iff.mpr ⟨linspace_mem h1, by simpa [imp_iff_not_or] using h2⟩, rfl⟩, i, hi, by simp [e]⟩
    · rintro ⟨⟨t, ht, rfl⟩, i, hi, e⟩
      refine List.mem_map.mpr ⟨t, List.mem_filter.mpr ⟨mem_linspace.mpr ⟨i, hi, by simpa using e⟩, ?_⟩, rfl⟩
      simpa [imp_iff_not_or] using (uf6Kept_iff.mp ht).2

/-- C63 for UF7. -/
theorem C63_uf7 {n : ℕ} (hn : 3 ≤ n) :
    IsParetoFront (UfBox n (-1) 1) (uf7 n) (Graph (fun t => 1 - t) (Set.Icc 0 1)) ∧
      ∀ N, Samples (Graph (fun t => 1 - t) (Set.Icc 0 1)) N (uf7Front N) := by
  refine ⟨isParetoFront_graph (one_sub_anti _) (fun t ht => ?_) (fun x hx z hz => ?_), ufFront_samples _⟩
  · have h5 : (t ^ 5) ^ (0.2 : ℝ) = t := by
      rw [← rpow_natCast, ← rpow_mul ht.1]
      norm_num
    refine ⟨sineVector n (t ^ 5), sineVector_box ⟨pow_nonneg ht.1 5, pow_le_one₀ ht.1 ht.2⟩ le_rfl le_rfl, ?_⟩
    unfold uf7
    rw [uf2d_eq hn, sineVector_zero, h5] <;>
    exact twiceMean_vanishes fun i hi => by rw [sineY_sineVector hi.1]; norm_num
  · unfold uf7 at hz
    obtain ⟨a, b, ha, hb, h⟩ := uf2d_ge hn (twiceMean_penalty fun i => sq_nonneg (sineY n x i))
      (twiceMean_penalty fun i => sq_nonneg (sineY n x i)) (x 0 ^ (0.2 : ℝ)) (1 - x 0 ^ (0.2 : ℝ))
    rw [h, Option.some.injEq] at hz
    exact ⟨x 0 ^ (0.2 : ℝ), ⟨rpow_nonneg hx.1.1 _, rpow_le_one hx.1.1 hx.1.2 (by norm_num)⟩, _, _, hz.symm,
      by linarith, by linarith⟩

/-! ## UF8 - UF10 -/

/-- The vectors with `_y = 0` beyond the first two entries. -/
noncomputable def sineVector3 (n : ℕ) (s t : ℝ) (i : ℕ) : ℝ :=
  if i = 0 then s else if i = 1 then t else 2 * t * sin (2 * π * s + (i + 1 : ℕ) * π / n)

theorem uf3dY_sineVector3 {n : ℕ} {s t : ℝ} {i : ℕ} (hi : 2 ≤ i) : uf3dY n (sineVector3 n s t) i = 0 := by
  unfold uf3dY sineVector3
  rw [if_neg (by omega), if_neg (by omega), if_pos rfl, if_neg one_ne_zero, if_pos rfl, sub_self]

theorem sineVector3_box {n : ℕ} {s t lo hi : ℝ} (hs : s ∈ Set.Icc (0 : ℝ) 1) (ht : t ∈ Set.Icc (0 : ℝ) 1)
    (hlo : lo ≤ -2) (hhi : 2 ≤ hi) : UfBox3 n lo hi (sineVector3 n s t) := by
  refine ⟨by simpa [sineVector3] using hs, by simpa [sineVector3] using ht, fun i hi _ => ?_⟩
  unfold sineVector3
  rw [if_neg (by omega), if_neg (by omega)]
  have h1 := neg_one_le_sin (2 * π * s + (i + 1 : ℕ) * π / n)
  have h2 := sin_le_one (2 * π * s + (i + 1 : ℕ) * π / n)
  constructor <;> nlinarith [ht.1, ht.2]

theorem quarter_turn {t : ℝ} (ht : 0 ≤ t ∧ t ≤ 1) : 0 ≤ sin (0.5 * π * t) ∧ 0 ≤ cos (0.5 * π * t) := by
  have hp := pi_pos
  constructor
  · exact sin_nonneg_of_nonneg_of_le_pi (mul_nonneg (by positivity) ht.1) (by nlinarith [ht.2])
  · exact cos_nonneg_of_neg_pi_div_two_le_of_le (by nlinarith [ht.1, ht.2]) (by nlinarith [ht.1, ht.2])

/-- The first parts of UF8 and UF10 are points of the sphere. -/
theorem angles_sphere {s t : ℝ} (hs : 0 ≤ s ∧ s ≤ 1) (ht : 0 ≤ t ∧ t ≤ 1) :
    [cos (0.5 * π * s) * cos (0.5 * π * t), cos (0.5 * π * s) * sin (0.5 * π * t), sin (0.5 * π * s)] ∈ Sphere := by
  obtain ⟨a1, a2⟩ := quarter_turn hs
  obtain ⟨b1, b2⟩ := quarter_turn ht
  refine ⟨_, _, _, mul_nonneg a2 b2, mul_nonneg a2 b1, a1, ?_, rfl⟩
  nlinarith [sin_sq_add_cos_sq (0.5 * π * s), sin_sq_add_cos_sq (0.5 * π * t)]

/-- `R` has the points of the sphere in the given directions. -/
def OnRays (dirs R : List (List ℝ)) : Prop :=
  R.length = dirs.length ∧ ∀ (i : ℕ) (d : List ℝ), dirs[i]? = some d →
    ∃ s, 0 < s ∧ R[i]? = some (d.map (· / s)) ∧ d.map (· / s) ∈ Sphere

theorem uf8Front_onRays {fuel : ℕ} {N : Int} {dirs : List (List ℝ)} (h1 : getRefDirs fuel 3 (some N) none = some dirs) :
    ∃ R, uf8Front fuel N = some R ∧ OnRays dirs R := by
  unfold uf8Front
  obtain ⟨out, h3, h4, h5⟩ := C50_sphere h1
  refine ⟨out, by rw [h1, Option.bind_some, h3], h4, fun i d hd => ?_⟩
  obtain ⟨u, s, g1, g2, g3, g4⟩ := h5 i _ hd
  obtain ⟨k1, k2, -⟩ := C50_simplex h1 _ (List.mem_of_getElem? hd)
  obtain ⟨a, b, c, rfl⟩ := List.length_eq_three.mp k1
  rw [g3] at g4
  refine ⟨s, g2, by rw [g1, g3], a / s, b / s, c / s, div_nonneg (k2 a (by simp)) g2.le,
    div_nonneg (k2 b (by simp)) g2.le, div_nonneg (k2 c (by simp)) g2.le, ?_, rfl⟩
  simpa [add_assoc] using g4

/-- C63 for UF8: the Pareto front is the positive part of the unit sphere. -/
theorem C63_uf8 {n : ℕ} (hn : 5 ≤ n) : IsParetoFront (UfBox3 n (-2) 2) (uf8 n) Sphere ∧
    ∀ fuel N dirs, getRefDirs fuel 3 (some N) none = some dirs → ∃ R, uf8Front fuel N = some R ∧ OnRays dirs R := by
  refine ⟨isParetoFront_of ?_ (fun x hx z hz => ?_) sphere_antichain, fun fuel N dirs h => uf8Front_onRays h⟩
  · rintro z ⟨a, b, c, ha, hb, hc, hs, rfl⟩
    obtain ⟨s, t, s0, s1, t0, t1, rfl, rfl, rfl⟩ := sphere_angles ha hb hc hs
    refine ⟨sineVector3 n s t, sineVector3_box ⟨s0, s1⟩ ⟨t0, t1⟩ le_rfl le_rfl, ?_⟩
    unfold uf8
    rw [uf3d_eq hn (twiceMean_vanishes fun i hi => by rw [uf3dY_sineVector3 hi.1]; norm_num)]
    simp [sineVector3]
  · unfold uf8 at hz
    obtain ⟨a, b, c, ha, hb, hc, h⟩ := uf3d_ge hn (twiceMean_penalty fun i => sq_nonneg (uf3dY n x i))
      (cos (0.5 * π * x 0) * cos (0.5 * π * x 1)) (cos (0.5 * π * x 0) * sin (0.5 * π * x 1)) (sin (0.5 * π * x 0))
    rw [h, Option.some.injEq] at hz
    refine ⟨_, angles_sphere hx.1 hx.2.1, ?_⟩
    rw [← hz]
    simp [ha, hb, hc]

theorem uf10h_nonneg (y : ℝ) : 0 ≤ 4 * y ^ 2 - cos (8 * π * y) + 1 := by
  have := cos_le_one (8 * π * y)
  nlinarith [sq_nonneg y]

/-- C63 for UF10. -/
theorem C63_uf10 {n : ℕ} (hn : 5 ≤ n) : IsParetoFront (UfBox3 n (-2) 2) (uf10 n) Sphere ∧
    ∀ fuel N dirs, getRefDirs fuel 3 (some N) none = some dirs → ∃ R, uf8Front fuel N = some R ∧ OnRays dirs R := by
  refine ⟨isParetoFront_of ?_ (fun x hx z hz => ?_) sphere_antichain, fun fuel N dirs h => uf8Front_onRays h⟩
  · rintro z ⟨a, b, c, ha, hb, hc, hs, rfl⟩
    obtain ⟨s, t, s0, s1, t0, t1, rfl, rfl, rfl⟩ := sphere_angles ha hb hc hs
    refine ⟨sineVector3 n s t, sineVector3_box ⟨s0, s1⟩ ⟨t0, t1⟩ le_rfl le_rfl, ?_⟩
    unfold uf10
    rw [uf3d_eq hn (twiceMean_vanishes fun i hi => by rw [uf3dY_sineVector3 hi.1]; norm_num)]
    simp [sineVector3]
  · unfold uf10 at hz
    obtain ⟨a, b, c, ha, hb, hc, h⟩ := uf3d_ge hn (twiceMean_penalty fun i => uf10h_nonneg (uf3dY n x i))
      (cos (0.5 * π * x 0) * cos (0.5 * π * x 1)) (cos (0.5 * π * x 0) * sin (0.5 * π * x 1)) (sin (0.5 * π * x 0))
    rw [h, Option.some.injEq] at hz
    refine ⟨_, angles_sphere hx.1 hx.2.1, ?_⟩
    rw [← hz]
    simp [ha, hb, hc]

theorem uf9a_zero {s : ℝ} (h : s ≤ 1 / 4 ∨ 3 / 4 ≤ s) : uf9a s = 0 := by
  unfold uf9a
  refine max_eq_left ?_
  rcases h with h | h <;> nlinarith

theorem triangles_antichain : ∀ y ∈ Triangles, ∀ z ∈ Triangles, List.Forall₂ (· ≤ ·) y z → y = z := by
  rintro y ⟨a, b, c, -, -, -, hs, -, rfl⟩ z ⟨a', b', c', -, -, -, hs', -, rfl⟩ h
  exact (forall₂_sum h).2 (by simp; linarith)

/-- C63 for UF9. -/
theorem C63_uf9 {n : ℕ} (hn : 5 ≤ n) : IsParetoFront (UfBox3 n (-2) 2) (uf9 n) Triangles ∧
    ∀ fuel N dirs, getRefDirs fuel 3 (some N) none = some dirs →
      ∃ R, uf9Front fuel N = some R ∧ ∀ z, z ∈ R ↔ z ∈ dirs ∧ z ∈ Triangles := by
  refine ⟨isParetoFront_of ?_ (fun x hx z hz => ?_) triangles_antichain, fun fuel N dirs h1 => ?_⟩
  · rintro z ⟨a, b, c, ha, hb, hc, hs, hk, rfl⟩
    have hex : ∃ s, 0 ≤ s ∧ s ≤ 1 ∧ (s ≤ 1 / 4 ∨ 3 / 4 ≤ s) ∧ a = s * (1 - c) ∧ b = (1 - s) * (1 - c) := by
      rcases eq_or_lt_of_le (by linarith : 0 ≤ 1 - c) with h0 | h0
      · exact ⟨0, le_rfl, zero_le_one, by norm_num, by linarith, by linarith⟩
      · refine ⟨a / (1 - c), div_nonneg ha h0.le, by rw [div_le_one h0]; linarith, ?_, by field_simp, ?_⟩
        · rcases hk with hk | hk
          · left
            rw [div_le_iff₀ h0]
            linarith
          · right
            rw [le_div_iff₀ h0]
            linarith
        · field_simp
          linarith
    obtain ⟨s, s0, s1, hs', rfl, rfl⟩ := hex
    refine ⟨sineVector3 n s (1 - c), sineVector3_box ⟨s0, s1⟩ ⟨by linarith, by linarith⟩ le_rfl le_rfl, ?_⟩
    unfold uf9
    rw [uf3d_eq hn (twiceMean_vanishes fun i hi => by rw [uf3dY_sineVector3 hi.1]; norm_num)]
    have e0 : sineVector3 n s (1 - c) 0 = s := rfl
    have e1 : sineVector3 n s (1 - c) 1 = 1 - c := rfl
    rw [e0, e1, uf9a_zero hs', Option.some.injEq]
    refine congrArg₂ _ (by ring) (congrArg₂ _ (by ring) (congrArg₂ _ (by ring) rfl))
  · unfold uf9 at hz
    obtain ⟨p, q, r, hp, hq, hr, h⟩ := uf3d_ge hn (twiceMean_penalty fun i => sq_nonneg (uf3dY n x i))
      (0.5 * (uf9a (x 0) + 2 * x 0) * x 1) (0.5 * (uf9a (x 0) - 2 * x 0 + 2) * x 1) (1 - x 1)
    rw [h, Option.some.injEq] at hz
    have ha : 0 ≤ uf9a (x 0) := le_max_left _ _
    have ha' : 1.1 * (1 - 4 * (2 * x 0 - 1) ^ 2) ≤ uf9a (x 0) := le_max_right _ _
    obtain ⟨⟨s0, s1⟩, ⟨t0, t1⟩, -⟩ := hx
    suffices hsuf : ∃ u, 0 ≤ u ∧ u ≤ 1 ∧ (u ≤ 1 / 4 ∨ 3 / 4 ≤ u) ∧ u ≤ 0.5 * (uf9a (x 0) + 2 * x 0) ∧
        1 - u ≤ 0.5 * (uf9a (x 0) - 2 * x 0 + 2) by
      obtain ⟨u, u0, u1, u2, u3, u4⟩ := hsuf
      refine ⟨[u * x 1, (1 - u) * x 1, 1 - x 1], ⟨_, _, _, mul_nonneg u0 t0, mul_nonneg (by linarith) t0, by linarith,
        by ring, ?_, rfl⟩, ?_⟩
      · rcases u2 with u2 | u2
        · left
          nlinarith
        · right
          nlinarith
      · rw [← hz]
        have h1 := mul_le_mul_of_nonneg_right u3 t0
        have h2 := mul_le_mul_of_nonneg_right u4 t0
        simp only [List.forall₂_cons, List.forall₂_nil_left_iff, and_true]
        exact ⟨by linarith, by linarith, by linarith⟩
    by_cases hk : x 0 ≤ 1 / 4 ∨ 3 / 4 ≤ x 0
    · exact ⟨x 0, s0, s1, hk, by linarith, by linarith⟩
    · push Not at hk
      obtain ⟨k1, k2⟩ := hk
      rcases le_total (x 0) (1 / 2) with h | h
      · exact ⟨1 / 4, by norm_num, by norm_num, Or.inl le_rfl, by linarith, by nlinarith⟩
      · exact ⟨3 / 4, by norm_num, by norm_num, Or.inr le_rfl, by nlinarith, by linarith⟩
  · unfold uf9Front
    rw [h1]
    refine ⟨_, rfl, fun z => ?_⟩
    rw [List.mem_filter]
    refine and_congr_right fun h2 => ?_
    obtain ⟨k1, k2, k3⟩ := C50_simplex h1 z h2
    obtain ⟨a, b, c, rfl⟩ := List.length_eq_three.mp k1
    have e : a + b + c = 1 := by simpa [add_assoc] using k3
    simp only [List.getD_cons_succ, List.getD_cons_zero, decide_eq_true_eq]
    constructor
    · intro h3
      refine ⟨a, b, c, k2 a (by simp), k2 b (by simp), k2 c (by simp), e, ?_, rfl⟩
      by_contra hc
      push Not at hc
      exact h3 ⟨hc.1, by linarith [hc.2]⟩
    · rintro ⟨a', b', c', -, -, -, -, hk, he⟩ ⟨h3, h4⟩
      obtain ⟨rfl, rfl, rfl⟩ : a = a' ∧ b = b' ∧ c = c' := by simpa using he
      rcases hk with hk | hk <;> linarith

/-- C63: the constructors reject fewer variables. -/
theorem C63_rejected {n : ℕ} (x : ℕ → ℝ) :
    (n < 3 → uf1 n x = none ∧ uf2 n x = none ∧ uf3 n x = none ∧ uf4 n x = none ∧ uf5 n x = none ∧ uf6 n x = none ∧
      uf7 n x = none) ∧ (n < 5 → uf8 n x = none ∧ uf9 n x = none ∧ uf10 n x = none) := by
  constructor
  · intro h
    simp [uf1, uf2, uf3, uf4, uf5, uf6, uf7, uf2d, uf2dGroups, h]
  · intro h
    simp [uf8, uf9, uf10, uf3d, uf3dGroups, h]

/-- The sampled front of UF8 with 496 points: the hypothesis on the directions is met. -/
example : ∃ dirs : List (List ℝ), getRefDirs 497 3 (some 496) none = some dirs ∧ 496 ≤ dirs.length := by
  obtain ⟨p, dirs, h1, h2, h3, h4, h5, -⟩ := C50_enumerates (K := ℝ) (m := 3) (by norm_num) (some 496) (fuel := 497)
    (by decide)
  refine ⟨dirs, h1, ?_⟩
  have : target 3 (some 496) = 496 := by decide
  omega

/-- A point of the front of UF1 with five variables, and a decision vector for it. -/
example : [1 / 4, 1 - √(1 / 4)] ∈ Graph (fun t => 1 - √t) (Set.Icc 0 1) ∧
    uf1 5 (sineVector 5 (1 / 4)) = some [1 / 4, 1 - √(1 / 4)] := by
  refine ⟨⟨1 / 4, by constructor <;> norm_num, rfl⟩, ?_⟩
  unfold uf1
  rw [uf2d_eq (by norm_num), sineVector_zero] <;>
  exact twiceMean_vanishes fun i hi => by rw [sineY_sineVector hi.1]; norm_num

end Verif.Props
