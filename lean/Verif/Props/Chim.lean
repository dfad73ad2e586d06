import Verif.Util.Chim
import Mathlib.LinearAlgebra.FiniteDimensional.Lemmas
import Mathlib.LinearAlgebra.LinearIndependent.Lemmas
import Mathlib.LinearAlgebra.Matrix.DotProduct
import Mathlib.LinearAlgebra.Matrix.NonsingularInverse
import Mathlib.Data.Fin.VecNotation
import Mathlib.Tactic.Linarith
import Mathlib.Tactic.FieldSimp
import Mathlib.Tactic.Positivity
import Mathlib.Tactic.NormNum

/-!
# C57: the direction of the shift
-/

namespace Verif.Props

open Verif.Util Matrix

variable {m : ℕ}

/-- The contract of `scipy.linalg.qr`: an orthogonal matrix times an upper triangular one. -/
def QrSound (qr : Matrix (Fin (m + 1)) (Fin m) ℝ → Matrix (Fin (m + 1)) (Fin (m + 1)) ℝ) : Prop :=
  ∀ A, (qr A)ᵀ * qr A = 1 ∧ ∃ R : Matrix (Fin (m + 1)) (Fin m) ℝ, A = qr A * R ∧ ∀ i j, j.castSucc < i → R i j = 0

/-- An extreme point of a set of points: one of them, least in an objective. -/
def IsExtreme (Y : List (Fin (m + 1) → ℝ)) (j : Fin (m + 1)) (z : Fin (m + 1) → ℝ) : Prop :=
  z ∈ Y ∧ ∀ y ∈ Y, z j ≤ y j

theorem leastRow_extreme (j : Fin (m + 1)) (a : Fin (m + 1) → ℝ) (l : List (Fin (m + 1) → ℝ)) :
    IsExtreme (a :: l) j (leastRow j a l) := by
  induction l generalizing a with
  | nil => simp [IsExtreme, leastRow]
  | cons b l ih =>
    unfold leastRow
    by_cases h : b j < a j
    · rw [if_pos h]
      obtain ⟨h1, h2⟩ := ih b
      refine ⟨List.mem_cons_of_mem _ h1, fun y hy => ?_⟩
      rcases List.mem_cons.mp hy with rfl | hy
      · exact (h2 b (by simp)).trans h.le
      · exact h2 y hy
    · rw [if_neg h]
      obtain ⟨h1, h2⟩ := ih a
      refine ⟨?_, fun y hy => ?_⟩
      · rcases List.mem_cons.mp h1 with h1 | h1
        · rw [h1]
          simp
        · exact List.mem_cons_of_mem _ (List.mem_cons_of_mem _ h1)
      · rcases List.mem_cons.mp hy with rfl | hy
        · exact h2 y (by simp)
        · rcases List.mem_cons.mp hy with rfl | hy
          · exact (h2 a (by simp)).trans (not_lt.mp h)
          · exact h2 y (List.mem_cons_of_mem _ hy)

theorem qr_last_unit {qr : Matrix (Fin (m + 1)) (Fin m) ℝ → Matrix (Fin (m + 1)) (Fin (m + 1)) ℝ} (hq : QrSound qr)
    (A : Matrix (Fin (m + 1)) (Fin m) ℝ) : ∑ j, qr A j (Fin.last m) ^ 2 = 1 := by
  have := congrFun (congrFun (hq A).1 (Fin.last m)) (Fin.last m)
  rw [Matrix.mul_apply, Matrix.one_apply_eq] at this
  rw [← this]
  refine Finset.sum_congr rfl fun j _ => ?_
  rw [Matrix.transpose_apply, sq]

theorem qr_last_orthogonal {qr : Matrix (Fin (m + 1)) (Fin m) ℝ → Matrix (Fin (m + 1)) (Fin (m + 1)) ℝ}
    (hq : QrSound qr) (A : Matrix (Fin (m + 1)) (Fin m) ℝ) (i : Fin m) : ∑ j, qr A j (Fin.last m) * A j i = 0 := by
  obtain ⟨h1, R, h2, h3⟩ := hq A
  have h4 : (qr A)ᵀ * A = R := by
    calc (qr A)ᵀ * A = (qr A)ᵀ * (qr A * R) := by rw [← h2]
      _ = R := by rw [← Matrix.mul_assoc, h1, Matrix.one_mul]
  have h5 := congrFun (congrFun h4 (Fin.last m)) i
  rw [h3 _ _ (Fin.castSucc_lt_last i), Matrix.mul_apply] at h5
  rw [← h5]
  rfl

theorem computeChim_eq {qr : Matrix (Fin (m + 1)) (Fin m) ℝ → Matrix (Fin (m + 1)) (Fin (m + 1)) ℝ}
    (hq : QrSound qr) (a : Fin (m + 1) → ℝ) (l : List (Fin (m + 1) → ℝ)) :
    computeChim qr (a :: l) = some fun j => -|qr (chimMatrix a l)ᵀ j (Fin.last m)| := by
  unfold computeChim
  simp only [neg_mul, one_mul, neg_sq, sq_abs, qr_last_unit hq, Real.sqrt_one, div_one]

/-- C57: the result is a unit vector without positive components. -/
theorem C57_unit {qr : Matrix (Fin (m + 1)) (Fin m) ℝ → Matrix (Fin (m + 1)) (Fin (m + 1)) ℝ} (hq : QrSound qr)
    {Y : List (Fin (m + 1) → ℝ)} {n : Fin (m + 1) → ℝ} (h : computeChim qr Y = some n) :
    ∑ j, n j ^ 2 = 1 ∧ ∀ j, n j ≤ 0 := by
  cases Y with
  | nil => exact absurd h (by simp [computeChim])
  | cons a l =>
    rw [computeChim_eq hq, Option.some.injEq] at h
    subst h
    refine ⟨?_, fun j => neg_nonpos.mpr (abs_nonneg _)⟩
    simp only [neg_sq, sq_abs]
    exact qr_last_unit hq _

/-- Two vectors orthogonal to the same `m` independent ones are proportional. -/
theorem proportional_of_orthogonal {M : Fin m → Fin (m + 1) → ℝ} (hM : LinearIndependent ℝ M) {v q : Fin (m + 1) → ℝ}
    (hv : v ≠ 0) (hvM : ∀ i, ∑ j, v j * M i j = 0) (hqM : ∀ i, ∑ j, q j * M i j = 0) :
    ∃ c : ℝ, ∀ j, q j = c * v j := by
  have hvv : v ⬝ᵥ v ≠ 0 := fun h => hv (dotProduct_self_eq_zero.mp h)
  have hspan : ∀ w : Fin (m + 1) → ℝ, (∀ i, ∑ j, w j * M i j = 0) → ∀ x ∈ Submodule.span ℝ (Set.range M), w ⬝ᵥ x = 0 := by
    intro w hw x hx
    induction hx using Submodule.span_induction with
    | mem x hx =>
      obtain ⟨i, rfl⟩ := hx
      exact hw i
    | zero => exact dotProduct_zero w
    | add x y _ _ h1 h2 => rw [dotProduct_add, h1, h2, add_zero]
    | smul a x _ h1 => rw [dotProduct_smul, h1, smul_zero]
  have hli : LinearIndependent ℝ (Fin.snoc M v : Fin (m + 1) → Fin (m + 1) → ℝ) := by
    rw [linearIndependent_finSnoc]
    exact ⟨hM, fun h => hvv (hspan v hvM v h)⟩
  have htop := hli.span_eq_top_of_card_eq_finrank (by simp)
  have hw : ∀ x, (q - ((q ⬝ᵥ v) / (v ⬝ᵥ v)) • v) ⬝ᵥ x = 0 := by
    intro x
    have hx : x ∈ Submodule.span ℝ (Set.range (Fin.snoc M v : Fin (m + 1) → Fin (m + 1) → ℝ)) := by
      rw [htop]
      exact Submodule.mem_top
    induction hx using Submodule.span_induction with
    | mem x hx =>
      obtain ⟨i, rfl⟩ := hx
      refine Fin.lastCases ?_ (fun i => ?_) i
      · rw [Fin.snoc_last, sub_dotProduct, smul_dotProduct, smul_eq_mul, div_mul_cancel₀ _ hvv, sub_self]
      · rw [Fin.snoc_castSucc, sub_dotProduct, smul_dotProduct]
        have h1 : q ⬝ᵥ M i = 0 := hqM i
        have h2 : v ⬝ᵥ M i = 0 := hvM i
        rw [h1, h2, smul_zero, sub_zero]
    | zero => exact dotProduct_zero _
    | add x y _ _ h1 h2 => rw [dotProduct_add, h1, h2, add_zero]
    | smul a x _ h1 => rw [dotProduct_smul, h1, smul_zero]
  have h0 := dotProduct_self_eq_zero.mp (hw _)
  refine ⟨(q ⬝ᵥ v) / (v ⬝ᵥ v), fun j => ?_⟩
  have := congrFun h0 j
  simp only [Pi.sub_apply, Pi.smul_apply, smul_eq_mul, Pi.zero_apply] at this
  linarith

/-- C57, orthogonality. If the extreme points are independent and their simplex has a normal without negative
components, the result is orthogonal to it. (The full property does not ask for the normal to have one sign.) -/
theorem C57_orthogonal_partial {qr : Matrix (Fin (m + 1)) (Fin m) ℝ → Matrix (Fin (m + 1)) (Fin (m + 1)) ℝ}
    (hq : QrSound qr) {Y : List (Fin (m + 1) → ℝ)} (hY : Y ≠ []) : ∃ (Z : Fin (m + 1) → Fin (m + 1) → ℝ)
      (n : Fin (m + 1) → ℝ), (∀ j, IsExtreme Y j (Z j)) ∧ computeChim qr Y = some n ∧
      (LinearIndependent ℝ (fun i : Fin m => Z i.succ - Z 0) →
        (∃ v : Fin (m + 1) → ℝ, v ≠ 0 ∧ (∀ j, 0 ≤ v j) ∧ ∀ i, ∑ j, v j * (Z i j - Z 0 j) = 0) →
        ∀ i, ∑ j, n j * (Z i j - Z 0 j) = 0) := by
  cases Y with
  | nil => exact absurd rfl hY
  | cons a l =>
    refine ⟨fun j => leastRow j a l, _, fun j => leastRow_extreme j a l, computeChim_eq hq a l, ?_⟩
    rintro hli ⟨v, hv, hv0, hvZ⟩ i
    obtain ⟨c, hc⟩ := proportional_of_orthogonal hli hv (fun i => hvZ i.succ)
      (q := fun j => qr (chimMatrix a l)ᵀ j (Fin.last m)) (fun i => qr_last_orthogonal hq (chimMatrix a l)ᵀ i)
    have : ∀ j, -|qr (chimMatrix a l)ᵀ j (Fin.last m)| = -|c| * v j := by
      intro j
      have : qr (chimMatrix a l)ᵀ j (Fin.last m) = c * v j := hc j
      rw [this, abs_mul, abs_of_nonneg (hv0 j), neg_mul]
    simp only [this, mul_assoc]
    rw [← Finset.mul_sum, hvZ i, mul_zero]

/-- C57 for two objectives: always orthogonal. -/
theorem C57_two {qr : Matrix (Fin 2) (Fin 1) ℝ → Matrix (Fin 2) (Fin 2) ℝ} (hq : QrSound (m := 1) qr)
    {Y : List (Fin 2 → ℝ)} (hY : Y ≠ []) : ∃ (Z : Fin 2 → Fin 2 → ℝ) (n : Fin 2 → ℝ),
      (∀ j, IsExtreme (m := 1) Y j (Z j)) ∧ computeChim (m := 1) qr Y = some n ∧
      (Z 1 ≠ Z 0 → ∑ j, n j * (Z 1 j - Z 0 j) = 0) := by
  obtain ⟨Z, n, hZ, hn, h⟩ := C57_orthogonal_partial (m := 1) hq hY
  refine ⟨Z, n, hZ, hn, fun hne => ?_⟩
  have h0 := (hZ 0).2 (Z 1) (hZ 1).1
  have h1 := (hZ 1).2 (Z 0) (hZ 0).1
  refine h ?_ ⟨![Z 0 1 - Z 1 1, Z 1 0 - Z 0 0], ?_, ?_, ?_⟩ 1
  · rw [linearIndependent_unique_iff]
    exact sub_ne_zero.mpr hne
  · intro h
    refine hne (funext fun j => ?_)
    have e0 := congrFun h 0
    have e1 := congrFun h 1
    simp at e0 e1
    refine Fin.cases ?_ (fun i => ?_) j
    · linarith
    · have : i.succ = (1 : Fin 2) := by
        ext
        simp
      rw [this]
      linarith
  · intro j
    refine Fin.cases ?_ (fun i => ?_) j
    · simpa using h1
    · simpa using h0
  · intro i
    refine Fin.cases ?_ (fun i => ?_) i
    · simp
    · have : i.succ = (1 : Fin 2) := by
        ext
        simp
      rw [this, Fin.sum_univ_two]
      simp
      ring

/-- Three points, each least in one objective. -/
def tiltedFront : List (Fin 3 → ℝ) := [![0, 4, 40], ![4, 0, 40], ![1, 1, 0]]

/-- C57 is violated for three objectives: for these independent and mutually non-dominated extreme points (whose normal
is `(20, 20, -1)`), the result is not orthogonal to their simplex, whatever the details of the factorisation. -/
theorem C57_violated {qr : Matrix (Fin 3) (Fin 2) ℝ → Matrix (Fin 3) (Fin 3) ℝ} (hq : QrSound (m := 2) qr) :
    ∃ n, computeChim (m := 2) qr tiltedFront = some n ∧
      ∑ j, n j * ((![1, 1, 0] : Fin 3 → ℝ) j - (![0, 4, 40] : Fin 3 → ℝ) j) ≠ 0 := by
  refine ⟨_, computeChim_eq (m := 2) hq _ _, ?_⟩
  have e0 : leastRow (m := 2) 0 ![0, 4, 40] [![4, 0, 40], ![1, 1, 0]] = ![0, 4, 40] := by
    norm_num [leastRow]
  have e1 : leastRow (m := 2) 1 ![0, 4, 40] [![4, 0, 40], ![1, 1, 0]] = ![4, 0, 40] := by
    norm_num [leastRow]
  have e2 : leastRow (m := 2) 2 ![0, 4, 40] [![4, 0, 40], ![1, 1, 0]] = ![1, 1, 0] := by
    have h1 : ¬(![4, 0, 40] : Fin 3 → ℝ) 2 < (![0, 4, 40] : Fin 3 → ℝ) 2 := by simp
    have h2 : (![1, 1, 0] : Fin 3 → ℝ) 2 < (![0, 4, 40] : Fin 3 → ℝ) 2 := by simp
    unfold leastRow
    rw [if_neg h1]
    unfold leastRow
    rw [if_pos h2]
    rfl
  obtain ⟨A, hA⟩ : ∃ A, A = (chimMatrix (m := 2) ![0, 4, 40] [![4, 0, 40], ![1, 1, 0]])ᵀ := ⟨_, rfl⟩
  have h0 := qr_last_orthogonal (m := 2) hq A 0
  have h1 := qr_last_orthogonal (m := 2) hq A 1
  have hu := qr_last_unit (m := 2) hq A
  have a0 : ∀ j, A j 0 = (![4, 0, 40] : Fin 3 → ℝ) j - (![0, 4, 40] : Fin 3 → ℝ) j := by
    intro j
    rw [hA, transpose_apply, chimMatrix, e0]
    exact congrArg (fun z : Fin 3 → ℝ => z j - _) e1
  have a1 : ∀ j, A j 1 = (![1, 1, 0] : Fin 3 → ℝ) j - (![0, 4, 40] : Fin 3 → ℝ) j := by
    intro j
    rw [hA, transpose_apply, chimMatrix, e0]
    exact congrArg (fun z : Fin 3 → ℝ => z j - _) e2
  rw [← hA]
  simp only [a0, a1] at h0 h1
  rw [Fin.sum_univ_three] at h0 h1 hu ⊢
  simp only [Matrix.cons_val_zero, Matrix.cons_val_one, Matrix.cons_val] at h0 h1 ⊢
  obtain ⟨x, hx⟩ : ∃ x, x = qr A 0 (Fin.last 2) := ⟨_, rfl⟩
  obtain ⟨y, hy⟩ : ∃ y, y = qr A 1 (Fin.last 2) := ⟨_, rfl⟩
  obtain ⟨z, hz⟩ : ∃ z, z = qr A 2 (Fin.last 2) := ⟨_, rfl⟩
  rw [← hx, ← hy, ← hz] at h0 h1 hu ⊢
  have hxy : y = x := by linarith
  have hxz : z = -(x / 20) := by
    rw [hxy] at h1
    linarith
  rw [hxy, hxz] at hu ⊢
  rw [abs_neg, abs_div, abs_of_pos (by norm_num : (0 : ℝ) < 20)]
  have hx0 : 0 < |x| := abs_pos.mpr fun h => by
    rw [h] at hu
    norm_num at hu
  intro h
  linarith

/-- A factorisation of this kind exists, for two objectives and any matrix of this shape, and its result on a front. -/
example : ∃ qr : Matrix (Fin 2) (Fin 1) ℝ → Matrix (Fin 2) (Fin 2) ℝ, QrSound (m := 1) qr := by
  refine ⟨fun A => if A 0 0 ^ 2 + A 1 0 ^ 2 = 0 then 1 else
    !![A 0 0 / Real.sqrt (A 0 0 ^ 2 + A 1 0 ^ 2), -A 1 0 / Real.sqrt (A 0 0 ^ 2 + A 1 0 ^ 2);
      A 1 0 / Real.sqrt (A 0 0 ^ 2 + A 1 0 ^ 2), A 0 0 / Real.sqrt (A 0 0 ^ 2 + A 1 0 ^ 2)], fun A => ?_⟩
  beta_reduce
  by_cases h : A 0 0 ^ 2 + A 1 0 ^ 2 = 0
  · rw [if_pos h]
    have h0 : A 0 0 = 0 := by nlinarith [sq_nonneg (A 0 0), sq_nonneg (A 1 0)]
    have h1 : A 1 0 = 0 := by nlinarith [sq_nonneg (A 0 0), sq_nonneg (A 1 0)]
    refine ⟨by simp, A, by simp, fun i j hij => ?_⟩
    fin_cases i <;> fin_cases j <;> simp_all
  · rw [if_neg h]
    have hs := Real.sq_sqrt (show (0 : ℝ) ≤ A 0 0 ^ 2 + A 1 0 ^ 2 by positivity)
    have hs0 : Real.sqrt (A 0 0 ^ 2 + A 1 0 ^ 2) ≠ 0 := fun h' => h (by rw [← hs, h']; norm_num)
    obtain ⟨s, hsd⟩ : ∃ s, s = Real.sqrt (A 0 0 ^ 2 + A 1 0 ^ 2) := ⟨_, rfl⟩
    rw [← hsd] at hs hs0 ⊢
    refine ⟨?_, !![s; 0], ?_, ?_⟩
    · ext i j
      fin_cases i <;> fin_cases j <;> simp [Matrix.mul_apply, Fin.sum_univ_two] <;> field_simp <;> linarith
    · ext i j
      fin_cases i <;> fin_cases j <;> simp [Matrix.mul_apply, Fin.sum_univ_two] <;> field_simp
    · intro i j hij
      fin_cases i <;> fin_cases j <;> simp_all

end Verif.Props
