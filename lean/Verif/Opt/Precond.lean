import Verif.Util.Precondition
import Verif.Props.Utils
import Verif.Props.Kkt
import Verif.HVD.Decision

/-!
# The preconditioning of the Newton methods for tables

`precondition_hessian` (hvd/utils.py 99-127) as it is called in hvd/newton.py 245-246 and 577-578 and in
hvd/mmd_newton.py 253-254.
-/

namespace Verif.Opt

open Verif.Util Verif.HV Verif.Props Matrix

/-- The Cholesky factorization for matrices of any size. -/
abbrev Chol := ∀ n : ℕ, Matrix (Fin n) (Fin n) ℝ → Option (Matrix (Fin n) (Fin n) ℝ)

/-- `precondition_hessian(A)` for a square table (mmd_newton.py 254, newton.py 578). -/
noncomputable def precondTable (chol : Chol) (A : List (List ℝ)) : List (List ℝ) :=
  List.ofFn fun i => List.ofFn fun j => preconditionHessian (chol A.length) (fun i j => at2 A i j) i j

/-- `-1.0 * precondition_hessian(-1.0 * A)` (newton.py 246). -/
noncomputable def precondTableNeg (chol : Chol) (A : List (List ℝ)) : List (List ℝ) :=
  (precondTable chol (A.map fun r => r.map (-1 * ·))).map fun r => r.map (-1 * ·)

theorem precondTable_isMat (chol : Chol) {m : ℕ} {A : List (List ℝ)} (hA : IsMat m m A) : IsMat m m (precondTable chol A) := by
  refine ⟨by simp [precondTable, hA.1], fun r hr => ?_⟩
  obtain ⟨i, rfl⟩ := (List.mem_ofFn' _ _).mp hr
  simp [hA.1]

theorem neg_isMat {m : ℕ} {A : List (List ℝ)} (hA : IsMat m m A) : IsMat m m (A.map fun r => r.map (-1 * ·)) := by
  refine ⟨by simp [hA.1], fun r hr => ?_⟩
  obtain ⟨x, hx, rfl⟩ := List.mem_map.mp hr
  simp [hA.2 x hx]

theorem at2_neg (A : List (List ℝ)) (i j : ℕ) : at2 (A.map fun r => r.map (-1 * ·)) i j = -at2 A i j := by
  simp only [at2, List.getD_eq_getElem?_getD, List.getElem?_map]
  cases h : A[i]? with
  | none => simp
  | some r => cases h' : r[j]? <;> simp [h']

theorem precondTableNeg_isMat (chol : Chol) {m : ℕ} {A : List (List ℝ)} (hA : IsMat m m A) :
    IsMat m m (precondTableNeg chol A) := neg_isMat (precondTable_isMat chol (neg_isMat hA))

theorem at2_precondTable (chol : Chol) {m : ℕ} {A : List (List ℝ)} (hA : IsMat m m A) (i j : Fin m) :
    at2 (precondTable chol A) i j = preconditionHessian (chol m) (fun i j => at2 A i j) i j := by
  obtain ⟨rfl, -⟩ := hA
  simp [precondTable, at2, List.getD_eq_getElem?_getD]

/-- A positive definite system has a solution, and the quadratic form of the matrix is positive. -/
theorem posDef_system {m : ℕ} {P : Matrix (Fin m) (Fin m) ℝ} (hP : P.PosDef) (g : Fin m → ℝ) :
    (∃ s, P *ᵥ s = -g) ∧ ∀ s, P *ᵥ s = -g → g ≠ 0 → g ⬝ᵥ s < 0 := by
  refine ⟨⟨P⁻¹ *ᵥ (-g), ?_⟩, fun s hs hg => ?_⟩
  · rw [mulVec_mulVec, mul_nonsing_inv _ (by rw [isUnit_iff_ne_zero]; exact hP.det_pos.ne'), one_mulVec]
  · have hs0 : s ≠ 0 := by
      rintro rfl
      rw [mulVec_zero] at hs
      exact hg (neg_eq_zero.mp hs.symm)
    have := hP.dotProduct_mulVec_pos hs0
    rw [hs] at this
    simp only [star_trivial, dotProduct_neg] at this
    rw [dotProduct_comm]
    linarith

/-- The same for the preconditioned table of a symmetric matrix `B` that is not below `-8·10⁶`. -/
theorem precondTable_system {chol : Chol} (hc : ∀ n, IsCholesky (chol n)) {m : ℕ} {A : List (List ℝ)} (hA : IsMat m m A)
    (hsym : ∀ b < m, ∀ c < m, at2 A b c = at2 A c b)
    (hB : ∀ z : ℕ → ℝ, (∃ b < m, z b ≠ 0) → 0 < ∑ b ∈ Finset.range m, z b * ∑ c ∈ Finset.range m, at2 A b c * z c +
      8 * 10 ^ 6 * ∑ b ∈ Finset.range m, z b ^ 2) (g : ℕ → ℝ) :
    (∃ s : ℕ → ℝ, ∀ b < m, ∑ c ∈ Finset.range m, at2 (precondTable chol A) b c * s c = -g b) ∧
    ∀ s : ℕ → ℝ, (∀ b < m, ∑ c ∈ Finset.range m, at2 (precondTable chol A) b c * s c = -g b) → (∃ b < m, g b ≠ 0) →
      ∑ b ∈ Finset.range m, g b * s b < 0 := by
  set H : Matrix (Fin m) (Fin m) ℝ := fun i j => at2 A i j with hH
  have hHs : H.IsSymm := by
    ext i j
    exact hsym j j.isLt i i.isLt
  have hext : ∀ z : Fin m → ℝ, ∃ y : ℕ → ℝ, ∀ i : Fin m, y i = z i := fun z =>
    ⟨fun b => if h : b < m then z ⟨b, h⟩ else 0, fun i => by simp⟩
  have hpd : (H + (8 * 10 ^ 6 : ℝ) • 1).PosDef := by
    refine PosDef.of_dotProduct_mulVec_pos ?_ fun z hz => ?_
    · refine IsHermitian.add ?_ ?_
      · rw [IsHermitian, conjTranspose_eq_transpose_of_trivial]; exact hHs
      · rw [IsHermitian, conjTranspose_eq_transpose_of_trivial, transpose_smul, transpose_one]
    · obtain ⟨y, hy⟩ := hext z
      obtain ⟨i, hi⟩ := Function.ne_iff.mp hz
      have := hB y ⟨i, i.isLt, by rw [hy]; exact hi⟩
      rw [Finset.sum_range, Finset.sum_range] at this
      have e : star z ⬝ᵥ ((H + (8 * 10 ^ 6 : ℝ) • (1 : Matrix (Fin m) (Fin m) ℝ)) *ᵥ z) =
          ∑ i : Fin m, y i * ∑ c ∈ Finset.range m, at2 A i c * y c + 8 * 10 ^ 6 * ∑ i : Fin m, y i ^ 2 := by
        rw [star_trivial, add_mulVec, smul_mulVec, one_mulVec, dotProduct_add, dotProduct_smul]
        simp only [dotProduct, mulVec, smul_eq_mul, hy, Finset.sum_range, hH, sq]
      rw [e]
      exact this
  have hP : (preconditionHessian (chol m) H).PosDef := C20_range (hc m) hHs hpd
  have hmul : ∀ (s : ℕ → ℝ) (i : Fin m), ∑ c ∈ Finset.range m, at2 (precondTable chol A) i c * s c =
      (preconditionHessian (chol m) H *ᵥ fun j => s j) i := by
    intro s i
    rw [Finset.sum_range]
    exact Finset.sum_congr rfl fun j _ => by rw [at2_precondTable chol hA i j]
  obtain ⟨h1, h2⟩ := posDef_system hP fun j => g j
  refine ⟨?_, fun s hs ⟨b, hb, hg⟩ => ?_⟩
  · obtain ⟨z, hz⟩ := h1
    obtain ⟨y, hy⟩ := hext z
    refine ⟨y, fun b hb => ?_⟩
    rw [hmul y ⟨b, hb⟩, funext hy, hz]
    rfl
  · have := h2 (fun j => s j) (funext fun i => (hmul s i).symm.trans (hs i i.isLt)) fun h => hg (congrFun h ⟨b, hb⟩)
    rw [Finset.sum_range]
    exact this

end Verif.Opt
