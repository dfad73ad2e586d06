import Mathlib.LinearAlgebra.Matrix.PosDef
import Mathlib.Analysis.Matrix.PosDef
import Mathlib.Data.Real.StarOrdered
import Mathlib.Tactic.Linarith

/-!
# Model of `precondition_hessian` (hvd/utils.py 99-127)

`chol` is `scipy.linalg.cholesky(., lower=True)`, `none` if it raises.
-/

namespace Verif.Util

open Matrix

variable {n : ℕ}

/-- The contract of the Cholesky factorization in exact arithmetic: it succeeds on a symmetric matrix
exactly if the matrix is positive definite, and the factor multiplies back. -/
structure IsCholesky (chol : Matrix (Fin n) (Fin n) ℝ → Option (Matrix (Fin n) (Fin n) ℝ)) : Prop where
  sound : ∀ A L, A.IsSymm → chol A = some L → L * Lᵀ = A
  complete : ∀ A : Matrix (Fin n) (Fin n) ℝ, A.IsSymm → ((chol A).isSome ↔ A.PosDef)

/-- `beta` (line 114). -/
noncomputable def precBeta : ℝ := 1 / 10 ^ 6

/-- The loop of lines 118-126; returns the factor, or the last shift if all tries fail, and the number
of factorizations. -/
noncomputable def precLoop (chol : Matrix (Fin n) (Fin n) ℝ → Option (Matrix (Fin n) (Fin n) ℝ))
    (H : Matrix (Fin n) (Fin n) ℝ) : ℕ → ℝ → (Matrix (Fin n) (Fin n) ℝ ⊕ ℝ) × ℕ
  | 0, tau => (.inr tau, 0)
  | t + 1, tau =>
    match chol (H + tau • 1) with
    | some L => (.inl L, 1)
    | none =>
      let r := precLoop chol H t (max (2 * tau) precBeta)
      (r.1, r.2 + 1)

/-- The first shift (lines 115-116). The minimum exists: a 0×0 matrix is factorized by line 112. -/
noncomputable def precTau0 (H : Matrix (Fin n) (Fin n) ℝ) : ℝ :=
  let v := ((List.ofFn fun i => H i i).min?).getD 0
  if v > 0 then 0 else -v + precBeta

/-- `precondition_hessian` (lines 99-127). -/
noncomputable def preconditionHessian (chol : Matrix (Fin n) (Fin n) ℝ → Option (Matrix (Fin n) (Fin n) ℝ))
    (H : Matrix (Fin n) (Fin n) ℝ) : Matrix (Fin n) (Fin n) ℝ :=
  match chol H with
  | some L => L * Lᵀ
  | none =>
    match (precLoop chol H 45 (precTau0 H)).1 with
    | .inl L => L * Lᵀ
    | .inr tau => H + tau • 1

/-! ### Lemmas -/

/-- The shifts that are tried. -/
noncomputable def tauSeq (t0 : ℝ) : ℕ → ℝ
  | 0 => t0
  | k + 1 => max (2 * tauSeq t0 k) precBeta

theorem precBeta_pos : 0 < precBeta := by unfold precBeta; positivity

theorem tauSeq_nonneg {t0 : ℝ} (h : 0 ≤ t0) : ∀ k, 0 ≤ tauSeq t0 k
  | 0 => h
  | k + 1 => le_max_of_le_right precBeta_pos.le

theorem tauSeq_succ (t0 : ℝ) : ∀ k, tauSeq t0 (k + 1) = tauSeq (max (2 * t0) precBeta) k
  | 0 => rfl
  | k + 1 => by rw [tauSeq, tauSeq_succ t0 k, tauSeq]

theorem precTau0_nonneg (H : Matrix (Fin n) (Fin n) ℝ) : 0 ≤ precTau0 H := by
  unfold precTau0
  simp only
  split_ifs with h
  · exact le_rfl
  · have := precBeta_pos
    push Not at h
    linarith

theorem shift_isSymm {H : Matrix (Fin n) (Fin n) ℝ} (hH : H.IsSymm) (tau : ℝ) : (H + tau • 1).IsSymm := by
  unfold Matrix.IsSymm
  rw [transpose_add, transpose_smul, transpose_one, hH]

theorem precLoop_spec {chol : Matrix (Fin n) (Fin n) ℝ → Option (Matrix (Fin n) (Fin n) ℝ)}
    (hc : IsCholesky chol) {H : Matrix (Fin n) (Fin n) ℝ} (hH : H.IsSymm) : ∀ (t : ℕ) (t0 : ℝ),
    (precLoop chol H t t0).2 ≤ t ∧
    ((∃ k < t, ∃ L, (precLoop chol H t t0).1 = .inl L ∧ L * Lᵀ = H + tauSeq t0 k • 1 ∧
        (H + tauSeq t0 k • 1).PosDef ∧ ∀ l < k, ¬ (H + tauSeq t0 l • 1).PosDef) ∨
      ((precLoop chol H t t0).1 = .inr (tauSeq t0 t) ∧ ∀ l < t, ¬ (H + tauSeq t0 l • 1).PosDef)) := by
  intro t
  induction t with
  | zero => intro t0; exact ⟨le_rfl, Or.inr ⟨rfl, by simp⟩⟩
  | succ t ih =>
    intro t0
    rcases hcase : chol (H + t0 • 1) with _ | L
    · obtain ⟨h1, h2⟩ := ih (max (2 * t0) precBeta)
      have hn : ¬ (H + tauSeq t0 0 • 1).PosDef := by
        rw [tauSeq, ← hc.complete _ (shift_isSymm hH t0), hcase]
        simp
      have hu : (precLoop chol H (t + 1) t0).1 = (precLoop chol H t (max (2 * t0) precBeta)).1 ∧
          (precLoop chol H (t + 1) t0).2 = (precLoop chol H t (max (2 * t0) precBeta)).2 + 1 := by
        simp only [precLoop, hcase, and_self]
      rw [hu.1, hu.2]
      refine ⟨by omega, ?_⟩
      rcases h2 with ⟨k, hk, L, e1, e2, e3, e4⟩ | ⟨e1, e2⟩
      · refine Or.inl ⟨k + 1, by omega, L, e1, ?_, ?_, ?_⟩
        · rw [tauSeq_succ]; exact e2
        · rw [tauSeq_succ]; exact e3
        · intro l hl
          rcases l with _ | l
          · exact hn
          · rw [tauSeq_succ]; exact e4 l (by omega)
      · refine Or.inr ⟨by rw [tauSeq_succ]; exact e1, fun l hl => ?_⟩
        rcases l with _ | l
        · exact hn
        · rw [tauSeq_succ]; exact e2 l (by omega)
    · refine ⟨by simp [precLoop, hcase], Or.inl ⟨0, by omega, L, by simp [precLoop, hcase], ?_, ?_, by simp⟩⟩
      · exact hc.sound _ _ (shift_isSymm hH t0) hcase
      · rw [tauSeq, ← hc.complete _ (shift_isSymm hH t0), hcase]
        rfl

theorem tauSeq_ge {t0 : ℝ} (h : 0 ≤ t0) : ∀ k, 2 ^ k * precBeta ≤ tauSeq t0 (k + 1)
  | 0 => by simp [tauSeq]
  | k + 1 => by
    have := tauSeq_ge h k
    rw [tauSeq]
    apply le_max_of_le_left
    rw [pow_succ]
    linarith

theorem posDef_mono {H : Matrix (Fin n) (Fin n) ℝ} {a b : ℝ} (hab : a ≤ b) (h : (H + a • 1).PosDef) :
    (H + b • 1).PosDef := by
  have hb : H + b • (1 : Matrix (Fin n) (Fin n) ℝ) = (H + a • 1) + (b - a) • 1 := by
    rw [sub_smul]; abel
  rw [hb]
  exact h.add_posSemidef (PosSemidef.one.smul (sub_nonneg.mpr hab))

end Verif.Util
