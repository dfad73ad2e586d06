import Verif.Prob.RSG
import Mathlib.Tactic.Linarith
import Mathlib.Tactic.FieldSimp
import Mathlib.Tactic.Ring
import Mathlib.Tactic.Positivity

/-!
# Lemmas about the reference set generator
-/

namespace Verif.Prob

variable {d : ℕ}

theorem segLen_nonneg (a b : Fin (d + 1) → ℝ) : 0 ≤ segLen a b := Real.sqrt_nonneg _

theorem segLen_pos {a b : Fin (d + 1) → ℝ} (h : a ≠ b) : 0 < segLen a b := by
  refine Real.sqrt_pos.mpr ?_
  obtain ⟨j, hj⟩ := Function.ne_iff.mp h
  refine Finset.sum_pos' (fun j _ => sq_nonneg _) ⟨j, Finset.mem_univ _, ?_⟩
  have : b j - a j ≠ 0 := sub_ne_zero.mpr fun h => hj h.symm
  positivity

theorem pathLen_nonneg : ∀ P : List (Fin (d + 1) → ℝ), 0 ≤ pathLen P
  | [] => le_rfl
  | [_] => le_rfl
  | a :: b :: l => add_nonneg (segLen_nonneg a b) (pathLen_nonneg (b :: l))

theorem dropRepeats_mem (prev : Fin (d + 1) → ℝ) (l : List (Fin (d + 1) → ℝ)) (x : Fin (d + 1) → ℝ) :
    (x = prev ∨ x ∈ dropRepeats prev l) ↔ (x = prev ∨ x ∈ l) := by
  induction l generalizing prev with
  | nil => simp [dropRepeats]
  | cons b l ih =>
    unfold dropRepeats
    by_cases h : b = prev
    · rw [if_pos h]
      subst h
      rw [ih]
      simp
    · rw [if_neg h, List.mem_cons, ih, List.mem_cons]

theorem dropRepeats_sublist (prev : Fin (d + 1) → ℝ) (l : List (Fin (d + 1) → ℝ)) :
    (dropRepeats prev l).Sublist l := by
  induction l generalizing prev with
  | nil => simp [dropRepeats]
  | cons b l ih =>
    unfold dropRepeats
    by_cases h : b = prev
    · rw [if_pos h]
      exact (ih b).cons b
    · rw [if_neg h]
      exact (ih b).cons_cons b

theorem dropRepeats_chain (prev : Fin (d + 1) → ℝ) (l : List (Fin (d + 1) → ℝ)) :
    List.IsChain (· ≠ ·) (prev :: dropRepeats prev l) := by
  induction l generalizing prev with
  | nil => simp [dropRepeats]
  | cons b l ih =>
    unfold dropRepeats
    by_cases h : b = prev
    · rw [if_pos h]
      subst h
      exact ih b
    · rw [if_neg h]
      exact List.isChain_cons_cons.mpr ⟨fun h' => h h'.symm, ih b⟩

theorem keepRows_mem (P : List (Fin (d + 1) → ℝ)) (x : Fin (d + 1) → ℝ) : x ∈ keepRows P ↔ x ∈ P := by
  cases P with
  | nil => simp [keepRows]
  | cons a l =>
    unfold keepRows
    rw [List.mem_cons, dropRepeats_mem, List.mem_cons]

theorem keepRows_sublist (P : List (Fin (d + 1) → ℝ)) : (keepRows P).Sublist P := by
  cases P with
  | nil => simp [keepRows]
  | cons a l => exact (dropRepeats_sublist a l).cons_cons a

theorem keepRows_chain (P : List (Fin (d + 1) → ℝ)) : List.IsChain (· ≠ ·) (keepRows P) := by
  cases P with
  | nil => simp [keepRows]
  | cons a l => exact dropRepeats_chain a l

theorem cumLen_last (acc : ℝ) (a : Fin (d + 1) → ℝ) (l : List (Fin (d + 1) → ℝ)) (z : ℝ) :
    (cumLen acc (a :: l)).getLastD z = acc + pathLen (a :: l) := by
  induction l generalizing acc a z with
  | nil => simp [cumLen, pathLen]
  | cons b l ih =>
    rw [cumLen, pathLen, List.getLastD_cons, ih]
    ring

theorem cumLen_ne_nil (acc : ℝ) (a : Fin (d + 1) → ℝ) (l : List (Fin (d + 1) → ℝ)) :
    ∃ r, cumLen acc (a :: l) = acc :: r := by
  cases l with
  | nil => exact ⟨[], rfl⟩
  | cons b l => exact ⟨_, rfl⟩

theorem matlabRound_close {x : ℝ} (hx : 0 ≤ x) : |((matlabRound x).toNat : ℝ) - x| ≤ 1 / 2 := by
  rcases hx.eq_or_lt with h | h
  · subst h
    simp [matlabRound]
  · have h1 : matlabRound x = ⌊x + 0.5⌋ := by
      rw [matlabRound, sign_pos h, abs_of_pos h]
      simp
    have h2 : (0 : ℤ) ≤ ⌊x + 0.5⌋ := Int.floor_nonneg.mpr (by norm_num; linarith)
    have h3 : (((matlabRound x).toNat : ℤ) : ℝ) = (⌊x + 0.5⌋ : ℝ) := by
      rw [h1, Int.toNat_of_nonneg h2]
    rw [Int.cast_natCast] at h3
    rw [h3, abs_le]
    have h4 := Int.floor_le (x + 0.5)
    have h5 := Int.lt_floor_add_one (x + 0.5)
    have h6 : (0.5 : ℝ) = 1 / 2 := by norm_num
    constructor <;> linarith

theorem matlabRound_natCast (n : ℕ) : (matlabRound (n : ℝ)).toNat = n := by
  have := matlabRound_close (x := (n : ℝ)) (Nat.cast_nonneg n)
  have h2 : |(((matlabRound (n : ℝ)).toNat : ℤ) - (n : ℤ) : ℤ)| < 1 := by
    have h3 : ((|(((matlabRound (n : ℝ)).toNat : ℤ) - (n : ℤ) : ℤ)| : ℤ) : ℝ) < 1 := by
      push_cast
      linarith
    exact_mod_cast h3
  have := Int.abs_lt_one_iff.mp h2
  omega

end Verif.Prob
