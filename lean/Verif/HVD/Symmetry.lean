import Verif.HVD.Hessian

/-!
# The second derivatives are symmetric
-/

namespace Verif.HVD

open Verif.HV Verif.HV.Spec

theorem setCoord_comm {K : Type*} {Y : List (ℕ → K)} {i j k m : ℕ} {s t : K} (h : i ≠ j ∨ k ≠ m) :
    setCoord (setCoord Y i k t) j m s = setCoord (setCoord Y j m s) i k t := by
  apply List.ext_getElem (by simp [setCoord])
  intro l h1 h2
  simp only [setCoord, List.getElem_modify]
  by_cases hi : i = l <;> by_cases hj : j = l
  · subst hi; subst hj
    have hkm : k ≠ m := h.resolve_left (fun c => c rfl)
    simp only [if_true]
    rw [Function.update_comm hkm]
  · simp [hi, hj]
  · simp [hi, hj]
  · simp [hi, hj]

/-- Two functions that are the slopes of one function of two variables, affine in each of them, have
the same derivative. -/
theorem mixed_eq {F : ℝ → ℝ → ℝ} {A B : ℝ → ℝ} {s0 t0 ε a b : ℝ} (hε : 0 < ε)
    (h1 : ∀ s t, s0 - ε < s → s < s0 + ε → t0 - ε < t → t < t0 + ε → F s t = F s0 t + (s - s0) * A t)
    (h2 : ∀ s t, s0 - ε < s → s < s0 + ε → t0 - ε < t → t < t0 + ε → F s t = F s t0 + (t - t0) * B s)
    (hA : HasDerivAt A a t0) (hB : HasDerivAt B b s0) : a = b := by
  have key : ∀ s t, s0 - ε < s → s < s0 + ε → t0 - ε < t → t < t0 + ε →
      (s - s0) * (A t - A t0) = (t - t0) * (B s - B s0) := by
    intro s t a1 a2 a3 a4
    have e1 := h1 s t a1 a2 a3 a4
    have e2 := h1 s t0 a1 a2 (by linarith) (by linarith)
    have e3 := h2 s t a1 a2 a3 a4
    have e4 := h2 s0 t (by linarith) (by linarith) a3 a4
    linarith
  set c := (B (s0 + ε / 2) - B s0) / (ε / 2) with hc
  have hε2 : ε / 2 ≠ 0 := by positivity
  have hcε : B (s0 + ε / 2) - B s0 = ε / 2 * c := by rw [hc, mul_div_cancel₀ _ hε2]
  have hA' : HasDerivAt A c t0 := by
    refine hasDerivAt_of_affine hε fun t a3 a4 => ?_
    have := key (s0 + ε / 2) t (by linarith) (by linarith) a3 a4
    have h3 : s0 + ε / 2 - s0 = ε / 2 := by ring
    rw [h3, hcε] at this
    have h4 : A t - A t0 = (t - t0) * c := mul_left_cancel₀ hε2 (by rw [this]; ring)
    linarith
  have hB' : HasDerivAt B c s0 := by
    refine hasDerivAt_of_affine hε fun s a1 a2 => ?_
    have e1 := key s (t0 + ε / 2) a1 a2 (by linarith) (by linarith)
    have e2 := key (s0 + ε / 2) (t0 + ε / 2) (by linarith) (by linarith) (by linarith) (by linarith)
    have h3 : s0 + ε / 2 - s0 = ε / 2 := by ring
    have h4 : t0 + ε / 2 - t0 = ε / 2 := by ring
    rw [h4] at e1 e2
    rw [h3] at e2
    have hc' : A (t0 + ε / 2) - A t0 = ε / 2 * c := by
      rw [← hcε]; exact mul_left_cancel₀ hε2 e2
    rw [hc'] at e1
    have h5 : ε / 2 * ((s - s0) * c) = ε / 2 * (B s - B s0) := by linarith
    have := mul_left_cancel₀ hε2 h5
    linarith
  rw [hA.unique hA', hB.unique hB']

/-- Affine in coordinate `(j, m)`, uniformly for small moves of coordinate `(i, k)`. -/
theorem affine_rect {n i j k m : ℕ} {Y : List (ℕ → ℝ)} {ref : ℕ → ℝ} (h : GeneralPosition (n + 1) Y ref)
    (hi : i < Y.length) (hj : j < Y.length) (hk : k < n + 1) (hm : m < n + 1) (hne : i ≠ j ∨ k ≠ m) :
    ∃ ε > 0, ∀ s t, ptOf Y j m - ε < s → s < ptOf Y j m + ε → ptOf Y i k - ε < t → t < ptOf Y i k + ε →
      hvol (n + 1) (setCoord (setCoord Y i k t) j m s) ref =
        hvol (n + 1) (setCoord (setCoord Y i k t) j m (ptOf Y j m)) ref +
          (s - ptOf Y j m) * -slope n (setCoord Y i k t) ref j m := by
  obtain ⟨ε, hε, hw, hr⟩ := exists_window (Y := Y) (ref := ref) (i := j) (k := m)
    (fun l hl hlj => h.ne hl hj hlj hm) (h.lt_ref hj hm)
  refine ⟨ε / 2, by linarith, fun s t a1 a2 a3 a4 => ?_⟩
  have hpj : ptOf (setCoord Y i k t) j m = ptOf Y j m := by
    rw [ptOf_setCoord hj]
    by_cases hij : i = j
    · have hkm : m ≠ k := Ne.symm (hne.resolve_left (fun c => c hij))
      rw [if_pos hij, Function.update_of_ne hkm]
    · rw [if_neg hij]
  have hA : ∀ l < (setCoord Y i k t).length, l ≠ j → ptOf (setCoord Y i k t) l m ≤ ptOf Y j m - ε / 2 ∨
      ptOf Y j m + ε / 2 ≤ ptOf (setCoord Y i k t) l m := by
    intro l hl hlj
    rw [length_setCoord] at hl
    rw [ptOf_setCoord hl]
    by_cases hil : i = l
    · subst hil
      rw [if_pos rfl]
      by_cases hkm : m = k
      · subst hkm
        rw [Function.update_self]
        rcases hw i hi hlj with h' | h'
        · left; linarith
        · right; linarith
      · rw [Function.update_of_ne hkm]
        rcases hw i hi hlj with h' | h'
        · left; linarith
        · right; linarith
    · rw [if_neg hil]
      rcases hw l hl hlj with h' | h'
      · left; linarith
      · right; linarith
  have hjl : j < (setCoord Y i k t).length := by rwa [length_setCoord]
  have := hvol_affine (ref := ref) (t := s) (t' := ptOf Y j m) (by omega : m ≤ n) hjl hA a1.le a2.le
    (by linarith) (by linarith) (by linarith) (h.lt_ref hj hm).le
  rw [slope_eq_window hjl hA (by rw [hpj]; linarith) (by rw [hpj]; linarith)] at this
  rw [this]; ring

theorem second_symm {n i j k m : ℕ} {Y : List (ℕ → ℝ)} {ref : ℕ → ℝ} (h : GeneralPosition (n + 2) Y ref)
    (hi : i < Y.length) (hj : j < Y.length) (hk : k < n + 2) (hm : m < n + 2) :
    second n Y ref j m i k = second n Y ref i k j m := by
  by_cases hne : i ≠ j ∨ k ≠ m
  · obtain ⟨ε₁, hε₁, h1⟩ := affine_rect (n := n + 1) h hi hj hk hm hne
    obtain ⟨ε₂, hε₂, h2⟩ := affine_rect (n := n + 1) h hj hi hm hk (hne.imp Ne.symm Ne.symm)
    have b1 := min_le_left ε₁ ε₂
    have b2 := min_le_right ε₁ ε₂
    symm
    refine mixed_eq (F := fun s t => hvol (n + 2) (setCoord (setCoord Y i k t) j m s) ref)
      (A := fun t => -slope (n + 1) (setCoord Y i k t) ref j m)
      (B := fun s => -slope (n + 1) (setCoord Y j m s) ref i k)
      (s0 := ptOf Y j m) (t0 := ptOf Y i k) (lt_min hε₁ hε₂) ?_ ?_ ?_ ?_
    · intro s t a1 a2 a3 a4
      exact h1 s t (by linarith) (by linarith) (by linarith) (by linarith)
    · intro s t a1 a2 a3 a4
      have := h2 t s (by linarith) (by linarith) (by linarith) (by linarith)
      rw [setCoord_comm hne, setCoord_comm hne]
      exact this
    · exact slope_hasDerivAt h hj hi hm hk
    · exact slope_hasDerivAt h hi hj hk hm
  · push Not at hne
    obtain ⟨rfl, rfl⟩ := hne
    rfl

end Verif.HVD
