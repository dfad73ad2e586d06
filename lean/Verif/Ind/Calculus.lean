import Mathlib.Analysis.Calculus.FDeriv.Mul
import Mathlib.Analysis.Calculus.FDeriv.Pi
import Mathlib.Analysis.Calculus.FDeriv.Comp
import Mathlib.Analysis.Calculus.FDeriv.Add
import Mathlib.Analysis.Calculus.FDeriv.Prod
import Mathlib.Analysis.Calculus.FDeriv.Symmetric

/-!
# Derivatives of functions of a point set

An array of shape `(N, m)` is a function `Fin N → Fin m → ℝ`. `lin c` and `lin2 c` are the linear
forms with coefficient array `c`; `HasFDerivAt F (lin2 g) Y` says that `g` is the gradient array of
`F` at `Y`. The two theorems are the chain rules for a function of the images `f (X i)`.
-/

namespace Verif.Ind

open Topology

variable {N n m : ℕ}

/-- The linear form `v ↦ Σ_k c_k v_k`. -/
noncomputable def lin (c : Fin n → ℝ) : (Fin n → ℝ) →L[ℝ] ℝ :=
  ∑ k, c k • ContinuousLinearMap.proj k

/-- The linear form `V ↦ Σ_ik c_ik V_ik`. -/
noncomputable def lin2 (c : Fin N → Fin n → ℝ) : (Fin N → Fin n → ℝ) →L[ℝ] ℝ :=
  ∑ i, (lin (c i)).comp (ContinuousLinearMap.proj i)

@[simp] theorem lin_apply (c v : Fin n → ℝ) : lin c v = ∑ k, c k * v k := by
  simp [lin]

@[simp] theorem lin2_apply (c V : Fin N → Fin n → ℝ) : lin2 c V = ∑ i, ∑ k, c i k * V i k := by
  simp [lin2]

theorem lin_injective {c c' : Fin n → ℝ} (h : lin c = lin c') : c = c' := by
  funext k
  have := congrArg (fun L => L (Pi.single k 1)) h
  simpa [Pi.single_apply] using this

theorem lin2_injective {c c' : Fin N → Fin n → ℝ} (h : lin2 c = lin2 c') : c = c' := by
  funext i k
  have := congrArg (fun L => L (Pi.single i (Pi.single k 1))) h
  simp only [lin2_apply] at this
  rw [Finset.sum_eq_single i, Finset.sum_eq_single k, Finset.sum_eq_single i, Finset.sum_eq_single k] at this
  · simpa using this
  · intro b _ hb; simp [hb]
  · simp
  · intro b _ hb; simp [hb]
  · simp
  · intro b _ hb; simp [hb]
  · simp
  · intro b _ hb; simp [hb]
  · simp

theorem hasFDerivAt_coord (i : Fin N) (a : Fin m) (Y : Fin N → Fin m → ℝ) :
    HasFDerivAt (fun Y : Fin N → Fin m → ℝ => Y i a)
      ((ContinuousLinearMap.proj a : (Fin m → ℝ) →L[ℝ] ℝ).comp
        (ContinuousLinearMap.proj i : (Fin N → Fin m → ℝ) →L[ℝ] (Fin m → ℝ))) Y :=
  ((ContinuousLinearMap.proj a : (Fin m → ℝ) →L[ℝ] ℝ).comp
    (ContinuousLinearMap.proj i : (Fin N → Fin m → ℝ) →L[ℝ] (Fin m → ℝ))).hasFDerivAt

theorem hasFDerivAt_row (i : Fin N) (Y : Fin N → Fin m → ℝ) :
    HasFDerivAt (fun Y : Fin N → Fin m → ℝ => Y i)
      (ContinuousLinearMap.proj i : (Fin N → Fin m → ℝ) →L[ℝ] (Fin m → ℝ)) Y :=
  (ContinuousLinearMap.proj i : (Fin N → Fin m → ℝ) →L[ℝ] (Fin m → ℝ)).hasFDerivAt

/-- A function of one row. -/
theorem hasFDerivAt_of_row {φ : (Fin m → ℝ) → ℝ} {c : Fin m → ℝ} (i : Fin N) {Y : Fin N → Fin m → ℝ}
    (h : HasFDerivAt φ (lin c) (Y i)) :
    HasFDerivAt (fun Y : Fin N → Fin m → ℝ => φ (Y i))
      (lin2 fun j a => if j = i then c a else 0) Y := by
  have := h.comp Y (hasFDerivAt_row i Y)
  refine this.congr_fderiv ?_
  ext V
  simp only [ContinuousLinearMap.comp_apply, lin_apply, lin2_apply, ContinuousLinearMap.proj_apply]
  rw [Finset.sum_eq_single i]
  · simp
  · intro j _ hj; simp [hj]
  · simp

/-- A sum of functions of the rows. -/
theorem hasFDerivAt_sum_rows {φ : Fin N → (Fin m → ℝ) → ℝ} {c : Fin N → Fin m → ℝ}
    {Y : Fin N → Fin m → ℝ} (h : ∀ i, HasFDerivAt (φ i) (lin (c i)) (Y i)) :
    HasFDerivAt (fun Y : Fin N → Fin m → ℝ => ∑ i, φ i (Y i)) (lin2 c) Y := by
  unfold lin2
  exact HasFDerivAt.fun_sum fun i _ => (h i).comp Y (hasFDerivAt_row i Y)

theorem hasFDerivAt_images {f : (Fin n → ℝ) → Fin m → ℝ} {J : Fin N → Fin m → Fin n → ℝ}
    {X : Fin N → Fin n → ℝ} (hf : ∀ i a, HasFDerivAt (fun x => f x a) (lin (J i a)) (X i)) :
    HasFDerivAt (fun (X' : Fin N → Fin n → ℝ) i => f (X' i))
      (ContinuousLinearMap.pi fun i => ContinuousLinearMap.pi fun a =>
        (lin (J i a)).comp (ContinuousLinearMap.proj i)) X := by
  rw [hasFDerivAt_pi]
  intro i
  rw [hasFDerivAt_pi]
  intro a
  exact (hf i a).comp X (hasFDerivAt_row i X)

/-- The chain rule for a function of the images of a point set. -/
theorem hasFDerivAt_comp_images {F : (Fin N → Fin m → ℝ) → ℝ} {g : Fin N → Fin m → ℝ}
    {f : (Fin n → ℝ) → Fin m → ℝ} {J : Fin N → Fin m → Fin n → ℝ} {X : Fin N → Fin n → ℝ}
    (hF : HasFDerivAt F (lin2 g) fun i => f (X i))
    (hf : ∀ i a, HasFDerivAt (fun x => f x a) (lin (J i a)) (X i)) :
    HasFDerivAt (fun X' : Fin N → Fin n → ℝ => F fun i => f (X' i))
      (lin2 fun i k => ∑ a, g i a * J i a k) X := by
  refine (hF.comp X (hasFDerivAt_images hf)).congr_fderiv ?_
  ext V
  simp only [ContinuousLinearMap.comp_apply, lin2_apply, ContinuousLinearMap.pi_apply, lin_apply,
    ContinuousLinearMap.proj_apply]
  refine Finset.sum_congr rfl fun i _ => ?_
  simp only [Finset.mul_sum, Finset.sum_mul]
  rw [Finset.sum_comm]
  exact Finset.sum_congr rfl fun k _ => Finset.sum_congr rfl fun a _ => by ring

theorem sum_comm4 {α β γ δ : Type*} [Fintype α] [Fintype β] [Fintype γ] [Fintype δ]
    (h : α → β → γ → δ → ℝ) :
    ∑ a, ∑ b, ∑ c, ∑ d, h a b c d = ∑ c, ∑ d, ∑ a, ∑ b, h a b c d := by
  have h1 : ∑ a, ∑ b, ∑ c, ∑ d, h a b c d = ∑ x : α × β, ∑ y : γ × δ, h x.1 x.2 y.1 y.2 := by
    simp only [Fintype.sum_prod_type]
  have h2 : ∑ c, ∑ d, ∑ a, ∑ b, h a b c d = ∑ y : γ × δ, ∑ x : α × β, h x.1 x.2 y.1 y.2 := by
    simp only [Fintype.sum_prod_type]
  rw [h1, h2, Finset.sum_comm]

/-- The second-order chain rule for a function of the images of a point set. -/
noncomputable def hessChain (g : Fin N → Fin m → ℝ) (S : Fin N → Fin m → Fin N → Fin m → ℝ)
    (J : Fin N → Fin m → Fin n → ℝ) (T : Fin N → Fin m → Fin n → Fin n → ℝ)
    (i : Fin N) (k : Fin n) (j : Fin N) (l : Fin n) : ℝ :=
  ∑ a, ∑ b, J i a k * S i a j b * J j b l + if i = j then ∑ a, g i a * T i a k l else 0

theorem hasFDerivAt_fderiv_images {F : (Fin N → Fin m → ℝ) → ℝ}
    {G : (Fin N → Fin m → ℝ) → Fin N → Fin m → ℝ} {S : Fin N → Fin m → Fin N → Fin m → ℝ}
    {f : (Fin n → ℝ) → Fin m → ℝ} {jac : (Fin n → ℝ) → Fin m → Fin n → ℝ}
    {T : Fin N → Fin m → Fin n → Fin n → ℝ} {X : Fin N → Fin n → ℝ}
    (hF : ∀ᶠ Y in 𝓝 (fun i => f (X i)), HasFDerivAt F (lin2 (G Y)) Y)
    (hG : ∀ i a, HasFDerivAt (fun Y => G Y i a) (lin2 (S i a)) fun i => f (X i))
    (hf : ∀ i, ∀ᶠ x in 𝓝 (X i), ∀ a, HasFDerivAt (fun x => f x a) (lin (jac x a)) x)
    (hj : ∀ i a k, HasFDerivAt (fun x => jac x a k) (lin (T i a k)) (X i)) (V : Fin N → Fin n → ℝ) :
    HasFDerivAt (fun X' => fderiv ℝ (fun X' : Fin N → Fin n → ℝ => F fun i => f (X' i)) X' V)
      (lin2 fun j l => ∑ i, ∑ k, V i k *
        hessChain (G fun i => f (X i)) S (fun i => jac (X i)) T i k j l) X := by
  have hf0 : ∀ i a, HasFDerivAt (fun x => f x a) (lin (jac (X i) a)) (X i) :=
    fun i a => (hf i).self_of_nhds a
  have himg := hasFDerivAt_images hf0
  have hev : ∀ᶠ X' in 𝓝 X, fderiv ℝ (fun X' : Fin N → Fin n → ℝ => F fun i => f (X' i)) X' V =
      ∑ i, ∑ k, (∑ a, G (fun i => f (X' i)) i a * jac (X' i) a k) * V i k := by
    have h1 := himg.continuousAt.eventually hF
    have h2 : ∀ᶠ X' in 𝓝 X, ∀ i, ∀ a, HasFDerivAt (fun x => f x a) (lin (jac (X' i) a)) (X' i) := by
      rw [Filter.eventually_all]
      intro i
      exact (continuous_apply i).continuousAt.eventually (hf i)
    filter_upwards [h1, h2] with X' h1 h2
    rw [(hasFDerivAt_comp_images h1 h2).fderiv, lin2_apply]
  refine HasFDerivAt.congr_of_eventuallyEq ?_ hev
  have hd : ∀ i k a, HasFDerivAt
      (fun X' : Fin N → Fin n → ℝ => G (fun i => f (X' i)) i a * jac (X' i) a k)
      (lin2 fun j l => (∑ b, S i a j b * jac (X j) b l) * jac (X i) a k +
        if j = i then G (fun i => f (X i)) i a * T i a k l else 0) X := by
    intro i k a
    have h1 := hasFDerivAt_comp_images (hG i a) hf0
    have h2 := hasFDerivAt_of_row i (Y := X) (hj i a k)
    refine (h1.mul h2).congr_fderiv ?_
    ext W
    simp only [ContinuousLinearMap.add_apply, ContinuousLinearMap.smul_apply, lin2_apply, smul_eq_mul,
      Finset.mul_sum, Finset.sum_mul, add_mul, Finset.sum_add_distrib]
    rw [add_comm]
    congr 1
    · refine Finset.sum_congr rfl fun j _ => Finset.sum_congr rfl fun l _ =>
        Finset.sum_congr rfl fun b _ => by ring
    · refine Finset.sum_congr rfl fun j _ => Finset.sum_congr rfl fun l _ => ?_
      split_ifs <;> ring
  have hs : HasFDerivAt (fun X' : Fin N → Fin n → ℝ =>
      ∑ i, ∑ k, (∑ a, G (fun i => f (X' i)) i a * jac (X' i) a k) * V i k)
      (∑ i, ∑ k, V i k • ∑ a, lin2 fun j l => (∑ b, S i a j b * jac (X j) b l) * jac (X i) a k +
        if j = i then G (fun i => f (X i)) i a * T i a k l else 0) X := by
    refine HasFDerivAt.fun_sum fun i _ => HasFDerivAt.fun_sum fun k _ => ?_
    exact (HasFDerivAt.fun_sum fun a _ => hd i k a).mul_const (V i k)
  refine hs.congr_fderiv ?_
  ext W
  simp only [ContinuousLinearMap.sum_apply, ContinuousLinearMap.smul_apply, lin2_apply, smul_eq_mul]
  have hr : ∀ (A : Fin N → Fin n → Fin N → Fin n → ℝ),
      ∑ j, ∑ l, (∑ i, ∑ k, V i k * A i k j l) * W j l = ∑ i, ∑ k, V i k * ∑ j, ∑ l, A i k j l * W j l := by
    intro A
    simp only [Finset.sum_mul, Finset.mul_sum]
    rw [sum_comm4]
    exact Finset.sum_congr rfl fun _ _ => Finset.sum_congr rfl fun _ _ => Finset.sum_congr rfl fun _ _ =>
      Finset.sum_congr rfl fun _ _ => by ring
  rw [hr]
  refine Finset.sum_congr rfl fun i _ => Finset.sum_congr rfl fun k _ => ?_
  congr 1
  rw [Finset.sum_comm]
  refine Finset.sum_congr rfl fun j _ => ?_
  rw [Finset.sum_comm]
  refine Finset.sum_congr rfl fun l _ => ?_
  rw [← Finset.sum_mul, Finset.sum_add_distrib, hessChain]
  congr 2
  · refine Finset.sum_congr rfl fun a _ => ?_
    rw [Finset.sum_mul]
    exact Finset.sum_congr rfl fun b _ => by ring
  · by_cases h : i = j
    · subst h; simp
    · rw [if_neg h]
      exact Finset.sum_eq_zero fun a _ => if_neg fun e => h e.symm

/-- Symmetry of second derivatives, one point. -/
theorem symm_of_lin {f : (Fin n → ℝ) → ℝ} {g : (Fin n → ℝ) → Fin n → ℝ} {T : Fin n → Fin n → ℝ}
    {x : Fin n → ℝ} (hf : ∀ᶠ x' in 𝓝 x, HasFDerivAt f (lin (g x')) x')
    (hg : ∀ k, HasFDerivAt (fun x => g x k) (lin (T k)) x) (k l : Fin n) : T k l = T l k := by
  have h : HasFDerivAt (fun x' => lin (g x'))
      (∑ k, (lin (T k)).smulRight (ContinuousLinearMap.proj k : (Fin n → ℝ) →L[ℝ] ℝ)) x := by
    have : (fun x' => lin (g x')) = fun x' => ∑ k, g x' k • (ContinuousLinearMap.proj k :
        (Fin n → ℝ) →L[ℝ] ℝ) := rfl
    rw [this]
    refine HasFDerivAt.fun_sum fun k _ => ?_
    exact HasFDerivAt.smul_const (F := (Fin n → ℝ) →L[ℝ] ℝ) (hg k) _
  have := second_derivative_symmetric_of_eventually hf h (Pi.single k 1) (Pi.single l 1)
  simp only [ContinuousLinearMap.sum_apply, ContinuousLinearMap.smulRight_apply,
    ContinuousLinearMap.smul_apply, ContinuousLinearMap.proj_apply, smul_eq_mul, lin_apply] at this
  simpa [Pi.single_apply] using this.symm

/-- Symmetry of second derivatives, point sets. -/
theorem symm_of_lin2 {F : (Fin N → Fin m → ℝ) → ℝ} {G : (Fin N → Fin m → ℝ) → Fin N → Fin m → ℝ}
    {S : Fin N → Fin m → Fin N → Fin m → ℝ} {Y : Fin N → Fin m → ℝ}
    (hF : ∀ᶠ Y' in 𝓝 Y, HasFDerivAt F (lin2 (G Y')) Y')
    (hG : ∀ i a, HasFDerivAt (fun Y => G Y i a) (lin2 (S i a)) Y) (i : Fin N) (a : Fin m) (j : Fin N)
    (b : Fin m) : S i a j b = S j b i a := by
  have h : HasFDerivAt (fun Y' => lin2 (G Y'))
      (∑ i, ∑ a, (lin2 (S i a)).smulRight ((ContinuousLinearMap.proj a : (Fin m → ℝ) →L[ℝ] ℝ).comp
        (ContinuousLinearMap.proj i : (Fin N → Fin m → ℝ) →L[ℝ] (Fin m → ℝ)))) Y := by
    have : (fun Y' => lin2 (G Y')) = fun Y' => ∑ i, ∑ a, G Y' i a •
        ((ContinuousLinearMap.proj a : (Fin m → ℝ) →L[ℝ] ℝ).comp
        (ContinuousLinearMap.proj i : (Fin N → Fin m → ℝ) →L[ℝ] (Fin m → ℝ))) := by
      funext Y'
      ext V
      simp
    rw [this]
    refine HasFDerivAt.fun_sum fun i _ => HasFDerivAt.fun_sum fun a _ => ?_
    exact HasFDerivAt.smul_const (F := (Fin N → Fin m → ℝ) →L[ℝ] ℝ) (hG i a) _
  have := second_derivative_symmetric_of_eventually hF h (Pi.single i (Pi.single a 1))
    (Pi.single j (Pi.single b 1))
  have key : ∀ i a j b, (∑ i', ∑ a', (lin2 (S i' a')).smulRight
      ((ContinuousLinearMap.proj a' : (Fin m → ℝ) →L[ℝ] ℝ).comp
      (ContinuousLinearMap.proj i' : (Fin N → Fin m → ℝ) →L[ℝ] (Fin m → ℝ))))
      (Pi.single i (Pi.single a (1 : ℝ))) (Pi.single j (Pi.single b 1)) = S j b i a := by
    intro i a j b
    have hs : ∀ c : Fin N → Fin m → ℝ, lin2 c (Pi.single i (Pi.single a 1)) = c i a := by
      intro c
      rw [lin2_apply, Finset.sum_eq_single i, Finset.sum_eq_single a]
      · simp
      · intro b _ hb; simp [hb]
      · simp
      · intro b _ hb; simp [hb]
      · simp
    simp only [ContinuousLinearMap.sum_apply, ContinuousLinearMap.smulRight_apply,
      ContinuousLinearMap.smul_apply, ContinuousLinearMap.comp_apply, ContinuousLinearMap.proj_apply,
      smul_eq_mul, hs]
    rw [Finset.sum_eq_single j, Finset.sum_eq_single b]
    · simp
    · intro b _ hb; simp [hb]
    · simp
    · intro b _ hb; simp [hb]
    · simp
  rw [key, key] at this
  exact this.symm

theorem hessChain_symm {g : Fin N → Fin m → ℝ} {S : Fin N → Fin m → Fin N → Fin m → ℝ}
    {J : Fin N → Fin m → Fin n → ℝ} {T : Fin N → Fin m → Fin n → Fin n → ℝ}
    (hS : ∀ i a j b, S i a j b = S j b i a) (hT : ∀ i a k l, T i a k l = T i a l k) (i : Fin N) (k : Fin n)
    (j : Fin N) (l : Fin n) : hessChain g S J T i k j l = hessChain g S J T j l i k := by
  unfold hessChain
  congr 1
  · rw [Finset.sum_comm]
    refine Finset.sum_congr rfl fun b _ => Finset.sum_congr rfl fun a _ => ?_
    rw [hS]
    ring
  · by_cases h : i = j
    · subst h
      simp only [if_true, hT i _ k l]
    · rw [if_neg h, if_neg fun e => h e.symm]

end Verif.Ind
