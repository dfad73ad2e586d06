import Verif.Ind.Calculus
import Verif.Ind.MMD
import Mathlib.Analysis.Calculus.FDeriv.Linear
import Mathlib.Analysis.Calculus.Deriv.Abs
import Mathlib.Analysis.SpecialFunctions.Pow.Deriv
import Mathlib.Analysis.SpecialFunctions.ExpDeriv

/-!
# Helper lemmas for the derivatives of MMD
-/

namespace Verif.Ind

open Topology

variable {N M n m : ℕ}

/-- What is assumed of JAX at the pair `(x, y)`: `dx` is the derivative of the kernel in its first
argument, where the kernel is differentiable. -/
structure Kernel.DiffAt (K : Kernel m) (x y : Fin m → ℝ) : Prop where
  joint : DifferentiableAt ℝ (fun z : (Fin m → ℝ) × (Fin m → ℝ) => K.k z.1 z.2) (x, y)
  dx : HasFDerivAt (fun x => K.k x y) (lin (K.dx x y)) x

/-- The same for the second derivatives. -/
structure Kernel.Diff2At (K : Kernel m) (x y : Fin m → ℝ) : Prop where
  near : ∀ᶠ z in 𝓝 (x, y), K.DiffAt z.1 z.2
  joint : ∀ a, DifferentiableAt ℝ (fun z : (Fin m → ℝ) × (Fin m → ℝ) => K.dx z.1 z.2 a) (x, y)
  dx2 : ∀ a, HasFDerivAt (fun x => K.dx x y a) (lin (K.dx2 x y a)) x
  dxdy : ∀ a, HasFDerivAt (fun y => K.dx x y a) (lin (K.dxdy x y a)) y

theorem hasFDerivAt_of_partials {E F : Type*} [NormedAddCommGroup E] [NormedSpace ℝ E]
    [NormedAddCommGroup F] [NormedSpace ℝ F] {f : E × F → ℝ} {x : E} {y : F} {A : E →L[ℝ] ℝ} {B : F →L[ℝ] ℝ}
    (h : DifferentiableAt ℝ f (x, y)) (hA : HasFDerivAt (fun x => f (x, y)) A x)
    (hB : HasFDerivAt (fun y => f (x, y)) B y) :
    HasFDerivAt f (A.comp (ContinuousLinearMap.fst ℝ E F) + B.comp (ContinuousLinearMap.snd ℝ E F)) (x, y) := by
  refine h.hasFDerivAt.congr_fderiv ?_
  have h1 : HasFDerivAt (fun x => f (x, y)) ((fderiv ℝ f (x, y)).comp (ContinuousLinearMap.inl ℝ E F)) x := by
    refine HasFDerivAt.comp x (g := f) h.hasFDerivAt ?_
    exact (hasFDerivAt_prodMk_left x y)
  have h2 : HasFDerivAt (fun y => f (x, y)) ((fderiv ℝ f (x, y)).comp (ContinuousLinearMap.inr ℝ E F)) y := by
    refine HasFDerivAt.comp y (g := f) h.hasFDerivAt ?_
    exact (hasFDerivAt_prodMk_right x y)
  rw [hA.unique h1, hB.unique h2]
  refine ContinuousLinearMap.ext fun ⟨u, v⟩ => ?_
  simp only [ContinuousLinearMap.add_apply, ContinuousLinearMap.comp_apply, ContinuousLinearMap.coe_fst',
    ContinuousLinearMap.coe_snd', ContinuousLinearMap.inl_apply, ContinuousLinearMap.inr_apply]
  rw [← map_add]
  simp

theorem hasFDerivAt_two_rows {φ : (Fin m → ℝ) × (Fin m → ℝ) → ℝ} {c d : Fin m → ℝ} (i j : Fin N)
    {Y : Fin N → Fin m → ℝ}
    (h : HasFDerivAt φ ((lin c).comp (ContinuousLinearMap.fst ℝ _ _) +
      (lin d).comp (ContinuousLinearMap.snd ℝ _ _)) (Y i, Y j)) :
    HasFDerivAt (fun Y : Fin N → Fin m → ℝ => φ (Y i, Y j))
      (lin2 fun l a => (if l = i then c a else 0) + if l = j then d a else 0) Y := by
  have h1 : HasFDerivAt (fun Y : Fin N → Fin m → ℝ => (Y i, Y j)) _ Y :=
    (hasFDerivAt_row i Y).prodMk (hasFDerivAt_row j Y)
  refine (HasFDerivAt.comp Y (g := φ) h h1).congr_fderiv ?_
  ext V
  simp only [ContinuousLinearMap.comp_apply, ContinuousLinearMap.add_apply, ContinuousLinearMap.prod_apply,
    ContinuousLinearMap.coe_fst', ContinuousLinearMap.coe_snd', ContinuousLinearMap.proj_apply, lin_apply,
    lin2_apply, add_mul, Finset.sum_add_distrib, ite_mul, zero_mul]
  congr 1
  · rw [Finset.sum_eq_single i]
    · simp
    · intro l _ hl; simp [hl]
    · simp
  · rw [Finset.sum_eq_single j]
    · simp
    · intro l _ hl; simp [hl]
    · simp

theorem Kernel.DiffAt.pair {K : Kernel m} (hs : ∀ x y, K.k x y = K.k y x) {x y : Fin m → ℝ}
    (h : K.DiffAt x y) (h' : K.DiffAt y x) :
    HasFDerivAt (fun z : (Fin m → ℝ) × (Fin m → ℝ) => K.k z.1 z.2)
      ((lin (K.dx x y)).comp (ContinuousLinearMap.fst ℝ _ _) +
        (lin (K.dx y x)).comp (ContinuousLinearMap.snd ℝ _ _)) (x, y) := by
  refine hasFDerivAt_of_partials h.joint h.dx ?_
  simp only [hs x]
  exact h'.dx

/-- `b Σ_ij k(y_i, y_j) + Σ_i ψ_i(y_i)`. -/
noncomputable def energy (k : (Fin m → ℝ) → (Fin m → ℝ) → ℝ) (b : ℝ) (ψ : Fin N → (Fin m → ℝ) → ℝ)
    (Y : Fin N → Fin m → ℝ) : ℝ := b * ∑ i, ∑ j, k (Y i) (Y j) + ∑ i, ψ i (Y i)

/-- The gradient of `energy`. -/
noncomputable def energyGrad (K : Kernel m) (b : ℝ) (dψ : Fin N → (Fin m → ℝ) → Fin m → ℝ)
    (Y : Fin N → Fin m → ℝ) (i : Fin N) (a : Fin m) : ℝ :=
  2 * b * (∑ j, K.dx (Y i) (Y j) a - K.dx (Y i) (Y i) a) + dψ i (Y i) a

/-- The Hessian of `energy`. -/
noncomputable def energyHess (K : Kernel m) (b : ℝ) (d2ψ : Fin N → Fin m → Fin m → ℝ)
    (Y : Fin N → Fin m → ℝ) (i : Fin N) (a : Fin m) (j : Fin N) (c : Fin m) : ℝ :=
  if i = j then 2 * b * (∑ l, K.dx2 (Y i) (Y l) a c - K.dx2 (Y i) (Y i) a c) + d2ψ i a c
  else 2 * b * K.dxdy (Y i) (Y j) a c

theorem sum_sub_self (f : Fin N → ℝ) (i : Fin N) : ∑ j, f j - f i = ∑ j, if j = i then 0 else f j := by
  have : ∀ j, (if j = i then 0 else f j) = f j - if j = i then f j else 0 := by
    intro j
    split_ifs <;> ring
  simp only [this, Finset.sum_sub_distrib]
  simp

theorem energy_hasFDerivAt {K : Kernel m} {b c0 : ℝ} {ψ : Fin N → (Fin m → ℝ) → ℝ}
    {dψ : Fin N → (Fin m → ℝ) → Fin m → ℝ} {Y : Fin N → Fin m → ℝ} (hs : ∀ x y, K.k x y = K.k y x)
    (hc : ∀ x, K.k x x = c0) (hK : ∀ i j, i ≠ j → K.DiffAt (Y i) (Y j))
    (hψ : ∀ i, HasFDerivAt (ψ i) (lin (dψ i (Y i))) (Y i)) :
    HasFDerivAt (energy K.k b ψ) (lin2 (energyGrad K b dψ Y)) Y := by
  have h1 : ∀ i j, HasFDerivAt (fun Y : Fin N → Fin m → ℝ => K.k (Y i) (Y j))
      (lin2 fun l a => if j = i then 0 else
        ((if l = i then K.dx (Y i) (Y j) a else 0) + if l = j then K.dx (Y j) (Y i) a else 0)) Y := by
    intro i j
    by_cases hij : j = i
    · subst hij
      simp only [hc, if_true]
      refine (hasFDerivAt_const c0 Y).congr_fderiv ?_
      ext V
      simp
    · simp only [if_neg hij]
      exact hasFDerivAt_two_rows i j ((hK i j fun h => hij h.symm).pair hs (hK j i hij))
  have h2 : HasFDerivAt (fun Y : Fin N → Fin m → ℝ => ∑ i, ∑ j, K.k (Y i) (Y j)) _ Y :=
    HasFDerivAt.fun_sum fun i _ => HasFDerivAt.fun_sum fun j _ => h1 i j
  have h3 := (h2.const_mul b).add (hasFDerivAt_sum_rows hψ)
  refine h3.congr_fderiv ?_
  ext V
  simp only [ContinuousLinearMap.add_apply, ContinuousLinearMap.smul_apply, ContinuousLinearMap.sum_apply,
    lin2_apply, smul_eq_mul, energyGrad, add_mul, Finset.sum_add_distrib]
  congr 1
  have e1 : ∑ i, ∑ j, ∑ l, ∑ a, (if j = i then 0 else
        ((if l = i then K.dx (Y i) (Y j) a else 0) + if l = j then K.dx (Y j) (Y i) a else 0)) * V l a =
      ∑ l, ∑ a, (∑ i, ∑ j, if j = i then 0 else
        ((if l = i then K.dx (Y i) (Y j) a else 0) + if l = j then K.dx (Y j) (Y i) a else 0)) * V l a := by
    rw [sum_comm4]
    simp only [Finset.sum_mul]
  have e2 : ∀ l a, (∑ i, ∑ j, if j = i then 0 else
        ((if l = i then K.dx (Y i) (Y j) a else 0) + if l = j then K.dx (Y j) (Y i) a else 0)) =
      2 * (∑ j, K.dx (Y l) (Y j) a - K.dx (Y l) (Y l) a) := by
    intro l a
    have e3 : ∀ i j : Fin N, (if j = i then (0 : ℝ) else
        ((if l = i then K.dx (Y i) (Y j) a else 0) + if l = j then K.dx (Y j) (Y i) a else 0)) =
        (if l = i then (if j = i then 0 else K.dx (Y i) (Y j) a) else 0) +
          if l = j then (if i = j then 0 else K.dx (Y j) (Y i) a) else 0 := by
      intro i j
      by_cases h : j = i
      · simp [h]
      · simp [h, Ne.symm h]
    simp only [e3, Finset.sum_add_distrib]
    rw [sum_sub_self (fun j => K.dx (Y l) (Y j) a), two_mul]
    congr 1
    · rw [Finset.sum_eq_single l]
      · simp
      · intro i _ hi; simp [hi.symm]
      · simp
    · simp
  rw [e1]
  simp only [e2, Finset.mul_sum]
  exact Finset.sum_congr rfl fun l _ => Finset.sum_congr rfl fun a _ => by ring

theorem energyGrad_hasFDerivAt {K : Kernel m} {b : ℝ} {dψ : Fin N → (Fin m → ℝ) → Fin m → ℝ}
    {d2ψ : Fin N → Fin m → Fin m → ℝ} {Y : Fin N → Fin m → ℝ}
    (hK : ∀ i j, i ≠ j → K.Diff2At (Y i) (Y j))
    (hψ : ∀ i a, HasFDerivAt (fun y => dψ i y a) (lin (d2ψ i a)) (Y i)) (i : Fin N) (a : Fin m) :
    HasFDerivAt (fun Y => energyGrad K b dψ Y i a) (lin2 (energyHess K b d2ψ Y i a)) Y := by
  have h1 : ∀ j, HasFDerivAt (fun Y : Fin N → Fin m → ℝ => if j = i then 0 else K.dx (Y i) (Y j) a)
      (lin2 fun l c => if j = i then 0 else
        ((if l = i then K.dx2 (Y i) (Y j) a c else 0) + if l = j then K.dxdy (Y i) (Y j) a c else 0)) Y := by
    intro j
    by_cases hij : j = i
    · simp only [if_pos hij]
      refine (hasFDerivAt_const (0 : ℝ) Y).congr_fderiv ?_
      ext V
      simp
    · simp only [if_neg hij]
      have h := hK i j fun h => hij h.symm
      exact hasFDerivAt_two_rows (φ := fun z => K.dx z.1 z.2 a) i j
        (hasFDerivAt_of_partials (h.joint a) (h.dx2 a) (h.dxdy a))
  have h2 : HasFDerivAt (fun Y : Fin N → Fin m → ℝ => ∑ j, if j = i then 0 else K.dx (Y i) (Y j) a) _ Y :=
    HasFDerivAt.fun_sum fun j _ => h1 j
  have h3 := (h2.const_mul (2 * b)).add (hasFDerivAt_of_row i (hψ i a))
  refine (h3.congr_of_eventuallyEq (Filter.Eventually.of_forall fun Y' => ?_)).congr_fderiv ?_
  · simp only [energyGrad, sum_sub_self (fun j => K.dx (Y' i) (Y' j) a), Pi.add_apply]
  · ext V
    simp only [ContinuousLinearMap.add_apply, ContinuousLinearMap.smul_apply, ContinuousLinearMap.sum_apply,
      lin2_apply, smul_eq_mul]
    rw [Finset.sum_comm, Finset.sum_congr rfl fun l _ => Finset.sum_comm, Finset.mul_sum,
      ← Finset.sum_add_distrib]
    refine Finset.sum_congr rfl fun l _ => ?_
    rw [Finset.mul_sum, ← Finset.sum_add_distrib]
    refine Finset.sum_congr rfl fun c _ => ?_
    rw [← Finset.sum_mul, ← mul_assoc, ← add_mul]
    congr 1
    unfold energyHess
    by_cases hl : i = l
    · subst hl
      rw [sum_sub_self (fun l => K.dx2 (Y i) (Y l) a c)]
      simp only [if_true]
      congr 2
      refine Finset.sum_congr rfl fun j _ => ?_
      by_cases h : j = i
      · simp [h]
      · simp [h, Ne.symm h]
    · rw [if_neg hl, if_neg (fun e => hl (Eq.symm e)), add_zero]
      congr 1
      rw [Finset.sum_eq_single l]
      · simp [Ne.symm hl]
      · intro j _ hj
        by_cases h : j = i
        · simp [h]
        · simp [h, Ne.symm hl, hj.symm]
      · simp

end Verif.Ind

namespace Verif.Ind

open Topology

variable {N M n m : ℕ}

/-- Translation invariance. -/
def Stationary (k : (Fin m → ℝ) → (Fin m → ℝ) → ℝ) : Prop := ∀ x y t, k (x + t) (y + t) = k x y

theorem Stationary.diag {k : (Fin m → ℝ) → (Fin m → ℝ) → ℝ} (h : Stationary k) (x : Fin m → ℝ) :
    k x x = k 0 0 := by
  have := h 0 0 x
  simpa using this

theorem Stationary.dx_reflect {K : Kernel m} (h : Stationary K.k) (hs : ∀ x y, K.k x y = K.k y x)
    {x y y' : Fin m → ℝ} (h1 : K.DiffAt y y') (h2 : K.DiffAt x (x + y - y')) :
    K.dx y y' = -K.dx x (x + y - y') := by
  have h3 : HasFDerivAt (fun u => K.k u y') (lin (-K.dx x (x + y - y'))) y := by
    have e : (fun u => K.k u y') = fun u => K.k (x + y - u) (x + y - y') := by
      funext u
      have e1 := h u y' (x + y - y' - u)
      rw [← e1, show u + (x + y - y' - u) = x + y - y' by abel, hs,
        show y' + (x + y - y' - u) = x + y - u by abel]
    rw [e]
    have h4 : HasFDerivAt (fun u : Fin m → ℝ => x + y - u)
        (-(ContinuousLinearMap.id ℝ (Fin m → ℝ))) y := (hasFDerivAt_id y).const_sub _
    have h5 : HasFDerivAt (fun z => K.k z (x + y - y')) (lin (K.dx x (x + y - y'))) (x + y - y) := by
      rw [add_sub_cancel_right]; exact h2.dx
    refine (HasFDerivAt.comp y h5 h4).congr_fderiv ?_
    ext v
    simp
  exact lin_injective (h1.dx.unique h3)

theorem Stationary.dxdy_swap {K : Kernel m} (h : Stationary K.k) (hs : ∀ x y, K.k x y = K.k y x)
    {x y : Fin m → ℝ} (h1 : K.Diff2At x y) (h2 : K.Diff2At y x) (a b : Fin m) :
    K.dxdy y x a b = K.dxdy x y a b := by
  have hev : ∀ᶠ y' in 𝓝 x, K.dx y y' a = -K.dx x (x + y - y') a := by
    have c1 : ContinuousAt (fun y' : Fin m → ℝ => (y, y')) x := by fun_prop
    have c2 : Filter.Tendsto (fun y' : Fin m → ℝ => (x, x + y - y')) (𝓝 x) (𝓝 (x, y)) := by
      have : ContinuousAt (fun y' : Fin m → ℝ => (x, x + y - y')) x := by fun_prop
      have e : (x, x + y - x) = (x, y) := by simp
      rw [← e]
      exact this
    filter_upwards [c1.eventually h2.near, c2.eventually h1.near] with y' e1 e2
    rw [h.dx_reflect hs e1 e2]
    rfl
  have h4 : HasFDerivAt (fun u : Fin m → ℝ => x + y - u)
      (-(ContinuousLinearMap.id ℝ (Fin m → ℝ))) x := (hasFDerivAt_id x).const_sub _
  have h5 : HasFDerivAt (fun z => K.dx x z a) (lin (K.dxdy x y a)) (x + y - x) := by
    rw [add_sub_cancel_left]; exact h1.dxdy a
  have h6 : HasFDerivAt (fun y' => K.dx y y' a) (lin (K.dxdy x y a)) x := by
    refine ((HasFDerivAt.comp x h5 h4).neg.congr_of_eventuallyEq hev).congr_fderiv ?_
    ext v
    simp
  exact congrFun (lin_injective ((h2.dxdy a).unique h6)) b

/-! ### Kernels with the exact derivatives -/

/-- The kernel with exact derivatives (what JAX is assumed to compute). -/
noncomputable def autodiff (k : (Fin m → ℝ) → (Fin m → ℝ) → ℝ) : Kernel m where
  k := k
  dx x y a := fderiv ℝ (fun x => k x y) x (Pi.single a 1)
  dx2 x y a b := fderiv ℝ (fun x => fderiv ℝ (fun x => k x y) x (Pi.single a 1)) x (Pi.single b 1)
  dxdy x y a b := fderiv ℝ (fun y => fderiv ℝ (fun x => k x y) x (Pi.single a 1)) y (Pi.single b 1)

theorem lin_fderiv {f : (Fin n → ℝ) → ℝ} {x : Fin n → ℝ} (h : DifferentiableAt ℝ f x) :
    HasFDerivAt f (lin fun a => fderiv ℝ f x (Pi.single a 1)) x := by
  refine h.hasFDerivAt.congr_fderiv ?_
  ext v
  rw [lin_apply]
  conv_lhs => rw [← Finset.univ_sum_single v]
  rw [map_sum]
  refine Finset.sum_congr rfl fun a _ => ?_
  have : (Pi.single a (v a) : Fin n → ℝ) = v a • Pi.single a 1 := by
    rw [← Pi.single_smul]; simp
  rw [this, map_smul, smul_eq_mul, mul_comm]

theorem autodiff_diffAt {k : (Fin m → ℝ) → (Fin m → ℝ) → ℝ} {x y : Fin m → ℝ}
    (h : DifferentiableAt ℝ (fun z : (Fin m → ℝ) × (Fin m → ℝ) => k z.1 z.2) (x, y)) :
    (autodiff k).DiffAt x y := by
  refine ⟨h, lin_fderiv ?_⟩
  exact DifferentiableAt.comp x (g := fun z : (Fin m → ℝ) × (Fin m → ℝ) => k z.1 z.2) h
    (by fun_prop : DifferentiableAt ℝ (fun x' : Fin m → ℝ => (x', y)) x)

theorem autodiff_diff2At {k : (Fin m → ℝ) → (Fin m → ℝ) → ℝ} {x y : Fin m → ℝ}
    (h : ContDiffAt ℝ 2 (fun z : (Fin m → ℝ) × (Fin m → ℝ) => k z.1 z.2) (x, y)) :
    (autodiff k).Diff2At x y := by
  have hnear : ∀ᶠ z in 𝓝 (x, y),
      DifferentiableAt ℝ (fun z : (Fin m → ℝ) × (Fin m → ℝ) => k z.1 z.2) z := by
    filter_upwards [h.eventually (by simp)] with z hz
    exact hz.differentiableAt (by simp)
  have hj : ∀ a, DifferentiableAt ℝ
      (fun z : (Fin m → ℝ) × (Fin m → ℝ) => (autodiff k).dx z.1 z.2 a) (x, y) := by
    intro a
    have h1 : DifferentiableAt ℝ (fun z => fderiv ℝ (fun z : (Fin m → ℝ) × (Fin m → ℝ) => k z.1 z.2) z
        (Pi.single a 1, 0)) (x, y) := by
      have : ContDiffAt ℝ 1 (fderiv ℝ (fun z : (Fin m → ℝ) × (Fin m → ℝ) => k z.1 z.2)) (x, y) :=
        h.fderiv_right (by norm_num)
      exact (this.differentiableAt (by simp)).clm_apply (differentiableAt_const _)
    refine h1.congr_of_eventuallyEq ?_
    filter_upwards [hnear] with z hz
    have h2 : HasFDerivAt (fun x' => k x' z.2)
        ((fderiv ℝ (fun z : (Fin m → ℝ) × (Fin m → ℝ) => k z.1 z.2) z).comp
          (ContinuousLinearMap.inl ℝ _ _)) z.1 := by
      have h3 : HasFDerivAt (fun z : (Fin m → ℝ) × (Fin m → ℝ) => k z.1 z.2) _ (z.1, z.2) := hz.hasFDerivAt
      exact HasFDerivAt.comp z.1 h3 (hasFDerivAt_prodMk_left (𝕜 := ℝ) z.1 z.2)
    simp only [autodiff]
    rw [h2.fderiv]
    simp
  refine ⟨?_, hj, fun a => lin_fderiv ?_, fun a => lin_fderiv ?_⟩
  · filter_upwards [hnear] with z hz
    exact autodiff_diffAt hz
  · exact DifferentiableAt.comp x (g := fun z : (Fin m → ℝ) × (Fin m → ℝ) => (autodiff k).dx z.1 z.2 a)
      (hj a) (by fun_prop : DifferentiableAt ℝ (fun x' : Fin m → ℝ => (x', y)) x)
  · exact DifferentiableAt.comp y (g := fun z : (Fin m → ℝ) × (Fin m → ℝ) => (autodiff k).dx z.1 z.2 a)
      (hj a) (by fun_prop : DifferentiableAt ℝ (fun y' : Fin m → ℝ => (x, y')) y)

theorem contDiff_rbf (theta : ℝ) :
    ContDiff ℝ 2 fun z : (Fin m → ℝ) × (Fin m → ℝ) => rbf theta z.1 z.2 := by
  unfold rbf
  fun_prop

theorem contDiff_rationalQuadratic {theta alpha : ℝ} (ht : 0 ≤ theta) (ha : 0 < alpha) :
    ContDiff ℝ 2 fun z : (Fin m → ℝ) × (Fin m → ℝ) => rationalQuadratic theta alpha z.1 z.2 := by
  unfold rationalQuadratic
  refine ContDiff.rpow_const_of_ne (by fun_prop) fun z => ?_
  have : 0 < (∑ a, (z.1 a - z.2 a) ^ 2) * theta / (2 * alpha) + 1 := by positivity
  exact this.ne'

theorem contDiffAt_laplace (theta : ℝ) {x y : Fin m → ℝ} (h : ∀ a, x a ≠ y a) :
    ContDiffAt ℝ 2 (fun z : (Fin m → ℝ) × (Fin m → ℝ) => laplace theta z.1 z.2) (x, y) := by
  unfold laplace
  refine ContDiffAt.exp (contDiffAt_const.mul (ContDiffAt.sum fun a _ => ?_))
  exact ContDiffAt.abs (by fun_prop) (sub_ne_zero.2 (h a))

theorem stationary_rbf (theta : ℝ) : Stationary (rbf theta : (Fin m → ℝ) → (Fin m → ℝ) → ℝ) := by
  intro x y t; simp [rbf]

theorem stationary_laplace (theta : ℝ) : Stationary (laplace theta : (Fin m → ℝ) → (Fin m → ℝ) → ℝ) := by
  intro x y t; simp [laplace]

theorem stationary_rationalQuadratic (theta alpha : ℝ) :
    Stationary (rationalQuadratic theta alpha : (Fin m → ℝ) → (Fin m → ℝ) → ℝ) := by
  intro x y t; simp [rationalQuadratic]

theorem rbf_symm (theta : ℝ) (x y : Fin m → ℝ) : rbf theta x y = rbf theta y x := by
  unfold rbf
  simp only [sub_sq_comm]

theorem laplace_symm (theta : ℝ) (x y : Fin m → ℝ) : laplace theta x y = laplace theta y x := by
  unfold laplace
  congr 2
  exact Finset.sum_congr rfl fun a _ => abs_sub_comm _ _

theorem rationalQuadratic_symm (theta alpha : ℝ) (x y : Fin m → ℝ) :
    rationalQuadratic theta alpha x y = rationalQuadratic theta alpha y x := by
  unfold rationalQuadratic
  simp only [sub_sq_comm]

end Verif.Ind
