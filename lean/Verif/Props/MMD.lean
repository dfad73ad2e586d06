import Verif.Ind.PosDef
import Verif.Ind.MMDLemmas
import Verif.Props.DeltaP

/-!
# C38 - C41: MMD and MMDMatching
-/

namespace Verif.Props

open Verif.Ind Topology

variable {N M n m : ℕ}

/-! ## C38 -/

/-- The specification: the mean kernel value within `R`, plus that within `Y`, minus twice that between
them. -/
noncomputable def mmdOf (k : (Fin m → ℝ) → (Fin m → ℝ) → ℝ) (R : Fin M → Fin m → ℝ)
    (Y : Fin N → Fin m → ℝ) : ℝ :=
  (∑ r, ∑ s, k (R r) (R s)) / (M : ℝ) ^ 2 + (∑ i, ∑ j, k (Y i) (Y j)) / (N : ℝ) ^ 2 -
    2 * (∑ r, ∑ i, k (R r) (Y i)) / ((M : ℝ) * N)

/-- `compute` returns this value; there is none without points or without reference points. -/
theorem C38_value (k : (Fin m → ℝ) → (Fin m → ℝ) → ℝ) (R : Fin M → Fin m → ℝ) (Y : Fin N → Fin m → ℝ) :
    mmdCompute k R Y = if N = 0 ∨ M = 0 then none else some (mmdOf k R Y) := by
  unfold mmdCompute meanCdist
  by_cases hN : N = 0
  · simp [hN]
  by_cases hM : M = 0
  · simp [hM]
  rw [if_neg (by simp [hM]), if_neg (by simp [hN]), if_neg (by simp [hM, hN]), if_neg (by simp [hN, hM])]
  simp only [Option.bind_some, Option.map_some, mmdOf]
  congr 1
  push_cast
  ring

/-- The value for a positive semidefinite kernel is nonnegative. -/
theorem C38_psd {k : (Fin m → ℝ) → (Fin m → ℝ) → ℝ}
    (hk : ∀ z : Fin M ⊕ Fin N → Fin m → ℝ, Psd fun i j => k (z i) (z j)) {R : Fin M → Fin m → ℝ}
    {Y : Fin N → Fin m → ℝ} {v : ℝ} (h : mmdCompute k R Y = some v) : 0 ≤ v := by
  rw [C38_value] at h
  split_ifs at h with h0
  simp only [Option.some.injEq] at h
  subst h
  have h1 := (hk (Sum.elim R Y)).2 (Sum.elim (fun _ => 1 / (M : ℝ)) fun _ => -1 / (N : ℝ))
  refine h1.trans_eq ?_
  simp only [Fintype.sum_sum_type, Sum.elim_inl, Sum.elim_inr, Finset.sum_add_distrib, ← Finset.mul_sum]
  have hs : ∑ i, ∑ r, k (Y i) (R r) = ∑ r, ∑ i, k (R r) (Y i) := by
    rw [Finset.sum_comm]
    exact Finset.sum_congr rfl fun r _ => Finset.sum_congr rfl fun i _ =>
      (hk (Sum.elim R Y)).1 (Sum.inr i) (Sum.inl r)
  rw [hs, mmdOf]
  have hM : (M : ℝ) ≠ 0 := by exact_mod_cast (by omega : M ≠ 0)
  have hN : (N : ℝ) ≠ 0 := by exact_mod_cast (by omega : N ≠ 0)
  field_simp
  ring

/-- C38: the value is nonnegative for the built-in kernels, for all point sets, dimensions and
parameters. -/
theorem C38_nonneg {theta alpha : ℝ} (ht : 0 < theta) (ha : 0 < alpha) (R : Fin M → Fin m → ℝ)
    (Y : Fin N → Fin m → ℝ) {v : ℝ}
    (h : mmdCompute (rbf theta) R Y = some v ∨ mmdCompute (laplace theta) R Y = some v ∨
      mmdCompute (rationalQuadratic theta alpha) R Y = some v) : 0 ≤ v := by
  rcases h with h | h | h
  · exact C38_psd (fun z => psd_rbf ht.le z) h
  · exact C38_psd (fun z => psd_laplace ht.le z) h
  · exact C38_psd (fun z => psd_rationalQuadratic ht.le ha z) h

/-- The points of an array as a multiset. -/
def points (A : Fin N → Fin m → ℝ) : Multiset (Fin m → ℝ) := Finset.univ.val.map A

theorem sum_points {A : Fin N → Fin m → ℝ} {B : Fin M → Fin m → ℝ} (h : points A = points B)
    (f : (Fin m → ℝ) → ℝ) : ∑ i, f (A i) = ∑ j, f (B j) := by
  have h1 := congrArg (fun s => (Multiset.map f s).sum) h
  simpa [points, Finset.sum, Function.comp_def] using h1

theorem card_points {A : Fin N → Fin m → ℝ} {B : Fin M → Fin m → ℝ} (h : points A = points B) : N = M := by
  have := congrArg Multiset.card h
  simpa [points] using this

theorem sum_sum_points {N' M' : ℕ} {A : Fin N → Fin m → ℝ} {A' : Fin N' → Fin m → ℝ}
    {B : Fin M → Fin m → ℝ} {B' : Fin M' → Fin m → ℝ} (hA : points A = points A') (hB : points B = points B')
    (k : (Fin m → ℝ) → (Fin m → ℝ) → ℝ) :
    ∑ i, ∑ j, k (A i) (B j) = ∑ i, ∑ j, k (A' i) (B' j) := by
  rw [sum_points hA fun x => ∑ j, k x (B j)]
  exact Finset.sum_congr rfl fun i _ => sum_points hB _

/-- C38: the value only depends on the two multisets of points, not on their order. -/
theorem C38_permutation {N' M' : ℕ} (k : (Fin m → ℝ) → (Fin m → ℝ) → ℝ) {R : Fin M → Fin m → ℝ}
    {R' : Fin M' → Fin m → ℝ} {Y : Fin N → Fin m → ℝ} {Y' : Fin N' → Fin m → ℝ} (hR : points R = points R')
    (hY : points Y = points Y') : mmdCompute k R Y = mmdCompute k R' Y' := by
  obtain rfl := card_points hR
  obtain rfl := card_points hY
  rw [C38_value, C38_value]
  congr 2
  unfold mmdOf
  rw [sum_sum_points hR hR, sum_sum_points hY hY, sum_sum_points hR hY]

/-- C38: the value is zero if the points and the reference set are equal as multisets. -/
theorem C38_zero (k : (Fin m → ℝ) → (Fin m → ℝ) → ℝ) {R : Fin M → Fin m → ℝ} {Y : Fin N → Fin m → ℝ}
    (hN : 0 < N) (h : points R = points Y) : mmdCompute k R Y = some 0 := by
  rw [C38_permutation k h rfl, C38_value, if_neg (by omega), mmdOf]
  congr 1
  have hN : (N : ℝ) ≠ 0 := by exact_mod_cast hN.ne'
  field_simp
  ring

/-- C38: the value is symmetric in the points and the reference set. -/
theorem C38_symmetric {k : (Fin m → ℝ) → (Fin m → ℝ) → ℝ} (hs : ∀ x y, k x y = k y x)
    (R : Fin M → Fin m → ℝ) (Y : Fin N → Fin m → ℝ) : mmdCompute k R Y = mmdCompute k Y R := by
  rw [C38_value, C38_value]
  simp only [or_comm (a := N = 0)]
  congr 2
  unfold mmdOf
  have : ∑ r, ∑ i, k (R r) (Y i) = ∑ i, ∑ r, k (Y i) (R r) := by
    rw [Finset.sum_comm]
    exact Finset.sum_congr rfl fun r _ => Finset.sum_congr rfl fun i _ => hs _ _
  rw [this]
  ring

/-- The built-in kernels are symmetric. -/
theorem C38_kernels_symmetric (theta alpha : ℝ) (x y : Fin m → ℝ) : rbf theta x y = rbf theta y x ∧
    laplace theta x y = laplace theta y x ∧
    rationalQuadratic theta alpha x y = rationalQuadratic theta alpha y x :=
  ⟨rbf_symm _ _ _, laplace_symm _ _ _, rationalQuadratic_symm _ _ _ _⟩

/-- A value that is not zero: one point at distance 1. -/
example : mmdCompute (rbf 1) ![![(0 : ℝ)]] ![![1]] = some (2 - 2 * Real.exp (-1)) := by
  rw [C38_value]
  simp [mmdOf, rbf]
  ring

/-- The hypothesis of `C38_zero` for two points in another order. -/
example : points ![![(0 : ℝ), 1], ![2, 3]] = points ![![2, 3], ![0, 1]] := by
  simp [points, Fin.univ_succ]
  exact Multiset.cons_swap _ _ 0

/-! ## C39 -/

theorem mmdOf_eq_energy {k : (Fin m → ℝ) → (Fin m → ℝ) → ℝ} (hs : ∀ x y, k x y = k y x)
    (R : Fin M → Fin m → ℝ) (Y : Fin N → Fin m → ℝ) :
    mmdOf k R Y = (∑ r, ∑ s, k (R r) (R s)) / (M : ℝ) ^ 2 +
      energy k (1 / (N : ℝ) ^ 2) (fun _ y => -2 / ((N : ℝ) * M) * ∑ r, k y (R r)) Y := by
  unfold mmdOf energy
  have : ∑ r, ∑ i, k (R r) (Y i) = ∑ i, ∑ r, k (Y i) (R r) := by
    rw [Finset.sum_comm]
    exact Finset.sum_congr rfl fun r _ => Finset.sum_congr rfl fun i _ => hs _ _
  rw [this, ← Finset.mul_sum]
  ring

theorem hasFDerivAt_linear_sum {c : ℝ} {f : Fin M → (Fin m → ℝ) → ℝ} {g : Fin M → Fin m → ℝ} {y : Fin m → ℝ}
    (h : ∀ r, HasFDerivAt (f r) (lin (g r)) y) :
    HasFDerivAt (fun y => c * ∑ r, f r y) (lin fun a => c * ∑ r, g r a) y := by
  have h1 := (HasFDerivAt.fun_sum fun r (_ : r ∈ Finset.univ) => h r).const_mul c
  refine h1.congr_fderiv ?_
  ext v
  simp only [ContinuousLinearMap.smul_apply, ContinuousLinearMap.sum_apply, lin_apply, smul_eq_mul]
  rw [Finset.sum_comm, Finset.mul_sum]
  refine Finset.sum_congr rfl fun a _ => ?_
  rw [← Finset.sum_mul, mul_assoc]

theorem mmdKernelGradient_eq (K : Kernel m) (Y : Fin N → Fin m → ℝ) (R : Fin M → Fin m → ℝ) :
    mmdKernelGradient K Y R = energyGrad K (1 / (N : ℝ) ^ 2)
      (fun _ y a => -2 / ((N : ℝ) * M) * ∑ r, K.dx y (R r) a) Y := by
  funext i a
  unfold mmdKernelGradient energyGrad
  ring

theorem mmdOf_hasFDerivAt {K : Kernel m} {c0 : ℝ} (hs : ∀ x y, K.k x y = K.k y x) (hc : ∀ x, K.k x x = c0)
    {R : Fin M → Fin m → ℝ} {Y : Fin N → Fin m → ℝ} (hK : ∀ i j, i ≠ j → K.DiffAt (Y i) (Y j))
    (hR : ∀ i r, K.DiffAt (Y i) (R r)) :
    HasFDerivAt (mmdOf K.k R) (lin2 (mmdKernelGradient K Y R)) Y := by
  rw [mmdKernelGradient_eq]
  have h := energy_hasFDerivAt (b := 1 / (N : ℝ) ^ 2) hs hc hK
    (ψ := fun _ y => -2 / ((N : ℝ) * M) * ∑ r, K.k y (R r))
    (dψ := fun _ y a => -2 / ((N : ℝ) * M) * ∑ r, K.dx y (R r) a)
    fun i => hasFDerivAt_linear_sum fun r => (hR i r).dx
  refine (h.const_add ((∑ r, ∑ s, K.k (R r) (R s)) / (M : ℝ) ^ 2)).congr_of_eventuallyEq
    (Filter.Eventually.of_forall fun Y' => ?_)
  exact mmdOf_eq_energy hs R Y'

/-- C39: `MMDdY` is the derivative of the value in the objective points and `MMDdX` in the decision
points, for symmetric kernels with constant diagonal that are differentiable at the pairs of distinct
points and the pairs of points and reference points. -/
theorem C39_gradient {o : Objective n m} {K : Kernel m} {c0 : ℝ} {R : Fin M → Fin m → ℝ}
    {X : Fin N → Fin n → ℝ} {Y : Option (Fin N → Fin m → ℝ)} {J : Option (Fin N → Fin m → Fin n → ℝ)}
    (hN : 0 < N) (hM : 0 < M) (hY : o.images X Y = fun i => o.func (X i))
    (hJ : o.jacobians X J = fun i => o.jac (X i)) (ho : HasJac o X) (hs : ∀ x y, K.k x y = K.k y x)
    (hc : ∀ x, K.k x x = c0) (hK : ∀ i j, i ≠ j → K.DiffAt (o.func (X i)) (o.func (X j)))
    (hR : ∀ i r, K.DiffAt (o.func (X i)) (R r)) :
    ∃ g, mmdGradient o K R X Y J = some g ∧
      HasFDerivAt (mmdOf K.k R) (lin2 g.dY) (fun i => o.func (X i)) ∧
      HasFDerivAt (fun X' : Fin N → Fin n → ℝ => mmdOf K.k R fun i => o.func (X' i)) (lin2 g.dX) X := by
  unfold mmdGradient
  rw [if_neg (by omega), hY, hJ]
  have h := mmdOf_hasFDerivAt (Y := fun i => o.func (X i)) hs hc hK hR
  exact ⟨_, rfl, h, hasFDerivAt_comp_images h ho⟩

/-- C39 for the built-in smooth kernels: no condition on the points. -/
theorem C39_kernels {o : Objective n m} {k : (Fin m → ℝ) → (Fin m → ℝ) → ℝ} {theta alpha : ℝ}
    (ht : 0 < theta) (ha : 0 < alpha) (hk : k = rbf theta ∨ k = rationalQuadratic theta alpha)
    {R : Fin M → Fin m → ℝ} {X : Fin N → Fin n → ℝ} (hN : 0 < N) (hM : 0 < M) (ho : HasJac o X) :
    ∃ g, mmdGradient o (autodiff k) R X none none = some g ∧
      HasFDerivAt (mmdOf k R) (lin2 g.dY) (fun i => o.func (X i)) ∧
      HasFDerivAt (fun X' : Fin N → Fin n → ℝ => mmdOf k R fun i => o.func (X' i)) (lin2 g.dX) X := by
  have hd : ∀ x y, (autodiff k).DiffAt x y := by
    intro x y
    refine autodiff_diffAt (ContDiff.contDiffAt ?_ |>.differentiableAt (n := 2) (by simp))
    rcases hk with rfl | rfl
    · exact contDiff_rbf theta
    · exact contDiff_rationalQuadratic ht.le ha
  have hs : ∀ x y, k x y = k y x := by
    intro x y
    rcases hk with rfl | rfl
    · exact rbf_symm _ _ _
    · exact rationalQuadratic_symm _ _ _ _
  have hst : Stationary k := by
    rcases hk with rfl | rfl
    · exact stationary_rbf _
    · exact stationary_rationalQuadratic _ _
  exact C39_gradient hN hM rfl rfl ho hs (fun x => hst.diag x) (fun i j _ => hd _ _) fun i r => hd _ _

/-- C39 for the Laplace kernel, if the points differ in every coordinate from each other and from the
reference points. -/
theorem C39_laplace {o : Objective n m} {theta : ℝ} {R : Fin M → Fin m → ℝ} {X : Fin N → Fin n → ℝ}
    (hN : 0 < N) (hM : 0 < M) (ho : HasJac o X) (hK : ∀ i j, i ≠ j → ∀ a, o.func (X i) a ≠ o.func (X j) a)
    (hR : ∀ i r a, o.func (X i) a ≠ R r a) :
    ∃ g, mmdGradient o (autodiff (laplace theta)) R X none none = some g ∧
      HasFDerivAt (mmdOf (laplace theta) R) (lin2 g.dY) (fun i => o.func (X i)) ∧
      HasFDerivAt (fun X' : Fin N → Fin n → ℝ => mmdOf (laplace theta) R fun i => o.func (X' i))
        (lin2 g.dX) X :=
  C39_gradient hN hM rfl rfl ho (laplace_symm theta) (fun x => (stationary_laplace theta).diag x)
    (fun i j hij => autodiff_diffAt ((contDiffAt_laplace theta (hK i j hij)).differentiableAt (by simp)))
    fun i r => autodiff_diffAt ((contDiffAt_laplace theta (hR i r)).differentiableAt (by simp))

/-- The hypotheses of `C39_kernels` and `C39_laplace` hold for two points and two reference points. -/
example : HasJac gdObjective ![![1, 0], ![0, 2]] ∧
    (∀ i j, i ≠ j → ∀ a, gdObjective.func (![![1, 0], ![0, 2]] i) a ≠
      gdObjective.func (![![1, 0], ![0, 2]] j) a) ∧
    ∀ i r a, gdObjective.func (![![1, 0], ![0, 2]] i) a ≠
      (![![4, 4], ![3, 3]] : Fin 2 → Fin 2 → ℝ) r a := by
  refine ⟨(gdObjective_hasHess _).hasJac, ?_, ?_⟩
  · intro i j h a
    fin_cases i <;> fin_cases j <;> fin_cases a <;> simp [gdObjective] at h ⊢
  · intro i r a
    fin_cases i <;> fin_cases r <;> fin_cases a <;> simp [gdObjective] <;> norm_num

/-! ## C40 -/

/-- The flat index of coordinate `a` of point `i`. -/
def flatIdx (i : Fin N) (a : Fin m) : Fin (N * m) := finProdFinEquiv (i, a)

theorem flatBlocks_flatIdx (B : Fin N → Fin N → Fin m → Fin m → ℝ) (i j : Fin N) (a b : Fin m) :
    flatBlocks B (flatIdx i a) (flatIdx j b) = B i j a b := by
  have h : ∀ (i : Fin N) (a : Fin m), (flatIdx i a).divNat = i ∧ (flatIdx i a).modNat = a := by
    intro i a
    have := finProdFinEquiv.symm_apply_apply (i, a)
    rw [finProdFinEquiv_symm_apply, Prod.mk.injEq] at this
    exact this
  unfold flatBlocks
  rw [(h i a).1, (h i a).2, (h j b).1, (h j b).2]

theorem flatIdx_surjective (p : Fin (N * m)) : ∃ i a, p = flatIdx i a :=
  ⟨(finProdFinEquiv.symm p).1, (finProdFinEquiv.symm p).2, (finProdFinEquiv.apply_symm_apply p).symm⟩

theorem decisionBlocks_eq (dY2 : Fin N → Fin N → Fin m → Fin m → ℝ) (dY : Fin N → Fin m → ℝ)
    (YdX : Fin N → Fin m → Fin n → ℝ) (YdX2 : Fin N → Fin m → Fin n → Fin n → ℝ) (i j : Fin N) (k l : Fin n) :
    decisionBlocks dY2 dY YdX YdX2 i j k l = hessChain dY (fun i a j b => dY2 i j a b) YdX YdX2 i k j l := rfl

theorem HasHess.symm {o : Objective n m} {X : Fin N → Fin n → ℝ} (h : HasHess o X) (i : Fin N) (a : Fin m)
    (k l : Fin n) : o.hess (X i) a k l = o.hess (X i) a l k :=
  symm_of_lin ((h.jac i).mono fun _ hx => hx a) (fun k => h.hess i a k) k l

/-- The second derivatives of an energy of the images, given the blocks the code uses. -/
theorem energy_second {o : Objective n m} {K : Kernel m} {b : ℝ} {F : (Fin N → Fin m → ℝ) → ℝ}
    {dψ : Fin N → (Fin m → ℝ) → Fin m → ℝ} {d2ψ : Fin N → Fin m → Fin m → ℝ} {X : Fin N → Fin n → ℝ}
    {blocks : Fin N → Fin N → Fin m → Fin m → ℝ}
    (hF : ∀ᶠ Y in 𝓝 (fun i => o.func (X i)), HasFDerivAt F (lin2 (energyGrad K b dψ Y)) Y)
    (hK : ∀ i j, i ≠ j → K.Diff2At (o.func (X i)) (o.func (X j)))
    (hψ : ∀ i a, HasFDerivAt (fun y => dψ i y a) (lin (d2ψ i a)) (o.func (X i)))
    (hb : ∀ i a j c, blocks i j a c = energyHess K b d2ψ (fun i => o.func (X i)) i a j c) (ho : HasHess o X) :
    (∀ V : Fin N → Fin m → ℝ, HasFDerivAt (fun Y' => fderiv ℝ F Y' V)
      (lin2 fun j c => ∑ i, ∑ a, V i a * flatBlocks blocks (flatIdx i a) (flatIdx j c))
      fun i => o.func (X i)) ∧
    (∀ V : Fin N → Fin n → ℝ, HasFDerivAt
      (fun X' => fderiv ℝ (fun X' : Fin N → Fin n → ℝ => F fun i => o.func (X' i)) X' V)
      (lin2 fun j l => ∑ i, ∑ k, V i k * flatBlocks (decisionBlocks blocks
        (energyGrad K b dψ fun i => o.func (X i)) (fun i => o.jac (X i)) fun i => o.hess (X i))
          (flatIdx i k) (flatIdx j l)) X) ∧
    (∀ p q, flatBlocks blocks p q = flatBlocks blocks q p) ∧
    ∀ p q, flatBlocks (decisionBlocks blocks (energyGrad K b dψ fun i => o.func (X i))
        (fun i => o.jac (X i)) fun i => o.hess (X i)) p q =
      flatBlocks (decisionBlocks blocks (energyGrad K b dψ fun i => o.func (X i))
        (fun i => o.jac (X i)) fun i => o.hess (X i)) q p := by
  have hG := fun i a => energyGrad_hasFDerivAt (b := b) (Y := fun i => o.func (X i)) hK hψ i a
  have hS := symm_of_lin2 hF hG
  have hb' : (fun i a j c => blocks i j a c) = energyHess K b d2ψ fun i => o.func (X i) := by
    funext i a j c
    exact hb i a j c
  refine ⟨fun V => ?_, fun V => ?_, fun p q => ?_, fun p q => ?_⟩
  · have hev : ∀ᶠ Y' in 𝓝 (fun i => o.func (X i)),
        fderiv ℝ F Y' V = ∑ i, ∑ a, energyGrad K b dψ Y' i a * V i a := by
      filter_upwards [hF] with Y' hY'
      rw [hY'.fderiv, lin2_apply]
    refine HasFDerivAt.congr_of_eventuallyEq ?_ hev
    have hs : HasFDerivAt (fun Y' : Fin N → Fin m → ℝ => ∑ i, ∑ a, energyGrad K b dψ Y' i a * V i a)
        (∑ i, ∑ a, V i a • lin2 (energyHess K b d2ψ (fun i => o.func (X i)) i a)) fun i => o.func (X i) :=
      HasFDerivAt.fun_sum fun i _ => HasFDerivAt.fun_sum fun a _ => (hG i a).mul_const (V i a)
    refine hs.congr_fderiv ?_
    ext W
    simp only [ContinuousLinearMap.sum_apply, ContinuousLinearMap.smul_apply, lin2_apply, smul_eq_mul,
      flatBlocks_flatIdx, hb, Finset.mul_sum, Finset.sum_mul]
    rw [sum_comm4]
    exact Finset.sum_congr rfl fun _ _ => Finset.sum_congr rfl fun _ _ => Finset.sum_congr rfl fun _ _ =>
      Finset.sum_congr rfl fun _ _ => by ring
  · refine (hasFDerivAt_fderiv_images hF hG ho.jac ho.hess V).congr_fderiv ?_
    simp only [flatBlocks_flatIdx, decisionBlocks_eq, hb']
  · obtain ⟨i, a, rfl⟩ := flatIdx_surjective p
    obtain ⟨j, c, rfl⟩ := flatIdx_surjective q
    rw [flatBlocks_flatIdx, flatBlocks_flatIdx, hb, hb]
    exact hS i a j c
  · obtain ⟨i, k, rfl⟩ := flatIdx_surjective p
    obtain ⟨j, l, rfl⟩ := flatIdx_surjective q
    rw [flatBlocks_flatIdx, flatBlocks_flatIdx, decisionBlocks_eq, decisionBlocks_eq, hb']
    exact hessChain_symm hS (fun i a k l => ho.symm i a k l) i k j l

/-- Near the points the gradient formula holds too. -/
theorem diffAt_eventually {K : Kernel m} {Y : Fin N → Fin m → ℝ} (hK : ∀ i j, i ≠ j → K.Diff2At (Y i) (Y j)) :
    ∀ᶠ Y' in 𝓝 Y, ∀ i j, i ≠ j → K.DiffAt (Y' i) (Y' j) := by
  rw [Filter.eventually_all]
  intro i
  rw [Filter.eventually_all]
  intro j
  by_cases h : i = j
  · simp [h]
  have hc : ContinuousAt (fun Y' : Fin N → Fin m → ℝ => (Y' i, Y' j)) Y :=
    ((continuous_apply i).prodMk (continuous_apply j)).continuousAt
  filter_upwards [hc.eventually (hK i j h).near] with Y' hY' _
  exact hY'

theorem diffAt_eventually_ref {K : Kernel m} {Y : Fin N → Fin m → ℝ} {i : Fin N} {r : Fin m → ℝ}
    (hR : K.Diff2At (Y i) r) : ∀ᶠ Y' in 𝓝 Y, K.DiffAt (Y' i) r := by
  have hc : ContinuousAt (fun Y' : Fin N → Fin m → ℝ => (Y' i, r)) Y :=
    ((continuous_apply i).prodMk continuous_const).continuousAt
  exact hc.eventually hR.near

/-- C40: `MMDdY2` and `MMDdX2` are the matrices of second derivatives of the value in the objective points
and in the decision points, and they are symmetric, for symmetric stationary kernels that are twice
differentiable at the pairs of distinct points and the pairs of points and reference points. -/
theorem C40_hessian {o : Objective n m} {K : Kernel m} {R : Fin M → Fin m → ℝ}
    {X : Fin N → Fin n → ℝ} {Y : Option (Fin N → Fin m → ℝ)} {J : Option (Fin N → Fin m → Fin n → ℝ)}
    (hN : 0 < N) (hM : 0 < M) (hY : o.images X Y = fun i => o.func (X i))
    (hJ : o.jacobians X J = fun i => o.jac (X i)) (ho : HasHess o X) (hs : ∀ x y, K.k x y = K.k y x)
    (hst : Stationary K.k) (hK : ∀ i j, i ≠ j → K.Diff2At (o.func (X i)) (o.func (X j)))
    (hR : ∀ i r, K.Diff2At (o.func (X i)) (R r)) :
    ∃ H, mmdHessian o K R X Y J = some H ∧
      (∃ g, mmdGradient o K R X Y J = some g ∧ H.toMMDGradient = g) ∧
      (∀ V : Fin N → Fin m → ℝ, HasFDerivAt (fun Y' => fderiv ℝ (mmdOf K.k R) Y' V)
        (lin2 fun j b => ∑ i, ∑ a, V i a * H.dY2 (flatIdx i a) (flatIdx j b)) fun i => o.func (X i)) ∧
      (∀ V : Fin N → Fin n → ℝ, HasFDerivAt
        (fun X' => fderiv ℝ (fun X' : Fin N → Fin n → ℝ => mmdOf K.k R fun i => o.func (X' i)) X' V)
        (lin2 fun j l => ∑ i, ∑ k, V i k * H.dX2 (flatIdx i k) (flatIdx j l)) X) ∧
      (∀ p q, H.dY2 p q = H.dY2 q p) ∧ ∀ p q, H.dX2 p q = H.dX2 q p := by
  unfold mmdHessian mmdGradient
  rw [if_neg (by omega), if_neg (by omega), hY, hJ]
  refine ⟨_, rfl, ⟨_, rfl, rfl⟩, ?_⟩
  simp only [mmdKernelGradient_eq]
  have hev : ∀ᶠ Y' in 𝓝 (fun i => o.func (X i)), HasFDerivAt (mmdOf K.k R)
      (lin2 (energyGrad K (1 / (N : ℝ) ^ 2)
        (fun _ y a => -2 / ((N : ℝ) * M) * ∑ r, K.dx y (R r) a) Y')) Y' := by
    have h1 : ∀ᶠ Y' in 𝓝 (fun i => o.func (X i)), ∀ i r, K.DiffAt (Y' i) (R r) := by
      rw [Filter.eventually_all]
      intro i
      rw [Filter.eventually_all]
      intro r
      exact diffAt_eventually_ref (hR i r)
    filter_upwards [diffAt_eventually hK, h1] with Y' h2 h3
    rw [← mmdKernelGradient_eq]
    exact mmdOf_hasFDerivAt hs (fun x => hst.diag x) h2 h3
  refine energy_second hev hK
    (d2ψ := fun i a c => -2 / ((N : ℝ) * M) * ∑ r, K.dx2 (o.func (X i)) (R r) a c)
    (fun i a => hasFDerivAt_linear_sum fun r => (hR i r).dx2 a) ?_ ho
  intro i a j c
  unfold mmdKernelHessian energyHess
  by_cases h : i = j
  · rw [if_pos h, if_pos h]
    ring
  · rw [if_neg h, if_neg h, hst.dxdy_swap hs (hK i j h) (hK j i fun e => h e.symm) a c]
    ring

/-- C40 for the built-in smooth kernels: no condition on the points. -/
theorem C40_kernels {o : Objective n m} {k : (Fin m → ℝ) → (Fin m → ℝ) → ℝ} {theta alpha : ℝ}
    (ht : 0 < theta) (ha : 0 < alpha) (hk : k = rbf theta ∨ k = rationalQuadratic theta alpha)
    {R : Fin M → Fin m → ℝ} {X : Fin N → Fin n → ℝ} (hN : 0 < N) (hM : 0 < M) (ho : HasHess o X) :
    ∃ H, mmdHessian o (autodiff k) R X none none = some H ∧
      (∀ V : Fin N → Fin n → ℝ, HasFDerivAt
        (fun X' => fderiv ℝ (fun X' : Fin N → Fin n → ℝ => mmdOf k R fun i => o.func (X' i)) X' V)
        (lin2 fun j l => ∑ i, ∑ k, V i k * H.dX2 (flatIdx i k) (flatIdx j l)) X) ∧
      ∀ p q, H.dX2 p q = H.dX2 q p := by
  have hd : ∀ x y, (autodiff k).Diff2At x y := by
    intro x y
    refine autodiff_diff2At (ContDiff.contDiffAt ?_)
    rcases hk with rfl | rfl
    · exact contDiff_rbf theta
    · exact contDiff_rationalQuadratic ht.le ha
  have hs : ∀ x y, k x y = k y x := by
    intro x y
    rcases hk with rfl | rfl
    · exact rbf_symm _ _ _
    · exact rationalQuadratic_symm _ _ _ _
  have hst : Stationary k := by
    rcases hk with rfl | rfl
    · exact stationary_rbf _
    · exact stationary_rationalQuadratic _ _
  obtain ⟨H, h1, -, -, h2, -, h3⟩ := C40_hessian (K := autodiff k) (R := R) (Y := none) (J := none) hN hM rfl
    rfl ho hs hst (fun i j _ => hd _ _) fun i r => hd _ _
  exact ⟨H, h1, h2, h3⟩

/-- The hypotheses of `C40_kernels`. -/
example : HasHess gdObjective ![![1, 0], ![0, 2]] := gdObjective_hasHess _

/-! ## C41 -/

/-- The specification: `beta · mean k(y_i, y_j) + mean (2 - 2 k(y_i, r_i))`. -/
noncomputable def mmdmOf (beta : ℝ) (k : (Fin m → ℝ) → (Fin m → ℝ) → ℝ) (r Y : Fin N → Fin m → ℝ) : ℝ :=
  beta * ((∑ i, ∑ j, k (Y i) (Y j)) / (N : ℝ) ^ 2) + (∑ i, (2 - 2 * k (Y i) (r i))) / N

/-- `compute` returns this value. -/
theorem C41_value (beta : ℝ) (k : (Fin m → ℝ) → (Fin m → ℝ) → ℝ) (r Y : Fin N → Fin m → ℝ) :
    mmdmCompute beta k r Y = if N = 0 then none else some (mmdmOf beta k r Y) := by
  unfold mmdmCompute meanCdist mean
  by_cases hN : N = 0
  · simp [hN]
  rw [if_neg (by simp [hN]), if_neg hN, if_neg hN]
  simp only [Option.bind_some, Option.map_some, mmdmOf]
  congr 3
  push_cast
  ring

theorem mmdmKernelGradient_eq (beta : ℝ) (K : Kernel m) (Y r : Fin N → Fin m → ℝ) :
    mmdmKernelGradient beta K Y r = energyGrad K (beta / (N : ℝ) ^ 2)
      (fun i y a => -2 / (N : ℝ) * K.dx y (r i) a) Y := by
  funext i a
  unfold mmdmKernelGradient energyGrad
  ring

theorem mmdmOf_hasFDerivAt {beta : ℝ} {K : Kernel m} {c0 : ℝ} (hs : ∀ x y, K.k x y = K.k y x)
    (hc : ∀ x, K.k x x = c0) {r Y : Fin N → Fin m → ℝ} (hK : ∀ i j, i ≠ j → K.DiffAt (Y i) (Y j))
    (hR : ∀ i, K.DiffAt (Y i) (r i)) :
    HasFDerivAt (mmdmOf beta K.k r) (lin2 (mmdmKernelGradient beta K Y r)) Y := by
  rw [mmdmKernelGradient_eq]
  have h := energy_hasFDerivAt (b := beta / (N : ℝ) ^ 2) hs hc hK
    (ψ := fun i y => 2 / (N : ℝ) + -2 / (N : ℝ) * K.k y (r i))
    (dψ := fun i y a => -2 / (N : ℝ) * K.dx y (r i) a)
    fun i => by
      refine (((hR i).dx.const_mul (-2 / (N : ℝ))).const_add _).congr_fderiv ?_
      ext v
      simp only [ContinuousLinearMap.smul_apply, lin_apply, smul_eq_mul, Finset.mul_sum]
      exact Finset.sum_congr rfl fun a _ => by ring
  refine h.congr_of_eventuallyEq (Filter.Eventually.of_forall fun Y' => ?_)
  unfold mmdmOf energy
  rw [Finset.sum_div (f := fun i => 2 - 2 * K.k (Y' i) (r i))]
  congr 1
  · ring
  · refine Finset.sum_congr rfl fun i _ => ?_
    beta_reduce
    ring

/-- C41: for a fixed matching, the reported derivatives are the first and second derivatives of the value
in the objective and in the decision points, for every `beta` and kernels as in C39 and C40. -/
theorem C41_derivatives {o : Objective n m} {beta : ℝ} {K : Kernel m} {r : Fin N → Fin m → ℝ}
    {X : Fin N → Fin n → ℝ} {Y : Option (Fin N → Fin m → ℝ)} {J : Option (Fin N → Fin m → Fin n → ℝ)}
    (hN : 0 < N) (hY : o.images X Y = fun i => o.func (X i))
    (hJ : o.jacobians X J = fun i => o.jac (X i)) (ho : HasHess o X) (hs : ∀ x y, K.k x y = K.k y x)
    (hst : Stationary K.k) (hK : ∀ i j, i ≠ j → K.Diff2At (o.func (X i)) (o.func (X j)))
    (hR : ∀ i, K.Diff2At (o.func (X i)) (r i)) :
    ∃ H, mmdmHessian o beta K r X Y J = some H ∧
      (∃ g, mmdmGradient o beta K r X Y J = some g ∧ H.toMMDGradient = g) ∧
      HasFDerivAt (mmdmOf beta K.k r) (lin2 H.dY) (fun i => o.func (X i)) ∧
      HasFDerivAt (fun X' : Fin N → Fin n → ℝ => mmdmOf beta K.k r fun i => o.func (X' i)) (lin2 H.dX) X ∧
      (∀ V : Fin N → Fin m → ℝ, HasFDerivAt (fun Y' => fderiv ℝ (mmdmOf beta K.k r) Y' V)
        (lin2 fun j b => ∑ i, ∑ a, V i a * H.dY2 (flatIdx i a) (flatIdx j b)) fun i => o.func (X i)) ∧
      (∀ V : Fin N → Fin n → ℝ, HasFDerivAt
        (fun X' => fderiv ℝ (fun X' : Fin N → Fin n → ℝ => mmdmOf beta K.k r fun i => o.func (X' i)) X' V)
        (lin2 fun j l => ∑ i, ∑ k, V i k * H.dX2 (flatIdx i k) (flatIdx j l)) X) ∧
      (∀ p q, H.dY2 p q = H.dY2 q p) ∧ ∀ p q, H.dX2 p q = H.dX2 q p := by
  unfold mmdmHessian mmdmGradient
  rw [if_neg (by omega), hY, hJ]
  refine ⟨_, rfl, ⟨_, rfl, rfl⟩, ?_⟩
  have h0 : ∀ i j, i ≠ j → K.DiffAt (o.func (X i)) (o.func (X j)) :=
    fun i j h => (hK i j h).near.self_of_nhds
  have hg := mmdmOf_hasFDerivAt (beta := beta) (Y := fun i => o.func (X i)) hs (fun x => hst.diag x) h0
    fun i => (hR i).near.self_of_nhds
  refine ⟨hg, (hasFDerivAt_comp_images hg ho.hasJac).congr_fderiv ?_, ?_⟩
  · congr 1
    funext i k
    exact Finset.sum_congr rfl fun a _ => mul_comm _ _
  simp only [mmdmKernelGradient_eq]
  have hev : ∀ᶠ Y' in 𝓝 (fun i => o.func (X i)), HasFDerivAt (mmdmOf beta K.k r)
      (lin2 (energyGrad K (beta / (N : ℝ) ^ 2) (fun i y a => -2 / (N : ℝ) * K.dx y (r i) a) Y')) Y' := by
    have h1 : ∀ᶠ Y' in 𝓝 (fun i => o.func (X i)), ∀ i, K.DiffAt (Y' i) (r i) := by
      rw [Filter.eventually_all]
      intro i
      exact diffAt_eventually_ref (hR i)
    filter_upwards [diffAt_eventually hK, h1] with Y' h2 h3
    rw [← mmdmKernelGradient_eq]
    exact mmdmOf_hasFDerivAt hs (fun x => hst.diag x) h2 h3
  refine energy_second hev hK
    (d2ψ := fun i a c => -2 / (N : ℝ) * K.dx2 (o.func (X i)) (r i) a c)
    (fun i a => ?_) ?_ ho
  · refine (((hR i).dx2 a).const_mul (-2 / (N : ℝ))).congr_fderiv ?_
    ext v
    simp only [ContinuousLinearMap.smul_apply, lin_apply, smul_eq_mul, Finset.mul_sum]
    exact Finset.sum_congr rfl fun c _ => by ring
  intro i a j c
  unfold mmdmKernelHessian energyHess
  by_cases h : i = j
  · rw [if_pos h, if_pos h]
    ring
  · rw [if_neg h, if_neg h, hst.dxdy_swap hs (hK i j h) (hK j i fun e => h e.symm) a c]
    ring

/-- The hypotheses of `C41_derivatives` (and of `C40_hessian`) hold for the default kernel. -/
example : HasHess gdObjective ![![1, 0], ![0, 2]] ∧ Stationary (autodiff (rbf 1) : Kernel 2).k ∧
    (∀ x y, (autodiff (rbf 1) : Kernel 2).k x y = (autodiff (rbf 1)).k y x) ∧
    ∀ x y, (autodiff (rbf 1) : Kernel 2).Diff2At x y :=
  ⟨gdObjective_hasHess _, stationary_rbf 1, rbf_symm 1,
    fun _ _ => autodiff_diff2At (contDiff_rbf 1).contDiffAt⟩

end Verif.Props
