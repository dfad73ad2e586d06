import Verif.Scripts.Approximator
import Mathlib.MeasureTheory.Function.Jacobian
import Mathlib.MeasureTheory.Measure.Lebesgue.Basic
import Mathlib.MeasureTheory.Measure.Haar.OfBasis
import Mathlib.MeasureTheory.Measure.Lebesgue.EqHaar
import Mathlib.Analysis.Calculus.FDeriv.Add
import Mathlib.Analysis.Calculus.FDeriv.Mul
import Mathlib.Analysis.Calculus.FDeriv.Pow
import Mathlib.Analysis.Calculus.FDeriv.Pi
import Mathlib.Analysis.Calculus.FDeriv.Linear
import Mathlib.Analysis.Calculus.FDeriv.Const
import Mathlib.Analysis.Calculus.FDeriv.Comp

/-!
# C88: the approximation of the Pareto front by a network
-/

namespace Verif.Props

open Verif.Scripts Filter Topology MeasureTheory

/-! ## Specification -/

/-- The linear form with the coefficients `g`. -/
noncomputable def linForm {n : ℕ} (g : Fin n → ℝ) : (Fin n → ℝ) →L[ℝ] ℝ := ∑ i, g i • ContinuousLinearMap.proj i

/-- `g` and `H` are the first and the second derivatives of `f` at `x`. -/
def DerivativesAt {n : ℕ} (f : (Fin n → ℝ) → ℝ) (g : Fin n → ℝ) (H : Fin n → Fin n → ℝ) (x : Fin n → ℝ) : Prop :=
  HasFDerivAt f (linForm g) x ∧ ∀ i, HasFDerivAt (fun y => fderiv ℝ f y (Pi.single i 1)) (linForm (H i)) x

/-- No unit of the network is at the kink of its activation. -/
def NoKink : {n : ℕ} → Net ℝ n → (Fin n → ℝ) → Prop
  | _, .out _ _, _ => True
  | _, .hidden w b rest, x => (∀ i, ∑ j, w i j * x j + b i ≠ 0) ∧ NoKink rest fun i => max 0 (∑ j, w i j * x j + b i)

/-! ## Lemmas -/

theorem linForm_apply {n : ℕ} (g x : Fin n → ℝ) : linForm g x = ∑ i, g i * x i := by
  simp [linForm]

theorem relu_eq (z : ℝ) : relu z = max 0 z := by
  unfold relu
  split
  · rw [max_eq_right (by linarith)]
  · rw [max_eq_left (by linarith)]

theorem continuous_relu : Continuous (relu : ℝ → ℝ) := by
  have : (relu : ℝ → ℝ) = fun z => max 0 z := funext relu_eq
  rw [this]
  exact continuous_const.max continuous_id

/-- At almost all zeros of a function that is differentiable almost everywhere, the derivative vanishes. -/
theorem ae_zero_fderiv {N : ℕ} {z : (Fin N → ℝ) → ℝ} (hz : Continuous z) {z' : (Fin N → ℝ) → (Fin N → ℝ) →L[ℝ] ℝ}
    (h : ∀ᵐ x, HasFDerivAt z (z' x) x) : ∀ᵐ x, z x = 0 → z' x = 0 := by
  rcases Nat.eq_zero_or_pos N with rfl | hN
  · refine Eventually.of_forall fun x _ => ?_
    ext y
    rw [Subsingleton.elim y 0, map_zero, map_zero]
  obtain ⟨t, hts, htm, ht0⟩ := exists_measurable_superset_of_null (ae_iff.mp h)
  set v : Fin N → ℝ := fun _ => 1 with hv
  set s : Set (Fin N → ℝ) := z ⁻¹' {0} \ t with hs
  have hsm : MeasurableSet s := ((isClosed_singleton.preimage hz).measurableSet).diff htm
  have happ : ApproximatesLinearOn (fun y => z y • v) (0 : (Fin N → ℝ) →L[ℝ] (Fin N → ℝ)) s 0 := by
    intro x hx y hy
    have hx' : z x = 0 := hx.1
    have hy' : z y = 0 := hy.1
    simp [hx', hy']
  have hder : ∀ x ∈ s, HasFDerivWithinAt (fun y => z y • v) ((z' x).smulRight v) s x := by
    intro x hx
    have : HasFDerivAt z (z' x) x := by
      by_contra hc
      exact hx.2 (hts hc)
    exact (this.smul_const v).hasFDerivWithinAt
  have key := happ.norm_fderiv_sub_le volume hsm _ hder
  rw [ae_restrict_iff' hsm] at key
  have ht : ∀ᵐ x, x ∉ t := measure_eq_zero_iff_ae_notMem.mp ht0
  filter_upwards [key, ht] with x hx hxt hx0
  have h0 := hx ⟨hx0, hxt⟩
  rw [sub_zero, nonpos_iff_eq_zero, nnnorm_eq_zero] at h0
  ext y
  have := congrFun (congrArg (fun l : (Fin N → ℝ) →L[ℝ] (Fin N → ℝ) => l y) h0) ⟨0, hN⟩
  simpa [hv] using this

/-- A function that is affine near `x`. -/
theorem hasFDerivAt_of_affine {N : ℕ} {f : (Fin N → ℝ) → ℝ} {L : (Fin N → ℝ) →L[ℝ] ℝ} {x : Fin N → ℝ}
    (h : ∀ᶠ y in 𝓝 x, f y = f x + L (y - x)) : HasFDerivAt f L x := by
  have e : HasFDerivAt (fun y => f x + L (y - x)) L x := by
    have h1 : HasFDerivAt (fun y : Fin N → ℝ => y - x) (ContinuousLinearMap.id ℝ (Fin N → ℝ)) x :=
      (hasFDerivAt_id x).sub_const x
    have h2 := HasFDerivAt.comp (f := fun y : Fin N → ℝ => y - x) x (L.hasFDerivAt (x := x - x)) h1
    exact (h2.const_add (f x))
  exact e.congr_of_eventuallyEq h

theorem derivatives_of_affine {N : ℕ} {f : (Fin N → ℝ) → ℝ} {g : Fin N → ℝ} {x : Fin N → ℝ}
    (h : ∀ᶠ y in 𝓝 x, f y = f x + linForm g (y - x)) : DerivativesAt f g (fun _ _ => 0) x := by
  refine ⟨hasFDerivAt_of_affine h, fun i => ?_⟩
  have h2 : ∀ᶠ y in 𝓝 x, fderiv ℝ f y (Pi.single i 1) = linForm g (Pi.single i 1) := by
    filter_upwards [h.eventually_nhds] with y hy
    have : HasFDerivAt f (linForm g) y := hasFDerivAt_of_affine (by
      have hy0 := hy.self_of_nhds
      filter_upwards [hy] with w hw
      rw [hw, hy0, add_assoc, ← map_add]
      congr 2
      abel)
    rw [this.fderiv]
  have e : linForm (fun _ : Fin N => (0 : ℝ)) = 0 := by
    ext y
    simp [linForm_apply]
  rw [e]
  exact (hasFDerivAt_const (linForm g (Pi.single i 1)) x).congr_of_eventuallyEq h2

/-- A ReLU after a function that is affine near `x`. -/
theorem relu_affine {N : ℕ} {z : (Fin N → ℝ) → ℝ} {L : (Fin N → ℝ) →L[ℝ] ℝ} {x : Fin N → ℝ}
    (h : ∀ᶠ y in 𝓝 x, z y = z x + L (y - x)) (h0 : z x = 0 → L = 0) :
    ∀ᶠ y in 𝓝 x, relu (z y) = relu (z x) + (if 0 < z x then L else 0) (y - x) := by
  have hc : ContinuousAt z x := (hasFDerivAt_of_affine h).continuousAt
  rcases lt_trichotomy (z x) 0 with hx | hx | hx
  · filter_upwards [hc.eventually (gt_mem_nhds hx)] with y hy
    simp [relu, hx.not_gt, not_lt.mpr (le_of_lt hy)]
  · filter_upwards [h] with y hy
    rw [h0 hx, hx] at hy
    simp [relu, hx, hy]
  · filter_upwards [h, hc.eventually (lt_mem_nhds hx)] with y hy hy0
    rw [if_pos hx]
    simp only [relu, hx, hy0, if_true]
    exact hy

theorem linear_affine {N n m : ℕ} {h : (Fin N → ℝ) → Fin n → ℝ} {J : Fin n → (Fin N → ℝ) →L[ℝ] ℝ} {x : Fin N → ℝ}
    (hJ : ∀ᶠ y in 𝓝 x, ∀ j, h y j = h x j + J j (y - x)) (w : Fin m → Fin n → ℝ) (b : Fin m → ℝ) (i : Fin m) :
    ∀ᶠ y in 𝓝 x, linear w b (h y) i = linear w b (h x) i + (∑ j, w i j • J j) (y - x) := by
  filter_upwards [hJ] with y hy
  unfold linear
  have : ∑ j, w i j * h y j = ∑ j, w i j * h x j + ∑ j, w i j * J j (y - x) := by
    rw [← Finset.sum_add_distrib]
    exact Finset.sum_congr rfl fun j _ => by rw [hy j]; ring
  rw [this]
  simp
  ring

/-- The backward pass composes with the derivative of the layers before. -/
theorem backward_apply {N n m : ℕ} (w : Fin m → Fin n → ℝ) (c : Fin m → Prop) [DecidablePred c] (g : Fin m → ℝ)
    (J : Fin n → (Fin N → ℝ) →L[ℝ] ℝ) (v : Fin N → ℝ) :
    ∑ i, g i * (if c i then ∑ j, w i j • J j else (0 : (Fin N → ℝ) →L[ℝ] ℝ)) v =
      ∑ j, (∑ i, (if c i then g i else 0) * w i j) * J j v := by
  have e : ∀ j, (∑ i, (if c i then g i else 0) * w i j) * J j v = ∑ i, (if c i then g i else 0) * w i j * J j v :=
    fun j => Finset.sum_mul _ _ _
  simp only [e]
  rw [Finset.sum_comm]
  refine Finset.sum_congr rfl fun i _ => ?_
  split
  · simp only [ContinuousLinearMap.sum_apply, ContinuousLinearMap.smul_apply, smul_eq_mul, Finset.mul_sum]
    exact Finset.sum_congr rfl fun j _ => by ring
  · simp

/-- Almost everywhere the network is affine, with the coefficients of the backward pass. -/
theorem net_ae {N : ℕ} {n : ℕ} (net : Net ℝ n) {h : (Fin N → ℝ) → Fin n → ℝ} (hc : Continuous h)
    {J : (Fin N → ℝ) → Fin n → (Fin N → ℝ) →L[ℝ] ℝ}
    (hJ : ∀ᵐ x, ∀ᶠ y in 𝓝 x, ∀ j, h y j = h x j + J x j (y - x)) :
    ∀ᵐ x, ∀ᶠ y in 𝓝 x, net.eval (h y) = net.eval (h x) + ∑ j, net.grad (h x) j * J x j (y - x) := by
  induction net with
  | out w b =>
    filter_upwards [hJ] with x hx
    filter_upwards [hx] with y hy
    simp only [Net.eval, Net.grad, hy]
    have : ∑ j, w j * (h x j + J x j (y - x)) = ∑ j, w j * h x j + ∑ j, w j * J x j (y - x) := by
      rw [← Finset.sum_add_distrib]
      exact Finset.sum_congr rfl fun j _ => by ring
    rw [this]
    ring
  | @hidden n m w b rest ih =>
    have hcz : ∀ i, Continuous fun x => linear w b (h x) i := fun i => by
      unfold linear
      exact (continuous_finset_sum _ fun j _ => continuous_const.mul ((continuous_apply j).comp hc)).add continuous_const
    have hz : ∀ i, ∀ᵐ x, linear w b (h x) i = 0 → (∑ j, w i j • J x j) = 0 := fun i =>
      ae_zero_fderiv (hcz i) (by
        filter_upwards [hJ] with x hx
        exact hasFDerivAt_of_affine (linear_affine hx w b i))
    have step := ih (h := fun x i => relu (linear w b (h x) i)) (continuous_pi fun i => continuous_relu.comp (hcz i))
      (J := fun x i => if 0 < linear w b (h x) i then ∑ j, w i j • J x j else 0) (by
        filter_upwards [hJ, ae_all_iff.mpr hz] with x hx hx0
        rw [eventually_all]
        exact fun i => relu_affine (linear_affine hx w b i) (hx0 i))
    filter_upwards [step] with x hx
    filter_upwards [hx] with y hy
    simp only [Net.eval, Net.grad]
    rw [hy, backward_apply]

/-- The same at a point without kinks. -/
theorem net_regular {N : ℕ} {n : ℕ} (net : Net ℝ n) {h : (Fin N → ℝ) → Fin n → ℝ} {x : Fin N → ℝ}
    {J : Fin n → (Fin N → ℝ) →L[ℝ] ℝ}
    (hJ : ∀ᶠ y in 𝓝 x, ∀ j, h y j = h x j + J j (y - x)) (hk : NoKink net (h x)) :
    ∀ᶠ y in 𝓝 x, net.eval (h y) = net.eval (h x) + ∑ j, net.grad (h x) j * J j (y - x) := by
  induction net with
  | out w b =>
    filter_upwards [hJ] with y hy
    simp only [Net.eval, Net.grad, hy]
    have : ∑ j, w j * (h x j + J j (y - x)) = ∑ j, w j * h x j + ∑ j, w j * J j (y - x) := by
      rw [← Finset.sum_add_distrib]
      exact Finset.sum_congr rfl fun j _ => by ring
    rw [this]
    ring
  | @hidden n m w b rest ih =>
    have step := ih (h := fun x i => relu (linear w b (h x) i))
      (J := fun i => if 0 < linear w b (h x) i then ∑ j, w i j • J j else 0) (by
        rw [eventually_all]
        exact fun i => relu_affine (linear_affine hJ w b i) fun h0 => absurd h0 (hk.1 i)) (by
        have := hk.2
        simpa only [relu_eq, linear] using this)
    filter_upwards [step] with y hy
    simp only [Net.eval, Net.grad]
    rw [hy, backward_apply]

theorem gradTangent_zero {n : ℕ} (net : Net ℝ n) (x d : Fin n → ℝ) : net.gradTangent x d = 0 := by
  induction net with
  | out w b => rfl
  | hidden w b rest ih =>
    funext j
    simp [Net.gradTangent, ih]

theorem eqHessian_zero {n : ℕ} (net : Net ℝ n) (x : Fin (n + 1) → ℝ) : eqHessian net x = fun _ _ => 0 := by
  funext i j
  unfold eqHessian
  induction i using Fin.lastCases with
  | last => simp
  | cast i =>
    induction j using Fin.lastCases with
    | last => simp
    | cast j => simp [gradTangent_zero]

/-- From the network to the constraint. -/
theorem eqConstraint_affine {n : ℕ} {net : Net ℝ n} {x : Fin (n + 1) → ℝ}
    (h : ∀ᶠ y in 𝓝 x, net.eval (Fin.init y) = net.eval (Fin.init x) +
      ∑ j, net.grad (Fin.init x) j * (ContinuousLinearMap.proj (R := ℝ) (φ := fun _ : Fin (n + 1) => ℝ) j.castSucc) (y - x)) :
    ∀ᶠ y in 𝓝 x, eqConstraint net y = eqConstraint net x + linForm (eqJacobian net x) (y - x) := by
  filter_upwards [h] with y hy
  unfold eqConstraint
  rw [hy, linForm_apply, Fin.sum_univ_castSucc]
  simp only [eqJacobian, Fin.snoc_castSucc, Fin.snoc_last, ContinuousLinearMap.proj_apply, Pi.sub_apply]
  ring

theorem init_affine {n : ℕ} (x : Fin (n + 1) → ℝ) : ∀ᶠ y in 𝓝 x, ∀ j : Fin n, (Fin.init y : Fin n → ℝ) j =
    (Fin.init x : Fin n → ℝ) j + (ContinuousLinearMap.proj (R := ℝ) (φ := fun _ : Fin (n + 1) => ℝ) j.castSucc) (y - x) :=
  Eventually.of_forall fun y j => by simp [Fin.init]

/-! ## C88 -/

/-- C88, in full: wherever the equality constraint is differentiable, the derivatives reported are its derivatives. -/
def C88Statement : Prop :=
  ∀ (n : ℕ) (w1 : Fin 128 → Fin n → ℝ) (b1 : Fin 128 → ℝ) (w2 : Fin 64 → Fin 128 → ℝ) (b2 : Fin 64 → ℝ)
    (w3 : Fin 32 → Fin 64 → ℝ) (b3 : Fin 32 → ℝ) (w4 : Fin 16 → Fin 32 → ℝ) (b4 : Fin 16 → ℝ) (w5 : Fin 16 → ℝ) (b5 : ℝ)
    (x : Fin (n + 1) → ℝ), DifferentiableAt ℝ (eqConstraint (mlp w1 b1 w2 b2 w3 b3 w4 b4 w5 b5)) x →
    HasFDerivAt (eqConstraint (mlp w1 b1 w2 b2 w3 b3 w4 b4 w5 b5))
      (linForm (eqJacobian (mlp w1 b1 w2 b2 w3 b3 w4 b4 w5 b5) x)) x

/-- C88, almost everywhere: for every network, units that are never active included. What is missing: a null set. -/
theorem C88_almost_everywhere_partial {n : ℕ} (net : Net ℝ n) :
    ∀ᵐ x, DerivativesAt (eqConstraint net) (eqJacobian net x) (eqHessian net x) x := by
  have h := net_ae net (N := n + 1) (h := Fin.init) (continuous_pi fun j => continuous_apply j.castSucc)
    (Eventually.of_forall init_affine)
  filter_upwards [h] with x hx
  rw [eqHessian_zero]
  exact derivatives_of_affine (eqConstraint_affine hx)

/-- C88, at every point where no unit is at its kink. What is missing: points where a unit is. -/
theorem C88_no_kink_partial {n : ℕ} (net : Net ℝ n) (x : Fin (n + 1) → ℝ) (hk : NoKink net (Fin.init x)) :
    DerivativesAt (eqConstraint net) (eqJacobian net x) (eqHessian net x) x := by
  rw [eqHessian_zero]
  exact derivatives_of_affine (eqConstraint_affine (net_regular net (init_affine x) hk))

/-- The hypothesis of `C88_no_kink_partial`: the network `max 0 (x - 1) + 3`, at the point (3, 2). -/
example : NoKink (.hidden (fun _ _ => 1) (fun _ => -1) (.out (n := 1) (fun _ => 1) 3) : Net ℝ 1) (Fin.init (n := 1) ![3, 2]) ∧
    eqConstraint (.hidden (fun _ _ => 1) (fun _ => -1) (.out (n := 1) (fun _ => 1) 3) : Net ℝ 1) ![3, 2] = 3 := by
  constructor
  · simp [NoKink, Fin.init]
    norm_num
  · simp [eqConstraint, Net.eval, linear, relu, Fin.init]
    norm_num

theorem sum_pick {m n : ℕ} (hmn : m ≤ n) (i : Fin m) (h : Fin n → ℝ) :
    ∑ j : Fin n, (if i.val = j.val then (1 : ℝ) else 0) * h j = h (Fin.castLE hmn i) := by
  rw [Finset.sum_eq_single (Fin.castLE hmn i)]
  · simp
  · intro j _ hj
    rw [if_neg, zero_mul]
    exact fun h => hj (Fin.ext (by simpa using h.symm))
  · simp

/-- A network of the shape of the code that computes `max 0 x - max 0 (-x)`, the identity. -/
noncomputable def identityNet : Net ℝ 1 :=
  mlp (h := 128) (fun i _ => if i.val = 0 then 1 else if i.val = 1 then -1 else 0) (fun _ => 0)
    (fun i j => if i.val = j.val then 1 else 0) (fun _ => 0) (fun i j => if i.val = j.val then 1 else 0) (fun _ => 0)
    (fun i j => if i.val = j.val then 1 else 0) (fun _ => 0) (fun i => if i.val = 0 then 1 else if i.val = 1 then -1 else 0) 0

theorem identityNet_eval (x : Fin 1 → ℝ) : identityNet.eval x = x 0 := by
  have hr : ∀ z : ℝ, relu (relu z) = relu z := fun z => by
    rw [relu_eq, relu_eq]
    exact max_eq_right (le_max_left _ _)
  simp only [identityNet, mlp, Net.eval, linear, sum_pick (show 64 ≤ 128 by norm_num), sum_pick (show 32 ≤ 64 by norm_num),
    sum_pick (show 16 ≤ 32 by norm_num), add_zero, hr]
  simp only [Fin.sum_univ_succ, Fin.val_castLE]
  simp
  simp only [relu_eq]
  rcases le_total 0 (x 0) with h | h
  · rw [max_eq_right h, max_eq_left (by linarith)]
    ring
  · rw [max_eq_left h, max_eq_right (by linarith)]
    ring

/-- C88 does not hold: the network above is the identity, but the gradient reported at 0 is 0. -/
theorem C88_violated : ¬ C88Statement := by
  intro hall
  have he : ∀ y : Fin 2 → ℝ, eqConstraint identityNet y = y 0 - y 1 := fun y => by
    unfold eqConstraint
    rw [identityNet_eval]
    rfl
  have hd : HasFDerivAt (eqConstraint identityNet) (linForm ![1, -1]) (0 : Fin 2 → ℝ) :=
    hasFDerivAt_of_affine (Eventually.of_forall fun y => by
      rw [he, he, linForm_apply]
      simp [Fin.sum_univ_two]
      ring)
  have h := hall 1 _ _ _ _ _ _ _ _ _ _ 0 (show DifferentiableAt ℝ (eqConstraint identityNet) 0 from hd.differentiableAt)
  have h' : HasFDerivAt (eqConstraint identityNet) (linForm (eqJacobian identityNet 0)) (0 : Fin 2 → ℝ) := h
  have e := congrArg (fun l : (Fin 2 → ℝ) →L[ℝ] ℝ => l (Pi.single 0 1)) (hd.unique h')
  have hj : eqJacobian identityNet 0 0 = 0 := by
    have : (0 : Fin 2) = Fin.castSucc 0 := rfl
    rw [this]
    unfold eqJacobian
    rw [Fin.snoc_castSucc]
    simp [identityNet, mlp, Net.grad, linear, Fin.init]
  simp only [linForm_apply] at e
  rw [Fin.sum_univ_two, show ∑ i, eqJacobian identityNet 0 i * (Pi.single 0 1 : Fin 2 → ℝ) i =
    eqJacobian identityNet 0 0 * 1 + eqJacobian identityNet 0 1 * 0 from Fin.sum_univ_two _, hj] at e
  simp at e

/-! ### Inequalities -/

theorem derivatives_quadratic {n : ℕ} (c : Fin n → ℝ) (a : ℝ) (x : Fin n → ℝ) :
    DerivativesAt (fun y => (∑ i, c i * y i ^ 2) + a) (fun i => c i * (2 * x i)) (fun i j => if i = j then c i * 2 else 0) x := by
  have h : ∀ y : Fin n → ℝ, HasFDerivAt (fun y : Fin n → ℝ => (∑ i, c i * y i ^ 2) + a) (linForm fun i => c i * (2 * y i)) y := by
    intro y
    have h1 : ∀ i, HasFDerivAt (fun y : Fin n → ℝ => c i * y i ^ 2)
        ((c i * (2 * y i)) • ContinuousLinearMap.proj (R := ℝ) (φ := fun _ : Fin n => ℝ) i) y := by
      intro i
      have h2 : HasFDerivAt (fun y : Fin n → ℝ => y i) (ContinuousLinearMap.proj (R := ℝ) (φ := fun _ : Fin n => ℝ) i) y :=
        hasFDerivAt_apply i y
      have := (h2.pow 2).const_mul (c i)
      refine this.congr_fderiv ?_
      ext v
      simp
      ring
    exact (HasFDerivAt.fun_sum fun i _ => h1 i).add_const a
  refine ⟨h x, fun i => ?_⟩
  have e : (fun y : Fin n → ℝ => fderiv ℝ (fun y : Fin n → ℝ => (∑ i, c i * y i ^ 2) + a) y (Pi.single i 1)) =
      fun y => 0 + linForm (fun j => if i = j then c i * 2 else 0) y := by
    funext y
    rw [(h y).fderiv, linForm_apply, linForm_apply]
    simp [Pi.single_apply]
    ring
  rw [e]
  exact (linForm fun j => if i = j then c i * 2 else 0).hasFDerivAt.const_add 0

theorem derivatives_linear {n : ℕ} (a c : ℝ) (i : Fin n) (x : Fin n → ℝ) :
    DerivativesAt (fun y => a + c * y i) (fun j => if j = i then c else 0) (fun _ _ => 0) x :=
  derivatives_of_affine (Eventually.of_forall fun y => by
    rw [linForm_apply]
    simp
    ring)

/-- C88, the inequalities: there are as many as announced, they describe the part of the box in the unit disc, and the derivatives
reported are their derivatives. -/
theorem C88_inequalities {n : ℕ} (x : Fin n → ℝ) :
    (ieqConstraint x).length = nIeqConstr n ∧
    ((∀ v ∈ ieqConstraint x, v ≤ 0) ↔ (∑ i ∈ Finset.univ.filter fun i : Fin n => i.val < 2, x i ^ 2) ≤ 1 ∧ ∀ i, x i ∈ Set.Icc (-1) 0) ∧
    ∀ k < nIeqConstr n, ∃ (f : (Fin n → ℝ) → ℝ) (g : Fin n → ℝ) (H : Fin n → Fin n → ℝ),
      (∀ y, (ieqConstraint y)[k]? = some (f y)) ∧ (ieqJacobian x)[k]? = some g ∧ (ieqHessian (K := ℝ))[k]? = some H ∧
      DerivativesAt f g H x := by
  refine ⟨by simp [ieqConstraint, nIeqConstr]; omega, ?_, ?_⟩
  · simp only [ieqConstraint, List.mem_append, List.mem_cons, List.mem_map, List.mem_finRange, true_and, Finset.sum_filter]
    constructor
    · intro h
      refine ⟨by linarith [h _ (Or.inl (Or.inl rfl))], fun i => ⟨?_, ?_⟩⟩
      · linarith [h _ (Or.inl (Or.inr ⟨i, rfl⟩))]
      · linarith [h _ (Or.inr ⟨i, rfl⟩)]
    · rintro ⟨h1, h2⟩ v ((rfl | ⟨i, rfl⟩) | ⟨i, rfl⟩)
      · linarith
      · linarith [(h2 i).1]
      · linarith [(h2 i).2]
  · intro k hk
    unfold nIeqConstr at hk
    match k with
    | 0 =>
      refine ⟨_, _, _, fun y => rfl, rfl, rfl, ?_⟩
      have := derivatives_quadratic (fun i : Fin n => if i.val < 2 then 1 else 0) (-1) x
      convert this using 1
      · funext y
        simp [sub_eq_add_neg]
      · funext i
        simp
      · funext i j
        by_cases h1 : i = j <;> by_cases h2 : i.val < 2 <;> simp [h1, h2]
    | k + 1 =>
      by_cases hkn : k < n
      · refine ⟨fun y => -1 + (-1) * y ⟨k, hkn⟩, fun j => if j = ⟨k, hkn⟩ then -1 else 0, fun _ _ => 0, fun y => ?_, ?_, ?_,
          derivatives_linear _ _ _ _⟩
        · simp [ieqConstraint, List.getElem?_append, hkn]
          ring
        · simp [ieqJacobian, List.getElem?_append, hkn]
        · simp [ieqHessian, List.getElem?_replicate]
          omega
      · have hk2 : k - n < n := by omega
        refine ⟨fun y => 0 + 1 * y ⟨k - n, hk2⟩, fun j => if j = ⟨k - n, hk2⟩ then 1 else 0, fun _ _ => 0, fun y => ?_, ?_, ?_,
          derivatives_linear _ _ _ _⟩
        · simp [ieqConstraint, List.getElem?_append, hkn, hk2]
        · simp [ieqJacobian, List.getElem?_append, hkn, hk2]
        · simp [ieqHessian, List.getElem?_replicate]
          omega

/-- A feasible point with three objectives. -/
example : ∀ v ∈ ieqConstraint (![-3 / 5, -4 / 5, -1] : Fin 3 → ℝ), v ≤ 0 :=
  (C88_inequalities _).2.1.mpr ⟨by simp [Finset.sum_filter, Fin.sum_univ_three]; norm_num, fun i => by
    fin_cases i <;> simp <;> norm_num⟩

end Verif.Props
