import Verif.HVD.Chain
import Verif.HVD.Decision
import Verif.Props.Derivatives
import Mathlib.MeasureTheory.Measure.Haar.Unique

/-!
# C15, C16: derivatives in the decision space, maximization

Flat indices: objective `k` of point `i` is `i * nObj + k`, variable `v` of point `i` is
`i * nVar + v`.
-/

namespace Verif.Props

open Verif.HV Verif.HVD Topology

/-! ## C15 -/

section chain

variable {K : Type*} [Field K] [LinearOrder K] {argsort : List K → List ℕ} {fuel : ℕ} {p : Problem K}
  {X : List (ℕ → K)} {Y : Option (List (ℕ → K))} {i j v w : ℕ}

/-- The second-order chain rule: entry for variable `v` of point `i` and variable `w` of point `j`.
`g i k` are the first derivatives by objective `k` of point `i`, `H i k j m` the second ones, `J` and
`T` the first and second derivatives of the objectives. -/
def chainRule (nObj : ℕ) (g : ℕ → ℕ → K) (H : ℕ → ℕ → ℕ → ℕ → K) (J : ℕ → ℕ → ℕ → K)
    (T : ℕ → ℕ → ℕ → ℕ → K) (i v j w : ℕ) : K :=
  ∑ m ∈ Finset.range nObj, ∑ k ∈ Finset.range nObj, J i k v * H i k j m * J j m w +
    if i = j then ∑ k ∈ Finset.range nObj, g i k * T i k v w else 0

/-- C15, gradient: `HVdX = HVdY · dY/dX` for Jacobians given by the caller or evaluated. -/
theorem C15_gradient {YdX : Option (ℕ → ℕ → ℕ → K)} {r : Gradient K} (hp : p.minimization = true)
    (hr : p.computeGradient argsort fuel X Y YdX = some r) (hi : i < X.length) (hv : v < p.nVar) :
    r.HVdX (i * p.nVar + v) = ∑ k ∈ Finset.range p.nObj,
      r.HVdY (i * p.nObj + k) * (YdX.getD fun i => p.jac (ptOf X i)) i k v := by
  unfold Problem.computeGradient at hr
  rw [Option.map_eq_some_iff] at hr
  obtain ⟨g, -, rfl⟩ := hr
  simp only
  rw [rowTimes_blockDiag hi hv]
  refine Finset.sum_congr rfl fun k _ => ?_
  unfold Problem.jacobians Problem.jac'
  simp [hp]

/-- C15, Hessian: `HVdX = HVdY · dY/dX`, and `HVdX2` is the symmetric part of the second-order chain
rule for the user's Jacobians and Hessians, for any number of points, variables and objectives, in
minimization and maximization; if `HVdY2` and the user's Hessians are symmetric it is the chain rule
itself. -/
theorem C15_hessian [CharZero K] {r : HessianResult K} (hr : p.computeHessian argsort fuel X Y none = some r)
    (hi : i < X.length) (hv : v < p.nVar) (hj : j < X.length) (hw : w < p.nVar) :
    r.HVdX (i * p.nVar + v) =
      ∑ k ∈ Finset.range p.nObj, r.HVdY (i * p.nObj + k) * p.jac (ptOf X i) k v ∧
    ∀ A, A = chainRule p.nObj (fun i k => r.HVdY (i * p.nObj + k))
        (fun i k j m => r.HVdY2 (i * p.nObj + k) (j * p.nObj + m)) (fun i => p.jac (ptOf X i))
        (fun i => p.hess (ptOf X i)) →
      r.HVdX2 (i * p.nVar + v) (j * p.nVar + w) = (A i v j w + A j w i v) / 2 ∧
      ((∀ k < p.nObj, ∀ m < p.nObj, r.HVdY2 (i * p.nObj + k) (j * p.nObj + m) =
          r.HVdY2 (j * p.nObj + m) (i * p.nObj + k)) →
        (∀ x, ∀ k < p.nObj, p.hess x k v w = p.hess x k w v) →
        r.HVdX2 (i * p.nVar + v) (j * p.nVar + w) = A i v j w) := by
  unfold Problem.computeHessian Problem.computeGradient at hr
  rw [Option.bind_eq_some_iff] at hr
  obtain ⟨G, hG, hr⟩ := hr
  rw [Option.map_eq_some_iff] at hG hr
  obtain ⟨g, -, rfl⟩ := hG
  obtain ⟨H, -, rfl⟩ := hr
  have hA : ∀ i v j w, i < X.length → v < p.nVar → j < X.length → w < p.nVar →
      hessRaw (X.length * p.nObj) (flat p.nObj g)
        (fun a b => entryH H (a / p.nObj) (a % p.nObj) (b / p.nObj) (b % p.nObj))
        (blockDiag p.nObj p.nVar (p.jacobians X none)) (blockTensor p.nObj p.nVar (fun i => p.hess' (ptOf X i)))
        (i * p.nVar + v) (j * p.nVar + w) =
      chainRule p.nObj (fun i k => (if p.minimization then flat p.nObj g else fun a => -1 * flat p.nObj g a)
          (i * p.nObj + k))
        (fun i k j m => entryH H ((i * p.nObj + k) / p.nObj) ((i * p.nObj + k) % p.nObj)
          ((j * p.nObj + m) / p.nObj) ((j * p.nObj + m) % p.nObj)) (fun i => p.jac (ptOf X i))
        (fun i => p.hess (ptOf X i)) i v j w := by
    intro i v j w hi hv hj hw
    rw [hessRaw_block hi hj hv hw]
    unfold chainRule Problem.jacobians Problem.jac' Problem.hess'
    cases p.minimization <;> simp
  refine ⟨?_, ?_⟩
  · simp only
    rw [rowTimes_blockDiag hi hv]
    refine Finset.sum_congr rfl fun k _ => ?_
    unfold Problem.jacobians Problem.jac'
    cases p.minimization <;> simp
  rintro A rfl
  refine ⟨?_, ?_⟩
  · simp only [symmetrize]
    rw [hA i v j w hi hv hj hw, hA j w i v hj hw hi hv]
  · intro h1 h2
    simp only at h1 ⊢
    rw [← hA i v j w hi hv hj hw]
    rw [symmetrize_block hi hj hv hw h1, hessRaw_block hi hj hv hw]
    intro _ k hk
    unfold Problem.hess'
    cases p.minimization <;> simp [h2 _ k hk]

end chain

/-! ### The derivatives of the hypervolume of the image -/

/-- `p.jac` and `p.hess` are the partial derivatives of `p.func`, near the points of `X` in every
coordinate direction. -/
structure HasDerivs (p : Problem ℝ) (X : List (ℕ → ℝ)) : Prop where
  jac : ∀ i < X.length, ∀ w < p.nVar, ∀ᶠ t in 𝓝 (ptOf X i w), ∀ k < p.nObj, ∀ v < p.nVar,
    HasDerivAt (fun s => p.func (Function.update (Function.update (ptOf X i) w t) v s) k)
      (p.jac (Function.update (ptOf X i) w t) k v) (Function.update (ptOf X i) w t v)
  hess : ∀ i < X.length, ∀ k < p.nObj, ∀ v < p.nVar, ∀ w < p.nVar,
    HasDerivAt (fun t => p.jac (Function.update (ptOf X i) w t) k v) (p.hess (ptOf X i) k v w) (ptOf X i w)
  symm : ∀ x, ∀ k < p.nObj, ∀ v < p.nVar, ∀ w < p.nVar, p.hess x k v w = p.hess x k w v

theorem HasDerivs.jac_self {p : Problem ℝ} {X : List (ℕ → ℝ)} (h : HasDerivs p X) {i v k : ℕ}
    (hi : i < X.length) (hk : k < p.nObj) (hv : v < p.nVar) :
    HasDerivAt (fun s => p.func (Function.update (ptOf X i) v s) k) (p.jac (ptOf X i) k v) (ptOf X i v) := by
  have := (h.jac i hi v hv).self_of_nhds k hk v hv
  rwa [Function.update_eq_self] at this

variable {argsort : List ℝ → List ℕ} {fuel : ℕ} {p : Problem ℝ} {X : List (ℕ → ℝ)}

/-- The hypervolume of the images of `X` (the specification), as a function of `X`. -/
noncomputable def hvX (p : Problem ℝ) (X : List (ℕ → ℝ)) : ℝ := Spec.hvol p.nObj (X.map p.func) p.ref

/-- C15: `HVdX` of the gradient call holds the partial derivatives of `X ↦ HV(f(X))`, for any number
of points, variables and objectives, if the images are in general position. -/
theorem C15_gradient_derivative (hp : p.minimization = true) (ha : IsArgsort argsort) (hd : 0 < p.nObj)
    (hX : X ≠ []) (hD : HasDerivs p X) (h : GeneralPosition p.nObj (X.map p.func) p.ref)
    (hr : InRange p.nObj (X.map p.func) p.ref) (hf : NDS.depthBound p.nObj X.length ≤ fuel) :
    ∃ r, p.computeGradient argsort fuel X none none = some r ∧
      ∀ i < X.length, ∀ v < p.nVar,
        HasDerivAt (fun t => hvX p (setCoord X i v t)) (r.HVdX (i * p.nVar + v)) (ptOf X i v) := by
  have hfunc : p.func' = p.func := by funext x; simp [Problem.func', hp]
  have href : p.ref' = p.ref := by simp [Problem.ref', hp]
  obtain ⟨g, hg, hl, he⟩ := C12_gradient ha hd (by simpa using hX) h hr (by simpa using hf)
  have hc : p.computeGradient argsort fuel X none none =
      some ⟨rowTimes (X.length * p.nObj) (flat p.nObj g) (blockDiag p.nObj p.nVar (p.jacobians X none)),
        flat p.nObj g⟩ := by
    unfold Problem.computeGradient
    simp only [Option.getD_none, hfunc, href, hg, Option.map_some]
  refine ⟨_, hc, fun i hi v hv => ?_⟩
  rw [C15_gradient hp hc hi hv]
  refine (chain_first h hi (fun k hk => hD.jac_self hi hk hv)).congr_deriv ?_
  refine Finset.sum_congr rfl fun k hk => ?_
  have hk' := Finset.mem_range.mp hk
  simp only [Option.getD_none]
  rw [flat_flat hk', partialHV, ((he i (by simpa using hi) k hk').1).deriv]

/-- C15: `HVdX` and `HVdX2` of the Hessian call hold the first and second partial derivatives of
`X ↦ HV(f(X))`, for two to five objectives and any number of points and variables. The chain rule
itself holds for any number of objectives (`C15_hessian`). Missing: six and more objectives, see
C14. -/
theorem C15_hessian_derivative_partial (hp : p.minimization = true) (ha : IsArgsort argsort)
    (hd : 2 ≤ p.nObj) (hd5 : p.nObj ≤ 5) (hX : X ≠ []) (hD : HasDerivs p X)
    (h : GeneralPosition p.nObj (X.map p.func) p.ref) (hr : InRange p.nObj (X.map p.func) p.ref)
    (hf : NDS.depthBound p.nObj X.length ≤ fuel) :
    ∃ r, p.computeHessian argsort fuel X none none = some r ∧
      ∀ i < X.length, ∀ v < p.nVar,
        HasDerivAt (fun t => hvX p (setCoord X i v t)) (r.HVdX (i * p.nVar + v)) (ptOf X i v) ∧
        ∀ j < X.length, ∀ w < p.nVar,
          HasDerivAt (fun t => deriv (fun s => hvX p (setCoord (setCoord X j w t) i v s))
            (ptOf (setCoord X j w t) i v)) (r.HVdX2 (i * p.nVar + v) (j * p.nVar + w)) (ptOf X j w) := by
  have hfunc : p.func' = p.func := by funext x; simp [Problem.func', hp]
  have href : p.ref' = p.ref := by simp [Problem.ref', hp]
  obtain ⟨g, hg, hl, he⟩ := C12_gradient ha (by omega) (by simpa using hX) h hr (by simpa using hf)
  obtain ⟨H, hH, heH⟩ := C14_five_objectives_partial ha hd hd5 (by simpa using hX) h hr (by simpa using hf)
  have hsome : ∃ r, p.computeHessian argsort fuel X none none = some r ∧ r.HVdY = flat p.nObj g ∧
      r.HVdY2 = fun a b => entryH H (a / p.nObj) (a % p.nObj) (b / p.nObj) (b % p.nObj) := by
    unfold Problem.computeHessian Problem.computeGradient
    simp only [Option.getD_none, hfunc, href, hg, hH, Option.map_some, Option.bind_some]
    exact ⟨_, rfl, by simp [hp], rfl⟩
  obtain ⟨r, hc, hY, hY2⟩ := hsome
  have hg' : ∀ i < X.length, ∀ k < p.nObj, ptOf g i k = partialHV p.nObj (X.map p.func) p.ref i k :=
    fun i hi k hk => by rw [partialHV, ((he i (by simpa using hi) k hk).1).deriv]
  refine ⟨r, hc, fun i hi v hv => ⟨?_, fun j hj w hw => ?_⟩⟩
  · rw [(C15_hessian hc hi hv hi hv).1, hY]
    refine (chain_first h hi (fun k hk => hD.jac_self hi hk hv)).congr_deriv ?_
    refine Finset.sum_congr rfl fun k hk => ?_
    have hk' := Finset.mem_range.mp hk
    rw [flat_flat hk', hg' i hi k hk']
  · have hs : ∀ k < p.nObj, ∀ m < p.nObj, r.HVdY2 (i * p.nObj + k) (j * p.nObj + m) =
        r.HVdY2 (j * p.nObj + m) (i * p.nObj + k) := by
      intro k hk m hm
      rw [hY2]
      simp only
      rw [flat_div hk, flat_mod hk, flat_div hm, flat_mod hm]
      exact (heH j (by simpa using hj) m hm i (by simpa using hi) k hk).2.1
    have h2 := chain_second (f := p.func) (J := p.jac) (J2 := p.hess) (X := X) (ref := p.ref) (i := i) (v := v)
      (j := j) (w := w) h hi hj ?_ (fun k hk => hD.jac_self hj hk hw) (fun _ k hk => hD.hess i hi k hk v hv w hw)
    · refine h2.congr_deriv ?_
      rw [((C15_hessian hc hi hv hj hw).2 _ rfl |>.2 hs (fun x k hk => hD.symm x k hk v hv w hw))]
      unfold chainRule
      rw [Finset.sum_add_distrib]
      congr 1
      · rw [Finset.sum_comm]
        refine Finset.sum_congr rfl fun k hk => ?_
        rw [Finset.sum_mul]
        refine Finset.sum_congr rfl fun m hm => ?_
        have hk' := Finset.mem_range.mp hk
        have hm' := Finset.mem_range.mp hm
        rw [((heH i (by simpa using hi) k hk' j (by simpa using hj) m hm').1).deriv, hY2]
        simp only
        rw [flat_div hk', flat_mod hk', flat_div hm', flat_mod hm',
          (heH i (by simpa using hi) k hk' j (by simpa using hj) m hm').2.1]
        ring
      · by_cases hij : i = j
        · simp only [hij, if_true]
          refine Finset.sum_congr rfl fun k hk => ?_
          have hk' := Finset.mem_range.mp hk
          rw [hY, flat_flat hk', hg' j hj k hk']
        · simp [hij]
    · by_cases hij : i = j
      · subst hij
        filter_upwards [hD.jac i hi w hw] with t ht k hk
        rw [ptOf_setCoord hi, if_pos rfl]
        exact ht k hk v hv
      · refine Filter.Eventually.of_forall fun t k hk => ?_
        rw [ptOf_setCoord hi, if_neg (Ne.symm hij)]
        exact hD.jac_self hi hk hv

/-- `f(x) = (x₀ x₁, x₁ - x₀)`. -/
noncomputable def exampleProblem : Problem ℝ where
  nVar := 2
  nObj := 2
  ref := pt [10, 10]
  func x := pt [x 0 * x 1, x 1 - x 0]
  jac x k v := pt [pt [x 1, x 0] v, pt [-1, 1] v] k
  hess _ k v w := if k = 0 then (if v = w then 0 else 1) else 0
  minimization := true

def exampleX : List (ℕ → ℝ) := [pt [1, 3], pt [2, 3]]

theorem exampleProblem_jac (x : ℕ → ℝ) {k v : ℕ} (hk : k < 2) (hv : v < 2) :
    HasDerivAt (fun s => exampleProblem.func (Function.update x v s) k) (exampleProblem.jac x k v) (x v) := by
  interval_cases k <;> interval_cases v <;> simp only [exampleProblem, pt, List.getD_cons_zero,
    List.getD_cons_succ, Function.update_self, Function.update_of_ne (show (1 : ℕ) ≠ 0 by norm_num),
    Function.update_of_ne (show (0 : ℕ) ≠ 1 by norm_num)]
  · simpa using (hasDerivAt_id (x 0)).mul_const (x 1)
  · simpa using (hasDerivAt_id (x 1)).const_mul (x 0)
  · simpa using (hasDerivAt_id (x 0)).const_sub (x 1)
  · simpa using (hasDerivAt_id (x 1)).sub_const (x 0)

theorem exampleProblem_hess (x : ℕ → ℝ) {k v w : ℕ} (hk : k < 2) (hv : v < 2) (hw : w < 2) :
    HasDerivAt (fun s => exampleProblem.jac (Function.update x w s) k v) (exampleProblem.hess x k v w) (x w) := by
  interval_cases k <;> interval_cases v <;> interval_cases w <;>
    simp [exampleProblem, pt, hasDerivAt_const] <;> first | exact hasDerivAt_id' _ | exact hasDerivAt_const _ _

theorem exampleProblem_hasDerivs : HasDerivs exampleProblem exampleX where
  jac := fun i hi w hw => Filter.Eventually.of_forall fun t k hk v hv => exampleProblem_jac _ hk hv
  hess := fun i hi k hk v hv w hw => exampleProblem_hess _ hk hv hw
  symm := fun x k hk v hv w hw => by simp [exampleProblem, eq_comm]

theorem exampleX_map : exampleX.map exampleProblem.func = [pt [3, 2], pt [6, 1]] := by
  simp [exampleX, exampleProblem, pt]
  norm_num

theorem exampleX_generalPosition :
    GeneralPosition exampleProblem.nObj (exampleX.map exampleProblem.func) exampleProblem.ref := by
  rw [exampleX_map]
  constructor
  · simp only [List.pairwise_cons, List.mem_cons, List.not_mem_nil, or_false, forall_eq,
      List.Pairwise.nil, and_true, IsEmpty.forall_iff, implies_true]
    intro k hk
    have hk : k < 2 := hk
    interval_cases k <;> norm_num [pt]
  · intro q hq k hk
    have hk : k < 2 := hk
    simp only [List.mem_cons, List.not_mem_nil, or_false] at hq
    rcases hq with rfl | rfl <;> interval_cases k <;> norm_num [pt, exampleProblem]

theorem exampleX_inRange :
    InRange exampleProblem.nObj (exampleX.map exampleProblem.func) exampleProblem.ref := by
  rw [exampleX_map]
  intro q hq k hk
  have hk : k < 2 := hk
  refine le_trans ?_ ten_le
  simp only [List.mem_cons, List.not_mem_nil, or_false] at hq
  rcases hq with rfl | rfl <;> interval_cases k <;> norm_num [pt, exampleProblem]

example : ∃ r, exampleProblem.computeHessian stableArgsort 100 exampleX none none = some r ∧
    HasDerivAt (fun t => hvX exampleProblem (setCoord exampleX 0 1 t)) (r.HVdX 1) 3 := by
  obtain ⟨r, hr, h⟩ := C15_hessian_derivative_partial rfl stableArgsort_isArgsort le_rfl
    (by norm_num [exampleProblem]) (by simp [exampleX]) exampleProblem_hasDerivs exampleX_generalPosition
    exampleX_inRange (fuel := 100) (by decide)
  have := (h 0 (by simp [exampleX]) 1 (by norm_num [exampleProblem])).1
  norm_num [exampleX, ptOf, pt] at this
  exact ⟨r, hr, this⟩

example : ∃ r, exampleProblem.computeGradient stableArgsort 100 exampleX none none = some r ∧
    HasDerivAt (fun t => hvX exampleProblem (setCoord exampleX 0 1 t)) (r.HVdX 1) 3 := by
  obtain ⟨r, hr, h⟩ := C15_gradient_derivative rfl stableArgsort_isArgsort
    (by norm_num [exampleProblem]) (by simp [exampleX]) exampleProblem_hasDerivs exampleX_generalPosition
    exampleX_inRange (fuel := 100) (by decide)
  have := h 0 (by simp [exampleX]) 1 (by norm_num [exampleProblem])
  norm_num [exampleX, ptOf, pt] at this
  exact ⟨r, hr, this⟩

/-! ## C16 -/

/-- The property as stated: with `minimization=False`, `compute(X)` is `compute(Y=func(X))`, and both
derivative calls return the same `HVdY`. -/
def C16Statement : Prop :=
  ∀ argsort : List ℝ → List ℕ, IsArgsort argsort → ∀ (fuel : ℕ) (p : Problem ℝ) (X : List (ℕ → ℝ)),
    p.minimization = false → X ≠ [] →
      p.compute argsort X none = p.compute argsort X (some (X.map p.func)) ∧
      ∀ g h, p.computeGradient argsort fuel X none none = some g →
        p.computeHessian argsort fuel X none none = some h → g.HVdY = h.HVdY

/-- Maximize `x` beyond the reference `0`, at `x = 3`. -/
noncomputable def maxProblem : Problem ℝ where
  nVar := 1
  nObj := 1
  ref := pt [0]
  func x := x
  jac _ _ _ := 1
  hess _ _ _ _ := 0
  minimization := false

/-- `compute(X)` returns a positive value, `compute(Y=func(X))` returns zero. -/
theorem C16_compute_witness {argsort : List ℝ → List ℕ} (ha : IsArgsort argsort) :
    (∃ a > 0, maxProblem.compute argsort [pt [3]] none = some a) ∧
      maxProblem.compute argsort [pt [3]] (some ([pt [3]].map maxProblem.func)) = some 0 := by
  have href : maxProblem.ref' = fun k => -1 * pt [0] k := rfl
  have hvol1 : ∀ y ref : ℕ → ℝ, Spec.hvol 1 [y] ref = Spec.hvi 1 y [] ref := by
    intro y ref
    rw [Spec.hvol_cons]
    simp [Spec.hvol, Spec.region_nil]
  constructor
  · refine ⟨Spec.hvol 1 [fun k => -1 * pt [3] k] maxProblem.ref', ?_, ?_⟩
    · rw [hvol1]
      apply Spec.hvi_pos
      · intro i hi
        have : i = 0 := by omega
        subst this
        rw [href]
        norm_num [pt]
      · simp
    · refine C01_three_objectives (d := 1) (front := [fun k => -1 * pt [3] k]) ha (by norm_num) (by norm_num) ?_
      intro q hq i hi
      rw [List.mem_singleton] at hq
      have : i = 0 := by omega
      subst this hq
      refine le_trans ?_ ten_le
      rw [href]
      norm_num [pt]
  · have h1 : maxProblem.compute argsort [pt [3]] (some ([pt [3]].map maxProblem.func)) =
        some (Spec.hvol 1 [pt [3]] maxProblem.ref') := by
      refine C01_three_objectives (d := 1) (front := [pt [3]]) ha (by norm_num) (by norm_num) ?_
      intro q hq i hi
      rw [List.mem_singleton] at hq
      have : i = 0 := by omega
      subst this hq
      refine le_trans ?_ ten_le
      rw [href]
      norm_num [pt]
    rw [h1, hvol1, hvi_outside]
    refine ⟨0, by norm_num, ?_⟩
    rw [href]
    norm_num [pt]

/-- The code violates C16 (first half). -/
theorem C16_violated : ¬ C16Statement := by
  intro h
  obtain ⟨⟨a, ha, h1⟩, h2⟩ := C16_compute_witness stableArgsort_isArgsort
  have := (h stableArgsort stableArgsort_isArgsort 0 maxProblem [pt [3]] rfl (by simp)).1
  rw [h1, h2] at this
  exact ha.ne' (Option.some.inj this)

/-- The second half of C16 fails whenever the gradient is not zero: the Hessian call returns the
negative of the `HVdY` of the gradient call. -/
theorem C16_sign_violated {K : Type*} [Field K] [LinearOrder K] {argsort : List K → List ℕ} {fuel : ℕ}
    {p : Problem K} {X : List (ℕ → K)} {Y : Option (List (ℕ → K))} {YdX : Option (ℕ → ℕ → ℕ → K)}
    {g : Gradient K} {h : HessianResult K} (hp : p.minimization = false)
    (hg : p.computeGradient argsort fuel X Y YdX = some g) (hh : p.computeHessian argsort fuel X Y YdX = some h) :
    ∀ a, h.HVdY a = - g.HVdY a := by
  unfold Problem.computeHessian at hh
  rw [hg, Option.bind_some, Option.map_eq_some_iff] at hh
  obtain ⟨H, -, rfl⟩ := hh
  intro a
  simp [hp]

/-- The gradient of a single point with two objectives. -/
theorem gradientY_single (argsort : List ℝ → List ℕ) {fuel : ℕ} (hf : NDS.depthBound 2 1 ≤ fuel) (y ref : ℕ → ℝ) :
    ∃ g, gradientY argsort fuel 2 [y] ref = some g ∧ ptOf g 0 0 = y 1 - ref 1 ∧ ptOf g 0 1 = y 0 - ref 0 := by
  obtain ⟨nd, hnd, hF⟩ := front0_spec (d := 2) (fuel := fuel) (P := [y]) (by norm_num) (by simp)
    (by simpa using hf)
  have h0 : 0 ∈ nd := by
    obtain ⟨i, hi, -⟩ := hF.covers 0 (by simp)
    have := hF.valid i hi
    have hi0 : i = 0 := by simpa using this
    rwa [hi0] at hi
  have hnd0 : nd = [0] := by
    have hall : ∀ i ∈ nd, i = 0 := fun i hi => by simpa using hF.valid i hi
    match nd, h0, hF.nodup, hall with
    | [a], _, _, h => rw [h a (by simp)]
    | a :: b :: l, _, hn, h =>
      have ha := h a (by simp)
      have hb := h b (by simp)
      simp [ha, hb] at hn
  unfold gradientY
  rw [hnd, hnd0]
  simp only [hypervolumeDY, show ¬ (2 : ℕ) = 1 by norm_num, if_false, if_true]
  refine ⟨_, rfl, ?_, ?_⟩ <;> simp [ptOf, hypervolumeDY2, order2, sel, pt]

/-- Maximize `(x₀, x₁)` beyond the reference `(0, 0)`. -/
noncomputable def maxProblem2 : Problem ℝ where
  nVar := 2
  nObj := 2
  ref := pt [0, 0]
  func x := x
  jac _ k v := if k = v then 1 else 0
  hess _ _ _ _ := 0
  minimization := false

/-- At `x = (3, 1)` the gradient call returns `HVdY = (-1, -3)`, the Hessian call `(1, 3)`; and if the
(user's) Jacobian is passed to the gradient call, `HVdX` changes its sign. -/
theorem C16_sign_witness : ∃ g g' h,
    maxProblem2.computeGradient stableArgsort 100 [pt [3, 1]] none none = some g ∧
    maxProblem2.computeGradient stableArgsort 100 [pt [3, 1]] none (some fun i => maxProblem2.jac (ptOf [pt [3, 1]] i))
      = some g' ∧
    maxProblem2.computeHessian stableArgsort 100 [pt [3, 1]] none none = some h ∧
    g.HVdY 0 = -1 ∧ g.HVdY 1 = -3 ∧ h.HVdY 0 = 1 ∧ h.HVdY 1 = 3 ∧
    g.HVdX 0 = 1 ∧ h.HVdX 0 = 1 ∧ g'.HVdX 0 = -1 := by
  have hd100 : NDS.depthBound 2 1 ≤ 100 := by decide
  obtain ⟨g, hg, h0, h1⟩ := gradientY_single stableArgsort hd100 (fun k => -1 * pt [3, 1] k)
    (fun k => -1 * pt [0, 0] k)
  have hgp : GeneralPosition 2 [fun k => -1 * pt [3, 1] k] (fun k => -1 * pt [0, 0] k : ℕ → ℝ) := by
    constructor
    · simp
    · intro q hq k hk
      rw [List.mem_singleton] at hq
      subst hq
      interval_cases k <;> norm_num [pt]
  have hir : InRange 2 [fun k => -1 * pt [3, 1] k] (fun k => -1 * pt [0, 0] k : ℕ → ℝ) := by
    intro q hq k hk
    rw [List.mem_singleton] at hq
    subst hq
    refine le_trans ?_ ten_le
    interval_cases k <;> norm_num [pt]
  obtain ⟨H, hH, -⟩ := C14_five_objectives_partial stableArgsort_isArgsort le_rfl (by norm_num) (by simp)
    hgp hir (fuel := 100) hd100
  have hfunc : [pt [3, 1]].map maxProblem2.func' = [fun k => -1 * pt [3, 1] k] := rfl
  have href : maxProblem2.ref' = fun k => -1 * pt [0, 0] k := rfl
  have hno : maxProblem2.nObj = 2 := rfl
  have hnv : maxProblem2.nVar = 2 := rfl
  have hmin : maxProblem2.minimization = false := rfl
  have e0 : flat 2 g 0 = -1 := by
    have := flat_flat (g := g) (i := 0) (show 0 < 2 by norm_num)
    rw [h0] at this
    norm_num [pt] at this
    exact this
  have e1 : flat 2 g 1 = -3 := by
    have := flat_flat (g := g) (i := 0) (show 1 < 2 by norm_num)
    rw [h1] at this
    norm_num [pt] at this
    exact this
  have hsum : ∀ J : ℕ → ℕ → ℕ → ℝ, rowTimes (1 * 2) (flat 2 g) (blockDiag 2 2 J) 0 =
      flat 2 g 0 * J 0 0 0 + flat 2 g 1 * J 0 1 0 := by
    intro J
    have := rowTimes_blockDiag (N := 1) (nObj := 2) (nVar := 2) (i := 0) (v := 0) (g := flat 2 g) (J := J)
      (by norm_num) (by norm_num)
    simpa [Finset.sum_range_succ] using this
  have hG : ∀ YdX, maxProblem2.computeGradient stableArgsort 100 [pt [3, 1]] none YdX =
      some ⟨rowTimes (1 * 2) (flat 2 g) (blockDiag 2 2 (maxProblem2.jacobians [pt [3, 1]] YdX)), flat 2 g⟩ := by
    intro YdX
    unfold Problem.computeGradient
    simp only [Option.getD_none, hfunc, href, hno, hnv, hg, Option.map_some, List.length_singleton]
  have hHs : ∃ h, maxProblem2.computeHessian stableArgsort 100 [pt [3, 1]] none none = some h ∧
      (h.HVdY = fun a => -1 * flat 2 g a) ∧
      h.HVdX = rowTimes (1 * 2) (flat 2 g) (blockDiag 2 2 (maxProblem2.jacobians [pt [3, 1]] none)) := by
    unfold Problem.computeHessian
    rw [hG]
    simp only [Option.getD_none, hfunc, href, hno, Option.map_some, Option.bind_some, hH]
    exact ⟨_, rfl, by simp [hmin], rfl⟩
  obtain ⟨h, hh, hY, hX⟩ := hHs
  refine ⟨_, _, h, hG _, hG _, hh, ?_⟩
  rw [hY, hX]
  simp only [hsum, e0, e1, Problem.jacobians, Problem.jac', hmin, Option.getD_none, Option.getD_some]
  norm_num [maxProblem2]

/-- The region of the maximization problem: below some point, above the reference. -/
def regionMax (d : ℕ) (P : List (ℕ → ℝ)) (ref : ℕ → ℝ) : Set (Fin d → ℝ) :=
  {z | (∃ p ∈ P, ∀ i : Fin d, z i ≤ p i) ∧ ∀ i : Fin d, ref i ≤ z i}

/-- C16, what holds: with `minimization=False` and no `Y` given, `compute(X)` is the measure of the
region between the reference and the images (up to three objectives); it is `compute` of the negated
images; `HVdX` is the same in both derivative calls. The full statement `C16Statement` is false
(`C16_violated`, `C16_sign_witness`). -/
theorem C16_without_Y_partial (ha : IsArgsort argsort) (hp : p.minimization = false) (hd : 0 < p.nObj)
    (hd3 : p.nObj ≤ 3) (hr : InRange p.nObj (X.map fun x k => - p.func x k) (fun k => - p.ref k)) :
    p.compute argsort X none =
      some (MeasureTheory.volume (regionMax p.nObj (X.map p.func) p.ref)).toReal ∧
    p.compute argsort X none = p.compute argsort X (some (X.map fun x k => - p.func x k)) ∧
    ∀ g h, p.computeGradient argsort fuel X none none = some g →
        p.computeHessian argsort fuel X none none = some h → g.HVdX = h.HVdX := by
  have hfunc : p.func' = fun x k => - p.func x k := by funext x k; simp [Problem.func', hp]
  have href : p.ref' = fun k => - p.ref k := by funext k; simp [Problem.ref', hp]
  refine ⟨?_, ?_, ?_⟩
  · unfold Problem.compute
    rw [Option.getD_none, hfunc, href, C01_three_objectives ha hd hd3 hr]
    congr 1
    unfold Spec.hvol
    congr 1
    have : (MeasureTheory.volume : MeasureTheory.Measure (Fin p.nObj → ℝ)).IsNegInvariant := by
      rw [MeasureTheory.volume_pi]
      infer_instance
    have hmp : MeasureTheory.volume (Neg.neg ⁻¹' regionMax p.nObj (X.map p.func) p.ref) =
        MeasureTheory.volume (regionMax p.nObj (X.map p.func) p.ref) :=
      MeasureTheory.Measure.measure_preimage_neg _ _
    rw [← hmp]
    congr 1
    ext z
    simp only [Spec.region, regionMax, Set.mem_ofPred_eq, Set.mem_preimage, List.mem_map, Pi.neg_apply]
    constructor
    · rintro ⟨⟨q, ⟨x, hx, rfl⟩, h1⟩, h2⟩
      exact ⟨⟨_, ⟨x, hx, rfl⟩, fun i => by have := h1 i; linarith⟩, fun i => by have := h2 i; linarith⟩
    · rintro ⟨⟨q, ⟨x, hx, rfl⟩, h1⟩, h2⟩
      exact ⟨⟨_, ⟨x, hx, rfl⟩, fun i => by have := h1 i; linarith⟩, fun i => by have := h2 i; linarith⟩
  · unfold Problem.compute
    rw [Option.getD_none, Option.getD_some, hfunc]
  · intro g h hg hh
    unfold Problem.computeHessian at hh
    rw [hg, Option.bind_some, Option.map_eq_some_iff] at hh
    obtain ⟨H, -, rfl⟩ := hh
    rfl

example : InRange maxProblem2.nObj ([pt [3, 1], pt [1, 2]].map fun x k => - maxProblem2.func x k)
    (fun k => - maxProblem2.ref k) := by
  intro q hq k hk
  have hk : k < 2 := hk
  refine le_trans ?_ ten_le
  simp only [List.map_cons, List.map_nil, List.mem_cons, List.not_mem_nil, or_false] at hq
  rcases hq with rfl | rfl <;> interval_cases k <;> norm_num [pt, maxProblem2]

end Verif.Props
