import Verif.Props.LocalConvMmdExample

/-!
# C86: curved constraints

`MMDNewton` leaves out the second derivatives of the constraints (C60). With them the Newton steps would converge
quadratically to each nondegenerate solution. One point on the parabola `x₁ = x₀²` with the target `(0, 1/4)` approaches the
solution `(0, 0)` only linearly.
-/

namespace Verif.Props

open Verif.Opt Verif.HV Verif.Util Verif.Ind Topology

/-! ## Specification -/

/-- `X` (rows of variables and multipliers) is a nondegenerate solution of the first-order conditions of the indicator for
the targets `T`: as `MmdRegularPop`, with constraints that need not be affine and with the second derivatives of the
Lagrangian. -/
structure MmdNondegenerate (a : Mmdn) (X : List (List ℝ)) (M T : List (ℕ → ℝ)) : Prop where
  rows : ∀ x ∈ X, x.length = a.p.nVar + a.p.nDual
  cstr : ∀ x ∈ X, ∀ k < a.p.nDual, Smooth3 a.p.nVar (fun q => cVal a.p q k) (fun q v => cGrad a.p q k v)
    (fun q v w => cHess a.p q k v w) (x.take a.p.nVar)
  smooth : ContDiffAt ℝ 3 (fun Z : Fin X.length → Fin a.p.nVar → ℝ => mmdValue a T fun i => objVec a (Z i))
    fun i v => pt (X.getD i []) v
  first : ∃ G, MmdGrad a T X G ∧ ∀ i < X.length, FirstOrder a.p (X.getD i []) (G i)
  regular : ∃ H, MmdHess a T X H ∧ ∀ z : ℕ → ℕ → ℝ,
    (∀ i < X.length, ∀ v < a.p.nVar,
      ∑ j ∈ Finset.range X.length, ∑ w ∈ Finset.range a.p.nVar, H i v j w * z j w +
      ∑ w ∈ Finset.range a.p.nVar, (∑ k ∈ Finset.range a.p.nDual, if IsActive a.p ((X.getD i []).take a.p.nVar) k then
        pt (X.getD i []) (a.p.nVar + k) * cHess a.p ((X.getD i []).take a.p.nVar) k v w else 0) * z i w +
      ∑ k ∈ Finset.range a.p.nDual, (if IsActive a.p ((X.getD i []).take a.p.nVar) k then
        cGrad a.p ((X.getD i []).take a.p.nVar) k v * z i (a.p.nVar + k) else 0) = 0) →
    (∀ i < X.length, ∀ k < a.p.nDual, IsActive a.p ((X.getD i []).take a.p.nVar) k →
      ∑ w ∈ Finset.range a.p.nVar, cGrad a.p ((X.getD i []).take a.p.nVar) k w * z i w = 0) →
    ∀ i < X.length, (∀ v < a.p.nVar, z i v = 0) ∧
      ∀ k < a.p.nDual, IsActive a.p ((X.getD i []).take a.p.nVar) k → z i (a.p.nVar + k) = 0
  targets : ∀ T', Targets a.env.dist false (mmdImages a X) M T' ↔ T' = T
  unattained : ∀ i < X.length, ∀ r ∈ M, 1 / 10 ^ 8 < a.env.dist ((mmdImages a X).getD i 0) r

/-- C86 in full: near a nondegenerate solution whose targets are not attained, the distance to the solution after an
iteration is at most a multiple of its square. -/
def C86Statement : Prop := ∀ (a : Mmdn) (X : List (List ℝ)) (M T : List (ℕ → ℝ)), a.Ok → a.matching = true →
  MmdSmooth a → EuclideanDist a → SolverSound a.solve → (∀ A, a.precond A = A) → MmdNondegenerate a X M T →
  ∃ δ > 0, ∃ C > 0, ∀ s, MmdnNear a X M δ s → ∃ s', a.iterate s = some s' ∧
    ∀ ε, 0 ≤ ε → ε ≤ δ → WithinAll a X s.state.X ε → WithinAll a X s'.state.X (C * ε ^ 2)

/-- With affine constraints this is the condition of `C86_iteration_partial`. -/
theorem MmdNondegenerate.affine {a : Mmdn} {X : List (List ℝ)} {M T : List (ℕ → ℝ)} (h : MmdNondegenerate a X M T)
    (haff : ∀ k < a.p.nDual, AffineConstraint a.p k) : MmdRegularPop a X M T where
  rows := h.rows
  affine := haff
  smooth := h.smooth
  first := h.first
  regular := by
    obtain ⟨H, hH, hr⟩ := h.regular
    refine ⟨H, hH, fun z h1 h2 => hr z (fun i hi v hv => ?_) h2⟩
    have h0 : ∑ w ∈ Finset.range a.p.nVar, (∑ k ∈ Finset.range a.p.nDual,
        if IsActive a.p ((X.getD i []).take a.p.nVar) k then pt (X.getD i []) (a.p.nVar + k) *
          cHess a.p ((X.getD i []).take a.p.nVar) k v w else 0) * z i w = 0 := by
      refine Finset.sum_eq_zero fun w hw => ?_
      have hw := Finset.mem_range.mp hw
      rw [Finset.sum_eq_zero fun k hk => ?_, zero_mul]
      have hk := Finset.mem_range.mp hk
      have hmem : X.getD i [] ∈ X := by
        rw [List.getD_eq_getElem _ _ hi]; exact List.getElem_mem hi
      have e := (h.cstr _ hmem k hk).hess.self_of_nhds ⟨v, hv⟩ ⟨w, hw⟩
      have hc : (fun x : Fin a.p.nVar → ℝ => cGrad a.p (List.ofFn x) k v) =
          fun _ => cGrad a.p ((X.getD i []).take a.p.nVar) k v := by
        funext x
        exact (haff k hk).grad_const (by simp) (by rw [List.length_take, h.rows _ hmem]; omega) hv
      simp only [hc, fderiv_fun_const, Pi.zero_apply, ContinuousLinearMap.zero_apply] at e
      rw [vec_take, ofFn_vec_take (by rw [h.rows _ hmem]; omega)] at e
      rw [e, mul_zero, ite_self]
    rw [h0, add_zero]
    exact h1 i hi v hv
  targets := h.targets
  unattained := h.unattained

/-! ## The witness -/

def bowlFuncs : Funcs ℝ where
  nVar := 2
  nEq := 1
  nIeq := 0
  func := ⟨fun x => [x.getD 0 0, x.getD 1 0], none⟩
  jac := ⟨fun _ => [1, 0, 0, 1], none⟩
  h := some ⟨fun x => [x.getD 1 0 - x.getD 0 0 ^ 2], none⟩
  hJac := some ⟨fun x => [-2 * x.getD 0 0, 1], none⟩
  hHess := some ⟨fun _ => [-2, 0, 0, 0], none⟩
  g := none
  gJac := none
  gHess := none

theorem bowlFuncs_ok : bowlFuncs.Ok 2 where
  func := ⟨fun b hb => by simp [bowlFuncs] at hb, fun _ _ => rfl⟩
  jac := ⟨fun b hb => by simp [bowlFuncs] at hb, fun _ _ => rfl⟩
  h := by rintro c hc; obtain rfl := Option.some.inj hc; exact ⟨fun b hb => by simp at hb, fun _ _ => rfl⟩
  g := by rintro c hc; simp [bowlFuncs] at hc
  hJac := by rintro c hc; obtain rfl := Option.some.inj hc; exact ⟨fun b hb => by simp at hb, fun _ _ => rfl⟩
  gJac := by rintro c hc; simp [bowlFuncs] at hc
  hHess := by rintro c hc; obtain rfl := Option.some.inj hc; exact ⟨fun b hb => by simp at hb, fun _ _ => rfl⟩
  gHess := by rintro c hc; simp [bowlFuncs] at hc

noncomputable def bowlMmdn : Mmdn where
  p := bowlFuncs
  nObj := 2
  hess := fun _ => [0, 0, 0, 0, 0, 0, 0, 0]
  matching := true
  kernel := autodiff (rbf 1)
  xl := [-1, -1]
  xu := [1, 1]
  env := bruteEnv (fun y r => √((y 0 - r 0) ^ 2 + (y 1 - r 1) ^ 2)) fun _ _ => 0
  solve := oneSolve
  precond := id

theorem bowlMmdn_ok : bowlMmdn.Ok where
  funcs := bowlFuncs_ok
  env := bruteEnv_sound _ _
  nonneg := fun _ _ => Real.sqrt_nonneg _
  xl := rfl
  xu := rfl
  solve := fun A b _ => oneSolve_length A b
  precond := fun _ _ h => h
  jac := fun _ => by simp [Funcs.hasJac, bowlMmdn, bowlFuncs]

theorem bowlMmdn_smooth : MmdSmooth bowlMmdn where
  jac := by
    intro (x : Fin 2 → ℝ) k
    show HasFDerivAt (fun x : Fin 2 → ℝ => pt [x 0, x 1] k) (lin fun v : Fin 2 => pt [1, 0, 0, 1] (k * 2 + v)) x
    fin_cases k
    · refine (hasFDerivAt_apply (𝕜 := ℝ) (0 : Fin 2) x).congr_fderiv ?_
      ext v; simp [pt, Fin.sum_univ_two]
    · refine (hasFDerivAt_apply (𝕜 := ℝ) (1 : Fin 2) x).congr_fderiv ?_
      ext v; simp [pt, Fin.sum_univ_two]
  hess := by
    intro (x : Fin 2 → ℝ) k (v : Fin 2)
    show HasFDerivAt (fun x : Fin 2 → ℝ => pt [1, 0, 0, 1] (k * 2 + v))
      (lin fun w : Fin 2 => pt [0, 0, 0, 0, 0, 0, 0, 0] ((k * 2 + v) * 2 + w)) x
    refine (hasFDerivAt_const _ x).congr_fderiv ?_
    ext w
    fin_cases k <;> fin_cases v <;> simp [pt, Fin.sum_univ_two]
  symm := rbf_symm 1
  stationary := stationary_rbf 1
  diff := fun _ _ => autodiff_diff2At (contDiff_rbf 1).contDiffAt

theorem bowlMmdn_dist : EuclideanDist bowlMmdn := fun y r => by
  show √_ = √_
  rw [show bowlMmdn.nObj = 2 from rfl, Finset.sum_range_succ, Finset.sum_range_one]

/-- The target. -/
noncomputable def bowlTarget : ℕ → ℝ := pt [0, 1 / 4]

/-- `exp (-|y - r|²)`. -/
noncomputable def bowlE (x y : ℝ) : ℝ := Real.exp (-(x ^ 2 + (y - 1 / 4) ^ 2))

theorem bowl_value (Z : Fin 1 → Fin 2 → ℝ) :
    mmdValue bowlMmdn [bowlTarget] (fun i : Fin 1 => objVec bowlMmdn (Z i)) = 9 / 4 - 2 * bowlE (Z 0 0) (Z 0 1) := by
  rw [mmdValue, if_pos (show bowlMmdn.matching = true from rfl), mmdmOf]
  simp only [Finset.univ_unique, Fin.default_eq_zero, Finset.sum_singleton]
  have e1 : bowlMmdn.kernel.k (objVec bowlMmdn (Z 0)) (objVec bowlMmdn (Z 0)) = 1 := by
    show rbf 1 _ _ = 1
    simp [rbf]
  have e2 : bowlMmdn.kernel.k (objVec bowlMmdn (Z 0)) (fun k => ([bowlTarget] : List (ℕ → ℝ)).getD (0 : Fin 1) 0 k) =
      bowlE (Z 0 0) (Z 0 1) := by
    show rbf 1 (fun k : Fin 2 => pt [Z 0 0, Z 0 1] k) (fun k : Fin 2 => pt [0, 1 / 4] k) = _
    rw [rbf, Fin.sum_univ_two, bowlE]
    simp [pt]
  rw [e1, e2]
  norm_num
  ring

theorem bowl_fun : (fun Z : Fin 1 → Fin 2 → ℝ => mmdValue bowlMmdn [bowlTarget] fun i : Fin 1 => objVec bowlMmdn (Z i)) =
    fun Z => 9 / 4 - 2 * bowlE (Z 0 0) (Z 0 1) := funext bowl_value

/-- The derivatives of the indicator. -/
noncomputable def bowlG (x y : ℝ) (v : ℕ) : ℝ := if v = 0 then 4 * x * bowlE x y else 4 * (y - 1 / 4) * bowlE x y

theorem coord_fderiv (Z : Fin 1 → Fin 2 → ℝ) (w : Fin 2) : HasFDerivAt (fun Z : Fin 1 → Fin 2 → ℝ => Z 0 w)
    (lin2 (unitAt (0 : Fin 1) w)) Z := by
  have h := ((ContinuousLinearMap.proj (R := ℝ) (φ := fun _ : Fin 2 => ℝ) w).comp
    (ContinuousLinearMap.proj (R := ℝ) (φ := fun _ : Fin 1 => Fin 2 → ℝ) 0)).hasFDerivAt (x := Z)
  refine h.congr_fderiv ?_
  ext V
  fin_cases w <;> simp [lin2_apply, unitAt, Fin.sum_univ_two]

theorem bowlE_fderiv (Z : Fin 1 → Fin 2 → ℝ) : HasFDerivAt (fun Z : Fin 1 → Fin 2 → ℝ => bowlE (Z 0 0) (Z 0 1))
    (lin2 fun _ w => -(1 / 2) * bowlG (Z 0 0) (Z 0 1) w) Z := by
  have h0 := coord_fderiv Z 0
  have h1 := coord_fderiv Z 1
  have h := ((h0.pow 2).fun_add ((h1.sub_const (1 / 4)).pow 2)).fun_neg.exp
  refine h.congr_fderiv ?_
  ext V
  simp [lin2_apply, unitAt, Fin.sum_univ_two, bowlG, bowlE]
  ring

theorem bowl_grad (Z : Fin 1 → Fin 2 → ℝ) : HasFDerivAt
    (fun Z : Fin 1 → Fin 2 → ℝ => mmdValue bowlMmdn [bowlTarget] fun i : Fin 1 => objVec bowlMmdn (Z i))
    (lin2 fun _ v => bowlG (Z 0 0) (Z 0 1) v) Z := by
  rw [bowl_fun]
  refine (((bowlE_fderiv Z).const_mul 2).const_sub (9 / 4)).congr_fderiv ?_
  ext V
  simp [lin2_apply, Fin.sum_univ_two]
  ring

/-- The second derivatives. -/
noncomputable def bowlH (x y : ℝ) (v w : ℕ) : ℝ :=
  4 * bowlE x y * ((if v = w then 1 else 0) - 2 * (if v = 0 then x else y - 1 / 4) * (if w = 0 then x else y - 1 / 4))

theorem bowlG_fderiv (Z : Fin 1 → Fin 2 → ℝ) (v : Fin 2) : HasFDerivAt
    (fun Z : Fin 1 → Fin 2 → ℝ => bowlG (Z 0 0) (Z 0 1) v) (lin2 fun _ w => bowlH (Z 0 0) (Z 0 1) v w) Z := by
  have h0 := coord_fderiv Z 0
  have h1 := coord_fderiv Z 1
  have hE := bowlE_fderiv Z
  fin_cases v
  · refine ((h0.const_mul 4).fun_mul hE).congr_fderiv ?_
    ext V
    simp [lin2_apply, unitAt, Fin.sum_univ_two, bowlG, bowlH]
    ring
  · refine (((h1.sub_const (1 / 4)).const_mul 4).fun_mul hE).congr_fderiv ?_
    ext V
    simp [lin2_apply, unitAt, Fin.sum_univ_two, bowlG, bowlH]
    ring

theorem fderiv_unit {N n : ℕ} {f : (Fin N → Fin n → ℝ) → ℝ} {c : Fin N → Fin n → ℝ} {Z : Fin N → Fin n → ℝ}
    (h : HasFDerivAt f (lin2 c) Z) (i : Fin N) (v : Fin n) : fderiv ℝ f Z (unitAt i v) = c i v := by
  rw [h.fderiv, lin2_unit]

theorem lin2_unique {N n : ℕ} {f : (Fin N → Fin n → ℝ) → ℝ} {c c' : Fin N → Fin n → ℝ} {Z : Fin N → Fin n → ℝ}
    (h : HasFDerivAt f (lin2 c) Z) (h' : HasFDerivAt f (lin2 c') Z) (i : Fin N) (v : Fin n) : c i v = c' i v := by
  rw [← fderiv_unit h i v, fderiv_unit h' i v]

/-- The derivatives at a population of one point. -/
theorem bowl_derivs {x : List ℝ} {G : ℕ → ℕ → ℝ} {H : ℕ → ℕ → ℕ → ℕ → ℝ} (hG : MmdGrad bowlMmdn [bowlTarget] [x] G)
    (hH : MmdHess bowlMmdn [bowlTarget] [x] H) : (∀ v < 2, G 0 v = bowlG (pt x 0) (pt x 1) v) ∧
    ∀ v < 2, ∀ w < 2, H 0 v 0 w = bowlH (pt x 0) (pt x 1) v w := by
  have hf : ∀ Z : Fin 1 → Fin 2 → ℝ, ∀ v : Fin 2, fderiv ℝ (mmdPhi bowlMmdn [bowlTarget] 1) Z (unitAt 0 v) =
      bowlG (Z 0 0) (Z 0 1) v := fun Z v => fderiv_unit (n := 2) (bowl_grad Z) 0 v
  constructor
  · intro v hv
    exact (grad_entry (a := bowlMmdn) (N := 1) rfl hG 0 ⟨v, hv⟩).symm.trans (hf _ ⟨v, hv⟩)
  · intro v hv w hw
    have h := hess_entry (a := bowlMmdn) (N := 1) rfl hH 0 ⟨v, hv⟩
    have e : (fun Y : Fin 1 → Fin 2 → ℝ => fderiv ℝ (mmdPhi bowlMmdn [bowlTarget] 1) Y (unitAt 0 (⟨v, hv⟩ : Fin 2))) =
        fun Y => bowlG (Y 0 0) (Y 0 1) (⟨v, hv⟩ : Fin 2) := funext fun Y => hf Y ⟨v, hv⟩
    have h' : HasFDerivAt (fun Y : Fin 1 → Fin 2 → ℝ => bowlG (Y 0 0) (Y 0 1) (⟨v, hv⟩ : Fin 2))
        (lin2 fun (j : Fin 1) (w : Fin 2) => H 0 v j w) (ptsOf bowlMmdn 1 [x]) := e ▸ h
    exact lin2_unique (n := 2) h' (bowlG_fderiv _ ⟨v, hv⟩) 0 ⟨w, hw⟩

theorem bowl_contDiff : ContDiff ℝ 3
    (fun Z : Fin 1 → Fin 2 → ℝ => mmdValue bowlMmdn [bowlTarget] fun i : Fin 1 => objVec bowlMmdn (Z i)) := by
  rw [bowl_fun]
  unfold bowlE
  fun_prop

/-- The constraint. -/
theorem bowl_cstr (x y : ℝ) (rest : List ℝ) :
    IsActive bowlMmdn.p ((x :: y :: rest).take bowlMmdn.p.nVar) 0 ∧
    cVal bowlMmdn.p ((x :: y :: rest).take bowlMmdn.p.nVar) 0 = y - x ^ 2 ∧
    cGrad bowlMmdn.p ((x :: y :: rest).take bowlMmdn.p.nVar) 0 0 = -2 * x ∧
    cGrad bowlMmdn.p ((x :: y :: rest).take bowlMmdn.p.nVar) 0 1 = 1 ∧
    ∀ v w, cHess bowlMmdn.p ((x :: y :: rest).take bowlMmdn.p.nVar) 0 v w = if v * 2 + w = 0 then -2 else 0 := by
  refine ⟨Or.inl (by show 0 < 1; norm_num), rfl, rfl, rfl, fun v w => ?_⟩
  show pt [-2, 0, 0, 0] ((0 * 2 + v) * 2 + w) = _
  rw [zero_mul, zero_add]
  generalize v * 2 + w = n
  match n with
  | 0 => rfl
  | 1 => rfl
  | 2 => rfl
  | 3 => rfl
  | n + 4 => rfl

theorem bowl_smooth3 (q : List ℝ) : Smooth3 2 (fun q => cVal bowlMmdn.p q 0) (fun q v => cGrad bowlMmdn.p q 0 v)
    (fun q v w => cHess bowlMmdn.p q 0 v w) q := by
  have hv : ∀ x : Fin 2 → ℝ, cVal bowlMmdn.p (List.ofFn x) 0 = x 1 - x 0 ^ 2 := fun x => rfl
  have hg : ∀ (x : Fin 2 → ℝ) (v : Fin 2), cGrad bowlMmdn.p (List.ofFn x) 0 v = pt [-2 * x 0, 1] v := fun x v => by
    show pt [-2 * x 0, 1] (0 * 2 + v) = _
    rw [zero_mul, zero_add]
  have hh : ∀ (x : Fin 2 → ℝ) (v w : Fin 2), cHess bowlMmdn.p (List.ofFn x) 0 v w = pt [-2, 0, 0, 0] (v * 2 + w) :=
    fun x v w => by
      show pt [-2, 0, 0, 0] ((0 * 2 + v) * 2 + w) = _
      rw [zero_mul, zero_add]
  have c0 : ∀ x : Fin 2 → ℝ, HasFDerivAt (fun x : Fin 2 → ℝ => x 0) (ContinuousLinearMap.proj 0) x :=
    fun x => hasFDerivAt_apply (𝕜 := ℝ) (0 : Fin 2) x
  have c1 : ∀ x : Fin 2 → ℝ, HasFDerivAt (fun x : Fin 2 → ℝ => x 1) (ContinuousLinearMap.proj 1) x :=
    fun x => hasFDerivAt_apply (𝕜 := ℝ) (1 : Fin 2) x
  refine ⟨?_, Filter.Eventually.of_forall fun x v => ?_, Filter.Eventually.of_forall fun x v w => ?_⟩
  · simp only [hv]
    fun_prop
  · simp only [hv]
    rw [hg, ((c1 x).fun_sub ((c0 x).pow 2)).fderiv]
    fin_cases v <;> simp [pt]
  · simp only [hg]
    rw [hh]
    fin_cases v
    · have : HasFDerivAt (fun x : Fin 2 → ℝ => pt [-2 * x 0, 1] ((0 : Fin 2) : ℕ)) _ x := (c0 x).const_mul (-2)
      show _ = fderiv ℝ (fun x : Fin 2 → ℝ => pt [-2 * x 0, 1] ((0 : Fin 2) : ℕ)) x _
      rw [this.fderiv]
      fin_cases w <;> simp [pt]
    · have : HasFDerivAt (fun x : Fin 2 → ℝ => pt [-2 * x 0, 1] ((1 : Fin 2) : ℕ)) (0 : (Fin 2 → ℝ) →L[ℝ] ℝ) x := hasFDerivAt_const (1 : ℝ) x
      show _ = fderiv ℝ (fun x : Fin 2 → ℝ => pt [-2 * x 0, 1] ((1 : Fin 2) : ℕ)) x _
      rw [this.fderiv]
      fin_cases w <;> simp [pt]

/-- The population of one point, and its image. -/
theorem bowl_image (x y l : ℝ) (r : ℕ → ℝ) :
    bowlMmdn.env.dist ((mmdImages bowlMmdn [[x, y, l]]).getD 0 0) r = √((x - r 0) ^ 2 + (y - r 1) ^ 2) := rfl

theorem bowl_far {x y : ℝ} (hy : y ≤ 1 / 16) : 1 / 10 ^ 8 < √((x - bowlTarget 0) ^ 2 + (y - bowlTarget 1) ^ 2) := by
  refine Real.lt_sqrt_of_sq_lt ?_
  have e : bowlTarget 1 = 1 / 4 := rfl
  rw [e]
  nlinarith [sq_nonneg (x - bowlTarget 0), sq_nonneg (y - 1 / 16)]

/-- The value of the multiplier at the solution. -/
noncomputable def bowlMult : ℝ := bowlE 0 0

theorem one_targets (d : (ℕ → ℝ) → (ℕ → ℝ) → ℝ) (y r : ℕ → ℝ) (T : List (ℕ → ℝ)) : Targets d false [y] [r] T ↔ T = [r] := by
  unfold Targets
  simp only [Bool.false_eq_true, if_false]
  constructor
  · rintro ⟨-, h, -⟩
    exact List.perm_singleton.mp h
  · rintro rfl
    refine ⟨rfl, List.Perm.refl _, fun T' hT' => ?_⟩
    rw [List.perm_singleton.mp hT']

theorem bowl_nondegenerate : MmdNondegenerate bowlMmdn [[0, 0, bowlMult]] [bowlTarget] [bowlTarget] := by
  have hE : 0 < bowlE 0 0 := Real.exp_pos _
  obtain ⟨ca, cv, cg0, cg1, ch⟩ := bowl_cstr 0 0 [bowlMult]
  have hn : bowlMmdn.p.nVar = 2 := rfl
  have hd : bowlMmdn.p.nDual = 1 := rfl
  obtain ⟨G, hG⟩ := exists_mmdGrad (a := bowlMmdn) (T := [bowlTarget]) (X := [[0, 0, bowlMult]])
    bowl_contDiff.contDiffAt
  obtain ⟨H, hH⟩ := exists_mmdHess (a := bowlMmdn) (T := [bowlTarget]) (X := [[0, 0, bowlMult]])
    bowl_contDiff.contDiffAt
  obtain ⟨dG, dH⟩ := bowl_derivs hG hH
  exact
    { rows := fun x hx => by
        rw [List.mem_singleton.mp hx]; rfl
      cstr := fun x _ k hk => by
        obtain rfl : k = 0 := Nat.lt_one_iff.mp hk
        exact bowl_smooth3 _
      smooth := bowl_contDiff.contDiffAt
      first := by
        refine ⟨G, hG, fun i hi => ?_⟩
        obtain rfl : i = 0 := Nat.lt_one_iff.mp hi
        rw [List.getD_cons_zero]
        refine ⟨fun v hv => ?_, fun k hk _ => ?_⟩
        · have hv : v < 2 := hv
          rw [dG v hv, hd, Finset.sum_range_one, if_pos ca]
          interval_cases v
          · rw [cg0]
            simp [bowlG, pt]
          · rw [cg1]
            simp [bowlG, pt, hn, bowlMult]
        · obtain rfl : k = 0 := Nat.lt_one_iff.mp hk
          exact cv.trans (by norm_num)
      regular := by
        refine ⟨H, hH, fun z h1 h2 => ?_⟩
        have e0 := h1 0 one_pos 0 (by rw [hn]; norm_num)
        have e1 := h1 0 one_pos 1 (by rw [hn]; norm_num)
        have e2 := h2 0 one_pos 0 (by rw [hd]; norm_num) ca
        simp only [List.getD_cons_zero, List.length_singleton, Finset.sum_range_one, hd, if_pos ca] at e0 e1 e2
        simp only [show Finset.range bowlMmdn.p.nVar = Finset.range 2 from rfl, Finset.sum_range_succ,
          Finset.sum_range_zero, zero_add, cg0, cg1, ch, dH 0 two_pos 0 two_pos, dH 0 two_pos 1 one_lt_two,
          dH 1 one_lt_two 0 two_pos, dH 1 one_lt_two 1 one_lt_two] at e0 e1 e2
        have hm : pt [0, 0, bowlMult] (bowlMmdn.p.nVar + 0) = bowlE 0 0 := rfl
        rw [hm] at e0 e1
        have p0 : pt [0, 0, bowlMult] 0 = 0 := rfl
        have p1 : pt [0, 0, bowlMult] 1 = 0 := rfl
        simp only [bowlH, p0, p1] at e0 e1
        norm_num at e0 e1 e2
        have z1 : z 0 1 = 0 := by linarith
        have z0 : z 0 0 = 0 := by
          have : bowlE 0 0 * (2 * z 0 0) = 0 := by linarith
          rcases mul_eq_zero.mp this with h | h
          · exact absurd h hE.ne'
          · linarith
        intro i hi
        obtain rfl : i = 0 := Nat.lt_one_iff.mp hi
        refine ⟨fun v hv => ?_, fun k hk _ => ?_⟩
        · have hv : v < 2 := hv
          interval_cases v
          · exact z0
          · exact z1
        · obtain rfl : k = 0 := Nat.lt_one_iff.mp hk
          rw [z1] at e1
          show z 0 (bowlMmdn.p.nVar + 0) = 0
          simpa using e1
      targets := one_targets _ _ _
      unattained := fun i hi r hr => by
        obtain rfl : i = 0 := Nat.lt_one_iff.mp hi
        rw [List.mem_singleton.mp hr, bowl_image]
        exact bowl_far (by norm_num) }

theorem bowl_mult_near {x : ℝ} (h0 : 0 ≤ x) (h1 : x ≤ 1 / 4) : |bowlE x (x ^ 2) - bowlMult| ≤ x := by
  have e : bowlE x (x ^ 2) = bowlMult * Real.exp (-(x ^ 2 / 2 + x ^ 4)) := by
    rw [bowlMult, bowlE, bowlE, ← Real.exp_add]
    congr 1
    ring
  have hb : 0 < bowlMult := Real.exp_pos _
  have hb1 : bowlMult ≤ 1 := by
    rw [bowlMult, bowlE, Real.exp_le_one_iff]
    norm_num
  have hx : 0 ≤ x ^ 2 / 2 + x ^ 4 := by positivity
  have h2 : x ^ 2 / 2 + x ^ 4 ≤ x := by
    have h3 : x ^ 2 ≤ x / 4 := by nlinarith
    have h4 : x ^ 4 ≤ x ^ 2 := pow_le_pow_of_le_one h0 (by linarith) (by norm_num)
    linarith
  have l1 := Real.add_one_le_exp (-(x ^ 2 / 2 + x ^ 4))
  have l2 : Real.exp (-(x ^ 2 / 2 + x ^ 4)) ≤ 1 := Real.exp_le_one_iff.mpr (by linarith)
  rw [e, abs_le]
  constructor <;> nlinarith

noncomputable def bowlRef : RefSet (ℕ → ℝ) :=
  { RefSet.new [[bowlTarget]] [fun _ => -1] none with
    matched := some [bowlTarget], medoids := [some [bowlTarget]], medoidsIdx := [some (0, 0)] }

/-- A state with the point `(x, x²)`. -/
theorem bowl_near_state {x δ : ℝ} (h0 : 0 ≤ x) (h1 : x ≤ 1 / 4) (hδ : x ≤ δ) :
    ∃ s, MmdnNear bowlMmdn [[0, 0, bowlMult]] [bowlTarget] δ s ∧ s.state.X = [[x, x ^ 2, bowlE x (x ^ 2)]] ∧
      WithinAll bowlMmdn [[0, 0, bowlMult]] s.state.X x := by
  obtain ⟨u, -, u2, u3, -⟩ := Usable.update bowlMmdn_ok.funcs (Nat.le_add_right bowlMmdn.p.nVar bowlMmdn.p.nDual)
    State.init (N0 := 1) (X := [[x, x ^ 2, bowlE x (x ^ 2)]]) (by simp) (by simp)
    (by intro x hx; rw [List.mem_singleton.mp hx]; rfl)
  have hw : WithinAll bowlMmdn [[0, 0, bowlMult]] u.X x := by
    intro i hi
    obtain rfl : i = 0 := Nat.lt_one_iff.mp hi
    rw [u2]
    refine ⟨fun v hv => ?_, fun k hk _ => ?_⟩
    · have hv : v < 2 := hv
      interval_cases v
      · show |x - 0| ≤ x
        rw [sub_zero, abs_of_nonneg h0]
      · show |x ^ 2 - 0| ≤ x
        rw [sub_zero, abs_of_nonneg (sq_nonneg x)]
        nlinarith
    · obtain rfl : k = 0 := Nat.lt_one_iff.mp hk
      exact bowl_mult_near h0 h1
  refine ⟨⟨u, bowlRef, 0, 1, [[]], [], fun _ => []⟩, ⟨⟨u3, by rw [u2]; rfl, fun _ => ?_, fun h => ?_, fun _ => rfl⟩,
    one_ne_zero, ⟨[bowlTarget], ⟨rfl, rfl, rfl⟩, List.Perm.refl _⟩, fun i hi => ⟨fun v hv => ?_, fun k hk ha => ?_⟩⟩, u2, hw⟩
  · exact ⟨⟨_, rfl, le_rfl⟩, rfl, rfl, rfl⟩
  · simp [bowlMmdn] at h
  · exact ((hw i hi).1 v hv).trans hδ
  · exact ((hw i hi).2 k hk ha).trans hδ

/-- An iteration from the point `(x, x²)`: at most two thirds of the distance to the solution are covered. -/
theorem bowl_iterate {x δ : ℝ} (h0 : 0 ≤ x) (h1 : x ≤ 1 / 4) {s s' : MmdnState}
    (hs : MmdnNear bowlMmdn [[0, 0, bowlMult]] [bowlTarget] δ s) (hX : s.state.X = [[x, x ^ 2, bowlE x (x ^ 2)]])
    (hit : bowlMmdn.iterate s = some s') : x / 3 ≤ pt (s'.state.X.getD 0 []) 0 := by
  obtain ⟨s'', M0, M1, T, G, H, α, i1, -, -, i4, i5, i6, i7, -, i9, -⟩ := C72_iteration_partial bowlMmdn_ok hs.ready
  obtain rfl : s'' = s' := Option.some.inj (i1.symm.trans hit)
  obtain ⟨M', hM', hperm⟩ := hs.targets
  obtain ⟨t1, -, -, ⟨hl1, hsh⟩, -, -⟩ := i4.matched rfl
  have hM'e := List.perm_singleton.mp hperm
  subst hM'e
  have hM0 : M0 = [bowlTarget] := List.perm_singleton.mp (t1 _ hM'.medoids (by rw [hX]; rfl))
  subst hM0
  have hx2 : x ^ 2 ≤ 1 / 16 := by nlinarith
  have hrest : ∀ i, ¬ (s.iter = 0 ∨ AtRestAny bowlMmdn.env.dist (mmdImages bowlMmdn s.state.X) [bowlTarget]
      (s.step.map fun r => euclNorm (r.take bowlMmdn.p.nVar)) i) := by
    rintro i (h | ⟨y, r, -, e1, e2, -, e3, -⟩)
    · exact hs.later h
    · rw [List.mem_singleton.mp e2, hX] at *
      obtain ⟨hi, e1⟩ := List.getElem?_eq_some_iff.mp e1
      obtain rfl : i = 0 := Nat.lt_one_iff.mp hi
      have h := bowl_far (x := x) hx2
      rw [← bowl_image x (x ^ 2) (bowlE x (x ^ 2)), List.getD_eq_getElem _ _ hi, e1] at h
      exact absurd ((le_abs_self _).trans e3) (not_le.mpr h)
  obtain ⟨dir, hdir⟩ : ∃ dir, s.ref.eta[0]? = some dir :=
    ⟨_, List.getElem?_eq_getElem (by rw [(hs.ready.matched rfl).eta]; exact one_pos)⟩
  have hM1 : M1 = [bowlTarget] := by
    refine List.ext_getElem hl1 fun i g1 g2 => ?_
    have := (((hsh i).1 _ dir (List.getElem?_eq_getElem g2) hdir).2 (hrest i)).1
    rw [List.getElem?_eq_getElem g1] at this
    exact Option.some.inj this
  subst hM1
  have hT : T = [bowlTarget] := by
    have h := i4.targets
    unfold MmdTargets at h
    rw [if_pos (show bowlMmdn.matching = true from rfl), hX] at h
    exact (one_targets _ _ _ _).mp h
  subst hT
  obtain ⟨hG, hH, -⟩ := i5.derivs bowlMmdn_smooth
  have hnw := i5.newton_id (fun _ => rfl) oneSolve_sound
  rw [hX] at hG hH hnw
  obtain ⟨dG, dH⟩ := bowl_derivs hG hH
  obtain ⟨ca, cv, cg0, cg1, -⟩ := bowl_cstr x (x ^ 2) [bowlE x (x ^ 2)]
  have hn : bowlMmdn.p.nVar = 2 := rfl
  have hd : bowlMmdn.p.nDual = 1 := rfl
  have hE : 0 < bowlE x (x ^ 2) := Real.exp_pos _
  have hp : ∀ y : ℕ → ℕ → ℝ, (∀ i < ([[x, x ^ 2, bowlE x (x ^ 2)]] : List (List ℝ)).length, KktNewtonFlat bowlMmdn.p
      (([[x, x ^ 2, bowlE x (x ^ 2)]] : List (List ℝ)).getD i []) (G i)
      (fun v => ∑ j ∈ Finset.range ([[x, x ^ 2, bowlE x (x ^ 2)]] : List (List ℝ)).length,
        ∑ w ∈ Finset.range bowlMmdn.p.nVar, H i v j w * y j w) (y i)) ↔
      (bowlH x (x ^ 2) 0 0 * y 0 0 + bowlH x (x ^ 2) 0 1 * y 0 1 + -2 * x * y 0 2 =
        -(bowlG x (x ^ 2) 0 + bowlE x (x ^ 2) * (-2 * x))) ∧
      (bowlH x (x ^ 2) 1 0 * y 0 0 + bowlH x (x ^ 2) 1 1 * y 0 1 + 1 * y 0 2 =
        -(bowlG x (x ^ 2) 1 + bowlE x (x ^ 2) * 1)) ∧ -2 * x * y 0 0 + 1 * y 0 1 = -(x ^ 2 - x ^ 2) := by
    intro y
    have q0 : pt [x, x ^ 2, bowlE x (x ^ 2)] 0 = x := rfl
    have q1 : pt [x, x ^ 2, bowlE x (x ^ 2)] 1 = x ^ 2 := rfl
    rw [q0, q1] at dG dH
    have q2 : pt [x, x ^ 2, bowlE x (x ^ 2)] (bowlMmdn.p.nVar + 0) = bowlE x (x ^ 2) := rfl
    have key : KktNewtonFlat bowlMmdn.p [x, x ^ 2, bowlE x (x ^ 2)] (G 0)
      (fun v => ∑ j ∈ Finset.range 1, ∑ w ∈ Finset.range 2, H 0 v j w * y j w) (y 0) ↔ _ := Iff.rfl
    have e0 : (∑ j ∈ Finset.range 1, ∑ w ∈ Finset.range 2, H 0 0 j w * y j w) =
        bowlH x (x ^ 2) 0 0 * y 0 0 + bowlH x (x ^ 2) 0 1 * y 0 1 := by
      rw [Finset.sum_range_one, Finset.sum_range_succ, Finset.sum_range_one, dH 0 two_pos 0 two_pos,
        dH 0 two_pos 1 one_lt_two]
    have e1 : (∑ j ∈ Finset.range 1, ∑ w ∈ Finset.range 2, H 0 1 j w * y j w) =
        bowlH x (x ^ 2) 1 0 * y 0 0 + bowlH x (x ^ 2) 1 1 * y 0 1 := by
      rw [Finset.sum_range_one, Finset.sum_range_succ, Finset.sum_range_one, dH 1 one_lt_two 0 two_pos,
        dH 1 one_lt_two 1 one_lt_two]
    have f : ∀ v, (∑ k ∈ Finset.range bowlMmdn.p.nDual,
        (if IsActive bowlMmdn.p ([x, x ^ 2, bowlE x (x ^ 2)].take bowlMmdn.p.nVar) k then
          cGrad bowlMmdn.p ([x, x ^ 2, bowlE x (x ^ 2)].take bowlMmdn.p.nVar) k v * y 0 (bowlMmdn.p.nVar + k) else 0)) =
        cGrad bowlMmdn.p ([x, x ^ 2, bowlE x (x ^ 2)].take bowlMmdn.p.nVar) 0 v * y 0 2 := fun v => by
      rw [hd, Finset.sum_range_one, if_pos ca, hn]
    have f' : ∀ v, (∑ k ∈ Finset.range bowlMmdn.p.nDual,
        (if IsActive bowlMmdn.p ([x, x ^ 2, bowlE x (x ^ 2)].take bowlMmdn.p.nVar) k then
          pt [x, x ^ 2, bowlE x (x ^ 2)] (bowlMmdn.p.nVar + k) *
            cGrad bowlMmdn.p ([x, x ^ 2, bowlE x (x ^ 2)].take bowlMmdn.p.nVar) k v else 0)) =
        bowlE x (x ^ 2) * cGrad bowlMmdn.p ([x, x ^ 2, bowlE x (x ^ 2)].take bowlMmdn.p.nVar) 0 v := fun v => by
      rw [hd, Finset.sum_range_one, if_pos ca, q2]
    constructor
    · intro h
      obtain ⟨k1, k2⟩ := h 0 one_pos
      have a0 := k1 0 (by rw [hn]; exact two_pos)
      have a1 := k1 1 (by rw [hn]; exact one_lt_two)
      have a2 := k2 0 (by rw [hd]; exact one_pos) ca
      simp only [List.getD_cons_zero, f, f'] at a0 a1 a2
      have e0' := e0
      refine ⟨?_, ?_, ?_⟩
      · rw [cg0, dG 0 two_pos] at a0
        exact e0 ▸ a0
      · rw [cg1, dG 1 one_lt_two] at a1
        exact e1 ▸ a1
      · rw [hn, Finset.sum_range_succ, Finset.sum_range_one] at a2
        rw [← cg0, ← cg1, ← cv]
        exact a2
    · rintro ⟨b0, b1, b2⟩ i hi
      obtain rfl : i = 0 := Nat.lt_one_iff.mp hi
      refine ⟨fun v hv => ?_, fun k hk _ => ?_⟩
      · have hv : v < 2 := hv
        simp only [List.getD_cons_zero, f, f']
        interval_cases v
        · rw [cg0, dG 0 two_pos]
          exact (congrArg (· + -2 * x * y 0 2) e0).trans b0
        · rw [cg1, dG 1 one_lt_two]
          exact (congrArg (· + 1 * y 0 2) e1).trans b1
      · obtain rfl : k = 0 := Nat.lt_one_iff.mp hk
        simp only [List.getD_cons_zero]
        rw [hn, Finset.sum_range_succ, Finset.sum_range_one]
        rw [← cg0, ← cg1, ← cv] at b2
        exact b2
  have hD : 3 / 2 ≤ 2 - x ^ 2 - 4 * x ^ 4 := by nlinarith [sq_nonneg x]
  obtain ⟨t, ht⟩ : ∃ t, t * (2 - x ^ 2 - 4 * x ^ 4) = -x := ⟨-x / (2 - x ^ 2 - 4 * x ^ 4), div_mul_cancel₀ _ (by linarith)⟩
  have hex := (hp fun _ c => if c = 0 then t else if c = 1 then 2 * x * t else
    -(bowlG x (x ^ 2) 1 + bowlE x (x ^ 2) * 1) - (bowlH x (x ^ 2) 1 0 * t + bowlH x (x ^ 2) 1 1 * (2 * x * t))).mpr ⟨by
      simp only [bowlG, bowlH]
      norm_num
      linear_combination (2 * bowlE x (x ^ 2) * (1 + 4 * x ^ 2)) * ht, by norm_num, by norm_num⟩
  obtain ⟨n0, n1, n2⟩ := (hp _).mp fun i hi => (hnw ⟨_, hex⟩ i hi).1
  have hs0 : at2 s''.step 0 0 * (2 - x ^ 2 - 4 * x ^ 4) = -x := by
    have hs1 : at2 s''.step 0 1 = 2 * x * at2 s''.step 0 0 := by linarith
    rw [hs1] at n0 n1
    simp only [bowlG, bowlH] at n0 n1
    norm_num at n0 n1
    have : (2 * bowlE x (x ^ 2) * (1 + 4 * x ^ 2)) * (at2 s''.step 0 0 * (2 - x ^ 2 - 4 * x ^ 4) + x) = 0 := by
      linear_combination n0 + 2 * x * n1
    rcases mul_eq_zero.mp this with h | h
    · exact absurd h (by positivity)
    · linarith
  have hlow : -(2 / 3) * x ≤ at2 s''.step 0 0 := by nlinarith
  have hneg : at2 s''.step 0 0 ≤ 0 := by nlinarith
  have hα : 0 ≤ α ∧ α ≤ 1 := by
    unfold MmdnSearched MmdnSearchedBy at i6
    split at i6
    · rw [i6]; norm_num
    · obtain ⟨j, -, rfl, -⟩ := i6
      exact ⟨by positivity, pow_le_one₀ (by norm_num) (by norm_num)⟩
  have h9 := i9 0 one_pos 0 (by rw [hn, hd]; norm_num)
  rw [hX] at h9
  have h9' : pt (s''.state.X.getD 0 []) 0 = x + α * at2 s''.step 0 0 := h9
  rw [h9']
  nlinarith [hα.1, hα.2]

/-! ## C86 -/

/-- C86 does not hold: on the parabola `x₁ = x₀²` with the target `(0, 1/4)`, an iteration from points arbitrarily near the
nondegenerate solution `(0, 0)` leaves at least a third of the distance. -/
theorem C86_violated : ¬ C86Statement := by
  intro h
  obtain ⟨δ, hδ, C, hC, h⟩ := h bowlMmdn _ _ _ bowlMmdn_ok rfl bowlMmdn_smooth bowlMmdn_dist oneSolve_sound (fun _ => rfl)
    bowl_nondegenerate
  obtain ⟨x, hx, x1, x2, x3⟩ : ∃ x : ℝ, 0 < x ∧ x ≤ 1 / 4 ∧ x ≤ δ ∧ x * C ≤ 1 / 4 :=
    ⟨min (min (1 / 4) δ) (1 / (4 * C)), by positivity, (min_le_left _ _).trans (min_le_left _ _),
      (min_le_left _ _).trans (min_le_right _ _), by
        calc _ ≤ 1 / (4 * C) * C := mul_le_mul_of_nonneg_right (min_le_right _ _) hC.le
          _ = 1 / 4 := by field_simp⟩
  obtain ⟨s, hs, hX, hw⟩ := bowl_near_state hx.le x1 x2
  obtain ⟨s', hit, hq⟩ := h s hs
  have h3 := bowl_iterate hx.le x1 hs hX hit
  have h4 := (hq x hx.le x2 hw 0 one_pos).1 0 two_pos
  have h5 : pt (([[0, 0, bowlMult]] : List (List ℝ)).getD 0 []) 0 = 0 := rfl
  rw [h5, sub_zero] at h4
  have := (le_abs_self _).trans h4
  nlinarith

end Verif.Props
