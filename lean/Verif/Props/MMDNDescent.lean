import Verif.Props.MMDN

/-!
# C72: the residual may increase in an iteration of `MMDNewton`

The line search is skipped if the median of the entries of the step is close to zero, whatever the entries are.
-/

namespace Verif.Props

open Verif.Opt Verif.Ind Verif.Util Verif.HV

/-- C72, the line search: the norm of the residual for the targets of the iteration does not increase, or the step size
is the smallest one. -/
def C72Descent : Prop :=
  ∀ (a : Mmdn) (N : ℕ) (s s' : MmdnState) (M0 M1 T : List (ℕ → ℝ)), a.Ok → MmdSmooth a → SolverSound a.solve →
    (∀ A, a.precond A = A) → MmdnReady a N s → a.iterate s = some s' → MmdnTargets a s s' M0 M1 T →
    ∀ v0 v1, ResidualNorm a M1 s.state.X v0 → ResidualNorm a M1 s'.state.X v1 →
      v1 ≤ v0 ∨ s'.state.X = movedBy s.state.X s'.step (1 / 64)

/-- `f(x) = x` in the plane. -/
def planeFuncs : Funcs ℝ where
  nVar := 2
  nEq := 0
  nIeq := 0
  func := ⟨fun x => [x.getD 0 0, x.getD 1 0], none⟩
  jac := ⟨fun _ => [1, 0, 0, 1], none⟩
  h := none
  hJac := none
  hHess := none
  g := none
  gJac := none
  gHess := none

theorem planeFuncs_ok : planeFuncs.Ok 2 where
  func := ⟨fun b hb => by simp [planeFuncs] at hb, fun _ _ => rfl⟩
  jac := ⟨fun b hb => by simp [planeFuncs] at hb, fun _ _ => rfl⟩
  h := by rintro c hc; simp [planeFuncs] at hc
  g := by rintro c hc; simp [planeFuncs] at hc
  hJac := by rintro c hc; simp [planeFuncs] at hc
  gJac := by rintro c hc; simp [planeFuncs] at hc
  hHess := by rintro c hc; simp [planeFuncs] at hc
  gHess := by rintro c hc; simp [planeFuncs] at hc

/-- The problem on the square `[-1, 1]²` with the kernel `rbf`. -/
noncomputable def planeMmdn : Mmdn where
  p := planeFuncs
  nObj := 2
  hess := fun _ => [0, 0, 0, 0, 0, 0, 0, 0]
  matching := true
  kernel := autodiff (rbf 1)
  xl := [-1, -1]
  xu := [1, 1]
  env := bruteEnv (fun y r => √((y 0 - r 0) ^ 2 + (y 1 - r 1) ^ 2)) fun _ _ => 0
  solve := oneSolve
  precond := id

theorem planeMmdn_ok : planeMmdn.Ok where
  funcs := planeFuncs_ok
  env := bruteEnv_sound _ _
  nonneg := fun _ _ => Real.sqrt_nonneg _
  xl := rfl
  xu := rfl
  solve := fun A b _ => oneSolve_length A b
  precond := fun _ _ h => h
  jac := by intro h; simp [Funcs.constrained, planeMmdn, planeFuncs] at h

theorem planeMmdn_smooth : MmdSmooth planeMmdn where
  jac := by
    intro (x : Fin 2 → ℝ) k
    show HasFDerivAt (fun x : Fin 2 → ℝ => pt [x 0, x 1] k) (lin fun v : Fin 2 => pt [1, 0, 0, 1] (k * 2 + v)) x
    have h0 : ∀ i, HasFDerivAt (fun x : Fin 2 → ℝ => x i)
        (ContinuousLinearMap.proj (R := ℝ) (φ := fun _ : Fin 2 => ℝ) i) x := fun i => hasFDerivAt_apply i x
    fin_cases k
    · refine (h0 0).congr_fderiv ?_
      ext v; simp [pt]
    · refine (h0 1).congr_fderiv ?_
      ext v; simp [pt]
  hess := by
    intro (x : Fin 2 → ℝ) k (v : Fin 2)
    show HasFDerivAt (fun x : Fin 2 → ℝ => pt [1, 0, 0, 1] (k * 2 + v))
      (lin fun w : Fin 2 => pt [0, 0, 0, 0, 0, 0, 0, 0] ((k * 2 + v) * 2 + w)) x
    refine (hasFDerivAt_const _ x).congr_fderiv ?_
    ext w
    fin_cases k <;> fin_cases v <;> simp [pt]
  symm := rbf_symm 1
  stationary := stationary_rbf 1
  diff := fun _ _ => autodiff_diff2At (contDiff_rbf 1).contDiffAt

/-- The square of the distance of the only point to its target. -/
def planeSq (τ : ℕ → ℝ) (Z : Fin 1 → Fin 2 → ℝ) : ℝ := (Z 0 0 - τ 0) ^ 2 + (Z 0 1 - τ 1) ^ 2

theorem plane_value (τ : ℕ → ℝ) (Z : Fin 1 → Fin 2 → ℝ) :
    mmdValue planeMmdn [τ] (fun i : Fin 1 => objVec planeMmdn (Z i)) = 9 / 4 - 2 * Real.exp (-planeSq τ Z) := by
  rw [mmdValue, if_pos (show planeMmdn.matching = true from rfl), mmdmOf]
  simp only [Finset.univ_unique, Fin.default_eq_zero, Finset.sum_singleton]
  have e1 : planeMmdn.kernel.k (objVec planeMmdn (Z 0)) (objVec planeMmdn (Z 0)) = 1 := by
    show rbf 1 _ _ = 1
    simp [rbf]
  have e2 : planeMmdn.kernel.k (objVec planeMmdn (Z 0)) (fun k => ([τ] : List (ℕ → ℝ)).getD (0 : Fin 1) 0 k) =
      Real.exp (-planeSq τ Z) := by
    show rbf 1 (fun k : Fin 2 => pt [Z 0 0, Z 0 1] k) (fun k : Fin 2 => τ k) = _
    rw [rbf, Fin.sum_univ_two]
    congr 1
    simp [pt, planeSq]
  rw [e1, e2]
  simp only [Nat.cast_one]
  ring

theorem plane_proj (Z : Fin 1 → Fin 2 → ℝ) (v : Fin 2) : HasFDerivAt (fun Z : Fin 1 → Fin 2 → ℝ => Z 0 v)
    (lin2 fun _ w => if w = v then 1 else 0) Z := by
  refine ((ContinuousLinearMap.proj (R := ℝ) (φ := fun _ : Fin 2 => ℝ) v).comp
    (ContinuousLinearMap.proj (R := ℝ) (φ := fun _ : Fin 1 => Fin 2 → ℝ) 0)).hasFDerivAt.congr_fderiv ?_
  ext V
  simp

theorem plane_exp (τ : ℕ → ℝ) (Z : Fin 1 → Fin 2 → ℝ) : HasFDerivAt (fun Z => Real.exp (-planeSq τ Z))
    (lin2 fun (_ : Fin 1) (v : Fin 2) => -2 * (Z 0 v - τ v) * Real.exp (-planeSq τ Z)) Z := by
  have h := ((((plane_proj Z 0).sub_const (τ 0)).pow 2).add (((plane_proj Z 1).sub_const (τ 1)).pow 2)).neg.exp
  refine h.congr_fderiv ?_
  ext V
  simp [planeSq, Fin.sum_univ_two]
  ring

theorem plane_fderiv (τ : ℕ → ℝ) (Z : Fin 1 → Fin 2 → ℝ) :
    HasFDerivAt (fun Z : Fin 1 → Fin 2 → ℝ => mmdValue planeMmdn [τ] fun i : Fin 1 => objVec planeMmdn (Z i))
      (lin2 fun (_ : Fin 1) (v : Fin 2) => 4 * (Z 0 v - τ v) * Real.exp (-planeSq τ Z)) Z := by
  simp only [plane_value]
  refine (((plane_exp τ Z).const_mul 2).const_sub (9 / 4)).congr_fderiv ?_
  ext V
  simp [Fin.sum_univ_two]
  ring

theorem plane_fderiv2 (τ : ℕ → ℝ) (Z : Fin 1 → Fin 2 → ℝ) (v : Fin 2) :
    HasFDerivAt (fun Z : Fin 1 → Fin 2 → ℝ => 4 * (Z 0 v - τ v) * Real.exp (-planeSq τ Z))
      (lin2 fun (_ : Fin 1) (w : Fin 2) => 4 * ((if w = v then 1 else 0) - 2 * (Z 0 v - τ v) * (Z 0 w - τ w)) *
        Real.exp (-planeSq τ Z)) Z := by
  refine ((((plane_proj Z v).sub_const (τ v)).const_mul 4).mul (plane_exp τ Z)).congr_fderiv ?_
  ext V
  fin_cases v <;> simp [Fin.sum_univ_two] <;> ring

/-- The gradient of the indicator. -/
theorem plane_grad {τ : ℕ → ℝ} {x y : ℝ} {G : ℕ → ℕ → ℝ} (h : MmdGrad planeMmdn [τ] [[x, y]] G) :
    G 0 0 = 4 * (x - τ 0) * Real.exp (-((x - τ 0) ^ 2 + (y - τ 1) ^ 2)) ∧
    G 0 1 = 4 * (y - τ 1) * Real.exp (-((x - τ 0) ^ 2 + (y - τ 1) ^ 2)) := by
  have e := congrFun (lin2_injective (HasFDerivAt.unique (E := Fin 1 → Fin 2 → ℝ) h
    (plane_fderiv τ fun i v => pt ([[x, y]].getD i []) v))) 0
  exact ⟨congrFun e (0 : Fin 2), congrFun e (1 : Fin 2)⟩

/-- The Hessian of the indicator. -/
theorem plane_hess {τ : ℕ → ℝ} {x y : ℝ} {H : ℕ → ℕ → ℕ → ℕ → ℝ} (h : MmdHess planeMmdn [τ] [[x, y]] H) (E : ℝ)
    (hE : E = Real.exp (-((x - τ 0) ^ 2 + (y - τ 1) ^ 2))) :
    H 0 0 0 0 = 4 * (1 - 2 * (x - τ 0) ^ 2) * E ∧ H 0 1 0 1 = 4 * (1 - 2 * (y - τ 1) ^ 2) * E ∧
    H 0 0 0 1 = -8 * (x - τ 0) * (y - τ 1) * E ∧ H 0 1 0 0 = -8 * (x - τ 0) * (y - τ 1) * E := by
  have key : ∀ v : Fin 2, ∀ w : Fin 2, H 0 v 0 w = 4 * ((if w = v then 1 else 0) - 2 *
      ((if v = 0 then x else y) - τ v) * ((if w = 0 then x else y) - τ w)) * E := by
    intro v w
    have h1 := h (Pi.single 0 (Pi.single v 1) : Fin 1 → Fin 2 → ℝ)
    have e1 : (fun Z => fderiv ℝ (fun Z : Fin 1 → Fin 2 → ℝ => mmdValue planeMmdn [τ] fun i : Fin 1 => objVec planeMmdn (Z i)) Z
        (Pi.single 0 (Pi.single v 1) : Fin 1 → Fin 2 → ℝ)) = fun Z => 4 * (Z 0 v - τ v) * Real.exp (-planeSq τ Z) := by
      funext Z
      rw [(plane_fderiv τ Z).fderiv, lin2_apply, Fin.sum_univ_one, Finset.sum_eq_single v]
      · simp
      · intro k _ hk; simp [hk]
      · simp
    have h2 : HasFDerivAt (fun Z : Fin 1 → Fin 2 → ℝ => 4 * (Z 0 v - τ v) * Real.exp (-planeSq τ Z))
        (lin2 fun (j : Fin 1) (w : Fin 2) => ∑ i : Fin 1, ∑ u : Fin 2, (Pi.single 0 (Pi.single v 1) : Fin 1 → Fin 2 → ℝ) i u *
          H i u j w) (fun i v => pt ([[x, y]].getD i []) v) := by
      rw [← e1]; exact h1
    have e2 := congrFun (congrFun (lin2_injective (h2.unique (plane_fderiv2 τ (fun i v => pt ([[x, y]].getD i []) v) v))) 0) w
    have eE : Real.exp (-planeSq τ (fun i v => pt ([[x, y]].getD i []) v)) = E := by
      rw [hE]; rfl
    have ev : ∀ v : Fin 2, pt ([[x, y]].getD (0 : Fin 1) []) v = if v = 0 then x else y := by
      intro v; fin_cases v <;> rfl
    rw [eE] at e2
    rw [ev, ev, Fin.sum_univ_one, Finset.sum_eq_single v (by intro k _ hk; simp [hk]) (by simp)] at e2
    simpa using e2
  refine ⟨?_, ?_, ?_, ?_⟩
  · simpa [pow_two, mul_assoc] using key 0 0
  · simpa [pow_two, mul_assoc] using key 1 1
  · rw [show H 0 0 0 1 = _ from key 0 1, if_neg (by simp), if_pos rfl, if_neg (by simp)]; simp only [Fin.val_zero, Fin.val_one]; ring
  · rw [show H 0 1 0 0 = _ from key 1 0, if_neg (by simp), if_neg (by simp), if_pos rfl]; simp only [Fin.val_zero, Fin.val_one]; ring

/-- The norm of the residual. -/
theorem plane_norm (τ : ℕ → ℝ) (x y E : ℝ) (hE : E = Real.exp (-((x - τ 0) ^ 2 + (y - τ 1) ^ 2))) :
    ResidualNorm planeMmdn [τ] [[x, y]] √((4 * (x - τ 0) * E) ^ 2 + (4 * (y - τ 1) * E) ^ 2) := by
  refine ⟨[τ], fun _ v => if v = 0 then 4 * (x - τ 0) * E else 4 * (y - τ 1) * E,
    fun _ v => if v = 0 then 4 * (x - τ 0) * E else 4 * (y - τ 1) * E, ?_, fun _ => ?_, fun i hi => ⟨fun v hv => ?_, fun k hk => ?_⟩, ?_⟩
  · beta_reduce; rw [MmdTargets, if_pos (show planeMmdn.matching = true from rfl)]
    refine ⟨rfl, ?_⟩
    rw [if_neg (by simp)]
    exact ⟨List.Perm.refl _, fun T' hT' => by rw [List.perm_singleton.mp hT']⟩
  · have h := plane_fderiv τ fun i v => pt ([[x, y]].getD i []) v
    refine HasFDerivAt.congr_fderiv (E := Fin 1 → Fin 2 → ℝ) h ?_
    congr 1
    funext i v
    obtain rfl : i = 0 := Subsingleton.elim _ _
    rw [show Real.exp (-planeSq τ fun i v => pt ([[x, y]].getD i []) v) = E by rw [hE]; rfl]
    fin_cases v <;> rfl
  · simp [planeMmdn, planeFuncs, Funcs.nDual]
  · simp [planeMmdn, planeFuncs, Funcs.nDual] at hk
  · rw [show [[x, y]].length = 1 from rfl, show planeMmdn.p.nVar + planeMmdn.p.nDual = 2 from rfl, Finset.sum_range_one,
      Finset.sum_range_succ, Finset.sum_range_one]
    rfl

/-- A reference point and its direction. -/
noncomputable def planeRef : RefSet (ℕ → ℝ) :=
  RefSet.new [[fun k => if k = 0 then -59 / 200 else 59 / 200]] [fun k => if k = 0 then -1 else 1] none

/-- C72, the residual may increase: the two entries of the step `(-6/7, 6/7)` have the median zero, the whole step is
taken, and the norm of the residual grows. -/
theorem C72_violated_descent : ¬ C72Descent := by
  intro h
  have ha := planeMmdn_ok
  obtain ⟨s, b1, b2, b3, -, b4, -⟩ := (C72_start ha (S := planeRef) (X0 := [[0, 0]]) (by simp)
    (fun _ => ⟨⟨_, rfl, by simp⟩, rfl, rfl, rfl⟩) (by simp [planeMmdn]) (fun d hd => by
      have hd : d < 2 := hd
      interval_cases d <;> simp [planeMmdn])).2 (by simp [planeMmdn, planeFuncs])
  have hX : s.state.X = [[0, 0]] := by
    have e : planeMmdn.clipRow [0, 0] = [0, 0] := by simp [Mmdn.clipRow, planeMmdn]
    unfold Mmdn.start at b1
    rw [if_pos (by simp [planeMmdn, planeFuncs])] at b1
    obtain ⟨t, t1, rfl⟩ := Option.map_eq_some_iff.mp b1
    rw [List.map_cons, List.map_nil, e] at t1
    obtain ⟨t', u1, u2, -⟩ := Usable.update ha.funcs
      (Nat.le_add_right planeMmdn.p.nVar planeMmdn.p.nDual) State.init (N0 := 1)
      (X := [[0, 0] ++ List.replicate planeMmdn.p.nDual 0]) (by simp) (by simp)
      (by simp [planeMmdn, planeFuncs, Funcs.nDual])
    obtain rfl : t = t' := Option.some.inj (t1.symm.trans u1)
    exact u2
  obtain ⟨s', M0, M1, T, G, H, α, h1, h2, -, h4, h5, h6, h7, -, h9, -⟩ := C72_iteration_partial ha b2
  -- the targets
  set τ : ℕ → ℝ := fun k => if k = 0 then -3 / 8 else 3 / 8 with hτ
  have τ0 : τ 0 = -3 / 8 := rfl
  have τ1 : τ 1 = 3 / 8 := rfl
  obtain ⟨m1, m2, m3, m4, -⟩ := h4.matched rfl
  have hM0 : M0 = [fun k => if k = 0 then -59 / 200 else 59 / 200] := by
    have hs := m2 (by rw [b4]; intro old h; simp [planeRef, RefSet.new] at h)
    rw [b4] at hs
    have hl : M0.length = 1 := by rw [m3.1, mmdImages, hX]; rfl
    exact List.perm_singleton.mp (hs.perm_of_length_le (by rw [hl]; simp [planeRef, RefSet.new]))
  have hM1 : M1 = [τ] := by
    obtain ⟨l1, l2⟩ := m4
    have := (((l2 0).1 _ (fun k => if k = 0 then -1 else 1) (by rw [hM0]; rfl) (by rw [b4]; rfl)).1 (.inl b3)).1
    have hl : M1.length = 1 := by rw [l1, hM0]; rfl
    obtain ⟨r, rfl⟩ := List.length_eq_one_iff.mp hl
    have e := Option.some.inj this
    rw [e]
    congr 1
    funext k
    simp only [Pi.add_apply, Pi.smul_apply, smul_eq_mul, hτ]
    split <;> norm_num
  have hT : T = [τ] := by
    have := h4.targets
    rw [MmdTargets, if_pos (show planeMmdn.matching = true from rfl)] at this
    obtain ⟨-, t1⟩ := this
    rw [if_neg (by simp), hM1] at t1
    exact List.perm_singleton.mp t1.1
  -- the derivatives
  obtain ⟨d1, d2, -⟩ := h5.derivs planeMmdn_smooth
  rw [hX, hT] at d1 d2
  set E := Real.exp (-(9 / 32)) with hE
  have hE' : E = Real.exp (-((0 - τ 0) ^ 2 + (0 - τ 1) ^ 2)) := by rw [hE, τ0, τ1]; norm_num
  obtain ⟨g0, g1⟩ := plane_grad d1
  obtain ⟨p1, p2, p3, p4⟩ := plane_hess d2 E hE'
  rw [← hE', τ0] at g0
  rw [← hE', τ1] at g1
  rw [τ0] at p1
  rw [τ1] at p2
  rw [τ0, τ1] at p3 p4
  have hEpos : 0 < E := Real.exp_pos _
  -- the step
  have hnw := h5.newton_id (fun _ => rfl) oneSolve_sound
  have hst : at2 s'.step 0 0 = -6 / 7 ∧ at2 s'.step 0 1 = 6 / 7 := by
    rw [hX] at hnw
    have e := (hnw ⟨fun _ w => if w = 0 then -6 / 7 else 6 / 7, fun i hi => by
      obtain rfl : i = 0 := Nat.lt_one_iff.mp hi
      refine ⟨fun v hv => ?_, fun k hk => absurd hk (by simp [planeMmdn, planeFuncs, Funcs.nDual])⟩
      have hv : v < 2 := hv
      interval_cases v
      · simp [planeMmdn, planeFuncs, Funcs.nDual, Finset.sum_range_succ, g0, p1, p3]
        ring
      · simp [planeMmdn, planeFuncs, Funcs.nDual, Finset.sum_range_succ, g1, p2, p4]
        ring⟩ 0 (by simp)).1.1
    have e0 := e 0 (by simp [planeMmdn, planeFuncs])
    have e1 := e 1 (by simp [planeMmdn, planeFuncs])
    simp [planeMmdn, planeFuncs, Funcs.nDual, Finset.sum_range_succ, g0, p1, p3] at e0
    simp [planeMmdn, planeFuncs, Funcs.nDual, Finset.sum_range_succ, g1, p2, p4] at e1
    have q0 : E * (23 / 8 * at2 s'.step 0 0 + 9 / 8 * at2 s'.step 0 1 + 3 / 2) = 0 := by linarith
    have q1 : E * (9 / 8 * at2 s'.step 0 0 + 23 / 8 * at2 s'.step 0 1 - 3 / 2) = 0 := by linarith
    have q0 := (mul_eq_zero.mp q0).resolve_left hEpos.ne'
    have q1 := (mul_eq_zero.mp q1).resolve_left hEpos.ne'
    constructor <;> linarith
  have hrow : ∀ (L : List (List ℝ)) (u w : ℝ), IsMat 1 2 L → at2 L 0 0 = u → at2 L 0 1 = w → L = [[u, w]] := by
    rintro L u w ⟨l1, l2⟩ e1 e2
    obtain ⟨r, rfl⟩ := List.length_eq_one_iff.mp l1
    obtain ⟨c, d, rfl⟩ := List.length_eq_two.mp (l2 r (by simp))
    simp [at2] at e1 e2
    rw [e1, e2]
  have hstep : s'.step = [[-6 / 7, 6 / 7]] := hrow _ _ _ h7 hst.1 hst.2
  -- the step size
  have hα : α = 1 := by
    unfold MmdnSearched MmdnSearchedBy at h6
    rw [if_pos] at h6
    · exact h6
    · refine ⟨0, ⟨[-6 / 7, 6 / 7], ?_, ?_, ?_, ?_⟩, ?_⟩
      · rw [hstep]; exact List.Perm.refl _
      · simp; norm_num
      · rw [hstep]; simp [stepEntries, planeMmdn, planeFuncs]
      · rw [hstep]; simp [stepEntries, planeMmdn, planeFuncs]; norm_num
      · norm_num
  have hX' : s'.state.X = [[-6 / 7, 6 / 7]] := by
    refine hrow _ _ _ ⟨h2.size, h2.state.dim⟩ ?_ ?_
    · have := h9 0 (by simp) 0 (by simp [planeMmdn, planeFuncs])
      rw [hX, hα, hstep] at this
      simpa [at2] using this
    · have := h9 0 (by simp) 1 (by simp [planeMmdn, planeFuncs, Funcs.nDual])
      rw [hX, hα, hstep] at this
      simpa [at2] using this
  -- the residuals
  set E1 := Real.exp (-(729 / 1568)) with hE1
  have hE1' : E1 = Real.exp (-((-6 / 7 - τ 0) ^ 2 + (6 / 7 - τ 1) ^ 2)) := by rw [hE1, τ0, τ1]; norm_num
  have hlt : 7 / 9 * E < E1 := by
    have e1 : E1 = E * Real.exp (-(9 / 49)) := by
      rw [hE, hE1, ← Real.exp_add]; norm_num
    have e2 : 7 / 9 < Real.exp (-(9 / 49)) := lt_of_lt_of_le (by norm_num) (Real.add_one_le_exp (-(9 / 49)))
    rw [e1]
    nlinarith
  have hn0 := plane_norm τ 0 0 E hE'
  have hn1 := plane_norm τ (-6 / 7) (6 / 7) E1 hE1'
  rcases h planeMmdn 1 s s' M0 M1 T ha planeMmdn_smooth oneSolve_sound (fun _ => rfl) b2 h1 h4 _ _
    (by rw [hX, hM1]; exact hn0) (by rw [hX', hM1]; exact hn1) with hle | heq
  · rw [Real.sqrt_le_sqrt_iff (by positivity), τ0, τ1] at hle
    nlinarith
  · rw [hX', hX, hstep] at heq
    simp [movedBy, moved] at heq

end Verif.Props
