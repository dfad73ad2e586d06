import Verif.Opt.PrecondLemmas
import Verif.HVD.ChainLine
import Verif.Props.MMDNDescent
import Verif.Props.HVN
import Verif.Props.DpN
import Mathlib.Analysis.Calculus.FDeriv.Symmetric

/-!
# C73: with preconditioning the Newton directions improve the indicator
-/

namespace Verif.Props

open Verif.Opt Verif.Ind Verif.Util Verif.HV Verif.HVD

/-! ### The MMD Newton method -/

/-- C73, `MMDNewton`: with preconditioning and without constraints, small steps along the direction of an iteration
decrease the indicator for the targets of the iteration, unless its gradient is zero. -/
theorem C73_mmd {a : Mmdn} (ha : a.Ok) (hsm : MmdSmooth a) {chol : Chol} (hc : ∀ n, IsCholesky (chol n))
    (hp : a.precond = precondTable chol) (hsol : SolverSound a.solve) (h0 : a.p.nDual = 0) {N : ℕ} {s : MmdnState}
    (hs : MmdnReady a N s) :
    ∃ s' M0 M1 T G H, a.iterate s = some s' ∧ MmdnTargets a s s' M0 M1 T ∧ MmdGrad a T s.state.X G ∧
      MmdHess a T s.state.X H ∧ (EigenAbove N a.p.nVar H → (∃ i < N, ∃ v < a.p.nVar, G i v ≠ 0) →
        DecreasesAlong fun t => mmdValue a T fun i : Fin s.state.X.length =>
          objVec a fun v => pt (s.state.X.getD i []) v + t * at2 s'.step i v) := by
  obtain ⟨s', M0, M1, T, G, H, α, h1, -, -, h4, h5, -⟩ := C72_iteration_partial ha hs
  obtain ⟨d1, d2, d3⟩ := h5.derivs hsm
  refine ⟨s', M0, M1, T, G, H, h1, h4, d1, d2, fun hH hG => ?_⟩
  obtain ⟨A, hA⟩ := TableOf.exists s.state.X.length a.p.nVar H
  have hN := hs.size
  rw [← hN] at hH hG
  obtain ⟨⟨z, hz⟩, e2⟩ := precond_system hc hA d3 hH G
  have hnw := h5.newton A hA hsol ⟨z, fun i hi => ⟨fun v hv => by
      simp only [h0, Finset.range_zero, Finset.sum_empty, add_zero, hp]
      exact hz i hi v hv, fun k hk => absurd hk (by omega)⟩⟩
  have hneg := e2 (at2 s'.step) (fun i hi v hv => by
    have := (hnw i hi).1.1 v hv
    simp only [h0, Finset.range_zero, Finset.sum_empty, add_zero, hp] at this
    exact this) hG
  refine decreasesAlong_of_deriv (d := ∑ i ∈ Finset.range s.state.X.length, ∑ v ∈ Finset.range a.p.nVar,
    G i v * at2 s'.step i v) ?_ hneg
  have hline : HasDerivAt (fun t : ℝ => fun (i : Fin s.state.X.length) (v : Fin a.p.nVar) =>
      pt (s.state.X.getD i []) v + t * at2 s'.step i v) (fun i v => at2 s'.step i v) 0 := by
    rw [hasDerivAt_pi]
    intro i
    rw [hasDerivAt_pi]
    intro v
    simpa using ((hasDerivAt_id' (0 : ℝ)).mul_const (at2 s'.step i v)).const_add (pt (s.state.X.getD i []) v)
  have hcomp := HasFDerivAt.comp_hasDerivAt_of_eq 0 (y := fun (i : Fin s.state.X.length) (v : Fin a.p.nVar) =>
    pt (s.state.X.getD i []) v) d1 hline (by simp)
  refine hcomp.congr_deriv ?_
  simp [lin2, Finset.sum_range]

/-! ### The hypervolume Newton method -/

/-- The objectives have the derivative given by the Jacobian along every line through a point of `P`. -/
def HasDerivsAlong (p : Problem ℝ) (P : List (ℕ → ℝ)) : Prop :=
  ∀ x ∈ P, ∀ w : ℕ → ℝ, ∀ k < p.nObj, HasDerivAt (fun t => p.func (fun v => x v + t * w v) k)
    (∑ v ∈ Finset.range p.nVar, p.jac x k v * w v) 0

/-- C73, `HVN`: with preconditioning and without constraints, small steps along the direction of a layer in general
position increase its hypervolume, unless the gradient is zero; for up to five objectives. Missing are more objectives,
for which the Hessian is wrong (C14). -/
theorem C73_hv_partial {a : Hvn ℝ} {N0 : ℕ} (ha : a.Ok N0) (hsol : SolverSound a.solve) (h5 : a.nObj ≤ 5)
    {chol : Chol} (hc : ∀ n, IsCholesky (chol n)) (hp : a.precond = precondTableNeg chol) (h0 : a.p.nDual = 0)
    {t : State ℝ} (ht : Usable a.p (a.p.nVar + a.p.nDual) N0 t) {P : List (ℕ → ℝ)} (hP : P = (a.p.primal t.X).map pt)
    (hD : HasDerivs a.problem P) (hL : HasDerivsAlong a.problem P)
    (hg : GeneralPosition a.nObj (P.map a.problem.func) (pt a.ref))
    (hr : InRange a.nObj (P.map a.problem.func) (pt a.ref)) :
    ∃ (S R : List (List ℝ)) (G : ℕ → ℕ → ℝ) (H : ℕ → ℕ → ℕ → ℕ → ℝ), a.newton t = some (S, R) ∧
      (∀ i < P.length, ∀ v < a.p.nVar,
        HasDerivAt (fun t => hvX a.problem (setCoord P i v t)) (G i v) (ptOf P i v) ∧
        ∀ j < P.length, ∀ w < a.p.nVar,
          HasDerivAt (fun t => deriv (fun s => hvX a.problem (setCoord (setCoord P j w t) i v s))
            (ptOf (setCoord P j w t) i v)) (H i v j w) (ptOf P j w)) ∧
      (EigenAbove P.length a.p.nVar (fun i v j w => -H i v j w) → (∃ i < P.length, ∃ v < a.p.nVar, G i v ≠ 0) →
        IncreasesAlong fun t => hvX a.problem (lineOf P (at2 S) t)) := by
  obtain ⟨S, R, G, H, h1, h2, h3, -, h4⟩ := C69_direction_partial ha hsol h5 ht hP hD hg hr
  refine ⟨S, R, G, H, h1, h2, fun hH hG => ?_⟩
  obtain ⟨A, hA⟩ := TableOf.exists P.length a.p.nVar H
  obtain ⟨⟨z, hz⟩, e2⟩ := precondNeg_system hc hA h3 hH G
  have hnw := h4 A hA ⟨z, fun i hi => ⟨fun v hv => by
      simp only [h0, Finset.range_zero, Finset.sum_empty, add_zero, zero_mul, Finset.sum_const_zero, hp]
      exact hz i hi v hv, fun k hk => absurd hk (by omega)⟩⟩
  have hpos := e2 (at2 S) (fun i hi v hv => by
    have := (hnw i hi).1.1 v hv
    simp only [h0, Finset.range_zero, Finset.sum_empty, add_zero, zero_mul, Finset.sum_const_zero, hp] at this
    exact this) hG
  have hline := chain_line (n := a.p.nVar) (J := a.problem.jac) (W := at2 S) hg fun i hi k hk =>
    hL _ (mem_iff_ptOf.mpr ⟨i, hi, rfl⟩) (at2 S i) k hk
  refine increasesAlong_of_deriv hline (lt_of_lt_of_eq hpos ?_)
  refine Finset.sum_congr rfl fun i hi => Finset.sum_congr rfl fun v hv => ?_
  have hi := Finset.mem_range.mp hi
  have hv := Finset.mem_range.mp hv
  exact congrArg (· * at2 S i v) ((h2 i hi v hv).1.unique (chain_first hg hi fun k hk => hD.jac_self hi hk hv))

/-! ### The Delta-p Newton method -/

/-- The value of which `dpGrad` and `dpHess` are the derivatives: the scaled squared distance of the image to the
target. -/
noncomputable def dpValue (a : Dpn ℝ) (useGd : Bool) (N : ℕ) (x : Fin a.p.nVar → ℝ) (τ : ℕ → ℝ) : ℝ :=
  (if useGd then 1 / (N : ℝ) else 1) * ∑ k ∈ Finset.range a.nObj, (pt (a.p.func.point (List.ofFn x)) k - τ k) ^ 2

/-- The callbacks of the objectives are derivatives. -/
structure DpnSmooth (a : Dpn ℝ) : Prop where
  jac : ∀ (x : Fin a.p.nVar → ℝ), ∀ k < a.nObj, HasFDerivAt (fun x : Fin a.p.nVar → ℝ => pt (a.p.func.point (List.ofFn x)) k)
    (lin fun v => pt (a.p.jac.point (List.ofFn x)) (k * a.p.nVar + v)) x
  hess : ∀ (x : Fin a.p.nVar → ℝ), ∀ k < a.nObj, ∀ v : Fin a.p.nVar,
    HasFDerivAt (fun x : Fin a.p.nVar → ℝ => pt (a.p.jac.point (List.ofFn x)) (k * a.p.nVar + v))
      (lin fun w => pt (a.hess (List.ofFn x)) ((k * a.p.nVar + v) * a.p.nVar + w)) x

/-- C71: the gradient is that of the scaled squared distance to the target. -/
theorem C71_gradient {a : Dpn ℝ} (h : DpnSmooth a) (useGd : Bool) (N : ℕ) (τ : ℕ → ℝ) (x : Fin a.p.nVar → ℝ) :
    HasFDerivAt (fun x => dpValue a useGd N x τ) (lin fun v => dpGrad a useGd N (List.ofFn x) τ v) x := by
  have h1 : ∀ k ∈ Finset.range a.nObj, HasFDerivAt (fun x : Fin a.p.nVar → ℝ => (pt (a.p.func.point (List.ofFn x)) k - τ k) ^ 2)
      (lin fun v => 2 * (pt (a.p.func.point (List.ofFn x)) k - τ k) * pt (a.p.jac.point (List.ofFn x)) (k * a.p.nVar + v)) x := by
    intro k hk
    refine (((h.jac x k (Finset.mem_range.mp hk)).sub_const (τ k)).pow 2).congr_fderiv ?_
    ext v
    simp [mul_assoc, Finset.mul_sum]
  refine ((HasFDerivAt.fun_sum h1).const_mul (if useGd then 1 / (N : ℝ) else 1)).congr_fderiv ?_
  ext v
  simp only [dpGrad, ContinuousLinearMap.smul_apply, ContinuousLinearMap.sum_apply, lin_apply, smul_eq_mul]
  rw [Finset.sum_comm, Finset.mul_sum]
  refine Finset.sum_congr rfl fun w _ => ?_
  rw [Finset.mul_sum, Finset.mul_sum, Finset.sum_mul]
  refine Finset.sum_congr rfl fun k _ => ?_
  split <;> ring

/-- C71: the Hessian is the derivative of the gradient. -/
theorem C71_hessian {a : Dpn ℝ} (h : DpnSmooth a) (useGd : Bool) (N : ℕ) (τ : ℕ → ℝ) (x : Fin a.p.nVar → ℝ) (v : Fin a.p.nVar) :
    HasFDerivAt (fun x : Fin a.p.nVar → ℝ => dpGrad a useGd N (List.ofFn x) τ v)
      (lin fun w => dpHess a useGd N (List.ofFn x) τ v w) x := by
  have h1 : ∀ k ∈ Finset.range a.nObj, HasFDerivAt (fun x : Fin a.p.nVar → ℝ =>
      pt (a.p.jac.point (List.ofFn x)) (k * a.p.nVar + v) * (pt (a.p.func.point (List.ofFn x)) k - τ k))
      (lin fun w => pt (a.p.jac.point (List.ofFn x)) (k * a.p.nVar + v) * pt (a.p.jac.point (List.ofFn x)) (k * a.p.nVar + w) +
        pt (a.hess (List.ofFn x)) ((k * a.p.nVar + v) * a.p.nVar + w) * (pt (a.p.func.point (List.ofFn x)) k - τ k)) x := by
    intro k hk
    have hk := Finset.mem_range.mp hk
    refine ((h.hess x k hk v).mul ((h.jac x k hk).sub_const (τ k))).congr_fderiv ?_
    ext w
    simp only [ContinuousLinearMap.add_apply, ContinuousLinearMap.smul_apply, lin_apply, smul_eq_mul, Finset.mul_sum,
      ← Finset.sum_add_distrib]
    exact Finset.sum_congr rfl fun w _ => by ring
  refine ((HasFDerivAt.fun_sum h1).const_mul (if useGd then 2 / (N : ℝ) else 2)).congr_fderiv ?_
  ext w
  simp only [dpHess, ContinuousLinearMap.smul_apply, ContinuousLinearMap.sum_apply, lin_apply, smul_eq_mul]
  rw [Finset.sum_comm, Finset.mul_sum]
  refine Finset.sum_congr rfl fun w _ => ?_
  rw [Finset.mul_sum, Finset.mul_sum, Finset.sum_mul]
  exact Finset.sum_congr rfl fun k _ => by ring

theorem hessian_symm {n : ℕ} {f : (Fin n → ℝ) → ℝ} {J : (Fin n → ℝ) → Fin n → ℝ} {H : Fin n → Fin n → ℝ} {x : Fin n → ℝ}
    (h1 : ∀ x, HasFDerivAt f (lin (J x)) x) (h2 : ∀ v, HasFDerivAt (fun x => J x v) (lin (H v)) x) (v w : Fin n) :
    H v w = H w v := by
  set L : (Fin n → ℝ) →L[ℝ] (Fin n → ℝ) →L[ℝ] ℝ := ∑ k : Fin n, (ContinuousLinearMap.proj (R := ℝ) (φ := fun _ : Fin n => ℝ) k).smulRight
    (ContinuousLinearMap.proj (R := ℝ) (φ := fun _ : Fin n => ℝ) k) with hL
  have hLl : ∀ c, L c = lin c := by
    intro c
    ext v
    simp [hL]
  have hJ : HasFDerivAt (fun x => lin (J x)) (L.comp (ContinuousLinearMap.pi fun v => lin (H v))) x := by
    have : (fun x => lin (J x)) = fun x => L (J x) := funext fun x => (hLl _).symm
    rw [this]
    exact L.hasFDerivAt.comp x (hasFDerivAt_pi.mpr h2)
  have := second_derivative_symmetric h1 hJ (Pi.single w 1) (Pi.single v 1)
  simpa [hLl, Pi.single_apply] using this

/-- C73, `DpN`: with preconditioning and without constraints, small steps along the Newton direction `n` of a point
decrease the indicator for its target, unless its gradient is zero. (The direction of the iteration is `n` after
the projection of `DpnMove`.) -/
theorem C73_dp {a : Dpn ℝ} (ha : a.Ok) (hsm : DpnSmooth a) {chol : Chol} (hc : ∀ n, IsCholesky (chol n))
    (hp : a.precond = precondTable chol) (hsol : SolverSound a.solve) (h0 : a.p.nDual = 0) {N : ℕ} {s : DpnState ℝ}
    (hs : DpnReady a N s) :
    ∃ s' M0 M1 T n, a.iterate s = some s' ∧ DpnTargets a s s' M0 M1 T ∧ (∀ i < N, DpnMove a s s' T n i) ∧
      ∀ i < N, EigenAbove 1 a.p.nVar (fun _ v _ w => dpHess a (a.gdActive s'.gd s'.igd) N
          ((s.state.X.getD i []).take a.p.nVar) (T.getD i 0) v w) →
        (∃ v < a.p.nVar, dpGrad a (a.gdActive s'.gd s'.igd) N ((s.state.X.getD i []).take a.p.nVar) (T.getD i 0) v ≠ 0) →
        DecreasesAlong fun t => dpValue a (a.gdActive s'.gd s'.igd) N
          (fun v => pt (s.state.X.getD i []) v + t * pt (n.getD i []) v) (T.getD i 0) := by
  obtain ⟨s', M0, M1, T, n, α, h1, -, -, h4, -, -, h5, -⟩ := C71_iteration ha hs
  refine ⟨s', M0, M1, T, n, h1, h4, h5, fun i hi hH hG => ?_⟩
  have hN := hs.size
  subst hN
  set b := a.gdActive s'.gd s'.igd with hb
  set x0 : Fin a.p.nVar → ℝ := fun v => pt (s.state.X.getD i []) v with hx0
  have hx : List.ofFn x0 = (s.state.X.getD i []).take a.p.nVar := Mmdn.ofFn_pt (m := a.p.nDual) (by
    rw [List.getD_eq_getElem _ _ hi]
    exact hs.state.dim _ (List.getElem_mem hi))
  have hsym : SymmetricIn 1 a.p.nVar (fun _ v _ w => dpHess a b s.state.X.length
      ((s.state.X.getD i []).take a.p.nVar) (T.getD i 0) v w) := by
    intro _ _ v hv _ _ w hw
    rw [← hx]
    exact hessian_symm (J := fun x v => dpGrad a b s.state.X.length (List.ofFn x) (T.getD i 0) v)
      (H := fun v w => dpHess a b s.state.X.length (List.ofFn x0) (T.getD i 0) v w)
      (fun x => C71_gradient hsm _ _ _ x) (fun v => C71_hessian hsm _ _ _ x0 v) ⟨v, hv⟩ ⟨w, hw⟩
  obtain ⟨A, hA⟩ := TableOf.exists 1 a.p.nVar (fun _ v _ w => dpHess a b s.state.X.length
    ((s.state.X.getD i []).take a.p.nVar) (T.getD i 0) v w)
  obtain ⟨⟨z, hz⟩, e2⟩ := precond_system hc hA hsym hH fun _ v => dpGrad a b s.state.X.length
    ((s.state.X.getD i []).take a.p.nVar) (T.getD i 0) v
  simp only [Finset.range_one, Finset.sum_singleton, zero_mul, zero_add, Nat.lt_one_iff, forall_eq, exists_eq_left] at hz e2
  have hnw := (h5 i hi).newton A (by simpa using hA.1) (fun v hv w hw => by
    have := hA.2 0 one_pos v hv 0 one_pos w hw
    simpa using this) hsol ⟨z 0, fun v hv => by
      simp only [h0, Finset.range_zero, Finset.sum_empty, add_zero, zero_mul, Finset.sum_const_zero, hp]
      exact hz v hv, fun k hk => absurd hk (by omega)⟩
  have hneg := e2 (fun _ => pt (n.getD i [])) (fun v hv => by
    have := hnw.1 v hv
    simp only [h0, Finset.range_zero, Finset.sum_empty, add_zero, zero_mul, Finset.sum_const_zero, hp] at this
    exact this) hG
  refine decreasesAlong_of_deriv ?_ hneg
  have hline : HasDerivAt (fun t : ℝ => fun (v : Fin a.p.nVar) => pt (s.state.X.getD i []) v + t * pt (n.getD i []) v)
      (fun v => pt (n.getD i []) v) 0 := by
    rw [hasDerivAt_pi]
    intro v
    simpa using ((hasDerivAt_id' (0 : ℝ)).mul_const (pt (n.getD i []) v)).const_add (pt (s.state.X.getD i []) v)
  have hcomp := HasFDerivAt.comp_hasDerivAt_of_eq 0 (y := x0)
    (C71_gradient hsm b s.state.X.length (T.getD i 0) x0) hline (by simp [hx0])
  refine hcomp.congr_deriv ?_
  rw [hx]
  simp [Finset.sum_range]

/-! ### Examples -/

/-- A Cholesky factorization. -/
noncomputable def someChol : Chol := fun n => (exists_isCholesky n).choose

theorem someChol_spec (n : ℕ) : IsCholesky (someChol n) := (exists_isCholesky n).choose_spec

/-- The problem of `planeMmdn` with another preconditioning. -/
noncomputable def planeWith (f : List (List ℝ) → List (List ℝ)) : Mmdn := { planeMmdn with precond := f }

theorem planeWith_ok {f : List (List ℝ) → List (List ℝ)} (hf : ∀ m A, IsMat m m A → IsMat m m (f A)) : (planeWith f).Ok where
  funcs := planeMmdn_ok.funcs
  env := planeMmdn_ok.env
  nonneg := planeMmdn_ok.nonneg
  xl := rfl
  xu := rfl
  solve := planeMmdn_ok.solve
  precond := hf
  jac := planeMmdn_ok.jac

theorem planeWith_smooth (f : List (List ℝ) → List (List ℝ)) : MmdSmooth (planeWith f) :=
  ⟨planeMmdn_smooth.jac, planeMmdn_smooth.hess, planeMmdn_smooth.symm, planeMmdn_smooth.stationary, planeMmdn_smooth.diff⟩

/-- A reference point that is `(-1, 1)` after the first shift. -/
noncomputable def farRef : RefSet (ℕ → ℝ) :=
  RefSet.new [[fun k => if k = 0 then -23 / 25 else 23 / 25]] [fun k => if k = 0 then -1 else 1] none

/-- From the origin, the derivatives in the first iteration: the Hessian is indefinite. -/
theorem planeWith_first {f : List (List ℝ) → List (List ℝ)} (hf : ∀ m A, IsMat m m A → IsMat m m (f A)) :
    ∃ s, (planeWith f).start farRef [[0, 0]] = some s ∧ MmdnReady (planeWith f) 1 s ∧ s.state.X = [[0, 0]] ∧
      ∀ s' M0 M1 T, MmdnTargets (planeWith f) s s' M0 M1 T →
        T = [fun k => if k = 0 then -1 else 1] ∧
        ∀ G H, MmdGrad (planeWith f) T s.state.X G → MmdHess (planeWith f) T s.state.X H →
          G 0 0 = 4 * Real.exp (-2) ∧ G 0 1 = -4 * Real.exp (-2) ∧
          H 0 0 0 0 = -4 * Real.exp (-2) ∧ H 0 1 0 1 = -4 * Real.exp (-2) ∧
          H 0 0 0 1 = 8 * Real.exp (-2) ∧ H 0 1 0 0 = 8 * Real.exp (-2) := by
  have ha := planeWith_ok hf
  obtain ⟨s, b1, b2, b3, -, b4, -⟩ := (C72_start ha (S := farRef) (X0 := [[0, 0]]) (by simp)
    (fun _ => ⟨⟨_, rfl, by simp⟩, rfl, rfl, rfl⟩) (by simp [planeWith, planeMmdn]) (fun d hd => by
      have hd : d < 2 := hd
      interval_cases d <;> simp [planeWith, planeMmdn])).2 (by simp [planeWith, planeMmdn, planeFuncs])
  have hX : s.state.X = [[0, 0]] := by
    have e : (planeWith f).clipRow [0, 0] = [0, 0] := by simp [Mmdn.clipRow, planeWith, planeMmdn]
    unfold Mmdn.start at b1
    rw [if_pos (by simp [planeWith, planeMmdn, planeFuncs])] at b1
    obtain ⟨t, t1, rfl⟩ := Option.map_eq_some_iff.mp b1
    rw [List.map_cons, List.map_nil, e] at t1
    obtain ⟨t', u1, u2, -⟩ := Usable.update ha.funcs
      (Nat.le_add_right (planeWith f).p.nVar (planeWith f).p.nDual) State.init (N0 := 1)
      (X := [[0, 0] ++ List.replicate (planeWith f).p.nDual 0]) (by simp) (by simp)
      (by simp [planeWith, planeMmdn, planeFuncs, Funcs.nDual])
    obtain rfl : t = t' := Option.some.inj (t1.symm.trans u1)
    exact u2
  refine ⟨s, b1, b2, hX, fun s' M0 M1 T h4 => ?_⟩
  obtain ⟨m1, m2, m3, m4, -⟩ := h4.matched rfl
  have hM0 : M0 = [fun k => if k = 0 then -23 / 25 else 23 / 25] := by
    have hs := m2 (by rw [b4]; intro old h; simp [farRef, RefSet.new] at h)
    rw [b4] at hs
    have hl : M0.length = 1 := by rw [m3.1, mmdImages, hX]; rfl
    exact List.perm_singleton.mp (hs.perm_of_length_le (by rw [hl]; simp [farRef, RefSet.new]))
  have hM1 : M1 = [fun k => if k = 0 then -1 else 1] := by
    obtain ⟨l1, l2⟩ := m4
    have := (((l2 0).1 _ (fun k => if k = 0 then -1 else 1) (by rw [hM0]; rfl) (by rw [b4]; rfl)).1 (.inl b3)).1
    have hl : M1.length = 1 := by rw [l1, hM0]; rfl
    obtain ⟨r, rfl⟩ := List.length_eq_one_iff.mp hl
    have e := Option.some.inj this
    rw [e]
    congr 1
    funext k
    simp only [Pi.add_apply, Pi.smul_apply, smul_eq_mul]
    split <;> norm_num
  have hT : T = [fun k => if k = 0 then -1 else 1] := by
    have := h4.targets
    rw [MmdTargets, if_pos (show (planeWith f).matching = true from rfl)] at this
    obtain ⟨-, t1⟩ := this
    rw [if_neg (by simp), hM1] at t1
    exact List.perm_singleton.mp t1.1
  refine ⟨hT, fun G H hG hH => ?_⟩
  rw [hX, hT] at hG hH
  obtain ⟨g0, g1⟩ := plane_grad (τ := fun k => if k = 0 then -1 else 1) (x := 0) (y := 0) (G := G) hG
  obtain ⟨p1, p2, p3, p4⟩ := plane_hess (τ := fun k => if k = 0 then -1 else 1) (x := 0) (y := 0) (H := H) hH
    (Real.exp (-2)) (by norm_num)
  norm_num at g0 g1 p1 p2 p3 p4
  exact ⟨g0, by linarith, by linarith, by linarith, p3, p4⟩

/-- The hypotheses of `C73_mmd` and of its conclusion, for an indefinite Hessian. -/
example : ∃ s s' T, (planeWith (precondTable someChol)).start farRef [[0, 0]] = some s ∧
    (planeWith (precondTable someChol)).iterate s = some s' ∧
    DecreasesAlong fun t => mmdValue (planeWith (precondTable someChol)) T fun i : Fin s.state.X.length =>
      objVec (planeWith (precondTable someChol)) fun v => pt (s.state.X.getD i []) v + t * at2 s'.step i v := by
  have hf : ∀ m A, IsMat m m A → IsMat m m (precondTable someChol A) := fun m A h => precondTable_isMat _ h
  obtain ⟨s, b1, b2, hX, h⟩ := planeWith_first hf
  obtain ⟨s', M0, M1, T, G, H, h1, h2, h3, h4, h5⟩ := C73_mmd (planeWith_ok hf) (planeWith_smooth _) someChol_spec rfl
    oneSolve_sound rfl b2
  obtain ⟨hT, hd⟩ := h _ _ _ _ h2
  obtain ⟨g0, g1, p1, p2, p3, p4⟩ := hd G H h3 h4
  have hE := Real.exp_pos (-2)
  have hE1 : Real.exp (-2) ≤ 1 := Real.exp_le_one_iff.mpr (by norm_num)
  refine ⟨s, s', T, b1, h1, h5 ?_ ⟨0, one_pos, 0, two_pos, by rw [g0]; positivity⟩⟩
  rintro z ⟨i, hi, v, hv, hz⟩
  obtain rfl : i = 0 := Nat.lt_one_iff.mp hi
  have hz : 0 < z 0 0 ^ 2 + z 0 1 ^ 2 := by
    have hv : v < 2 := hv
    interval_cases v <;> positivity
  show 0 < ∑ i ∈ Finset.range 1, ∑ v ∈ Finset.range 2, _ + _ * ∑ i ∈ Finset.range 1, ∑ v ∈ Finset.range 2, _
  rw [show (planeWith (precondTable someChol)).p.nVar = 2 from rfl]
  simp only [Finset.sum_range_succ, Finset.sum_range_zero, zero_add, p1, p2, p3, p4]
  nlinarith [mul_nonneg hE.le (sq_nonneg (z 0 0 + z 0 1)), mul_le_mul_of_nonneg_right hE1 hz.le]

/-- Without preconditioning the direction of this iteration does not improve the indicator. -/
theorem C73_needed : ∃ s s' T, (planeWith id).start farRef [[0, 0]] = some s ∧ (planeWith id).iterate s = some s' ∧
    (∃ M0 M1, MmdnTargets (planeWith id) s s' M0 M1 T) ∧
    ¬ DecreasesAlong fun t => mmdValue (planeWith id) T fun i : Fin s.state.X.length =>
      objVec (planeWith id) fun v => pt (s.state.X.getD i []) v + t * at2 s'.step i v := by
  obtain ⟨s, b1, b2, hX, h⟩ := planeWith_first (f := id) fun _ _ h => h
  obtain ⟨s', M0, M1, T, G, H, α, h1, -, -, h4, h5, -⟩ := C72_iteration_partial (planeWith_ok (f := id) fun _ _ h => h) b2
  obtain ⟨hT, hd⟩ := h _ _ _ _ h4
  obtain ⟨d1, d2, -⟩ := h5.derivs (planeWith_smooth id)
  obtain ⟨g0, g1, p1, p2, p3, p4⟩ := hd G H d1 d2
  have hE := Real.exp_pos (-2)
  have hnw := h5.newton_id (fun _ => rfl) oneSolve_sound
  have hst : at2 s'.step 0 0 = 1 / 3 ∧ at2 s'.step 0 1 = -1 / 3 := by
    rw [hX] at hnw
    have e := (hnw ⟨fun _ w => if w = 0 then 1 / 3 else -1 / 3, fun i hi => by
      obtain rfl : i = 0 := Nat.lt_one_iff.mp hi
      refine ⟨fun v hv => ?_, fun k hk => absurd hk (by simp [planeWith, planeMmdn, planeFuncs, Funcs.nDual])⟩
      have hv : v < 2 := hv
      interval_cases v
      · simp [planeWith, planeMmdn, planeFuncs, Funcs.nDual, Finset.sum_range_succ, g0, p1, p3]
        ring
      · simp [planeWith, planeMmdn, planeFuncs, Funcs.nDual, Finset.sum_range_succ, g1, p2, p4]
        ring⟩ 0 (by simp)).1.1
    have e0 := e 0 (by simp [planeWith, planeMmdn, planeFuncs])
    have e1 := e 1 (by simp [planeWith, planeMmdn, planeFuncs])
    simp [planeWith, planeMmdn, planeFuncs, Funcs.nDual, Finset.sum_range_succ, g0, p1, p3] at e0
    simp [planeWith, planeMmdn, planeFuncs, Funcs.nDual, Finset.sum_range_succ, g1, p2, p4] at e1
    have q0 : Real.exp (-2) * (-4 * at2 s'.step 0 0 + 8 * at2 s'.step 0 1 + 4) = 0 := by linarith
    have q1 : Real.exp (-2) * (8 * at2 s'.step 0 0 - 4 * at2 s'.step 0 1 - 4) = 0 := by linarith
    have q0 := (mul_eq_zero.mp q0).resolve_left hE.ne'
    have q1 := (mul_eq_zero.mp q1).resolve_left hE.ne'
    constructor <;> linarith
  refine ⟨s, s', T, b1, h1, ⟨M0, M1, h4⟩, ?_⟩
  rintro ⟨ε, hε, hdec⟩
  set t := min (ε / 2) 1 with ht
  have ht0 : 0 < t := lt_min (by linarith) one_pos
  have ht1 : t ≤ 1 := min_le_right _ _
  have := hdec t ht0 (lt_of_le_of_lt (min_le_left _ _) (by linarith))
  have hval : ∀ t, (mmdValue (planeWith id) T fun i : Fin s.state.X.length =>
      objVec (planeWith id) fun v => pt (s.state.X.getD i []) v + t * at2 s'.step i v) =
      9 / 4 - 2 * Real.exp (-(2 * (1 + t / 3) ^ 2)) := by
    intro t
    rw [hT, hX]
    have e := plane_value (fun k => if k = 0 then -1 else 1) fun (i : Fin 1) v => pt ([[0, 0]].getD i []) v + t * at2 s'.step i v
    refine Eq.trans e ?_
    congr 3
    have v0 : ((0 : Fin 2) : ℕ) = 0 := rfl
    have v1 : ((1 : Fin 2) : ℕ) = 1 := rfl
    simp only [planeSq, Fin.val_zero, v0, v1, hst.1, hst.2]
    simp [pt]
    ring
  beta_reduce at this
  rw [hval, hval] at this
  have : Real.exp (-(2 * (1 + 0 / 3) ^ 2)) < Real.exp (-(2 * (1 + t / 3) ^ 2)) := by linarith
  rw [Real.exp_lt_exp] at this
  nlinarith

/-- The problem of `lineDpn` with preconditioning. -/
noncomputable def lineDpnPre : Dpn ℝ := { lineDpn .deltap Real.sqrt with precond := precondTable someChol }

theorem lineDpnPre_ok : lineDpnPre.Ok where
  funcs := lineFuncs_ok
  env := bruteEnv_sound _ _
  xl := rfl
  xu := rfl
  solve := fun A b _ => oneSolve_length A b
  precond := fun _ _ h => precondTable_isMat _ h
  norm := fun _ => rfl
  jac := by intro h; simp [Funcs.constrained, lineDpnPre, lineDpn, lineFuncs] at h

theorem lineDpnPre_smooth : DpnSmooth lineDpnPre where
  jac := by
    intro (x : Fin 1 → ℝ) k hk
    have hk : k < 2 := hk
    show HasFDerivAt (fun x : Fin 1 → ℝ => pt [x 0, 1 - x 0] k) (lin fun v : Fin 1 => pt [1, -1] (k * 1 + v)) x
    have h0 : HasFDerivAt (fun x : Fin 1 → ℝ => x 0)
        (ContinuousLinearMap.proj (R := ℝ) (φ := fun _ : Fin 1 => ℝ) 0) x := hasFDerivAt_apply 0 x
    interval_cases k
    · refine h0.congr_fderiv ?_
      ext v; simp [pt]
    · refine (h0.const_sub 1).congr_fderiv ?_
      ext v; simp [pt]
  hess := by
    intro (x : Fin 1 → ℝ) k hk (v : Fin 1)
    have hk : k < 2 := hk
    show HasFDerivAt (fun x : Fin 1 → ℝ => pt [1, -1] (k * 1 + v)) (lin fun w : Fin 1 => pt [0, 0] ((k * 1 + v) * 1 + w)) x
    refine (hasFDerivAt_const _ x).congr_fderiv ?_
    ext w
    interval_cases k <;> simp [pt]

/-- The reference point `(0, 1)` with the direction `(-1, -1)`. -/
noncomputable def cornerRefR : RefSet (ℕ → ℝ) := RefSet.new [[fun k => if k = 1 then 1 else 0]] [fun _ => -1] none

/-- The hypotheses of `C73_dp` and of its conclusion. -/
example : ∃ (s s' : DpnState ℝ) (T : List (ℕ → ℝ)) (n : List (List ℝ)), lineDpnPre.start cornerRefR [[1 / 4]] = some s ∧
    lineDpnPre.iterate s = some s' ∧ DecreasesAlong fun t => dpValue lineDpnPre (lineDpnPre.gdActive s'.gd s'.igd) 1
      (fun v => pt (s.state.X.getD 0 []) v + t * pt (n.getD 0 []) v) (T.getD 0 0) := by
  obtain ⟨s, h1, h2, h3, -, h4, -, h5⟩ := (C71_start lineDpnPre_ok (S := cornerRefR) (X0 := [[1 / 4]])
    (by simp) ⟨⟨_, rfl, by simp⟩, rfl, rfl, rfl⟩ rfl (fun d hd => by
      obtain rfl : d = 0 := Nat.lt_one_iff.mp hd
      simp [lineDpnPre, lineDpn])).2 (by simp [lineDpnPre, lineDpn, lineFuncs])
  obtain ⟨s', M0, M1, T, n, g1, g2, g3, g4⟩ := C73_dp lineDpnPre_ok lineDpnPre_smooth someChol_spec rfl oneSolve_sound rfl h2
  have hXl : s.state.X.length = 1 := h2.size
  have hx : (s.state.X.getD 0 []).getD 0 0 = 1 / 4 := by
    have := ((h5 0 one_pos).2 0 one_pos).2.2 (1 / 4) (by simp [lineDpnPre, lineDpn]) (by norm_num [lineDpnPre, lineDpn])
    simpa [sub_eq_zero] using this
  have hM0 : M0 = [fun k => if k = 1 then 1 else 0] := by
    have hs := g2.fresh (by rw [h4]; intro old h; simp [cornerRefR, RefSet.new] at h)
    rw [h4] at hs
    have hl : M0.length = 1 := by rw [g2.matched.1, images, List.length_map, hXl]
    exact List.perm_singleton.mp (hs.perm_of_length_le (by rw [hl]; simp [cornerRefR, RefSet.new]))
  have hM1 : M1 = [fun k => if k = 1 then 23 / 25 else -2 / 25] := by
    obtain ⟨l1, l2⟩ := g2.shifted
    have := (((l2 0).1 _ (fun _ => -1) (by rw [hM0]; rfl) (by rw [h4]; rfl)).1 (.inl h3)).1
    have hl : M1.length = 1 := by rw [l1, hM0]; rfl
    obtain ⟨r, rfl⟩ := List.length_eq_one_iff.mp hl
    have e := Option.some.inj this
    rw [e]
    congr 1
    funext k
    rw [if_pos h3]
    simp only [Pi.add_apply, Pi.smul_apply, smul_eq_mul]
    split <;> norm_num
  have hT : T.getD 0 0 = fun k => if k = 1 then 23 / 25 else -2 / 25 := by
    obtain ⟨t1, t2⟩ := g2.targets
    rw [hM1] at t2
    split at t2
    · simpa using (t2 0 (by rw [images, List.length_map, hXl]; exact one_pos)).1
    · rw [List.perm_singleton.mp t2.1]; rfl
  refine ⟨s, s', T, n, h1, g1, g4 0 one_pos ?_ ⟨0, one_pos, ?_⟩⟩
  · rintro z ⟨i, hi, v, hv, hz⟩
    obtain rfl : i = 0 := Nat.lt_one_iff.mp hi
    obtain rfl : v = 0 := Nat.lt_one_iff.mp hv
    have hz : 0 < z 0 0 ^ 2 := by positivity
    have e : dpHess lineDpnPre (lineDpnPre.gdActive s'.gd s'.igd) 1 ((s.state.X.getD 0 []).take lineDpnPre.p.nVar) (T.getD 0 0) 0 0 = 4 := by
      rw [dpHess, show lineDpnPre.nObj = 2 from rfl, show lineDpnPre.p.nVar = 1 from rfl]
      simp only [Finset.sum_range_succ, Finset.sum_range_zero]
      norm_num [lineDpnPre, lineDpn, lineFuncs, pt]
    rw [show lineDpnPre.p.nVar = 1 from rfl] at e ⊢
    simp only [Finset.sum_range_one]
    have : z 0 0 * (4 * z 0 0) + 8 * 10 ^ 6 * z 0 0 ^ 2 = (4 + 8 * 10 ^ 6) * z 0 0 ^ 2 := by ring
    refine lt_of_lt_of_eq ?_ (this.symm.trans (by rw [← e]; rfl))
    positivity
  · rw [hT, dpGrad, show lineDpnPre.nObj = 2 from rfl, show lineDpnPre.p.nVar = 1 from rfl]
    simp only [Finset.sum_range_succ, Finset.sum_range_zero]
    norm_num [lineDpnPre, lineDpn, lineFuncs, pt]
    simp only [List.getD_eq_getElem?_getD] at hx
    rw [hx]
    norm_num

/-- `lineHvn` with preconditioning. -/
noncomputable def lineHvnPre : Hvn ℝ := { lineHvn (2 : ℝ) 2 1 false with precond := precondTableNeg someChol }

theorem lineHvnPre_ok : lineHvnPre.Ok 2 :=
  { lineHvn_ok (2 : ℝ) 2 1 false with precond := fun _ _ h => precondTableNeg_isMat _ h }

theorem lineHvnPre_value {t : ℝ} (h0 : -1 ≤ t) (h1 : t ≤ 2) (s : ℝ) :
    hvX lineHvnPre.problem (setCoord (setCoord [pt [0]] 0 0 s) 0 0 t) = (2 - t) * (1 + t) := by
  have e : (setCoord (setCoord [pt [0]] 0 0 s) 0 0 t).map lineHvnPre.problem.func = [pt [t, 1 - t]] := by
    simp [setCoord, Hvn.problem, lineHvnPre, lineHvn, lineFuncs, Hvn.coords]
  rw [hvX, e, show lineHvnPre.problem.nObj = 2 from rfl, show lineHvnPre.problem.ref = pt [2, 2] from rfl,
    Spec.hvol_single fun i hi => by interval_cases i <;> simp [pt] <;> linarith]
  simp [Finset.prod_range_succ, pt]
  left
  ring

/-- The hypotheses of `C73_hv_partial` and of its conclusion, at `x = 0` with the hypervolume `(2 - x) (1 + x)`. -/
example : ∃ (s : State ℝ) (S R : List (List ℝ)), lineHvnPre.newton s = some (S, R) ∧
    IncreasesAlong fun t => hvX lineHvnPre.problem (lineOf [pt [0]] (at2 S) t) := by
  obtain ⟨s, h1, h2, h3, -⟩ := Usable.update (N0 := 2) (dim := 1) (lineFuncs_ok (K := ℝ)) le_rfl State.init
    (X := [[0]]) (by simp) (by simp) (by simp [lineFuncs])
  have hf : ∀ x, lineHvnPre.problem.func x = pt [x 0, 1 - x 0] := fun x => by
    simp [Hvn.problem, lineHvnPre, lineHvn, lineFuncs, Hvn.coords]
  have hj : ∀ x, lineHvnPre.problem.jac x = fun k v => pt [1, -1] (k * 1 + v) := fun x => rfl
  have hP : [pt [0]] = (lineHvnPre.p.primal s.X).map pt := by
    rw [h2]; simp [Funcs.primal, lineHvnPre, lineHvn, lineFuncs]
  have hm : ([pt [0]] : List (ℕ → ℝ)).map lineHvnPre.problem.func = [pt [0, 1]] := by
    rw [List.map_cons, hf]; simp [pt]
  obtain ⟨S, R, G, H, g1, g2, g3⟩ := C73_hv_partial lineHvnPre_ok oneSolve_sound (by show 2 ≤ 5; norm_num)
    someChol_spec rfl rfl h3 hP
    { jac := fun i hi w hw => Filter.Eventually.of_forall fun t k hk v hv => by
        obtain rfl : v = 0 := Nat.lt_one_iff.mp hv
        have hk : k < 2 := hk
        simp only [hf, hj, Function.update_self]
        interval_cases k
        · exact hasDerivAt_id' _
        · simpa [pt] using (hasDerivAt_id' _).const_sub (1 : ℝ)
      hess := fun i hi k hk v hv w hw => by
        have hk : k < 2 := hk
        obtain rfl : v = 0 := Nat.lt_one_iff.mp hv
        obtain rfl : w = 0 := Nat.lt_one_iff.mp hw
        simp only [hj]
        interval_cases k <;> exact hasDerivAt_const _ _
      symm := fun x k hk v hv w hw => by
        obtain rfl : v = 0 := Nat.lt_one_iff.mp hv
        obtain rfl : w = 0 := Nat.lt_one_iff.mp hw
        rfl }
    (by
      intro x hx w k hk
      have hk : k < 2 := hk
      have hl : HasDerivAt (fun t => x 0 + t * w 0) (w 0) 0 := by
        simpa using ((hasDerivAt_id' (0 : ℝ)).mul_const (w 0)).const_add (x 0)
      rw [show lineHvnPre.problem.nVar = 1 from rfl, Finset.sum_range_one]
      simp only [hf, hj]
      interval_cases k
      · simpa [pt] using hl
      · simpa [pt] using hl.const_sub 1)
    (by
      rw [hm]
      constructor
      · simp
      · intro q hq k hk
        have hk : k < 2 := hk
        obtain rfl : q = pt [0, 1] := by simpa using hq
        interval_cases k <;> norm_num [pt, lineHvnPre, lineHvn])
    (by
      rw [hm]
      intro q hq k hk
      have hk : k < 2 := hk
      refine le_trans ?_ ten_le
      obtain rfl : q = pt [0, 1] := by simpa using hq
      interval_cases k <;> norm_num [pt, lineHvnPre, lineHvn])
  obtain ⟨d1, d2⟩ := g2 0 (by simp) 0 (by show 0 < 1; norm_num)
  have d2 := d2 0 (by simp) 0 (by show 0 < 1; norm_num)
  have hp0 : ptOf [pt [0]] 0 0 = (0 : ℝ) := by simp [ptOf, pt]
  have hpt : ∀ t : ℝ, ptOf (setCoord [pt [0]] 0 0 t) 0 0 = t := fun t => by simp [ptOf, setCoord]
  have near : ∀ x : ℝ, -1 < x → x < 2 → ∀ᶠ t in nhds x, -1 < t ∧ t < 2 := fun x ha hb =>
    (lt_mem_nhds ha).and (gt_mem_nhds hb)
  have hq : ∀ x : ℝ, HasDerivAt (fun t : ℝ => (2 - t) * (1 + t)) (1 - 2 * x) x := fun x => by
    have := ((hasDerivAt_id' x).const_sub 2).mul ((hasDerivAt_id' x).const_add 1)
    refine this.congr_deriv ?_
    ring
  have hG : G 0 0 = 1 := by
    rw [hp0] at d1
    refine d1.unique (((hq 0).congr_deriv (by norm_num)).congr_of_eventuallyEq ?_)
    filter_upwards [near 0 (by norm_num) (by norm_num)] with t ht
    rw [← lineHvnPre_value ht.1.le ht.2.le 0]
    simp [setCoord]
  have hH : H 0 0 0 0 = -2 := by
    rw [hp0] at d2
    refine d2.unique (HasDerivAt.congr_of_eventuallyEq (f := fun t : ℝ => 1 - 2 * t)
      ((((hasDerivAt_id' (0 : ℝ)).const_mul 2).const_sub 1).congr_deriv (by norm_num)) ?_)
    filter_upwards [near 0 (by norm_num) (by norm_num)] with t ht
    rw [hpt]
    refine HasDerivAt.deriv ((hq t).congr_of_eventuallyEq ?_)
    filter_upwards [near t ht.1 ht.2] with r hr
    exact lineHvnPre_value hr.1.le hr.2.le t
  refine ⟨s, S, R, g1, g3 ?_ ⟨0, by simp, 0, one_pos, by rw [hG]; norm_num⟩⟩
  rintro z ⟨i, hi, v, hv, hz⟩
  obtain rfl : i = 0 := Nat.lt_one_iff.mp hi
  obtain rfl : v = 0 := Nat.lt_one_iff.mp hv
  rw [show lineHvnPre.p.nVar = 1 from rfl, show ([pt [0]] : List (ℕ → ℝ)).length = 1 from rfl]
  simp only [Finset.sum_range_one, hH]
  have : 0 < z 0 0 ^ 2 := by positivity
  nlinarith

end Verif.Props
