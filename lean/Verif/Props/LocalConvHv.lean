import Verif.Props.Lagrangian
import Verif.Opt.PrecondKeep

/-!
# C77: local convergence of `HVN` with the hypervolume

A nondegenerate stationary population of the Lagrangian attracts the iterations quadratically.
-/

namespace Verif.Props

open Verif.Opt Verif.HV Verif.HVD Verif.Util Verif.NDS Topology Metric

/-- `X` (rows of variables and multipliers) is a nondegenerate stationary population: objectives and constraints are
three times continuously differentiable at its points, with the derivatives that the callbacks return, the images are in
general position, within the range of the hypervolume, and do not dominate each other, the points are apart, the derivative
of the Lagrangian of the active constraints with respect to all unknowns vanishes, and its second derivative is regular. -/
structure CriticalPop (a : Hvn ℝ) (X : List (List ℝ)) : Prop where
  rows : ∀ x ∈ X, x.length = a.p.nVar + a.p.nDual
  obj : ∀ i < X.length, SmoothObjectives a (varsOf a X i)
  cstr : ∀ i < X.length, ∀ k < a.p.nDual, Smooth3 a.p.nVar (fun q => cVal a.p q k) (fun q v => cGrad a.p q k v)
    (fun q v w => cHess a.p q k v w) (varsOf a X i)
  general : GeneralPosition a.nObj ((List.range X.length).map fun i => pt (a.p.func.point (varsOf a X i))) (pt a.ref)
  range : ∀ i < X.length, ∀ k < a.nObj, pt a.ref k - pt (a.p.func.point (varsOf a X i)) k < 10 ^ 308
  nondom : ∀ i < X.length, ∀ j < X.length, i ≠ j →
    ∃ k < a.nObj, pt (a.p.func.point (varsOf a X j)) k < pt (a.p.func.point (varsOf a X i)) k
  apart : ∀ i < X.length, ∀ j < X.length, i ≠ j →
    ∃ d < a.p.nVar, 1 / 10 ^ 8 < |pt (varsOf a X i) d - pt (varsOf a X j) d|
  zero : fderiv ℝ (lagr a X) (entries (unknowns a X) X) = 0
  regular : ∀ s, fderiv ℝ (fderiv ℝ (lagr a X)) (entries (unknowns a X) X) s = 0 → s = 0

/-- Preconditioning is off, or it is `-1.0 * precondition_hessian(-1.0 * H)` and the second derivative of the hypervolume
with respect to the variables is negative definite at `X`. -/
def HvnPrecondHarmless (a : Hvn ℝ) (X : List (List ℝ)) : Prop :=
  (∀ A, a.precond A = A) ∨ ∃ chol : Chol, (∀ n, IsCholesky (chol n)) ∧ (∀ A, a.precond A = precondTableNeg chol A) ∧
    ∀ s : Fin X.length × Fin a.p.nVar → ℝ, s ≠ 0 →
      fderiv ℝ (fderiv ℝ (hvPop (N := X.length) a)) (fun q => pt (varsOf a X q.1) q.2) s s < 0

section

variable {a : Hvn ℝ} {X Z : List (List ℝ)}

/-! ### Populations and unknowns -/

theorem fill_entries {A : Finset (ℕ × ℕ)} {i c : ℕ} (h : (i, c) ∈ A) : fill A (entries A Z) i c = at2 Z i c := by
  rw [fill, dif_pos h]
  rfl

theorem pt_varsOf {i v : ℕ} (hv : v < a.p.nVar) : pt (varsOf a Z i) v = at2 Z i v := by
  simp only [varsOf, pt, at2, List.getD_eq_getElem?_getD, List.getElem?_take, hv, if_true]

theorem rowL_entries {i : ℕ} (hi : i < X.length) :
    rowL (unknowns a X) a.p.nVar i (entries (unknowns a X) Z) = vec a.p.nVar (varsOf a Z i) := by
  funext v
  rw [rowL_apply, fill_entries (var_mem hi v.2), ← pt_varsOf v.2]
  rfl

theorem varsOf_length (hr : ∀ x ∈ Z, x.length = a.p.nVar + a.p.nDual) {i : ℕ} (hi : i < Z.length) :
    (varsOf a Z i).length = a.p.nVar := by
  rw [varsOf, List.length_take, List.getD_eq_getElem Z _ hi, hr _ (List.getElem_mem hi)]
  omega

theorem ofFn_vec {n : ℕ} {q : List ℝ} (hq : q.length = n) : List.ofFn (vec n q) = q := by
  apply List.ext_getElem (by simp [hq])
  intro i h1 h2
  simp [vec, List.getElem?_eq_getElem h2]

theorem ofFn_row (hr : ∀ x ∈ Z, x.length = a.p.nVar + a.p.nDual) (hZ : Z.length = X.length) {i : ℕ} (hi : i < X.length) :
    List.ofFn (rowL (unknowns a X) a.p.nVar i (entries (unknowns a X) Z)) = varsOf a Z i := by
  rw [rowL_entries hi, ofFn_vec (varsOf_length hr (by omega))]

theorem popOf_entries (hr : ∀ x ∈ Z, x.length = a.p.nVar + a.p.nDual) (hZ : Z.length = X.length) :
    popOf (primL (unknowns a X) X.length a.p.nVar (entries (unknowns a X) Z)) = (a.p.primal Z).map pt := by
  apply List.ext_getElem (by simp [popOf, Funcs.primal, hZ])
  intro i h1 h2
  have hi : i < X.length := by rwa [popOf_length] at h1
  simp only [popOf, List.getElem_ofFn, rowU_primL, Funcs.primal, List.getElem_map]
  rw [ofFn_row hr hZ hi, varsOf, List.getD_eq_getElem Z _ (by omega)]

theorem map_func_fill (z : unknowns a X → ℝ) :
    (popOf (primL (unknowns a X) X.length a.p.nVar z)).map a.problem.func =
      (List.range X.length).map fun i => pt (a.p.func.point (List.ofFn (rowL (unknowns a X) a.p.nVar i z))) := by
  apply List.ext_getElem (by simp [popOf])
  intro i h1 h2
  rw [List.getElem_map, List.getElem_map, List.getElem_range]
  simp only [popOf, List.getElem_ofFn, Hvn.func_ofFn, rowU_primL]

theorem generalPosition_range {d N : ℕ} {y : ℕ → ℕ → ℝ} {ref : ℕ → ℝ} : GeneralPosition d ((List.range N).map y) ref ↔
    (∀ i < N, ∀ j < N, i ≠ j → ∀ k < d, y i k ≠ y j k) ∧ ∀ i < N, ∀ k < d, y i k < ref k := by
  constructor
  · intro hg
    refine ⟨?_, fun i hi k hk => hg.inside _ (List.mem_map.mpr ⟨i, List.mem_range.mpr hi, rfl⟩) k hk⟩
    have h := List.pairwise_map.mp hg.distinct
    intro i hi j hj hij k hk
    rcases lt_or_gt_of_ne hij with h' | h'
    · have := List.pairwise_iff_getElem.mp h i j (by simpa using hi) (by simpa using hj) h' k hk
      simpa using this
    · have := List.pairwise_iff_getElem.mp h j i (by simpa using hj) (by simpa using hi) h' k hk
      exact fun he => this (by simpa using he.symm)
  · rintro ⟨h1, h2⟩
    refine ⟨List.pairwise_map.mpr (List.pairwise_iff_getElem.mpr fun i j hi hj hij k hk => ?_), fun p hp k hk => ?_⟩
    · simp only [List.length_range] at hi hj
      rw [List.getElem_range, List.getElem_range]
      exact h1 i hi j hj hij.ne k hk
    · obtain ⟨i, hi, rfl⟩ := List.mem_map.mp hp
      exact h2 i (List.mem_range.mp hi) k hk

/-! ### What holds near a stationary population -/

/-- Image `k` of point `i`. -/
noncomputable def objAt (a : Hvn ℝ) (X : List (List ℝ)) (z : unknowns a X → ℝ) (i k : ℕ) : ℝ :=
  pt (a.p.func.point (List.ofFn (rowL (unknowns a X) a.p.nVar i z))) k

structure NearAt (a : Hvn ℝ) (X : List (List ℝ)) (z : unknowns a X → ℝ) : Prop where
  good : ∀ᶠ z in 𝓝 z, GoodAt a X z
  diff : DifferentiableAt ℝ (lagrF a X) z
  objs : ∀ i : Fin X.length, ∀ᶠ x in 𝓝 (rowU (primL (unknowns a X) X.length a.p.nVar z) i), ∀ k < a.nObj,
    Diff2 a.p.nVar (fun q => pt (a.p.func.point q) k) (fun q v => pt (a.p.jac.point q) (k * a.p.nVar + v))
      (fun q v w => pt (a.hess q) ((k * a.p.nVar + v) * a.p.nVar + w)) x
  ne : ∀ i < X.length, ∀ j < X.length, i ≠ j → ∀ k < a.nObj, objAt a X z i k ≠ objAt a X z j k
  inside : ∀ i < X.length, ∀ k < a.nObj, objAt a X z i k < pt a.ref k
  range : ∀ i < X.length, ∀ k < a.nObj, pt a.ref k - objAt a X z i k < 10 ^ 308
  nondom : ∀ i < X.length, ∀ j < X.length, i ≠ j → ∃ k < a.nObj, objAt a X z j k < objAt a X z i k
  apart : ∀ i < X.length, ∀ j < X.length, i ≠ j →
    ∃ d < a.p.nVar, 1 / 10 ^ 8 < |fill (unknowns a X) z i d - fill (unknowns a X) z j d|
  active : ∀ i < X.length, ∀ k < a.p.nDual,
    (IsActive a.p (List.ofFn (rowL (unknowns a X) a.p.nVar i z)) k ↔ IsActive a.p (varsOf a X i) k)

theorem all_lt {α : Type*} {l : Filter α} {N : ℕ} {p : ℕ → α → Prop} (h : ∀ i < N, ∀ᶠ x in l, p i x) :
    ∀ᶠ x in l, ∀ i < N, p i x := by
  have := (Finset.eventually_all (Finset.range N) (l := l) (p := p)).mpr fun i hi => h i (Finset.mem_range.mp hi)
  exact this.mono fun x hx i hi => hx i (Finset.mem_range.mpr hi)

theorem CriticalPop.row (h : CriticalPop a X) {i : ℕ} (hi : i < X.length) :
    rowL (unknowns a X) a.p.nVar i (entries (unknowns a X) X) = vec a.p.nVar (varsOf a X i) := rowL_entries hi

theorem CriticalPop.objAt_eq (h : CriticalPop a X) {i : ℕ} (hi : i < X.length) (k : ℕ) :
    objAt a X (entries (unknowns a X) X) i k = pt (a.p.func.point (varsOf a X i)) k := by
  rw [objAt, ofFn_row h.rows rfl hi]

theorem CriticalPop.obj_cont (h : CriticalPop a X) {i : ℕ} (hi : i < X.length) {k : ℕ} (hk : k < a.nObj) :
    ContinuousAt (fun z => objAt a X z i k) (entries (unknowns a X) X) := by
  have h1 := ((h.obj i hi).obj k hk).smooth.continuousAt
  rw [← h.row hi] at h1
  exact ContinuousAt.comp (g := fun x : Fin a.p.nVar → ℝ => pt (a.p.func.point (List.ofFn x)) k) h1
    (rowL (unknowns a X) a.p.nVar i).continuous.continuousAt

theorem CriticalPop.cstr_cont (h : CriticalPop a X) {i : ℕ} (hi : i < X.length) {k : ℕ} (hk : k < a.p.nDual) :
    ContinuousAt (fun z => cVal a.p (List.ofFn (rowL (unknowns a X) a.p.nVar i z)) k) (entries (unknowns a X) X) := by
  have h1 := (h.cstr i hi k hk).smooth.continuousAt
  rw [← h.row hi] at h1
  exact ContinuousAt.comp (g := fun x : Fin a.p.nVar → ℝ => cVal a.p (List.ofFn x) k) h1
    (rowL (unknowns a X) a.p.nVar i).continuous.continuousAt

theorem CriticalPop.hvPop_smooth (h : CriticalPop a X) : ContDiffAt ℝ 3 (hvPop (N := X.length) a)
    (primL (unknowns a X) X.length a.p.nVar (entries (unknowns a X) X)) := by
  refine hvPop_contDiffAt (fun i k hk => ?_) ?_
  · rw [rowU_primL, h.row i.2]
    exact ((h.obj i i.2).obj k hk).smooth
  · rw [map_func_fill]
    have := h.general
    rw [generalPosition_range] at this ⊢
    obtain ⟨g1, g2⟩ := this
    constructor
    · intro i hi j hj hij k hk
      rw [ofFn_row h.rows rfl hi, ofFn_row h.rows rfl hj]
      exact g1 i hi j hj hij k hk
    · intro i hi k hk
      rw [ofFn_row h.rows rfl hi]
      exact g2 i hi k hk

theorem CriticalPop.good (h : CriticalPop a X) : ∀ᶠ z in 𝓝 (entries (unknowns a X) X), GoodAt a X z := by
  have h1 := (primL (unknowns a X) X.length a.p.nVar).continuous.continuousAt.eventually
    (h.hvPop_smooth.eventually (by simp))
  have h2 : ∀ᶠ z in 𝓝 (entries (unknowns a X) X), ∀ i < X.length, ∀ k < a.p.nDual, Diff2 a.p.nVar
      (fun q => cVal a.p q k) (fun q v => cGrad a.p q k v) (fun q v w => cHess a.p q k v w)
      (rowL (unknowns a X) a.p.nVar i z) := by
    refine all_lt fun i hi => all_lt fun k hk => ?_
    have h3 := (h.cstr i hi k hk).eventually
    rw [← h.row hi] at h3
    exact (rowL (unknowns a X) a.p.nVar i).continuous.continuousAt.eventually h3
  filter_upwards [h1, h2] with z a b
  exact ⟨a, b⟩

theorem CriticalPop.lagr_smooth (h : CriticalPop a X) : ContDiffAt ℝ 3 (lagr a X) (entries (unknowns a X) X) := by
  rw [show lagr a X = _ from funext lagr_eq]
  refine ContDiffAt.add ?_ (ContDiffAt.sum fun i hi => ContDiffAt.sum fun k hk => ?_)
  · exact ContDiffAt.comp (g := hvPop (N := X.length) a) _ h.hvPop_smooth (primL _ _ _).contDiff.contDiffAt
  · by_cases hact : IsActive a.p (varsOf a X i) k
    · simp only [if_pos hact]
      refine (fillL (unknowns a X) i (a.p.nVar + k)).contDiff.contDiffAt.mul ?_
      have h1 := (h.cstr i (Finset.mem_range.mp hi) k (Finset.mem_range.mp hk)).smooth
      rw [← h.row (Finset.mem_range.mp hi)] at h1
      exact ContDiffAt.comp (g := fun x : Fin a.p.nVar → ℝ => cVal a.p (List.ofFn x) k) _ h1
        (rowL (unknowns a X) a.p.nVar i).contDiff.contDiffAt
    · simp only [if_neg hact]
      exact contDiffAt_const

theorem CriticalPop.lagrF_smooth (h : CriticalPop a X) : ContDiffAt ℝ 2 (lagrF a X) (entries (unknowns a X) X) :=
  contDiffAt_pi.mpr fun q => (h.lagr_smooth.fderiv_right (m := 2) (by norm_num)).clm_apply contDiffAt_const

theorem CriticalPop.lagrF_zero (h : CriticalPop a X) : lagrF a X (entries (unknowns a X) X) = 0 := by
  funext q
  rw [lagrF, h.zero]
  rfl

/-- The active constraints hold. -/
theorem CriticalPop.cstr_zero (h : CriticalPop a X) {i : ℕ} (hi : i < X.length) {k : ℕ} (hk : k < a.p.nDual)
    (hact : IsActive a.p (varsOf a X i) k) : cVal a.p (varsOf a X i) k = 0 := by
  have h1 := lagrF_dual h.good.self_of_nhds hi hk hact (dual_mem hi hk hact)
  rw [h.lagrF_zero, ofFn_row h.rows rfl hi] at h1
  exact h1.symm

theorem CriticalPop.regularZero (h : CriticalPop a X) :
    RegularZero (lagrF a X) (fderiv ℝ (lagrF a X)) (entries (unknowns a X) X) where
  zero := h.lagrF_zero
  deriv := lipschitz_derivative h.lagrF_smooth
  inj := by
    intro s hs
    apply h.regular
    have hd : DifferentiableAt ℝ (fderiv ℝ (lagr a X)) (entries (unknowns a X) X) :=
      (h.lagr_smooth.fderiv_right (m := 2) (by norm_num)).differentiableAt (by norm_num)
    refine ContinuousLinearMap.ext fun y => ?_
    rw [clm_sum, ContinuousLinearMap.zero_apply]
    refine Finset.sum_eq_zero fun q _ => ?_
    have h1 : HasFDerivAt (fun z => lagrF a X z q) _ (entries (unknowns a X) X) :=
      hd.hasFDerivAt.clm_apply (hasFDerivAt_const (Pi.single q 1) _)
    have h2 := (hasFDerivAt_pi'.mp (h.lagrF_smooth.differentiableAt (by norm_num)).hasFDerivAt q)
    have h3 := congrArg (fun f => f s) (h1.unique h2)
    simp only [ContinuousLinearMap.comp_apply, hs, map_zero] at h3
    have h4 : (fderiv ℝ (fderiv ℝ (lagr a X)) (entries (unknowns a X) X) s) (Pi.single q 1) = 0 := by
      simpa using h3
    rw [h4, zero_mul]

theorem CriticalPop.near (h : CriticalPop a X) : ∀ᶠ z in 𝓝 (entries (unknowns a X) X), NearAt a X z := by
  have g1 := eventually_eventually_nhds.mpr h.good
  have g2 : ∀ᶠ z in 𝓝 (entries (unknowns a X) X), DifferentiableAt ℝ (lagrF a X) z :=
    (h.lagrF_smooth.eventually (by simp)).mono fun x hx => hx.differentiableAt (by norm_num)
  have g3 : ∀ᶠ z in 𝓝 (entries (unknowns a X) X), ∀ i : Fin X.length,
      ∀ᶠ x in 𝓝 (rowU (primL (unknowns a X) X.length a.p.nVar z) i), ∀ k < a.nObj,
        Diff2 a.p.nVar (fun q => pt (a.p.func.point q) k) (fun q v => pt (a.p.jac.point q) (k * a.p.nVar + v))
          (fun q v w => pt (a.hess q) ((k * a.p.nVar + v) * a.p.nVar + w)) x := by
    refine Filter.eventually_all.mpr fun i => ?_
    have h1 := eventually_eventually_nhds.mpr (all_lt fun k hk => ((h.obj i i.2).obj k hk).eventually)
    rw [← h.row i.2] at h1
    exact (rowL (unknowns a X) a.p.nVar i).continuous.continuousAt.eventually h1
  have hgen := generalPosition_range.mp h.general
  have g4 : ∀ᶠ z in 𝓝 (entries (unknowns a X) X), ∀ i < X.length, ∀ j < X.length, i ≠ j → ∀ k < a.nObj,
      objAt a X z i k ≠ objAt a X z j k := by
    refine all_lt fun i hi => all_lt fun j hj => ?_
    by_cases hij : i = j
    · exact Filter.Eventually.of_forall fun z h' => absurd hij h'
    refine Filter.Eventually.mono (all_lt fun k hk => ?_) fun z hz _ => hz
    have := ((h.obj_cont hi hk).sub (h.obj_cont hj hk)).eventually_ne (y := 0) (by
      rw [Pi.sub_apply, h.objAt_eq hi, h.objAt_eq hj]
      exact sub_ne_zero.mpr (hgen.1 i hi j hj hij k hk))
    exact this.mono fun z hz => sub_ne_zero.mp hz
  have g5 : ∀ᶠ z in 𝓝 (entries (unknowns a X) X), ∀ i < X.length, ∀ k < a.nObj, objAt a X z i k < pt a.ref k := by
    refine all_lt fun i hi => all_lt fun k hk => ?_
    refine (h.obj_cont hi hk).eventually_lt continuousAt_const ?_
    rw [h.objAt_eq hi]
    exact hgen.2 i hi k hk
  have g6 : ∀ᶠ z in 𝓝 (entries (unknowns a X) X), ∀ i < X.length, ∀ k < a.nObj,
      pt a.ref k - objAt a X z i k < 10 ^ 308 := by
    refine all_lt fun i hi => all_lt fun k hk => ?_
    refine (continuousAt_const.sub (h.obj_cont hi hk)).eventually_lt continuousAt_const ?_
    rw [Pi.sub_apply, h.objAt_eq hi]
    exact h.range i hi k hk
  have g7 : ∀ᶠ z in 𝓝 (entries (unknowns a X) X), ∀ i < X.length, ∀ j < X.length, i ≠ j →
      ∃ k < a.nObj, objAt a X z j k < objAt a X z i k := by
    refine all_lt fun i hi => all_lt fun j hj => ?_
    by_cases hij : i = j
    · exact Filter.Eventually.of_forall fun z h' => absurd hij h'
    obtain ⟨k, hk, hlt⟩ := h.nondom i hi j hj hij
    have := (h.obj_cont hj hk).eventually_lt (h.obj_cont hi hk) (by rw [h.objAt_eq hi, h.objAt_eq hj]; exact hlt)
    exact this.mono fun z hz _ => ⟨k, hk, hz⟩
  have g8 : ∀ᶠ z in 𝓝 (entries (unknowns a X) X), ∀ i < X.length, ∀ j < X.length, i ≠ j →
      ∃ d < a.p.nVar, 1 / 10 ^ 8 < |fill (unknowns a X) z i d - fill (unknowns a X) z j d| := by
    refine all_lt fun i hi => all_lt fun j hj => ?_
    by_cases hij : i = j
    · exact Filter.Eventually.of_forall fun z h' => absurd hij h'
    obtain ⟨d, hd, hlt⟩ := h.apart i hi j hj hij
    have hc : ∀ i, Continuous fun z => fill (unknowns a X) z i d := fun i => by
      have := (fillL (unknowns a X) i d).continuous
      exact this.congr fun z => fillL_apply _ _ _
    have := ContinuousAt.eventually_lt (f := fun _ => (1 / 10 ^ 8 : ℝ))
      (g := fun z => |fill (unknowns a X) z i d - fill (unknowns a X) z j d|) (x₀ := entries (unknowns a X) X)
      continuousAt_const (((hc i).sub (hc j)).abs.continuousAt)
      (by
        rw [fill_entries (var_mem hi hd), fill_entries (var_mem hj hd), ← pt_varsOf hd, ← pt_varsOf hd]
        exact hlt)
    exact this.mono fun z hz _ => ⟨d, hd, hz⟩
  have g9 : ∀ᶠ z in 𝓝 (entries (unknowns a X) X), ∀ i < X.length, ∀ k < a.p.nDual,
      (IsActive a.p (List.ofFn (rowL (unknowns a X) a.p.nVar i z)) k ↔ IsActive a.p (varsOf a X i) k) := by
    refine all_lt fun i hi => all_lt fun k hk => ?_
    by_cases hact : IsActive a.p (varsOf a X i) k
    · have h0 := h.cstr_zero hi hk hact
      have := ContinuousAt.eventually_lt (f := fun _ => (-(1 / 10 ^ 4) : ℝ)) continuousAt_const (h.cstr_cont hi hk) (by
        rw [ofFn_row h.rows rfl hi, h0]; norm_num)
      exact this.mono fun z hz => ⟨fun _ => hact, fun _ => Or.inr hz.le⟩
    · have hlt : ¬ k < a.p.nEq ∧ cVal a.p (varsOf a X i) k < -(1 / 10 ^ 4) := by
        unfold IsActive at hact
        push Not at hact
        exact ⟨not_lt.mpr hact.1, hact.2⟩
      have := (h.cstr_cont hi hk).eventually_lt (g := fun _ => (-(1 / 10 ^ 4) : ℝ)) continuousAt_const (by
        rw [ofFn_row h.rows rfl hi]; exact hlt.2)
      refine this.mono fun z hz => ⟨fun h' => ?_, fun h' => absurd h' hact⟩
      rcases h' with h' | h'
      · exact absurd h' hlt.1
      · exact absurd h' (not_le.mpr hz)
  filter_upwards [g1, g2, g3, g4, g5, g6, g7, g8, g9] with z b1 b2 b3 b4 b5 b6 b7 b8 b9
  exact ⟨b1, b2, b3, b4, b5, b6, b7, b8, b9⟩

/-! ### The residual and the Newton step -/

theorem Hvn.residual_of_newton {t : State ℝ} {S R : List (List ℝ)} (h : a.newton t = some (S, R)) :
    a.residual t = some R := by
  unfold Hvn.newton at h
  unfold Hvn.residual
  obtain ⟨J, hJ, h⟩ := Option.bind_eq_some_iff.mp h
  obtain ⟨r, hr, h⟩ := Option.bind_eq_some_iff.mp h
  unfold Problem.computeHessian at hr
  obtain ⟨g, hg, hr⟩ := Option.bind_eq_some_iff.mp hr
  obtain ⟨H, -, rfl⟩ := Option.map_eq_some_iff.mp hr
  obtain ⟨ds, hds, h⟩ := Option.bind_eq_some_iff.mp h
  obtain ⟨R', hR', h⟩ := Option.bind_eq_some_iff.mp h
  obtain ⟨S', -, h⟩ := Option.map_eq_some_iff.mp h
  obtain ⟨rfl, rfl⟩ := Prod.mk.inj h
  rw [hJ, Option.bind_some, hg, Option.bind_some, hds, Option.bind_some, hR']

theorem NearAt.fderiv_apply {z : unknowns a X → ℝ} (h : NearAt a X z) (s : unknowns a X → ℝ) (q : unknowns a X) :
    fderiv ℝ (lagrF a X) z s q = fderiv ℝ (fun z => lagrF a X z q) z s := by
  rw [(hasFDerivAt_pi'.mp h.diff.hasFDerivAt q).fderiv]
  rfl

/-- The Newton equations of the points are those of the gradient of the Lagrangian. -/
theorem NearAt.newton_iff {N0 : ℕ} {t : State ℝ} (ht : Usable a.p (a.p.nVar + a.p.nDual) N0 t)
    (hN : t.X.length = X.length) (h : NearAt a X (entries (unknowns a X) t.X)) {G : ℕ → ℕ → ℝ}
    {H : ℕ → ℕ → ℕ → ℕ → ℝ}
    (hG : ∀ (i : Fin X.length) (v : Fin a.p.nVar), G i v = fderiv ℝ (hvPop (N := X.length) a)
      (primL (unknowns a X) X.length a.p.nVar (entries (unknowns a X) t.X)) (Pi.single (i, v) 1))
    (hH : ∀ (i : Fin X.length) (v : Fin a.p.nVar) (j : Fin X.length) (w : Fin a.p.nVar), H i v j w =
      fderiv ℝ (fun u => fderiv ℝ (hvPop (N := X.length) a) u (Pi.single (i, v) 1))
        (primL (unknowns a X) X.length a.p.nVar (entries (unknowns a X) t.X)) (Pi.single (j, w) 1))
    {s : unknowns a X → ℝ} {S : ℕ → ℕ → ℝ} (hs : ∀ q, s q = S q.1.1 q.1.2) :
    (∀ i < X.length, KktNewton a.p (t.X.getD i []) (G i)
      (fun v => ∑ j ∈ Finset.range X.length, ∑ w ∈ Finset.range a.p.nVar, H i v j w * S j w) (S i)) ↔
    fderiv ℝ (lagrF a X) (entries (unknowns a X) t.X) s = -lagrF a X (entries (unknowns a X) t.X) := by
  have hfill : ∀ {i c : ℕ}, (i, c) ∈ unknowns a X → fill (unknowns a X) s i c = S i c := fun {i c} hm => by
    rw [fill, dif_pos hm, hs]
  have hvars : ∀ i < X.length, List.ofFn (rowL (unknowns a X) a.p.nVar i (entries (unknowns a X) t.X)) =
      (t.X.getD i []).take a.p.nVar := fun i hi => ofFn_row ht.dim hN hi
  have hact : ∀ i < X.length, ∀ k < a.p.nDual, (IsActive a.p ((t.X.getD i []).take a.p.nVar) k ↔
      IsActive a.p (varsOf a X i) k) := fun i hi k hk => by
    rw [← hvars i hi]; exact h.active i hi k hk
  have hvar : ∀ (i : Fin X.length) (v : Fin a.p.nVar),
      fderiv ℝ (lagrF a X) (entries (unknowns a X) t.X) s ⟨(i, v), var_mem i.2 v.2⟩ =
        ∑ j ∈ Finset.range X.length, ∑ w ∈ Finset.range a.p.nVar, H i v j w * S j w +
        ∑ w ∈ Finset.range a.p.nVar, (∑ k ∈ Finset.range a.p.nDual,
          if IsActive a.p ((t.X.getD i []).take a.p.nVar) k then
            pt (t.X.getD i []) (a.p.nVar + k) * cHess a.p ((t.X.getD i []).take a.p.nVar) k v w else 0) * S i w +
        ∑ k ∈ Finset.range a.p.nDual, (if IsActive a.p ((t.X.getD i []).take a.p.nVar) k then
          cGrad a.p ((t.X.getD i []).take a.p.nVar) k v * S i (a.p.nVar + k) else 0) := by
    intro i v
    rw [h.fderiv_apply, lagrF_var_fderiv h.good, add_assoc]
    congr 1
    · rw [Fintype.sum_prod_type, Finset.sum_range]
      refine Finset.sum_congr rfl fun j _ => ?_
      rw [Finset.sum_range]
      refine Finset.sum_congr rfl fun w _ => ?_
      rw [hH, hfill (var_mem j.2 w.2)]
    · simp only [Finset.sum_mul]
      rw [Finset.sum_comm, ← Finset.sum_add_distrib]
      refine Finset.sum_congr rfl fun k hk => ?_
      have hk := Finset.mem_range.mp hk
      by_cases hc : IsActive a.p (varsOf a X i) k
      · have hc' := (hact i i.2 k hk).mpr hc
        simp only [if_pos hc, if_pos hc']
        rw [hvars i i.2, hfill (dual_mem i.2 hk hc), fill_entries (dual_mem i.2 hk hc), Finset.sum_range, Finset.mul_sum]
        congr 1
        refine Finset.sum_congr rfl fun w _ => ?_
        rw [hfill (var_mem i.2 w.2), mul_assoc]
        rfl
      · have hc' : ¬ _ := fun h' => hc ((hact i i.2 k hk).mp h')
        simp only [if_neg hc, if_neg hc', zero_mul, Finset.sum_const_zero, add_zero]
  have hFvar : ∀ (i : Fin X.length) (v : Fin a.p.nVar),
      lagrF a X (entries (unknowns a X) t.X) ⟨(i, v), var_mem i.2 v.2⟩ =
        G i v + ∑ k ∈ Finset.range a.p.nDual, if IsActive a.p ((t.X.getD i []).take a.p.nVar) k then
          pt (t.X.getD i []) (a.p.nVar + k) * cGrad a.p ((t.X.getD i []).take a.p.nVar) k v else 0 := by
    intro i v
    rw [lagrF_var h.good.self_of_nhds, hG]
    congr 1
    refine Finset.sum_congr rfl fun k hk => ?_
    have hk := Finset.mem_range.mp hk
    by_cases hc : IsActive a.p (varsOf a X i) k
    · rw [if_pos hc, if_pos ((hact i i.2 k hk).mpr hc), hvars i i.2, fill_entries (dual_mem i.2 hk hc)]
      rfl
    · rw [if_neg hc, if_neg fun h' => hc ((hact i i.2 k hk).mp h')]
  have hdual : ∀ i (hi : i < X.length) k (hk : k < a.p.nDual) (hc : IsActive a.p (varsOf a X i) k),
      fderiv ℝ (lagrF a X) (entries (unknowns a X) t.X) s ⟨(i, a.p.nVar + k), dual_mem hi hk hc⟩ =
        ∑ w ∈ Finset.range a.p.nVar, cGrad a.p ((t.X.getD i []).take a.p.nVar) k w * S i w ∧
      lagrF a X (entries (unknowns a X) t.X) ⟨(i, a.p.nVar + k), dual_mem hi hk hc⟩ =
        cVal a.p ((t.X.getD i []).take a.p.nVar) k := by
    intro i hi k hk hc
    constructor
    · rw [h.fderiv_apply, lagrF_dual_fderiv h.good hi hk hc, hvars i hi, Finset.sum_range]
      exact Finset.sum_congr rfl fun w _ => by rw [hfill (var_mem hi w.2)]
    · rw [lagrF_dual h.good.self_of_nhds hi hk hc, hvars i hi]
  constructor
  · intro hk
    funext ⟨⟨i, c⟩, hm⟩
    obtain ⟨⟨hi, hc⟩, h'⟩ := mem_unknowns.mp hm
    rw [Pi.neg_apply]
    by_cases hv : c < a.p.nVar
    · have e1 := hvar ⟨i, hi⟩ ⟨c, hv⟩
      have e2 := hFvar ⟨i, hi⟩ ⟨c, hv⟩
      exact (e1.trans ((hk i hi).1 c hv)).trans (congrArg Neg.neg e2).symm
    · obtain ⟨k, rfl⟩ : ∃ k, c = a.p.nVar + k := ⟨c - a.p.nVar, by omega⟩
      have hc' := h'.resolve_left hv
      rw [Nat.add_sub_cancel_left] at hc'
      have hkd : k < a.p.nDual := by omega
      obtain ⟨e1, e2⟩ := hdual i hi k hkd hc'
      exact (e1.trans ((hk i hi).2 k hkd ((hact i hi k hkd).mpr hc'))).trans (congrArg Neg.neg e2).symm
  · intro hk i hi
    constructor
    · intro v hv
      have e := congrFun hk ⟨(i, v), var_mem hi hv⟩
      rw [Pi.neg_apply] at e
      exact (hvar ⟨i, hi⟩ ⟨v, hv⟩).symm.trans (e.trans (congrArg Neg.neg (hFvar ⟨i, hi⟩ ⟨v, hv⟩)))
    · intro k hkd hc
      have hc' := (hact i hi k hkd).mp hc
      have e := congrFun hk ⟨(i, a.p.nVar + k), dual_mem hi hkd hc'⟩
      rw [Pi.neg_apply] at e
      obtain ⟨e1, e2⟩ := hdual i hi k hkd hc'
      exact e1.symm.trans (e.trans (congrArg Neg.neg e2))

/-- The preconditioning changes nothing at `z`. -/
def KeepsAt (a : Hvn ℝ) (X : List (List ℝ)) (z : unknowns a X → ℝ) : Prop :=
  ∀ (H : ℕ → ℕ → ℕ → ℕ → ℝ) (A : List (List ℝ)), (∀ (i : Fin X.length) (v : Fin a.p.nVar) (j : Fin X.length) (w : Fin a.p.nVar),
      H i v j w = fderiv ℝ (fun u => fderiv ℝ (hvPop (N := X.length) a) u (Pi.single (i, v) 1))
        (primL (unknowns a X) X.length a.p.nVar z) (Pi.single (j, w) 1)) → TableOf X.length a.p.nVar H A →
    ∀ i < X.length, ∀ v < a.p.nVar, ∀ j < X.length, ∀ w < a.p.nVar,
      at2 (a.precond A) (i * a.p.nVar + v) (j * a.p.nVar + w) = H i v j w

theorem CriticalPop.keeps (h : CriticalPop a X) (hp : HvnPrecondHarmless a X) :
    ∀ᶠ z in 𝓝 (entries (unknowns a X) X), KeepsAt a X z := by
  rcases hp with hp | ⟨chol, hc, hp, hneg⟩
  · exact Filter.Eventually.of_forall fun z H A _ hA i hi v hv j hj w hw => by rw [hp, hA.2 i hi v hv j hj w hw]
  have hu : primL (unknowns a X) X.length a.p.nVar (entries (unknowns a X) X) = fun q => pt (varsOf a X q.1) q.2 := by
    funext q
    rw [primL_apply, fill_entries (var_mem q.1.2 q.2.2), pt_varsOf q.2.2]
  have h1 : ∀ᶠ u in 𝓝 (primL (unknowns a X) X.length a.p.nVar (entries (unknowns a X) X)), ∀ s ≠ 0,
      0 < -1 * fderiv ℝ (fderiv ℝ (hvPop (N := X.length) a)) u s s := by
    refine definite_open (secondDeriv_cont h.hvPop_smooth (by norm_num)) (by norm_num) fun s hs => ?_
    rw [hu, neg_one_mul]
    exact neg_pos.mpr (hneg s hs)
  have h2 := (primL (unknowns a X) X.length a.p.nVar).continuous.continuousAt.eventually h1
  filter_upwards [h2, h.good] with z hz hg H A hH hA i hi v hv j hj w hw
  rw [← hA.2 i hi v hv j hj w hw, hp]
  set u := primL (unknowns a X) X.length a.p.nVar z with hudef
  have hd : DifferentiableAt ℝ (fderiv ℝ (hvPop (N := X.length) a)) u :=
    (hg.hv.fderiv_right (m := 1) (by norm_num)).differentiableAt (by norm_num)
  have hB : ∀ (i : Fin X.length) (v : Fin a.p.nVar) (j : Fin X.length) (w : Fin a.p.nVar),
      H i v j w = fderiv ℝ (fderiv ℝ (hvPop (N := X.length) a)) u (Pi.single (j, w) 1) (Pi.single (i, v) 1) := by
    intro i v j w
    rw [hH i v j w, (hd.hasFDerivAt.clm_apply (hasFDerivAt_const (Pi.single (i, v) 1) u)).fderiv]
    simp
  have hfl : ∀ {i v : ℕ}, i < X.length → v < a.p.nVar → i * a.p.nVar + v < X.length * a.p.nVar := fun hi hv => by nlinarith
  refine precondTableNeg_keep hc hA.1 ?_ (posForm_of_pairs
    (F := fun (i : Fin X.length) (v : Fin a.p.nVar) (j : Fin X.length) (w : Fin a.p.nVar) => -H i v j w) (fun s hs => ?_)
    fun i v j w => by rw [hA.2 i i.2 v v.2 j j.2 w w.2]) _ (hfl hi hv) _ (hfl hj hw)
  · intro b hb c hcm
    have hn : 0 < a.p.nVar := Nat.pos_of_ne_zero fun h0 => by simp [h0] at hb
    have hdiv : ∀ {b}, b < X.length * a.p.nVar → b / a.p.nVar < X.length := fun hb =>
      Nat.div_lt_of_lt_mul (by rwa [mul_comm] at hb)
    have e1 := hA.2 _ (hdiv hb) _ (Nat.mod_lt b hn) _ (hdiv hcm) _ (Nat.mod_lt c hn)
    have e2 := hA.2 _ (hdiv hcm) _ (Nat.mod_lt c hn) _ (hdiv hb) _ (Nat.mod_lt b hn)
    rw [Nat.div_add_mod', Nat.div_add_mod'] at e1 e2
    rw [e1, e2, show H _ _ _ _ = _ from hH ⟨_, hdiv hb⟩ ⟨_, Nat.mod_lt b hn⟩ ⟨_, hdiv hcm⟩ ⟨_, Nat.mod_lt c hn⟩,
      show H _ _ _ _ = _ from hH ⟨_, hdiv hcm⟩ ⟨_, Nat.mod_lt c hn⟩ ⟨_, hdiv hb⟩ ⟨_, Nat.mod_lt b hn⟩]
    exact secondDeriv_comm hg.hv (by norm_num) _ _
  · obtain ⟨y, hy⟩ : ∃ y : Fin X.length × Fin a.p.nVar → ℝ, y = fun q => s q.1 q.2 := ⟨_, rfl⟩
    have hpos := hz y fun h0 => hs (funext fun i => funext fun v => by
      have := congrFun h0 (i, v)
      rw [hy] at this
      exact this)
    have hsum : y = ∑ q, y q • (Pi.single q 1 : Fin X.length × Fin a.p.nVar → ℝ) := by
      funext q
      simp [Finset.sum_apply, Pi.single_apply]
    have e : fderiv ℝ (fderiv ℝ (hvPop (N := X.length) a)) u y y = ∑ q, ∑ r, y q * (y r *
        fderiv ℝ (fderiv ℝ (hvPop (N := X.length) a)) u (Pi.single r 1) (Pi.single q 1)) := by
      conv_lhs => rw [hsum]
      simp only [map_sum, map_smul, ContinuousLinearMap.sum_apply, _root_.smul_apply, smul_eq_mul, Finset.mul_sum]
    rw [neg_one_mul, e] at hpos
    refine lt_of_lt_of_eq hpos ?_
    rw [Fintype.sum_prod_type, ← Finset.sum_neg_distrib]
    refine Finset.sum_congr rfl fun i _ => ?_
    rw [← Finset.sum_neg_distrib]
    refine Finset.sum_congr rfl fun v _ => ?_
    rw [Fintype.sum_prod_type, Finset.mul_sum, ← Finset.sum_neg_distrib]
    refine Finset.sum_congr rfl fun j _ => ?_
    rw [Finset.mul_sum, ← Finset.sum_neg_distrib]
    refine Finset.sum_congr rfl fun w _ => ?_
    rw [hB i v j w, hy]
    ring

/-- What `HVN` is assumed to use: the Frobenius norm, a distance that is at least the difference of
each coordinate, and symmetric Hessians of the objectives. -/
structure PlainHvn (a : Hvn ℝ) : Prop where
  norm : ∀ N R, IsMat N (a.p.nVar + a.p.nDual) R → a.norm R = frobenius N (a.p.nVar + a.p.nDual) R
  dist : ∀ x y, x.length = a.p.nVar → y.length = a.p.nVar → ∀ d < a.p.nVar, |pt x d - pt y d| ≤ a.dist x y
  symm : ∀ q, ∀ k < a.nObj, ∀ v < a.p.nVar, ∀ w < a.p.nVar,
    pt (a.hess q) ((k * a.p.nVar + v) * a.p.nVar + w) = pt (a.hess q) ((k * a.p.nVar + w) * a.p.nVar + v)

theorem NearAt.newton {N0 : ℕ} (ha : a.Ok N0) (hpl : PlainHvn a) (hsol : SolverSound a.solve) (h5 : a.nObj ≤ 5)
    {t : State ℝ} (ht : Usable a.p (a.p.nVar + a.p.nDual) N0 t)
    (hN : t.X.length = X.length) (h : NearAt a X (entries (unknowns a X) t.X)) (hkeep : KeepsAt a X (entries (unknowns a X) t.X)) {S R : List (List ℝ)}
    (hSR : a.newton t = some (S, R)) :
    Holds a.env X.length (a.p.nVar + a.p.nDual) (unknowns a X) R (lagrF a X (entries (unknowns a X) t.X)) ∧
      ((∃ s, fderiv ℝ (lagrF a X) (entries (unknowns a X) t.X) s = -lagrF a X (entries (unknowns a X) t.X)) →
        fderiv ℝ (lagrF a X) (entries (unknowns a X) t.X) (entries (unknowns a X) S) =
          -lagrF a X (entries (unknowns a X) t.X)) := by
  have hP := popOf_entries (X := X) ht.dim hN
  have hg0 := h.good.self_of_nhds
  obtain ⟨S', R', G, H, n1, n2, -, n3, n4⟩ := C69_direction_partial ha hsol h5 ht hP
    (hasDerivs_popOf h.objs hpl.symm)
    (by
      rw [map_func_fill]
      exact generalPosition_range.mpr ⟨h.ne, h.inside⟩)
    (by
      rw [map_func_fill]
      intro p hp k hk
      obtain ⟨i, hi, rfl⟩ := List.mem_map.mp hp
      exact (h.range i (List.mem_range.mp hi) k hk).le)
  rw [hSR] at n1
  obtain ⟨rfl, rfl⟩ := Prod.mk.inj (Option.some.inj n1)
  rw [popOf_length] at n2 n3 n4
  have hG : ∀ (i : Fin X.length) (v : Fin a.p.nVar), G i v = fderiv ℝ (hvPop (N := X.length) a)
      (primL (unknowns a X) X.length a.p.nVar (entries (unknowns a X) t.X)) (Pi.single (i, v) 1) := fun i v =>
    grad_eq (hg0.hv.differentiableAt (by norm_num)) (n2 i i.2 v v.2).1
  have hH : ∀ (i : Fin X.length) (v : Fin a.p.nVar) (j : Fin X.length) (w : Fin a.p.nVar), H i v j w =
      fderiv ℝ (fun u => fderiv ℝ (hvPop (N := X.length) a) u (Pi.single (i, v) 1))
        (primL (unknowns a X) X.length a.p.nVar (entries (unknowns a X) t.X)) (Pi.single (j, w) 1) := fun i v j w =>
    hess_eq hg0.hv ((n2 i i.2 v v.2).2 j j.2 w w.2)
  have hvars : ∀ i < X.length, List.ofFn (rowL (unknowns a X) a.p.nVar i (entries (unknowns a X) t.X)) =
      (t.X.getD i []).take a.p.nVar := fun i hi => ofFn_row ht.dim hN hi
  have hact : ∀ i < X.length, ∀ k < a.p.nDual, (IsActive a.p ((t.X.getD i []).take a.p.nVar) k ↔
      IsActive a.p (varsOf a X i) k) := fun i hi k hk => by
    rw [← hvars i hi]; exact h.active i hi k hk
  refine ⟨⟨?_, ?_, ?_⟩, ?_⟩
  · funext ⟨⟨i, c⟩, hm⟩
    obtain ⟨⟨hi, hc⟩, h'⟩ := mem_unknowns.mp hm
    by_cases hv : c < a.p.nVar
    · have e := lagrF_var hg0 (i := ⟨i, hi⟩) (v := ⟨c, hv⟩) hm
      refine Eq.trans ((n3 i hi).1 c hv) (Eq.trans ?_ e.symm)
      rw [show G i c = _ from hG ⟨i, hi⟩ ⟨c, hv⟩]
      congr 1
      refine Finset.sum_congr rfl fun k hk => ?_
      have hk := Finset.mem_range.mp hk
      by_cases hca : IsActive a.p (varsOf a X i) k
      · rw [if_pos hca, if_pos ((hact i hi k hk).mpr hca), hvars i hi, fill_entries (dual_mem hi hk hca)]
        rfl
      · rw [if_neg hca, if_neg fun h' => hca ((hact i hi k hk).mp h')]
    · obtain ⟨k, rfl⟩ : ∃ k, c = a.p.nVar + k := ⟨c - a.p.nVar, by omega⟩
      have hc' := h'.resolve_left hv
      rw [Nat.add_sub_cancel_left] at hc'
      have hkd : k < a.p.nDual := by omega
      refine Eq.trans ((n3 i hi).2 k hkd) ?_
      rw [if_pos ((hact i hi k hkd).mpr hc'), lagrF_dual hg0 hi hkd hc', hvars i hi]
  · intro i hi c hc hm
    have hv : ¬ c < a.p.nVar := fun hv => hm (var_mem hi hv)
    obtain ⟨k, rfl⟩ : ∃ k, c = a.p.nVar + k := ⟨c - a.p.nVar, by omega⟩
    have hkd : k < a.p.nDual := by omega
    rw [(n3 i hi).2 k hkd, if_neg]
    exact fun h' => hm (dual_mem hi hkd ((hact i hi k hkd).mp h'))
  · obtain ⟨S', R', m1, -, m2, -, m3⟩ := Hvn.newton_total ha ht
    rw [hSR] at m1
    obtain ⟨rfl, rfl⟩ := Prod.mk.inj (Option.some.inj m1)
    exact hpl.norm _ _ ⟨m2.trans hN, m3⟩
  · rintro ⟨s, hs⟩
    obtain ⟨A, hA⟩ := TableOf.exists X.length a.p.nVar H
    have hsum : ∀ (S : ℕ → ℕ → ℝ), ∀ i < X.length, ∀ v < a.p.nVar,
        ∑ j ∈ Finset.range X.length, ∑ w ∈ Finset.range a.p.nVar,
          at2 (a.precond A) (i * a.p.nVar + v) (j * a.p.nVar + w) * S j w =
        ∑ j ∈ Finset.range X.length, ∑ w ∈ Finset.range a.p.nVar, H i v j w * S j w := by
      intro S i hi v hv
      refine Finset.sum_congr rfl fun j hj => Finset.sum_congr rfl fun w hw => ?_
      rw [hkeep H A hH hA i hi v hv j (Finset.mem_range.mp hj) w (Finset.mem_range.mp hw)]
    have hcongr : ∀ (S : ℕ → ℕ → ℝ), ∀ i < X.length, (KktNewton a.p (t.X.getD i []) (G i)
        (fun v => ∑ j ∈ Finset.range X.length, ∑ w ∈ Finset.range a.p.nVar,
          at2 (a.precond A) (i * a.p.nVar + v) (j * a.p.nVar + w) * S j w) (S i) ↔
        KktNewton a.p (t.X.getD i []) (G i)
          (fun v => ∑ j ∈ Finset.range X.length, ∑ w ∈ Finset.range a.p.nVar, H i v j w * S j w) (S i)) := by
      intro S i hi
      unfold KktNewton
      refine and_congr (forall₂_congr fun v hv => ?_) Iff.rfl
      beta_reduce
      rw [hsum S i hi v hv]
    have h1 := (NearAt.newton_iff ht hN h hG hH (s := s) (S := fill (unknowns a X) s) (fun q => by
      rw [fill, dif_pos q.2])).mpr hs
    have h2 := n4 A hA ⟨fill (unknowns a X) s, fun i hi => (hcongr _ i hi).mpr (h1 i hi)⟩
    exact (NearAt.newton_iff ht hN h hG hH (s := entries (unknowns a X) S) (S := at2 S) (fun q => rfl)).mp
      fun i hi => (hcongr _ i hi).mp (h2 i hi).1

theorem CriticalPop.nearZero {N0 : ℕ} (ha : a.Ok N0) (hpl : PlainHvn a) (hsol : SolverSound a.solve) (h5 : a.nObj ≤ 5)
    (h : CriticalPop a X) (hp : HvnPrecondHarmless a X) : ∃ r > 0, NearZero a.env X.length (a.p.nVar + a.p.nDual) N0 (unknowns a X) (lagrF a X)
      (fderiv ℝ (lagrF a X)) (entries (unknowns a X) X) r := by
  obtain ⟨r, hr, hball⟩ := Metric.eventually_nhds_iff.mp (h.near.and (h.keeps hp))
  have hz : ∀ t : State ℝ, ‖entries (unknowns a X) t.X - entries (unknowns a X) X‖ < r →
      NearAt a X (entries (unknowns a X) t.X) := fun t ht => (hball (by rwa [dist_eq_norm])).1
  have hk : ∀ t : State ℝ, ‖entries (unknowns a X) t.X - entries (unknowns a X) X‖ < r →
      KeepsAt a X (entries (unknowns a X) t.X) := fun t ht => (hball (by rwa [dist_eq_norm])).2
  refine ⟨r, hr, fun q hq => ?_, fun t ht hN hd S R hSR => ?_, fun t ht hN hd R hR => ?_,
    fun t ht hN hd i hi j hj hij => ?_, fun t ht hN hd i hi j hj _ _ hdom => ?_⟩
  · exact (mem_unknowns.mp hq).1
  · exact NearAt.newton ha hpl hsol h5 ht hN (hz t hd) (hk t hd) hSR
  · obtain ⟨S, R', m1, -⟩ := Hvn.newton_total ha ht
    have e := Hvn.residual_of_newton m1
    obtain rfl : R = R' := Option.some.inj ((show a.residual t = some R from hR).symm.trans e)
    exact (NearAt.newton ha hpl hsol h5 ht hN (hz t hd) (hk t hd) m1).1
  · obtain ⟨d, hdl, hlt⟩ := (hz t hd).apart i hi j hj hij
    rw [fill_entries (var_mem hi hdl), fill_entries (var_mem hj hdl), ← pt_varsOf hdl, ← pt_varsOf hdl] at hlt
    exact hlt.trans_le (hpl.dist _ _ (varsOf_length ht.dim (by omega)) (varsOf_length ht.dim (by omega)) d hdl)
  · by_cases hij : i = j
    · subst hij
      obtain ⟨-, -, m, h1, h2, h3⟩ := hdom
      exact lt_irrefl _ h3
    · obtain ⟨k, hk, hlt⟩ := (hz t hd).nondom i hi j hj hij
      rw [objAt, objAt, ofFn_row ht.dim hN hi, ofFn_row ht.dim hN hj] at hlt
      obtain ⟨-, hle, -⟩ := hdom
      have l1 := ha.funcs.func.2 _ (varsOf_length (a := a) ht.dim (i := i) (by omega))
      have l2 := ha.funcs.func.2 _ (varsOf_length (a := a) ht.dim (i := j) (by omega))
      have := hle k (by exact lt_of_lt_of_eq hk l1.symm) (by exact lt_of_lt_of_eq hk l2.symm)
      rw [pt, pt, List.getD_eq_getElem (a.p.func.point (varsOf a t.X j)) _ (lt_of_lt_of_eq hk l2.symm),
        List.getD_eq_getElem (a.p.func.point (varsOf a t.X i)) _ (lt_of_lt_of_eq hk l1.symm)] at hlt
      exact absurd this (not_le.mpr hlt)

/-- C77 for the hypervolume: around a nondegenerate stationary population of the Lagrangian there is a neighbourhood from
which the iterations of `HVN` converge to it quadratically, without losing a point. The distance is measured in the
variables and the multipliers of the active constraints. Missing are more than five objectives, for which the Hessian is
wrong (C14), more than one layer, and preconditioning of a Hessian that is not negative definite; for the step limit see
`C77_hvn_limit_partial`. -/
theorem C77_hvn_partial {N0 : ℕ} (ha : a.Ok N0) (hl : a.limit = false) (hpl : PlainHvn a) (hsol : SolverSound a.solve)
    (h5 : a.nObj ≤ 5) (h : CriticalPop a X) (hp : HvnPrecondHarmless a X) :
    ∃ δ > 0, ∃ C > 0, ∀ s, Usable a.p (a.p.nVar + a.p.nDual) N0 s → s.X.length = X.length →
      ‖entries (unknowns a X) s.X - entries (unknowns a X) X‖ < δ →
      ∀ n, ∃ s', a.env.run n s = some s' ∧ Usable a.p (a.p.nVar + a.p.nDual) N0 s' ∧ s'.X.length = X.length ∧
        ‖entries (unknowns a X) s'.X - entries (unknowns a X) X‖ ≤
          ‖entries (unknowns a X) s.X - entries (unknowns a X) X‖ / 2 ^ n ∧
        C * ‖entries (unknowns a X) s'.X - entries (unknowns a X) X‖ ≤
          (C * ‖entries (unknowns a X) s.X - entries (unknowns a X) X‖) ^ 2 ^ n := by
  obtain ⟨r, hr, hn⟩ := h.nearZero ha hpl hsol h5 hp
  exact C77_run (Hvn.env_ok ha) hl h.regularZero hr hn

/-- C77 for the hypervolume with `limit_max_step_size=True`, for a stationary population inside the box: what the run returns
converges quadratically. It raises only at a population from which the Newton step of all variables is zero (so it does at the
stationary population itself, C69). Missing is the same as in `C77_hvn_partial`. -/
theorem C77_hvn_limit_partial {N0 : ℕ} (ha : a.Ok N0) (hxl : a.xl.length = a.p.nVar) (hxu : a.xu.length = a.p.nVar)
    (hpl : PlainHvn a) (hsol : SolverSound a.solve) (h5 : a.nObj ≤ 5) (h : CriticalPop a X) (hp : HvnPrecondHarmless a X)
    (hin : ∀ i < X.length, ∀ d < a.p.nVar, a.xl.getD d 0 < at2 X i d ∧ at2 X i d < a.xu.getD d 0) :
    ∃ δ > 0, ∃ C > 0, ∀ s, Usable a.p (a.p.nVar + a.p.nDual) N0 s → s.X.length = X.length →
      ‖entries (unknowns a X) s.X - entries (unknowns a X) X‖ < δ →
      (∀ n s', a.env.run n s = some s' → Usable a.p (a.p.nVar + a.p.nDual) N0 s' ∧ s'.X.length = X.length ∧
        ‖entries (unknowns a X) s'.X - entries (unknowns a X) X‖ ≤
          ‖entries (unknowns a X) s.X - entries (unknowns a X) X‖ / 2 ^ n ∧
        C * ‖entries (unknowns a X) s'.X - entries (unknowns a X) X‖ ≤
          (C * ‖entries (unknowns a X) s.X - entries (unknowns a X) X‖) ^ 2 ^ n) ∧
      ∀ n, a.env.run n s = none → ∃ m < n, ∃ s' t S R, a.env.run m s = some s' ∧ t.X = s'.X ∧
        a.newton t = some (S, R) ∧ ∀ i < X.length, ∀ d < a.p.nVar, at2 S i d = 0 := by
  obtain ⟨r, hr, hn⟩ := h.nearZero ha hpl hsol h5 hp
  obtain ⟨η, hη, hb⟩ : ∃ η > 0, ∀ i < X.length, ∀ d < a.p.nVar,
      η < at2 X i d - a.xl.getD d 0 ∧ η < a.xu.getD d 0 - at2 X i d := by
    have h1 : ∀ᶠ η in 𝓝[>] (0 : ℝ), ∀ i < X.length, ∀ d < a.p.nVar,
        η < at2 X i d - a.xl.getD d 0 ∧ η < a.xu.getD d 0 - at2 X i d :=
      all_lt fun i hi => all_lt fun d hd => nhdsWithin_le_nhds
        ((eventually_lt_nhds (sub_pos.mpr (hin i hi d hd).1)).and (eventually_lt_nhds (sub_pos.mpr (hin i hi d hd).2)))
    obtain ⟨η, h2, h3⟩ := (h1.and self_mem_nhdsWithin).exists
    exact ⟨η, h3, h2⟩
  have hq : ∀ q : unknowns a X, q.1.2 < a.p.nVar → a.xl.getD q.1.2 0 + η ≤ entries (unknowns a X) X q ∧
      entries (unknowns a X) X q + η ≤ a.xu.getD q.1.2 0 := fun q hq => by
    obtain ⟨h1, h2⟩ := hb _ (mem_unknowns.mp q.2).1.1 _ hq
    simp only [entries]
    constructor <;> linarith
  exact C77_limit_run (Hvn.env_ok ha) hη ⟨hxl, hxu, fun i hi d hd => var_mem hi hd,
    fun q h' => (hq q h').1, fun q h' => (hq q h').2⟩ h.regularZero hr hn

end

end Verif.Props
