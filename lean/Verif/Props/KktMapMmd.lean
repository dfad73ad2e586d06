import Verif.Opt.LocalNewton
import Verif.Props.MMDN
import Verif.Props.Rest

/-!
# The first-order conditions of a population of `MMDNewton` as a system of equations

Lemmas for C86. The unknowns are the variables and the multipliers of all points; those of inactive constraints are zero.
The constraints are affine.
-/

namespace Verif.Props

open Verif.Opt Verif.HV Verif.Util Verif.Ind Topology

/-- The space of the unknowns. -/
abbrev MmdSpace (a : Mmdn) (N : ℕ) := (Fin N → Fin a.p.nVar → ℝ) × (Fin N → Fin a.p.nDual → ℝ)

/-- The indicator as a function of the decision points, for the targets `T`. -/
noncomputable def mmdPhi (a : Mmdn) (T : List (ℕ → ℝ)) (N : ℕ) (Z : Fin N → Fin a.p.nVar → ℝ) : ℝ :=
  mmdValue a T fun i => objVec a (Z i)

/-- The variables of a population. -/
def ptsOf (a : Mmdn) (N : ℕ) (Z : List (List ℝ)) : Fin N → Fin a.p.nVar → ℝ := fun i v => pt (Z.getD i []) v

/-- The unknowns of the population `Z`, for the constraints that are active at the points `x0`. -/
noncomputable def unkM (a : Mmdn) (N : ℕ) (x0 : ℕ → List ℝ) (Z : List (List ℝ)) : MmdSpace a N :=
  (ptsOf a N Z, fun i k => if IsActive a.p ((x0 i).take a.p.nVar) k then pt (Z.getD i []) (a.p.nVar + k) else 0)

/-- A unit vector. -/
noncomputable def unitAt {N n : ℕ} (i : Fin N) (v : Fin n) : Fin N → Fin n → ℝ := Pi.single i (Pi.single v 1)

/-- The first-order conditions for the constraints that are active at `x0`, if these are affine. -/
noncomputable def mmdMap (a : Mmdn) (N : ℕ) (x0 : ℕ → List ℝ) (T : List (ℕ → ℝ)) (z : MmdSpace a N) : MmdSpace a N :=
  (fun i v => fderiv ℝ (mmdPhi a T N) z.1 (unitAt i v) + ∑ k : Fin a.p.nDual,
      if IsActive a.p ((x0 i).take a.p.nVar) k then z.2 i k * cGrad a.p ((x0 i).take a.p.nVar) k v else 0,
    fun i k => if IsActive a.p ((x0 i).take a.p.nVar) k then cVal a.p ((x0 i).take a.p.nVar) k +
      ∑ w : Fin a.p.nVar, cGrad a.p ((x0 i).take a.p.nVar) k w * (z.1 i w - pt (x0 i) w) else z.2 i k)

variable {a : Mmdn} {N : ℕ} {x0 : ℕ → List ℝ} {T : List (ℕ → ℝ)}

theorem lin2_unit {N n : ℕ} (c : Fin N → Fin n → ℝ) (i : Fin N) (v : Fin n) : lin2 c (unitAt i v) = c i v := by
  rw [lin2_apply, Finset.sum_eq_single i (fun j _ hj => Finset.sum_eq_zero fun w _ => by simp [unitAt, hj])
    (by simp), Finset.sum_eq_single v (fun w _ hw => by simp [unitAt, hw]) (by simp)]
  simp [unitAt]

theorem grad_entry {Z : List (List ℝ)} (hZ : Z.length = N) {G : ℕ → ℕ → ℝ} (hG : MmdGrad a T Z G) (i : Fin N)
    (v : Fin a.p.nVar) : fderiv ℝ (mmdPhi a T N) (ptsOf a N Z) (unitAt i v) = G i v := by
  subst hZ
  have h := HasFDerivAt.fderiv hG
  have : fderiv ℝ (mmdPhi a T Z.length) (ptsOf a Z.length Z) = lin2 fun i v => G i v := h
  rw [this, lin2_unit]

theorem hess_entry {Z : List (List ℝ)} (hZ : Z.length = N) {H : ℕ → ℕ → ℕ → ℕ → ℝ} (hH : MmdHess a T Z H) (i : Fin N)
    (v : Fin a.p.nVar) : HasFDerivAt (fun Y => fderiv ℝ (mmdPhi a T N) Y (unitAt i v))
      (lin2 fun (j : Fin N) (w : Fin a.p.nVar) => H i v j w) (ptsOf a N Z) := by
  subst hZ
  have h := hH (unitAt i v)
  refine h.congr_fderiv ?_
  congr 1
  funext j w
  have := lin2_unit (fun (i : Fin Z.length) (v : Fin a.p.nVar) => H i v j w) i v
  rw [lin2_apply] at this
  rw [← this]
  exact Finset.sum_congr rfl fun i _ => Finset.sum_congr rfl fun v _ => mul_comm _ _

/-- An affine constraint has the same gradient everywhere. -/
theorem AffineConstraint.grad_const {p : Funcs ℝ} {k : ℕ} (h : AffineConstraint p k) {q q' : List ℝ}
    (hq : q.length = p.nVar) (hq' : q'.length = p.nVar) {w : ℕ} (hw : w < p.nVar) : cGrad p q k w = cGrad p q' k w := by
  have hl : (q.set w (pt q w + 1)).length = p.nVar := by rw [List.length_set, hq]
  have hd : ∀ u < p.nVar, pt (q.set w (pt q w + 1)) u - pt q u = if u = w then 1 else 0 := by
    intro u hu
    by_cases he : u = w
    · subst he
      rw [if_pos rfl, pt, List.getD_eq_getElem _ _ (by rw [hl]; exact hu), List.getElem_set_self]
      ring
    · rw [if_neg he, pt, List.getD_eq_getElem _ _ (by rw [hl]; exact hu), List.getElem_set_ne (Ne.symm he),
        ← List.getD_eq_getElem q 0 (by rw [hq]; exact hu)]
      exact sub_self _
  have h1 := h q _ hq hl
  have h2 := h q' _ hq' hl
  have h3 := h q' q hq' hq
  have e1 : ∑ u ∈ Finset.range p.nVar, cGrad p q k u * (pt (q.set w (pt q w + 1)) u - pt q u) = cGrad p q k w := by
    rw [Finset.sum_congr rfl fun u hu => by rw [hd u (Finset.mem_range.mp hu)]]
    simp [hw]
  have e2 : ∑ u ∈ Finset.range p.nVar, cGrad p q' k u * (pt (q.set w (pt q w + 1)) u - pt q' u) -
      ∑ u ∈ Finset.range p.nVar, cGrad p q' k u * (pt q u - pt q' u) = cGrad p q' k w := by
    rw [← Finset.sum_sub_distrib, Finset.sum_congr rfl fun u hu => by
      rw [← mul_sub, sub_sub_sub_cancel_right, hd u (Finset.mem_range.mp hu)]]
    simp [hw]
  linarith

/-! ### Smoothness -/

theorem mmdMap_smooth {z : MmdSpace a N} (h : ContDiffAt ℝ 3 (mmdPhi a T N) z.1) :
    ContDiffAt ℝ 2 (mmdMap a N x0 T) z := by
  have hf : ContDiffAt ℝ 2 (fun z : MmdSpace a N => fderiv ℝ (mmdPhi a T N) z.1) z :=
    ContDiffAt.comp (g := fderiv ℝ (mmdPhi a T N)) z (h.fderiv_right (m := 2) (by norm_num)) contDiffAt_fst
  have h1 : ∀ i v, ContDiffAt ℝ 2 (fun z : MmdSpace a N => z.1 i v) z := fun i v =>
    (contDiffAt_pi.mp ((contDiffAt_pi.mp contDiffAt_fst) i)) v
  have h2 : ∀ i k, ContDiffAt ℝ 2 (fun z : MmdSpace a N => z.2 i k) z := fun i k =>
    (contDiffAt_pi.mp ((contDiffAt_pi.mp contDiffAt_snd) i)) k
  unfold mmdMap
  refine ContDiffAt.prodMk (contDiffAt_pi.mpr fun i => contDiffAt_pi.mpr fun v => ContDiffAt.add ?_
    (ContDiffAt.sum fun k _ => ?_)) (contDiffAt_pi.mpr fun i => contDiffAt_pi.mpr fun k => ?_)
  · exact hf.clm_apply contDiffAt_const
  · by_cases hact : IsActive a.p ((x0 i).take a.p.nVar) k
    · simp only [if_pos hact]
      exact (h2 i k).mul contDiffAt_const
    · simp only [if_neg hact]
      exact contDiffAt_const
  · by_cases hact : IsActive a.p ((x0 i).take a.p.nVar) k
    · simp only [if_pos hact]
      exact contDiffAt_const.add (ContDiffAt.sum fun w _ => contDiffAt_const.mul ((h1 i w).sub contDiffAt_const))
    · simp only [if_neg hact]
      exact h2 i k

/-! ### The derivative -/

theorem mmdMap_fderiv {Z : List (List ℝ)} (hZ : Z.length = N) {H : ℕ → ℕ → ℕ → ℕ → ℝ} (hH : MmdHess a T Z H)
    (s : MmdSpace a N) :
    fderiv ℝ (mmdMap a N x0 T) (unkM a N x0 Z) s =
      (fun (i : Fin N) (v : Fin a.p.nVar) => (∑ j : Fin N, ∑ w : Fin a.p.nVar, H i v j w * s.1 j w) + ∑ k : Fin a.p.nDual,
          (if IsActive a.p ((x0 i).take a.p.nVar) k then s.2 i k * cGrad a.p ((x0 i).take a.p.nVar) k v else 0),
        fun (i : Fin N) (k : Fin a.p.nDual) => if IsActive a.p ((x0 i).take a.p.nVar) k then
          ∑ w : Fin a.p.nVar, cGrad a.p ((x0 i).take a.p.nVar) k w * s.1 i w else s.2 i k) := by
  set z := unkM a N x0 Z with hz
  have hfst : HasFDerivAt (fun z : MmdSpace a N => z.1) (ContinuousLinearMap.fst ℝ _ _) z := hasFDerivAt_fst
  have hsnd : HasFDerivAt (fun z : MmdSpace a N => z.2) (ContinuousLinearMap.snd ℝ _ _) z := hasFDerivAt_snd
  have h1 : ∀ i v, HasFDerivAt (fun z : MmdSpace a N => z.1 i v) _ z := fun i v =>
    (hasFDerivAt_pi'.mp ((hasFDerivAt_pi'.mp hfst) i)) v
  have h2 : ∀ i k, HasFDerivAt (fun z : MmdSpace a N => z.2 i k) _ z := fun i k =>
    (hasFDerivAt_pi'.mp ((hasFDerivAt_pi'.mp hsnd) i)) k
  have hg : ∀ i v, HasFDerivAt (fun z : MmdSpace a N => fderiv ℝ (mmdPhi a T N) z.1 (unitAt i v)) _ z := fun i v =>
    HasFDerivAt.comp (g := fun Y => fderiv ℝ (mmdPhi a T N) Y (unitAt i v)) z (hess_entry hZ hH i v) hfst
  have hS : ∀ (i : Fin N) (v : Fin a.p.nVar) (k : Fin a.p.nDual), HasFDerivAt (fun z : MmdSpace a N =>
      if IsActive a.p ((x0 i).take a.p.nVar) k then z.2 i k * cGrad a.p ((x0 i).take a.p.nVar) k v else 0)
      (if IsActive a.p ((x0 i).take a.p.nVar) k then _ else 0) z := fun i v k => by
    by_cases hact : IsActive a.p ((x0 i).take a.p.nVar) k
    · simp only [if_pos hact]
      exact (h2 i k).mul_const _
    · simp only [if_neg hact]
      exact hasFDerivAt_const _ _
  have hC : ∀ (i : Fin N) (k : Fin a.p.nDual), HasFDerivAt (fun z : MmdSpace a N =>
      if IsActive a.p ((x0 i).take a.p.nVar) k then cVal a.p ((x0 i).take a.p.nVar) k +
        ∑ w : Fin a.p.nVar, cGrad a.p ((x0 i).take a.p.nVar) k w * (z.1 i w - pt (x0 i) w) else z.2 i k)
      (if IsActive a.p ((x0 i).take a.p.nVar) k then _ else _) z := fun i k => by
    by_cases hact : IsActive a.p ((x0 i).take a.p.nVar) k
    · simp only [if_pos hact]
      exact (HasFDerivAt.fun_sum (u := Finset.univ) fun w _ => ((h1 i w).sub_const _).const_mul _).const_add _
    · simp only [if_neg hact]
      exact h2 i k
  have key := HasFDerivAt.prodMk (hasFDerivAt_pi.mpr fun i => hasFDerivAt_pi.mpr fun v =>
    (hg i v).fun_add (HasFDerivAt.fun_sum (u := Finset.univ) fun k _ => hS i v k))
    (hasFDerivAt_pi.mpr fun i => hasFDerivAt_pi.mpr fun k => hC i k)
  have e : fderiv ℝ (mmdMap a N x0 T) z = _ := key.fderiv
  rw [e]
  refine Prod.ext (funext fun i => funext fun v => ?_) (funext fun i => funext fun k => ?_)
  · simp only [ContinuousLinearMap.prod_apply, ContinuousLinearMap.pi_apply, ContinuousLinearMap.add_apply,
      ContinuousLinearMap.sum_apply, ContinuousLinearMap.comp_apply, ContinuousLinearMap.coe_fst', lin2_apply]
    congr 1
    refine Finset.sum_congr rfl fun k _ => ?_
    by_cases hact : IsActive a.p ((x0 i).take a.p.nVar) k
    · simp only [if_pos hact, ContinuousLinearMap.smul_apply, smul_eq_mul, ContinuousLinearMap.comp_apply,
        ContinuousLinearMap.coe_snd', ContinuousLinearMap.proj_apply]
      ring
    · simp only [if_neg hact, ContinuousLinearMap.zero_apply]
  · simp only [ContinuousLinearMap.prod_apply, ContinuousLinearMap.pi_apply]
    by_cases hact : IsActive a.p ((x0 i).take a.p.nVar) k
    · simp only [if_pos hact, ContinuousLinearMap.sum_apply, ContinuousLinearMap.smul_apply, smul_eq_mul,
        ContinuousLinearMap.comp_apply, ContinuousLinearMap.coe_fst', ContinuousLinearMap.proj_apply]
    · simp only [if_neg hact, ContinuousLinearMap.comp_apply, ContinuousLinearMap.coe_snd',
        ContinuousLinearMap.proj_apply]

/-! ### Residuals and Newton steps -/

/-- The population `Z` has the shape of the points `x0` and the same active constraints, which are affine. -/
structure NearPop (a : Mmdn) (N : ℕ) (x0 : ℕ → List ℝ) (Z : List (List ℝ)) : Prop where
  mat : IsMat N (a.p.nVar + a.p.nDual) Z
  row : ∀ i < N, (x0 i).length = a.p.nVar + a.p.nDual
  affine : ∀ k < a.p.nDual, AffineConstraint a.p k
  active : ∀ i < N, ∀ k < a.p.nDual, (IsActive a.p ((Z.getD i []).take a.p.nVar) k ↔ IsActive a.p ((x0 i).take a.p.nVar) k)

theorem pt_take {x : List ℝ} {n w : ℕ} (hw : w < n) : pt (x.take n) w = pt x w := by
  simp only [pt, List.getD_eq_getElem?_getD, List.getElem?_take, if_pos hw]

variable {Z : List (List ℝ)}

theorem NearPop.grad (h : NearPop a N x0 Z) {i k v : ℕ} (hi : i < N) (hk : k < a.p.nDual) (hv : v < a.p.nVar) :
    cGrad a.p ((x0 i).take a.p.nVar) k v = cGrad a.p ((Z.getD i []).take a.p.nVar) k v :=
  (h.affine k hk).grad_const (by rw [List.length_take, h.row i hi]; omega)
    (by rw [List.length_take, h.mat.row hi]; omega) hv

theorem NearPop.val (h : NearPop a N x0 Z) {i k : ℕ} (hi : i < N) (hk : k < a.p.nDual) :
    cVal a.p ((Z.getD i []).take a.p.nVar) k = cVal a.p ((x0 i).take a.p.nVar) k +
      ∑ w : Fin a.p.nVar, cGrad a.p ((x0 i).take a.p.nVar) k w * (pt (Z.getD i []) w - pt (x0 i) w) := by
  rw [h.affine k hk ((x0 i).take a.p.nVar) ((Z.getD i []).take a.p.nVar) (by rw [List.length_take, h.row i hi]; omega)
    (by rw [List.length_take, h.mat.row hi]; omega), Finset.sum_range]
  congr 1
  exact Finset.sum_congr rfl fun w _ => by rw [pt_take w.2, pt_take w.2]

theorem unkM_dual {i : Fin N} {k : Fin a.p.nDual} (hact : IsActive a.p ((x0 i).take a.p.nVar) k) :
    (unkM a N x0 Z).2 i k = pt (Z.getD i []) (a.p.nVar + k) := if_pos hact

theorem NearPop.map (h : NearPop a N x0 Z) {G : ℕ → ℕ → ℝ} (hG : MmdGrad a T Z G) :
    mmdMap a N x0 T (unkM a N x0 Z) =
      (fun (i : Fin N) (v : Fin a.p.nVar) => G i v + ∑ k ∈ Finset.range a.p.nDual,
          (if IsActive a.p ((Z.getD i []).take a.p.nVar) k then
            pt (Z.getD i []) (a.p.nVar + k) * cGrad a.p ((Z.getD i []).take a.p.nVar) k v else 0),
        fun (i : Fin N) (k : Fin a.p.nDual) => if IsActive a.p ((Z.getD i []).take a.p.nVar) k then
          cVal a.p ((Z.getD i []).take a.p.nVar) k else 0) := by
  refine Prod.ext (funext fun i => funext fun v => ?_) (funext fun i => funext fun k => ?_)
  · have e := grad_entry h.mat.1 hG i v
    simp only [mmdMap]
    rw [show (unkM a N x0 Z).1 = ptsOf a N Z from rfl, e, Finset.sum_range]
    congr 1
    refine Finset.sum_congr rfl fun k _ => ?_
    by_cases hact : IsActive a.p ((x0 i).take a.p.nVar) k
    · rw [if_pos hact, if_pos ((h.active i i.2 k k.2).mpr hact), unkM_dual hact, h.grad i.2 k.2 v.2]
    · rw [if_neg hact, if_neg fun h' => hact ((h.active i i.2 k k.2).mp h')]
  · simp only [mmdMap]
    by_cases hact : IsActive a.p ((x0 i).take a.p.nVar) k
    · rw [if_pos hact, if_pos ((h.active i i.2 k k.2).mpr hact), h.val i.2 k.2]
      rfl
    · rw [if_neg hact, if_neg fun h' => hact ((h.active i i.2 k k.2).mp h')]
      exact if_neg hact

/-- The residual is the value of the map. -/
theorem NearPop.residual (h : NearPop a N x0 Z) {G : ℕ → ℕ → ℝ} (hG : MmdGrad a T Z G) {r : ℕ → ℕ → ℝ}
    (hr : ∀ i < N, KktResidual a.p (Z.getD i []) (G i) (r i)) :
    (∀ (i : Fin N) (v : Fin a.p.nVar), r i v = (mmdMap a N x0 T (unkM a N x0 Z)).1 i v) ∧
      ∀ (i : Fin N) (k : Fin a.p.nDual), r i (a.p.nVar + k) = (mmdMap a N x0 T (unkM a N x0 Z)).2 i k := by
  rw [h.map hG]
  exact ⟨fun i v => (hr i i.2).1 v v.2, fun i k => (hr i i.2).2 k k.2⟩

/-- The Newton equations are those of the map. `y` are the steps of the variables and multipliers. -/
theorem NearPop.newton (h : NearPop a N x0 Z) {G : ℕ → ℕ → ℝ} (hG : MmdGrad a T Z G) {H : ℕ → ℕ → ℕ → ℕ → ℝ}
    (hH : MmdHess a T Z H) {y : ℕ → ℕ → ℝ} {s : MmdSpace a N} (h1 : ∀ (i : Fin N) (v : Fin a.p.nVar), s.1 i v = y i v)
    (h2 : ∀ (i : Fin N) (k : Fin a.p.nDual), s.2 i k =
      if IsActive a.p ((x0 i).take a.p.nVar) k then y i (a.p.nVar + k) else 0) :
    (∀ i < N, KktNewtonFlat a.p (Z.getD i []) (G i)
      (fun v => ∑ j ∈ Finset.range N, ∑ w ∈ Finset.range a.p.nVar, H i v j w * y j w) (y i)) ↔
    fderiv ℝ (mmdMap a N x0 T) (unkM a N x0 Z) s = -mmdMap a N x0 T (unkM a N x0 Z) := by
  have hd : fderiv ℝ (mmdMap a N x0 T) (unkM a N x0 Z) s =
      (fun (i : Fin N) (v : Fin a.p.nVar) => ∑ j ∈ Finset.range N, ∑ w ∈ Finset.range a.p.nVar, H i v j w * y j w +
        ∑ k ∈ Finset.range a.p.nDual, (if IsActive a.p ((Z.getD i []).take a.p.nVar) k then
          cGrad a.p ((Z.getD i []).take a.p.nVar) k v * y i (a.p.nVar + k) else 0),
        fun (i : Fin N) (k : Fin a.p.nDual) => if IsActive a.p ((Z.getD i []).take a.p.nVar) k then
          ∑ w ∈ Finset.range a.p.nVar, cGrad a.p ((Z.getD i []).take a.p.nVar) k w * y i w else 0) := by
    rw [mmdMap_fderiv h.mat.1 hH]
    refine Prod.ext (funext fun i => funext fun v => ?_) (funext fun i => funext fun k => ?_)
    · simp only
      congr 1
      · rw [Finset.sum_range]
        refine Finset.sum_congr rfl fun j _ => ?_
        rw [Finset.sum_range]
        exact Finset.sum_congr rfl fun w _ => by rw [h1]
      · rw [Finset.sum_range]
        refine Finset.sum_congr rfl fun k _ => ?_
        by_cases hact : IsActive a.p ((x0 i).take a.p.nVar) k
        · rw [if_pos hact, if_pos ((h.active i i.2 k k.2).mpr hact), h2, if_pos hact, h.grad i.2 k.2 v.2, mul_comm]
        · rw [if_neg hact, if_neg fun h' => hact ((h.active i i.2 k k.2).mp h')]
    · simp only
      by_cases hact : IsActive a.p ((x0 i).take a.p.nVar) k
      · rw [if_pos hact, if_pos ((h.active i i.2 k k.2).mpr hact), Finset.sum_range]
        exact Finset.sum_congr rfl fun w _ => by rw [h1, h.grad i.2 k.2 w.2]
      · rw [if_neg hact, if_neg fun h' => hact ((h.active i i.2 k k.2).mp h'), h2, if_neg hact]
  rw [hd, h.map hG]
  constructor
  · intro e
    refine Prod.ext (funext fun i => funext fun v => (e i i.2).1 v v.2) (funext fun i => funext fun k => ?_)
    simp only [Prod.snd_neg, Pi.neg_apply]
    by_cases hact : IsActive a.p ((Z.getD i []).take a.p.nVar) k
    · rw [if_pos hact, if_pos hact]
      exact (e i i.2).2 k k.2 hact
    · rw [if_neg hact, if_neg hact, neg_zero]
  · intro e i hi
    refine ⟨fun v hv => congrFun (congrFun (congrArg Prod.fst e) ⟨i, hi⟩) ⟨v, hv⟩, fun k hk hact => ?_⟩
    have := congrFun (congrFun (congrArg Prod.snd e) ⟨i, hi⟩) ⟨k, hk⟩
    simp only [Prod.snd_neg, Pi.neg_apply, if_pos hact] at this
    exact this

end Verif.Props
