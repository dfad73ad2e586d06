import Verif.Opt.LocalNewton
import Verif.Props.Lagrangian
import Verif.Props.Rest

/-!
# The first-order conditions of a point of `DpN` as a system of equations

Lemmas for C85. The unknowns are the variables and the multipliers; those of inactive constraints are zero.
-/

namespace Verif.Props

open Verif.Opt Verif.HV Verif.Util Verif.Ind Topology

/-- `x` (a row of variables and multipliers) is a nondegenerate solution of the first-order conditions for the target `τ`
inside of the box: objectives and constraints are three times continuously differentiable there, with the derivatives
that the callbacks return, and the linear system with the second derivatives of the Lagrangian and the gradients of the
active constraints has only the trivial solution. -/
structure RegularPoint (a : Dpn ℝ) (useGd : Bool) (N : ℕ) (x : List ℝ) (τ : ℕ → ℝ) : Prop where
  row : x.length = a.p.nVar + a.p.nDual
  obj : ∀ k < a.nObj, Smooth3 a.p.nVar (fun q => pt (a.p.func.point q) k)
    (fun q v => pt (a.p.jac.point q) (k * a.p.nVar + v))
    (fun q v w => pt (a.hess q) ((k * a.p.nVar + v) * a.p.nVar + w)) (x.take a.p.nVar)
  cstr : ∀ k < a.p.nDual, Smooth3 a.p.nVar (fun q => cVal a.p q k) (fun q v => cGrad a.p q k v)
    (fun q v w => cHess a.p q k v w) (x.take a.p.nVar)
  inside : InsideBox a.xl a.xu a.p.nVar x
  first : FirstOrder a.p x (dpGrad a useGd N (x.take a.p.nVar) τ)
  regular : ∀ z : ℕ → ℝ,
    (∀ v < a.p.nVar, ∑ w ∈ Finset.range a.p.nVar, (dpHess a useGd N (x.take a.p.nVar) τ v w +
        ∑ k ∈ Finset.range a.p.nDual, if IsActive a.p (x.take a.p.nVar) k then
          pt x (a.p.nVar + k) * cHess a.p (x.take a.p.nVar) k v w else 0) * z w +
      ∑ k ∈ Finset.range a.p.nDual, (if IsActive a.p (x.take a.p.nVar) k then
        cGrad a.p (x.take a.p.nVar) k v * z (a.p.nVar + k) else 0) = 0) →
    (∀ k < a.p.nDual, IsActive a.p (x.take a.p.nVar) k →
      ∑ w ∈ Finset.range a.p.nVar, cGrad a.p (x.take a.p.nVar) k w * z w = 0) →
    (∀ v < a.p.nVar, z v = 0) ∧ ∀ k < a.p.nDual, IsActive a.p (x.take a.p.nVar) k → z (a.p.nVar + k) = 0

variable {a : Dpn ℝ} {useGd : Bool} {N : ℕ} {x0 : List ℝ} {τ : ℕ → ℝ}

/-- The space of the unknowns. -/
abbrev KktSpace (a : Dpn ℝ) := (Fin a.p.nVar → ℝ) × (Fin a.p.nDual → ℝ)

/-- The unknowns in the row `x`, for the constraints that are active at `x0`. -/
noncomputable def unk (a : Dpn ℝ) (x0 x : List ℝ) : KktSpace a :=
  (vec a.p.nVar x, fun k => if IsActive a.p (x0.take a.p.nVar) k then pt x (a.p.nVar + k) else 0)

/-- The first-order conditions for the constraints that are active at `x0`. -/
noncomputable def kktMap (a : Dpn ℝ) (useGd : Bool) (N : ℕ) (x0 : List ℝ) (τ : ℕ → ℝ) (z : KktSpace a) : KktSpace a :=
  (fun v => dpGrad a useGd N (List.ofFn z.1) τ v + ∑ k : Fin a.p.nDual,
      if IsActive a.p (x0.take a.p.nVar) k then z.2 k * cGrad a.p (List.ofFn z.1) k v else 0,
    fun k => if IsActive a.p (x0.take a.p.nVar) k then cVal a.p (List.ofFn z.1) k else z.2 k)

/-- The callbacks return derivatives near `x`. -/
structure DiffPoint (a : Dpn ℝ) (x : Fin a.p.nVar → ℝ) : Prop where
  obj : ∀ k < a.nObj, Diff2 a.p.nVar (fun q => pt (a.p.func.point q) k)
    (fun q v => pt (a.p.jac.point q) (k * a.p.nVar + v))
    (fun q v w => pt (a.hess q) ((k * a.p.nVar + v) * a.p.nVar + w)) x
  cstr : ∀ k < a.p.nDual, Diff2 a.p.nVar (fun q => cVal a.p q k) (fun q v => cGrad a.p q k v)
    (fun q v w => cHess a.p q k v w) x

theorem RegularPoint.diff (h : RegularPoint a useGd N x0 τ) :
    ∀ᶠ x in 𝓝 (vec a.p.nVar (x0.take a.p.nVar)), DiffPoint a x := by
  have h1 : ∀ᶠ x in 𝓝 (vec a.p.nVar (x0.take a.p.nVar)), ∀ k < a.nObj, Diff2 a.p.nVar (fun q => pt (a.p.func.point q) k)
      (fun q v => pt (a.p.jac.point q) (k * a.p.nVar + v))
      (fun q v w => pt (a.hess q) ((k * a.p.nVar + v) * a.p.nVar + w)) x := by
    have := (Finset.eventually_all (Finset.range a.nObj) (l := 𝓝 (vec a.p.nVar (x0.take a.p.nVar)))
      (p := fun k x => Diff2 a.p.nVar (fun q => pt (a.p.func.point q) k)
      (fun q v => pt (a.p.jac.point q) (k * a.p.nVar + v))
      (fun q v w => pt (a.hess q) ((k * a.p.nVar + v) * a.p.nVar + w)) x)).mpr
      fun k hk => (h.obj k (Finset.mem_range.mp hk)).eventually
    exact this.mono fun x hx k hk => hx k (Finset.mem_range.mpr hk)
  have h2 : ∀ᶠ x in 𝓝 (vec a.p.nVar (x0.take a.p.nVar)), ∀ k < a.p.nDual, Diff2 a.p.nVar (fun q => cVal a.p q k)
      (fun q v => cGrad a.p q k v) (fun q v w => cHess a.p q k v w) x := by
    have := (Finset.eventually_all (Finset.range a.p.nDual) (l := 𝓝 (vec a.p.nVar (x0.take a.p.nVar)))
      (p := fun k x => Diff2 a.p.nVar (fun q => cVal a.p q k)
      (fun q v => cGrad a.p q k v) (fun q v w => cHess a.p q k v w) x)).mpr
      fun k hk => (h.cstr k (Finset.mem_range.mp hk)).eventually
    exact this.mono fun x hx k hk => hx k (Finset.mem_range.mpr hk)
  filter_upwards [h1, h2] with x a b
  exact ⟨a, b⟩

theorem vec_take {n : ℕ} (x : List ℝ) : vec n (x.take n) = vec n x := by
  funext v
  simp only [vec, List.getD_eq_getElem?_getD, List.getElem?_take, v.2, if_true]

theorem ofFn_vec_take {n : ℕ} {x : List ℝ} (h : n ≤ x.length) : List.ofFn (vec n x) = x.take n := by
  rw [← vec_take]
  apply List.ext_getElem (by simp [h])
  intro i h1 h2
  simp [vec, List.getElem?_eq_getElem h2]

/-! ### Smoothness -/

theorem RegularPoint.smooth (h : RegularPoint a useGd N x0 τ) :
    ContDiffAt ℝ 2 (kktMap a useGd N x0 τ) (unk a x0 x0) := by
  have hf : ∀ k < a.nObj, ContDiffAt ℝ 2 (fun z : KktSpace a => pt (a.p.func.point (List.ofFn z.1)) k) (unk a x0 x0) := by
    intro k hk
    have h1 := (h.obj k hk).smooth.of_le (m := 2) (by norm_num)
    rw [vec_take] at h1
    exact ContDiffAt.comp (g := fun x : Fin a.p.nVar → ℝ => pt (a.p.func.point (List.ofFn x)) k) (unk a x0 x0) h1 contDiffAt_fst
  have hj : ∀ k < a.nObj, ∀ v : Fin a.p.nVar, ContDiffAt ℝ 2 (fun z : KktSpace a =>
      pt (a.p.jac.point (List.ofFn z.1)) (k * a.p.nVar + v)) (unk a x0 x0) := by
    intro k hk v
    have h1 := (h.obj k hk).grad_smooth v
    rw [vec_take] at h1
    exact ContDiffAt.comp (g := fun x : Fin a.p.nVar → ℝ => pt (a.p.jac.point (List.ofFn x)) (k * a.p.nVar + v))
      (unk a x0 x0) h1 contDiffAt_fst
  have hc : ∀ k < a.p.nDual, ContDiffAt ℝ 2 (fun z : KktSpace a => cVal a.p (List.ofFn z.1) k) (unk a x0 x0) := by
    intro k hk
    have h1 := (h.cstr k hk).smooth.of_le (m := 2) (by norm_num)
    rw [vec_take] at h1
    exact ContDiffAt.comp (g := fun x : Fin a.p.nVar → ℝ => cVal a.p (List.ofFn x) k) (unk a x0 x0) h1 contDiffAt_fst
  have hg : ∀ k < a.p.nDual, ∀ v : Fin a.p.nVar, ContDiffAt ℝ 2 (fun z : KktSpace a => cGrad a.p (List.ofFn z.1) k v)
      (unk a x0 x0) := by
    intro k hk v
    have h1 := (h.cstr k hk).grad_smooth v
    rw [vec_take] at h1
    exact ContDiffAt.comp (g := fun x : Fin a.p.nVar → ℝ => cGrad a.p (List.ofFn x) k v) (unk a x0 x0) h1 contDiffAt_fst
  have hm : ∀ k : Fin a.p.nDual, ContDiffAt ℝ 2 (fun z : KktSpace a => z.2 k) (unk a x0 x0) := fun k =>
    (contDiffAt_pi.mp contDiffAt_snd) k
  unfold kktMap
  refine ContDiffAt.prodMk (contDiffAt_pi.mpr fun v => ContDiffAt.add ?_ (ContDiffAt.sum fun k _ => ?_))
    (contDiffAt_pi.mpr fun k => ?_)
  · unfold dpGrad
    refine contDiffAt_const.mul (ContDiffAt.sum fun k hk => ?_)
    have hk := Finset.mem_range.mp hk
    exact (hj k hk v).mul ((hf k hk).sub contDiffAt_const)
  · by_cases hact : IsActive a.p (x0.take a.p.nVar) k
    · simp only [if_pos hact]
      exact (hm k).mul (hg k k.2 v)
    · simp only [if_neg hact]
      exact contDiffAt_const
  · by_cases hact : IsActive a.p (x0.take a.p.nVar) k
    · simp only [if_pos hact]
      exact hc k k.2
    · simp only [if_neg hact]
      exact hm k

/-! ### The derivative -/

theorem Diff2.apply {n : ℕ} {f : List ℝ → ℝ} {g : List ℝ → ℕ → ℝ} {h : List ℝ → ℕ → ℕ → ℝ} {x : Fin n → ℝ}
    (hd : Diff2 n f g h x) (s : Fin n → ℝ) :
    fderiv ℝ (fun x : Fin n → ℝ => f (List.ofFn x)) x s = ∑ w : Fin n, g (List.ofFn x) w * s w := by
  rw [clm_sum]
  exact Finset.sum_congr rfl fun w _ => by rw [hd.grad]

theorem Diff2.apply2 {n : ℕ} {f : List ℝ → ℝ} {g : List ℝ → ℕ → ℝ} {h : List ℝ → ℕ → ℕ → ℝ} {x : Fin n → ℝ}
    (hd : Diff2 n f g h x) (v : Fin n) (s : Fin n → ℝ) :
    fderiv ℝ (fun x : Fin n → ℝ => g (List.ofFn x) v) x s = ∑ w : Fin n, h (List.ofFn x) v w * s w := by
  rw [clm_sum]
  exact Finset.sum_congr rfl fun w _ => by rw [hd.hess]

theorem kktMap_fderiv {z : KktSpace a} (h : DiffPoint a z.1) (s : KktSpace a) :
    fderiv ℝ (kktMap a useGd N x0 τ) z s =
      (fun v : Fin a.p.nVar => ∑ w : Fin a.p.nVar, dpHess a useGd N (List.ofFn z.1) τ v w * s.1 w + ∑ k : Fin a.p.nDual,
          (if IsActive a.p (x0.take a.p.nVar) k then
            z.2 k * ∑ w : Fin a.p.nVar, cHess a.p (List.ofFn z.1) k v w * s.1 w + s.2 k * cGrad a.p (List.ofFn z.1) k v else 0),
        fun k : Fin a.p.nDual => if IsActive a.p (x0.take a.p.nVar) k then ∑ w : Fin a.p.nVar, cGrad a.p (List.ofFn z.1) k w * s.1 w
          else s.2 k) := by
  have hfst : HasFDerivAt (fun z : KktSpace a => z.1) (ContinuousLinearMap.fst ℝ _ _) z := hasFDerivAt_fst
  have hsnd : ∀ k, HasFDerivAt (fun z : KktSpace a => z.2 k)
      ((ContinuousLinearMap.proj k : (Fin a.p.nDual → ℝ) →L[ℝ] ℝ).comp (ContinuousLinearMap.snd ℝ _ _)) z := fun k =>
    (hasFDerivAt_pi'.mp hasFDerivAt_snd) k
  have hf : ∀ k < a.nObj, HasFDerivAt (fun z : KktSpace a => pt (a.p.func.point (List.ofFn z.1)) k) _ z := fun k hk =>
    HasFDerivAt.comp (g := fun x : Fin a.p.nVar → ℝ => pt (a.p.func.point (List.ofFn x)) k) z
      (h.obj k hk).diff.hasFDerivAt hfst
  have hj : ∀ k < a.nObj, ∀ v : Fin a.p.nVar, HasFDerivAt (fun z : KktSpace a =>
      pt (a.p.jac.point (List.ofFn z.1)) (k * a.p.nVar + v)) _ z := fun k hk v =>
    HasFDerivAt.comp (g := fun x : Fin a.p.nVar → ℝ => pt (a.p.jac.point (List.ofFn x)) (k * a.p.nVar + v)) z
      ((h.obj k hk).diff2 v).hasFDerivAt hfst
  have hc : ∀ k < a.p.nDual, HasFDerivAt (fun z : KktSpace a => cVal a.p (List.ofFn z.1) k) _ z := fun k hk =>
    HasFDerivAt.comp (g := fun x : Fin a.p.nVar → ℝ => cVal a.p (List.ofFn x) k) z (h.cstr k hk).diff.hasFDerivAt hfst
  have hg : ∀ k < a.p.nDual, ∀ v : Fin a.p.nVar, HasFDerivAt (fun z : KktSpace a =>
      cGrad a.p (List.ofFn z.1) k v) _ z := fun k hk v =>
    HasFDerivAt.comp (g := fun x : Fin a.p.nVar → ℝ => cGrad a.p (List.ofFn x) k v) z
      ((h.cstr k hk).diff2 v).hasFDerivAt hfst
  have hG : ∀ v : Fin a.p.nVar, HasFDerivAt (fun z : KktSpace a => dpGrad a useGd N (List.ofFn z.1) τ v) _ z := fun v =>
    (HasFDerivAt.fun_sum fun k hk => (hj k (Finset.mem_range.mp hk) v).mul
      ((hf k (Finset.mem_range.mp hk)).sub_const (τ k))).const_mul _
  have hS : ∀ (v : Fin a.p.nVar) (k : Fin a.p.nDual), HasFDerivAt (fun z : KktSpace a =>
      if IsActive a.p (x0.take a.p.nVar) k then z.2 k * cGrad a.p (List.ofFn z.1) k v else 0)
      (if IsActive a.p (x0.take a.p.nVar) k then _ else 0) z := fun v k => by
    by_cases hact : IsActive a.p (x0.take a.p.nVar) k
    · simp only [if_pos hact]
      exact (hsnd k).mul (hg k k.2 v)
    · simp only [if_neg hact]
      exact hasFDerivAt_const _ _
  have hC : ∀ k : Fin a.p.nDual, HasFDerivAt (fun z : KktSpace a =>
      if IsActive a.p (x0.take a.p.nVar) k then cVal a.p (List.ofFn z.1) k else z.2 k)
      (if IsActive a.p (x0.take a.p.nVar) k then _ else _) z := fun k => by
    by_cases hact : IsActive a.p (x0.take a.p.nVar) k
    · simp only [if_pos hact]
      exact hc k k.2
    · simp only [if_neg hact]
      exact hsnd k
  have key := HasFDerivAt.prodMk (hasFDerivAt_pi.mpr fun v => (hG v).fun_add (HasFDerivAt.fun_sum (u := Finset.univ)
    fun k _ => hS v k)) (hasFDerivAt_pi.mpr hC)
  have e : fderiv ℝ (kktMap a useGd N x0 τ) z = _ := key.fderiv
  rw [e]
  refine Prod.ext (funext fun v => ?_) (funext fun k => ?_)
  · simp only [ContinuousLinearMap.prod_apply, ContinuousLinearMap.pi_apply, ContinuousLinearMap.add_apply,
      ContinuousLinearMap.smul_apply, ContinuousLinearMap.sum_apply, ContinuousLinearMap.comp_apply, smul_eq_mul,
      ContinuousLinearMap.coe_fst']
    congr 1
    · simp only [dpHess]
      rw [Finset.sum_congr rfl fun k hk => by
        rw [(h.obj k (Finset.mem_range.mp hk)).apply, (h.obj k (Finset.mem_range.mp hk)).apply2 v]]
      simp only [mul_assoc, Finset.sum_mul, Finset.mul_sum]
      rw [Finset.sum_comm' (t' := Finset.range a.nObj) (s' := fun _ => Finset.univ) (by simp [and_comm])]
      refine Finset.sum_congr rfl fun k hk => ?_
      rw [mul_add, Finset.mul_sum, Finset.mul_sum, ← Finset.sum_add_distrib]
      exact Finset.sum_congr rfl fun w _ => by ring
    · refine Finset.sum_congr rfl fun k _ => ?_
      by_cases hact : IsActive a.p (x0.take a.p.nVar) k
      · simp only [if_pos hact, ContinuousLinearMap.add_apply, ContinuousLinearMap.smul_apply, smul_eq_mul,
          ContinuousLinearMap.comp_apply, ContinuousLinearMap.coe_fst', ContinuousLinearMap.coe_snd',
          ContinuousLinearMap.proj_apply, (h.cstr k k.2).apply2 v]
        ring
      · simp only [if_neg hact, ContinuousLinearMap.zero_apply]
  · simp only [ContinuousLinearMap.prod_apply, ContinuousLinearMap.pi_apply]
    by_cases hact : IsActive a.p (x0.take a.p.nVar) k
    · simp only [if_pos hact, ContinuousLinearMap.comp_apply, ContinuousLinearMap.coe_fst', (h.cstr k k.2).apply]
    · simp only [if_neg hact, ContinuousLinearMap.comp_apply, ContinuousLinearMap.coe_snd',
        ContinuousLinearMap.proj_apply]

/-! ### Residuals and Newton steps -/

/-- What holds at rows near a regular point. -/
structure NearPoint (a : Dpn ℝ) (x0 x : List ℝ) : Prop where
  row : x.length = a.p.nVar + a.p.nDual
  diff : DiffPoint a (vec a.p.nVar x)
  active : ∀ k < a.p.nDual, (IsActive a.p (x.take a.p.nVar) k ↔ IsActive a.p (x0.take a.p.nVar) k)

theorem NearPoint.ofFn {x : List ℝ} (h : NearPoint a x0 x) : List.ofFn (unk a x0 x).1 = x.take a.p.nVar :=
  ofFn_vec_take (by rw [h.row]; omega)

theorem unk_dual {x : List ℝ} {k : Fin a.p.nDual} (hact : IsActive a.p (x0.take a.p.nVar) k) :
    (unk a x0 x).2 k = pt x (a.p.nVar + k) := if_pos hact

theorem NearPoint.map {x : List ℝ} (h : NearPoint a x0 x) :
    kktMap a useGd N x0 τ (unk a x0 x) =
      (fun v : Fin a.p.nVar => dpGrad a useGd N (x.take a.p.nVar) τ v + ∑ k ∈ Finset.range a.p.nDual,
          if IsActive a.p (x.take a.p.nVar) k then pt x (a.p.nVar + k) * cGrad a.p (x.take a.p.nVar) k v else 0,
        fun k : Fin a.p.nDual => if IsActive a.p (x.take a.p.nVar) k then cVal a.p (x.take a.p.nVar) k else 0) := by
  refine Prod.ext (funext fun v => ?_) (funext fun k => ?_)
  · simp only [kktMap, h.ofFn]
    rw [Finset.sum_range]
    congr 1
    refine Finset.sum_congr rfl fun k _ => ?_
    by_cases hact : IsActive a.p (x0.take a.p.nVar) k
    · rw [if_pos hact, if_pos ((h.active k k.2).mpr hact), unk_dual hact]
    · rw [if_neg hact, if_neg fun h' => hact ((h.active k k.2).mp h')]
  · simp only [kktMap, h.ofFn]
    by_cases hact : IsActive a.p (x0.take a.p.nVar) k
    · rw [if_pos hact, if_pos ((h.active k k.2).mpr hact)]
    · rw [if_neg hact, if_neg fun h' => hact ((h.active k k.2).mp h'), unk]
      exact if_neg hact

/-- The residual is the value of the map. -/
theorem NearPoint.residual {x : List ℝ} (h : NearPoint a x0 x) {r : ℕ → ℝ}
    (hr : KktResidual a.p x (dpGrad a useGd N (x.take a.p.nVar) τ) r) :
    (∀ v : Fin a.p.nVar, r v = (kktMap a useGd N x0 τ (unk a x0 x)).1 v) ∧
      ∀ k : Fin a.p.nDual, r (a.p.nVar + k) = (kktMap a useGd N x0 τ (unk a x0 x)).2 k := by
  rw [h.map]
  exact ⟨fun v => hr.1 v v.2, fun k => hr.2 k k.2⟩

/-- The Newton equations are those of the map. `y` are the steps of the variables and multipliers. -/
theorem NearPoint.newton {x : List ℝ} (h : NearPoint a x0 x) {y : ℕ → ℝ} {s : KktSpace a}
    (h1 : ∀ v : Fin a.p.nVar, s.1 v = y v)
    (h2 : ∀ k : Fin a.p.nDual, s.2 k = if IsActive a.p (x0.take a.p.nVar) k then y (a.p.nVar + k) else 0) :
    KktNewton a.p x (dpGrad a useGd N (x.take a.p.nVar) τ)
      (fun v => ∑ w ∈ Finset.range a.p.nVar, dpHess a useGd N (x.take a.p.nVar) τ v w * y w) y ↔
    fderiv ℝ (kktMap a useGd N x0 τ) (unk a x0 x) s = -kktMap a useGd N x0 τ (unk a x0 x) := by
  have hd : fderiv ℝ (kktMap a useGd N x0 τ) (unk a x0 x) s =
      (fun v : Fin a.p.nVar => ∑ w ∈ Finset.range a.p.nVar, dpHess a useGd N (x.take a.p.nVar) τ v w * y w +
        ∑ w ∈ Finset.range a.p.nVar, (∑ k ∈ Finset.range a.p.nDual,
          if IsActive a.p (x.take a.p.nVar) k then pt x (a.p.nVar + k) * cHess a.p (x.take a.p.nVar) k v w else 0) * y w +
        ∑ k ∈ Finset.range a.p.nDual, (if IsActive a.p (x.take a.p.nVar) k then
          cGrad a.p (x.take a.p.nVar) k v * y (a.p.nVar + k) else 0),
        fun k : Fin a.p.nDual => if IsActive a.p (x.take a.p.nVar) k then
          ∑ w ∈ Finset.range a.p.nVar, cGrad a.p (x.take a.p.nVar) k w * y w else 0) := by
    rw [kktMap_fderiv h.diff, h.ofFn]
    refine Prod.ext (funext fun v => ?_) (funext fun k => ?_)
    · simp only
      rw [add_assoc, Finset.sum_range]
      congr 1
      · exact Finset.sum_congr rfl fun w _ => by rw [h1]
      · simp only [Finset.sum_mul]
        rw [Finset.sum_comm, ← Finset.sum_add_distrib, Finset.sum_range]
        refine Finset.sum_congr rfl fun k _ => ?_
        by_cases hact : IsActive a.p (x0.take a.p.nVar) k
        · simp only [if_pos hact, if_pos ((h.active k k.2).mpr hact), unk_dual hact, h2, Finset.sum_range]
          rw [Finset.mul_sum, mul_comm (y _)]
          congr 1
          exact Finset.sum_congr rfl fun w _ => by rw [h1, mul_assoc]
        · have hact' : ¬ IsActive a.p (x.take a.p.nVar) k := fun h' => hact ((h.active k k.2).mp h')
          simp only [if_neg hact, if_neg hact', zero_mul, Finset.sum_const_zero, add_zero]
    · simp only
      by_cases hact : IsActive a.p (x0.take a.p.nVar) k
      · rw [if_pos hact, if_pos ((h.active k k.2).mpr hact), Finset.sum_range]
        exact Finset.sum_congr rfl fun w _ => by rw [h1]
      · rw [if_neg hact, if_neg fun h' => hact ((h.active k k.2).mp h'), h2, if_neg hact]
  rw [hd, h.map]
  constructor
  · rintro ⟨e1, e2⟩
    refine Prod.ext (funext fun v => e1 v v.2) (funext fun k => ?_)
    simp only [Prod.snd_neg, Pi.neg_apply]
    by_cases hact : IsActive a.p (x.take a.p.nVar) k
    · rw [if_pos hact, if_pos hact]
      exact e2 k k.2 hact
    · rw [if_neg hact, if_neg hact, neg_zero]
  · intro e
    refine ⟨fun v hv => congrFun (congrArg Prod.fst e) ⟨v, hv⟩, fun k hk hact => ?_⟩
    have := congrFun (congrArg Prod.snd e) ⟨k, hk⟩
    simp only [Prod.snd_neg, Pi.neg_apply, if_pos hact] at this
    exact this

/-- A regular point is a regular zero. -/
theorem RegularPoint.nearSelf (h : RegularPoint a useGd N x0 τ) : NearPoint a x0 x0 where
  row := h.row
  diff := by rw [← vec_take]; exact h.diff.self_of_nhds
  active := fun _ _ => Iff.rfl

theorem RegularPoint.zero (h : RegularPoint a useGd N x0 τ) : kktMap a useGd N x0 τ (unk a x0 x0) = 0 := by
  rw [h.nearSelf.map]
  refine Prod.ext (funext fun v => h.first.stationary v v.2) (funext fun k => ?_)
  simp only
  by_cases hact : IsActive a.p (x0.take a.p.nVar) k
  · rw [if_pos hact]; exact h.first.active k k.2 hact
  · rw [if_neg hact]; rfl

theorem RegularPoint.inj (h : RegularPoint a useGd N x0 τ) (s : KktSpace a)
    (hs : fderiv ℝ (kktMap a useGd N x0 τ) (unk a x0 x0) s = 0) : s = 0 := by
  rw [kktMap_fderiv h.nearSelf.diff, h.nearSelf.ofFn] at hs
  obtain ⟨y, hy⟩ : ∃ y : ℕ → ℝ, y = fun c => if hc : c < a.p.nVar then s.1 ⟨c, hc⟩ else
    if hc : c - a.p.nVar < a.p.nDual then s.2 ⟨c - a.p.nVar, hc⟩ else 0 := ⟨_, rfl⟩
  have hy1 : ∀ v : Fin a.p.nVar, y v = s.1 v := fun v => by rw [hy]; simp
  have hy2 : ∀ k : Fin a.p.nDual, y (a.p.nVar + k) = s.2 k := fun k => by rw [hy]; simp
  obtain ⟨r1, r2⟩ := h.regular y (fun v hv => by
    have := congrFun (congrArg Prod.fst hs) ⟨v, hv⟩
    simp only [Prod.fst_zero, Pi.zero_apply] at this
    refine Eq.trans ?_ this
    simp only [add_mul, Finset.sum_add_distrib, Finset.sum_mul]
    rw [add_assoc, Finset.sum_range]
    congr 1
    · exact Finset.sum_congr rfl fun w _ => by rw [hy1]
    · rw [Finset.sum_comm, ← Finset.sum_add_distrib, Finset.sum_range]
      refine Finset.sum_congr rfl fun k _ => ?_
      by_cases hact : IsActive a.p (x0.take a.p.nVar) k
      · simp only [if_pos hact, unk_dual hact, Finset.sum_range]
        rw [Finset.mul_sum, hy2, mul_comm (s.2 k)]
        congr 1
        exact Finset.sum_congr rfl fun w _ => by rw [hy1, mul_assoc]
      · simp only [if_neg hact, zero_mul, Finset.sum_const_zero, add_zero]) (fun k hk hact => by
    have := congrFun (congrArg Prod.snd hs) ⟨k, hk⟩
    simp only [if_pos hact, Prod.snd_zero, Pi.zero_apply] at this
    rw [Finset.sum_range]
    exact (Finset.sum_congr rfl fun w _ => by rw [hy1]).trans this)
  refine Prod.ext (funext fun v => ?_) (funext fun k => ?_)
  · rw [← hy1]; exact r1 v v.2
  · by_cases hact : IsActive a.p (x0.take a.p.nVar) k
    · rw [← hy2]; exact r2 k k.2 hact
    · have := congrFun (congrArg Prod.snd hs) k
      simp only [if_neg hact] at this
      exact this

/-- Rows whose variables are near those of a regular point. -/
theorem RegularPoint.near (h : RegularPoint a useGd N x0 τ) : ∀ᶠ z in 𝓝 (vec a.p.nVar (x0.take a.p.nVar)),
    ∀ x : List ℝ, x.length = a.p.nVar + a.p.nDual → vec a.p.nVar x = z →
      NearPoint a x0 x ∧ InsideBox a.xl a.xu a.p.nVar x := by
  have g9 : ∀ᶠ z in 𝓝 (vec a.p.nVar (x0.take a.p.nVar)), ∀ k ∈ Finset.range a.p.nDual,
      (IsActive a.p (List.ofFn z) k ↔ IsActive a.p (x0.take a.p.nVar) k) := by
    refine (Finset.eventually_all _).mpr fun k hk => ?_
    have hk := Finset.mem_range.mp hk
    have hcont := (h.cstr k hk).smooth.continuousAt
    have hself : List.ofFn (vec a.p.nVar (x0.take a.p.nVar)) = x0.take a.p.nVar := by
      rw [vec_take, ofFn_vec_take (by rw [h.row]; omega)]
    by_cases hact : IsActive a.p (x0.take a.p.nVar) k
    · have h0 := h.first.active k hk hact
      have := ContinuousAt.eventually_lt (f := fun _ => (-(1 / 10 ^ 4) : ℝ)) continuousAt_const hcont (by
        rw [hself, h0]; norm_num)
      exact this.mono fun z hz => ⟨fun _ => hact, fun _ => Or.inr hz.le⟩
    · have hlt : ¬ k < a.p.nEq ∧ cVal a.p (x0.take a.p.nVar) k < -(1 / 10 ^ 4) := by
        unfold IsActive at hact
        push Not at hact
        exact ⟨not_lt.mpr hact.1, hact.2⟩
      have := hcont.eventually_lt (g := fun _ => (-(1 / 10 ^ 4) : ℝ)) continuousAt_const (by rw [hself]; exact hlt.2)
      refine this.mono fun z hz => ⟨fun h' => ?_, fun h' => absurd h' hact⟩
      rcases h' with h' | h'
      · exact absurd h' hlt.1
      · exact absurd h' (not_le.mpr hz)
  have g10 : ∀ᶠ z in 𝓝 (vec a.p.nVar (x0.take a.p.nVar)), ∀ d : Fin a.p.nVar,
      a.xl.getD d 0 < z d ∧ z d < a.xu.getD d 0 := by
    refine Filter.eventually_all.mpr fun d => ?_
    have hc : ContinuousAt (fun z : Fin a.p.nVar → ℝ => z d) (vec a.p.nVar (x0.take a.p.nVar)) :=
      (continuous_apply d).continuousAt
    have hin := h.inside d d.2
    have he : vec a.p.nVar (x0.take a.p.nVar) d = x0.getD d 0 := by rw [vec_take]; rfl
    exact (continuousAt_const.eventually_lt hc (by rw [he]; exact hin.1)).and
      (hc.eventually_lt continuousAt_const (by rw [he]; exact hin.2))
  filter_upwards [h.diff, g9, g10] with z b1 b2 b3 x hx hz
  subst hz
  refine ⟨⟨hx, b1, fun k hk => ?_⟩, fun d hd => b3 ⟨d, hd⟩⟩
  have := b2 k (Finset.mem_range.mpr hk)
  rwa [ofFn_vec_take (by rw [hx]; omega)] at this

end Verif.Props
