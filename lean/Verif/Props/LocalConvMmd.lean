import Verif.Props.KktMapMmd
import Verif.Props.LocalConvDp

/-!
# C86: local convergence of `MMDNewton`

With matching and affine constraints: near a nondegenerate population of solutions of the
first-order conditions, for targets that are not attained, the targets stay where they are, the line search accepts the
full Newton steps, and the population converges quadratically.
-/

namespace Verif.Props

open Verif.Opt Verif.HV Verif.Util Verif.Ind Topology Metric

/-! ## Specification -/

/-- Variables and multipliers of active constraints of all points differ by at most `ε` from those of `X`. -/
def WithinAll (a : Mmdn) (X Z : List (List ℝ)) (ε : ℝ) : Prop :=
  ∀ i < X.length, (∀ v < a.p.nVar, |pt (Z.getD i []) v - pt (X.getD i []) v| ≤ ε) ∧
    ∀ k < a.p.nDual, IsActive a.p ((X.getD i []).take a.p.nVar) k →
      |pt (Z.getD i []) (a.p.nVar + k) - pt (X.getD i []) (a.p.nVar + k)| ≤ ε

/-- `X` (rows of variables and multipliers) solves the first-order conditions of the indicator for the targets `T`, which
are the only ones that the matching can choose from `M`. The constraints are affine, the indicator is three times
continuously differentiable at `X`, and the linear system with its second derivatives and the gradients of the active
constraints has only the trivial solution. No target is attained. -/
structure MmdRegularPop (a : Mmdn) (X : List (List ℝ)) (M T : List (ℕ → ℝ)) : Prop where
  rows : ∀ x ∈ X, x.length = a.p.nVar + a.p.nDual
  affine : ∀ k < a.p.nDual, AffineConstraint a.p k
  smooth : ContDiffAt ℝ 3 (fun Z : Fin X.length → Fin a.p.nVar → ℝ => mmdValue a T fun i => objVec a (Z i))
    fun i v => pt (X.getD i []) v
  first : ∃ G, MmdGrad a T X G ∧ ∀ i < X.length, FirstOrder a.p (X.getD i []) (G i)
  regular : ∃ H, MmdHess a T X H ∧ ∀ z : ℕ → ℕ → ℝ,
    (∀ i < X.length, ∀ v < a.p.nVar,
      ∑ j ∈ Finset.range X.length, ∑ w ∈ Finset.range a.p.nVar, H i v j w * z j w +
      ∑ k ∈ Finset.range a.p.nDual, (if IsActive a.p ((X.getD i []).take a.p.nVar) k then
        cGrad a.p ((X.getD i []).take a.p.nVar) k v * z i (a.p.nVar + k) else 0) = 0) →
    (∀ i < X.length, ∀ k < a.p.nDual, IsActive a.p ((X.getD i []).take a.p.nVar) k →
      ∑ w ∈ Finset.range a.p.nVar, cGrad a.p ((X.getD i []).take a.p.nVar) k w * z i w = 0) →
    ∀ i < X.length, (∀ v < a.p.nVar, z i v = 0) ∧
      ∀ k < a.p.nDual, IsActive a.p ((X.getD i []).take a.p.nVar) k → z i (a.p.nVar + k) = 0
  targets : ∀ T', Targets a.env.dist false (mmdImages a X) M T' ↔ T' = T
  unattained : ∀ i < X.length, ∀ r ∈ M, 1 / 10 ^ 8 < a.env.dist ((mmdImages a X).getD i 0) r

/-- Preconditioning is off, or `precondition_hessian` works on a Hessian of the indicator that is positive definite at
`X`. -/
def MmdPrecondHarmless (a : Mmdn) (X : List (List ℝ)) (T : List (ℕ → ℝ)) : Prop :=
  (∀ A, a.precond A = A) ∨ ∃ chol : Chol, (∀ n, IsCholesky (chol n)) ∧ (∀ A, a.precond A = precondTable chol A) ∧
    ∃ H, MmdHess a T X H ∧ ∀ z : Fin X.length → Fin a.p.nVar → ℝ, z ≠ 0 →
      0 < ∑ i, ∑ v, z i v * ∑ j : Fin X.length, ∑ w : Fin a.p.nVar, H i v j w * z j w

/-- A state after the first iteration whose targets are `M` and whose points are within `δ` of `X`. -/
structure MmdnNear (a : Mmdn) (X : List (List ℝ)) (M : List (ℕ → ℝ)) (δ : ℝ) (s : MmdnState) : Prop where
  ready : MmdnReady a X.length s
  later : s.iter ≠ 0
  targets : ∃ M', Paired s.ref M' ∧ M'.Perm M
  close : WithinAll a X s.state.X δ

/-- The distance of objective vectors. -/
def EuclideanDist (a : Mmdn) : Prop := ∀ y r, a.env.dist y r = √(∑ k ∈ Finset.range a.nObj, (y k - r k) ^ 2)

/-! ## Lemmas -/

section

variable {a : Mmdn} {X : List (List ℝ)} {M T : List (ℕ → ℝ)}

/-- The point `i` of the solution. -/
abbrev solAt (X : List (List ℝ)) : ℕ → List ℝ := fun i => X.getD i []

theorem withinAll_iff {Z : List (List ℝ)} {ε : ℝ} (hε : 0 ≤ ε) : WithinAll a X Z ε ↔
    ‖unkM a X.length (solAt X) Z - unkM a X.length (solAt X) X‖ ≤ ε := by
  rw [norm_prod_le_iff, pi_norm_le_iff_of_nonneg hε, pi_norm_le_iff_of_nonneg hε]
  constructor
  · intro h
    refine ⟨fun i => (pi_norm_le_iff_of_nonneg hε).mpr fun v => (h i i.2).1 v v.2, fun i =>
      (pi_norm_le_iff_of_nonneg hε).mpr fun k => ?_⟩
    simp only [unkM, Prod.snd_sub, Pi.sub_apply]
    by_cases hact : IsActive a.p ((X.getD i []).take a.p.nVar) k
    · rw [if_pos hact, if_pos hact]
      exact (h i i.2).2 k k.2 hact
    · rw [if_neg hact, if_neg hact, sub_zero, norm_zero]
      exact hε
  · rintro ⟨h1, h2⟩ i hi
    refine ⟨fun v hv => ((pi_norm_le_iff_of_nonneg hε).mp (h1 ⟨i, hi⟩)) ⟨v, hv⟩, fun k hk hact => ?_⟩
    have := ((pi_norm_le_iff_of_nonneg hε).mp (h2 ⟨i, hi⟩)) ⟨k, hk⟩
    simp only [unkM, Prod.snd_sub, Pi.sub_apply] at this
    rw [if_pos hact, if_pos hact] at this
    exact this

theorem mmdImages_getD (Z : List (List ℝ)) {i : ℕ} (hi : i < Z.length) :
    (mmdImages a Z).getD i 0 = pt (a.p.func.point ((Z.getD i []).take a.p.nVar)) := by
  rw [List.getD_eq_getElem _ _ (by simpa [mmdImages] using hi), List.getD_eq_getElem _ _ hi]
  simp only [mmdImages, List.getElem_map]

theorem dist_image (he : EuclideanDist a) {Z : List (List ℝ)} {N : ℕ} (hZ : IsMat N (a.p.nVar + a.p.nDual) Z)
    (i : Fin N) (r : ℕ → ℝ) : a.env.dist ((mmdImages a Z).getD i 0) r =
      √(∑ k : Fin a.nObj, (objVec a (ptsOf a N Z i) k - r k) ^ 2) := by
  rw [he, mmdImages_getD Z (by rw [hZ.1]; exact i.2), Finset.sum_range]
  congr 1
  refine Finset.sum_congr rfl fun k _ => ?_
  have e : List.ofFn (ptsOf a N Z i) = (Z.getD i []).take a.p.nVar := Mmdn.ofFn_pt (hZ.row i.2)
  simp only [objVec, e]

theorem MmdRegularPop.mat (h : MmdRegularPop a X M T) : IsMat X.length (a.p.nVar + a.p.nDual) X := ⟨rfl, h.rows⟩

theorem MmdRegularPop.self (h : MmdRegularPop a X M T) : NearPop a X.length (solAt X) X where
  mat := h.mat
  row := fun _ hi => h.mat.row hi
  affine := h.affine
  active := fun _ _ _ _ => Iff.rfl

/-- Populations near `X`. -/
theorem MmdRegularPop.near (h : MmdRegularPop a X M T) (hs : MmdSmooth a) (he : EuclideanDist a) {η : ℝ} (hη : 0 < η) :
    ∀ᶠ z in 𝓝 (ptsOf a X.length X), ∀ Z, IsMat X.length (a.p.nVar + a.p.nDual) Z → ptsOf a X.length Z = z →
      NearPop a X.length (solAt X) Z ∧ ∀ i < X.length, ∀ r ∈ M,
        |a.env.dist ((mmdImages a Z).getD i 0) r - a.env.dist ((mmdImages a X).getD i 0) r| ≤ η ∧
        1 / 10 ^ 8 < a.env.dist ((mmdImages a Z).getD i 0) r := by
  obtain ⟨G, hG, hfirst⟩ := h.first
  have h1 : ∀ᶠ z : Fin X.length → Fin a.p.nVar → ℝ in 𝓝 (ptsOf a X.length X), ∀ i : Fin X.length, ∀ k ∈ Finset.range a.p.nDual,
      ((k < a.p.nEq ∨ -(1 / 10 ^ 4) ≤ cVal a.p ((X.getD i []).take a.p.nVar) k + ∑ w : Fin a.p.nVar,
        cGrad a.p ((X.getD i []).take a.p.nVar) k w * (z i w - pt (X.getD i []) w)) ↔
        IsActive a.p ((X.getD i []).take a.p.nVar) k) := by
    refine Filter.eventually_all.mpr fun i => (Finset.eventually_all _).mpr fun k hk => ?_
    have hk := Finset.mem_range.mp hk
    have hc : ContinuousAt (fun z : Fin X.length → Fin a.p.nVar → ℝ => cVal a.p ((X.getD i []).take a.p.nVar) k +
        ∑ w : Fin a.p.nVar, cGrad a.p ((X.getD i []).take a.p.nVar) k w * (z i w - pt (X.getD i []) w))
        (ptsOf a X.length X) := by
      apply Continuous.continuousAt
      fun_prop
    have h0 : cVal a.p ((X.getD i []).take a.p.nVar) k + ∑ w : Fin a.p.nVar,
        cGrad a.p ((X.getD i []).take a.p.nVar) k w * (ptsOf a X.length X i w - pt (X.getD i []) w) =
        cVal a.p ((X.getD i []).take a.p.nVar) k := by
      simp [ptsOf]
    by_cases hact : IsActive a.p ((X.getD i []).take a.p.nVar) k
    · have hv := (hfirst i i.2).active k hk hact
      have := ContinuousAt.eventually_lt (f := fun _ => (-(1 / 10 ^ 4) : ℝ)) continuousAt_const hc (by
        rw [h0, hv]; norm_num)
      exact this.mono fun z hz => ⟨fun _ => hact, fun _ => Or.inr hz.le⟩
    · have hlt : ¬ k < a.p.nEq ∧ cVal a.p ((X.getD i []).take a.p.nVar) k < -(1 / 10 ^ 4) := by
        unfold IsActive at hact
        push Not at hact
        exact ⟨not_lt.mpr hact.1, hact.2⟩
      have := hc.eventually_lt (g := fun _ => (-(1 / 10 ^ 4) : ℝ)) continuousAt_const (by rw [h0]; exact hlt.2)
      refine this.mono fun z hz => ⟨fun h' => ?_, fun h' => absurd h' hact⟩
      rcases h' with h' | h'
      · exact absurd h' hlt.1
      · exact absurd h' (not_le.mpr hz)
  have h2 : ∀ᶠ z : Fin X.length → Fin a.p.nVar → ℝ in 𝓝 (ptsOf a X.length X), ∀ i : Fin X.length, ∀ r ∈ M,
      |√(∑ k : Fin a.nObj, (objVec a (z i) k - r k) ^ 2) -
        √(∑ k : Fin a.nObj, (objVec a (ptsOf a X.length X i) k - r k) ^ 2)| ≤ η ∧
      1 / 10 ^ 8 < √(∑ k : Fin a.nObj, (objVec a (z i) k - r k) ^ 2) := by
    refine Filter.eventually_all.mpr fun i => list_eventually fun r hr => ?_
    have hc : ContinuousAt (fun z : Fin X.length → Fin a.p.nVar → ℝ => √(∑ k : Fin a.nObj, (objVec a (z i) k - r k) ^ 2))
        (ptsOf a X.length X) := by
      refine ContinuousAt.sqrt (tendsto_finsetSum _ fun k _ => ?_)
      have h3 : ContinuousAt (fun z : Fin X.length → Fin a.p.nVar → ℝ => objVec a (z i) k) (ptsOf a X.length X) :=
        ContinuousAt.comp (g := fun x : Fin a.p.nVar → ℝ => objVec a x k) (hs.jac _ k).continuousAt
          (continuous_apply i).continuousAt
      exact (h3.sub continuousAt_const).pow 2
    have g1 := continuousAt_const.eventually_lt hc (by
      rw [← dist_image he h.mat]; exact h.unattained i i.2 r hr)
    have g2 := (Metric.continuousAt_iff'.mp hc) η hη
    filter_upwards [g1, g2] with z b1 b2
    exact ⟨by rw [Real.dist_eq] at b2; exact b2.le, b1⟩
  filter_upwards [h1, h2] with z b1 b2 Z hZ hz
  subst hz
  refine ⟨⟨hZ, fun i hi => h.mat.row hi, h.affine, fun i hi k hk => ?_⟩, fun i hi r hr => ?_⟩
  · have := b1 ⟨i, hi⟩ k (Finset.mem_range.mpr hk)
    rw [← this]
    unfold IsActive
    have e := h.affine k hk ((X.getD i []).take a.p.nVar) ((Z.getD i []).take a.p.nVar)
      (by rw [List.length_take, h.mat.row hi]; omega) (by rw [List.length_take, hZ.row hi]; omega)
    rw [e, Finset.sum_range]
    simp only [pt_take (Fin.is_lt _), ptsOf]
  · have := b2 ⟨i, hi⟩ r hr
    rw [← dist_image he hZ, ← dist_image he h.mat] at this
    exact this

/-- A regular population is a regular zero. -/
theorem MmdRegularPop.zero (h : MmdRegularPop a X M T) :
    mmdMap a X.length (solAt X) T (unkM a X.length (solAt X) X) = 0 := by
  obtain ⟨G, hG, hfirst⟩ := h.first
  rw [h.self.map hG]
  refine Prod.ext (funext fun i => funext fun v => (hfirst i i.2).stationary v v.2) (funext fun i => funext fun k => ?_)
  simp only
  by_cases hact : IsActive a.p ((X.getD i []).take a.p.nVar) k
  · rw [if_pos hact]; exact (hfirst i i.2).active k k.2 hact
  · rw [if_neg hact]; rfl

/-- The steps of all points as a function of point and coordinate. -/
noncomputable def flatStep (a : Mmdn) {N : ℕ} (s : MmdSpace a N) : ℕ → ℕ → ℝ := fun i c =>
  if hi : i < N then if hc : c < a.p.nVar then s.1 ⟨i, hi⟩ ⟨c, hc⟩ else
    if hc : c - a.p.nVar < a.p.nDual then s.2 ⟨i, hi⟩ ⟨c - a.p.nVar, hc⟩ else 0 else 0

theorem flatStep_var {N : ℕ} (s : MmdSpace a N) (i : Fin N) (v : Fin a.p.nVar) : flatStep a s i v = s.1 i v := by
  simp [flatStep]

theorem flatStep_dual {N : ℕ} (s : MmdSpace a N) (i : Fin N) (k : Fin a.p.nDual) :
    flatStep a s i (a.p.nVar + k) = s.2 i k := by
  simp [flatStep]

theorem MmdRegularPop.inj (h : MmdRegularPop a X M T) (s : MmdSpace a X.length)
    (hs : fderiv ℝ (mmdMap a X.length (solAt X) T) (unkM a X.length (solAt X) X) s = 0) : s = 0 := by
  obtain ⟨H, hH, hreg⟩ := h.regular
  rw [mmdMap_fderiv rfl hH] at hs
  have key := hreg (flatStep a s) (fun i hi v hv => by
    have := congrFun (congrFun (congrArg Prod.fst hs) ⟨i, hi⟩) ⟨v, hv⟩
    simp only [Prod.fst_zero, Pi.zero_apply] at this
    refine Eq.trans ?_ this
    congr 1
    · rw [Finset.sum_range]
      refine Finset.sum_congr rfl fun j _ => ?_
      rw [Finset.sum_range]
      exact Finset.sum_congr rfl fun w _ => by rw [flatStep_var]
    · rw [Finset.sum_range]
      refine Finset.sum_congr rfl fun k _ => ?_
      have := flatStep_dual s ⟨i, hi⟩ k
      simp only at this
      rw [this, mul_comm]) (fun i hi k hk hact => by
    have := congrFun (congrFun (congrArg Prod.snd hs) ⟨i, hi⟩) ⟨k, hk⟩
    simp only [if_pos hact, Prod.snd_zero, Pi.zero_apply] at this
    rw [Finset.sum_range]
    exact (Finset.sum_congr rfl fun w _ => by rw [← flatStep_var]).trans this)
  refine Prod.ext (funext fun i => funext fun v => ?_) (funext fun i => funext fun k => ?_)
  · rw [← flatStep_var]; exact (key i i.2).1 v v.2
  · by_cases hact : IsActive a.p ((X.getD i []).take a.p.nVar) k
    · rw [← flatStep_dual]; exact (key i i.2).2 k k.2 hact
    · have := congrFun (congrFun (congrArg Prod.snd hs) i) k
      simp only [if_neg hact] at this
      exact this

theorem double_bounds {N d : ℕ} (r : ℕ → ℕ → ℝ) :
    (∀ i < N, ∀ c < d, |r i c| ≤ √(∑ i ∈ Finset.range N, ∑ c ∈ Finset.range d, r i c ^ 2)) ∧
    ∀ B, 0 ≤ B → (∀ i < N, ∀ c < d, |r i c| ≤ B) →
      √(∑ i ∈ Finset.range N, ∑ c ∈ Finset.range d, r i c ^ 2) ≤ (N * d : ℕ) * B := by
  constructor
  · intro i hi c hc
    rw [← Real.sqrt_sq_eq_abs]
    refine Real.sqrt_le_sqrt ?_
    refine (Finset.single_le_sum (f := fun c => r i c ^ 2) (fun c _ => sq_nonneg _) (Finset.mem_range.mpr hc)).trans ?_
    exact Finset.single_le_sum (f := fun i => ∑ c ∈ Finset.range d, r i c ^ 2)
      (fun i _ => Finset.sum_nonneg fun c _ => sq_nonneg _) (Finset.mem_range.mpr hi)
  · intro B hB h
    refine Real.sqrt_le_iff.mpr ⟨by positivity, ?_⟩
    have h1 : ∑ i ∈ Finset.range N, ∑ c ∈ Finset.range d, r i c ^ 2 ≤ ∑ i ∈ Finset.range N, ∑ c ∈ Finset.range d, B ^ 2 :=
      Finset.sum_le_sum fun i hi => Finset.sum_le_sum fun c hc =>
        sq_le_sq' (abs_le.mp (h i (Finset.mem_range.mp hi) c (Finset.mem_range.mp hc))).1
          (abs_le.mp (h i (Finset.mem_range.mp hi) c (Finset.mem_range.mp hc))).2
    refine h1.trans ?_
    simp only [Finset.sum_const, Finset.card_range, nsmul_eq_mul]
    rw [← mul_assoc, ← Nat.cast_mul, mul_pow]
    refine mul_le_mul_of_nonneg_right ?_ (sq_nonneg B)
    have : N * d ≤ (N * d) ^ 2 := Nat.le_self_pow (by norm_num) _
    exact_mod_cast this

/-- The norm of the residual and that of the map. -/
theorem NearPop.norm_bounds {N : ℕ} {x0 : ℕ → List ℝ} {Z : List (List ℝ)} (h : NearPop a N x0 Z) {G : ℕ → ℕ → ℝ}
    (hG : MmdGrad a T Z G) {r : ℕ → ℕ → ℝ} (hr : ∀ i < N, KktResidual a.p (Z.getD i []) (G i) (r i)) :
    ‖mmdMap a N x0 T (unkM a N x0 Z)‖ ≤
      √(∑ i ∈ Finset.range N, ∑ c ∈ Finset.range (a.p.nVar + a.p.nDual), r i c ^ 2) ∧
    √(∑ i ∈ Finset.range N, ∑ c ∈ Finset.range (a.p.nVar + a.p.nDual), r i c ^ 2) ≤
      (N * (a.p.nVar + a.p.nDual) : ℕ) * ‖mmdMap a N x0 T (unkM a N x0 Z)‖ := by
  obtain ⟨h1, h2⟩ := h.residual hG hr
  obtain ⟨b1, b2⟩ := double_bounds (N := N) (d := a.p.nVar + a.p.nDual) r
  constructor
  · have h0 := Real.sqrt_nonneg (∑ i ∈ Finset.range N, ∑ c ∈ Finset.range (a.p.nVar + a.p.nDual), r i c ^ 2)
    rw [norm_prod_le_iff, pi_norm_le_iff_of_nonneg h0, pi_norm_le_iff_of_nonneg h0]
    refine ⟨fun i => (pi_norm_le_iff_of_nonneg h0).mpr fun v => ?_, fun i => (pi_norm_le_iff_of_nonneg h0).mpr fun k => ?_⟩
    · rw [← h1 i v]; exact b1 i i.2 v (by have := v.2; omega)
    · rw [← h2 i k]; exact b1 i i.2 _ (by have := k.2; omega)
  · refine b2 _ (norm_nonneg _) fun i hi c hc => ?_
    by_cases hv : c < a.p.nVar
    · have := h1 ⟨i, hi⟩ ⟨c, hv⟩
      simp only at this
      rw [this, ← Real.norm_eq_abs]
      exact (norm_le_pi_norm _ _).trans ((norm_le_pi_norm _ _).trans (norm_fst_le _))
    · have := h2 ⟨i, hi⟩ ⟨c - a.p.nVar, by omega⟩
      simp only at this
      rw [show a.p.nVar + (c - a.p.nVar) = c by omega] at this
      rw [this, ← Real.norm_eq_abs]
      exact (norm_le_pi_norm _ _).trans ((norm_le_pi_norm _ _).trans (norm_snd_le _))

theorem sum4_comm {N n : ℕ} (F : Fin N → Fin n → Fin N → Fin n → ℝ) :
    ∑ j, ∑ w, ∑ i, ∑ v, F i v j w = ∑ i, ∑ v, ∑ j, ∑ w, F i v j w := by
  have h : ∀ G : Fin N → Fin n → ℝ, ∑ i, ∑ v, G i v = ∑ p : Fin N × Fin n, G p.1 p.2 := fun G =>
    (Fintype.sum_prod_type' G).symm
  simp only [h]
  exact Finset.sum_comm

theorem mmd_bilin {N : ℕ} {Z : List (List ℝ)} (hZ : Z.length = N) {H : ℕ → ℕ → ℕ → ℕ → ℝ} (hH : MmdHess a T Z H)
    (hd : ContDiffAt ℝ 3 (mmdPhi a T N) (ptsOf a N Z)) (s : Fin N → Fin a.p.nVar → ℝ) :
    fderiv ℝ (fderiv ℝ (mmdPhi a T N)) (ptsOf a N Z) s s =
      ∑ i, ∑ v, s i v * ∑ j : Fin N, ∑ w : Fin a.p.nVar, H i v j w * s j w := by
  subst hZ
  have hd1 : DifferentiableAt ℝ (fderiv ℝ (mmdPhi a T Z.length)) (ptsOf a Z.length Z) :=
    (hd.fderiv_right (m := 1) (by norm_num)).differentiableAt (by norm_num)
  have h1 := (hH s).unique (hd1.hasFDerivAt.clm_apply (hasFDerivAt_const s _))
  have h2 := congrArg (fun L => L s) h1
  simp only [lin2_apply] at h2
  refine Eq.trans ?_ (h2.symm.trans ?_)
  · simp
  · simp only [Finset.sum_mul, Finset.mul_sum]
    rw [sum4_comm]
    exact Finset.sum_congr rfl fun i _ => Finset.sum_congr rfl fun v _ => Finset.sum_congr rfl fun j _ =>
      Finset.sum_congr rfl fun w _ => by ring

/-- Near `X` the preconditioning changes nothing. -/
theorem MmdRegularPop.keeps (h : MmdRegularPop a X M T) (hp : MmdPrecondHarmless a X T) :
    ∃ δ > 0, ∀ Z, IsMat X.length (a.p.nVar + a.p.nDual) Z →
      ‖unkM a X.length (solAt X) Z - unkM a X.length (solAt X) X‖ ≤ δ → ∀ H, MmdHess a T Z H →
      SymmetricIn X.length a.p.nVar H → ∀ A, TableOf X.length a.p.nVar H A →
      ∀ i < X.length, ∀ v < a.p.nVar, ∀ j < X.length, ∀ w < a.p.nVar,
        at2 (a.precond A) (i * a.p.nVar + v) (j * a.p.nVar + w) = H i v j w := by
  rcases hp with hp | ⟨chol, hc, hp, H0, hH0, hpos⟩
  · exact ⟨1, one_pos, fun Z _ _ H _ _ A hA i hi v hv j hj w hw => by rw [hp, hA.2 i hi v hv j hj w hw]⟩
  have h1 : ∀ᶠ Y in 𝓝 (ptsOf a X.length X), ∀ s ≠ 0, 0 < 1 * fderiv ℝ (fderiv ℝ (mmdPhi a T X.length)) Y s s := by
    refine definite_open (secondDeriv_cont h.smooth (by norm_num)) (by norm_num) fun s hs => ?_
    rw [one_mul]
    exact lt_of_lt_of_eq (hpos s hs) (mmd_bilin rfl hH0 h.smooth s).symm
  have h2 : ∀ᶠ Y in 𝓝 (ptsOf a X.length X), ContDiffAt ℝ 3 (mmdPhi a T X.length) Y := h.smooth.eventually (by simp)
  obtain ⟨ρ, hρ, hball⟩ := Metric.eventually_nhds_iff_ball.mp (h1.and h2)
  refine ⟨ρ / 2, by positivity, fun Z hZ hd H hH hsym A hA i hi v hv j hj w hw => ?_⟩
  obtain ⟨b1, b2⟩ := hball (ptsOf a X.length Z) (by
    rw [mem_ball_iff_norm]
    exact ((norm_fst_le (unkM a X.length (solAt X) Z - unkM a X.length (solAt X) X)).trans hd).trans_lt (half_lt_self hρ))
  rw [← hA.2 i hi v hv j hj w hw, hp]
  have hfl : ∀ {i v : ℕ}, i < X.length → v < a.p.nVar → i * a.p.nVar + v < X.length * a.p.nVar := fun hi hv => by nlinarith
  refine precondTable_keep hc hA.1 ?_ (posForm_of_pairs
    (F := fun (i : Fin X.length) (v : Fin a.p.nVar) (j : Fin X.length) (w : Fin a.p.nVar) => H i v j w) (fun s hs => ?_)
    fun i v j w => hA.2 i i.2 v v.2 j j.2 w w.2) _ (hfl hi hv) _ (hfl hj hw)
  · intro b hb c hcm
    have hn : 0 < a.p.nVar := Nat.pos_of_ne_zero fun h0 => by simp [h0] at hb
    have hdiv : ∀ {b}, b < X.length * a.p.nVar → b / a.p.nVar < X.length := fun hb =>
      Nat.div_lt_of_lt_mul (by rwa [mul_comm] at hb)
    have e1 := hA.2 _ (hdiv hb) _ (Nat.mod_lt b hn) _ (hdiv hcm) _ (Nat.mod_lt c hn)
    have e2 := hA.2 _ (hdiv hcm) _ (Nat.mod_lt c hn) _ (hdiv hb) _ (Nat.mod_lt b hn)
    rw [Nat.div_add_mod', Nat.div_add_mod'] at e1 e2
    rw [e1, e2, hsym _ (hdiv hb) _ (Nat.mod_lt b hn) _ (hdiv hcm) _ (Nat.mod_lt c hn)]
  · have := b1 s hs
    rw [one_mul, mmd_bilin hZ.1 hH b2] at this
    exact this

/-- The Newton steps near a regular population. -/
theorem MmdRegularPop.newtonOn (h : MmdRegularPop a X M T) (hs : MmdSmooth a) (he : EuclideanDist a) {η : ℝ} (hη : 0 < η) :
    ∃ δ > 0, ∃ C > 0, ∀ Z, IsMat X.length (a.p.nVar + a.p.nDual) Z →
      ‖unkM a X.length (solAt X) Z - unkM a X.length (solAt X) X‖ ≤ δ →
      NearPop a X.length (solAt X) Z ∧ (∀ i < X.length, ∀ r ∈ M,
        |a.env.dist ((mmdImages a Z).getD i 0) r - a.env.dist ((mmdImages a X).getD i 0) r| ≤ η ∧
        1 / 10 ^ 8 < a.env.dist ((mmdImages a Z).getD i 0) r) ∧
      (∃ s, fderiv ℝ (mmdMap a X.length (solAt X) T) (unkM a X.length (solAt X) Z) s =
        -mmdMap a X.length (solAt X) T (unkM a X.length (solAt X) Z)) ∧
      ∀ s, fderiv ℝ (mmdMap a X.length (solAt X) T) (unkM a X.length (solAt X) Z) s =
        -mmdMap a X.length (solAt X) T (unkM a X.length (solAt X) Z) →
        ‖unkM a X.length (solAt X) Z + s - unkM a X.length (solAt X) X‖ ≤
          C * ‖unkM a X.length (solAt X) Z - unkM a X.length (solAt X) X‖ ^ 2 ∧
        ‖unkM a X.length (solAt X) Z + s - unkM a X.length (solAt X) X‖ ≤
          ‖unkM a X.length (solAt X) Z - unkM a X.length (solAt X) X‖ / 2 ∧
        (X.length * (a.p.nVar + a.p.nDual) : ℕ) * ‖mmdMap a X.length (solAt X) T (unkM a X.length (solAt X) Z + s)‖ ≤
          1 / 2 * ‖mmdMap a X.length (solAt X) T (unkM a X.length (solAt X) Z)‖ := by
  obtain ⟨ρ, hρ, hball⟩ := Metric.eventually_nhds_iff_ball.mp (h.near hs he hη)
  obtain ⟨r, hr, L, hd, hL⟩ := lipschitz_derivative (mmdMap_smooth (a := a) (N := X.length) (x0 := solAt X) (T := T)
    (z := unkM a X.length (solAt X) X) h.smooth)
  obtain ⟨δ, hδ, C, hC, -, hloc⟩ := newton_local hr hd hL h.zero h.inj
  set c : ℝ := ((X.length * (a.p.nVar + a.p.nDual) : ℕ) : ℝ) with hc
  have hc0 : 0 ≤ c := Nat.cast_nonneg _
  refine ⟨min (min δ ρ) (1 / (2 * (c + 1) * C)) / 2, by positivity, C, hC, fun Z hZ hZd => ?_⟩
  have hlt : ‖unkM a X.length (solAt X) Z - unkM a X.length (solAt X) X‖ < min (min δ ρ) (1 / (2 * (c + 1) * C)) :=
    hZd.trans_lt (half_lt_self (by positivity))
  obtain ⟨hlt, hd3⟩ := lt_min_iff.mp hlt
  obtain ⟨hd1, hd2⟩ := lt_min_iff.mp hlt
  obtain ⟨-, hsol, hstep⟩ := hloc _ hd1
  have hmem : ptsOf a X.length Z ∈ ball (ptsOf a X.length X) ρ := by
    rw [mem_ball_iff_norm]
    exact (norm_fst_le (unkM a X.length (solAt X) Z - unkM a X.length (solAt X) X)).trans_lt hd2
  obtain ⟨b1, b2⟩ := hball _ hmem Z hZ rfl
  refine ⟨b1, b2, hsol, fun s hs => ?_⟩
  obtain ⟨g1, g2, g3⟩ := hstep s hs
  refine ⟨g1, g2, ?_⟩
  set e := ‖unkM a X.length (solAt X) Z - unkM a X.length (solAt X) X‖ with hee
  have he0 : 0 ≤ e := norm_nonneg _
  have l3 : c * (C * e) ≤ 1 / 2 := by
    have := hd3.le
    rw [le_div_iff₀ (by positivity)] at this
    nlinarith [mul_nonneg hC.le he0]
  have l4 := mul_le_mul_of_nonneg_left g3 hc0
  have l5 := mul_le_mul_of_nonneg_right l3 (norm_nonneg (mmdMap a X.length (solAt X) T (unkM a X.length (solAt X) Z)))
  rw [← mul_assoc] at l4
  exact l4.trans l5

end

/-! ## C86 -/

/-- C86, one iteration, for affine constraints: near a nondegenerate population of solutions whose targets are not
attained, the targets stay, all points take the full Newton step, and the distance to the solutions is at most half of what it was and at most a multiple
of its square. Missing are curved constraints (`C86_violated`). -/
theorem C86_iteration_partial {a : Mmdn} (ha : a.Ok) (hm : a.matching = true) (hsm : MmdSmooth a) (he : EuclideanDist a)
    (hsol : SolverSound a.solve) {X : List (List ℝ)} {M T : List (ℕ → ℝ)} (hp : MmdPrecondHarmless a X T)
    (hX : MmdRegularPop a X M T) :
    ∃ δ > 0, ∃ C > 0, ∀ s, MmdnNear a X M δ s → ∃ s', a.iterate s = some s' ∧ s'.iter = s.iter + 1 ∧
      MmdnNear a X M δ s' ∧ (∀ i, s'.hist i = s.hist i) ∧
      (∀ i < X.length, ∀ c < a.p.nVar + a.p.nDual, pt (s'.state.X.getD i []) c =
        pt (s.state.X.getD i []) c + pt (s'.step.getD i []) c) ∧
      ∀ ε, 0 ≤ ε → ε ≤ δ → WithinAll a X s.state.X ε →
        WithinAll a X s'.state.X (C * ε ^ 2) ∧ WithinAll a X s'.state.X (ε / 2) := by
  have hil : ∀ Z, (mmdImages a Z).length = Z.length := fun Z => by simp [mmdImages]
  obtain ⟨η, hη, hstab⟩ := targets_stable hX.targets
  rw [hil] at hstab
  obtain ⟨δ1, hδ1, C, hC, hQ⟩ := hX.newtonOn hsm he hη
  obtain ⟨δ2, hδ2, hK⟩ := hX.keeps hp
  obtain ⟨δ, hδ, hle1, hle2⟩ : ∃ δ > 0, δ ≤ δ1 ∧ δ ≤ δ2 := ⟨min δ1 δ2, lt_min hδ1 hδ2, min_le_left _ _, min_le_right _ _⟩
  replace hQ := fun Z hZ (hd : ‖unkM a X.length (solAt X) Z - unkM a X.length (solAt X) X‖ ≤ δ) => hQ Z hZ (hd.trans hle1)
  replace hK := fun Z hZ (hd : ‖unkM a X.length (solAt X) Z - unkM a X.length (solAt X) X‖ ≤ δ) => hK Z hZ (hd.trans hle2)
  refine ⟨δ, hδ, C, hC, fun s hs => ?_⟩
  obtain ⟨s', M0, M1, T', G, H, α, h1, h2, h3, h4, h5, h6, h7, h8, h9, -⟩ := C72_iteration_partial ha hs.ready
  obtain ⟨M', hM', hperm⟩ := hs.targets
  have hsz := hs.ready.size
  have hmat : IsMat X.length (a.p.nVar + a.p.nDual) s.state.X := ⟨hsz, hs.ready.state.dim⟩
  have hnorm := (withinAll_iff hδ.le).mp hs.close
  obtain ⟨t1, -, t2, ⟨hl1, hsh⟩, -, ⟨M2, p1, p2⟩⟩ := h4.matched hm
  obtain ⟨hnear, hdist, ⟨s0, hs0⟩, hstep⟩ := hQ _ hmat hnorm
  have hMl : M.length = X.length := by
    have h0 := (hX.targets T).mpr rfl
    unfold Targets at h0
    simp only [Bool.false_eq_true, if_false] at h0
    rw [← h0.2.1.length_eq, h0.1, hil]
  have hM0 : M0.Perm M := (t1 M' hM'.medoids (by rw [hperm.length_eq, hMl, hsz])).trans hperm
  have hrest : ∀ i, ¬ (s.iter = 0 ∨ AtRestAny a.env.dist (mmdImages a s.state.X) M0
      (s.step.map fun r => euclNorm (r.take a.p.nVar)) i) := by
    rintro i (h | ⟨y, r, -, e1, e2, -, e3, -⟩)
    · exact hs.later h
    · obtain ⟨hi, e1⟩ := List.getElem?_eq_some_iff.mp e1
      have hi' : i < X.length := by rw [hil, hsz] at hi; exact hi
      have := (hdist i hi' r (hM0.mem_iff.mp e2)).2
      rw [List.getD_eq_getElem _ _ hi, e1] at this
      exact absurd ((le_abs_self _).trans e3) (not_le.mpr this)
  obtain ⟨dir, hdir⟩ : ∃ dir, s.ref.eta[0]? = some dir :=
    ⟨_, List.getElem?_eq_getElem (by rw [(hs.ready.matched hm).eta]; exact one_pos)⟩
  have hM1 : M1 = M0 := by
    refine List.ext_getElem hl1 fun i g1 g2 => ?_
    have := (((hsh i).1 _ dir (List.getElem?_eq_getElem g2) hdir).2 (hrest i)).1
    rw [List.getElem?_eq_getElem g1] at this
    exact Option.some.inj this
  have hhist : ∀ i, s'.hist i = s.hist i := by
    intro i
    by_cases hi : i < M0.length
    · exact (((hsh i).1 _ dir (List.getElem?_eq_getElem hi) hdir).2 (hrest i)).2
    · exact (hsh i).2 (not_lt.mp hi)
  subst hM1
  -- the targets are `T` whenever the points are near
  have htar : ∀ Z, IsMat X.length (a.p.nVar + a.p.nDual) Z →
      ‖unkM a X.length (solAt X) Z - unkM a X.length (solAt X) X‖ ≤ δ →
      ∀ T'', MmdTargets a (mmdImages a Z) M1 T'' → T'' = T := by
    intro Z hZ hZn T'' hT''
    unfold MmdTargets at hT''
    rw [if_pos hm] at hT''
    exact hstab _ (by rw [hil, hZ.1]) (fun i hi r hr => ((hQ Z hZ hZn).2.1 i hi r hr).1) T''
      (Verif.Opt.Targets.perm hT'' hM0)
  obtain rfl : T' = T := htar _ hmat hnorm _ h4.targets
  obtain ⟨hG, hH, hsy⟩ := h5.derivs hsm
  -- the step is the Newton step
  have hnw := h5.newton_keep (by
    rw [hsz] at hsy ⊢
    exact hK _ hmat hnorm H hH hsy) hsol ⟨flatStep a s0, by
    rw [hsz]
    refine (hnear.newton hG hH (s := s0) (fun i v => (flatStep_var s0 i v).symm) fun i k => ?_).mpr hs0
    by_cases hact : IsActive a.p ((solAt X i).take a.p.nVar) k
    · rw [if_pos hact, flatStep_dual]
    · rw [if_neg hact]
      have e2 := hs0
      rw [mmdMap_fderiv hmat.1 hH] at e2
      have e3 := congrFun (congrFun (congrArg Prod.snd e2) i) k
      simp only [if_neg hact, mmdMap, Prod.snd_neg, Pi.neg_apply, unkM, neg_zero] at e3
      exact e3⟩
  rw [hsz] at hnw
  obtain ⟨s1, hs1⟩ : ∃ s1 : MmdSpace a X.length, s1 = (fun (i : Fin X.length) (v : Fin a.p.nVar) => at2 s'.step i v,
    fun (i : Fin X.length) (k : Fin a.p.nDual) => if IsActive a.p ((solAt X i).take a.p.nVar) k then
      at2 s'.step i (a.p.nVar + k) else 0) := ⟨_, rfl⟩
  have hs1F := (hnear.newton hG hH (y := at2 s'.step) (s := s1) (fun i v => by rw [hs1]) (fun i k => by rw [hs1])).mp
    fun i hi => (hnw i hi).1
  obtain ⟨g1, g2, g3⟩ := hstep s1 hs1F
  have hunk : ∀ Z : List (List ℝ), (∀ i < X.length, ∀ c < a.p.nVar + a.p.nDual, pt (Z.getD i []) c =
      pt (s.state.X.getD i []) c + pt (s'.step.getD i []) c) →
      unkM a X.length (solAt X) Z = unkM a X.length (solAt X) s.state.X + s1 := by
    intro Z hZ
    rw [hs1]
    refine Prod.ext (funext fun i => funext fun v => hZ i i.2 v (by have := v.2; omega))
      (funext fun i => funext fun k => ?_)
    simp only [unkM, Prod.snd_add, Pi.add_apply]
    by_cases hact : IsActive a.p ((solAt X i).take a.p.nVar) k
    · rw [if_pos hact, if_pos hact, if_pos hact]
      exact hZ i i.2 _ (by have := k.2; omega)
    · rw [if_neg hact, if_neg hact, if_neg hact, add_zero]
  have hα : α = 1 := by
    unfold MmdnSearched MmdnSearchedBy at h6
    split at h6
    · exact h6
    · obtain ⟨j, -, rfl, hrej, -⟩ := h6
      rcases Nat.eq_zero_or_pos j with rfl | hj
      · simp
      · obtain ⟨v, ⟨T'', G', r, q1, q2, q3, q4⟩, hnot⟩ := hrej 0 hj
        rw [pow_zero] at q1 q2 q3 q4 hnot
        obtain ⟨w1, w2, w3⟩ := movedBy_shape (1 : ℝ) hmat.2 h7.2 (by rw [h7.1, hsz])
        have hZ : IsMat X.length (a.p.nVar + a.p.nDual) (movedBy s.state.X s'.step 1) := ⟨by rw [w1, hsz], w2⟩
        have hu := hunk (movedBy s.state.X s'.step 1) fun i hi c hc => by
          have := w3 i (by omega) c hc
          rw [one_mul] at this
          exact this
        have hZn : ‖unkM a X.length (solAt X) (movedBy s.state.X s'.step 1) - unkM a X.length (solAt X) X‖ ≤ δ := by
          rw [hu]
          exact g2.trans ((half_le_self (norm_nonneg _)).trans hnorm)
        obtain rfl : T'' = T' := htar _ hZ hZn _ q1
        rw [hZ.1] at q3 q4
        have b1 := ((hQ _ hZ hZn).1.norm_bounds (q2 hsm) q3).2
        have b2 := (hnear.norm_bounds hG (r := at2 s'.R) (by rw [← hsz]; exact h5.residual)).1
        rw [← Mmdn.frobNorm_eq h8] at b2
        rw [hu, ← q4] at b1
        refine absurd ?_ hnot
        have h0 : 0 ≤ frobNorm s'.R := (norm_nonneg _).trans b2
        left
        linarith
  subst hα
  have hX' : ∀ i < X.length, ∀ c < a.p.nVar + a.p.nDual, pt (s'.state.X.getD i []) c =
      pt (s.state.X.getD i []) c + pt (s'.step.getD i []) c := fun i hi c hc => by
    have := h9 i hi c hc
    rw [one_mul] at this
    exact this
  have hfin : ∀ ε, 0 ≤ ε → ε ≤ δ → WithinAll a X s.state.X ε →
      WithinAll a X s'.state.X (C * ε ^ 2) ∧ WithinAll a X s'.state.X (ε / 2) := by
    intro ε h0 _ hw
    have hw := (withinAll_iff h0).mp hw
    rw [withinAll_iff (mul_nonneg hC.le (sq_nonneg _)), withinAll_iff (by linarith), hunk _ hX']
    exact ⟨g1.trans (mul_le_mul_of_nonneg_left (pow_le_pow_left₀ (norm_nonneg _) hw 2) hC.le), by linarith⟩
  refine ⟨s', h1, h3, ⟨h2, by rw [h3]; omega, ⟨M2, p1, p2.trans hM0⟩, ?_⟩, hhist, hX', hfin⟩
  have hw := (withinAll_iff (by linarith)).mp (hfin δ hδ.le le_rfl hs.close).2
  exact (withinAll_iff hδ.le).mpr (hw.trans (half_le_self hδ.le))

/-- C86, the loop, for affine constraints: the distance to the solutions is at least halved in each iteration and converges to zero
quadratically. Missing are curved constraints (`C86_violated`). -/
theorem C86_run_partial {a : Mmdn} (ha : a.Ok) (hm : a.matching = true) (hsm : MmdSmooth a) (he : EuclideanDist a)
    (hsol : SolverSound a.solve) {X : List (List ℝ)} {M T : List (ℕ → ℝ)} (hp : MmdPrecondHarmless a X T)
    (hX : MmdRegularPop a X M T) :
    ∃ δ > 0, ∃ C > 0, ∀ s, MmdnNear a X M δ s → ∀ n, ∃ s', a.run n s = some s' ∧ s'.iter = s.iter + n ∧
      MmdnNear a X M δ s' ∧ (∀ i, s'.hist i = s.hist i) ∧
      ∀ ε, 0 ≤ ε → ε ≤ δ → WithinAll a X s.state.X ε →
        WithinAll a X s'.state.X (ε / 2 ^ n) ∧ WithinAll a X s'.state.X ((C * ε) ^ 2 ^ n / C) := by
  obtain ⟨δ, hδ, C, hC, h⟩ := C86_iteration_partial ha hm hsm he hsol hp hX
  refine ⟨δ, hδ, C, hC, fun s hs n => ?_⟩
  induction n generalizing s with
  | zero =>
    refine ⟨s, rfl, rfl, hs, fun _ => rfl, fun ε _ _ hw => ⟨by simpa using hw, ?_⟩⟩
    rw [pow_zero, pow_one, mul_div_cancel_left₀ _ hC.ne']
    exact hw
  | succ n ih =>
    obtain ⟨s1, h1, h2, h3, h4, -, h5⟩ := h s hs
    obtain ⟨s', g1, g2, g3, g4, g5⟩ := ih _ h3
    refine ⟨s', by rw [Mmdn.run, h1, Option.bind_some, g1], by rw [g2, h2]; omega, g3, fun i => (g4 i).trans (h4 i),
      fun ε h0 hε hw => ?_⟩
    obtain ⟨e1, e2⟩ := h5 ε h0 hε hw
    have q1 := (g5 (ε / 2) (by linarith) (by linarith) e2).1
    refine ⟨by rw [pow_succ', ← div_div]; exact q1, ?_⟩
    -- the smaller of the two bounds
    by_cases hb : C * ε ^ 2 ≤ δ
    · have q2 := (g5 (C * ε ^ 2) (by positivity) hb e1).2
      rw [pow_succ', pow_mul, mul_pow, pow_two C, mul_assoc]
      exact q2
    · have q2 := (g5 (ε / 2) (by linarith) (by linarith) e2).2
      have hpos : 0 ≤ (C * ε) ^ 2 ^ (n + 1) / C := by positivity
      have hpos' : 0 ≤ (C * (ε / 2)) ^ 2 ^ n / C := by positivity
      refine (withinAll_iff hpos).mpr (((withinAll_iff hpos').mp q2).trans ?_)
      refine div_le_div_of_nonneg_right ?_ hC.le
      rw [pow_succ', pow_mul]
      refine pow_le_pow_left₀ (by positivity) ?_ _
      nlinarith

end Verif.Props
