import Verif.Props.LocalConvMmd
import Verif.Props.LocalConvDpExample

/-!
# C86: an example

Two points with one variable, the objectives `(x, 1 - x)`, the constraints `-x ≤ 0` and `x - 1 ≤ 0` and the targets
`(-t, 1)` and `(1, -t)`: the population `0, 1`.
-/

namespace Verif.Props

open Verif.Opt Verif.HV Verif.Util Verif.Ind Topology

/-! ### Derivatives of smooth functions of a population -/

theorem lin2_of {N n : ℕ} (L : (Fin N → Fin n → ℝ) →L[ℝ] ℝ) : L = lin2 fun i v => L (unitAt i v) := by
  ext Z
  have e : Z = ∑ i, ∑ v, Z i v • unitAt i v := by
    funext j w
    rw [Finset.sum_apply, Finset.sum_apply, Finset.sum_eq_single j (fun i _ hi => ?_) (by simp)]
    · rw [Finset.sum_apply, Finset.sum_apply, Finset.sum_eq_single w (fun v _ hv => by simp [unitAt, hv.symm]) (by simp)]
      simp [unitAt]
    · simp [unitAt, hi.symm]
  conv_lhs => rw [e]
  rw [lin2_apply]
  simp only [map_sum, map_smul, smul_eq_mul]
  exact Finset.sum_congr rfl fun i _ => Finset.sum_congr rfl fun v _ => mul_comm _ _

/-- The table of a function of finite indices. -/
noncomputable def ext2 {N n : ℕ} (f : Fin N → Fin n → ℝ) : ℕ → ℕ → ℝ := fun i v =>
  if hi : i < N then if hv : v < n then f ⟨i, hi⟩ ⟨v, hv⟩ else 0 else 0

theorem ext2_fin {N n : ℕ} (f : Fin N → Fin n → ℝ) (i : Fin N) (v : Fin n) : ext2 f i v = f i v := by simp [ext2]

theorem exists_mmdGrad {a : Mmdn} {T : List (ℕ → ℝ)} {X : List (List ℝ)}
    (h : ContDiffAt ℝ 3 (fun Z : Fin X.length → Fin a.p.nVar → ℝ => mmdValue a T fun i => objVec a (Z i))
      fun i v => pt (X.getD i []) v) : ∃ G, MmdGrad a T X G := by
  refine ⟨ext2 fun i v => fderiv ℝ (fun Z : Fin X.length → Fin a.p.nVar → ℝ => mmdValue a T fun i => objVec a (Z i))
    (fun i v => pt (X.getD i []) v) (unitAt i v), ?_⟩
  unfold MmdGrad
  simp only [ext2_fin]
  rw [← lin2_of]
  exact (h.differentiableAt (by norm_num)).hasFDerivAt

theorem exists_mmdHess {a : Mmdn} {T : List (ℕ → ℝ)} {X : List (List ℝ)}
    (h : ContDiffAt ℝ 3 (fun Z : Fin X.length → Fin a.p.nVar → ℝ => mmdValue a T fun i => objVec a (Z i))
      fun i v => pt (X.getD i []) v) : ∃ H, MmdHess a T X H := by
  obtain ⟨D, hD⟩ : ∃ D, HasFDerivAt (fderiv ℝ (fun Z : Fin X.length → Fin a.p.nVar → ℝ => mmdValue a T fun i => objVec a (Z i)))
      D (fun i v => pt (X.getD i []) v) :=
    ⟨_, ((h.fderiv_right (m := 2) (by norm_num)).differentiableAt (by norm_num)).hasFDerivAt⟩
  refine ⟨fun i v => ext2 fun (j : Fin X.length) (w : Fin a.p.nVar) =>
    ext2 (fun (i : Fin X.length) (v : Fin a.p.nVar) => D (unitAt j w) (unitAt i v)) i v, fun V => ?_⟩
  have h1 := hD.clm_apply (hasFDerivAt_const V _)
  refine h1.congr_fderiv ((lin2_of _).trans ?_)
  congr 1
  funext j w
  simp only [ext2_fin]
  have h2 := congrArg (fun L => L V) (lin2_of (D (unitAt j w)))
  simp only [lin2_apply] at h2
  simp only [ContinuousLinearMap.add_apply, ContinuousLinearMap.comp_apply, ContinuousLinearMap.zero_apply, map_zero,
    zero_add, ContinuousLinearMap.flip_apply]
  rw [h2]
  exact Finset.sum_congr rfl fun i _ => Finset.sum_congr rfl fun v _ => mul_comm _ _

/-! ### Two points with constraints -/

def edgeFuncs : Funcs ℝ where
  nVar := 1
  nEq := 0
  nIeq := 2
  func := ⟨fun x => [x.getD 0 0, 1 - x.getD 0 0], none⟩
  jac := ⟨fun _ => [1, -1], none⟩
  h := none
  hJac := none
  hHess := none
  g := some ⟨fun x => [-x.getD 0 0, x.getD 0 0 - 1], none⟩
  gJac := some ⟨fun _ => [-1, 1], none⟩
  gHess := none

theorem edgeFuncs_ok : edgeFuncs.Ok 2 where
  func := ⟨fun b hb => by simp [edgeFuncs] at hb, fun _ _ => rfl⟩
  jac := ⟨fun b hb => by simp [edgeFuncs] at hb, fun _ _ => rfl⟩
  h := by rintro c hc; simp [edgeFuncs] at hc
  g := by rintro c hc; obtain rfl := Option.some.inj hc; exact ⟨fun b hb => by simp at hb, fun _ _ => rfl⟩
  hJac := by rintro c hc; simp [edgeFuncs] at hc
  gJac := by rintro c hc; obtain rfl := Option.some.inj hc; exact ⟨fun b hb => by simp at hb, fun _ _ => rfl⟩
  hHess := by rintro c hc; simp [edgeFuncs] at hc
  gHess := by rintro c hc; simp [edgeFuncs] at hc

noncomputable def edgeMmdn : Mmdn where
  p := edgeFuncs
  nObj := 2
  hess := fun _ => [0, 0]
  matching := true
  kernel := autodiff (rbf 1)
  xl := [0]
  xu := [1]
  env := bruteEnv (fun y r => √((y 0 - r 0) ^ 2 + (y 1 - r 1) ^ 2)) fun _ _ => 0
  solve := oneSolve
  precond := id

theorem edgeMmdn_ok : edgeMmdn.Ok where
  funcs := edgeFuncs_ok
  env := bruteEnv_sound _ _
  nonneg := fun _ _ => Real.sqrt_nonneg _
  xl := rfl
  xu := rfl
  solve := fun A b _ => oneSolve_length A b
  precond := fun _ _ h => h
  jac := fun _ => by simp [Funcs.hasJac, edgeMmdn, edgeFuncs]

theorem edgeMmdn_smooth : MmdSmooth edgeMmdn where
  jac := (lineMmdn_smooth true).jac
  hess := (lineMmdn_smooth true).hess
  symm := rbf_symm 1
  stationary := stationary_rbf 1
  diff := fun _ _ => autodiff_diff2At (contDiff_rbf 1).contDiffAt

theorem edgeMmdn_dist : EuclideanDist edgeMmdn := fun y r => by
  show √_ = √_
  rw [show edgeMmdn.nObj = 2 from rfl, Finset.sum_range_succ, Finset.sum_range_one]

/-- The population with the multipliers `l` and `m` of the active constraints. -/
def edgePop (l m : ℝ) : List (List ℝ) := [[0, l, 0], [1, 0, m]]

theorem edge_images (l m : ℝ) : mmdImages edgeMmdn (edgePop l m) = [pt [0, 1], pt [1, 0]] := by
  simp [mmdImages, edgePop, edgeMmdn, edgeFuncs]

theorem contDiff3_rbf {m : ℕ} (theta : ℝ) :
    ContDiff ℝ 3 fun z : (Fin m → ℝ) × (Fin m → ℝ) => rbf theta z.1 z.2 := by
  unfold rbf
  fun_prop

theorem edge_contDiff {N : ℕ} (T : List (ℕ → ℝ)) :
    ContDiff ℝ 3 (fun Z : Fin N → Fin edgeMmdn.p.nVar → ℝ => mmdValue edgeMmdn T fun i => objVec edgeMmdn (Z i)) := by
  have hobj : ∀ i : Fin N, ContDiff ℝ 3 (fun Z : Fin N → Fin edgeMmdn.p.nVar → ℝ => objVec edgeMmdn (Z i)) := by
    intro i
    refine contDiff_pi.mpr fun k => ?_
    have h0 : ContDiff ℝ 3 (fun Z : Fin N → Fin 1 → ℝ => Z i 0) := by fun_prop
    show ContDiff ℝ 3 (fun Z : Fin N → Fin 1 → ℝ => pt [Z i 0, 1 - Z i 0] k)
    have hk : (k : ℕ) < 2 := k.2
    obtain ⟨k, hk'⟩ := k
    simp only at hk ⊢
    interval_cases k
    · exact h0
    · exact contDiff_const.sub h0
  have hk : ∀ f g : (Fin N → Fin edgeMmdn.p.nVar → ℝ) → Fin 2 → ℝ, ContDiff ℝ 3 f → ContDiff ℝ 3 g →
      ContDiff ℝ 3 (fun Z => rbf 1 (f Z) (g Z)) := fun f g hf hg =>
    (contDiff3_rbf 1).comp (hf.prodMk hg)
  simp only [mmdValue, if_pos (show edgeMmdn.matching = true from rfl), mmdmOf]
  refine ContDiff.add (contDiff_const.mul (ContDiff.div_const (ContDiff.sum fun i _ => ContDiff.sum fun j _ => ?_) _))
    (ContDiff.div_const (ContDiff.sum fun i _ => contDiff_const.sub (contDiff_const.mul ?_)) _)
  · exact hk _ _ (hobj i) (hobj j)
  · exact hk _ _ (hobj i) contDiff_const

theorem edge_active (x : ℝ) (k : ℕ) (hk : k < 2) (rest : List ℝ) :
    (IsActive edgeMmdn.p ((x :: rest).take edgeMmdn.p.nVar) k ↔ -(1 / 10 ^ 4) ≤ if k = 0 then -x else x - 1) ∧
    cVal edgeMmdn.p ((x :: rest).take edgeMmdn.p.nVar) k = (if k = 0 then -x else x - 1) ∧
    cGrad edgeMmdn.p ((x :: rest).take edgeMmdn.p.nVar) k 0 = if k = 0 then -1 else 1 := by
  interval_cases k <;>
    simp [IsActive, cVal, cGrad, edgeMmdn, edgeFuncs, Funcs.rowCstr, Funcs.rowGrad, valOf, pt]

theorem edge_regular {t : ℝ} (ht : 1 / 10 ^ 8 < t) : ∃ l m, MmdRegularPop edgeMmdn (edgePop l m) (rootsTargets t) (rootsTargets t) := by
  have ht0 : 0 < t := lt_trans (by norm_num) ht
  obtain ⟨G, hG⟩ := exists_mmdGrad (a := edgeMmdn) (T := rootsTargets t) (X := edgePop 0 0) (edge_contDiff _).contDiffAt
  have hpts : ∀ l m : ℝ, (fun (i : Fin 2) (v : Fin 1) => pt ((edgePop l m).getD i []) v) =
      fun (i : Fin 2) (v : Fin 1) => pt ((edgePop 0 0).getD i []) v := by
    intro l m; funext i v; fin_cases i <;> fin_cases v <;> rfl
  refine ⟨G 0 0, -G 1 0, ?_⟩
  set X := edgePop (G 0 0) (-G 1 0) with hX
  have hlen : X.length = 2 := rfl
  have a0 := fun k hk => edge_active 0 k hk [G 0 0, 0]
  have a1 := fun k hk => edge_active 1 k hk [0, -G 1 0]
  have act00 : IsActive edgeMmdn.p ((X.getD 0 []).take edgeMmdn.p.nVar) 0 := (a0 0 (by norm_num)).1.mpr (by norm_num)
  have act01 : ¬ IsActive edgeMmdn.p ((X.getD 0 []).take edgeMmdn.p.nVar) 1 := fun h => by
    have := (a0 1 (by norm_num)).1.mp h
    norm_num at this
  have act10 : ¬ IsActive edgeMmdn.p ((X.getD 1 []).take edgeMmdn.p.nVar) 0 := fun h => by
    have := (a1 0 (by norm_num)).1.mp h
    norm_num at this
  have act11 : IsActive edgeMmdn.p ((X.getD 1 []).take edgeMmdn.p.nVar) 1 := (a1 1 (by norm_num)).1.mpr (by norm_num)
  have g00 : cGrad edgeMmdn.p ((X.getD 0 []).take edgeMmdn.p.nVar) 0 0 = -1 := (a0 0 (by norm_num)).2.2
  have g11 : cGrad edgeMmdn.p ((X.getD 1 []).take edgeMmdn.p.nVar) 1 0 = 1 := (a1 1 (by norm_num)).2.2
  have hn : edgeMmdn.p.nVar = 1 := rfl
  have hd : edgeMmdn.p.nDual = 2 := rfl
  exact
    { rows := fun x hx => by
        simp only [hX, edgePop, List.mem_cons, List.not_mem_nil, or_false] at hx
        rcases hx with rfl | rfl <;> rfl
      affine := fun k hk => by
        have hk : k < 2 := hk
        intro q q' hq hq'
        have hq : q.length = 1 := hq
        have hq' : q'.length = 1 := hq'
        obtain ⟨x, rfl⟩ := List.length_eq_one_iff.mp hq
        obtain ⟨y, rfl⟩ := List.length_eq_one_iff.mp hq'
        have e1 := edge_active x k hk []
        have e2 := edge_active y k hk []
        simp only [hn, List.take_succ_cons, List.take_zero] at e1 e2
        rw [hn, Finset.sum_range_one, e1.2.1, e2.2.1, e1.2.2]
        interval_cases k <;> simp [pt] <;> ring
      smooth := (edge_contDiff _).contDiffAt
      first := by
        refine ⟨G, ?_, fun i hi => ?_⟩
        · unfold MmdGrad at hG ⊢
          exact (hpts (G 0 0) (-G 1 0)) ▸ hG
        · have hi : i < 2 := hi
          interval_cases i
          · refine ⟨fun v hv => ?_, fun k hk hact => ?_⟩
            · obtain rfl : v = 0 := Nat.lt_one_iff.mp hv
              rw [hd, Finset.sum_range_succ, Finset.sum_range_one, if_pos act00, if_neg act01, g00]
              show G 0 0 + (G 0 0 * -1 + 0) = 0
              ring
            · have hk : k < 2 := hk
              interval_cases k
              · exact (a0 0 (by norm_num)).2.1.trans (by norm_num)
              · exact absurd hact act01
          · refine ⟨fun v hv => ?_, fun k hk hact => ?_⟩
            · obtain rfl : v = 0 := Nat.lt_one_iff.mp hv
              rw [hd, Finset.sum_range_succ, Finset.sum_range_one, if_neg act10, if_pos act11, g11]
              show G 1 0 + (0 + -G 1 0 * 1) = 0
              ring
            · have hk : k < 2 := hk
              interval_cases k
              · exact absurd hact act10
              · exact (a1 1 (by norm_num)).2.1.trans (by norm_num)
      regular := by
        obtain ⟨H, hH⟩ := exists_mmdHess (a := edgeMmdn) (T := rootsTargets t) (X := X) (edge_contDiff _).contDiffAt
        refine ⟨H, hH, fun z h1 h2 => ?_⟩
        rw [hn] at act00 act01 act10 act11 g00 g11
        have z0 : z 0 0 = 0 := by
          have := h2 0 (by norm_num [hlen]) 0 (by norm_num [hd]) act00
          rw [hn, Finset.sum_range_one, g00] at this
          linarith
        have z1 : z 1 0 = 0 := by
          have := h2 1 (by norm_num [hlen]) 1 (by norm_num [hd]) act11
          rw [hn, Finset.sum_range_one, g11] at this
          linarith
        have hz : ∀ i, ∑ j ∈ Finset.range 2, ∑ w ∈ Finset.range 1, H i 0 j w * z j w = 0 := fun i => by
          rw [Finset.sum_range_succ, Finset.sum_range_one, Finset.sum_range_one, Finset.sum_range_one, z0, z1]
          ring
        intro i hi
        have hi : i < 2 := hi
        interval_cases i
        · have e := h1 0 (by norm_num [hlen]) 0 one_pos
          rw [hlen, hn, hz 0, hd, Finset.sum_range_succ, Finset.sum_range_one, if_pos act00, if_neg act01] at e
          rw [g00] at e
          refine ⟨fun v hv => ?_, fun k hk hact => ?_⟩
          · obtain rfl : v = 0 := Nat.lt_one_iff.mp hv
            exact z0
          · have hk : k < 2 := hk
            interval_cases k
            · show z 0 (1 + 0) = 0
              linarith
            · exact absurd hact act01
        · have e := h1 1 (by norm_num [hlen]) 0 one_pos
          rw [hlen, hn, hz 1, hd, Finset.sum_range_succ, Finset.sum_range_one, if_neg act10, if_pos act11] at e
          rw [g11] at e
          refine ⟨fun v hv => ?_, fun k hk hact => ?_⟩
          · obtain rfl : v = 0 := Nat.lt_one_iff.mp hv
            exact z1
          · have hk : k < 2 := hk
            interval_cases k
            · exact absurd hact act10
            · show z 1 (1 + 1) = 0
              linarith
      targets := fun T' => by
        rw [edge_images]
        exact roots_targets .igd false false ht0 T'
      unattained := fun i hi r hr => by
        obtain ⟨d1, d2, d3, d4⟩ := rootsTargets_dist .igd false ht0
        have h5 := lt_far ht0
        rw [edge_images]
        have hi : i < 2 := hi
        simp only [rootsTargets, List.mem_cons, List.not_mem_nil, or_false] at hr
        have hdist : edgeMmdn.env.dist = (rootsDpn .igd false).env.dist := rfl
        rw [hdist]
        interval_cases i <;> rcases hr with rfl | rfl <;>
          simp only [List.getD_cons_zero, List.getD_cons_succ, d1, d2, d3, d4] <;> linarith }

theorem edge_near_state (l m t : ℝ) {δ : ℝ} (hδ : 0 < δ) :
    ∃ s, MmdnNear edgeMmdn (edgePop l m) (rootsTargets t) δ s ∧ (s.state.X.getD 0 []).getD 0 0 = δ := by
  obtain ⟨u, -, u2, u3, -⟩ := Usable.update edgeMmdn_ok.funcs (Nat.le_add_right edgeMmdn.p.nVar edgeMmdn.p.nDual)
    State.init (N0 := 2) (X := [[δ, l, 0], [1, 0, m]]) (by simp) (by simp)
    (by intro x hx; simp only [List.mem_cons, List.not_mem_nil, or_false] at hx; rcases hx with rfl | rfl <;> rfl)
  refine ⟨⟨u, rootsRef t, 0, 1, [[], []], [], fun _ => []⟩, ⟨⟨u3, by rw [u2]; rfl, fun _ => ?_, fun h => ?_, fun _ => rfl⟩,
    one_ne_zero, ⟨rootsTargets t, ⟨rfl, rfl, rfl⟩, List.Perm.refl _⟩, fun i hi => ?_⟩, by rw [u2]; rfl⟩
  · exact ⟨⟨_, rfl, le_rfl⟩, rfl, rfl, rfl⟩
  · simp [edgeMmdn] at h
  · have hi : i < 2 := hi
    rw [u2]
    refine ⟨fun v hv => ?_, fun k hk _ => ?_⟩
    · obtain rfl : v = 0 := Nat.lt_one_iff.mp hv
      interval_cases i
      · simp [edgePop, pt, abs_of_pos hδ]
      · simp [edgePop, pt, hδ.le]
    · have hk : k < 2 := hk
      interval_cases i <;> interval_cases k <;> simp [edgePop, pt, edgeMmdn, edgeFuncs, hδ.le]

/-- The hypotheses of `C86_iteration_partial` and `C86_run_partial`: after `n` iterations the first point is within `δ / 2 ^ n` of 0, and
within `(C δ) ^ 2 ^ n / C`. -/
example {t : ℝ} (ht : 1 / 10 ^ 8 < t) :
    ∃ δ > 0, ∃ C > 0, ∃ s, (s.state.X.getD 0 []).getD 0 0 = δ ∧ ∀ n, ∃ s',
    edgeMmdn.run n s = some s' ∧ |pt (s'.state.X.getD 0 []) 0 - 0| ≤ δ / 2 ^ n ∧
      |pt (s'.state.X.getD 0 []) 0 - 0| ≤ (C * δ) ^ 2 ^ n / C := by
  obtain ⟨l, m, hr⟩ := edge_regular ht
  obtain ⟨δ, hδ, C, hC, h⟩ := C86_run_partial edgeMmdn_ok rfl edgeMmdn_smooth edgeMmdn_dist oneSolve_sound (.inl fun _ => rfl) hr
  obtain ⟨s, hs, hs0⟩ := edge_near_state l m t hδ
  refine ⟨δ, hδ, C, hC, s, hs0, fun n => ?_⟩
  obtain ⟨s', h1, -, -, -, h2⟩ := h s hs n
  obtain ⟨g1, g2⟩ := h2 δ hδ.le le_rfl hs.close
  exact ⟨s', h1, (g1 0 (by simp [edgePop])).1 0 one_pos, (g2 0 (by simp [edgePop])).1 0 one_pos⟩

end Verif.Props
