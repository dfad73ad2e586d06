import Verif.Props.LocalConvHv

/-!
# C77: an example

Two points with one variable, the objectives `(x, 1 - x)`, the equality constraint `x² - x = 0` and the reference point
`(3, 3)`: the population `0, 1` with multipliers `-1, -1`.
-/

namespace Verif.Props

open Verif.Opt Verif.HV Verif.HVD Verif.Util Verif.NDS Topology

/-- `f(x) = (x, 1 - x)` with the constraint `x² - x = 0`. -/
def rootsFuncs : Funcs ℝ where
  nVar := 1
  nEq := 1
  nIeq := 0
  func := ⟨fun x => [x.getD 0 0, 1 - x.getD 0 0], none⟩
  jac := ⟨fun _ => [1, -1], none⟩
  h := some ⟨fun x => [x.getD 0 0 * x.getD 0 0 - x.getD 0 0], none⟩
  hJac := some ⟨fun x => [2 * x.getD 0 0 - 1], none⟩
  hHess := some ⟨fun _ => [2], none⟩
  g := none
  gJac := none
  gHess := none

theorem rootsFuncs_ok : rootsFuncs.Ok 2 where
  func := ⟨fun b hb => by simp [rootsFuncs] at hb, fun _ _ => rfl⟩
  jac := ⟨fun b hb => by simp [rootsFuncs] at hb, fun _ _ => rfl⟩
  h := by rintro c hc; obtain rfl := Option.some.inj hc; exact ⟨fun b hb => by simp at hb, fun _ _ => rfl⟩
  g := by rintro c hc; simp [rootsFuncs] at hc
  hJac := by rintro c hc; obtain rfl := Option.some.inj hc; exact ⟨fun b hb => by simp at hb, fun _ _ => rfl⟩
  gJac := by rintro c hc; simp [rootsFuncs] at hc
  hHess := by rintro c hc; obtain rfl := Option.some.inj hc; exact ⟨fun b hb => by simp at hb, fun _ _ => rfl⟩
  gHess := by rintro c hc; simp [rootsFuncs] at hc

/-- A Cholesky factorization. -/
noncomputable def rootsChol : Chol := fun n => (exists_isCholesky n).choose

noncomputable def rootsHvn : Hvn ℝ where
  p := rootsFuncs
  nObj := 2
  ref := [3, 3]
  hess := fun _ => [0, 0]
  xl := [-1]
  xu := [2]
  limit := false
  eps := 1 / 10 ^ 8
  fuel := 100
  argsort := stableArgsort
  dist := sumDist
  norm := fun R => frobenius R.length 2 R
  solve := oneSolve
  precond := precondTableNeg rootsChol

theorem rootsHvn_ok : rootsHvn.Ok 2 where
  funcs := rootsFuncs_ok
  two := le_rfl
  fuel := by show depthBound 2 2 ≤ 100; decide
  argsort := stableArgsort_isArgsort
  solve := fun A b _ => oneSolve_length A b
  precond := fun _ _ h => precondTableNeg_isMat _ h
  nonneg := sumDist_nonneg
  symm := sumDist_symm
  jac := fun _ => by simp [Funcs.hasJac, rootsHvn, rootsFuncs]

theorem rootsHvn_plain : PlainHvn rootsHvn where
  norm := fun N R hR => by
    show frobenius R.length 2 R = _
    rw [hR.1]
    rfl
  dist := fun x y hx hy d hd => by
    obtain rfl : d = 0 := Nat.lt_one_iff.mp hd
    obtain ⟨x, rfl⟩ := List.length_eq_one_iff.mp hx
    obtain ⟨y, rfl⟩ := List.length_eq_one_iff.mp hy
    simp [pt, rootsHvn, sumDist]
  symm := fun q k hk v hv w hw => by
    obtain rfl : v = 0 := Nat.lt_one_iff.mp hv
    obtain rfl : w = 0 := Nat.lt_one_iff.mp hw
    rfl

theorem smooth3_one {φ φ' φ'' : ℝ → ℝ} (h0 : ContDiff ℝ 3 φ) (h1 : ∀ x, HasDerivAt φ (φ' x) x)
    (h2 : ∀ x, HasDerivAt φ' (φ'' x) x) {f : List ℝ → ℝ} {g : List ℝ → ℕ → ℝ} {h : List ℝ → ℕ → ℕ → ℝ}
    (hf : ∀ x : ℝ, f [x] = φ x) (hg : ∀ x : ℝ, g [x] 0 = φ' x) (hh : ∀ x : ℝ, h [x] 0 0 = φ'' x) (q : List ℝ) :
    Smooth3 1 f g h q := by
  have e : ∀ x : Fin 1 → ℝ, List.ofFn x = [x 0] := fun x => by simp
  have d : ∀ {ψ : ℝ → ℝ} {m : ℝ} {x : Fin 1 → ℝ}, HasDerivAt ψ m (x 0) →
      fderiv ℝ (fun x : Fin 1 → ℝ => ψ (x 0)) x (Pi.single 0 1) = m := by
    intro ψ m x hψ
    have := hψ.comp_hasFDerivAt x (hasFDerivAt_apply (𝕜 := ℝ) (0 : Fin 1) x)
    rw [show (fun x : Fin 1 → ℝ => ψ (x 0)) = ψ ∘ fun x => x 0 from rfl, this.fderiv]
    simp
  constructor
  · simp only [e, hf]
    exact (h0.comp (contDiff_apply ℝ ℝ (0 : Fin 1))).contDiffAt
  · refine Filter.Eventually.of_forall fun x v => ?_
    obtain rfl : v = 0 := Subsingleton.elim _ _
    simp only [e, hf]
    rw [d (h1 (x 0))]
    exact hg _
  · refine Filter.Eventually.of_forall fun x v w => ?_
    obtain rfl : v = 0 := Subsingleton.elim _ _
    obtain rfl : w = 0 := Subsingleton.elim _ _
    have e' : (fun x : Fin 1 → ℝ => g (List.ofFn x) ((0 : Fin 1) : ℕ)) = fun x => φ' (x 0) := by
      funext x
      rw [e]
      exact hg _
    rw [e', d (h2 (x 0)), e]
    exact hh _

/-- The population. -/
def rootsX : List (List ℝ) := [[0, -1], [1, -1]]

theorem roots_mem {i c : ℕ} (hi : i < 2) (hc : c < 2) : (i, c) ∈ unknowns rootsHvn rootsX := by
  rw [mem_unknowns]
  refine ⟨⟨hi, hc⟩, Or.inr (Or.inl ?_)⟩
  show c - 1 < 1
  omega

/-- An unknown. -/
def ru (i c : ℕ) (hi : i < 2 := by norm_num) (hc : c < 2 := by norm_num) : unknowns rootsHvn rootsX :=
  ⟨(i, c), roots_mem hi hc⟩

theorem roots_cases {p : unknowns rootsHvn rootsX → Prop} (h00 : p (ru 0 0)) (h01 : p (ru 0 1)) (h10 : p (ru 1 0))
    (h11 : p (ru 1 1)) (q) : p q := by
  obtain ⟨⟨i, c⟩, hm⟩ := q
  obtain ⟨⟨hi, hc⟩, -⟩ := mem_unknowns.mp hm
  have hi : i < 2 := hi
  have hc : c < 2 := hc
  interval_cases i <;> interval_cases c
  · exact h00
  · exact h01
  · exact h10
  · exact h11

/-- The Lagrangian near the population. -/
def rootsQ (z : unknowns rootsHvn rootsX → ℝ) : ℝ :=
  (3 - z (ru 0 0)) * (2 + z (ru 0 0)) + (3 - z (ru 1 0)) * (2 + z (ru 1 0)) - (3 - z (ru 1 0)) * (2 + z (ru 0 0)) +
    (z (ru 0 1) * (z (ru 0 0) * z (ru 0 0) - z (ru 0 0)) + z (ru 1 1) * (z (ru 1 0) * z (ru 1 0) - z (ru 1 0)))

theorem roots_hvol {x y : ℝ} (h0 : -2 ≤ x) (hxy : x ≤ y) (h3 : y ≤ 3) :
    Spec.hvol 2 [pt [x, 1 - x], pt [y, 1 - y]] (pt [3, 3]) =
      (3 - x) * (2 + x) + (3 - y) * (2 + y) - (3 - y) * (2 + x) := by
  have e : [pt [x, 1 - x], pt [y, 1 - y]] = (List.range 2).map fun i => if i = 0 then pt [x, 1 - x] else pt [y, 1 - y] := by
    simp [List.range_succ]
  rw [e, hvol_inclusion (top := fun u k => if k = 0 then (if 1 ∈ u then 1 else 0) else if 0 ∈ u then 0 else 1)]
  · rw [show (Finset.range 2).powerset.filter Finset.Nonempty = {{0}, {1}, {0, 1}} from by decide]
    rw [Finset.sum_insert (by decide), Finset.sum_insert (by decide), Finset.sum_singleton]
    simp [Finset.prod_range_succ, pt]
    ring
  · intro i hi k hk
    interval_cases i <;> interval_cases k <;> simp [pt] <;> linarith
  · intro u hu hne k hk
    obtain ⟨i, hi⟩ := hne
    have hi2 := Finset.mem_range.mp (hu hi)
    interval_cases k
    · by_cases h1 : 1 ∈ u
      · simp [h1]
      · interval_cases i
        · simp [h1, hi]
        · exact absurd hi h1
    · by_cases h1 : 0 ∈ u
      · simp [h1]
      · interval_cases i
        · exact absurd hi h1
        · simp [h1, hi]
  · intro u hu hne k hk j hj
    have hj2 := Finset.mem_range.mp (hu hj)
    interval_cases k <;> interval_cases j <;> by_cases h1 : 1 ∈ u <;> by_cases h0 : 0 ∈ u <;> simp_all [pt] <;> linarith

theorem roots_lagr {z : unknowns rootsHvn rootsX → ℝ} (h0 : -2 ≤ z (ru 0 0)) (hxy : z (ru 0 0) ≤ z (ru 1 0))
    (h3 : z (ru 1 0) ≤ 3) : lagr rootsHvn rootsX z = rootsQ z := by
  have f : ∀ i c (hi : i < 2) (hc : c < 2), fill (unknowns rootsHvn rootsX) z i c = z (ru i c hi hc) := fun i c hi hc => by
    rw [fill, dif_pos (roots_mem hi hc)]
    rfl
  unfold lagr lagrangian rootsQ
  congr 1
  · rw [hvX, show rootsX.length = 2 from rfl, show rootsHvn.problem.nObj = 2 from rfl,
      show rootsHvn.problem.ref = pt [3, 3] from rfl, ← roots_hvol h0 hxy h3]
    congr 1
  · have hact : ∀ i, IsActive rootsHvn.p (varsOf rootsHvn rootsX i) 0 := fun i => Or.inl (by show 0 < 1; norm_num)
    rw [show rootsX.length = 2 from rfl, show rootsHvn.p.nDual = 1 from rfl, Finset.sum_range_succ, Finset.sum_range_one,
      Finset.sum_range_one, Finset.sum_range_one, if_pos (hact 0), if_pos (hact 1), show rootsHvn.p.nVar + 0 = 1 from rfl, f 0 1 (by norm_num) (by norm_num),
      f 1 1 (by norm_num) (by norm_num)]
    have e : ∀ i (hi : i < 2), cVal rootsHvn.p (rootsHvn.coords (fill (unknowns rootsHvn rootsX) z i)) 0 =
        z (ru i 0 hi) * z (ru i 0 hi) - z (ru i 0 hi) := fun i hi => by
      rw [← f i 0 hi (by norm_num)]
      rfl
    rw [e 0 (by norm_num), e 1 (by norm_num)]

abbrev rp (i c : ℕ) (hi : i < 2 := by norm_num) (hc : c < 2 := by norm_num) :
    (unknowns rootsHvn rootsX → ℝ) →L[ℝ] ℝ := ContinuousLinearMap.proj (ru i c hi hc)

/-- The derivative of `rootsQ`. -/
noncomputable def rootsQ' (z : unknowns rootsHvn rootsX → ℝ) : (unknowns rootsHvn rootsX → ℝ) →L[ℝ] ℝ :=
  (-2 - 2 * z (ru 0 0) + z (ru 1 0) + z (ru 0 1) * (2 * z (ru 0 0) - 1)) • rp 0 0 +
  (3 - 2 * z (ru 1 0) + z (ru 0 0) + z (ru 1 1) * (2 * z (ru 1 0) - 1)) • rp 1 0 +
  (z (ru 0 0) * z (ru 0 0) - z (ru 0 0)) • rp 0 1 + (z (ru 1 0) * z (ru 1 0) - z (ru 1 0)) • rp 1 1

theorem rootsQ_deriv (z : unknowns rootsHvn rootsX → ℝ) : HasFDerivAt rootsQ (rootsQ' z) z := by
  have x : HasFDerivAt (fun z : unknowns rootsHvn rootsX → ℝ => z (ru 0 0)) (rp 0 0) z := hasFDerivAt_apply _ _
  have y : HasFDerivAt (fun z : unknowns rootsHvn rootsX → ℝ => z (ru 1 0)) (rp 1 0) z := hasFDerivAt_apply _ _
  have l : HasFDerivAt (fun z : unknowns rootsHvn rootsX → ℝ => z (ru 0 1)) (rp 0 1) z := hasFDerivAt_apply _ _
  have m : HasFDerivAt (fun z : unknowns rootsHvn rootsX → ℝ => z (ru 1 1)) (rp 1 1) z := hasFDerivAt_apply _ _
  have h := ((((x.const_sub 3).fun_mul (x.const_add 2)).fun_add ((y.const_sub 3).fun_mul (y.const_add 2))).fun_sub
    ((y.const_sub 3).fun_mul (x.const_add 2))).fun_add
      ((l.fun_mul ((x.fun_mul x).fun_sub x)).fun_add (m.fun_mul ((y.fun_mul y).fun_sub y)))
  refine h.congr_fderiv (ContinuousLinearMap.ext fun s => ?_)
  simp only [ContinuousLinearMap.add_apply, ContinuousLinearMap.sub_apply, ContinuousLinearMap.smul_apply, ContinuousLinearMap.neg_apply,
    ContinuousLinearMap.smulRight_apply, ContinuousLinearMap.zero_apply, ContinuousLinearMap.proj_apply, smul_eq_mul, rootsQ']
  ring

theorem roots_near : lagr rootsHvn rootsX =ᶠ[𝓝 (entries (unknowns rootsHvn rootsX) rootsX)] rootsQ := by
  have hc : ∀ q : unknowns rootsHvn rootsX, Continuous fun z : unknowns rootsHvn rootsX → ℝ => z q := fun q => continuous_apply q
  have h1 : ∀ᶠ z in 𝓝 (entries (unknowns rootsHvn rootsX) rootsX), -2 < z (ru 0 0) :=
    continuousAt_const.eventually_lt (hc _).continuousAt (by simp [entries, ru, rootsX, at2])
  have h2 : ∀ᶠ z in 𝓝 (entries (unknowns rootsHvn rootsX) rootsX), z (ru 0 0) < z (ru 1 0) :=
    (hc _).continuousAt.eventually_lt (hc _).continuousAt (by simp [entries, ru, rootsX, at2])
  have h3 : ∀ᶠ z in 𝓝 (entries (unknowns rootsHvn rootsX) rootsX), z (ru 1 0) < 3 :=
    (hc _).continuousAt.eventually_lt continuousAt_const (by simp [entries, ru, rootsX, at2])
  filter_upwards [h1, h2, h3] with z a b c
  exact roots_lagr a.le b.le c.le

theorem rootsQ'_deriv (z : unknowns rootsHvn rootsX → ℝ) (s : unknowns rootsHvn rootsX → ℝ) :
    fderiv ℝ rootsQ' z s =
      (-2 * s (ru 0 0) + s (ru 1 0) + (z (ru 0 1) * (2 * s (ru 0 0)) + (2 * z (ru 0 0) - 1) * s (ru 0 1))) • rp 0 0 +
      (-2 * s (ru 1 0) + s (ru 0 0) + (z (ru 1 1) * (2 * s (ru 1 0)) + (2 * z (ru 1 0) - 1) * s (ru 1 1))) • rp 1 0 +
      (2 * z (ru 0 0) * s (ru 0 0) - s (ru 0 0)) • rp 0 1 + (2 * z (ru 1 0) * s (ru 1 0) - s (ru 1 0)) • rp 1 1 := by
  have x : HasFDerivAt (fun z : unknowns rootsHvn rootsX → ℝ => z (ru 0 0)) (rp 0 0) z := hasFDerivAt_apply _ _
  have y : HasFDerivAt (fun z : unknowns rootsHvn rootsX → ℝ => z (ru 1 0)) (rp 1 0) z := hasFDerivAt_apply _ _
  have l : HasFDerivAt (fun z : unknowns rootsHvn rootsX → ℝ => z (ru 0 1)) (rp 0 1) z := hasFDerivAt_apply _ _
  have m : HasFDerivAt (fun z : unknowns rootsHvn rootsX → ℝ => z (ru 1 1)) (rp 1 1) z := hasFDerivAt_apply _ _
  have h := (((((((x.const_mul 2).const_sub (-2)).fun_add y).fun_add
      (l.fun_mul ((x.const_mul 2).sub_const 1))).smul_const (rp 0 0)).fun_add
    (((((y.const_mul 2).const_sub 3).fun_add x).fun_add
      (m.fun_mul ((y.const_mul 2).sub_const 1))).smul_const (rp 1 0))).fun_add
    (((x.fun_mul x).fun_sub x).smul_const (rp 0 1))).fun_add (((y.fun_mul y).fun_sub y).smul_const (rp 1 1))
  have h' : HasFDerivAt rootsQ' _ z := h
  rw [h'.fderiv]
  refine ContinuousLinearMap.ext fun r => ?_
  simp only [ContinuousLinearMap.add_apply, ContinuousLinearMap.sub_apply, ContinuousLinearMap.smul_apply, ContinuousLinearMap.neg_apply,
    ContinuousLinearMap.smulRight_apply, ContinuousLinearMap.zero_apply, ContinuousLinearMap.proj_apply, smul_eq_mul]
  ring

theorem roots_critical : CriticalPop rootsHvn rootsX where
  rows := by
    intro x hx
    simp only [rootsX, List.mem_cons, List.not_mem_nil, or_false] at hx
    rcases hx with rfl | rfl <;> rfl
  obj := fun i _ => ⟨fun k hk => by
    have hk : k < 2 := hk
    interval_cases k
    · exact smooth3_one (φ := fun x => x) (φ' := fun _ => 1) (φ'' := fun _ => 0) contDiff_id (fun x => hasDerivAt_id' x)
        (fun x => hasDerivAt_const _ _) (fun _ => rfl) (fun _ => rfl) (fun _ => rfl) _
    · exact smooth3_one (φ := fun x => 1 - x) (φ' := fun _ => -1) (φ'' := fun _ => 0) (contDiff_const.sub contDiff_id)
        (fun x => by simpa using (hasDerivAt_id' x).const_sub 1)
        (fun x => hasDerivAt_const _ _) (fun _ => rfl) (fun _ => rfl) (fun _ => rfl) _⟩
  cstr := fun i _ k hk => by
    obtain rfl : k = 0 := Nat.lt_one_iff.mp hk
    exact smooth3_one (φ := fun x => x * x - x) (φ' := fun x => 2 * x - 1) (φ'' := fun _ => 2)
      ((contDiff_id.mul contDiff_id).sub contDiff_id)
      (fun x => by
        refine (((hasDerivAt_id' x).fun_mul (hasDerivAt_id' x)).fun_sub (hasDerivAt_id' x)).congr_deriv ?_
        ring)
      (fun x => by simpa using ((hasDerivAt_id' x).const_mul 2).sub_const 1) (fun _ => rfl) (fun _ => rfl) (fun _ => rfl) _
  general := by
    rw [generalPosition_range]
    constructor
    · intro i hi j hj hij k hk
      have hi : i < 2 := hi
      have hj : j < 2 := hj
      have hk : k < 2 := hk
      interval_cases i <;> interval_cases j <;> interval_cases k <;>
        simp_all [varsOf, rootsX, rootsHvn, rootsFuncs, pt]
    · intro i hi k hk
      have hi : i < 2 := hi
      have hk : k < 2 := hk
      interval_cases i <;> interval_cases k <;> norm_num [varsOf, rootsX, rootsHvn, rootsFuncs, pt]
  range := by
    intro i hi k hk
    have hi : i < 2 := hi
    have hk : k < 2 := hk
    refine lt_of_le_of_lt (b := 10 ^ 1) ?_ (pow_lt_pow_right₀ (by norm_num) (by norm_num))
    interval_cases i <;> interval_cases k <;> norm_num [varsOf, rootsX, rootsHvn, rootsFuncs, pt]
  nondom := by
    intro i hi j hj hij
    have hi : i < 2 := hi
    have hj : j < 2 := hj
    interval_cases i <;> interval_cases j
    · exact absurd rfl hij
    · exact ⟨1, by show 1 < 2; norm_num, by norm_num [varsOf, rootsX, rootsHvn, rootsFuncs, pt]⟩
    · exact ⟨0, by show 0 < 2; norm_num, by norm_num [varsOf, rootsX, rootsHvn, rootsFuncs, pt]⟩
    · exact absurd rfl hij
  apart := by
    intro i hi j hj hij
    have hi : i < 2 := hi
    have hj : j < 2 := hj
    refine ⟨0, by show 0 < 1; norm_num, ?_⟩
    interval_cases i <;> interval_cases j
    · exact absurd rfl hij
    · norm_num [varsOf, rootsX, rootsHvn, rootsFuncs, pt]
    · norm_num [varsOf, rootsX, rootsHvn, rootsFuncs, pt]
    · exact absurd rfl hij
  zero := by
    rw [roots_near.fderiv_eq, (rootsQ_deriv _).fderiv]
    refine ContinuousLinearMap.ext fun s => ?_
    simp only [ContinuousLinearMap.add_apply, ContinuousLinearMap.sub_apply, ContinuousLinearMap.smul_apply, ContinuousLinearMap.neg_apply,
    ContinuousLinearMap.smulRight_apply, ContinuousLinearMap.zero_apply, ContinuousLinearMap.proj_apply, smul_eq_mul, rootsQ']
    simp [entries, ru, rootsX, at2]
    norm_num
  regular := by
    intro s hs
    have e : fderiv ℝ (lagr rootsHvn rootsX) =ᶠ[𝓝 (entries (unknowns rootsHvn rootsX) rootsX)] rootsQ' :=
      roots_near.fderiv.trans (Filter.Eventually.of_forall fun z => (rootsQ_deriv z).fderiv)
    have z00 : entries (unknowns rootsHvn rootsX) rootsX (ru 0 0) = 0 := rfl
    have z01 : entries (unknowns rootsHvn rootsX) rootsX (ru 0 1) = -1 := rfl
    have z10 : entries (unknowns rootsHvn rootsX) rootsX (ru 1 0) = 1 := rfl
    have z11 : entries (unknowns rootsHvn rootsX) rootsX (ru 1 1) = -1 := rfl
    rw [e.fderiv_eq, rootsQ'_deriv, z00, z01, z10, z11] at hs
    have k : ∀ q, _ := fun q => congrArg (fun f : (unknowns rootsHvn rootsX → ℝ) →L[ℝ] ℝ => f (Pi.single q 1)) hs
    have k00 := k (ru 0 0)
    have k10 := k (ru 1 0)
    have k01 := k (ru 0 1)
    have k11 := k (ru 1 1)
    simp only [ContinuousLinearMap.add_apply, ContinuousLinearMap.sub_apply, ContinuousLinearMap.smul_apply, ContinuousLinearMap.neg_apply,
    ContinuousLinearMap.smulRight_apply, ContinuousLinearMap.zero_apply, ContinuousLinearMap.proj_apply, smul_eq_mul] at k00 k10 k01 k11
    simp only [Pi.single_apply, ru, Subtype.mk.injEq, Prod.mk.injEq] at k00 k10 k01 k11
    norm_num at k00 k10 k01 k11
    funext q
    refine roots_cases (p := fun q => s q = 0) ?_ ?_ ?_ ?_ q <;> simp only [ru] <;> linarith

/-- The hypervolume of the two points near the population, and its derivatives. -/
def rootsV (u : Fin 2 × Fin 1 → ℝ) : ℝ :=
  (3 - u (0, 0)) * (2 + u (0, 0)) + (3 - u (1, 0)) * (2 + u (1, 0)) - (3 - u (1, 0)) * (2 + u (0, 0))

abbrev rv (i : Fin 2) : (Fin 2 × Fin 1 → ℝ) →L[ℝ] ℝ := ContinuousLinearMap.proj (i, 0)

noncomputable def rootsV' (u : Fin 2 × Fin 1 → ℝ) : (Fin 2 × Fin 1 → ℝ) →L[ℝ] ℝ :=
  (-2 - 2 * u (0, 0) + u (1, 0)) • rv 0 + (3 - 2 * u (1, 0) + u (0, 0)) • rv 1

theorem rootsV_deriv (u : Fin 2 × Fin 1 → ℝ) : HasFDerivAt rootsV (rootsV' u) u := by
  have x : HasFDerivAt (fun u : Fin 2 × Fin 1 → ℝ => u (0, 0)) (rv 0) u := hasFDerivAt_apply _ _
  have y : HasFDerivAt (fun u : Fin 2 × Fin 1 → ℝ => u (1, 0)) (rv 1) u := hasFDerivAt_apply _ _
  have h := (((x.const_sub 3).fun_mul (x.const_add 2)).fun_add ((y.const_sub 3).fun_mul (y.const_add 2))).fun_sub
    ((y.const_sub 3).fun_mul (x.const_add 2))
  refine h.congr_fderiv (ContinuousLinearMap.ext fun s => ?_)
  simp only [ContinuousLinearMap.add_apply, ContinuousLinearMap.sub_apply, ContinuousLinearMap.smul_apply, ContinuousLinearMap.neg_apply,
    ContinuousLinearMap.proj_apply, smul_eq_mul, rootsV']
  ring

theorem rootsV'_deriv (u s : Fin 2 × Fin 1 → ℝ) : fderiv ℝ rootsV' u s s =
    -2 * s (0, 0) ^ 2 + 2 * s (0, 0) * s (1, 0) - 2 * s (1, 0) ^ 2 := by
  have x : HasFDerivAt (fun u : Fin 2 × Fin 1 → ℝ => u (0, 0)) (rv 0) u := hasFDerivAt_apply _ _
  have y : HasFDerivAt (fun u : Fin 2 × Fin 1 → ℝ => u (1, 0)) (rv 1) u := hasFDerivAt_apply _ _
  have h := ((((x.const_mul 2).const_sub (-2)).fun_add y).smul_const (rv 0)).fun_add
    ((((y.const_mul 2).const_sub 3).fun_add x).smul_const (rv 1))
  have h' : HasFDerivAt rootsV' _ u := h
  rw [h'.fderiv]
  simp only [ContinuousLinearMap.add_apply, ContinuousLinearMap.sub_apply, ContinuousLinearMap.smul_apply, ContinuousLinearMap.neg_apply,
    ContinuousLinearMap.smulRight_apply, ContinuousLinearMap.zero_apply, ContinuousLinearMap.proj_apply, smul_eq_mul]
  ring

/-- The second derivative of the hypervolume is negative definite. -/
theorem roots_precond : HvnPrecondHarmless rootsHvn rootsX := by
  refine .inr ⟨rootsChol, fun n => (exists_isCholesky n).choose_spec, fun _ => rfl, fun s hs => ?_⟩
  change Fin 2 × Fin 1 → ℝ at s
  obtain ⟨u0, hu0⟩ : ∃ u0 : Fin 2 × Fin 1 → ℝ, u0 = fun q => pt (varsOf rootsHvn rootsX q.1) q.2 := ⟨_, rfl⟩
  have v0 : u0 (0, 0) = 0 := by rw [hu0]; simp [varsOf, rootsX, pt, rootsHvn, rootsFuncs]
  have v1 : u0 (1, 0) = 1 := by rw [hu0]; simp [varsOf, rootsX, pt, rootsHvn, rootsFuncs]
  have hc : ∀ q : Fin 2 × Fin 1, Continuous fun u : Fin 2 × Fin 1 → ℝ => u q := fun q => continuous_apply q
  have h1 : ∀ᶠ u in 𝓝 u0, -2 < u (0, 0) := continuousAt_const.eventually_lt (hc _).continuousAt (by rw [v0]; norm_num)
  have h2 : ∀ᶠ u in 𝓝 u0, u (0, 0) < u (1, 0) :=
    (hc _).continuousAt.eventually_lt (hc _).continuousAt (by rw [v0, v1]; norm_num)
  have h3 : ∀ᶠ u in 𝓝 u0, u (1, 0) < 3 := (hc _).continuousAt.eventually_lt continuousAt_const (by rw [v1]; norm_num)
  have hV : (fun u : Fin 2 × Fin 1 → ℝ => hvPop (N := 2) rootsHvn u) =ᶠ[𝓝 u0] rootsV := by
    filter_upwards [h1, h2, h3] with u a b c
    show hvX rootsHvn.problem (popOf u) = rootsV u
    rw [hvX, show rootsHvn.problem.nObj = 2 from rfl, show rootsHvn.problem.ref = pt [3, 3] from rfl, rootsV,
      ← roots_hvol a.le b.le c.le]
    congr 1
  have e : fderiv ℝ (fun u : Fin 2 × Fin 1 → ℝ => hvPop (N := 2) rootsHvn u) =ᶠ[𝓝 u0] rootsV' :=
    hV.fderiv.trans (Filter.Eventually.of_forall fun z => (rootsV_deriv z).fderiv)
  have key : fderiv ℝ (fderiv ℝ (fun u : Fin 2 × Fin 1 → ℝ => hvPop (N := 2) rootsHvn u)) u0 s s < 0 := by
    rw [e.fderiv_eq, rootsV'_deriv]
    have hs' : s (0, 0) ≠ 0 ∨ s (1, 0) ≠ 0 := by
      by_contra hcon
      push Not at hcon
      refine hs (funext fun q => ?_)
      obtain ⟨i, v⟩ := q
      obtain rfl : v = 0 := Subsingleton.elim _ _
      obtain rfl | rfl : i = 0 ∨ i = 1 := by revert i; decide
      · exact hcon.1
      · exact hcon.2
    rcases hs' with h | h <;> have := pow_pos (abs_pos.mpr h) 2 <;> rw [sq_abs] at this <;>
      nlinarith [sq_nonneg (s (0, 0) - s (1, 0)), sq_nonneg (s (0, 0)), sq_nonneg (s (1, 0))]
  rw [hu0] at key
  exact key

/-- The hypotheses of `C77_hvn_partial` hold for two points with an equality constraint and with preconditioning: from all populations near `0, 1`
with multipliers near `-1, -1` the iterations converge. -/
example : ∃ δ > 0, ∃ C > 0, ∀ x y l m : ℝ, |x| < δ → |y - 1| < δ → |l + 1| < δ → |m + 1| < δ →
    ∃ s, rootsFuncs.update State.init [[x, l], [y, m]] true true = some s ∧
      ∀ n, ∃ s', rootsHvn.env.run n s = some s' ∧ |at2 s'.X 0 0| ≤ δ / 2 ^ n ∧ |at2 s'.X 1 0 - 1| ≤ δ / 2 ^ n ∧
        C * |at2 s'.X 0 0| ≤ (C * δ) ^ 2 ^ n := by
  obtain ⟨δ, hδ, C, hC, h⟩ := C77_hvn_partial rootsHvn_ok rfl rootsHvn_plain oneSolve_sound (by show 2 ≤ 5; norm_num)
    roots_critical roots_precond
  refine ⟨δ, hδ, C, hC, fun x y l m hx hy hl hm => ?_⟩
  obtain ⟨s, h1, h2, h3, -⟩ := Usable.update (N0 := 2) (dim := 2) rootsFuncs_ok (by show 1 ≤ 2; norm_num) State.init
    (X := [[x, l], [y, m]]) (by simp) (by simp) (by simp)
  have hd : ‖entries (unknowns rootsHvn rootsX) s.X - entries (unknowns rootsHvn rootsX) rootsX‖ < δ := by
    rw [pi_norm_lt_iff hδ, h2]
    refine roots_cases ?_ ?_ ?_ ?_
    · show |x - 0| < δ
      simpa using hx
    · show |l - -1| < δ
      simpa using hl
    · exact hy
    · show |m - -1| < δ
      simpa using hm
  refine ⟨s, h1, fun n => ?_⟩
  obtain ⟨s', g1, -, -, g2, g3⟩ := h s h3 (by rw [h2]; rfl) hd n
  have e0 := norm_le_pi_norm (entries (unknowns rootsHvn rootsX) s'.X - entries (unknowns rootsHvn rootsX) rootsX) (ru 0 0)
  have e1 := norm_le_pi_norm (entries (unknowns rootsHvn rootsX) s'.X - entries (unknowns rootsHvn rootsX) rootsX) (ru 1 0)
  have e0' : |at2 s'.X 0 0| ≤ ‖entries (unknowns rootsHvn rootsX) s'.X - entries (unknowns rootsHvn rootsX) rootsX‖ := by
    have e : |at2 s'.X 0 0 - 0| ≤ _ := e0
    rwa [sub_zero] at e
  have e1' : |at2 s'.X 1 0 - 1| ≤ ‖entries (unknowns rootsHvn rootsX) s'.X - entries (unknowns rootsHvn rootsX) rootsX‖ := by
    exact e1
  have g2' := g2.trans (div_le_div_of_nonneg_right hd.le (by positivity : (0 : ℝ) ≤ 2 ^ n))
  refine ⟨s', g1, e0'.trans g2', e1'.trans g2', (mul_le_mul_of_nonneg_left e0' hC.le).trans (g3.trans ?_)⟩
  exact pow_le_pow_left₀ (mul_nonneg hC.le (norm_nonneg _)) (mul_le_mul_of_nonneg_left hd.le hC.le) _

/-- The same with `limit_max_step_size=True`. -/
noncomputable def rootsLimit : Hvn ℝ := { rootsHvn with limit := true }

theorem rootsLimit_critical : CriticalPop rootsLimit rootsX :=
  ⟨roots_critical.rows, fun i hi => ⟨(roots_critical.obj i hi).obj⟩, roots_critical.cstr, roots_critical.general, roots_critical.range,
    roots_critical.nondom, roots_critical.apart, roots_critical.zero, roots_critical.regular⟩

/-- The hypotheses of `C77_hvn_limit_partial`. -/
example : ∃ δ > 0, ∃ C > 0, ∀ x y l m : ℝ, |x| < δ → |y - 1| < δ → |l + 1| < δ → |m + 1| < δ →
    ∃ s, rootsFuncs.update State.init [[x, l], [y, m]] true true = some s ∧
      ∀ n s', rootsLimit.env.run n s = some s' → |at2 s'.X 0 0| ≤ δ / 2 ^ n ∧ C * |at2 s'.X 0 0| ≤ (C * δ) ^ 2 ^ n := by
  obtain ⟨δ, hδ, C, hC, h⟩ := C77_hvn_limit_partial (a := rootsLimit) (X := rootsX) (N0 := 2)
    ⟨rootsFuncs_ok, le_rfl, rootsHvn_ok.fuel, stableArgsort_isArgsort, rootsHvn_ok.solve, rootsHvn_ok.precond,
      sumDist_nonneg, sumDist_symm, rootsHvn_ok.jac⟩ rfl rfl
    ⟨rootsHvn_plain.norm, rootsHvn_plain.dist, rootsHvn_plain.symm⟩ oneSolve_sound (by show 2 ≤ 5; norm_num)
    rootsLimit_critical roots_precond (by
      intro i hi d hd
      have hi : i < 2 := hi
      obtain rfl : d = 0 := Nat.lt_one_iff.mp hd
      interval_cases i <;> norm_num [rootsLimit, rootsHvn, rootsX, at2])
  refine ⟨δ, hδ, C, hC, fun x y l m hx hy hl hm => ?_⟩
  obtain ⟨s, h1, h2, h3, -⟩ := Usable.update (N0 := 2) (dim := 2) rootsFuncs_ok (by show 1 ≤ 2; norm_num) State.init
    (X := [[x, l], [y, m]]) (by simp) (by simp) (by simp)
  have hd : ‖entries (unknowns rootsLimit rootsX) s.X - entries (unknowns rootsLimit rootsX) rootsX‖ < δ := by
    rw [pi_norm_lt_iff hδ, h2]
    refine roots_cases (p := fun q => ‖(entries (unknowns rootsHvn rootsX) [[x, l], [y, m]] -
      entries (unknowns rootsHvn rootsX) rootsX) q‖ < δ) ?_ ?_ ?_ ?_
    · show |x - 0| < δ
      simpa using hx
    · show |l - -1| < δ
      simpa using hl
    · exact hy
    · show |m - -1| < δ
      simpa using hm
  refine ⟨s, h1, fun n s' hs' => ?_⟩
  obtain ⟨-, -, g2, g3⟩ := (h s h3 (by rw [h2]; rfl) hd).1 n s' hs'
  have e0 := norm_le_pi_norm (entries (unknowns rootsLimit rootsX) s'.X - entries (unknowns rootsLimit rootsX) rootsX) (ru 0 0)
  have e0' : |at2 s'.X 0 0| ≤ ‖entries (unknowns rootsLimit rootsX) s'.X - entries (unknowns rootsLimit rootsX) rootsX‖ := by
    have e : |at2 s'.X 0 0 - 0| ≤ _ := e0
    rwa [sub_zero] at e
  have g2' := g2.trans (div_le_div_of_nonneg_right hd.le (by positivity : (0 : ℝ) ≤ 2 ^ n))
  refine ⟨e0'.trans g2', (mul_le_mul_of_nonneg_left e0' hC.le).trans (g3.trans ?_)⟩
  exact pow_le_pow_left₀ (mul_nonneg hC.le (norm_nonneg _)) (mul_le_mul_of_nonneg_left hd.le hC.le) _

end Verif.Props
