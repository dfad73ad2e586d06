import Verif.Props.LocalConvDp
import Verif.Props.LocalConvExample

/-!
# C85: an example

Two points with one variable, the objectives `(x, 1 - x)`, the equality constraint `x² - x = 0` and the targets `(-t, 1)`
and `(1, -t)`: the population `0, 1`, with multipliers `t` for the generational distance and `2 t` for the inverted one.
-/

namespace Verif.Props

open Verif.Opt Verif.HV Verif.Util Verif.Ind

noncomputable def rootsDpn (k : DpKind) (P : Bool) : Dpn ℝ where
  p := rootsFuncs
  nObj := 2
  hess := fun _ => [0, 0]
  kind := k
  xl := [-1]
  xu := [2]
  env := bruteEnv (fun y r => √((y 0 - r 0) ^ 2 + (y 1 - r 1) ^ 2)) fun _ _ => 0
  sqrt := Real.sqrt
  norm := fun l => √(l.map (· ^ 2)).sum
  cubic := fun _ _ _ _ => none
  solve := oneSolve
  precond := fun A => if P then precondTable rootsChol A else A

theorem rootsDpn_ok (k : DpKind) (P : Bool) : (rootsDpn k P).Ok where
  funcs := rootsFuncs_ok
  env := bruteEnv_sound _ _
  xl := rfl
  xu := rfl
  solve := fun A b _ => oneSolve_length A b
  precond := fun _ _ h => by
    simp only [rootsDpn]
    split
    · exact precondTable_isMat _ h
    · exact h
  norm := fun _ => rfl
  jac := fun _ => by simp [Funcs.hasJac, rootsDpn, rootsFuncs]

theorem rootsDpn_euclidean (k : DpKind) (P : Bool) : Euclidean (rootsDpn k P) where
  nonneg := fun _ _ => Real.sqrt_nonneg _
  square := fun y r => by
    show Real.sqrt _ ^ 2 = _
    rw [Real.sq_sqrt (by positivity), show (rootsDpn k P).nObj = 2 from rfl, Finset.sum_range_succ,
      Finset.sum_range_one]
  root := fun x hx => ⟨Real.sqrt_nonneg _, Real.sq_sqrt hx⟩

/-- The population and its targets. -/
def rootsPop (b : Bool) (t : ℝ) : List (List ℝ) := [[0, if b then t else 2 * t], [1, if b then t else 2 * t]]

def rootsTargets (t : ℝ) : List (ℕ → ℝ) := [pt [-t, 1], pt [1, -t]]

theorem rootsDpn_dist (k : DpKind) (P : Bool) (y r : ℕ → ℝ) : (rootsDpn k P).env.dist y r = √((y 0 - r 0) ^ 2 + (y 1 - r 1) ^ 2) := rfl

theorem rootsDpn_images (k : DpKind) (P : Bool) (b : Bool) (t : ℝ) : images (rootsDpn k P) (rootsPop b t) = [pt [0, 1], pt [1, 0]] := by
  simp [images, rootsPop, rootsDpn, rootsFuncs]

theorem roots_point (k : DpKind) (P : Bool) (b : Bool) {x c : ℝ} (hx : x * x - x = 0) (hb : -1 < x ∧ x < 2) {τ : ℕ → ℝ}
    (hf : (if b then 1 else 2) * (2 * x - 1 + τ 1 - τ 0) + c * (2 * x - 1) = 0) :
    RegularPoint (rootsDpn k P) b 2 [x, c] τ where
  row := rfl
  obj := fun l hl => by
    have hl : l < 2 := hl
    interval_cases l
    · exact smooth3_one (φ := fun x => x) (φ' := fun _ => 1) (φ'' := fun _ => 0) contDiff_id (fun x => hasDerivAt_id' x)
        (fun x => hasDerivAt_const _ _) (fun _ => rfl) (fun _ => rfl) (fun _ => rfl) _
    · exact smooth3_one (φ := fun x => 1 - x) (φ' := fun _ => -1) (φ'' := fun _ => 0) (contDiff_const.sub contDiff_id)
        (fun x => by simpa using (hasDerivAt_id' x).const_sub 1)
        (fun x => hasDerivAt_const _ _) (fun _ => rfl) (fun _ => rfl) (fun _ => rfl) _
  cstr := fun l hl => by
    obtain rfl : l = 0 := Nat.lt_one_iff.mp hl
    exact smooth3_one (φ := fun x => x * x - x) (φ' := fun x => 2 * x - 1) (φ'' := fun _ => 2)
      ((contDiff_id.mul contDiff_id).sub contDiff_id)
      (fun x => by
        refine (((hasDerivAt_id' x).fun_mul (hasDerivAt_id' x)).fun_sub (hasDerivAt_id' x)).congr_deriv ?_
        ring)
      (fun x => by simpa using ((hasDerivAt_id' x).const_mul 2).sub_const 1) (fun _ => rfl) (fun _ => rfl) (fun _ => rfl) _
  inside := fun d hd => by
    obtain rfl : d = 0 := Nat.lt_one_iff.mp hd
    exact hb
  first := by
    constructor
    · intro v hv
      obtain rfl : v = 0 := Nat.lt_one_iff.mp hv
      have hact : IsActive (rootsDpn k P).p ([x, c].take (rootsDpn k P).p.nVar) 0 := Or.inl (by show 0 < 1; norm_num)
      rw [show (rootsDpn k P).p.nDual = 1 from rfl, Finset.sum_range_one, if_pos hact, dpGrad,
        show (rootsDpn k P).nObj = 2 from rfl, Finset.sum_range_succ, Finset.sum_range_one]
      show (if b then 2 / ((2 : ℕ) : ℝ) else 2) * (1 * (x - τ 0) + -1 * (1 - x - τ 1)) + c * (2 * x - 1) = 0
      rw [← hf]
      cases b
      · simp only [Bool.false_eq_true, if_false]; ring
      · simp only [if_true]; push_cast; ring
    · intro l hl _
      obtain rfl : l = 0 := Nat.lt_one_iff.mp hl
      exact hx
  regular := by
    intro z h1 h2
    have hact : IsActive (rootsDpn k P).p ([x, c].take (rootsDpn k P).p.nVar) 0 := Or.inl (by show 0 < 1; norm_num)
    have hne : 2 * x - 1 ≠ 0 := fun h => by
      have : x = 1 / 2 := by linarith
      rw [this] at hx; norm_num at hx
    have e2 := h2 0 one_pos hact
    rw [show (rootsDpn k P).p.nVar = 1 from rfl, Finset.sum_range_one] at e2
    have z0 : z 0 = 0 := (mul_eq_zero.mp e2).resolve_left hne
    have e1 := h1 0 one_pos
    rw [show (rootsDpn k P).p.nDual = 1 from rfl, Finset.sum_range_one, if_pos hact, show (rootsDpn k P).p.nVar = 1 from rfl,
      Finset.sum_range_one, z0, mul_zero, zero_add] at e1
    have z1 : z 1 = 0 := (mul_eq_zero.mp e1).resolve_left hne
    refine ⟨fun v hv => ?_, fun l hl _ => ?_⟩
    · obtain rfl : v = 0 := Nat.lt_one_iff.mp hv
      exact z0
    · obtain rfl : l = 0 := Nat.lt_one_iff.mp hl
      exact z1

theorem rootsTargets_dist (k : DpKind) (P : Bool) {t : ℝ} (ht : 0 < t) :
    (rootsDpn k P).env.dist (pt [0, 1]) (pt [-t, 1]) = t ∧
    (rootsDpn k P).env.dist (pt [0, 1]) (pt [1, -t]) = √(1 + (1 + t) ^ 2) ∧
    (rootsDpn k P).env.dist (pt [1, 0]) (pt [-t, 1]) = √(1 + (1 + t) ^ 2) ∧
    (rootsDpn k P).env.dist (pt [1, 0]) (pt [1, -t]) = t := by
  simp only [rootsDpn_dist]
  refine ⟨?_, ?_, ?_, ?_⟩
  · simp [pt, Real.sqrt_sq ht.le]
  · simp [pt]
  · simp [pt, add_comm]
  · simp [pt, Real.sqrt_sq ht.le]

theorem lt_far {t : ℝ} (ht : 0 < t) : t < √(1 + (1 + t) ^ 2) := by
  rw [Real.lt_sqrt ht.le]
  nlinarith

theorem roots_targets (k : DpKind) (P : Bool) (b : Bool) {t : ℝ} (ht : 0 < t) (T' : List (ℕ → ℝ)) :
    Targets (rootsDpn k P).env.dist b [pt [0, 1], pt [1, 0]] (rootsTargets t) T' ↔ T' = rootsTargets t := by
    obtain ⟨d1, d2, d3, d4⟩ := rootsTargets_dist k P ht
    have h5 := lt_far ht
    cases b with
    | true =>
      unfold Targets
      simp only [if_true]
      constructor
      · rintro ⟨hl, h⟩
        obtain ⟨t0, t1, rfl⟩ := List.length_eq_two.mp hl
        have a0 := h 0 (by simp)
        have a1 := h 1 (by simp)
        simp only [rootsTargets, List.mem_cons, List.not_mem_nil, or_false, forall_eq_or_imp, forall_eq, List.getD_cons_zero,
          List.getD_cons_succ] at a0 a1 ⊢
        obtain ⟨rfl | rfl, b0, -⟩ := a0
        · obtain ⟨rfl | rfl, b1, b2⟩ := a1
          · rw [d3, d4] at b2; exact absurd b2 (not_le.mpr h5)
          · rfl
        · rw [d1, d2] at b0; exact absurd b0 (not_le.mpr h5)
      · rintro rfl
        refine ⟨rfl, fun i hi => ?_⟩
        have hi : i < 2 := hi
        interval_cases i
        · simp only [rootsTargets, List.mem_cons, List.not_mem_nil, or_false, forall_eq_or_imp, forall_eq, List.getD_cons_zero]
          exact ⟨.inl trivial, le_rfl, by rw [d1, d2]; exact h5.le⟩
        · simp only [rootsTargets, List.mem_cons, List.not_mem_nil, or_false, forall_eq_or_imp, forall_eq, List.getD_cons_zero,
            List.getD_cons_succ]
          exact ⟨.inr trivial, by rw [d3, d4]; exact h5.le, le_rfl⟩
    | false =>
      have hperm : ∀ T'' : List (ℕ → ℝ), T''.Perm (rootsTargets t) → T'' = rootsTargets t ∨ T'' = [pt [1, -t], pt [-t, 1]] := by
        intro T'' h
        have := List.mem_permutations.mpr h
        simpa [rootsTargets, List.permutations, List.permutationsAux, List.permutationsAux.rec,
          List.permutationsAux2] using this
      have s1 : (List.zipWith (rootsDpn k P).env.dist [pt [0, 1], pt [1, 0]] (rootsTargets t)).sum = 2 * t := by
        simp only [rootsTargets, List.zipWith_cons_cons, List.zipWith_nil_left, List.sum_cons, List.sum_nil, d1, d4]; ring
      have s2 : (List.zipWith (rootsDpn k P).env.dist [pt [0, 1], pt [1, 0]] [pt [1, -t], pt [-t, 1]]).sum = 2 * √(1 + (1 + t) ^ 2) := by
        simp only [List.zipWith_cons_cons, List.zipWith_nil_left, List.sum_cons, List.sum_nil, d2, d3]; ring
      unfold Targets
      simp only [Bool.false_eq_true, if_false]
      constructor
      · rintro ⟨-, hp, h⟩
        rcases hperm T' hp with rfl | rfl
        · rfl
        · have := h _ (List.Perm.refl (rootsTargets t))
          rw [s1, s2] at this
          linarith
      · rintro rfl
        refine ⟨rfl, List.Perm.refl _, fun T'' h => ?_⟩
        rcases hperm T'' h with rfl | rfl
        · exact le_rfl
        · rw [s1, s2]; linarith

theorem roots_regular (k : DpKind) (P : Bool) (b : Bool) {t : ℝ} (ht : 0 < t) (ht8 : 1 / 10 ^ 8 < t) :
    RegularPop (rootsDpn k P) b (rootsPop b t) (rootsTargets t) (rootsTargets t) where
  point := fun i hi => by
    have hi : i < 2 := hi
    interval_cases i
    · exact roots_point k P b (x := 0) (by norm_num) (by norm_num) (by cases b <;> norm_num [rootsTargets, pt])
    · exact roots_point k P b (x := 1) (by norm_num) (by norm_num) (by cases b <;> norm_num [rootsTargets, pt])
  targets := fun T' => by
    rw [rootsDpn_images]
    exact roots_targets k P b ht T'
  unattained := fun i hi r hr => by
    obtain ⟨d1, d2, d3, d4⟩ := rootsTargets_dist k P ht
    have h5 := lt_far ht
    rw [rootsDpn_images]
    have hi : i < 2 := hi
    simp only [rootsTargets, List.mem_cons, List.not_mem_nil, or_false] at hr
    interval_cases i <;> rcases hr with rfl | rfl <;>
      simp only [List.getD_cons_zero, List.getD_cons_succ, d1, d2, d3, d4] <;> linarith

/-- The matched targets and their direction. -/
def rootsRef (t : ℝ) : RefSet (ℕ → ℝ) :=
  { RefSet.new [rootsTargets t] [fun _ => -1] none with
    matched := some (rootsTargets t), medoids := [some (rootsTargets t)], medoidsIdx := [some (0, 0), some (0, 1)] }

/-- There are states of this kind off the solution at each distance. -/
theorem roots_near_state (k : DpKind) (P : Bool) (b : Bool) (t : ℝ) {δ : ℝ} (hδ : 0 < δ) :
    ∃ s, DpnNear (rootsDpn k P) (rootsPop b t) (rootsTargets t) δ s ∧ (s.state.X.getD 0 []).getD 0 0 = δ := by
  obtain ⟨u, -, u2, u3, -⟩ := Usable.update (rootsDpn_ok k P).funcs (Nat.le_add_right (rootsDpn k P).p.nVar (rootsDpn k P).p.nDual)
    State.init (N0 := 2) (X := [[δ, if b then t else 2 * t], [1, if b then t else 2 * t]]) (by simp) (by simp)
    (by intro x hx; simp only [List.mem_cons, List.not_mem_nil, or_false] at hx; rcases hx with rfl | rfl <;> rfl)
  refine ⟨⟨u, rootsRef t, 0, 0, 1, [[], []], [], fun _ => []⟩, ⟨⟨u3, by rw [u2]; rfl, ?_, ?_, fun _ => rfl⟩, one_ne_zero,
    ⟨rootsTargets t, ?_, List.Perm.refl _⟩, fun i hi => ?_⟩, by rw [u2]; rfl⟩
  · exact ⟨⟨_, rfl, le_rfl⟩, rfl, rfl, rfl⟩
  · exact .inr ⟨rootsTargets t, ⟨rfl, rfl, rfl⟩, rfl⟩
  · exact ⟨rfl, rfl, rfl⟩
  · have hi : i < 2 := hi
    rw [u2]
    refine ⟨fun v hv => ?_, fun l hl _ => ?_⟩
    · obtain rfl : v = 0 := Nat.lt_one_iff.mp hv
      interval_cases i
      · simp [rootsPop, pt, abs_of_pos hδ]
      · simp [rootsPop, pt, hδ.le]
    · obtain rfl : l = 0 := Nat.lt_one_iff.mp hl
      interval_cases i <;> simp [rootsPop, pt, rootsDpn, rootsFuncs, hδ.le]

/-- The indicator for each `type`. With `type="deltap"` the values that are compared are `t` and `t ^ 2`. -/
theorem roots_fixed (k : DpKind) (P : Bool) (b : Bool) {t : ℝ} (ht : 0 < t)
    (h : k = .gd ∧ b = true ∨ k = .igd ∧ b = false ∨ k = .deltap ∧ (b = true ∧ t < 1 ∨ b = false ∧ 1 < t)) :
    IndicatorFixed (rootsDpn k P) b (rootsPop b t) (rootsTargets t) := by
  rcases h with h | h | ⟨h, hc⟩
  · exact .inl h
  · exact .inr (.inl h)
  · obtain ⟨d1, d2, d3, d4⟩ := rootsTargets_dist k P ht
    have h5 := lt_far ht
    refine .inr (.inr ⟨h, fun _ => t, rootsTargets t, ?_⟩)
    rw [rootsDpn_images, show (rootsPop b t).length = 2 from rfl]
    refine ⟨fun T' => roots_targets k P false ht T', fun i hi => ?_, ?_⟩
    · interval_cases i
      · simp only [rootsTargets, List.mem_cons, List.not_mem_nil, or_false, exists_eq_or_imp, exists_eq_left,
          forall_eq_or_imp, forall_eq, List.getD_cons_zero, d1, d2]
        exact ⟨.inl trivial, le_rfl, h5.le⟩
      · simp only [rootsTargets, List.mem_cons, List.not_mem_nil, or_false, exists_eq_or_imp, exists_eq_left,
          forall_eq_or_imp, forall_eq, List.getD_cons_zero, List.getD_cons_succ, d3, d4]
        exact ⟨.inr trivial, h5.le, le_rfl⟩
    · have e1 : (∑ i ∈ Finset.range 2, (rootsDpn k P).env.dist ([pt [0, 1], pt [1, 0]].getD i 0) ((rootsTargets t).getD i 0) ^ 2) /
          ((2 : ℕ) : ℝ) = t ^ 2 := by
        rw [Finset.sum_range_succ, Finset.sum_range_one]
        simp only [rootsTargets, List.getD_cons_zero, List.getD_cons_succ, d1, d4]
        push_cast; ring
      have e2 : √((∑ i ∈ Finset.range 2, t ^ 2) / ((2 : ℕ) : ℝ)) = t := by
        rw [Finset.sum_range_succ, Finset.sum_range_one, show (t ^ 2 + t ^ 2) / ((2 : ℕ) : ℝ) = t ^ 2 by push_cast; ring,
          Real.sqrt_sq ht.le]
      rw [e1, e2]
      rcases hc with ⟨hb, hc⟩ | ⟨hb, hc⟩
      · exact .inl ⟨hb, by nlinarith⟩
      · exact .inr ⟨hb, by nlinarith⟩

/-- The Hessian is 2 or 4. -/
theorem roots_dpn_precond (k : DpKind) (P b : Bool) (t : ℝ) : PrecondHarmless (rootsDpn k P) b (rootsPop b t) (rootsTargets t) := by
  cases P with
  | false => exact .inl fun _ => rfl
  | true =>
    refine .inr ⟨rootsChol, fun n => (exists_isCholesky n).choose_spec, fun _ => rfl, fun i _ z ⟨v, hv, hz⟩ => ?_⟩
    obtain rfl : v = 0 := Nat.lt_one_iff.mp hv
    have hpos := pow_pos (abs_pos.mpr hz) 2
    rw [sq_abs] at hpos
    rw [show (rootsDpn k true).p.nVar = 1 from rfl, Finset.sum_range_one, Finset.sum_range_one, dpHess,
      show (rootsDpn k true).nObj = 2 from rfl, Finset.sum_range_succ, Finset.sum_range_one]
    simp only [rootsDpn, rootsFuncs, pt, rootsPop]
    cases b <;> simp <;> nlinarith

/-- The hypotheses of `C85_iteration` and `C85_run`, for each `type`, without and with preconditioning: after `n` iterations the first point is within
`δ / 2 ^ n` of 0, and within `(C δ) ^ 2 ^ n / C`. -/
example (k : DpKind) (P : Bool) (b : Bool) {t : ℝ} (ht : 1 / 10 < t)
    (h : k = .gd ∧ b = true ∨ k = .igd ∧ b = false ∨ k = .deltap ∧ (b = true ∧ t < 1 ∨ b = false ∧ 1 < t)) :
    ∃ δ > 0, ∃ C > 0, ∃ s, (s.state.X.getD 0 []).getD 0 0 = δ ∧ ∀ n, ∃ s',
    (rootsDpn k P).run n s = some s' ∧ |pt (s'.state.X.getD 0 []) 0 - 0| ≤ δ / 2 ^ n ∧
      |pt (s'.state.X.getD 0 []) 0 - 0| ≤ (C * δ) ^ 2 ^ n / C := by
  have ht0 : 0 < t := by linarith
  obtain ⟨δ, hδ, C, hC, h⟩ := C85_run (rootsDpn_ok k P) (rootsDpn_euclidean k P) oneSolve_sound (roots_dpn_precond k P b t)
    (roots_fixed k P b ht0 h) (roots_regular k P b ht0 (by linarith))
  obtain ⟨s, hs, hs0⟩ := roots_near_state k P b t hδ
  refine ⟨δ, hδ, C, hC, s, hs0, fun n => ?_⟩
  obtain ⟨s', h1, -, -, -, h2⟩ := h s hs n
  obtain ⟨g1, g2⟩ := h2 0 (by simp [rootsPop]) δ hδ.le le_rfl (hs.close 0 (by simp [rootsPop]))
  exact ⟨s', h1, g1.1 0 one_pos, g2.1 0 one_pos⟩

end Verif.Props
