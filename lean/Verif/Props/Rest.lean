import Verif.Props.DpNMany
import Verif.Props.MMDNMany
import Verif.Props.HVNIter

/-!
# C81: populations at rest

An iteration of a Newton method should leave a population alone exactly if the first-order conditions hold: stationarity
of the Lagrangian, no violated constraint among the active ones, and multipliers of inequalities with the right sign.
-/

set_option linter.unusedSectionVars false

namespace Verif.Props

open Verif.Opt Verif.Ind Verif.Util Verif.HV Verif.HVD

/-! ## Specification -/

section

variable {K : Type*} [Field K] [LinearOrder K] [IsStrictOrderedRing K] [Inhabited K]

/-- The first-order conditions of one point, without the signs of the multipliers: the gradient of the Lagrangian of the
active constraints is zero, and so are these constraints. `G` is the gradient of the indicator. -/
structure FirstOrder (p : Funcs K) (x : List K) (G : ℕ → K) : Prop where
  stationary : ∀ v < p.nVar, G v + ∑ k ∈ Finset.range p.nDual,
    (if IsActive p (x.take p.nVar) k then pt x (p.nVar + k) * cGrad p (x.take p.nVar) k v else 0) = 0
  active : ∀ k < p.nDual, IsActive p (x.take p.nVar) k → cVal p (x.take p.nVar) k = 0

/-- The signs of the multipliers of the active inequalities of a problem of minimisation. -/
def SignedMultipliers (p : Funcs K) (x : List K) : Prop :=
  ∀ k, p.nEq ≤ k → k < p.nDual → IsActive p (x.take p.nVar) k → 0 ≤ pt x (p.nVar + k)

/-- The point is in the interior of the box. -/
def InsideBox (xl xu : List K) (n : ℕ) (x : List K) : Prop :=
  ∀ d < n, xl.getD d 0 < x.getD d 0 ∧ x.getD d 0 < xu.getD d 0

/-- The Newton equations of a point of `DpN`, for a step `z`. -/
def DpnEquations (a : Dpn K) (useGd : Bool) (N : ℕ) (x : List K) (τ : ℕ → K) (z : ℕ → K) : Prop :=
  ∃ A, IsMat a.p.nVar a.p.nVar A ∧ (∀ v < a.p.nVar, ∀ w < a.p.nVar, at2 A v w = dpHess a useGd N (x.take a.p.nVar) τ v w) ∧
    KktNewton a.p x (dpGrad a useGd N (x.take a.p.nVar) τ)
      (fun v => ∑ w ∈ Finset.range a.p.nVar, at2 (a.precond A) v w * z w) z

/-- The equations `E` of the steps of `N` points have at most one solution without changes of inactive multipliers. -/
def AtMostOne (p : Funcs K) (N : ℕ) (X : ℕ → List K) (E : (ℕ → ℕ → K) → Prop) : Prop :=
  ∀ y z : ℕ → ℕ → K, E y → E z →
    (∀ i < N, ∀ k < p.nDual, ¬ IsActive p ((X i).take p.nVar) k → y i (p.nVar + k) = 0 ∧ z i (p.nVar + k) = 0) →
    ∀ i < N, ∀ c < p.nVar + p.nDual, y i c = z i c

/-- The constraint `k` is affine, and the callbacks give its derivatives. -/
def AffineConstraint (p : Funcs K) (k : ℕ) : Prop :=
  ∀ q q' : List K, q.length = p.nVar → q'.length = p.nVar →
    cVal p q' k = cVal p q k + ∑ w ∈ Finset.range p.nVar, cGrad p q k w * (pt q' w - pt q w)

/-! ## Lemmas -/

theorem SearchedBy.pos {a : Dpn K} {useGd : Bool} {X : List (List K)} {Tg : List (ℕ → K) → List (ℕ → K) → Prop} {i : ℕ}
    {d r : List K} {s α : K} (hs : 0 < s) (h : SearchedBy a useGd X Tg i d r s α) : 0 < α := by
  obtain ⟨tr, -, h2, h3, -⟩ := h
  clear * - hs h2 h3
  induction tr generalizing s with
  | nil => obtain rfl : α = s := by simpa using h2
           exact hs
  | cons b tr ih =>
    obtain rfl : b = s := by simpa using h2
    cases hh : (tr ++ [α]).head? with
    | none => simp at hh
    | some c =>
      have hc : 4 / 10 * b ≤ c ∧ c ≤ 6 / 10 * b := by
        rw [List.cons_append] at h3
        exact (List.isChain_cons.mp h3).1 c (by simp [hh])
      exact ih (s := c) (by linarith [hc.1]) hh (by rw [List.cons_append] at h3; exact (List.isChain_cons.mp h3).2)

/-- A vanishing step solves the Newton equations exactly at points with the first-order conditions. -/
theorem kktNewton_zero {p : Funcs K} {x : List K} {G HS s : ℕ → K} (hH : ∀ v < p.nVar, HS v = 0)
    (hs : ∀ c < p.nVar + p.nDual, s c = 0) : KktNewton p x G HS s ↔ FirstOrder p x G := by
  have e1 : ∀ v, ∑ w ∈ Finset.range p.nVar, (∑ k ∈ Finset.range p.nDual,
        if IsActive p (x.take p.nVar) k then pt x (p.nVar + k) * cHess p (x.take p.nVar) k v w else 0) * s w = 0 := fun v =>
    Finset.sum_eq_zero fun w hw => by rw [hs w (by have := Finset.mem_range.mp hw; omega), mul_zero]
  have e2 : ∀ v, ∑ k ∈ Finset.range p.nDual,
      (if IsActive p (x.take p.nVar) k then cGrad p (x.take p.nVar) k v * s (p.nVar + k) else 0) = 0 := fun v =>
    Finset.sum_eq_zero fun k hk => by
      rw [hs (p.nVar + k) (by have := Finset.mem_range.mp hk; omega), mul_zero, ite_self]
  have e3 : ∀ k, ∑ w ∈ Finset.range p.nVar, cGrad p (x.take p.nVar) k w * s w = 0 := fun k =>
    Finset.sum_eq_zero fun w hw => by rw [hs w (by have := Finset.mem_range.mp hw; omega), mul_zero]
  constructor
  · rintro ⟨h1, h2⟩
    refine ⟨fun v hv => ?_, fun k hk ha => ?_⟩
    · have := h1 v hv
      rw [hH v hv, e1, e2, add_zero, add_zero] at this
      exact neg_eq_zero.mp this.symm
    · have := h2 k hk ha
      rw [e3] at this
      exact neg_eq_zero.mp this.symm
  · rintro ⟨h1, h2⟩
    refine ⟨fun v hv => ?_, fun k hk ha => ?_⟩
    · rw [hH v hv, e1, e2, h1 v hv, add_zero, add_zero, neg_zero]
    · rw [e3, h2 k hk ha, neg_zero]

theorem kktNewtonFlat_zero {p : Funcs ℝ} {x : List ℝ} {G HS s : ℕ → ℝ} (hH : ∀ v < p.nVar, HS v = 0)
    (hs : ∀ c < p.nVar + p.nDual, s c = 0) : KktNewtonFlat p x G HS s ↔ FirstOrder p x G := by
  have e2 : ∀ v, ∑ k ∈ Finset.range p.nDual,
      (if IsActive p (x.take p.nVar) k then cGrad p (x.take p.nVar) k v * s (p.nVar + k) else 0) = 0 := fun v =>
    Finset.sum_eq_zero fun k hk => by
      rw [hs (p.nVar + k) (by have := Finset.mem_range.mp hk; omega), mul_zero, ite_self]
  have e3 : ∀ k, ∑ w ∈ Finset.range p.nVar, cGrad p (x.take p.nVar) k w * s w = 0 := fun k =>
    Finset.sum_eq_zero fun w hw => by rw [hs w (by have := Finset.mem_range.mp hw; omega), mul_zero]
  constructor
  · rintro ⟨h1, h2⟩
    refine ⟨fun v hv => ?_, fun k hk ha => ?_⟩
    · have := h1 v hv
      rw [hH v hv, e2, add_zero] at this
      exact neg_eq_zero.mp this.symm
    · have := h2 k hk ha
      rw [e3] at this
      exact neg_eq_zero.mp this.symm
  · rintro ⟨h1, h2⟩
    refine ⟨fun v hv => ?_, fun k hk ha => ?_⟩
    · rw [hH v hv, e2, h1 v hv, add_zero, neg_zero]
    · rw [e3, h2 k hk ha, neg_zero]

theorem moved_eq_self {x d : List K} {α : K} (hl : d.length = x.length) (hα : α ≠ 0) :
    moved x d α = x ↔ ∀ c < x.length, d.getD c 0 = 0 := by
  have e : ∀ c (hc : c < x.length), (moved x d α).getD c 0 = x.getD c 0 + α * d.getD c 0 := fun c hc => by
    unfold moved
    rw [List.getD_eq_getElem _ _ (by rw [List.length_zipWith]; omega), List.getElem_zipWith,
      List.getD_eq_getElem x _ hc, List.getD_eq_getElem d _ (by omega)]
  have hl' : (moved x d α).length = x.length := by unfold moved; rw [List.length_zipWith]; omega
  constructor
  · intro h c hc
    have := e c hc
    rw [h] at this
    have : α * d.getD c 0 = 0 := by linarith
    exact (mul_eq_zero.mp this).resolve_left hα
  · intro h
    refine List.ext_getElem hl' fun c h1 h2 => ?_
    have := e c h2
    rw [h c h2, mul_zero, add_zero, List.getD_eq_getElem _ _ h1, List.getD_eq_getElem _ _ h2] at this
    exact this

theorem exists_table (n : ℕ) (f : ℕ → ℕ → K) : ∃ A, IsMat n n A ∧ ∀ v < n, ∀ w < n, at2 A v w = f v w :=
  ⟨(List.range n).map fun v => (List.range n).map fun w => f v w, ⟨by simp, fun r hr => by
    obtain ⟨v, -, rfl⟩ := List.mem_map.mp hr
    simp⟩, fun v hv w hw => at2_table hv hw⟩

theorem IsMat.row {N d : ℕ} {X : List (List K)} (h : IsMat N d X) {i : ℕ} (hi : i < N) : (X.getD i []).length = d := by
  rw [List.getD_eq_getElem _ _ (by rw [h.1]; exact hi)]
  exact h.2 _ (List.getElem_mem _)

theorem IsMat.ext_at2 {n m : ℕ} {A B : List (List K)} (hA : IsMat n m A) (hB : IsMat n m B)
    (h : ∀ v < n, ∀ w < m, at2 A v w = at2 B v w) : A = B := by
  apply List.ext_getElem (hA.1.trans hB.1.symm)
  intro v h1 h2
  have l1 := hA.2 _ (List.getElem_mem h1)
  have l2 := hB.2 _ (List.getElem_mem h2)
  refine List.ext_getElem (l1.trans l2.symm) fun w g1 g2 => ?_
  have := h v (by rw [← hA.1]; exact h1) w (by omega)
  rw [at2, at2, List.getD_eq_getElem A _ h1, List.getD_eq_getElem B _ h2, List.getD_eq_getElem _ _ g1,
    List.getD_eq_getElem _ _ g2] at this
  exact this

/-- What both theorems on `DpN` need: one point, given what an iteration does. -/
theorem rest_of {a : Dpn K} (ha : a.Ok) (hsol : SolverSound a.solve) {N : ℕ} {s s' : DpnState K} {T : List (ℕ → K)}
    {n : List (List K)} {α : ℕ → K} (hN : s.state.X.length = N) (hX : IsMat N (a.p.nVar + a.p.nDual) s.state.X)
    (hn : IsMat N (a.p.nVar + a.p.nDual) n) (hst : IsMat N (a.p.nVar + a.p.nDual) s'.step)
    {i : ℕ} (hi : i < N) (hmv : DpnMove a s s' T n i)
    (hx : s'.state.X.getD i [] = moved (s.state.X.getD i []) (s'.step.getD i []) (α i))
    (hα : InsideBox a.xl a.xu a.p.nVar (s.state.X.getD i []) → 0 < α i) :
    (InsideBox a.xl a.xu a.p.nVar (s.state.X.getD i []) →
      (∃ z, DpnEquations a (a.gdActive s'.gd s'.igd) N (s.state.X.getD i []) (T.getD i 0) z) →
      s'.state.X.getD i [] = s.state.X.getD i [] →
      FirstOrder a.p (s.state.X.getD i []) (dpGrad a (a.gdActive s'.gd s'.igd) N
        ((s.state.X.getD i []).take a.p.nVar) (T.getD i 0))) ∧
    (AtMostOne a.p 1 (fun _ => s.state.X.getD i []) (fun z =>
        DpnEquations a (a.gdActive s'.gd s'.igd) N (s.state.X.getD i []) (T.getD i 0) (z 0)) →
      FirstOrder a.p (s.state.X.getD i []) (dpGrad a (a.gdActive s'.gd s'.igd) N
        ((s.state.X.getD i []).take a.p.nVar) (T.getD i 0)) →
      s'.state.X.getD i [] = s.state.X.getD i []) := by
  subst hN
  have hxl := hX.row hi
  have hnl := hn.row hi
  have hsl := hst.row hi
  refine ⟨fun hin ⟨z, A, hA, hAe, hz⟩ hrest => ?_, fun huniq hfo => ?_⟩
  · have hnw := hmv.newton A hA hAe hsol ⟨z, hz⟩
    have hbox := (dpnBox_interior (xl := a.xl) (xu := a.xu) (x := (s.state.X.getD i []).take a.p.nVar)
      (n := (n.getD i []).take a.p.nVar) (by rw [List.length_take, hxl, ha.xl]; omega) (by rw [ha.xu, ha.xl])
      (fun d hd => by
        rw [ha.xl] at hd
        have : ((s.state.X.getD i []).take a.p.nVar).getD d 0 = (s.state.X.getD i []).getD d 0 := by
          simp only [List.getD_eq_getElem?_getD, List.getElem?_take, if_pos hd]
        rw [this]
        exact hin d hd)).1
    have hstep : s'.step.getD i [] = n.getD i [] := by
      rw [hmv.handled, hbox, List.take_append_drop]
    rw [hx, moved_eq_self (by omega) (hα hin).ne', hstep, hxl] at hrest
    have h0 : ∀ c < a.p.nVar + a.p.nDual, pt (n.getD i []) c = 0 := hrest
    refine (kktNewton_zero (fun v _ => ?_) h0).mp hnw
    exact Finset.sum_eq_zero fun w hw => by rw [h0 w (by have := Finset.mem_range.mp hw; omega), mul_zero]
  · obtain ⟨A, hA, hAe⟩ := exists_table a.p.nVar
      (dpHess a (a.gdActive s'.gd s'.igd) s.state.X.length ((s.state.X.getD i []).take a.p.nVar) (T.getD i 0))
    have hz : KktNewton a.p (s.state.X.getD i []) (dpGrad a (a.gdActive s'.gd s'.igd) s.state.X.length
        ((s.state.X.getD i []).take a.p.nVar) (T.getD i 0))
        (fun v => ∑ w ∈ Finset.range a.p.nVar, at2 (a.precond A) v w * (0 : ℕ → K) w) 0 :=
      (kktNewton_zero (fun v _ => by simp) (fun _ _ => rfl)).mpr hfo
    have hnw := hmv.newton A hA hAe hsol ⟨0, hz⟩
    have h0 : ∀ c < a.p.nVar + a.p.nDual, pt (n.getD i []) c = 0 :=
      huniq (fun _ => pt (n.getD i [])) (fun _ => 0) ⟨A, hA, hAe, hnw⟩ ⟨A, hA, hAe, hz⟩
        (fun _ _ k hk hna => ⟨hmv.inactive k hk hna, rfl⟩) 0 one_pos
    have hs0 : ∀ c < (s.state.X.getD i []).length, (s'.step.getD i []).getD c 0 = 0 := by
      intro c hc
      obtain ⟨d, hd, he⟩ := hmv.projected
      have hdz : ∀ c, d.getD c 0 = 0 := by
        have hnz : ∀ c, ((n.getD i []).take a.p.nVar).getD c 0 = 0 := by
          intro c
          by_cases hc : c < a.p.nVar
          · simp only [List.getD_eq_getElem?_getD, List.getElem?_take, if_pos hc]
            rw [← List.getD_eq_getElem?_getD, ← List.getD_eq_getElem?_getD]
            exact h0 c (by omega)
          · exact List.getD_eq_default _ _ (by rw [List.length_take]; omega)
        intro c
        rcases hd with rfl | ⟨⟨c', rfl⟩, -⟩
        · exact hnz c
        · by_cases hcc : c' = c
          · subst hcc
            rw [List.getD_eq_getElem?_getD, List.getElem?_set_self']
            cases ((n.getD i []).take a.p.nVar)[c']? <;> rfl
          · rw [List.getD_eq_getElem?_getD, List.getElem?_set_ne hcc, ← List.getD_eq_getElem?_getD]
            exact hnz c
      have hdl : d.length = a.p.nVar := by
        have := congrArg List.length he
        rw [hsl, List.length_append, List.length_drop, hnl] at this
        omega
      rw [he]
      by_cases hc' : c < a.p.nVar
      · rw [List.getD_append _ _ _ _ (by omega)]; exact hdz c
      · rw [List.getD_append_right _ _ _ _ (by omega), hdl, List.getD_eq_getElem?_getD, List.getElem?_drop,
          ← List.getD_eq_getElem?_getD]
        have : a.p.nVar + (c - a.p.nVar) = c := by omega
        rw [this]
        exact h0 c (by omega)
    rw [hx]
    by_cases hα0 : α i = 0
    · rw [hα0]
      refine List.ext_getElem (by unfold moved; rw [List.length_zipWith]; omega) fun c h1 h2 => ?_
      simp [moved]
    · exact (moved_eq_self (by omega) hα0).mpr hs0

/-! ## Theorems -/

/-- C81 for `DpN` with one component. Full statement: a point is left alone exactly if the first-order conditions hold,
including the signs of the multipliers, for the target it is given. Proved: (1) a point inside of the box with solvable
Newton equations that is left alone meets the conditions without the signs; (2) a point that meets them is left alone if
the equations have no other solution. Missing: the boundary of the box and the signs, where the statement is wrong
(`C81_violated_box`, `C81_violated_sign`). -/
theorem C81_dp_partial {a : Dpn K} (ha : a.Ok) (hsol : SolverSound a.solve) {N : ℕ} {s : DpnState K} (hs : DpnReady a N s) :
    ∃ s' M0 M1 T, a.iterate s = some s' ∧ DpnTargets a s s' M0 M1 T ∧ ∀ i < N,
      (InsideBox a.xl a.xu a.p.nVar (s.state.X.getD i []) →
        (∃ z, DpnEquations a (a.gdActive s'.gd s'.igd) N (s.state.X.getD i []) (T.getD i 0) z) →
        s'.state.X.getD i [] = s.state.X.getD i [] →
        FirstOrder a.p (s.state.X.getD i []) (dpGrad a (a.gdActive s'.gd s'.igd) N
          ((s.state.X.getD i []).take a.p.nVar) (T.getD i 0))) ∧
      (AtMostOne a.p 1 (fun _ => s.state.X.getD i []) (fun z =>
          DpnEquations a (a.gdActive s'.gd s'.igd) N (s.state.X.getD i []) (T.getD i 0) (z 0)) →
        FirstOrder a.p (s.state.X.getD i []) (dpGrad a (a.gdActive s'.gd s'.igd) N
          ((s.state.X.getD i []).take a.p.nVar) (T.getD i 0)) →
        s'.state.X.getD i [] = s.state.X.getD i []) := by
  obtain ⟨s', M0, M1, T, n, α, h1, -, -, h2, h3, h4, h5, h6, -, h7⟩ := C71_iteration ha hs
  refine ⟨s', M0, M1, T, h1, h2, fun i hi => rest_of ha hsol hs.size ⟨hs.size, hs.state.dim⟩ h3 h4 hi (h5 i hi) (h6 i hi) fun hin => ?_⟩
  rcases h7 with ⟨-, h, -⟩ | ⟨-, -, -, h⟩
  · rw [h i hi]; exact one_pos
  · obtain ⟨m, -, -, g1, g2, -⟩ := h i hi
    exact SearchedBy.pos (g1 hin).1 g2

/-- The same with several components. -/
theorem C81_dp_many_partial {a : Dpn K} (ha : a.Ok) (hsol : SolverSound a.solve) {cls : List (List ℕ)} {N : ℕ}
    {s : DpnState K} (hs : DpnReadyMany a cls N s) :
    ∃ s' comp M0 M1 T, a.iterate s = some s' ∧ DpnTargetsMany a cls s s' comp M0 M1 T ∧ ∀ i < N,
      (InsideBox a.xl a.xu a.p.nVar (s.state.X.getD i []) →
        (∃ z, DpnEquations a (a.gdActive s'.gd s'.igd) N (s.state.X.getD i []) (T.getD i 0) z) →
        s'.state.X.getD i [] = s.state.X.getD i [] →
        FirstOrder a.p (s.state.X.getD i []) (dpGrad a (a.gdActive s'.gd s'.igd) N
          ((s.state.X.getD i []).take a.p.nVar) (T.getD i 0))) ∧
      (AtMostOne a.p 1 (fun _ => s.state.X.getD i []) (fun z =>
          DpnEquations a (a.gdActive s'.gd s'.igd) N (s.state.X.getD i []) (T.getD i 0) (z 0)) →
        FirstOrder a.p (s.state.X.getD i []) (dpGrad a (a.gdActive s'.gd s'.igd) N
          ((s.state.X.getD i []).take a.p.nVar) (T.getD i 0)) →
        s'.state.X.getD i [] = s.state.X.getD i []) := by
  obtain ⟨s', comp, M0, M1, T, n, α, h1, -, -, h2, h3, h4, h5, h6, -, h7⟩ := C71_many_iteration ha hs
  refine ⟨s', comp, M0, M1, T, h1, h2, fun i hi => rest_of ha hsol hs.size ⟨hs.size, hs.state.dim⟩ h3 h4 hi (h5 i hi) (h6 i hi) fun hin => ?_⟩
  rcases h7 with ⟨-, h, -⟩ | ⟨-, -, -, h⟩
  · rw [h i hi]; exact one_pos
  · obtain ⟨m, -, -, g1, g2, -⟩ := h i hi
    exact SearchedBy.pos (g1 hin).1 g2

/-- C81, active constraints: a Newton step with step size `α` changes the value of an active affine constraint by the
factor `1 - α`, so an inequality that is active stays active. -/
theorem C81_sticky {p : Funcs K} {x x' : List K} {G HS s : ℕ → K} {k : ℕ} (hk : k < p.nDual) (hs : KktNewton p x G HS s)
    (haff : AffineConstraint p k) (hl : p.nVar ≤ x.length) (hl' : p.nVar ≤ x'.length) {α : K} (h0 : 0 ≤ α) (h1 : α ≤ 1)
    (hx : ∀ w < p.nVar, pt x' w = pt x w + α * s w) (hact : IsActive p (x.take p.nVar) k) :
    cVal p (x'.take p.nVar) k = (1 - α) * cVal p (x.take p.nVar) k ∧ IsActive p (x'.take p.nVar) k := by
  have htk : ∀ (r : List K) w, w < p.nVar → pt (r.take p.nVar) w = pt r w := fun r w hw => by
    simp only [pt, List.getD_eq_getElem?_getD, List.getElem?_take, if_pos hw]
  have e : cVal p (x'.take p.nVar) k = (1 - α) * cVal p (x.take p.nVar) k := by
    rw [haff (x.take p.nVar) (x'.take p.nVar) (by simpa using hl) (by simpa using hl')]
    have : ∑ w ∈ Finset.range p.nVar, cGrad p (x.take p.nVar) k w * (pt (x'.take p.nVar) w - pt (x.take p.nVar) w) =
        α * ∑ w ∈ Finset.range p.nVar, cGrad p (x.take p.nVar) k w * s w := by
      rw [Finset.mul_sum]
      refine Finset.sum_congr rfl fun w hw => ?_
      have hw := Finset.mem_range.mp hw
      rw [htk _ w hw, htk _ w hw, hx w hw]
      ring
    rw [this, hs.2 k hk hact]
    ring
  refine ⟨e, hact.imp id fun h => ?_⟩
  rw [e]
  nlinarith

end

/-- C81 for `MMDNewton`, with the missing parts of `C81_dp_partial`; there is no box. -/
theorem C81_mmd_partial {a : Mmdn} (ha : a.Ok) (hsol : SolverSound a.solve) {N : ℕ} {s : MmdnState} (hs : MmdnReady a N s) :
    ∃ s' M0 M1 T G H, a.iterate s = some s' ∧ MmdnTargets a s s' M0 M1 T ∧
      (MmdSmooth a → MmdGrad a T s.state.X G ∧ MmdHess a T s.state.X H) ∧
      ∀ A, TableOf N a.p.nVar H A →
        ∀ E : (ℕ → ℕ → ℝ) → Prop, (∀ z, E z ↔ ∀ i < N, KktNewtonFlat a.p (s.state.X.getD i []) (G i)
          (fun v => ∑ j ∈ Finset.range N, ∑ w ∈ Finset.range a.p.nVar,
            at2 (a.precond A) (i * a.p.nVar + v) (j * a.p.nVar + w) * z j w) (z i)) →
        ((∃ z, E z) → s'.state.X = s.state.X → ∀ i < N, FirstOrder a.p (s.state.X.getD i []) (G i)) ∧
        (AtMostOne a.p N (fun i => s.state.X.getD i []) E → (∀ i < N, FirstOrder a.p (s.state.X.getD i []) (G i)) →
          s'.state.X = s.state.X) := by
  obtain ⟨s', M0, M1, T, G, H, α, h1, h2, -, h3, h4, h5, h6, -, h7, -⟩ := C72_iteration_partial ha hs
  have hN := hs.size
  subst hN
  have hα : 0 < α := by
    unfold MmdnSearched MmdnSearchedBy at h5
    split at h5
    · rw [h5]; exact one_pos
    · obtain ⟨j, -, rfl, -⟩ := h5
      positivity
  have hX : IsMat s.state.X.length (a.p.nVar + a.p.nDual) s.state.X := ⟨rfl, hs.state.dim⟩
  have hX' : IsMat s.state.X.length (a.p.nVar + a.p.nDual) s'.state.X := ⟨h2.size, h2.state.dim⟩
  refine ⟨s', M0, M1, T, G, H, h1, h3, fun hsm => ⟨(h4.derivs hsm).1, (h4.derivs hsm).2.1⟩, fun A hA E hE =>
    ⟨fun ⟨z, hz⟩ hrest i hi => ?_, fun huniq hfo => ?_⟩⟩
  · have h0 : ∀ j < s.state.X.length, ∀ c < a.p.nVar + a.p.nDual, at2 s'.step j c = 0 := by
      intro j hj c hc
      have := h7 j hj c hc
      rw [hrest] at this
      have : α * (s'.step.getD j []).getD c 0 = 0 := by linarith
      exact (mul_eq_zero.mp this).resolve_left hα.ne'
    have hnw := (h4.newton A hA hsol ⟨z, (hE z).mp hz⟩ i hi).1
    refine (kktNewtonFlat_zero (fun v _ => ?_) (h0 i hi)).mp hnw
    exact Finset.sum_eq_zero fun j hj => Finset.sum_eq_zero fun w hw => by
      rw [h0 j (Finset.mem_range.mp hj) w (by have := Finset.mem_range.mp hw; omega), mul_zero]
  · have hz : E fun _ _ => 0 := (hE _).mpr fun i hi =>
      (kktNewtonFlat_zero (fun v _ => by simp) (fun _ _ => rfl)).mpr (hfo i hi)
    have hnw := h4.newton A hA hsol ⟨_, (hE _).mp hz⟩
    have h0 : ∀ j < s.state.X.length, ∀ c < a.p.nVar + a.p.nDual, at2 s'.step j c = 0 :=
      huniq (at2 s'.step) (fun _ _ => 0) ((hE _).mpr fun i hi => (hnw i hi).1) hz
        (fun i hi k hk hna => ⟨(hnw i hi).2 k hk hna, rfl⟩)
    refine hX'.ext_at2 hX fun i hi c hc => ?_
    have := h7 i hi c hc
    rw [show (s'.step.getD i []).getD c 0 = 0 from h0 i hi c hc, mul_zero, add_zero] at this
    exact this

/-- C81, active constraints of `MMDNewton`: over any number of iterations with solvable Newton equations, an affine
inequality that is active at a point is never released. -/
theorem C81_sticky_run {a : Mmdn} (ha : a.Ok) (hsol : SolverSound a.solve) {N : ℕ} {run : ℕ → MmdnState}
    (hs : MmdnReady a N (run 0)) (hit : ∀ t, a.iterate (run t) = some (run (t + 1)))
    {k : ℕ} {i : ℕ}
    (hsolv : ∀ t, MmdnReady a N (run t) → IsActive a.p (((run t).state.X.getD i []).take a.p.nVar) k →
      ∃ G H T, MmdnMove a (run t) (run (t + 1)) T G H ∧ ∃ A, TableOf N a.p.nVar H A ∧ ∃ z : ℕ → ℕ → ℝ, ∀ i < N,
      KktNewtonFlat a.p ((run t).state.X.getD i []) (G i) (fun v => ∑ j ∈ Finset.range N, ∑ w ∈ Finset.range a.p.nVar,
        at2 (a.precond A) (i * a.p.nVar + v) (j * a.p.nVar + w) * z j w) (z i))
    (hk : k < a.p.nDual) (haff : AffineConstraint a.p k) (hi : i < N)
    (hact : IsActive a.p (((run 0).state.X.getD i []).take a.p.nVar) k) (t : ℕ) :
    MmdnReady a N (run t) ∧ IsActive a.p (((run t).state.X.getD i []).take a.p.nVar) k ∧
      |cVal a.p (((run t).state.X.getD i []).take a.p.nVar) k| ≤
        (63 / 64) ^ t * |cVal a.p (((run 0).state.X.getD i []).take a.p.nVar) k| := by
  induction t with
  | zero => exact ⟨hs, hact, by simp⟩
  | succ t ih =>
    obtain ⟨i1, i2, i3⟩ := ih
    obtain ⟨s', M0, M1, T, G, H, α, h1, h2, -, h3, h4, h5, h6, -, h7, -⟩ := C72_iteration_partial ha i1
    obtain rfl : run (t + 1) = s' := Option.some.inj ((hit t).symm.trans h1)
    have hN := i1.size
    have hα : 1 / 64 ≤ α ∧ α ≤ 1 := by
      unfold MmdnSearched MmdnSearchedBy at h5
      split at h5
      · rw [h5]; norm_num
      · obtain ⟨j, hj, rfl, -⟩ := h5
        refine ⟨?_, pow_le_one₀ (by norm_num) (by norm_num)⟩
        calc (1 : ℝ) / 64 = (1 / 2) ^ 6 := by norm_num
          _ ≤ (1 / 2) ^ j := pow_le_pow_of_le_one (by norm_num) (by norm_num) hj
    obtain ⟨G, H, T, h4', A, hA, z, hz⟩ := hsolv t i1 i2
    have hnw := (h4'.newton A (hN ▸ hA) hsol ⟨z, by rw [hN]; exact hz⟩ i (by rw [hN]; exact hi)).1
    have hl : ((run t).state.X.getD i []).length = a.p.nVar + a.p.nDual := IsMat.row ⟨hN, i1.state.dim⟩ hi
    have hl' : ((run (t + 1)).state.X.getD i []).length = a.p.nVar + a.p.nDual := IsMat.row ⟨h2.size, h2.state.dim⟩ hi
    have hx : ∀ w < a.p.nVar, pt ((run (t + 1)).state.X.getD i []) w =
        pt ((run t).state.X.getD i []) w + α * at2 (run (t + 1)).step i w := fun w hw => h7 i hi w (by omega)
    have htk : ∀ (r : List ℝ) w, w < a.p.nVar → pt (r.take a.p.nVar) w = pt r w := fun r w hw => by
      simp only [pt, List.getD_eq_getElem?_getD, List.getElem?_take, if_pos hw]
    have e : cVal a.p (((run (t + 1)).state.X.getD i []).take a.p.nVar) k =
        (1 - α) * cVal a.p (((run t).state.X.getD i []).take a.p.nVar) k := by
      rw [haff (((run t).state.X.getD i []).take a.p.nVar) _ (by rw [List.length_take]; omega) (by rw [List.length_take]; omega)]
      have : ∑ w ∈ Finset.range a.p.nVar, cGrad a.p (((run t).state.X.getD i []).take a.p.nVar) k w *
          (pt (((run (t + 1)).state.X.getD i []).take a.p.nVar) w - pt (((run t).state.X.getD i []).take a.p.nVar) w) =
          α * ∑ w ∈ Finset.range a.p.nVar, cGrad a.p (((run t).state.X.getD i []).take a.p.nVar) k w *
            at2 (run (t + 1)).step i w := by
        rw [Finset.mul_sum]
        refine Finset.sum_congr rfl fun w hw => ?_
        have hw := Finset.mem_range.mp hw
        rw [htk _ w hw, htk _ w hw, hx w hw]
        ring
      rw [this, hnw.2 k hk i2]
      ring
    refine ⟨h2, i2.imp id fun h => ?_, ?_⟩
    · rw [e]
      nlinarith [hα.1, hα.2]
    · rw [e, abs_mul, pow_succ, abs_of_nonneg (by linarith [hα.2])]
      have := abs_nonneg (cVal a.p (((run t).state.X.getD i []).take a.p.nVar) k)
      nlinarith [hα.1, hα.2]

/-- C81 for the layers of `HVN` (without step limit), with the missing parts of `C81_dp_partial`. -/
theorem C81_hv_partial {a : Hvn ℝ} {N0 : ℕ} (ha : a.Ok N0) (hs : SolverSound a.solve) (h5 : a.nObj ≤ 5)
    {Z Z' : List (List ℝ)} (hm : LayerMoved a.env (a.p.nVar + a.p.nDual) N0 (fun _ _ m => m = 1) Z Z')
    (hZ' : ∀ x ∈ Z', x.length = a.p.nVar + a.p.nDual) {P : List (ℕ → ℝ)} (hP : P = (a.p.primal Z).map pt)
    (hD : HasDerivs a.problem P) (hg : GeneralPosition a.nObj (P.map a.problem.func) (pt a.ref))
    (hr : InRange a.nObj (P.map a.problem.func) (pt a.ref)) :
    ∃ (G : ℕ → ℕ → ℝ) (H : ℕ → ℕ → ℕ → ℕ → ℝ),
      (∀ i < P.length, ∀ v < a.p.nVar,
        HasDerivAt (fun t => hvX a.problem (setCoord P i v t)) (G i v) (ptOf P i v) ∧
        ∀ j < P.length, ∀ w < a.p.nVar,
          HasDerivAt (fun t => deriv (fun s => hvX a.problem (setCoord (setCoord P j w t) i v s))
            (ptOf (setCoord P j w t) i v)) (H i v j w) (ptOf P j w)) ∧
      ∀ A, TableOf P.length a.p.nVar H A →
        ∀ E : (ℕ → ℕ → ℝ) → Prop, (∀ z, E z ↔ ∀ i < P.length, KktNewton a.p (Z.getD i []) (G i)
          (fun v => ∑ j ∈ Finset.range P.length, ∑ w ∈ Finset.range a.p.nVar,
            at2 (a.precond A) (i * a.p.nVar + v) (j * a.p.nVar + w) * z j w) (z i)) →
        ((∃ z, E z) → Z' = Z → ∀ i < P.length, FirstOrder a.p (Z.getD i []) (G i)) ∧
        (AtMostOne a.p P.length (fun i => Z.getD i []) E → (∀ i < P.length, FirstOrder a.p (Z.getD i []) (G i)) → Z' = Z) := by
  obtain ⟨t, S, R, m, k, m1, rfl, m3, rfl, -, m5, m6, -⟩ := hm
  obtain ⟨S', R', G, H, d1, d2, -, -, d5⟩ := C69_direction_partial ha hs h5 m1 hP hD hg hr
  obtain ⟨rfl, rfl⟩ := Prod.mk.inj (Option.some.inj (m3.symm.trans d1))
  have hPl : P.length = t.X.length := by rw [hP]; simp [Funcs.primal]
  rw [hPl] at d2 d5 ⊢
  have hα : (0 : ℝ) < 1 * (1 / 2) ^ k := by positivity
  refine ⟨G, H, d2, fun A hA E hE => ⟨fun ⟨z, hz⟩ hrest i hi => ?_, fun huniq hfo => ?_⟩⟩
  · have h0 : ∀ j < t.X.length, ∀ c < a.p.nVar + a.p.nDual, at2 S j c = 0 := by
      intro j hj c hc
      have := m6 j hj c hc
      rw [hrest] at this
      have : 1 * (1 / 2) ^ k * (S.getD j []).getD c 0 = 0 := by linarith
      exact (mul_eq_zero.mp this).resolve_left hα.ne'
    have hnw := (d5 A hA ⟨z, (hE z).mp hz⟩ i hi).1
    refine (kktNewton_zero (fun v _ => ?_) (h0 i hi)).mp hnw
    exact Finset.sum_eq_zero fun j hj => Finset.sum_eq_zero fun w hw => by
      rw [h0 j (Finset.mem_range.mp hj) w (by have := Finset.mem_range.mp hw; omega), mul_zero]
  · have hz : E fun _ _ => 0 := (hE _).mpr fun i hi =>
      (kktNewton_zero (fun v _ => by simp) (fun _ _ => rfl)).mpr (hfo i hi)
    have hnw := d5 A hA ⟨_, (hE _).mp hz⟩
    have h0 : ∀ j < t.X.length, ∀ c < a.p.nVar + a.p.nDual, at2 S j c = 0 :=
      huniq (at2 S) (fun _ _ => 0) ((hE _).mpr fun i hi => (hnw i hi).1) hz
        (fun i hi k hk hna => ⟨(hnw i hi).2 k hk hna, rfl⟩)
    refine IsMat.ext_at2 ⟨m5, hZ'⟩ ⟨rfl, m1.dim⟩ fun i hi c hc => ?_
    have := m6 i hi c hc
    rw [show (S.getD i []).getD c 0 = 0 from h0 i hi c hc, mul_zero, add_zero] at this
    exact this

end Verif.Props
