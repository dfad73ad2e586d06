import Verif.Opt.HVNEnv
import Verif.HVD.Given
import Verif.Props.DecisionSpace
import Verif.Props.Kkt

/-!
# C69: `HVN` with the hypervolume

The assumptions of C69 hold for the Newton step of the hypervolume; it is the Newton step of the first-order conditions
for the true hypervolume. Two ways in which an iteration violates C69.
-/

namespace Verif.Props

open Verif.Opt Verif.Util Verif.NDS Verif.HV Verif.HVD

set_option linter.unusedSectionVars false

section

variable {K : Type*} [Field K] [LinearOrder K] [IsStrictOrderedRing K] [Inhabited K] {a : Hvn K} {N0 : ℕ}

/-- C69 for `HVN` as constructed from a problem and a reference point: every iteration from a usable population
returns and has the properties of `IterationSpec`. -/
theorem C69_hvn (ha : a.Ok N0) (hl : a.limit = false) {s : State K} (hs : Usable a.p (a.p.nVar + a.p.nDual) N0 s) :
    ∃ s', a.env.iterate s = some s' ∧ IterationSpec a.env (a.p.nVar + a.p.nDual) N0 (fun _ _ m => m = 1) s s' :=
  C69_iteration (Hvn.env_ok ha) hl hs

/-- C69, from the constructor: every non-empty starting population with points of the right dimension leads to a usable
population in the box that has the same points up to clipping, provided the bounds are in order. -/
theorem C69_initialize (ha : a.Ok N0) (hxl : a.xl.length = a.p.nVar) (hxu : a.xu.length = a.p.nVar)
    (hb : ∀ d < a.p.nVar, a.xl.getD d 0 ≤ a.xu.getD d 0) {X0 : List (List K)} (hX : X0 ≠ []) (hN : X0.length ≤ N0)
    (hd : ∀ x ∈ X0, x.length = a.p.nVar) :
    ∃ s, a.start X0 = some s ∧ Usable a.p (a.p.nVar + a.p.nDual) N0 s ∧ s.X.length = X0.length ∧
      PopInBox a.xl a.xu (a.p.primal s.X) ∧ (PopInBox a.xl a.xu X0 → a.p.primal s.X = X0) ∧
      ∀ x ∈ s.X, ∀ k < a.p.nDual, x.getD (a.p.nVar + k) 0 = 1 / (X0.length : K) := by
  have hclip : ∀ x ∈ X0, (a.clipRow x).length = a.p.nVar := fun x hx => by
    simp [Hvn.clipRow, hd x hx, hxl, hxu]
  obtain ⟨s, h1, h2, h3, -⟩ := Usable.update (N0 := N0) (dim := a.p.nVar + a.p.nDual) ha.funcs (Nat.le_add_right _ _)
    State.init (X := X0.map fun x => a.clipRow x ++ List.replicate a.p.nDual (1 / (X0.length : K)))
    (by simpa using hX) (by simpa using hN) (by
      intro y hy
      obtain ⟨x, hx, rfl⟩ := List.mem_map.mp hy
      rw [List.length_append, hclip x hx, List.length_replicate])
  have hp : a.p.primal s.X = X0.map a.clipRow := by
    rw [h2, Funcs.primal, List.map_map]
    refine List.map_congr_left fun x hx => ?_
    rw [Function.comp_apply, List.take_left' (hclip x hx)]
  have he : ∀ x ∈ X0, ∀ d < a.p.nVar, (a.clipRow x).getD d 0 = min (max (x.getD d 0) (a.xl.getD d 0)) (a.xu.getD d 0) := by
    intro x hx d hdl
    have l1 := hd x hx
    rw [List.getD_eq_getElem _ _ (by rw [hclip x hx]; exact hdl), List.getD_eq_getElem x _ (by omega),
      List.getD_eq_getElem a.xl _ (by omega), List.getD_eq_getElem a.xu _ (by omega)]
    simp [Hvn.clipRow]
  refine ⟨s, ?_, h3, by simp [h2], ?_, fun hbox => ?_, ?_⟩
  · rw [Hvn.start, if_pos]
    · exact h1
    · simp only [List.all_eq_true, decide_eq_true_eq]
      exact fun x hx => ⟨hd x hx, hxl, hxu⟩
  · rw [hp]
    intro y hy
    obtain ⟨x, hx, rfl⟩ := List.mem_map.mp hy
    refine ⟨by rw [hclip x hx, hxl], fun d hdl => ?_⟩
    rw [he x hx d (hxl ▸ hdl)]
    exact ⟨le_min (le_max_right _ _) (hb d (hxl ▸ hdl)), min_le_right _ _⟩
  · rw [hp]
    conv_rhs => rw [← List.map_id X0]
    refine List.map_congr_left fun x hx => ?_
    apply List.ext_getElem (by simp [hclip x hx, hd x hx])
    intro d h4 h5
    have hdl : d < a.p.nVar := by rw [hclip x hx] at h4; exact h4
    have := he x hx d hdl
    rw [List.getD_eq_getElem _ _ h4] at this
    obtain ⟨-, b2⟩ := hbox x hx
    obtain ⟨b3, b4⟩ := b2 d (by omega)
    rw [this, max_eq_left b3, min_eq_left b4, List.getD_eq_getElem x _ h5]
    rfl
  · rw [h2]
    intro y hy k hk
    obtain ⟨x, hx, rfl⟩ := List.mem_map.mp hy
    rw [List.getD_append_right _ _ _ _ (by rw [hclip x hx]; omega), hclip x hx, Nat.add_sub_cancel_left,
      List.getD_eq_getElem _ _ (by simpa using hk), List.getElem_replicate]

/-- C69 for a run of `HVN` from the constructor: any number of iterations returns. -/
theorem C69_hvn_run (ha : a.Ok N0) (hl : a.limit = false) (hxl : a.xl.length = a.p.nVar) (hxu : a.xu.length = a.p.nVar)
    (hb : ∀ d < a.p.nVar, a.xl.getD d 0 ≤ a.xu.getD d 0) {X0 : List (List K)} (hX : X0 ≠ []) (hN : X0.length ≤ N0)
    (hd : ∀ x ∈ X0, x.length = a.p.nVar) (n : ℕ) :
    ∃ s s', a.start X0 = some s ∧ a.env.run n s = some s' ∧ Usable a.p (a.p.nVar + a.p.nDual) N0 s' ∧
      s'.X.length ≤ X0.length := by
  obtain ⟨s, h1, h2, h3, -⟩ := C69_initialize ha hxl hxu hb hX hN hd
  obtain ⟨s', r1, r2, r3⟩ := C69_run (Hvn.env_ok ha) hl n h2
  exact ⟨s, s', h1, r1, r2, h3 ▸ r3⟩

/-- C69 for `HVN` with the step limit: a run that returns stays in the box. -/
theorem C69_hvn_box (ha : a.Ok N0) (hl : a.limit = true) (hxl : a.xl.length = a.p.nVar) (hxu : a.xu.length = a.p.nVar)
    (n : ℕ) {s s' : State K} (hs : Usable a.p (a.p.nVar + a.p.nDual) N0 s) (hb : PopInBox a.xl a.xu (a.p.primal s.X))
    (h : a.env.run n s = some s') : PopInBox a.xl a.xu (a.p.primal s'.X) :=
  (C69_box_run (Hvn.env_ok ha) hl hxl hxu n hs hb h).2

end

/-! ### The direction -/

section Direction

variable {K : Type*} [Field K] [LinearOrder K] [IsStrictOrderedRing K] [Inhabited K] {a : Hvn K} {N0 : ℕ}

theorem Hvn.coords_pt {q : List K} (hq : q.length = a.p.nVar) : a.coords (pt q) = q := by
  unfold Hvn.coords
  apply List.ext_getElem (by simp [hq])
  intro i h1 h2
  simp [pt, List.getElem?_eq_getElem h2]

/-- The cached objectives and Jacobians of a state are those that the indicator would evaluate. -/
theorem Hvn.cached {t : State K} (ht : Usable a.p (a.p.nVar + a.p.nDual) N0 t) {J : List (List K)} (hJ : t.J = some J) :
    t.Y.map pt = ((a.p.primal t.X).map pt).map a.problem.func' ∧
    ∀ i < ((a.p.primal t.X).map pt).length, a.givenJ J i = a.problem.jac' (ptOf ((a.p.primal t.X).map pt) i) := by
  have hq : ∀ x ∈ t.X, (x.take a.p.nVar).length = a.p.nVar := fun x hx => by
    rw [List.length_take, ht.dim x hx]; omega
  constructor
  · rw [ht.sync.Y, List.map_map, List.map_map, Funcs.primal, List.map_map]
    refine List.map_congr_left fun x hx => ?_
    simp only [Function.comp_apply, Problem.func', Hvn.problem, if_true, Hvn.coords_pt (hq x hx)]
  · intro i hi
    have hi' : i < t.X.length := by simpa [Funcs.primal] using hi
    have e1 : ptOf ((a.p.primal t.X).map pt) i = pt (t.X[i].take a.p.nVar) := by
      rw [ptOf_eq hi]
      simp [Funcs.primal]
    have e2 : J.getD i [] = a.p.jac.point (t.X[i].take a.p.nVar) := by
      rw [ht.sync.J J hJ, List.getD_eq_getElem _ _ (by simpa using hi'), List.getElem_map]
    funext k v
    simp only [Hvn.givenJ, e2, e1, Problem.jac', Hvn.problem, Hvn.coords_pt (hq _ (List.getElem_mem hi'))]
    rfl

/-- C69, direction: for up to five objectives in general position, the residual of a layer is that of the first-order
conditions with the partial derivatives `G` of the hypervolume of the layer as a function of its points, and the Newton
step solves their Newton equations with the preconditioned table of the second derivatives `H` (the table itself without
preconditioning) and leaves the multipliers of inactive constraints as they are, if these equations have a solution at all. Missing are more objectives, for which the
Hessian is wrong (C14). -/
theorem C69_direction_partial {a : Hvn ℝ} {N0 : ℕ} (ha : a.Ok N0)
    (hs : SolverSound a.solve) (h5 : a.nObj ≤ 5) {t : State ℝ}
    (ht : Usable a.p (a.p.nVar + a.p.nDual) N0 t) {P : List (ℕ → ℝ)} (hP : P = (a.p.primal t.X).map pt)
    (hD : HasDerivs a.problem P) (hg : GeneralPosition a.nObj (P.map a.problem.func) (pt a.ref))
    (hr : InRange a.nObj (P.map a.problem.func) (pt a.ref)) :
    ∃ (S R : List (List ℝ)) (G : ℕ → ℕ → ℝ) (H : ℕ → ℕ → ℕ → ℕ → ℝ), a.newton t = some (S, R) ∧
      (∀ i < P.length, ∀ v < a.p.nVar,
        HasDerivAt (fun t => hvX a.problem (setCoord P i v t)) (G i v) (ptOf P i v) ∧
        ∀ j < P.length, ∀ w < a.p.nVar,
          HasDerivAt (fun t => deriv (fun s => hvX a.problem (setCoord (setCoord P j w t) i v s))
            (ptOf (setCoord P j w t) i v)) (H i v j w) (ptOf P j w)) ∧
      SymmetricIn P.length a.p.nVar H ∧
      (∀ i < P.length, KktResidual a.p (t.X.getD i []) (G i) (at2 R i)) ∧
      ∀ A, TableOf P.length a.p.nVar H A → (∃ S0 : ℕ → ℕ → ℝ, ∀ i < P.length, KktNewton a.p (t.X.getD i []) (G i)
          (fun v => ∑ j ∈ Finset.range P.length, ∑ w ∈ Finset.range a.p.nVar,
            at2 (a.precond A) (i * a.p.nVar + v) (j * a.p.nVar + w) * S0 j w) (S0 i)) →
        ∀ i < P.length, KktNewton a.p (t.X.getD i []) (G i)
            (fun v => ∑ j ∈ Finset.range P.length, ∑ w ∈ Finset.range a.p.nVar,
              at2 (a.precond A) (i * a.p.nVar + v) (j * a.p.nVar + w) * at2 S j w) (at2 S i) ∧
          ∀ k < a.p.nDual, ¬ IsActive a.p ((t.X.getD i []).take a.p.nVar) k → at2 S i (a.p.nVar + k) = 0 := by
  subst hP
  set P := (a.p.primal t.X).map pt with hPdef
  have hPl : P.length = t.X.length := by simp [hPdef, Funcs.primal]
  have hPne : P ≠ [] := by simpa [hPdef, Funcs.primal] using ht.ne
  obtain ⟨J, hJ⟩ := Option.isSome_iff_exists.mp ht.jac
  obtain ⟨c1, c2⟩ := Hvn.cached ht hJ
  obtain ⟨r, hr, hder⟩ := C15_hessian_derivative_partial (p := a.problem) (fuel := a.fuel) rfl ha.argsort ha.two h5 hPne hD hg hr
    (by rw [hPl]; exact ha.fuel' ht.le)
  have hr' := hr
  rw [← Problem.computeHessian_given c1 c2] at hr'
  set n := a.p.nVar with hn
  set N := t.X.length with hN
  set grad := a.gradRows N r.HVdX with hgrad
  obtain ⟨g1, g2⟩ := Hvn.gradRows_shape (a := a) N r.HVdX
  set Hess : List (List ℝ) := (List.range (N * n)).map fun b => (List.range (N * n)).map fun c => r.HVdX2 b c with hHess
  have g3 : grad.length = N := g1
  obtain ⟨ds, l1, l2, l3⟩ := Funcs.layerPoints_spec ha.funcs ha.jac ht (grad := grad) (g3.trans hN) g2
  have hsh : ∀ d ∈ ds, d.Shape n a.p.nDual := fun d hd => by
    obtain ⟨i, hi, rfl⟩ := List.mem_iff_getElem.mp hd
    exact (l3 i hi).1
  have hHm : IsMat (N * n) (N * n) Hess := by
    refine ⟨by simp [hHess], fun x hx => ?_⟩
    obtain ⟨b, -, rfl⟩ := List.mem_map.mp hx
    simp
  have hHe : ∀ i < N, ∀ v < n, ∀ j < N, ∀ w < n, at2 Hess (i * n + v) (j * n + w) = r.HVdX2 (i * n + v) (j * n + w) := by
    intro i hi v hv j hj w hw
    have e1 : i * n + v < N * n := by nlinarith
    have e2 : j * n + w < N * n := by nlinarith
    exact at2_table e1 e2
  have hGe : ∀ i (hi : i < ds.length), ∀ v < n, ds[i].grad.getD v 0 = r.HVdX (i * n + v) := by
    intro i hi v hv
    rw [(l3 i hi).2.1]
    exact at2_table (f := fun i v => r.HVdX (i * n + v)) (by omega) hv
  have hx : ∀ i < N, (t.X.getD i []).length = n + a.p.nDual := by
    intro i hi
    rw [List.getD_eq_getElem _ _ hi]
    exact ht.dim _ (List.getElem_mem hi)
  have hkk : ∀ (S : ℕ → ℕ → ℝ) (i) (hi : i < ds.length), NewtonEquations true n a.p.nDual ds[i]
      (fun v => ∑ j ∈ Finset.range N, ∑ w ∈ Finset.range n, at2 (a.precond Hess) (i * n + v) (j * n + w) * S j w) (S i) ↔
      KktNewton a.p (t.X.getD i []) (fun v => r.HVdX (i * n + v))
        (fun v => ∑ j ∈ Finset.range N, ∑ w ∈ Finset.range n, at2 (a.precond Hess) (i * n + v) (j * n + w) * S j w) (S i) :=
    fun S i hi => kktNewton_iff ha.funcs (hx i (by omega)) (l3 i hi).2.2 (hGe i hi) _ _
  have hNpos : 0 < ds.length := by rw [l2]; exact List.length_pos_iff.mpr ht.ne
  have hHm' : IsMat (ds.length * n) (ds.length * n) (a.precond Hess) := by rw [l2]; exact ha.precond _ _ hHm
  obtain ⟨S, hS, hS1, hS2⟩ := hvnStep_total ha.solve hNpos hsh hHm'
  obtain ⟨R, hR, hR1, hR2⟩ := hvnR_rows (c := a.p.constrained) hsh Funcs.nDual_free
  refine ⟨S, R, fun i v => r.HVdX (i * n + v), fun i v j w => r.HVdX2 (i * n + v) (j * n + w), ?_, ?_, ?_, ?_, ?_⟩
  · rw [Hvn.newton, hJ, Option.bind_some, hr', Option.bind_some, ← hgrad, l1, Option.bind_some, hR, Option.bind_some,
      ← hHess, hS, Option.map_some]
  · intro i hi v hv
    obtain ⟨d1, d2⟩ := hder i hi v hv
    exact ⟨d1, fun j hj w hw => d2 j hj w hw⟩
  · intro i hi v hv j hj w hw
    have e1 := ((C15_hessian hr hi hv hj hw).2 _ rfl).1
    have e2 := ((C15_hessian hr hj hw hi hv).2 _ rfl).1
    exact (e1.trans (congrArg (· / 2) (add_comm _ _))).trans e2.symm
  · intro i hi
    have hi' : i < ds.length := by omega
    obtain ⟨-, r1, r2⟩ := hR2 i hi'
    exact kktResidual_of ha.funcs (hx i (by omega)) (l3 i hi').2.2 (l3 i hi').1 (hGe i hi') r1 r2
  · rintro A hA ⟨S0, hS0⟩
    rw [hPl] at hA hS0 ⊢
    obtain rfl : A = Hess := hA.unique ⟨hHm, hHe⟩
    obtain ⟨S', h1, h2, h3, h4⟩ := C60_hvn hs hNpos hsh hHm'
      ⟨(List.range N).map fun j => (List.range (n + a.p.nDual)).map fun w => S0 j w,
        ⟨by rw [List.length_map, List.length_range, l2], fun x hx => by
          obtain ⟨j, -, rfl⟩ := List.mem_map.mp hx
          simp⟩, fun i hi => by
          have := (hkk S0 i hi).mpr (hS0 i (by omega))
          have e : ∀ j < N, ∀ w < n + a.p.nDual,
              at2 ((List.range N).map fun j => (List.range (n + a.p.nDual)).map fun w => S0 j w) j w = S0 j w :=
            fun j hj w hw => at2_table hj hw
          unfold NewtonEquations at this ⊢
          refine ⟨fun v hv => ?_, fun k hk ha => ?_⟩
          · rw [← this.1 v hv]
            congr 1
            · congr 1
              · unfold hessTimes
                rw [l2]
                exact Finset.sum_congr rfl fun j hj => Finset.sum_congr rfl fun w hw => by
                  rw [e j (Finset.mem_range.mp hj) w (by have := Finset.mem_range.mp hw; omega)]
              · rw [if_pos rfl, if_pos rfl]
                exact Finset.sum_congr rfl fun w hw => by
                  rw [e i (by omega) w (by have := Finset.mem_range.mp hw; omega)]
            · exact Finset.sum_congr rfl fun k hk => by
                rw [e i (by omega) (n + k) (by have := Finset.mem_range.mp hk; omega)]
          · rw [← this.2 k hk ha]
            exact Finset.sum_congr rfl fun w hw => by
              rw [e i (by omega) w (by have := Finset.mem_range.mp hw; omega)]⟩
    obtain rfl : S = S' := Option.some.inj (hS.symm.trans h1)
    intro i hi
    refine ⟨(hkk (at2 S) i (by omega)).mp ?_, fun k hk hna => h4 i (by omega) k hk ?_⟩
    · have := h3 i (by omega)
      unfold hessTimes at this
      simpa only [l2] using this
    · rw [← Bool.not_eq_true, PointOf.active ha.funcs (hx i hi) (l3 i (by omega)).2.2 hk]
      exact hna

end Direction

/-! ### Examples, and two violations -/

section Examples

variable {K : Type*} [Field K] [LinearOrder K] [IsStrictOrderedRing K] [Inhabited K]

open Classical in
/-- A solver with the assumed contract that computes the solution of one equation. -/
noncomputable def oneSolve (A : List (List K)) (b : List K) : List K :=
  match A, b with
  | [[x]], [y] => if x = 0 then (if h : ∃ z, SolvesSystem [[x]] [y] z then h.choose else [y]) else [y / x]
  | A, b => if h : ∃ z, SolvesSystem A b z then h.choose else b

theorem oneSolve_sound : SolverSound (oneSolve (K := K)) := by
  classical
  intro A b _ h
  unfold oneSolve
  split
  · split
    · exact h.choose_spec
    · rename_i x y hx
      refine ⟨rfl, fun i hi => ?_⟩
      obtain rfl : i = 0 := by simpa using hi
      simp [at2]
      field_simp
  · rw [dif_pos h]
    exact h.choose_spec

theorem oneSolve_length (A : List (List K)) (b : List K) : (oneSolve A b).length = b.length := by
  classical
  unfold oneSolve
  split
  · split
    · split
      · rename_i h
        exact h.choose_spec.1
      · rfl
    · rfl
  · split
    · rename_i h
      exact h.choose_spec.1
    · rfl

/-- `f(x) = (x, 1 - x)` for one variable. -/
def lineFuncs (K : Type*) [Field K] : Funcs K where
  nVar := 1
  nEq := 0
  nIeq := 0
  func := ⟨fun x => [x.getD 0 0, 1 - x.getD 0 0], none⟩
  jac := ⟨fun _ => [1, -1], none⟩
  h := none
  hJac := none
  hHess := none
  g := none
  gJac := none
  gHess := none

theorem lineFuncs_ok : (lineFuncs K).Ok 2 where
  func := ⟨fun b hb => by simp [lineFuncs] at hb, fun _ _ => rfl⟩
  jac := ⟨fun b hb => by simp [lineFuncs] at hb, fun _ _ => rfl⟩
  h := by rintro c hc; simp [lineFuncs] at hc
  g := by rintro c hc; simp [lineFuncs] at hc
  hJac := by rintro c hc; simp [lineFuncs] at hc
  gJac := by rintro c hc; simp [lineFuncs] at hc
  hHess := by rintro c hc; simp [lineFuncs] at hc
  gHess := by rintro c hc; simp [lineFuncs] at hc

/-- The sum of the distances of the entries. -/
def sumDist (x y : List K) : K := ((x.zip y).map fun q => |q.1 - q.2|).sum

theorem sumDist_nonneg (x y : List K) : 0 ≤ sumDist x y := by
  refine List.sum_nonneg fun v hv => ?_
  obtain ⟨q, -, rfl⟩ := List.mem_map.mp hv
  exact abs_nonneg _

theorem sumDist_symm (x y : List K) : sumDist x y = sumDist y x := by
  unfold sumDist
  induction x generalizing y with
  | nil => simp
  | cons a x ih =>
    cases y with
    | nil => simp
    | cons b y => simp only [List.zip_cons_cons, List.map_cons, List.sum_cons, ih y, abs_sub_comm a b]

/-- `HVN` with one variable: minimise `(x, 1 - x)` in the box `[0, hi]` with the reference point `(r0, r1)`. -/
noncomputable def lineHvn (r0 r1 hi : K) (limit : Bool) : Hvn K where
  p := lineFuncs K
  nObj := 2
  ref := [r0, r1]
  hess := fun _ => [0, 0]
  xl := [0]
  xu := [hi]
  limit := limit
  eps := 1 / 10 ^ 8
  fuel := 100
  argsort := stableArgsort
  dist := sumDist
  norm := fun R => (R.flatten.map fun v => |v|).sum
  solve := oneSolve
  precond := id

theorem lineHvn_ok (r0 r1 hi : K) (limit : Bool) : (lineHvn r0 r1 hi limit).Ok 2 where
  funcs := lineFuncs_ok
  two := le_rfl
  fuel := by show depthBound 2 2 ≤ 100; decide
  argsort := stableArgsort_isArgsort
  solve := fun A b _ => oneSolve_length A b
  precond := fun _ _ h => h
  nonneg := sumDist_nonneg
  symm := sumDist_symm
  jac := by intro h; simp [Funcs.constrained, lineHvn, lineFuncs] at h

/-- The property with the box: for a sound solver, every iteration from a usable population in the box returns a
population in the box. -/
def C69Statement (limit : Bool) : Prop :=
  ∀ (a : Hvn ℚ) (N0 : ℕ) (s : State ℚ), a.Ok N0 → SolverSound a.solve → a.limit = limit →
    a.xl.length = a.p.nVar → a.xu.length = a.p.nVar → Usable a.p (a.p.nVar + a.p.nDual) N0 s →
    PopInBox a.xl a.xu (a.p.primal s.X) →
    ∃ s', a.env.iterate s = some s' ∧ PopInBox a.xl a.xu (a.p.primal s'.X)

theorem line_inBox {hi x : ℚ} (h0 : 0 ≤ x) (h1 : x ≤ hi) : PopInBox [0] [hi] [[x]] := by
  intro q hq
  obtain rfl : q = [x] := by simpa using hq
  refine ⟨rfl, fun d hd => ?_⟩
  obtain rfl : d = 0 := by simpa using hd
  exact ⟨by simpa using h0, by simpa using h1⟩

/-- With the step limit the property fails: at the point `x = 1` with reference point `(2, 1)`, which maximises the
hypervolume `(2 - x) x`, the Newton step is zero, the minimum of an empty array is taken, and the iteration raises. -/
theorem C69_not_limited : ¬ C69Statement true := by
  intro h
  obtain ⟨s, h1, h2, h3, -⟩ := Usable.update (N0 := 2) (dim := 1) (lineFuncs_ok (K := ℚ)) le_rfl State.init
    (X := [[1]]) (by simp) (by simp) (by simp [lineFuncs])
  have hb : PopInBox (lineHvn (2 : ℚ) 1 2 true).xl (lineHvn (2 : ℚ) 1 2 true).xu ((lineFuncs ℚ).primal s.X) := by
    rw [h2]
    exact line_inBox (by norm_num) (by norm_num)
  obtain ⟨s', h4, -⟩ := h (lineHvn 2 1 2 true) 2 s (lineHvn_ok 2 1 2 true) oneSolve_sound rfl rfl rfl h3 hb
  have e : (((lineFuncs ℚ).update State.init [[1]] true true).bind fun s =>
      (lineHvn (2 : ℚ) 1 2 true).env.iterate s).isNone = true := by decide +kernel
  rw [h1, Option.bind_some, h4] at e
  simp at e

/-- With the default setting the property fails: from `x = 1 / 2` in the box `[0, 1]` with reference point `(4, 1)`
the full Newton step leads to `x = 2`, which maximises the hypervolume `(4 - x) x`, and is accepted. -/
theorem C69_not_default : ¬ C69Statement false := by
  intro h
  obtain ⟨s, h1, h2, h3, -⟩ := Usable.update (N0 := 2) (dim := 1) (lineFuncs_ok (K := ℚ)) le_rfl State.init
    (X := [[1 / 2]]) (by simp) (by simp) (by simp [lineFuncs])
  have hb : PopInBox (lineHvn (4 : ℚ) 1 1 false).xl (lineHvn (4 : ℚ) 1 1 false).xu ((lineFuncs ℚ).primal s.X) := by
    rw [h2]
    exact line_inBox (by norm_num) (by norm_num)
  obtain ⟨s', h4, h5⟩ := h (lineHvn 4 1 1 false) 2 s (lineHvn_ok 4 1 1 false) oneSolve_sound rfl rfl rfl h3 hb
  have e : (((lineFuncs ℚ).update State.init [[1 / 2]] true true).bind fun s =>
      (lineHvn (4 : ℚ) 1 1 false).env.iterate s).any (fun s' => decide (s'.X = [[2]])) = true := by decide +kernel
  rw [h1, Option.bind_some, h4] at e
  have e' : s'.X = [[2]] := by simpa using e
  rw [e'] at h5
  have := ((h5 [2] (by simp [Funcs.primal, lineHvn, lineFuncs])).2 0 (by simp [lineHvn])).2
  norm_num [lineHvn] at this

/-- One iteration reaches the optimum `x = 2` of `(4 - x) x` over the box `[0, 3]`; with the step limit the same run stays
in the box. -/
example : ∃ s s', (lineFuncs ℚ).update State.init [[1 / 2]] true true = some s ∧
    (lineHvn (4 : ℚ) 1 3 false).env.iterate s = some s' ∧ s'.X = [[2]] ∧
    IterationSpec (lineHvn (4 : ℚ) 1 3 false).env 1 2 (fun _ _ m => m = 1) s s' := by
  obtain ⟨s, h1, h2, h3, -⟩ := Usable.update (N0 := 2) (dim := 1) (lineFuncs_ok (K := ℚ)) le_rfl State.init
    (X := [[1 / 2]]) (by simp) (by simp) (by simp [lineFuncs])
  obtain ⟨s', h4, h5⟩ := C69_hvn (lineHvn_ok 4 1 3 false) rfl h3
  have e : (((lineFuncs ℚ).update State.init [[1 / 2]] true true).bind fun s =>
      (lineHvn (4 : ℚ) 1 3 false).env.iterate s).any (fun s' => decide (s'.X = [[2]])) = true := by decide +kernel
  rw [h1, Option.bind_some, h4] at e
  exact ⟨s, s', h1, h4, by simpa using e, h5⟩

example : ∃ s s', (lineFuncs ℚ).update State.init [[1 / 2]] true true = some s ∧
    (lineHvn (4 : ℚ) 1 1 true).env.run 1 s = some s' ∧ PopInBox [0] [1] ((lineFuncs ℚ).primal s'.X) := by
  obtain ⟨s, h1, h2, h3, -⟩ := Usable.update (N0 := 2) (dim := 1) (lineFuncs_ok (K := ℚ)) le_rfl State.init
    (X := [[1 / 2]]) (by simp) (by simp) (by simp [lineFuncs])
  have e : (((lineFuncs ℚ).update State.init [[1 / 2]] true true).bind fun s =>
      (lineHvn (4 : ℚ) 1 1 true).env.run 1 s).isSome = true := by decide +kernel
  rw [h1, Option.bind_some] at e
  obtain ⟨s', h4⟩ := Option.isSome_iff_exists.mp e
  refine ⟨s, s', h1, h4, C69_hvn_box (lineHvn_ok 4 1 1 true) rfl rfl rfl 1 h3 ?_ h4⟩
  rw [h2]
  exact line_inBox (by norm_num) (by norm_num)

/-- The same with an equality and an inequality constraint, two variables and two multipliers. -/
noncomputable def stateHvn : Hvn ℚ where
  p := stateFuncs
  nObj := 2
  ref := [100, 100]
  hess := fun _ => [2, 0, 0, 0, 0, 0, 0, 0]
  xl := [0, 0]
  xu := [10, 10]
  limit := false
  eps := 1 / 10 ^ 8
  fuel := 200
  argsort := stableArgsort
  dist := sumDist
  norm := fun R => (R.flatten.map fun v => |v|).sum
  solve := oneSolve
  precond := id

theorem stateHvn_ok : stateHvn.Ok 3 where
  funcs := stateFuncs_ok
  two := le_rfl
  fuel := by show depthBound 2 3 ≤ 200; decide
  argsort := stableArgsort_isArgsort
  solve := fun A b _ => oneSolve_length A b
  precond := fun _ _ h => h
  nonneg := sumDist_nonneg
  symm := sumDist_symm
  jac := fun _ => by simp [stateHvn, stateFuncs, Funcs.hasJac]

example (n : ℕ) : ∃ s s', stateHvn.start [[1, 2], [1 / 2, 11], [3, 4]] = some s ∧
    stateHvn.env.run n s = some s' ∧ Usable stateFuncs 4 3 s' ∧ s'.X.length ≤ 3 :=
  C69_hvn_run stateHvn_ok rfl rfl rfl (by
    intro d hd
    have hd : d < 2 := hd
    interval_cases d <;> norm_num [stateHvn]) (by simp) (by simp) (by
    intro x hx
    simp only [List.mem_cons, List.not_mem_nil, or_false] at hx
    rcases hx with rfl | rfl | rfl <;> rfl) n

/-- Over the real numbers: at `x = 0` with reference point `(2, 2)` the hypervolume is `(2 - x) (1 + x)`. -/
example : ∃ (s : State ℝ) (S R : List (List ℝ)) (G : ℕ → ℕ → ℝ), (lineHvn (2 : ℝ) 2 1 false).newton s = some (S, R) ∧
    HasDerivAt (fun t => hvX (lineHvn (2 : ℝ) 2 1 false).problem (setCoord [pt [0]] 0 0 t)) (G 0 0) 0 ∧
    at2 R 0 0 = G 0 0 := by
  obtain ⟨s, h1, h2, h3, -⟩ := Usable.update (N0 := 2) (dim := 1) (lineFuncs_ok (K := ℝ)) le_rfl State.init
    (X := [[0]]) (by simp) (by simp) (by simp [lineFuncs])
  have hf : ∀ x, (lineHvn (2 : ℝ) 2 1 false).problem.func x = pt [x 0, 1 - x 0] := fun x => by
    simp [Hvn.problem, lineHvn, lineFuncs, Hvn.coords]
  have hj : ∀ x, (lineHvn (2 : ℝ) 2 1 false).problem.jac x = fun k v => pt [1, -1] (k * 1 + v) := fun x => rfl
  have hP : [pt [0]] = ((lineHvn (2 : ℝ) 2 1 false).p.primal s.X).map pt := by
    rw [h2]; simp [Funcs.primal, lineHvn, lineFuncs]
  have hm : ([pt [0]] : List (ℕ → ℝ)).map (lineHvn (2 : ℝ) 2 1 false).problem.func = [pt [0, 1]] := by
    rw [List.map_cons, hf]; simp [pt]
  obtain ⟨S, R, G, H, g1, g2, -, g3, -⟩ := C69_direction_partial (lineHvn_ok (2 : ℝ) 2 1 false)
    oneSolve_sound (by show 2 ≤ 5; norm_num) h3 hP
    { jac := fun i hi w hw => Filter.Eventually.of_forall fun t k hk v hv => by
        obtain rfl : v = 0 := Nat.lt_one_iff.mp hv
        have hk : k < 2 := hk
        simp only [hf, hj, Function.update_self]
        interval_cases k
        · exact hasDerivAt_id' _
        · simpa [pt] using (hasDerivAt_id' _).const_sub (1 : ℝ)
      hess := fun i hi k hk v hv w hw => by
        have hk : k < 2 := hk
        obtain rfl : v = 0 := Nat.lt_one_iff.mp hv
        obtain rfl : w = 0 := Nat.lt_one_iff.mp hw
        simp only [hj]
        interval_cases k <;> exact hasDerivAt_const _ _
      symm := fun x k hk v hv w hw => by
        obtain rfl : v = 0 := Nat.lt_one_iff.mp hv
        obtain rfl : w = 0 := Nat.lt_one_iff.mp hw
        rfl }
    (by
      rw [hm]
      constructor
      · simp
      · intro q hq k hk
        have hk : k < 2 := hk
        obtain rfl : q = pt [0, 1] := by simpa using hq
        interval_cases k <;> norm_num [pt, lineHvn])
    (by
      rw [hm]
      intro q hq k hk
      have hk : k < 2 := hk
      refine le_trans ?_ ten_le
      obtain rfl : q = pt [0, 1] := by simpa using hq
      interval_cases k <;> norm_num [pt, lineHvn])
  obtain ⟨d1, -⟩ := g2 0 (by simp) 0 (by show 0 < 1; norm_num)
  have d2 := (g3 0 (by simp)).1 0 (by show 0 < 1; norm_num)
  exact ⟨s, S, R, G, g1, by simpa [ptOf, pt] using d1,
    by simpa [Funcs.nDual, Funcs.constrained, lineHvn, lineFuncs] using d2⟩

end Examples

end Verif.Props
