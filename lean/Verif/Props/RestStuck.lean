import Verif.Props.Rest
import Verif.Props.MMDNDescent

/-!
# C81: populations that rest, but should not
-/

set_option linter.unusedSectionVars false

namespace Verif.Props

open Verif.Opt Verif.Ind Verif.Util Verif.HV Verif.HVD

/-! ## The statement for `DpN` -/

/-- The first-order conditions in a box: the gradient of the Lagrangian does not point to lower values inside the box. -/
structure BoxFirstOrder {K : Type*} [Field K] [LinearOrder K] [IsStrictOrderedRing K] [Inhabited K] (p : Funcs K)
    (xl xu x : List K) (G : ℕ → K) : Prop where
  up : ∀ v < p.nVar, x.getD v 0 < xu.getD v 0 → 0 ≤ G v + ∑ k ∈ Finset.range p.nDual,
    (if IsActive p (x.take p.nVar) k then pt x (p.nVar + k) * cGrad p (x.take p.nVar) k v else 0)
  down : ∀ v < p.nVar, xl.getD v 0 < x.getD v 0 → G v + ∑ k ∈ Finset.range p.nDual,
    (if IsActive p (x.take p.nVar) k then pt x (p.nVar + k) * cGrad p (x.take p.nVar) k v else 0) ≤ 0
  active : ∀ k < p.nDual, IsActive p (x.take p.nVar) k → cVal p (x.take p.nVar) k = 0
  signed : SignedMultipliers p x

/-- C81 for `DpN` in full: if an iteration leaves a population in the box alone and the Newton equations of the points
are solvable in one way only, then all points meet the first-order conditions. -/
def C81Statement (K : Type*) [Field K] [LinearOrder K] [IsStrictOrderedRing K] [Inhabited K] : Prop :=
  ∀ (a : Dpn K), a.Ok → SolverSound a.solve → ∀ (N : ℕ) (s s' : DpnState K) (M0 M1 T : List (ℕ → K)), DpnReady a N s →
    a.iterate s = some s' → DpnTargets a s s' M0 M1 T →
    (∀ i < N, ∀ d < a.p.nVar, a.xl.getD d 0 ≤ (s.state.X.getD i []).getD d 0 ∧ (s.state.X.getD i []).getD d 0 ≤ a.xu.getD d 0) →
    (∀ i < N, (∃ z, DpnEquations a (a.gdActive s'.gd s'.igd) N (s.state.X.getD i []) (T.getD i 0) z) ∧
      AtMostOne a.p 1 (fun _ => s.state.X.getD i []) fun z =>
        DpnEquations a (a.gdActive s'.gd s'.igd) N (s.state.X.getD i []) (T.getD i 0) (z 0)) →
    s'.state.X = s.state.X → ∀ i < N, BoxFirstOrder a.p a.xl a.xu (s.state.X.getD i [])
      (dpGrad a (a.gdActive s'.gd s'.igd) N ((s.state.X.getD i []).take a.p.nVar) (T.getD i 0))

/-! ## One point and one reference point -/

section One

variable {K : Type*} [Field K] [LinearOrder K] [IsStrictOrderedRing K] [Inhabited K]

/-- A single target with property `Good`, which is preserved by shifts. -/
def GoodRef (Good : (ℕ → K) → Prop) (r e : ℕ → K) (S : RefSet (ℕ → K)) : Prop :=
  S.ref = [[r]] ∧ S.eta = [e] ∧ ∀ old, S.medoids = [some old] → old.length = 1 → ∃ τ, old = [τ] ∧ Good τ

/-- The target of a single point stays good. -/
theorem good_target {a : Dpn K} {Good : (ℕ → K) → Prop} {r e : ℕ → K} (hr : Good r)
    (he : ∀ τ c, Good τ → (c = 8 / 100 ∨ c = 5 / 100) → Good (τ + (c : K) • e)) {s s' : DpnState K} {M0 M1 T : List (ℕ → K)}
    (hN : s.state.X.length = 1) (hS : GoodRef Good r e s.ref) (h : DpnTargets a s s' M0 M1 T) :
    ∃ τ, T = [τ] ∧ Good τ ∧ GoodRef Good r e s'.ref := by
  obtain ⟨g1, g2, g3⟩ := hS
  have hY : (images a s.state.X).length = 1 := (images_length a _).trans hN
  have hM0l : M0.length = 1 := h.matched.1.trans hY
  have hM0 : ∃ τ, M0 = [τ] ∧ Good τ := by
    by_cases hc : ∃ old, s.ref.medoids = [some old] ∧ old.length = s.state.X.length
    · obtain ⟨old, h1, h2⟩ := hc
      obtain ⟨τ, rfl, hτ⟩ := g3 old h1 (h2.trans hN)
      exact ⟨τ, List.perm_singleton.mp (h.kept _ h1 h2), hτ⟩
    · push Not at hc
      have := (h.fresh hc).subset
      obtain ⟨τ, rfl⟩ := List.length_eq_one_iff.mp hM0l
      have := this List.mem_cons_self
      rw [g1] at this
      exact ⟨τ, rfl, by rw [show τ = r by simpa using this]; exact hr⟩
  obtain ⟨τ0, rfl, hτ0⟩ := hM0
  have hM1 : ∃ τ, M1 = [τ] ∧ Good τ := by
    obtain ⟨l1, l2⟩ := h.shifted
    obtain ⟨τ, rfl⟩ := List.length_eq_one_iff.mp l1
    refine ⟨τ, rfl, ?_⟩
    have := (l2 0).1 τ0 e rfl (by rw [g2]; rfl)
    by_cases hm : s.iter = 0 ∨ AtRest a.env.dist (images a s.state.X) [τ0] (s.step.map fun r => a.norm (r.take a.p.nVar)) 0
    · have := (this.1 hm).1
      rw [show τ = _ from Option.some.inj this]
      refine he _ _ hτ0 ?_
      split
      · exact .inl rfl
      · exact .inr rfl
    · have := (this.2 hm).1
      rw [show τ = _ from Option.some.inj this]
      exact hτ0
  obtain ⟨τ1, rfl, hτ1⟩ := hM1
  have hT : T = [τ1] := by
    obtain ⟨l1, l2⟩ := h.targets
    obtain ⟨τ, rfl⟩ := List.length_eq_one_iff.mp (l1.trans hY)
    split at l2
    · have := (l2 0 (by omega)).1
      simpa using this
    · exact List.perm_singleton.mp l2.1
  obtain ⟨M, p1, p2, p3, p4⟩ := h.after
  refine ⟨τ1, hT, hτ1, p3.trans g1, p4.trans g2, fun old ho _ => ⟨τ1, ?_, hτ1⟩⟩
  rw [p1.medoids] at ho
  obtain rfl : M = old := by simpa using ho
  exact List.perm_singleton.mp p2

theorem table_one {x : List K} {X : List (List K)} (h : X.length = 1) (hx : X.getD 0 [] = x) : X = [x] := by
  obtain ⟨y, rfl⟩ := List.length_eq_one_iff.mp h
  simpa using hx

end One

/-! ## The corner -/

/-- Two variables that are the objectives, in the unit square. -/
noncomputable def cornerDpn (kind : DpKind) : Dpn ℝ where
  p := planeFuncs
  nObj := 2
  hess := fun _ => [0, 0, 0, 0, 0, 0, 0, 0]
  kind := kind
  xl := [0, 0]
  xu := [1, 1]
  env := bruteEnv (fun y r => √((y 0 - r 0) ^ 2 + (y 1 - r 1) ^ 2)) fun _ _ => 0
  sqrt := Real.sqrt
  norm := fun l => √(l.map (· ^ 2)).sum
  cubic := fun _ _ _ _ => none
  solve := oneSolve
  precond := id

theorem cornerDpn_ok (kind : DpKind) : (cornerDpn kind).Ok where
  funcs := planeFuncs_ok
  env := bruteEnv_sound _ _
  xl := rfl
  xu := rfl
  solve := fun A b _ => oneSolve_length A b
  precond := fun _ _ h => h
  norm := fun _ => rfl
  jac := by intro h; simp [Funcs.constrained, cornerDpn, planeFuncs] at h

/-- The reference point `(-1, 1/2)` with the direction `(-1, 0)`. -/
noncomputable def besideRef : RefSet (ℕ → ℝ) :=
  RefSet.new [[fun k => if k = 0 then -1 else 1 / 2]] [fun k => if k = 0 then -1 else 0] none

/-- Targets to the left of the square, at half height. -/
def Beside (τ : ℕ → ℝ) : Prop := τ 0 ≤ -1 ∧ τ 1 = 1 / 2

theorem dpnBox_corner {t : ℝ} (ht : t < 0) : (dpnBox [0, 0] [1, 1] [0, 0] [t, 1 / 2]).1 = [t, 0] := by
  have h1 : min 0 t = t := min_eq_right ht.le
  have h2 : |t| ≠ 0 := (abs_pos.mpr ht.ne).ne'
  have h3 : min 0 (-t) = 0 := min_eq_left (by linarith)
  have h4 : min (0 : ℝ) (1 / 2) = 0 := min_eq_left (by norm_num)
  have h5 : min (0 : ℝ) (-(1 / 2)) = -(1 / 2) := min_eq_right (by norm_num)
  have hr : dpnRatios [0, 0] [1, 1] [0, 0] [t, 1 / 2] = [.fin 0, .nan, .inf, .fin 2] := by
    simp only [dpnRatios, boxDist, outward, List.zipWith, List.map, List.cons_append, List.nil_append, h1, h3, h4, h5, sub_zero,
      abs_zero, abs_one, Ext.div, if_neg h2, zero_div]
    norm_num
  unfold dpnBox
  dsimp only
  rw [hr]
  norm_num [Ext.nanmin, Ext.fmin, Ext.isNan, Ext.lt, Ext.capOne, Ext.argmin, List.findIdx_cons]

theorem corner_grad {kind : DpKind} (useGd : Bool) (x y : ℝ) (τ : ℕ → ℝ) {v : ℕ} (hv : v < 2) :
    dpGrad (cornerDpn kind) useGd 1 [x, y] τ v = 2 * (pt [x, y] v - τ v) := by
  unfold dpGrad
  rw [show (cornerDpn kind).nObj = 2 from rfl, show (cornerDpn kind).p.nVar = 2 from rfl, Finset.sum_range_succ,
    Finset.sum_range_one]
  match v, hv with
  | 0, _ => cases useGd <;> norm_num [cornerDpn, planeFuncs, pt]
  | 1, _ => cases useGd <;> norm_num [cornerDpn, planeFuncs, pt]

theorem corner_hess {kind : DpKind} (useGd : Bool) (x y : ℝ) (τ : ℕ → ℝ) {v w : ℕ} (hv : v < 2) (hw : w < 2) :
    dpHess (cornerDpn kind) useGd 1 [x, y] τ v w = if v = w then 2 else 0 := by
  unfold dpHess
  rw [show (cornerDpn kind).nObj = 2 from rfl, show (cornerDpn kind).p.nVar = 2 from rfl, Finset.sum_range_succ,
    Finset.sum_range_one]
  match v, hv, w, hw with
  | 0, _, 0, _ => cases useGd <;> norm_num [cornerDpn, planeFuncs, pt]
  | 1, _, 0, _ => cases useGd <;> norm_num [cornerDpn, planeFuncs, pt]
  | 0, _, 1, _ => cases useGd <;> norm_num [cornerDpn, planeFuncs, pt]
  | 1, _, 1, _ => cases useGd <;> norm_num [cornerDpn, planeFuncs, pt]

theorem corner_equations {kind : DpKind} (useGd : Bool) (x y : ℝ) (τ z : ℕ → ℝ) :
    DpnEquations (cornerDpn kind) useGd 1 [x, y] τ z ↔ z 0 = τ 0 - x ∧ z 1 = τ 1 - y := by
  have key : ∀ A, (∀ v < 2, ∀ w < 2, at2 A v w = dpHess (cornerDpn kind) useGd 1 [x, y] τ v w) →
      (KktNewton (cornerDpn kind).p [x, y] (dpGrad (cornerDpn kind) useGd 1 [x, y] τ)
        (fun v => ∑ w ∈ Finset.range 2, at2 A v w * z w) z ↔ z 0 = τ 0 - x ∧ z 1 = τ 1 - y) := by
    intro A hA
    have e00 := hA 0 (by omega) 0 (by omega)
    have e01 := hA 0 (by omega) 1 (by omega)
    have e10 := hA 1 (by omega) 0 (by omega)
    have e11 := hA 1 (by omega) 1 (by omega)
    rw [corner_hess _ _ _ _ (by omega) (by omega)] at e00 e01 e10 e11
    unfold KktNewton
    rw [show (cornerDpn kind).p.nVar = 2 from rfl, show (cornerDpn kind).p.nDual = 0 from rfl]
    constructor
    · rintro ⟨h, -⟩
      have h0 := h 0 (by omega)
      have h1 := h 1 (by omega)
      rw [corner_grad _ _ _ _ (by omega)] at h0 h1
      simp [Finset.sum_range_succ, e00, e01, e10, e11, pt] at h0 h1
      exact ⟨by linarith, by linarith⟩
    · rintro ⟨h0, h1⟩
      refine ⟨fun v hv => ?_, fun k hk => absurd hk (by omega)⟩
      rw [corner_grad _ _ _ _ hv]
      match v, hv with
      | 0, _ => simp [Finset.sum_range_succ, e00, e01, h0, h1, pt]; ring
      | 1, _ => simp [Finset.sum_range_succ, e10, e11, h0, h1, pt]; ring
  constructor
  · rintro ⟨A, -, hA, h⟩
    exact (key A hA).mp h
  · intro h
    obtain ⟨A, hA, hAe⟩ := exists_table 2 (dpHess (cornerDpn kind) useGd 1 [x, y] τ)
    exact ⟨A, hA, hAe, (key A hAe).mpr h⟩

theorem corner_unique {kind : DpKind} (useGd : Bool) (x y : ℝ) (τ : ℕ → ℝ) :
    (∃ z, DpnEquations (cornerDpn kind) useGd 1 [x, y] τ z) ∧
      AtMostOne (cornerDpn kind).p 1 (fun _ => [x, y]) fun z => DpnEquations (cornerDpn kind) useGd 1 [x, y] τ (z 0) := by
  refine ⟨⟨fun v => τ v - pt [x, y] v, (corner_equations _ _ _ _ _).mpr ⟨rfl, rfl⟩⟩, fun u z hu hz _ i hi c hc => ?_⟩
  obtain rfl : i = 0 := by omega
  have hu := (corner_equations _ _ _ _ _).mp hu
  have hz := (corner_equations _ _ _ _ _).mp hz
  have hc : c < 2 := hc
  match c, hc with
  | 0, _ => exact hu.1.trans hz.1.symm
  | 1, _ => exact hu.2.trans hz.2.symm

/-- An iteration from the corner. -/
theorem corner_iteration {kind : DpKind} {s : DpnState ℝ} (hs : DpnReady (cornerDpn kind) 1 s) (hX : s.state.X = [[0, 0]])
    (hS : GoodRef Beside (fun k => if k = 0 then -1 else 1 / 2) (fun k => if k = 0 then -1 else 0) s.ref) :
    ∃ s' M0 M1 τ, (cornerDpn kind).iterate s = some s' ∧ DpnReady (cornerDpn kind) 1 s' ∧
      DpnTargets (cornerDpn kind) s s' M0 M1 [τ] ∧ Beside τ ∧ s'.step.length = 1 ∧ s'.state.X = [[0, 0]] ∧
      GoodRef Beside (fun k => if k = 0 then -1 else 1 / 2) (fun k => if k = 0 then -1 else 0) s'.ref := by
  obtain ⟨s', M0, M1, T, n, α, h1, h2, -, h3, h4, h5, h6, h7, h8, h9⟩ := C71_iteration (cornerDpn_ok kind) hs
  obtain ⟨τ, rfl, hτ, hS'⟩ := good_target (a := cornerDpn kind) (Good := Beside) (by norm_num [Beside])
    (by
      rintro τ c ⟨k1, k2⟩ hc
      refine ⟨?_, ?_⟩
      · have : (0 : ℝ) ≤ c := by rcases hc with rfl | rfl <;> norm_num
        simp only [Pi.add_apply, Pi.smul_apply, smul_eq_mul, if_pos]
        linarith
      · simp [Pi.add_apply, Pi.smul_apply, k2]) hs.size hS h3
  have hm := h6 0 one_pos
  have hx := h7 0 one_pos
  have hx0 : s.state.X.getD 0 [] = [0, 0] := by rw [hX]; rfl
  have hl : s.state.X.length = 1 := hs.size
  have hE : DpnEquations (cornerDpn kind) ((cornerDpn kind).gdActive s'.gd s'.igd) 1 [0, 0] τ (pt (n.getD 0 [])) := by
    obtain ⟨A, hA, hAe, hz⟩ := (corner_equations (kind := kind) ((cornerDpn kind).gdActive s'.gd s'.igd) 0 0 τ τ).mpr
      ⟨(sub_zero _).symm, (sub_zero _).symm⟩
    have := hm.newton A hA (by rw [hx0, hl]; exact hAe) oneSolve_sound ⟨τ, by rw [hx0, hl]; exact hz⟩
    rw [hx0, hl] at this
    exact ⟨A, hA, hAe, this⟩
  rw [corner_equations, sub_zero, sub_zero] at hE
  have hnl : (n.getD 0 []).length = 2 := h4.row one_pos
  have hn : n.getD 0 [] = [τ 0, 1 / 2] := by
    obtain ⟨u, w, e⟩ := List.length_eq_two.mp hnl
    rw [e] at hE ⊢
    have e0 : u = τ 0 := hE.1
    have e1 : w = τ 1 := hE.2
    rw [e0, e1, hτ.2]
  have hst : s'.step.getD 0 [] = [τ 0, 0] := by
    have := hm.handled
    rw [hx0, hn] at this
    rw [this]
    show (dpnBox [0, 0] [1, 1] [0, 0] [τ 0, 1 / 2]).1 ++ [] = _
    rw [dpnBox_corner (by linarith [hτ.1]), List.append_nil]
  have hα : α 0 = 0 := by
    rcases h9 with ⟨h, -⟩ | ⟨-, -, -, h⟩
    · exfalso
      have hmem : s'.step.getD 0 [] ∈ s'.step := by
        rw [List.getD_eq_getElem _ _ (by rw [h5.1]; exact one_pos)]
        exact List.getElem_mem _
      have := h _ hmem (τ 0) (by rw [hst]; simp)
      unfold Vanishes at this
      rw [abs_of_neg (by linarith [hτ.1])] at this
      norm_num at this
      linarith [hτ.1]
    · obtain ⟨m, -, -, -, -, hb⟩ := h 0 one_pos
      have := (hb (by
        rw [hx0]
        intro d hd
        have hd : d < 2 := hd
        match d, hd with
        | 0, _ => simp [cornerDpn]
        | 1, _ => simp [cornerDpn]) 0 (by show 0 < 2; omega)).1
      rw [hx, hx0, hst] at this
      simp [moved, cornerDpn] at this
      have h0 := (h8 0 one_pos).1
      nlinarith [hτ.1]
  rw [hx0, hst, hα] at hx
  exact ⟨s', M0, M1, τ, h1, h2, h3, hτ, h5.1, table_one h2.size (by rw [hx]; simp [moved]), hS'⟩

/-- C81 is violated at the box: a point in a corner of the square stays there for any number of iterations. Its target
`(-1.08, 1/2)` is outside, so the coordinate that leads out should be held, but the other one is set to zero and the step
size becomes zero. All points `(0, y)` with `0 < y < 1` are better. -/
theorem C81_violated_box (kind : DpKind) (n : ℕ) :
    ∃ s s', (cornerDpn kind).start besideRef [[0, 0]] = some s ∧ (cornerDpn kind).run n s = some s' ∧
      s'.state.X = [[0, 0]] ∧ ∃ s'' M0 M1 τ, (cornerDpn kind).iterate s' = some s'' ∧ s''.state.X = s'.state.X ∧
        DpnTargets (cornerDpn kind) s' s'' M0 M1 [τ] ∧
        ∀ y : ℝ, 0 < y → y < 1 → (cornerDpn kind).env.dist (pt [0, y]) τ < (cornerDpn kind).env.dist (pt [0, 0]) τ := by
  obtain ⟨s, h1, h2, h3, -, h4, -, h5⟩ := (C71_start (cornerDpn_ok kind) (S := besideRef) (X0 := [[0, 0]])
    (by simp) ⟨⟨_, rfl, by simp⟩, rfl, rfl, rfl⟩ rfl (fun d hd => by
      have hd : d < 2 := hd
      match d, hd with
      | 0, _ => simp [cornerDpn]
      | 1, _ => simp [cornerDpn])).2 (by simp [cornerDpn, planeFuncs])
  have hX : s.state.X = [[0, 0]] := by
    refine table_one h2.size ?_
    have hl : (s.state.X.getD 0 []).length = 2 := IsMat.row (N := 1) ⟨h2.size, h2.state.dim⟩ one_pos
    obtain ⟨u, w, e⟩ := List.length_eq_two.mp hl
    have g := (h5 0 one_pos).2
    rw [e] at g ⊢
    have g0 := (g 0 (by show 0 < 2; omega)).2.2 0 (by simp [cornerDpn]) (by simp [cornerDpn])
    have g1 := (g 1 (by show 1 < 2; omega)).2.2 0 (by simp [cornerDpn]) (by simp [cornerDpn])
    simp at g0 g1
    rw [g0, g1]
  have hS : GoodRef Beside (fun k => if k = 0 then -1 else 1 / 2) (fun k => if k = 0 then -1 else 0) s.ref := by
    rw [h4]
    exact ⟨rfl, rfl, fun old ho => by simp [besideRef, RefSet.new] at ho⟩
  have hrun : ∀ (n : ℕ) (s : DpnState ℝ), DpnReady (cornerDpn kind) 1 s → s.state.X = [[0, 0]] →
      GoodRef Beside (fun k => if k = 0 then -1 else 1 / 2) (fun k => if k = 0 then -1 else 0) s.ref →
      ∃ s', (cornerDpn kind).run n s = some s' ∧ DpnReady (cornerDpn kind) 1 s' ∧ s'.state.X = [[0, 0]] ∧
        GoodRef Beside (fun k => if k = 0 then -1 else 1 / 2) (fun k => if k = 0 then -1 else 0) s'.ref := by
    intro n
    induction n with
    | zero => exact fun s a b c => ⟨s, rfl, a, b, c⟩
    | succ n ih =>
      intro s a b c
      obtain ⟨s1, -, -, -, k1, k2, -, -, k3, k4, k5⟩ := corner_iteration a b c
      obtain ⟨s', r1, r2⟩ := ih (Dpn.log s1) ⟨k2.state, k2.size, k2.ref, k2.matched, fun _ => k3⟩ k4 k5
      exact ⟨s', by rw [Dpn.run, k1, Option.bind_some, r1], r2⟩
  obtain ⟨s', r1, r2, r3, r4⟩ := hrun n s h2 hX hS
  obtain ⟨s'', M0, M1, τ, k1, k2, k3, k4, -, k6, -⟩ := corner_iteration r2 r3 r4
  refine ⟨s, s', h1, r1, r3, s'', M0, M1, τ, k1, k6.trans r3.symm, k3, fun y y0 y1 => ?_⟩
  show √((0 - τ 0) ^ 2 + (y - τ 1) ^ 2) < √((0 - τ 0) ^ 2 + (0 - τ 1) ^ 2)
  refine Real.sqrt_lt_sqrt (by positivity) ?_
  rw [k4.2]
  nlinarith

/-- Hence C81 does not hold. -/
theorem C81_violated : ¬ C81Statement ℝ := by
  intro h
  obtain ⟨s, h1, h2, h3, -, h4, -, h5⟩ := (C71_start (cornerDpn_ok .deltap) (S := besideRef) (X0 := [[0, 0]])
    (by simp) ⟨⟨_, rfl, by simp⟩, rfl, rfl, rfl⟩ rfl (fun d hd => by
      have hd : d < 2 := hd
      match d, hd with
      | 0, _ => simp [cornerDpn]
      | 1, _ => simp [cornerDpn])).2 (by simp [cornerDpn, planeFuncs])
  obtain ⟨s0, s1, g1, g2, g3, -⟩ := C81_violated_box .deltap 0
  obtain rfl : s = s0 := Option.some.inj (h1.symm.trans g1)
  obtain rfl : s = s1 := Option.some.inj g2
  have hS : GoodRef Beside (fun k => if k = 0 then -1 else 1 / 2) (fun k => if k = 0 then -1 else 0) s.ref := by
    rw [h4]
    exact ⟨rfl, rfl, fun old ho => by simp [besideRef, RefSet.new] at ho⟩
  obtain ⟨s', M0, M1, τ, k1, k2, k3, k4, -, k6, -⟩ := corner_iteration h2 g3 hS
  have hx0 : s.state.X.getD 0 [] = [0, 0] := by rw [g3]; rfl
  have hb : ∀ d < 2, ([0, 0] : List ℝ).getD d 0 ≤ ([0, 0] : List ℝ).getD d 0 ∧ ([0, 0] : List ℝ).getD d 0 ≤ ([1, 1] : List ℝ).getD d 0 := by
    intro d hd
    match d, hd with
    | 0, _ => simp
    | 1, _ => simp
  have := h (cornerDpn .deltap) (cornerDpn_ok .deltap) oneSolve_sound 1 s s' M0 M1 [τ] h2 k1 k3
    (fun i hi => by
      obtain rfl : i = 0 := by omega
      rw [hx0]
      exact hb)
    (fun i hi => by
      obtain rfl : i = 0 := by omega
      rw [hx0]
      exact corner_unique _ 0 0 τ) (k6.trans g3.symm) 0 one_pos
  have := this.up 1 (by show 1 < 2; omega) (by rw [hx0]; simp [cornerDpn])
  rw [hx0] at this
  have e := corner_grad (kind := .deltap) ((cornerDpn .deltap).gdActive s'.gd s'.igd) 0 0 τ (v := 1) (by omega)
  have e' : dpGrad (cornerDpn .deltap) ((cornerDpn .deltap).gdActive s'.gd s'.igd) 1
    (([0, 0] : List ℝ).take (cornerDpn .deltap).p.nVar) ([τ].getD 0 0) 1 = 2 * (0 - τ 1) := e
  rw [e', show (cornerDpn .deltap).p.nDual = 0 from rfl, Finset.sum_range_zero, k4.2] at this
  norm_num at this

/-! ## The active inequality -/

/-- One variable `x` with both objectives `x` and the constraint `x ≤ 0`. -/
def holdFuncs : Funcs ℝ where
  nVar := 1
  nEq := 0
  nIeq := 1
  func := ⟨fun x => [x.getD 0 0, x.getD 0 0], none⟩
  jac := ⟨fun _ => [1, 1], none⟩
  h := none
  hJac := none
  hHess := none
  g := some ⟨fun x => [x.getD 0 0], none⟩
  gJac := some ⟨fun _ => [1], none⟩
  gHess := none

theorem holdFuncs_ok : holdFuncs.Ok 2 where
  func := ⟨fun b hb => by simp [holdFuncs] at hb, fun _ _ => rfl⟩
  jac := ⟨fun b hb => by simp [holdFuncs] at hb, fun _ _ => rfl⟩
  h := by rintro c hc; simp [holdFuncs] at hc
  g := by
    rintro c hc
    obtain rfl : _ = c := by simpa [holdFuncs] using hc
    exact ⟨fun b hb => by simp at hb, fun _ _ => rfl⟩
  hJac := by rintro c hc; simp [holdFuncs] at hc
  gJac := by
    rintro c hc
    obtain rfl : _ = c := by simpa [holdFuncs] using hc
    exact ⟨fun b hb => by simp at hb, fun _ _ => rfl⟩
  hHess := by rintro c hc; simp [holdFuncs] at hc
  gHess := by rintro c hc; simp [holdFuncs] at hc

/-- The problem on `[-5, 5]`. -/
noncomputable def holdDpn (kind : DpKind) : Dpn ℝ where
  p := holdFuncs
  nObj := 2
  hess := fun _ => [0, 0]
  kind := kind
  xl := [-5]
  xu := [5]
  env := bruteEnv (fun y r => √((y 0 - r 0) ^ 2 + (y 1 - r 1) ^ 2)) fun _ _ => 0
  sqrt := Real.sqrt
  norm := fun l => √(l.map (· ^ 2)).sum
  cubic := fun _ _ _ _ => none
  solve := oneSolve
  precond := id

theorem holdDpn_ok (kind : DpKind) : (holdDpn kind).Ok where
  funcs := holdFuncs_ok
  env := bruteEnv_sound _ _
  xl := rfl
  xu := rfl
  solve := fun A b _ => oneSolve_length A b
  precond := fun _ _ h => h
  norm := fun _ => rfl
  jac := fun _ => rfl

/-- The reference point `(-1, -1)` with the direction `(-1, -1)`. -/
noncomputable def belowRef : RefSet (ℕ → ℝ) := RefSet.new [[fun _ => -1]] [fun _ => -1] none

/-- Targets below. -/
def Below (τ : ℕ → ℝ) : Prop := τ 0 ≤ -1 ∧ τ 1 ≤ -1

theorem hold_active : IsActive holdFuncs [0] 0 := .inr (by norm_num [cVal, Funcs.rowCstr, holdFuncs, valOf, pt])

theorem hold_cVal (x : ℝ) : cVal holdFuncs [x] 0 = x := by
  simp [cVal, Funcs.rowCstr, holdFuncs, valOf, pt]

theorem hold_cGrad (x : ℝ) : cGrad holdFuncs [x] 0 0 = 1 := by
  simp [cGrad, Funcs.rowGrad, holdFuncs, valOf, pt]

theorem hold_cHess (x : ℝ) : cHess holdFuncs [x] 0 0 0 = 0 := by
  simp [cHess, Funcs.rowHess, holdFuncs, pt]

theorem hold_equations {kind : DpKind} (useGd : Bool) (l : ℝ) (τ z : ℕ → ℝ) :
    DpnEquations (holdDpn kind) useGd 1 [0, l] τ z ↔ z 0 = 0 ∧ z 1 = 2 * (τ 0 + τ 1) - l := by
  have hG : dpGrad (holdDpn kind) useGd 1 [0] τ 0 = -2 * (τ 0 + τ 1) := by
    unfold dpGrad
    rw [show (holdDpn kind).nObj = 2 from rfl, show (holdDpn kind).p.nVar = 1 from rfl, Finset.sum_range_succ,
      Finset.sum_range_one]
    cases useGd <;> norm_num [holdDpn, holdFuncs, pt] <;> ring
  have hH : dpHess (holdDpn kind) useGd 1 [0] τ 0 0 = 4 := by
    unfold dpHess
    rw [show (holdDpn kind).nObj = 2 from rfl, show (holdDpn kind).p.nVar = 1 from rfl, Finset.sum_range_succ,
      Finset.sum_range_one]
    cases useGd <;> norm_num [holdDpn, holdFuncs, pt]
  have key : ∀ A, at2 A 0 0 = 4 → (KktNewton holdFuncs [0, l] (dpGrad (holdDpn kind) useGd 1 [0] τ)
        (fun v => ∑ w ∈ Finset.range 1, at2 A v w * z w) z ↔ z 0 = 0 ∧ z 1 = 2 * (τ 0 + τ 1) - l) := by
    intro A hA
    unfold KktNewton
    rw [show holdFuncs.nVar = 1 from rfl, show holdFuncs.nDual = 1 from rfl]
    simp only [Finset.sum_range_one, List.take_succ_cons, List.take_zero, Nat.lt_one_iff, forall_eq, if_pos hold_active, hold_cVal,
      hold_cGrad, hold_cHess, hG, hA, forall_const, hold_active, one_mul, mul_zero, zero_mul, add_zero, mul_one, neg_zero]
    rw [show pt [0, l] (1 + 0) = l from rfl, and_comm]
    refine and_congr_right fun h => ?_
    simp only [h, mul_zero, zero_add, if_true]
    constructor <;> intro h <;> linarith
  constructor
  · rintro ⟨A, -, hA, h⟩
    exact (key A (by rw [hA 0 one_pos 0 one_pos]; exact hH)).mp h
  · intro h
    obtain ⟨A, hA, hAe⟩ := exists_table 1 (dpHess (holdDpn kind) useGd 1 [0] τ)
    exact ⟨A, hA, hAe, (key A (by rw [hAe 0 one_pos 0 one_pos]; exact hH)).mpr h⟩

/-- An iteration with active constraint. -/
theorem hold_iteration {kind : DpKind} {s : DpnState ℝ} (hs : DpnReady (holdDpn kind) 1 s) {l : ℝ} (hX : s.state.X = [[0, l]])
    (hS : GoodRef Below (fun _ => -1) (fun _ => -1) s.ref) :
    ∃ s' M0 M1 τ l', (holdDpn kind).iterate s = some s' ∧ DpnReady (holdDpn kind) 1 s' ∧
      DpnTargets (holdDpn kind) s s' M0 M1 [τ] ∧ Below τ ∧ s'.step.length = 1 ∧ s'.state.X = [[0, l']] ∧
      (l ≤ 0 → l' < 0) ∧ GoodRef Below (fun _ => -1) (fun _ => -1) s'.ref := by
  obtain ⟨s', M0, M1, T, n, α, h1, h2, -, h3, h4, h5, h6, h7, h8, h9⟩ := C71_iteration (holdDpn_ok kind) hs
  obtain ⟨τ, rfl, hτ, hS'⟩ := good_target (a := holdDpn kind) (Good := Below) (by norm_num [Below])
    (by
      rintro τ c ⟨k1, k2⟩ hc
      have : (0 : ℝ) ≤ c := by rcases hc with rfl | rfl <;> norm_num
      refine ⟨?_, ?_⟩
      · simp only [Pi.add_apply, Pi.smul_apply, smul_eq_mul]
        linarith
      · simp only [Pi.add_apply, Pi.smul_apply, smul_eq_mul]
        linarith) hs.size hS h3
  have hm := h6 0 one_pos
  have hx := h7 0 one_pos
  have hx0 : s.state.X.getD 0 [] = [0, l] := by rw [hX]; rfl
  have hl : s.state.X.length = 1 := hs.size
  have hE : DpnEquations (holdDpn kind) ((holdDpn kind).gdActive s'.gd s'.igd) 1 [0, l] τ (pt (n.getD 0 [])) := by
    obtain ⟨A, hA, hAe, hz⟩ := (hold_equations (kind := kind) ((holdDpn kind).gdActive s'.gd s'.igd) l τ
      fun k => if k = 0 then 0 else 2 * (τ 0 + τ 1) - l).mpr ⟨rfl, rfl⟩
    have := hm.newton A hA (by rw [hx0, hl]; exact hAe) oneSolve_sound ⟨_, by rw [hx0, hl]; exact hz⟩
    rw [hx0, hl] at this
    exact ⟨A, hA, hAe, this⟩
  rw [hold_equations] at hE
  have hnl : (n.getD 0 []).length = 2 := h4.row one_pos
  have hn : n.getD 0 [] = [0, 2 * (τ 0 + τ 1) - l] := by
    obtain ⟨u, w, e⟩ := List.length_eq_two.mp hnl
    rw [e] at hE ⊢
    have e0 : u = 0 := hE.1
    have e1 : w = 2 * (τ 0 + τ 1) - l := hE.2
    rw [e0, e1]
  have hin : ∀ d < (holdDpn kind).p.nVar, (holdDpn kind).xl.getD d 0 < (s.state.X.getD 0 []).getD d 0 ∧
      (s.state.X.getD 0 []).getD d 0 < (holdDpn kind).xu.getD d 0 := by
    intro d hd
    obtain rfl : d = 0 := Nat.lt_one_iff.mp hd
    rw [hx0]
    norm_num [holdDpn]
  have hst : s'.step.getD 0 [] = [0, 2 * (τ 0 + τ 1) - l] := by
    have := hm.handled
    rw [hx0, hn] at this
    rw [this]
    show (dpnBox [-5] [5] [0] [0]).1 ++ [2 * (τ 0 + τ 1) - l] = _
    rw [(dpnBox_interior (xl := [-5]) (xu := [5]) (x := [0]) (n := [0]) rfl rfl (fun d hd => by
      obtain rfl : d = 0 := Nat.lt_one_iff.mp hd
      norm_num)).1]
    rfl
  have hα : 0 < α 0 := by
    rcases h9 with ⟨-, h, -⟩ | ⟨-, -, -, h⟩
    · rw [h 0 one_pos]; exact one_pos
    · obtain ⟨m, -, -, g1, g2, -⟩ := h 0 one_pos
      exact SearchedBy.pos (g1 hin).1 g2
  rw [hx0, hst] at hx
  refine ⟨s', M0, M1, τ, l + α 0 * (2 * (τ 0 + τ 1) - l), h1, h2, h3, hτ, h5.1,
    table_one h2.size (by rw [hx]; simp [moved]), fun h => ?_, hS'⟩
  have := (h8 0 one_pos).2
  nlinarith [hτ.1, hτ.2]

/-- C81 is violated by the signs: an inequality that is active at the start is never released. The point `0` stays for
any number of iterations, with a negative multiplier of `x ≤ 0` from the first one on, although all feasible points in
`[-1, 0)` are better. -/
theorem C81_violated_sign (kind : DpKind) (n : ℕ) :
    ∃ s s' l, (holdDpn kind).start belowRef [[0]] = some s ∧ (holdDpn kind).run n s = some s' ∧
      s'.state.X = [[0, l]] ∧ (0 < n → l < 0 ∧ ¬ SignedMultipliers (holdDpn kind).p [0, l]) ∧
      ∃ s'' M0 M1 τ, (holdDpn kind).iterate s' = some s'' ∧ DpnTargets (holdDpn kind) s' s'' M0 M1 [τ] ∧
        ∀ x : ℝ, -1 ≤ x → x < 0 → cVal (holdDpn kind).p [x] 0 < 0 ∧
          (holdDpn kind).env.dist (pt ((holdDpn kind).p.func.point [x])) τ <
            (holdDpn kind).env.dist (pt ((holdDpn kind).p.func.point [0])) τ := by
  obtain ⟨s, h1, h2, h3, -, h4, -, h5⟩ := (C71_start (holdDpn_ok kind) (S := belowRef) (X0 := [[0]])
    (by simp) ⟨⟨_, rfl, by simp⟩, rfl, rfl, rfl⟩ rfl (fun d hd => by
      obtain rfl : d = 0 := Nat.lt_one_iff.mp hd
      norm_num [holdDpn])).2 (by simp [holdDpn, holdFuncs])
  have hX : s.state.X = [[0, 0]] := by
    refine table_one h2.size ?_
    have hl : (s.state.X.getD 0 []).length = 2 := IsMat.row (N := 1) ⟨h2.size, h2.state.dim⟩ one_pos
    obtain ⟨u, w, e⟩ := List.length_eq_two.mp hl
    obtain ⟨g, g'⟩ := h5 0 one_pos
    rw [e] at g g' ⊢
    have g0 := (g' 0 one_pos).2.2 0 (by norm_num [holdDpn]) (by norm_num [holdDpn])
    have g1 := g 0 one_pos
    rw [show (holdDpn kind).p.nVar = 1 from rfl] at g1
    simp at g0 g1
    rw [g0, g1]
  have hS : GoodRef Below (fun _ => -1) (fun _ => -1) s.ref := by
    rw [h4]
    exact ⟨rfl, rfl, fun old ho => by simp [belowRef, RefSet.new] at ho⟩
  have hrun : ∀ (n : ℕ) (s : DpnState ℝ) (l : ℝ), DpnReady (holdDpn kind) 1 s → s.state.X = [[0, l]] → l ≤ 0 →
      GoodRef Below (fun _ => -1) (fun _ => -1) s.ref →
      ∃ s' l', (holdDpn kind).run n s = some s' ∧ DpnReady (holdDpn kind) 1 s' ∧ s'.state.X = [[0, l']] ∧ l' ≤ 0 ∧
        (0 < n → l' < 0) ∧ GoodRef Below (fun _ => -1) (fun _ => -1) s'.ref := by
    intro n
    induction n with
    | zero => exact fun s l a b c d => ⟨s, l, rfl, a, b, c, by simp, d⟩
    | succ n ih =>
      intro s l a b c d
      obtain ⟨s1, -, -, -, l1, k1, k2, -, -, k3, k4, k5, k6⟩ := hold_iteration a b d
      obtain ⟨s', l', r1, r2, r3, r4, r5, r6⟩ := ih (Dpn.log s1) l1 ⟨k2.state, k2.size, k2.ref, k2.matched, fun _ => k3⟩ k4
        (k5 c).le k6
      refine ⟨s', l', by rw [Dpn.run, k1, Option.bind_some, r1], r2, r3, r4, fun _ => ?_, r6⟩
      rcases Nat.eq_zero_or_pos n with rfl | hn
      · have e : s' = Dpn.log s1 := (Option.some.inj r1).symm
        rw [e, show (Dpn.log s1).state = s1.state from rfl, k4] at r3
        have : l1 = l' := by simpa using r3
        rw [← this]
        exact k5 c
      · exact r5 hn
  obtain ⟨s', l, r1, r2, r3, r4, r5, r6⟩ := hrun n s 0 h2 hX le_rfl hS
  obtain ⟨s'', M0, M1, τ, -, k1, -, k3, k4, -⟩ := hold_iteration r2 r3 r6
  refine ⟨s, s', l, h1, r1, r3, fun hn => ⟨r5 hn, fun hsg => ?_⟩, s'', M0, M1, τ, k1, k3, fun x x0 x1 => ⟨?_, ?_⟩⟩
  · have := hsg 0 (Nat.zero_le _) (by show 0 < 1; omega) hold_active
    have : 0 ≤ l := this
    linarith [r5 hn]
  · rw [show (holdDpn kind).p = holdFuncs from rfl, hold_cVal]
    exact x1
  · show √((x - τ 0) ^ 2 + (x - τ 1) ^ 2) < √((0 - τ 0) ^ 2 + (0 - τ 1) ^ 2)
    refine Real.sqrt_lt_sqrt (by positivity) ?_
    nlinarith [k4.1, k4.2]

/-! ## Examples -/

/-- The point `(1/2, 1/2)` of the square as reference point that is not shifted. -/
noncomputable def halfRef : RefSet (ℕ → ℝ) := RefSet.new [[fun _ => 1 / 2]] [0] none

/-- The hypotheses of `C81_dp_partial`: from a point inside of the square, the population is left alone if and only if the
point is the target, with the Newton equations that are solvable in one way. -/
example (kind : DpKind) (x y : ℝ) (hx : 0 < x ∧ x < 1) (hy : 0 < y ∧ y < 1) :
    ∃ s s', (cornerDpn kind).start halfRef [[x, y]] = some s ∧ (cornerDpn kind).iterate s = some s' ∧
      (s'.state.X = s.state.X ↔ x = 1 / 2 ∧ y = 1 / 2) := by
  obtain ⟨s, h1, h2, h3, -, h4, -, h5⟩ := (C71_start (cornerDpn_ok kind) (S := halfRef) (X0 := [[x, y]])
    (by simp) ⟨⟨_, rfl, by simp⟩, rfl, rfl, rfl⟩ rfl (fun d hd => by
      have hd : d < 2 := hd
      match d, hd with
      | 0, _ => simp [cornerDpn]
      | 1, _ => simp [cornerDpn])).2 (by simp [cornerDpn, planeFuncs])
  have hX : s.state.X = [[x, y]] := by
    refine table_one h2.size ?_
    have hl : (s.state.X.getD 0 []).length = 2 := IsMat.row (N := 1) ⟨h2.size, h2.state.dim⟩ one_pos
    obtain ⟨u, w, e⟩ := List.length_eq_two.mp hl
    have g := (h5 0 one_pos).2
    rw [e] at g ⊢
    have g0 := (g 0 (by show 0 < 2; omega)).2.2 x (by simpa [cornerDpn] using hx.1.le) (by simpa [cornerDpn] using hx.2.le)
    have g1 := (g 1 (by show 1 < 2; omega)).2.2 y (by simpa [cornerDpn] using hy.1.le) (by simpa [cornerDpn] using hy.2.le)
    simp [sub_eq_zero] at g0 g1
    rw [g0, g1]
  have hx0 : s.state.X.getD 0 [] = [x, y] := by rw [hX]; rfl
  obtain ⟨s', M0, M1, T, k1, k2, k3⟩ := C81_dp_partial (cornerDpn_ok kind) oneSolve_sound h2
  obtain ⟨s1, -, -, -, -, -, q1, q2, -⟩ := C71_iteration (cornerDpn_ok kind) h2
  obtain rfl : s' = s1 := Option.some.inj (k1.symm.trans q1)
  obtain ⟨τ, rfl, ⟨t0, t1⟩, -⟩ := good_target (a := cornerDpn kind) (Good := fun τ => τ 0 = 1 / 2 ∧ τ 1 = 1 / 2)
    (r := fun _ => 1 / 2) (e := 0) ⟨rfl, rfl⟩ (by
      rintro τ c ⟨k1, k2⟩ -
      rw [smul_zero, add_zero]
      exact ⟨k1, k2⟩) h2.size (by
      rw [h4]
      exact ⟨rfl, rfl, fun old ho => by simp [halfRef, RefSet.new] at ho⟩) k2
  obtain ⟨r1, r2⟩ := k3 0 one_pos
  have hfo : FirstOrder (cornerDpn kind).p (s.state.X.getD 0 []) (dpGrad (cornerDpn kind) ((cornerDpn kind).gdActive s'.gd s'.igd) 1
      ((s.state.X.getD 0 []).take (cornerDpn kind).p.nVar) ([τ].getD 0 0)) ↔ x = 1 / 2 ∧ y = 1 / 2 := by
    have g0 := corner_grad (kind := kind) ((cornerDpn kind).gdActive s'.gd s'.igd) x y τ (v := 0) (by omega)
    have g1 := corner_grad (kind := kind) ((cornerDpn kind).gdActive s'.gd s'.igd) x y τ (v := 1) (by omega)
    rw [hx0]
    have e : ([x, y] : List ℝ).take (cornerDpn kind).p.nVar = [x, y] := rfl
    rw [e, show [τ].getD 0 0 = τ from rfl]
    constructor
    · rintro ⟨h, -⟩
      have a0 := h 0 (by show 0 < 2; omega)
      have a1 := h 1 (by show 1 < 2; omega)
      rw [show (cornerDpn kind).p.nDual = 0 from rfl, Finset.sum_range_zero, add_zero] at a0 a1
      rw [g0, t0] at a0
      rw [g1, t1] at a1
      have a0 : 2 * (x - 1 / 2) = 0 := a0
      have a1 : 2 * (y - 1 / 2) = 0 := a1
      exact ⟨by linarith, by linarith⟩
    · rintro ⟨rfl, rfl⟩
      refine ⟨fun v hv => ?_, fun k hk => absurd hk (by show ¬ k < 0; omega)⟩
      rw [show (cornerDpn kind).p.nDual = 0 from rfl, Finset.sum_range_zero, add_zero]
      have hv : v < 2 := hv
      match v, hv with
      | 0, _ => rw [g0, t0]; norm_num [pt]
      | 1, _ => rw [g1, t1]; norm_num [pt]
  rw [show [[x, y]].length = 1 from rfl, hfo] at r1 r2
  have hu := corner_unique (kind := kind) ((cornerDpn kind).gdActive s'.gd s'.igd) x y τ
  refine ⟨s, s', h1, k1, fun h => r1 ?_ (by rw [hx0]; exact hu.1) (by rw [h]), fun h => ?_⟩
  · rw [hx0]
    intro d hd
    have hd : d < 2 := hd
    match d, hd with
    | 0, _ => simpa [cornerDpn] using hx
    | 1, _ => simpa [cornerDpn] using hy
  · rw [hX]
    exact table_one q2.size ((r2 (by rw [hx0]; exact hu.2) h).trans hx0)

/-- `MMDNewton` on the problem with the active constraint. -/
noncomputable def holdMmdn : Mmdn where
  p := holdFuncs
  nObj := 2
  hess := fun _ => [0, 0]
  matching := true
  kernel := autodiff (rbf 1)
  xl := [-5]
  xu := [5]
  env := bruteEnv (fun y r => √((y 0 - r 0) ^ 2 + (y 1 - r 1) ^ 2)) fun _ _ => 0
  solve := oneSolve
  precond := id

theorem holdMmdn_ok : holdMmdn.Ok where
  funcs := holdFuncs_ok
  env := bruteEnv_sound _ _
  nonneg := fun _ _ => Real.sqrt_nonneg _
  xl := rfl
  xu := rfl
  solve := fun A b _ => oneSolve_length A b
  precond := fun _ _ h => h
  jac := fun _ => rfl

/-- The hypotheses of `C81_sticky_run`: `MMDNewton` does not release the constraint either; the point stays at `0` for any
number of iterations. -/
example : ∃ run : ℕ → MmdnState, holdMmdn.start belowRef [[0]] = some (run 0) ∧
    (∀ t, holdMmdn.iterate (run t) = some (run (t + 1))) ∧ ∀ t, cVal holdMmdn.p (((run t).state.X.getD 0 []).take 1) 0 = 0 := by
  obtain ⟨s, h1, h2, -, -, -, h5⟩ := (C72_start holdMmdn_ok (S := belowRef) (X0 := [[0]])
    (by simp) (fun _ => ⟨⟨_, rfl, by simp⟩, rfl, rfl, rfl⟩) (fun h => by simp [holdMmdn] at h)
    (fun d hd => by
      obtain rfl : d = 0 := Nat.lt_one_iff.mp hd
      norm_num [holdMmdn])).2 (by simp [holdMmdn, holdFuncs])
  have h2 : MmdnReady holdMmdn 1 s := h2
  let run : ℕ → MmdnState := fun t => Nat.rec s (fun _ u => (holdMmdn.iterate u).getD u) t
  have hready : ∀ t, MmdnReady holdMmdn 1 (run t) ∧ holdMmdn.iterate (run t) = some (run (t + 1)) := by
    have hstep : ∀ t, MmdnReady holdMmdn 1 (run t) →
        holdMmdn.iterate (run t) = some (run (t + 1)) ∧ MmdnReady holdMmdn 1 (run (t + 1)) := by
      intro t h
      obtain ⟨s', -, -, -, -, -, -, g1, g2, -⟩ := C72_iteration_partial holdMmdn_ok h
      have e : run (t + 1) = s' := by
        show (holdMmdn.iterate (run t)).getD (run t) = s'
        rw [g1]; rfl
      rw [e]
      exact ⟨g1, g2⟩
    intro t
    induction t with
    | zero => exact ⟨h2, (hstep 0 h2).1⟩
    | succ t ih => exact ⟨(hstep t ih.1).2, (hstep (t + 1) (hstep t ih.1).2).1⟩
  have hx : ((run 0).state.X.getD 0 []).take 1 = [0] := by
    have hl : (s.state.X.getD 0 []).length = 2 := IsMat.row (N := 1) ⟨h2.size, h2.state.dim⟩ one_pos
    obtain ⟨u, w, e⟩ := List.length_eq_two.mp hl
    have g' := (h5 0 one_pos).2
    show (s.state.X.getD 0 []).take 1 = [0]
    rw [e] at g' ⊢
    have g0 := (g' 0 one_pos).2.2 0 (by norm_num [holdMmdn]) (by norm_num [holdMmdn])
    simp at g0
    simp [g0]
  refine ⟨run, h1, fun t => (hready t).2, fun t => ?_⟩
  have := (C81_sticky_run holdMmdn_ok oneSolve_sound (run := run) (hready 0).1 (fun t => (hready t).2) (k := 0) (i := 0)
    (fun t hr ha => ?_) (by show 0 < 1; omega) ?_ one_pos (by
      rw [show holdMmdn.p.nVar = 1 from rfl, hx]; exact hold_active) t).2.2
  · rw [show holdMmdn.p.nVar = 1 from rfl, hx, show holdMmdn.p = holdFuncs from rfl, hold_cVal, abs_zero, mul_zero] at this
    exact abs_nonpos_iff.mp this
  · obtain ⟨s', M0, M1, T, G, H, α, g1, g2, -, -, g4, -⟩ := C72_iteration_partial holdMmdn_ok hr
    obtain rfl : run (t + 1) = s' := Option.some.inj ((hready t).2.symm.trans g1)
    obtain ⟨A, hA⟩ := TableOf.exists 1 1 H
    have hl : ((run t).state.X.getD 0 []).length = 2 := IsMat.row (N := 1) ⟨hr.size, hr.state.dim⟩ one_pos
    obtain ⟨u, w, e⟩ := List.length_eq_two.mp hl
    have ha' : IsActive holdFuncs [u] 0 := by rw [e] at ha; exact ha
    refine ⟨G, H, T, g4, A, hA, fun _ c => if c = 0 then -u else -(G 0 0 + w) + at2 A 0 0 * u, fun i hi => ?_⟩
    obtain rfl : i = 0 := by omega
    rw [e]
    unfold KktNewtonFlat
    rw [show holdMmdn.p = holdFuncs from rfl, show holdFuncs.nVar = 1 from rfl, show holdFuncs.nDual = 1 from rfl]
    refine ⟨fun v hv => ?_, fun k hk _ => ?_⟩
    · obtain rfl : v = 0 := by omega
      simp only [Finset.sum_range_one, List.take_succ_cons, List.take_zero, if_pos ha', hold_cGrad]
      rw [show pt [u, w] (1 + 0) = w from rfl, show holdMmdn.precond A = A from rfl]
      simp
    · obtain rfl : k = 0 := by omega
      simp [hold_cGrad, hold_cVal]
  · intro q q' hq hq'
    obtain ⟨u, rfl⟩ := List.length_eq_one_iff.mp hq
    obtain ⟨u', rfl⟩ := List.length_eq_one_iff.mp hq'
    rw [show holdMmdn.p = holdFuncs from rfl, hold_cVal, hold_cVal, show holdFuncs.nVar = 1 from rfl, Finset.sum_range_one,
      hold_cGrad]
    simp [pt]

/-- The hypotheses of `C81_mmd_partial`: one point of the line; if the second derivative is not zero, the point is left
alone exactly if the first one is. -/
example : ∃ s s' G H, (lineMmdn true).start threeRefs [[1 / 4]] = some s ∧ (lineMmdn true).iterate s = some s' ∧
    (∃ T, MmdGrad (lineMmdn true) T s.state.X G ∧ MmdHess (lineMmdn true) T s.state.X H) ∧
    (H 0 0 0 0 ≠ 0 → (s'.state.X = s.state.X ↔ G 0 0 = 0)) := by
  obtain ⟨s, h1, h2, -⟩ := (C72_start (lineMmdn_ok true) (S := threeRefs) (X0 := [[1 / 4]])
    (by simp) (fun _ => ⟨⟨_, rfl, by simp⟩, rfl, rfl, rfl⟩) (fun h => by simp [lineMmdn] at h)
    (fun d hd => by
      obtain rfl : d = 0 := Nat.lt_one_iff.mp hd
      simp [lineMmdn])).2 (by simp [lineMmdn, lineFuncs])
  have h2 : MmdnReady (lineMmdn true) 1 s := h2
  obtain ⟨s', M0, M1, T, G, H, g1, -, g3, g4⟩ := C81_mmd_partial (lineMmdn_ok true) oneSolve_sound h2
  refine ⟨s, s', G, H, h1, g1, ⟨T, g3 (lineMmdn_smooth true)⟩, fun hH => ?_⟩
  obtain ⟨A, hA⟩ := TableOf.exists 1 1 H
  obtain ⟨k1, k2⟩ := g4 A hA _ fun _ => Iff.rfl
  have hA0 : at2 A 0 0 = H 0 0 0 0 := by simpa using hA.2 0 one_pos 0 one_pos 0 one_pos 0 one_pos
  have hfo : (∀ i < 1, FirstOrder (lineMmdn true).p (s.state.X.getD i []) (G i)) ↔ G 0 0 = 0 := by
    constructor
    · intro h
      have := (h 0 one_pos).stationary 0 one_pos
      rwa [show (lineMmdn true).p.nDual = 0 from rfl, Finset.sum_range_zero, add_zero] at this
    · intro h i hi
      obtain rfl : i = 0 := by omega
      refine ⟨fun v hv => ?_, fun k hk => absurd hk (Nat.not_lt_zero _)⟩
      obtain rfl : v = 0 := Nat.lt_one_iff.mp hv
      rw [show (lineMmdn true).p.nDual = 0 from rfl, Finset.sum_range_zero, add_zero, h]
  have heq : ∀ z : ℕ → ℕ → ℝ, (∀ i < 1, KktNewtonFlat (lineMmdn true).p (s.state.X.getD i []) (G i)
      (fun v => ∑ j ∈ Finset.range 1, ∑ w ∈ Finset.range (lineMmdn true).p.nVar,
        at2 ((lineMmdn true).precond A) (i * (lineMmdn true).p.nVar + v) (j * (lineMmdn true).p.nVar + w) * z j w) (z i)) ↔
      H 0 0 0 0 * z 0 0 = -G 0 0 := by
    intro z
    unfold KktNewtonFlat
    rw [show (lineMmdn true).p.nDual = 0 from rfl, show (lineMmdn true).p.nVar = 1 from rfl,
      show (lineMmdn true).precond A = A from rfl]
    constructor
    · intro h
      simpa [hA0] using (h 0 one_pos).1 0 one_pos
    · intro h i hi
      obtain rfl : i = 0 := by omega
      refine ⟨fun v hv => ?_, fun k hk => absurd hk (Nat.not_lt_zero _)⟩
      obtain rfl : v = 0 := by omega
      simpa [hA0] using h
  refine ⟨fun h => hfo.mp (k1 ⟨fun _ _ => -G 0 0 / H 0 0 0 0, (heq _).mpr (mul_div_cancel₀ _ hH)⟩ h),
    fun h => k2 (fun y z hy hz _ i hi c hc => ?_) (hfo.mpr h)⟩
  obtain rfl : i = 0 := by omega
  obtain rfl : c = 0 := Nat.lt_one_iff.mp hc
  exact mul_left_cancel₀ hH (((heq y).mp hy).trans ((heq z).mp hz).symm)

/-- The hypotheses of `C81_hv_partial`: the point `0` of the line with reference point `(2, 2)`. -/
example : ∃ (s s' : State ℝ) (Z' : List (List ℝ)) (G : ℕ → ℕ → ℝ) (H : ℕ → ℕ → ℕ → ℕ → ℝ),
    (lineHvn (2 : ℝ) 2 1 false).env.iterate s = some s' ∧
    LayerMoved (lineHvn (2 : ℝ) 2 1 false).env 1 2 (fun _ _ m => m = 1) [[0]] Z' ∧ (∀ x ∈ Z', x ∈ s'.X) ∧
    HasDerivAt (fun t => hvX (lineHvn (2 : ℝ) 2 1 false).problem (setCoord [pt [0]] 0 0 t)) (G 0 0) 0 ∧
    (H 0 0 0 0 ≠ 0 → Z' = [[0]] → G 0 0 = 0) := by
  obtain ⟨s, h1, h2, h3, -⟩ := Usable.update (N0 := 2) (dim := 1) (lineFuncs_ok (K := ℝ)) le_rfl State.init
    (X := [[0]]) (by simp) (by simp) (by simp [lineFuncs])
  obtain ⟨s', i1, i2, kept, parts, i3, i4, i5, i6, -⟩ := C69_hvn (lineHvn_ok (2 : ℝ) 2 1 false) rfl (s := s) h3
  have hlt : ∀ i ∈ kept, i = 0 := fun i hi => by
    have := i3.lt i hi
    rw [h2] at this
    simpa using this
  have hpos : 0 < kept.length := by
    rw [← i4]
    exact List.length_pos_iff.mpr i2.ne
  have hlen : kept.length = 1 := by
    have := (List.subperm_of_subset i3.nodup (fun i hi => List.mem_range.mpr (i3.lt i hi))).length_le
    rw [List.length_range, h2] at this
    simp at this
    omega
  have hk : kept = [0] := by
    obtain ⟨q, rfl⟩ := List.length_eq_one_iff.mp hlen
    rw [hlt q (by simp)]
  subst hk
  have hp := i5.perm
  have h0 : 0 ∈ parts.flatten := hp.mem_iff.mpr (by simp)
  obtain ⟨idx, hidx, hmem⟩ := List.mem_flatten.mp h0
  have hsub : idx = [0] := by
    have hsl : List.Sublist idx parts.flatten := List.sublist_flatten_of_mem hidx
    have hl := hsl.length_le
    have := hp.length_eq
    simp at this
    rw [List.length_flatten] at hl
    have h1 : idx.length = 1 := by
      have := List.length_pos_of_mem hmem
      omega
    obtain ⟨q, rfl⟩ := List.length_eq_one_iff.mp h1
    simp at hmem
    rw [hmem]
  subst hsub
  have hmv := i6 [0] hidx
  have e : ([0].map fun i => s.X.getD ([0].getD i 0) []) = [[(0 : ℝ)]] := by rw [h2]; rfl
  rw [e] at hmv
  have hf : ∀ x, (lineHvn (2 : ℝ) 2 1 false).problem.func x = pt [x 0, 1 - x 0] := fun x => by
    simp [Hvn.problem, lineHvn, lineFuncs, Hvn.coords]
  have hj : ∀ x, (lineHvn (2 : ℝ) 2 1 false).problem.jac x = fun k v => pt [1, -1] (k * 1 + v) := fun x => rfl
  have hP : [pt [0]] = ((lineHvn (2 : ℝ) 2 1 false).p.primal [[0]]).map pt := by
    simp [Funcs.primal, lineHvn, lineFuncs]
  have hm : ([pt [0]] : List (ℕ → ℝ)).map (lineHvn (2 : ℝ) 2 1 false).problem.func = [pt [0, 1]] := by
    rw [List.map_cons, hf]; simp [pt]
  have hs0 : 0 < s'.X.length := by rw [i4]; exact one_pos
  have hmem' : ∀ x ∈ [0].map (fun i => s'.X.getD i []), x ∈ s'.X := by
    intro x hx
    obtain rfl : x = s'.X.getD 0 [] := by simpa using hx
    rw [List.getD_eq_getElem _ _ hs0]
    exact List.getElem_mem _
  obtain ⟨G, H, g2, g3⟩ := C81_hv_partial (lineHvn_ok (2 : ℝ) 2 1 false)
    oneSolve_sound (by show 2 ≤ 5; norm_num) hmv (fun x hx => i2.dim x (hmem' x hx)) hP
    { jac := fun i hi w hw => Filter.Eventually.of_forall fun t k hk v hv => by
        obtain rfl : v = 0 := Nat.lt_one_iff.mp hv
        have hk : k < 2 := hk
        simp only [hf, hj, Function.update_self]
        match k, hk with
        | 0, _ => exact hasDerivAt_id' _
        | 1, _ => simpa [pt] using (hasDerivAt_id' _).const_sub (1 : ℝ)
      hess := fun i hi k hk v hv w hw => by
        have hk : k < 2 := hk
        obtain rfl : v = 0 := Nat.lt_one_iff.mp hv
        obtain rfl : w = 0 := Nat.lt_one_iff.mp hw
        simp only [hj]
        match k, hk with
        | 0, _ => exact hasDerivAt_const _ _
        | 1, _ => exact hasDerivAt_const _ _
      symm := fun x k hk v hv w hw => by
        obtain rfl : v = 0 := Nat.lt_one_iff.mp hv
        obtain rfl : w = 0 := Nat.lt_one_iff.mp hw
        rfl }
    (by
      rw [hm]
      constructor
      · simp
      · intro q hq k hk
        have hk : k < 2 := hk
        obtain rfl : q = pt [0, 1] := by simpa using hq
        match k, hk with
        | 0, _ => norm_num [pt, lineHvn]
        | 1, _ => norm_num [pt, lineHvn])
    (by
      rw [hm]
      intro q hq k hk
      have hk : k < 2 := hk
      refine le_trans ?_ ten_le
      obtain rfl : q = pt [0, 1] := by simpa using hq
      match k, hk with
      | 0, _ => norm_num [pt, lineHvn]
      | 1, _ => norm_num [pt, lineHvn])
  obtain ⟨d1, -⟩ := g2 0 (by simp) 0 (by show 0 < 1; norm_num)
  refine ⟨s, s', _, G, H, i1, hmv, hmem', by simpa [ptOf, pt] using d1, fun hH hrest => ?_⟩
  obtain ⟨A, hA⟩ := TableOf.exists 1 1 H
  have hA0 : at2 A 0 0 = H 0 0 0 0 := by simpa using hA.2 0 one_pos 0 one_pos 0 one_pos 0 one_pos
  have := ((g3 A hA _ fun _ => Iff.rfl).1 ⟨fun _ _ => -G 0 0 / H 0 0 0 0, fun i hi => ?_⟩ hrest 0 one_pos).stationary 0 one_pos
  · rwa [show (lineHvn (2 : ℝ) 2 1 false).p.nDual = 0 from rfl, Finset.sum_range_zero, add_zero] at this
  · obtain rfl : i = 0 := Nat.lt_one_iff.mp hi
    refine ⟨fun v hv => ?_, fun k hk => absurd hk (Nat.not_lt_zero _)⟩
    obtain rfl : v = 0 := Nat.lt_one_iff.mp hv
    rw [show (lineHvn (2 : ℝ) 2 1 false).p.nDual = 0 from rfl, show (lineHvn (2 : ℝ) 2 1 false).p.nVar = 1 from rfl,
      show (lineHvn (2 : ℝ) 2 1 false).precond A = A from rfl]
    simp [hA0, mul_div_cancel₀ _ hH]

/-- The hypotheses of `C81_dp_many_partial`: three points and a reference set of two components. -/
example : ∃ s s', ∃ T : List (ℕ → ℚ), (lineDpn .deltap fun x : ℚ => x).start
      (RefSet.new twoRef [fun _ => -1, fun k => if k = 0 then -1 else 0] (some [[1], [0, 2]])) [[3 / 4], [1 / 4], [2]] = some s ∧
    (lineDpn .deltap fun x : ℚ => x).iterate s = some s' ∧ ∀ i < 3,
      InsideBox [0] [1] 1 (s.state.X.getD i []) →
      (∃ z, DpnEquations (lineDpn .deltap fun x : ℚ => x) ((lineDpn .deltap fun x : ℚ => x).gdActive s'.gd s'.igd) 3
        (s.state.X.getD i []) (T.getD i 0) z) →
      s'.state.X.getD i [] = s.state.X.getD i [] →
      dpGrad (lineDpn .deltap fun x : ℚ => x) ((lineDpn .deltap fun x : ℚ => x).gdActive s'.gd s'.igd) 3
        ((s.state.X.getD i []).take 1) (T.getD i 0) 0 = 0 := by
  obtain ⟨s, s0, h1, h2, h3, -⟩ := C71_many_start (lineDpn_ok .deltap fun x : ℚ => x) (ref := twoRef)
    (eta := [fun _ => -1, fun k => if k = 0 then -1 else 0]) (cls := [[1], [0, 2]]) (X0 := [[3 / 4], [1 / 4], [2]])
    (by simp [lineDpn, lineFuncs]) (by simp) (fun d hd => by
      obtain rfl : d = 0 := Nat.lt_one_iff.mp hd
      simp [lineDpn]) (by decide) rfl (by decide) (by decide) (by decide) (by simp [twoRef]) 0
  obtain rfl : s = s0 := Option.some.inj h2
  obtain ⟨s', comp, M0, M1, T, g1, -, g3⟩ := C81_dp_many_partial (lineDpn_ok .deltap fun x : ℚ => x) oneSolve_sound h3
  refine ⟨s, s', T, h1, g1, fun i hi hb hz hr => ?_⟩
  have := ((g3 i hi).1 hb hz hr).stationary 0 one_pos
  rwa [show (lineDpn .deltap fun x : ℚ => x).p.nDual = 0 from rfl, Finset.sum_range_zero, add_zero] at this

/-- The hypotheses of `C81_sticky`: from `1`, where `x ≤ 0` does not hold, half of the Newton step leads to `1 / 2`. -/
example : KktNewton holdFuncs [1, 0] (fun _ => 0) (fun _ => 0) (fun v => if v = 0 then -1 else 0) ∧
    cVal holdFuncs [1 / 2] 0 = (1 - 1 / 2) * cVal holdFuncs [1] 0 ∧ IsActive holdFuncs [1 / 2] 0 := by
  have ha : IsActive holdFuncs [(1 : ℝ)] 0 := .inr (by rw [hold_cVal]; norm_num)
  have hn : KktNewton holdFuncs [1, 0] (fun _ => 0) (fun _ => 0) (fun v => if v = 0 then -1 else 0) := by
    unfold KktNewton
    rw [show holdFuncs.nVar = 1 from rfl, show holdFuncs.nDual = 1 from rfl]
    simp [ha, hold_cVal, hold_cGrad, hold_cHess, pt]
  refine ⟨hn, ?_⟩
  exact C81_sticky (x := [1, 0]) (x' := [1 / 2, 0]) (k := 0) (by show 0 < 1; omega) hn (fun q q' hq hq' => by
      obtain ⟨u, rfl⟩ := List.length_eq_one_iff.mp hq
      obtain ⟨w, rfl⟩ := List.length_eq_one_iff.mp hq'
      rw [show holdFuncs.nVar = 1 from rfl, Finset.sum_range_one, hold_cVal, hold_cVal, hold_cGrad]
      simp [pt]) (by show 1 ≤ 2; omega) (by show 1 ≤ 2; omega) (by norm_num) (by norm_num) (fun w hw => by
      obtain rfl : w = 0 := Nat.lt_one_iff.mp hw
      norm_num [pt]) ha

end Verif.Props
