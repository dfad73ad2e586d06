import Verif.Opt.PointsLemmas

/-!
# The Newton step of `HVN` returns on every usable population
-/

namespace Verif.Opt

open Verif.Util Verif.Props Verif.NDS Verif.HV

section Step

variable {K : Type*} [Field K]

theorem hvnStep_total {solve : List (List K) → List K → List K}
    (hs : ∀ A b, IsMat b.length b.length A → (solve A b).length = b.length) {n p : ℕ}
    {Hess : List (List K)} {ds : List (NewtonPoint K)} (hN : 0 < ds.length) (h : ∀ d ∈ ds, d.Shape n p)
    (hH : IsMat (ds.length * n) (ds.length * n) Hess) :
    ∃ S, hvnStep solve n p Hess ds = some S ∧ S.length = ds.length ∧ ∀ r ∈ S, r.length = n + p := by
  unfold hvnStep
  rcases Nat.eq_zero_or_pos p with rfl | hp
  · rw [if_pos rfl]
    have hl : (ds.map fun d => d.grad).flatten.length = ds.length * n := by
      rw [flatten_length_uniform (n := n), List.length_map]
      intro l hl
      obtain ⟨d, hd, rfl⟩ := List.mem_map.mp hl
      exact (h d hd).base.grad
    have hsl := hs Hess (ds.map fun d => d.grad).flatten (by rw [hl]; exact hH)
    obtain ⟨S, h1, h2, -, h4⟩ := reshape_spec (w := n) (x := (solve Hess (ds.map fun d => d.grad).flatten).map (-1 * ·)) hN
      (by rw [List.length_map, hsl, hl])
    exact ⟨S, h1, h2, h4⟩
  · rw [if_neg (by omega), (hvnR_eq h).1, Option.bind_some, pack_R h, Option.bind_some]
    have ha : ∀ m ∈ ds.map fun d => d.act, n + m.length = n + p := fun m hm => by
      obtain ⟨d, hd, rfl⟩ := List.mem_map.mp hm
      rw [(h d hd).base.act]
    set r := (ds.map fun d => activeLagrange d.toPointData).flatten ++ (ds.map fun d => select d.act d.cstr).flatten
      with hr
    have hrl : r.length = ds.length * n + ((ds.map fun d => d.act).map fun m => m.count true).sum := by
      rw [hr, List.length_append, flatten_length_uniform (n := n), List.length_map, List.length_flatten, List.map_map,
        List.map_map]
      · congr 2
        refine List.map_congr_left fun d hd => ?_
        simp only [Function.comp_apply]
        rw [select_length _ _ ((h d hd).base.cstr.trans (h d hd).base.act.symm)]
      · intro l hl
        obtain ⟨d, hd, rfl⟩ := List.mem_map.mp hl
        exact (activeLagrange_length _).trans (h d hd).base.grad
    have hM := newtonMatrix_isMat true h hH
    rw [← hrl] at hM
    obtain ⟨S, h1, h2, h3, -⟩ := pack_unpack (n := n) (dim := n + p) (N := ds.length)
      (v := (solve (newtonMatrix true n Hess ds) r).map (-1 * ·)) hN (by simp) ha
      (by rw [List.length_map, hs _ _ hM, hrl])
    exact ⟨S, h1, h2, h3⟩

theorem hvnR_total {c : Bool} {n p : ℕ} {ds : List (NewtonPoint K)} (h : ∀ d ∈ ds, d.Shape n p) (hp : c = false → p = 0) :
    ∃ R, hvnR c (ds.map NewtonPoint.toPointData) = some R ∧ R.length = ds.length ∧ ∀ r ∈ R, r.length = n + p := by
  cases c with
  | false =>
    refine ⟨_, rfl, by simp, fun r hr => ?_⟩
    rw [List.map_map] at hr
    obtain ⟨d, hd, rfl⟩ := List.mem_map.mp hr
    rw [hp rfl]
    exact (h d hd).base.grad
  | true =>
    refine ⟨_, (hvnR_eq h).1, by simp, fun r hr => ?_⟩
    obtain ⟨d, hd, rfl⟩ := List.mem_map.mp hr
    rw [List.length_append, activeLagrange_length, (h d hd).base.grad, zeroOut, List.length_zipWith,
      (h d hd).base.act, (h d hd).base.cstr, min_self]

end Step

namespace Hvn

variable {K : Type*} [Field K] [LinearOrder K] [IsStrictOrderedRing K] [Inhabited K]

/-- What is assumed of the arguments and the external functions: consistent callbacks, at least two objectives, a
sufficient recursion limit, a correct `argsort`, a solver that returns a vector of the right length for square systems,
a preconditioner that keeps the shape, a symmetric distance; with constraints, at least one of their Jacobians. -/
structure Ok (a : Hvn K) (N0 : ℕ) : Prop where
  funcs : a.p.Ok a.nObj
  two : 2 ≤ a.nObj
  fuel : depthBound a.nObj N0 ≤ a.fuel
  argsort : IsArgsort a.argsort
  solve : ∀ A b, IsMat b.length b.length A → (a.solve A b).length = b.length
  precond : ∀ m A, IsMat m m A → IsMat m m (a.precond A)
  nonneg : ∀ x y, 0 ≤ a.dist x y
  symm : ∀ x y, a.dist x y = a.dist y x
  jac : a.p.constrained = true → a.p.hasJac

variable {a : Hvn K} {N0 : ℕ}

theorem gradRows_shape (N : ℕ) (g : ℕ → K) : (a.gradRows N g).length = N ∧ ∀ r ∈ a.gradRows N g, r.length = a.p.nVar := by
  refine ⟨by simp [gradRows], fun r hr => ?_⟩
  obtain ⟨i, -, rfl⟩ := List.mem_map.mp hr
  simp

theorem Ok.fuel' (ha : a.Ok N0) {n : ℕ} (hn : n ≤ N0) : depthBound a.nObj n ≤ a.fuel :=
  (HVD.depthBound_mono le_rfl hn).trans ha.fuel

theorem residual_total (ha : a.Ok N0) {t : State K} (ht : Usable a.p (a.p.nVar + a.p.nDual) N0 t) :
    ∃ R, a.residual t = some R := by
  obtain ⟨J, hJ⟩ := Option.isSome_iff_exists.mp ht.jac
  have hP : ((a.p.primal t.X).map pt).length = t.X.length := by simp [Funcs.primal]
  obtain ⟨r, hr⟩ := HVD.Problem.computeGradient_total (p := a.problem) (fuel := a.fuel) (X := (a.p.primal t.X).map pt)
    ha.argsort (show 1 ≤ a.nObj by have := ha.two; omega) (by simpa [Funcs.primal] using ht.ne)
    (Y := some (t.Y.map pt)) (by
      intro y hy
      rw [← Option.some.inj hy, hP, ht.sync.Y]; simp) (some (a.givenJ J))
    (by rw [hP]; exact ha.fuel' ht.le)
  obtain ⟨g1, g2⟩ := gradRows_shape (a := a) t.X.length r.HVdX
  obtain ⟨ds, h1, h2, h3⟩ := Funcs.layerPoints_total ha.funcs ha.jac ht g1 g2
  obtain ⟨R, hR, -⟩ := hvnR_total (c := a.p.constrained) h3 Funcs.nDual_free
  exact ⟨R, by rw [residual, hJ, Option.bind_some, hr, Option.bind_some, h1, Option.bind_some, hR]⟩

theorem newton_total (ha : a.Ok N0) {t : State K} (ht : Usable a.p (a.p.nVar + a.p.nDual) N0 t) :
    ∃ S R, a.newton t = some (S, R) ∧ S.length = t.X.length ∧ R.length = t.X.length ∧
      (∀ r ∈ S, r.length = a.p.nVar + a.p.nDual) ∧ ∀ r ∈ R, r.length = a.p.nVar + a.p.nDual := by
  obtain ⟨J, hJ⟩ := Option.isSome_iff_exists.mp ht.jac
  have hP : ((a.p.primal t.X).map pt).length = t.X.length := by simp [Funcs.primal]
  obtain ⟨r, hr⟩ := HVD.Problem.computeHessian_total (p := a.problem) (fuel := a.fuel) (X := (a.p.primal t.X).map pt)
    ha.argsort ha.two (by simpa [Funcs.primal] using ht.ne)
    (Y := some (t.Y.map pt)) (by
      intro y hy
      rw [← Option.some.inj hy, hP, ht.sync.Y]; simp) (some (a.givenJ J))
    (by rw [hP]; exact ha.fuel' ht.le)
  obtain ⟨g1, g2⟩ := gradRows_shape (a := a) t.X.length r.HVdX
  obtain ⟨ds, h1, h2, h3⟩ := Funcs.layerPoints_total ha.funcs ha.jac ht g1 g2
  obtain ⟨R, hR, hR1, hR2⟩ := hvnR_total (c := a.p.constrained) h3 Funcs.nDual_free
  have hpos : 0 < ds.length := by rw [h2]; exact List.length_pos_iff.mpr ht.ne
  obtain ⟨S, hS, hS1, hS2⟩ := hvnStep_total ha.solve hpos h3
    (Hess := a.precond ((List.range (t.X.length * a.p.nVar)).map fun b =>
      (List.range (t.X.length * a.p.nVar)).map fun c => r.HVdX2 b c))
    (by
      rw [h2]
      refine ha.precond _ _ ⟨by simp, fun x hx => ?_⟩
      obtain ⟨b, -, rfl⟩ := List.mem_map.mp hx
      simp)
  refine ⟨S, R, ?_, by rw [hS1, h2], by rw [hR1, h2], hS2, hR2⟩
  rw [newton, hJ, Option.bind_some, hr, Option.bind_some, h1, Option.bind_some, hR, Option.bind_some, hS, Option.map_some]

/-- The iteration of `HVN` meets the assumptions of C69. -/
theorem env_ok (ha : a.Ok N0) : EnvOk a.env a.nObj (a.p.nVar + a.p.nDual) N0 where
  funcs := ha.funcs
  two := ha.two
  nVar := Nat.le_add_right _ _
  fuel := fun n hn => ha.fuel' hn
  nonneg := ha.nonneg
  symm := ha.symm
  newton := fun t ht => newton_total ha ht
  residual := fun t ht => residual_total ha ht
  indicator := fun t ht => by
    obtain ⟨v, hv⟩ := HV.compute_total ha.argsort (show 0 < a.nObj by have := ha.two; omega) (t.Y.map pt) a.problem.ref'
    exact ⟨v, hv⟩

end Hvn

end Verif.Opt
