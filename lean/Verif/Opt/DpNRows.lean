import Verif.Opt.DpNLemmas
import Verif.Opt.KKTLemmas

/-!
# Residual and Newton step of `DpN`
-/

set_option linter.unusedSectionVars false

namespace Verif.Opt

open Verif.Ind Verif.Util Verif.HV Verif.Props

variable {K : Type*} [Field K] [LinearOrder K] [IsStrictOrderedRing K] [Inhabited K]

theorem scatter_sq {m : List Bool} {v r : List K} (h : Util.scatter m v = some r) :
    (r.map (· ^ 2)).sum = (v.map (· ^ 2)).sum := by
  induction m generalizing v r with
  | nil =>
    cases v with
    | nil => obtain rfl : [] = r := by simpa [Util.scatter] using h
             rfl
    | cons => simp [Util.scatter] at h
  | cons b m ih =>
    cases b with
    | true =>
      cases v with
      | nil => simp [Util.scatter] at h
      | cons x v =>
        obtain ⟨r', h1, rfl⟩ := Option.map_eq_some_iff.mp (show (Util.scatter m v).map (x :: ·) = some r from h)
        simp [ih h1]
    | false =>
      obtain ⟨r', h1, rfl⟩ := Option.map_eq_some_iff.mp (show (Util.scatter m v).map (0 :: ·) = some r from h)
      simp [ih h1]

/-- One row of the residual of `DpN`: the short form of the line search and the long form of `R`. -/
theorem dpnR_row {c : Bool} {n m : ℕ} {d : NewtonPoint K} (h : d.Shape n m) (hc : c = false → m = 0) :
    ∃ r, Util.scatter (List.replicate d.grad.length true ++ if c then d.act else [])
        (if c then activeLagrange d.toPointData ++ select d.act d.cstr else d.grad) = some r ∧ r.length = n + m ∧
      (∀ v < n, r.getD v 0 = (activeLagrange d.toPointData).getD v 0) ∧
      ∀ k < m, r.getD (n + k) 0 = if d.act.getD k false = true then d.cstr.getD k 0 else 0 := by
  cases c with
  | true =>
    obtain ⟨r, -, r2, r3⟩ := row_spec h.base
    exact ⟨r, r2, r3⟩
  | false =>
    obtain rfl := hc rfl
    refine ⟨d.grad, ?_, h.base.grad, fun v hv => ?_, fun k hk => by omega⟩
    · have := Util.scatter_replicate [] [] d.grad
      simpa [Util.scatter] using this
    · rw [activeLagrange_getD h.base hv]
      simp

/-- The Newton row exists. -/
theorem dpnRow_total {solve : List (List K) → List K → List K}
    (hs : ∀ A b, IsMat b.length b.length A → (solve A b).length = b.length) {n p : ℕ} {Hess : List (List K)}
    {d : NewtonPoint K} (h : d.Shape n p) (hH : IsMat n n Hess) :
    ∃ r, dpnRow solve n p Hess d = some r ∧ r.length = n + p ∧ ∀ k < p, d.act.getD k false = false → r.getD (n + k) 0 = 0 := by
  unfold dpnRow
  by_cases hp : p = 0
  · subst hp
    rw [if_pos rfl]
    obtain ⟨r, h1, h2, -⟩ := Util.scatter_spec (List.replicate n true) ((solve Hess d.grad).map (-1 * ·)) (by
      rw [List.length_map, hs _ _ (by rw [h.base.grad]; exact hH), h.base.grad]; simp)
    exact ⟨r, h1, by simpa using h2, by omega⟩
  · rw [if_neg hp]
    have hsel : (select d.act d.dH).length = d.act.count true :=
      select_length _ _ (h.base.dH.trans h.base.act.symm)
    have hselc : (select d.act d.cstr).length = d.act.count true :=
      select_length _ _ (h.base.cstr.trans h.base.act.symm)
    have hA : IsMat n n (addRows Hess (activeHess n d)) :=
      addRows_isMat hH ⟨activeHess_length n d, activeHess_row n d⟩
    have hB := bordered_isMat hA (H := select d.act d.dH) (fun r hr => h.rows r (select_subset _ _ r hr))
    have hl : (activeLagrange d.toPointData ++ select d.act d.cstr).length = n + d.act.count true := by
      rw [List.length_append, activeLagrange_length, h.base.grad, hselc]
    rw [hsel, ← hl] at hB
    set u := (solve (bordered n (addRows Hess (activeHess n d)) (select d.act d.dH))
      (activeLagrange d.toPointData ++ select d.act d.cstr)).map (-1 * ·) with hu
    have hul : u.length = n + d.act.count true := by rw [hu, List.length_map, hs _ _ hB, hl]
    obtain ⟨r, h1, h2, h3⟩ := Util.scatter_spec (List.replicate n true ++ d.act) u (by
      rw [hul, List.count_append, List.count_replicate_self])
    refine ⟨r, h1, by rw [h2, List.length_append, List.length_replicate, h.base.act], fun k hk hact => ?_⟩
    have e := Util.scatter_select (K := K) (List.replicate n true ++ d.act) r h2
    rw [h3, h1] at e
    have e := Option.some.inj e
    have hlt : n + k < r.length := by rw [h2, List.length_append, List.length_replicate, h.base.act]; omega
    have hk' : k < d.act.length := by rw [h.base.act]; exact hk
    rw [List.getD_eq_getElem _ _ hk'] at hact
    have e2 : r[n + k]? = (zeroOut (List.replicate n true ++ d.act) r)[n + k]? := congrArg (·[n + k]?) e
    rw [zeroOut, List.getElem?_zipWith, List.getElem?_append_right (by simp), List.length_replicate,
      Nat.add_sub_cancel_left, List.getElem?_eq_getElem hk', List.getElem?_eq_getElem hlt, hact] at e2
    rw [List.getD_eq_getElem _ _ hlt]
    simpa using e2

end Verif.Opt

namespace Verif.Props

open Verif.Opt Verif.HV

variable {K : Type*} [Field K]

/-- Entry `v` of the gradient of the indicator at a point with variables `q` and target `τ` among `N` points. -/
def dpGrad (a : Dpn K) (useGd : Bool) (N : ℕ) (q : List K) (τ : ℕ → K) (v : ℕ) : K :=
  (if useGd then 2 / (N : K) else 2) * ∑ k ∈ Finset.range a.nObj,
    pt (a.p.jac.point q) (k * a.p.nVar + v) * (pt (a.p.func.point q) k - τ k)

/-- Entry `(v, w)` of its Hessian. -/
def dpHess (a : Dpn K) (useGd : Bool) (N : ℕ) (q : List K) (τ : ℕ → K) (v w : ℕ) : K :=
  (if useGd then 2 / (N : K) else 2) * ∑ k ∈ Finset.range a.nObj,
    (pt (a.p.jac.point q) (k * a.p.nVar + v) * pt (a.p.jac.point q) (k * a.p.nVar + w) +
      pt (a.hess q) ((k * a.p.nVar + v) * a.p.nVar + w) * (pt (a.p.func.point q) k - τ k))

end Verif.Props

namespace Verif.Opt

open Verif.Ind Verif.Util Verif.HV Verif.Props

variable {K : Type*} [Field K] [LinearOrder K] [IsStrictOrderedRing K] [Inhabited K]

namespace Dpn

variable {a : Dpn K} {N0 : ℕ}

/-- The data of the points in both computations, with the targets `T`. -/
theorem points_of (ha : a.Ok) (useGd : Bool) {t : State K} (ht : Usable a.p (a.p.nVar + a.p.nDual) N0 t)
    {T : List (ℕ → K)} (hT : T.length = t.X.length) :
    ∃ ds, t.J = some (t.X.map fun x => a.p.jac.point (x.take a.p.nVar)) ∧
      a.p.layerPoints t (List.zipWith (a.gradRow (factor useGd t.X.length))
        (t.X.map fun x => a.p.jac.point (x.take a.p.nVar))
        (List.zipWith (fun y r k => y k - r k) (t.Y.map pt) T)) = some ds ∧ ds.length = t.X.length ∧
      ∀ i (hi : i < ds.length), ds[i].Shape a.p.nVar a.p.nDual ∧ a.p.PointOf (t.X.getD i []) ds[i] ∧
        ∀ v < a.p.nVar, ds[i].grad.getD v 0 =
          dpGrad a useGd t.X.length ((t.X.getD i []).take a.p.nVar) (T.getD i 0) v := by
  obtain ⟨J, hJ⟩ := Option.isSome_iff_exists.mp ht.jac
  have hJ' := ht.sync.J J hJ
  have hYl : (t.Y.map pt).length = t.X.length := by rw [List.length_map, ht.sync.Y, List.length_map]
  set grad := List.zipWith (a.gradRow (factor useGd t.X.length)) (t.X.map fun x => a.p.jac.point (x.take a.p.nVar))
    (List.zipWith (fun y r k => y k - r k) (t.Y.map pt) T) with hg
  have hgl : grad.length = t.X.length := by
    rw [hg, List.length_zipWith, List.length_zipWith, List.length_map, hYl, hT, min_self, min_self]
  obtain ⟨ds, d1, d2, d3⟩ := Funcs.layerPoints_spec ha.funcs ha.jac ht (grad := grad) hgl (by
    intro r hr
    rw [hg] at hr
    obtain ⟨i, hi, rfl⟩ := List.mem_iff_getElem.mp hr
    rw [List.getElem_zipWith]
    simp [gradRow])
  refine ⟨ds, by rw [hJ, hJ'], d1, d2, fun i hi => ?_⟩
  obtain ⟨e1, e2, e3⟩ := d3 i hi
  refine ⟨e1, e3, fun v hv => ?_⟩
  have hi' : i < t.X.length := by omega
  rw [e2, List.getD_eq_getElem grad _ (by omega)]
  have e4 : (t.Y.map pt)[i]'(by omega) = pt (a.p.func.point ((t.X[i]).take a.p.nVar)) := by
    simp only [List.getElem_map, ht.sync.Y]
  simp only [hg, List.getElem_zipWith, List.getElem_map]
  simp only [List.getElem_map] at e4
  rw [e4, List.getD_eq_getElem t.X _ hi', List.getD_eq_getElem T _ (by omega), gradRow,
    List.getD_eq_getElem _ _ (by simpa using hv), List.getElem_map, List.getElem_range, sum_map_range]
  rfl

/-- The residual returns, in the short form without the inactive constraints. -/
theorem residual_of (ha : a.Ok) (useGd : Bool) {t : State K} (ht : Usable a.p (a.p.nVar + a.p.nDual) N0 t)
    {S S' : RefSet (ℕ → K)} {T : List (ℕ → K)} (hT : T.length = t.X.length)
    (hd : a.diffs useGd S (t.Y.map pt) = some (S', List.zipWith (fun y r k => y k - r k) (t.Y.map pt) T)) :
    ∃ rows, a.residual useGd t S = some (S', rows) ∧ rows.length = t.X.length ∧ ∀ i < t.X.length, ∃ r : List K,
        r.length = a.p.nVar + a.p.nDual ∧ a.norm r = a.norm (rows.getD i []) ∧
        KktResidual a.p (t.X.getD i []) (dpGrad a useGd t.X.length ((t.X.getD i []).take a.p.nVar) (T.getD i 0)) (pt r) := by
  obtain ⟨ds, h1, h9, h10, h11⟩ := points_of ha useGd ht hT
  refine ⟨_, by rw [residual, h1, Option.bind_some, hd, Option.bind_some, h9, Option.map_some], ?_, fun i hi => ?_⟩
  · unfold dpnR
    split <;> simp [h10]
  · have hi' : i < ds.length := by omega
    obtain ⟨e1, e2, e3⟩ := h11 i hi'
    obtain ⟨r, r1, r2, r3, r4⟩ := dpnR_row (c := a.p.constrained) e1 Funcs.nDual_free
    have hx : (t.X.getD i []).length = a.p.nVar + a.p.nDual := by
      rw [List.getD_eq_getElem _ _ hi]; exact ht.dim _ (List.getElem_mem _)
    refine ⟨r, r2, ?_, kktResidual_of ha.funcs hx e2 e1 e3 r3 r4⟩
    have e4 : (dpnR a.p.constrained (ds.map NewtonPoint.toPointData)).getD i [] =
        if a.p.constrained then activeLagrange ds[i].toPointData ++ select ds[i].act ds[i].cstr else ds[i].grad := by
      unfold dpnR
      split <;> rw [List.getD_eq_getElem _ _ (by simpa using hi')] <;> simp
    rw [e4, ha.norm, ha.norm, scatter_sq r1]

theorem hessRow_isMat (c : K) (J H : List K) (d : ℕ → K) : IsMat a.p.nVar a.p.nVar (a.hessRow c J H d) := by
  refine ⟨by simp [hessRow], fun r hr => ?_⟩
  obtain ⟨v, -, rfl⟩ := List.mem_map.mp hr
  simp

/-- The Newton step returns. -/
theorem newton_of (ha : a.Ok) (useGd : Bool) {t : State K} (ht : Usable a.p (a.p.nVar + a.p.nDual) N0 t)
    {S S' : RefSet (ℕ → K)} {T : List (ℕ → K)} (hT : T.length = t.X.length)
    (hd : a.diffs useGd S (t.Y.map pt) = some (S', List.zipWith (fun y r k => y k - r k) (t.Y.map pt) T)) :
    ∃ step R, a.newton useGd t S = some (S', step, R) ∧ IsMat t.X.length (a.p.nVar + a.p.nDual) step ∧
      IsMat t.X.length (a.p.nVar + a.p.nDual) R ∧ ∀ i < t.X.length,
        KktResidual a.p (t.X.getD i []) (dpGrad a useGd t.X.length ((t.X.getD i []).take a.p.nVar) (T.getD i 0))
          (pt (R.getD i [])) ∧
        (∀ k < a.p.nDual, ¬ IsActive a.p ((t.X.getD i []).take a.p.nVar) k → pt (step.getD i []) (a.p.nVar + k) = 0) ∧
        (∀ A, IsMat a.p.nVar a.p.nVar A → (∀ v < a.p.nVar, ∀ w < a.p.nVar, at2 A v w =
            dpHess a useGd t.X.length ((t.X.getD i []).take a.p.nVar) (T.getD i 0) v w) → SolverSound a.solve →
          (∃ s : ℕ → K, KktNewton a.p (t.X.getD i []) (dpGrad a useGd t.X.length ((t.X.getD i []).take a.p.nVar) (T.getD i 0))
            (fun v => ∑ w ∈ Finset.range a.p.nVar, at2 (a.precond A) v w * s w) s) →
          KktNewton a.p (t.X.getD i []) (dpGrad a useGd t.X.length ((t.X.getD i []).take a.p.nVar) (T.getD i 0))
            (fun v => ∑ w ∈ Finset.range a.p.nVar, at2 (a.precond A) v w * pt (step.getD i []) w)
            (pt (step.getD i []))) := by
  obtain ⟨ds, h1, h9, h10, h11⟩ := points_of ha useGd ht hT
  have hYl : (t.Y.map pt).length = t.X.length := by rw [List.length_map, ht.sync.Y, List.length_map]
  set D := List.zipWith (fun (y r : ℕ → K) k => y k - r k) (t.Y.map pt) T with hD
  have hDl : D.length = t.X.length := by rw [hD, List.length_zipWith, hYl, hT, min_self]
  have hrow : ∀ i (hi : i < ds.length), ∃ r, Util.scatter
      (List.replicate ds[i].grad.length true ++ if a.p.constrained then ds[i].act else [])
        (if a.p.constrained then activeLagrange ds[i].toPointData ++ select ds[i].act ds[i].cstr else ds[i].grad) =
        some r ∧ r.length = a.p.nVar + a.p.nDual ∧ KktResidual a.p (t.X.getD i [])
        (dpGrad a useGd t.X.length ((t.X.getD i []).take a.p.nVar) (T.getD i 0)) (pt r) := by
    intro i hi
    obtain ⟨e1, e2, e3⟩ := h11 i hi
    obtain ⟨r, r1, r2, r3, r4⟩ := dpnR_row (c := a.p.constrained) e1 Funcs.nDual_free
    have hx : (t.X.getD i []).length = a.p.nVar + a.p.nDual := by
      rw [List.getD_eq_getElem _ _ (by omega)]; exact ht.dim _ (List.getElem_mem _)
    exact ⟨r, r1, r2, kktResidual_of ha.funcs hx e2 e1 e3 r3 r4⟩
  obtain ⟨R, R1, R2⟩ : ∃ R, dpnRMatrix a.p.constrained (ds.map NewtonPoint.toPointData) = some R ∧
      List.Forall₂ (fun d r => Util.scatter
      (List.replicate d.grad.length true ++ if a.p.constrained then d.act else [])
        (if a.p.constrained then activeLagrange d.toPointData ++ select d.act d.cstr else d.grad) = some r) ds R := by
    have hz : (ds.map NewtonPoint.toPointData).zip (dpnR a.p.constrained (ds.map NewtonPoint.toPointData)) =
        ds.map fun d => (d.toPointData, if a.p.constrained then activeLagrange d.toPointData ++ select d.act d.cstr
          else d.grad) := by
      unfold dpnR
      split <;> rw [List.map_map, List.zip_map', ] <;> rfl
    unfold dpnRMatrix
    rw [hz, List.mapM_map]
    refine mapM_exists fun d hd => ?_
    obtain ⟨i, hi, rfl⟩ := List.mem_iff_getElem.mp hd
    obtain ⟨r, r1, -⟩ := hrow i hi
    exact ⟨r, r1, r1⟩
  have hRl := R2.length_eq
  set c := factor (K := K) useGd t.X.length with hc
  set Hs := List.zipWith (fun x Jd => a.precond (a.hessRow c Jd.1 (a.hess x) Jd.2)) (a.p.primal t.X)
    ((t.X.map fun x => a.p.jac.point (x.take a.p.nVar)).zip D) with hHs
  have hHl : Hs.length = t.X.length := by
    rw [hHs, List.length_zipWith, List.length_zip, List.length_map, hDl, Funcs.primal, List.length_map, min_self, min_self]
  have hHi : ∀ i (hi : i < t.X.length), Hs[i]'(by omega) =
      a.precond (a.hessRow c (a.p.jac.point (t.X[i].take a.p.nVar)) (a.hess (t.X[i].take a.p.nVar)) (D[i]'(by omega))) := by
    intro i hi
    simp only [hHs, List.getElem_zipWith, List.getElem_zip, Funcs.primal, List.getElem_map]
  have hDi : ∀ i (hi : i < t.X.length), D[i]'(by omega) =
      fun k => pt (a.p.func.point (t.X[i].take a.p.nVar)) k - (T[i]'(by omega)) k := by
    intro i hi
    simp only [hD, List.getElem_zipWith, List.getElem_map, ht.sync.Y]
  have hHm : ∀ i (hi : i < t.X.length), IsMat a.p.nVar a.p.nVar (Hs[i]'(by omega)) := fun i hi => by
    rw [hHi i hi]
    exact ha.precond _ _ (hessRow_isMat ..)
  obtain ⟨st, st1, st2⟩ := mapM_exists
    (f := fun q : List (List K) × NewtonPoint K => dpnRow a.solve a.p.nVar a.p.nDual q.1 q.2) (l := Hs.zip ds)
    (P := fun q r => r.length = a.p.nVar + a.p.nDual ∧
      (∀ k < a.p.nDual, q.2.act.getD k false = false → r.getD (a.p.nVar + k) 0 = 0) ∧ (SolverSound a.solve →
        (∃ s : ℕ → K, NewtonEquations true a.p.nVar a.p.nDual q.2
          (fun v => ∑ w ∈ Finset.range a.p.nVar, at2 q.1 v w * s w) s) →
        NewtonEquations true a.p.nVar a.p.nDual q.2
          (fun v => ∑ w ∈ Finset.range a.p.nVar, at2 q.1 v w * r.getD w 0) (fun j => r.getD j 0))) (by
    intro q hq
    obtain ⟨i, hi, rfl⟩ := List.mem_iff_getElem.mp hq
    rw [List.length_zip] at hi
    rw [List.getElem_zip]
    obtain ⟨r, r1, r2, r3⟩ := dpnRow_total ha.solve (h11 i (by omega)).1 (hHm i (by omega))
    refine ⟨r, r1, r2, r3, fun hs hex => ?_⟩
    obtain ⟨r', g1, -, g2, -⟩ := dpnRow_spec hs (h11 i (by omega)).1 (hHm i (by omega)) hex
    obtain rfl : r = r' := Option.some.inj (r1.symm.trans g1)
    exact g2)
  have hsl : st.length = t.X.length := by rw [← st2.length_eq, List.length_zip, hHl, h10, min_self]
  refine ⟨st, R, ?_, ⟨hsl, fun r hr => ?_⟩, ⟨by omega, fun r hr => ?_⟩, fun i hi => ?_⟩
  · rw [newton, h1, Option.bind_some, hd, Option.bind_some]
    dsimp only
    rw [h9, Option.bind_some, R1, Option.bind_some, dpnStep, st1, Option.map_some]
  · obtain ⟨i, hi, rfl⟩ := List.mem_iff_getElem.mp hr
    exact ((List.forall₂_iff_get.mp st2).2 i (by rw [List.length_zip]; omega) hi).1
  · obtain ⟨i, hi, rfl⟩ := List.mem_iff_getElem.mp hr
    obtain ⟨r, r1, r2, -⟩ := hrow i (by omega)
    have := (List.forall₂_iff_get.mp R2).2 i (by omega) hi
    simp only [List.get_eq_getElem] at this
    rw [Option.some.inj (this.symm.trans r1)]
    exact r2
  · have hi' : i < ds.length := by omega
    have hx : (t.X.getD i []).length = a.p.nVar + a.p.nDual := by
      rw [List.getD_eq_getElem _ _ hi]; exact ht.dim _ (List.getElem_mem _)
    obtain ⟨e1, e2, e3⟩ := h11 i hi'
    refine ⟨?_, ?_⟩
    · obtain ⟨r, r1, r2, r3⟩ := hrow i hi'
      have := (List.forall₂_iff_get.mp R2).2 i hi' (by omega)
      simp only [List.get_eq_getElem] at this
      rw [List.getD_eq_getElem R _ (by omega), Option.some.inj (this.symm.trans r1)]
      exact r3
    · obtain ⟨-, g1, g2⟩ := (List.forall₂_iff_get.mp st2).2 i (by rw [List.length_zip]; omega) (by omega)
      simp only [List.get_eq_getElem, List.getElem_zip] at g1 g2
      have es : ∀ j, pt (st.getD i []) j = (st[i]'(by omega)).getD j 0 := fun j => by
        rw [List.getD_eq_getElem st _ (by omega)]; rfl
      refine ⟨fun k hk hna => ?_, fun A hA hAe hs hex => ?_⟩
      · rw [es]
        refine g1 k hk (Bool.eq_false_iff.mpr fun hact => hna ?_)
        exact (PointOf.active ha.funcs hx e2 hk).mp hact
      · have hHe : Hs[i]'(by omega) = a.precond A := by
          rw [hHi i hi]
          congr 1
          refine isMat_ext (hessRow_isMat ..) hA fun v hv w hw => ?_
          rw [hAe v hv w hw, hDi i hi, hessRow, at2_table hv hw, sum_map_range, sum_map_range, ← Finset.sum_add_distrib,
            List.getD_eq_getElem t.X _ hi, List.getD_eq_getElem T _ (by omega)]
          rfl
        rw [hHe] at g2
        obtain ⟨s, hs0⟩ := hex
        have := g2 hs ⟨s, (kktNewton_iff ha.funcs hx e2 e3 _ _).mpr hs0⟩
        have := (kktNewton_iff ha.funcs hx e2 e3 _ _).mp this
        have ef : pt (st.getD i []) = fun j => (st[i]'(by omega)).getD j 0 := funext es
        rw [ef]
        exact this

end Dpn

end Verif.Opt
