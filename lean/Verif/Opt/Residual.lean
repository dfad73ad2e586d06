import Verif.Util.Pack
import Mathlib.Algebra.BigOperators.Group.Finset.Basic
import Mathlib.Algebra.BigOperators.Ring.Finset
import Mathlib.Data.List.GetD

/-!
# The root-finding problem of the Newton methods

Models of `_compute_R` of `HVN` and `DpN` (hvd/newton.py) and of `MMDNewton` (hvd/mmd_newton.py). The arrays of the
state are given point by point.
-/

namespace Verif.Opt

open Verif.Util

variable {K : Type*} [CommRing K]

/-- What `_compute_R` uses for one point: the gradient of the indicator, the dual variables, the mask of active
constraints, the values of all constraints and their gradients. -/
structure PointData (K : Type*) where
  grad : List K
  dual : List K
  act : List Bool
  cstr : List K
  dH : List (List K)

/-- `func(g, dual, h) = g + np.einsum("j,jk->k", dual, h)` (newton.py 232, 552, mmd_newton.py 241). -/
def lagrangeGrad (g dual : List K) (h : List (List K)) : List K :=
  (List.range g.length).map fun v => g.getD v 0 + ((dual.zip h).map fun p => p.1 * p.2.getD v 0).sum

/-- The first part of a row of `R`, with the active constraints only. -/
def activeLagrange (d : PointData K) : List K := lagrangeGrad d.grad (select d.act d.dual) (select d.act d.dH)

/-- One row of `R` in `HVN._compute_R` (newton.py 235-238): a row of zeros whose first part is overwritten and
whose active entries are overwritten. -/
def hvnRow (d : PointData K) : Option (List K) :=
  (scatter d.act (select d.act d.cstr)).map fun c => activeLagrange d ++ c

/-- `HVN._compute_R` (newton.py 216-239); without constraints `R` is the gradient. -/
def hvnR (constrained : Bool) (ds : List (PointData K)) : Option (List (List K)) :=
  if constrained then ds.mapM hvnRow else some (ds.map PointData.grad)

/-- The entries of the list `R` in `DpN._compute_R` (newton.py 534-557): only the active constraints occur. -/
def dpnR (constrained : Bool) (ds : List (PointData K)) : List (List K) :=
  if constrained then ds.map fun d => activeLagrange d ++ select d.act d.cstr else ds.map PointData.grad

/-- The matrix `R` returned by `DpN._compute_netwon_step` (newton.py 561, 564, 581): `R[r, c] = R_list[r]`. -/
def dpnRMatrix (constrained : Bool) (ds : List (PointData K)) : Option (List (List K)) :=
  (ds.zip (dpnR constrained ds)).mapM fun p =>
    scatter (List.replicate p.1.grad.length true ++ if constrained then p.1.act else []) p.2

/-- `MMDNewton._compute_R` (mmd_newton.py 222-247). -/
def mmdR (constrained : Bool) (ds : List (PointData K)) : Option (List (List K)) :=
  if constrained then
    ds.mapM fun d => scatter (List.replicate d.grad.length true ++ d.act) (activeLagrange d ++ select d.act d.cstr)
  else some (ds.map PointData.grad)

/-! ### Lemmas -/

omit [CommRing K] in
theorem scatter_select [Zero K] (m : List Bool) (r : List K) (h : m.length = r.length) :
    ∃ c, scatter m (select m r) = some c ∧ c.length = m.length ∧
      ∀ k, c.getD k 0 = if m.getD k false = true then r.getD k 0 else 0 := by
  induction m generalizing r with
  | nil =>
    cases r with
    | nil => exact ⟨[], rfl, rfl, fun k => by simp⟩
    | cons => simp at h
  | cons b m ih =>
    cases r with
    | nil => simp at h
    | cons a r =>
      obtain ⟨c, h1, h2, h3⟩ := ih r (by simpa using h)
      cases b with
      | false =>
        refine ⟨0 :: c, ?_, by simp [h2], fun k => ?_⟩
        · have : select (false :: m) (a :: r) = select m r := by simp [select]
          rw [this]
          simp [scatter, h1]
        · cases k with
          | zero => simp
          | succ k => simpa using h3 k
      | true =>
        refine ⟨a :: c, ?_, by simp [h2], fun k => ?_⟩
        · have : select (true :: m) (a :: r) = a :: select m r := by simp [select]
          rw [this]
          simp [scatter, h1]
        · cases k with
          | zero => simp
          | succ k => simpa using h3 k

omit [CommRing K] in
theorem scatter_prefix [Zero K] (l : List K) (m : List Bool) (v : List K) :
    scatter (List.replicate l.length true ++ m) (l ++ v) = (scatter m v).map (l ++ ·) := by
  induction l with
  | nil => simp
  | cons a l ih =>
    rw [List.length_cons, List.replicate_succ, List.cons_append, List.cons_append, scatter, ih, Option.map_map]
    rfl

/-- The sum over the selected entries. -/
theorem select_sum (m : List Bool) (a : List K) (h : List (List K)) (v : ℕ) (ha : a.length = m.length)
    (hh : h.length = m.length) :
    (((select m a).zip (select m h)).map fun p => p.1 * p.2.getD v 0).sum =
      ∑ k ∈ Finset.range m.length, if m.getD k false = true then a.getD k 0 * (h.getD k []).getD v 0 else 0 := by
  induction m generalizing a h with
  | nil => simp [select]
  | cons b m ih =>
    cases a with
    | nil => simp at ha
    | cons a0 a =>
      cases h with
      | nil => simp at hh
      | cons h0 h =>
        rw [List.length_cons, Finset.sum_range_succ']
        simp only [List.getD_cons_succ, List.getD_cons_zero]
        rw [← ih a h (by simpa using ha) (by simpa using hh)]
        cases b with
        | false => simp [select]
        | true => simp [select, add_comm]

/-- The arrays of a point with `n` variables and `p` constraints. -/
structure PointData.Shape (n p : ℕ) (d : PointData K) : Prop where
  grad : d.grad.length = n
  dual : d.dual.length = p
  act : d.act.length = p
  cstr : d.cstr.length = p
  dH : d.dH.length = p

theorem activeLagrange_length (d : PointData K) : (activeLagrange d).length = d.grad.length := by
  simp [activeLagrange, lagrangeGrad]

theorem activeLagrange_getD {n p : ℕ} {d : PointData K} (h : d.Shape n p) {v : ℕ} (hv : v < n) :
    (activeLagrange d).getD v 0 = d.grad.getD v 0 + ∑ k ∈ Finset.range p,
      if d.act.getD k false = true then d.dual.getD k 0 * (d.dH.getD k []).getD v 0 else 0 := by
  have := select_sum d.act d.dual d.dH v (h.dual.trans h.act.symm) (h.dH.trans h.act.symm)
  rw [h.act] at this
  rw [← this, List.getD_eq_getElem _ _ (by rw [activeLagrange_length, h.grad]; exact hv)]
  simp [activeLagrange, lagrangeGrad]

/-- The common row: the residual of one point. -/
theorem row_spec {n p : ℕ} {d : PointData K} (h : d.Shape n p) :
    ∃ r, hvnRow d = some r ∧
      scatter (List.replicate d.grad.length true ++ d.act) (activeLagrange d ++ select d.act d.cstr) = some r ∧
      r.length = n + p ∧ (∀ v < n, r.getD v 0 = (activeLagrange d).getD v 0) ∧
      ∀ k < p, r.getD (n + k) 0 = if d.act.getD k false = true then d.cstr.getD k 0 else 0 := by
  obtain ⟨c, h1, h2, h3⟩ := scatter_select d.act d.cstr (h.act.trans h.cstr.symm)
  have hl : (activeLagrange d).length = n := (activeLagrange_length d).trans h.grad
  refine ⟨activeLagrange d ++ c, by rw [hvnRow, h1]; rfl, ?_, by rw [List.length_append, hl, h2, h.act], ?_, ?_⟩
  · rw [← activeLagrange_length d, scatter_prefix, h1]; rfl
  · intro v hv
    rw [List.getD_append _ _ _ _ (by omega)]
  · intro k hk
    rw [List.getD_append_right _ _ _ _ (by omega), hl, Nat.add_sub_cancel_left, h3]

end Verif.Opt
