import Verif.Opt.PointsLemmas

/-!
# The first-order conditions of one point and their Newton equations

In terms of the callbacks at a point, for C69 and C71.
-/

namespace Verif.Props

open Verif.Opt Verif.Util Verif.HV

variable {K : Type*} [Field K] [LinearOrder K] [IsStrictOrderedRing K] [Inhabited K]

/-- The value of constraint `k` at a point with variables `q`; the equalities come first. -/
def cVal (p : Funcs K) (q : List K) (k : ℕ) : K := pt (p.rowCstr q) k

/-- The partial derivatives of constraint `k`, as given by the callbacks. -/
def cGrad (p : Funcs K) (q : List K) (k v : ℕ) : K := pt (p.rowGrad q) (k * p.nVar + v)

/-- The second derivatives of constraint `k`, as given by the callbacks (zero if there are none). -/
def cHess (p : Funcs K) (q : List K) (k v w : ℕ) : K := pt (p.rowHess q) ((k * p.nVar + v) * p.nVar + w)

/-- Constraint `k` is taken as active: all equalities, and the inequalities that are violated or hold with a margin of at
most `10⁻⁴`. -/
def IsActive (p : Funcs K) (q : List K) (k : ℕ) : Prop := k < p.nEq ∨ -(1 / 10 ^ 4) ≤ cVal p q k

instance (p : Funcs K) (q : List K) (k : ℕ) : Decidable (IsActive p q k) := by unfold IsActive; infer_instance

/-- `r` is the residual at the row `x` of variables and multipliers, for an indicator with gradient `G`: the gradient
of the Lagrangian of the active constraints, and their values. -/
def KktResidual (p : Funcs K) (x : List K) (G r : ℕ → K) : Prop :=
  (∀ v < p.nVar, r v = G v + ∑ k ∈ Finset.range p.nDual,
    if IsActive p (x.take p.nVar) k then pt x (p.nVar + k) * cGrad p (x.take p.nVar) k v else 0) ∧
  ∀ k < p.nDual, r (p.nVar + k) = if IsActive p (x.take p.nVar) k then cVal p (x.take p.nVar) k else 0

/-- The step `s` cancels the residual to first order: `HS v` is the first-order change of entry `v` of the indicator's
gradient. The multipliers of inactive constraints stay. -/
def KktNewton (p : Funcs K) (x : List K) (G HS s : ℕ → K) : Prop :=
  (∀ v < p.nVar, HS v +
      ∑ w ∈ Finset.range p.nVar, (∑ k ∈ Finset.range p.nDual,
        if IsActive p (x.take p.nVar) k then pt x (p.nVar + k) * cHess p (x.take p.nVar) k v w else 0) * s w +
      ∑ k ∈ Finset.range p.nDual, (if IsActive p (x.take p.nVar) k then cGrad p (x.take p.nVar) k v * s (p.nVar + k) else 0) =
    -(G v + ∑ k ∈ Finset.range p.nDual,
      if IsActive p (x.take p.nVar) k then pt x (p.nVar + k) * cGrad p (x.take p.nVar) k v else 0)) ∧
  ∀ k < p.nDual, IsActive p (x.take p.nVar) k → ∑ w ∈ Finset.range p.nVar, cGrad p (x.take p.nVar) k w * s w = -cVal p (x.take p.nVar) k

theorem at2_table {m k i j : ℕ} {f : ℕ → ℕ → K} (hi : i < m) (hj : j < k) :
    at2 ((List.range m).map fun b => (List.range k).map fun c => f b c) i j = f i j := by
  simp [at2, List.getD_eq_getElem?_getD, hi, hj]

/-- `A` is the table with `N * n` rows and columns of the second derivatives `H` of `N` points with `n` variables. -/
def TableOf (N n : ℕ) (H : ℕ → ℕ → ℕ → ℕ → K) (A : List (List K)) : Prop :=
  IsMat (N * n) (N * n) A ∧
    ∀ i < N, ∀ v < n, ∀ j < N, ∀ w < n, at2 A (i * n + v) (j * n + w) = H i v j w

/-- The second derivatives are symmetric. -/
def SymmetricIn (N n : ℕ) (H : ℕ → ℕ → ℕ → ℕ → K) : Prop :=
  ∀ i < N, ∀ v < n, ∀ j < N, ∀ w < n, H i v j w = H j w i v

theorem isMat_ext {m k : ℕ} {A B : List (List K)} (hA : IsMat m k A) (hB : IsMat m k B)
    (h : ∀ i < m, ∀ j < k, at2 A i j = at2 B i j) : A = B := by
  refine List.ext_getElem (hA.1.trans hB.1.symm) fun i h1 h2 => ?_
  have e1 := hA.2 _ (List.getElem_mem h1)
  have e2 := hB.2 _ (List.getElem_mem h2)
  refine List.ext_getElem (e1.trans e2.symm) fun j h3 h4 => ?_
  have := h i (hA.1 ▸ h1) j (e1 ▸ h3)
  rw [at2, at2, List.getD_eq_getElem A _ h1, List.getD_eq_getElem B _ h2, List.getD_eq_getElem _ _ h3,
    List.getD_eq_getElem _ _ h4] at this
  exact this

theorem flat_index {N n b : ℕ} (hb : b < N * n) : b / n < N ∧ b % n < n ∧ b / n * n + b % n = b := by
  have hn : 0 < n := Nat.pos_of_ne_zero fun h => by simp [h] at hb
  exact ⟨Nat.div_lt_of_lt_mul (by rwa [Nat.mul_comm]), Nat.mod_lt _ hn, Nat.div_add_mod' b n⟩

theorem TableOf.unique {N n : ℕ} {H : ℕ → ℕ → ℕ → ℕ → K} {A B : List (List K)} (hA : TableOf N n H A)
    (hB : TableOf N n H B) : A = B := by
  refine isMat_ext hA.1 hB.1 fun b hb c hc => ?_
  obtain ⟨b1, b2, b3⟩ := flat_index hb
  obtain ⟨c1, c2, c3⟩ := flat_index hc
  have e1 := hA.2 _ b1 _ b2 _ c1 _ c2
  have e2 := hB.2 _ b1 _ b2 _ c1 _ c2
  rw [b3, c3] at e1 e2
  rw [e1, e2]

theorem TableOf.exists (N n : ℕ) (H : ℕ → ℕ → ℕ → ℕ → K) : ∃ A, TableOf N n H A := by
  refine ⟨(List.range (N * n)).map fun b => (List.range (N * n)).map fun c => H (b / n) (b % n) (c / n) (c % n),
    ⟨by simp, fun x hx => ?_⟩, fun i hi v hv j hj w hw => ?_⟩
  · obtain ⟨b, -, rfl⟩ := List.mem_map.mp hx
    simp
  · have e : ∀ i v : ℕ, v < n → (i * n + v) / n = i ∧ (i * n + v) % n = v := fun i v hv => by
      rw [Nat.mul_comm i n, Nat.mul_add_div (by omega), Nat.mul_add_mod, Nat.div_eq_of_lt hv, Nat.mod_eq_of_lt hv]
      exact ⟨rfl, rfl⟩
    rw [at2_table (f := fun b c => H (b / n) (b % n) (c / n) (c % n)) (by nlinarith) (by nlinarith), (e i v hv).1,
      (e i v hv).2, (e j w hw).1, (e j w hw).2]

theorem isActive_iff {p : Funcs K} {nObj : ℕ} (hp : p.Ok nObj) {q : List K} (hq : q.length = p.nVar) {k : ℕ}
    (hk : k < p.nEq + p.nIeq) : (p.rowActive q).getD k false = true ↔ IsActive p q k := by
  unfold Funcs.rowActive IsActive cVal Funcs.rowCstr pt
  rcases lt_or_ge k p.nEq with h | h
  · rw [List.getD_append _ _ _ _ (by simpa using h)]
    simp [h, List.getD_eq_getElem?_getD]
  · have hh := valOf_length hp.h hq
    have hg := valOf_length hp.g hq
    rw [List.getD_append_right _ _ _ _ (by simpa using h), List.getD_append_right _ _ _ _ (by rw [hh]; exact h), hh,
      List.length_replicate, List.getD_eq_getElem _ _ (by rw [List.length_map, hg]; omega), List.getElem_map,
      List.getD_eq_getElem _ _ (by rw [hg]; omega)]
    simp only [decide_eq_true_eq, ge_iff_le]
    exact ⟨Or.inr, fun o => o.resolve_left (by omega)⟩

section

variable {p : Funcs K} {nObj : ℕ} {x : List K} {d : NewtonPoint K}

theorem PointOf.active (hp : p.Ok nObj) (hx : x.length = p.nVar + p.nDual) (h : p.PointOf x d) {k : ℕ}
    (hk : k < p.nDual) : d.act.getD k false = true ↔ IsActive p (x.take p.nVar) k := by
  rw [h.act k hk]
  refine isActive_iff hp (by rw [List.length_take]; omega) (lt_of_lt_of_le hk ?_)
  unfold Funcs.nDual
  split <;> omega

/-- The Newton equations of the model in terms of the callbacks. -/
theorem kktNewton_iff (hp : p.Ok nObj) (hx : x.length = p.nVar + p.nDual) (h : p.PointOf x d) {G : ℕ → K}
    (hG : ∀ v < p.nVar, d.grad.getD v 0 = G v) (HS s : ℕ → K) :
    NewtonEquations true p.nVar p.nDual d HS s ↔ KktNewton p x G HS s := by
  unfold NewtonEquations KktNewton cGrad cHess cVal
  refine and_congr (forall₂_congr fun v hv => ?_) (forall₂_congr fun k hk => ?_)
  · have e1 : ∀ w < p.nVar, (∑ k ∈ Finset.range p.nDual, if d.act.getD k false = true then
        d.dual.getD k 0 * ((d.ddH.getD k []).getD v []).getD w 0 else 0) =
        ∑ k ∈ Finset.range p.nDual, if IsActive p (x.take p.nVar) k then
          pt x (p.nVar + k) * pt (p.rowHess (x.take p.nVar)) ((k * p.nVar + v) * p.nVar + w) else 0 := fun w hw =>
      Finset.sum_congr rfl fun k hk => by
        have hk := Finset.mem_range.mp hk
        rw [h.dual k hk, h.ddH k hk v hv w hw]
        exact if_congr (PointOf.active hp hx h hk) rfl rfl
    have e2 : (∑ k ∈ Finset.range p.nDual, if d.act.getD k false = true then
        (d.dH.getD k []).getD v 0 * s (p.nVar + k) else 0) =
        ∑ k ∈ Finset.range p.nDual, if IsActive p (x.take p.nVar) k then
          pt (p.rowGrad (x.take p.nVar)) (k * p.nVar + v) * s (p.nVar + k) else 0 :=
      Finset.sum_congr rfl fun k hk => by
        have hk := Finset.mem_range.mp hk
        rw [h.dH k hk v hv]
        exact if_congr (PointOf.active hp hx h hk) rfl rfl
    have e3 : (∑ k ∈ Finset.range p.nDual, if d.act.getD k false = true then
        d.dual.getD k 0 * (d.dH.getD k []).getD v 0 else 0) =
        ∑ k ∈ Finset.range p.nDual, if IsActive p (x.take p.nVar) k then
          pt x (p.nVar + k) * pt (p.rowGrad (x.take p.nVar)) (k * p.nVar + v) else 0 :=
      Finset.sum_congr rfl fun k hk => by
        have hk := Finset.mem_range.mp hk
        rw [h.dual k hk, h.dH k hk v hv]
        exact if_congr (PointOf.active hp hx h hk) rfl rfl
    rw [hG v hv, e2, e3, if_pos rfl, Finset.sum_congr rfl fun w hw => by rw [e1 w (Finset.mem_range.mp hw)]]
  · rw [PointOf.active hp hx h hk, h.cstr k hk,
      Finset.sum_congr rfl fun w hw => by rw [h.dH k hk w (Finset.mem_range.mp hw)]]

/-- The residual of the model in terms of the callbacks. -/
theorem kktResidual_of (hp : p.Ok nObj) (hx : x.length = p.nVar + p.nDual) (h : p.PointOf x d)
    (hs : d.Shape p.nVar p.nDual) {G : ℕ → K} (hG : ∀ v < p.nVar, d.grad.getD v 0 = G v) {r : List K}
    (h1 : ∀ v < p.nVar, r.getD v 0 = (activeLagrange d.toPointData).getD v 0)
    (h2 : ∀ k < p.nDual, r.getD (p.nVar + k) 0 = if d.act.getD k false = true then d.cstr.getD k 0 else 0) :
    KktResidual p x G (pt r) := by
  unfold KktResidual cGrad cVal
  refine ⟨fun v hv => ?_, fun k hk => ?_⟩
  · unfold pt
    rw [h1 v hv, activeLagrange_getD hs.base hv, hG v hv]
    congr 1
    refine Finset.sum_congr rfl fun k hk => ?_
    have hk := Finset.mem_range.mp hk
    rw [h.dual k hk, h.dH k hk v hv]
    exact if_congr (PointOf.active hp hx h hk) rfl rfl
  · have := h2 k hk
    unfold pt at *
    rw [this, h.cstr k hk]
    exact if_congr (PointOf.active hp hx h hk) rfl rfl

/-- The rows of `R` of `HVN`, with and without constraints. -/
theorem hvnR_rows {c : Bool} {n m : ℕ} {ds : List (NewtonPoint K)} (h : ∀ d ∈ ds, d.Shape n m) (hc : c = false → m = 0) :
    ∃ R, hvnR c (ds.map NewtonPoint.toPointData) = some R ∧ R.length = ds.length ∧ ∀ i (hi : i < ds.length),
      (R.getD i []).length = n + m ∧ (∀ v < n, (R.getD i []).getD v 0 = (activeLagrange ds[i].toPointData).getD v 0) ∧
      ∀ k < m, (R.getD i []).getD (n + k) 0 = if ds[i].act.getD k false = true then ds[i].cstr.getD k 0 else 0 := by
  cases c with
  | false =>
    obtain rfl := hc rfl
    refine ⟨_, rfl, by simp, fun i hi => ?_⟩
    have e : ((ds.map NewtonPoint.toPointData).map PointData.grad).getD i [] = ds[i].grad := by
      rw [List.getD_eq_getElem _ _ (by simpa using hi)]; simp
    rw [e]
    refine ⟨(h _ (List.getElem_mem hi)).base.grad, fun v hv => ?_, fun k hk => by omega⟩
    rw [activeLagrange_getD (h _ (List.getElem_mem hi)).base hv]
    simp
  | true =>
    obtain ⟨R, h1, h2⟩ := mapM_exists (f := hvnRow) (l := ds.map NewtonPoint.toPointData)
      (P := fun d r => r.length = n + m ∧ (∀ v < n, r.getD v 0 = (activeLagrange d).getD v 0) ∧
        ∀ k < m, r.getD (n + k) 0 = if d.act.getD k false = true then d.cstr.getD k 0 else 0) (by
        intro d' hd'
        obtain ⟨d, hd, rfl⟩ := List.mem_map.mp hd'
        obtain ⟨r, r1, -, r2⟩ := row_spec (h d hd).base
        exact ⟨r, r1, r2⟩)
    have hl := h2.length_eq
    rw [List.length_map] at hl
    refine ⟨R, h1, hl.symm, fun i hi => ?_⟩
    have := (List.forall₂_iff_get.mp h2).2 i (by simpa using hi) (by omega)
    rw [List.getD_eq_getElem _ _ (by omega)]
    simpa using this

end

/-- The multipliers: one for each value of the constraints that are given, equalities and inequalities. -/
theorem C69_multipliers {p : Funcs K} {nObj : ℕ} (hp : p.Ok nObj) (hh : p.h = none → p.nEq = 0)
    (hg : p.g = none → p.nIeq = 0) {q : List K} (hq : q.length = p.nVar) :
    p.nDual = ((p.h.map fun c => c.point q).getD [] ++ (p.g.map fun c => c.point q).getD []).length := by
  have e1 : ((p.h.map fun c => c.point q).getD []).length = p.nEq := by
    cases h : p.h with
    | none => simp [hh h]
    | some c => exact (hp.h c h).size q hq
  have e2 : ((p.g.map fun c => c.point q).getD []).length = p.nIeq := by
    cases h : p.g with
    | none => simp [hg h]
    | some c => exact (hp.g c h).size q hq
  rw [List.length_append, e1, e2, Funcs.nDual, Funcs.constrained]
  split
  · rfl
  · rename_i h
    simp only [Bool.or_eq_true, not_or, Option.not_isSome_iff_eq_none] at h
    rw [hh h.1, hg h.2]

/-- One inequality. -/
example : (⟨1, 0, 1, ⟨fun x => x, none⟩, ⟨fun _ => [1], none⟩, none, none, none, some ⟨fun x => x, none⟩, some ⟨fun _ => [1], none⟩,
    none⟩ : Funcs ℚ).nDual = 1 := by decide

end Verif.Props
