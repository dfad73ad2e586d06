import Verif.Opt.Residual
import Verif.Props.Utils

/-!
# The root-finding problem of the Newton methods (C35)
-/

namespace Verif.Props

open Verif.Opt Verif.Util

set_option linter.unusedSectionVars false

section Residual

variable {K : Type*} [CommRing K]

/-- The conditions of C35 for one point with `n` variables and `p` constraints: the gradient of the indicator plus
the active gradients times the multipliers vanishes, and so do the active constraints. -/
def Stationary (n p : ℕ) (d : PointData K) : Prop :=
  (∀ v < n, d.grad.getD v 0 + ∑ k ∈ Finset.range p,
    (if d.act.getD k false = true then d.dual.getD k 0 * (d.dH.getD k []).getD v 0 else 0) = 0) ∧
  ∀ k < p, d.act.getD k false = true → d.cstr.getD k 0 = 0

theorem mapM_exists {α β : Type*} {f : α → Option β} {P : α → β → Prop} {l : List α}
    (h : ∀ a ∈ l, ∃ b, f a = some b ∧ P a b) : ∃ r, l.mapM f = some r ∧ List.Forall₂ P l r := by
  induction l with
  | nil => exact ⟨[], rfl, .nil⟩
  | cons a l ih =>
    obtain ⟨b, h1, h2⟩ := h a (by simp)
    obtain ⟨r, h3, h4⟩ := ih fun a ha => h a (by simp [ha])
    exact ⟨b :: r, by rw [List.mapM_cons, h1, h3]; rfl, .cons h2 h4⟩

/-- C35 with constraints. The three methods assemble the same matrix `R` with `n + p` columns (`DpN` in its Newton
step, from a list of rows with the active entries only). Row `i` of `R`, and also row `i` of the list of `DpN`, is
zero exactly if the conditions hold at point `i`; the entries of inactive constraints are zero. -/
theorem C35_constrained (n p : ℕ) (ds : List (PointData K)) (h : ∀ d ∈ ds, d.Shape n p) :
    ∃ R, hvnR true ds = some R ∧ mmdR true ds = some R ∧ dpnRMatrix true ds = some R ∧
      (dpnR true ds).length = ds.length ∧ IsMat ds.length (n + p) R ∧
      ∀ i (hi : i < ds.length),
        (∀ v < n, at2 R i v = ds[i].grad.getD v 0 + ∑ k ∈ Finset.range p,
          (if ds[i].act.getD k false = true then ds[i].dual.getD k 0 * (ds[i].dH.getD k []).getD v 0 else 0)) ∧
        (∀ k < p, at2 R i (n + k) = if ds[i].act.getD k false = true then ds[i].cstr.getD k 0 else 0) ∧
        ((∀ j < n + p, at2 R i j = 0) ↔ Stationary n p ds[i]) ∧
        ((∀ a ∈ (dpnR true ds).getD i [], a = 0) ↔ Stationary n p ds[i]) := by
  obtain ⟨R, h1, h2⟩ := mapM_exists (f := hvnRow) (l := ds)
    (P := fun d r => scatter (List.replicate d.grad.length true ++ d.act) (activeLagrange d ++ select d.act d.cstr) =
      some r ∧ r.length = n + p ∧ (∀ v < n, r.getD v 0 = (activeLagrange d).getD v 0) ∧
      ∀ k < p, r.getD (n + k) 0 = if d.act.getD k false = true then d.cstr.getD k 0 else 0)
    (fun d hd => row_spec (h d hd))
  have hlen : ds.length = R.length := h2.length_eq
  have hmap : ∀ {f : PointData K → Option (List K)}, (∀ d ∈ ds, ∀ r, hvnRow d = some r → f d = some r) →
      ds.mapM f = some R := by
    intro f hf
    rw [← h1]
    clear h2 hlen h1
    induction ds with
    | nil => rfl
    | cons d ds ih =>
      obtain ⟨r, e, -⟩ := row_spec (h d (by simp))
      rw [List.mapM_cons, List.mapM_cons, e, hf d (by simp) r e, ih (fun d hd => h d (by simp [hd]))
        (fun d hd => hf d (by simp [hd]))]
  have hsc : ∀ d ∈ ds, ∀ r, hvnRow d = some r →
      scatter (List.replicate d.grad.length true ++ d.act) (activeLagrange d ++ select d.act d.cstr) = some r := by
    intro d hd r hr
    obtain ⟨r', e, e', -⟩ := row_spec (h d hd)
    rw [hr] at e
    rw [Option.some.inj e]
    exact e'
  have hrow : ∀ i (hi : i < ds.length), R.getD i [] = R[i]'(by omega) := fun i hi => List.getD_eq_getElem _ _ _
  refine ⟨R, by simpa [hvnR] using h1, by simpa [mmdR] using hmap hsc, ?_, by simp [dpnR], ⟨hlen.symm, ?_⟩, ?_⟩
  · unfold dpnRMatrix dpnR
    simp only [if_true]
    rw [← hmap hsc]
    clear * -
    induction ds with
    | nil => rfl
    | cons d ds ih => rw [List.map_cons, List.zip_cons_cons, List.mapM_cons, List.mapM_cons, ih]
  · intro r hr
    obtain ⟨i, hi, rfl⟩ := List.mem_iff_getElem.mp hr
    exact (List.forall₂_iff_get.mp h2).2 i (by omega) hi |>.2.1
  · intro i hi
    obtain ⟨-, e1, e2, e3⟩ := (List.forall₂_iff_get.mp h2).2 i hi (by omega)
    simp only [List.get_eq_getElem] at e1 e2 e3
    have hs := h ds[i] (List.getElem_mem hi)
    have hA : ∀ v < n, at2 R i v = ds[i].grad.getD v 0 + ∑ k ∈ Finset.range p,
          (if ds[i].act.getD k false = true then ds[i].dual.getD k 0 * (ds[i].dH.getD k []).getD v 0 else 0) := by
      intro v hv
      unfold at2
      rw [hrow i hi, e2 v hv, activeLagrange_getD hs hv]
    have hB : ∀ k < p, at2 R i (n + k) = if ds[i].act.getD k false = true then ds[i].cstr.getD k 0 else 0 := by
      intro k hk
      unfold at2
      rw [hrow i hi, e3 k hk]
    refine ⟨hA, hB, ⟨fun h0 => ⟨fun v hv => ?_, fun k hk hact => ?_⟩, fun hst j hj => ?_⟩,
      ⟨fun h0 => ⟨fun v hv => ?_, fun k hk hact => ?_⟩, fun hst a ha => ?_⟩⟩
    · rw [← hA v hv]; exact h0 v (by omega)
    · have := h0 (n + k) (by omega)
      rwa [hB k hk, if_pos hact] at this
    · rcases Nat.lt_or_ge j n with hjn | hjn
      · rw [hA j hjn]; exact hst.1 j hjn
      · obtain ⟨k, rfl⟩ := Nat.exists_eq_add_of_le hjn
        rw [hB k (by omega)]
        split
        · rename_i hact
          exact hst.2 k (by omega) hact
        · rfl
    · have hget : (dpnR true ds).getD i [] = activeLagrange ds[i] ++ select ds[i].act ds[i].cstr := by
        simp [dpnR, List.getD_eq_getElem, hi]
      rw [hget] at h0
      rw [← activeLagrange_getD hs hv]
      have hl : v < (activeLagrange ds[i]).length := by rw [activeLagrange_length, hs.grad]; exact hv
      rw [List.getD_eq_getElem _ _ hl]
      exact h0 _ (List.mem_append_left _ (List.getElem_mem hl))
    · have hget : (dpnR true ds).getD i [] = activeLagrange ds[i] ++ select ds[i].act ds[i].cstr := by
        simp [dpnR, List.getD_eq_getElem, hi]
      rw [hget] at h0
      refine h0 _ (List.mem_append_right _ ?_)
      unfold select
      rw [List.mem_map]
      have h1 := hs.act
      have h2 := hs.cstr
      refine ⟨(ds[i].act[k]'(by omega), ds[i].cstr[k]'(by omega)), ?_, ?_⟩
      · rw [List.mem_filter]
        refine ⟨List.mem_iff_getElem.mpr ⟨k, by rw [List.length_zip]; omega, by rw [List.getElem_zip]⟩, ?_⟩
        rwa [List.getD_eq_getElem _ _ (by omega)] at hact
      · rw [List.getD_eq_getElem _ _ (by omega)]
    · have hget : (dpnR true ds).getD i [] = activeLagrange ds[i] ++ select ds[i].act ds[i].cstr := by
        simp [dpnR, List.getD_eq_getElem, hi]
      rw [hget] at ha
      rcases List.mem_append.mp ha with ha | ha
      · obtain ⟨v, hv, rfl⟩ := List.mem_iff_getElem.mp ha
        have hv' : v < n := by rwa [activeLagrange_length, hs.grad] at hv
        rw [← List.getD_eq_getElem _ 0 hv, activeLagrange_getD hs hv']
        exact hst.1 v hv'
      · unfold select at ha
        obtain ⟨⟨b, c⟩, hbc, rfl⟩ := List.mem_map.mp ha
        obtain ⟨hz, hb⟩ := List.mem_filter.mp hbc
        obtain ⟨k, hk, he⟩ := List.mem_iff_getElem.mp hz
        rw [List.length_zip] at hk
        rw [List.getElem_zip, Prod.mk.injEq] at he
        have h1 := hs.act
        have := hst.2 k (by omega) (by rw [List.getD_eq_getElem _ _ (by omega), he.1]; exact hb)
        rwa [List.getD_eq_getElem _ _ (by omega), he.2] at this

/-- C35 without constraints: `R` is the gradient of the indicator. -/
theorem C35_unconstrained (ds : List (PointData K)) :
    hvnR false ds = some (ds.map PointData.grad) ∧ mmdR false ds = some (ds.map PointData.grad) ∧
      dpnR false ds = ds.map PointData.grad ∧ dpnRMatrix false ds = some (ds.map PointData.grad) := by
  refine ⟨rfl, rfl, rfl, ?_⟩
  unfold dpnRMatrix dpnR
  simp only [Bool.false_eq_true, if_false]
  induction ds with
  | nil => rfl
  | cons d ds ih =>
    rw [List.map_cons, List.zip_cons_cons, List.mapM_cons, ih]
    have := scatter_prefix d.grad [] []
    simp only [List.append_nil] at this ⊢
    rw [this]
    simp [scatter]

/-- A point with two variables and three constraints, the second of which is not active. -/
def residualExample : List (PointData ℤ) :=
  [{ grad := [1, -2], dual := [1, 5, -1], act := [true, false, true], cstr := [0, -3, 0],
     dH := [[1, 0], [7, 7], [2, -2]] },
   { grad := [1, -2], dual := [1, 5, -1], act := [true, true, false], cstr := [1, -3, 4],
     dH := [[1, 0], [7, 7], [2, -2]] }]

example : hvnR true residualExample = some [[0, 0, 0, 0, 0], [37, 33, 1, -3, 0]] ∧
    dpnR true residualExample = [[0, 0, 0, 0], [37, 33, 1, -3]] := by decide

example : ∃ R, hvnR true residualExample = some R ∧ mmdR true residualExample = some R := by
  obtain ⟨R, h1, h2, -⟩ := C35_constrained 2 3 residualExample (by
    intro d hd
    fin_cases hd <;> exact ⟨rfl, rfl, rfl, rfl, rfl⟩)
  exact ⟨R, h1, h2⟩

end Residual

end Verif.Props
