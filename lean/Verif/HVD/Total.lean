import Verif.HV.Total
import Verif.HVD.Code
import Verif.HVD.Decision

/-!
# The derivatives return a value for every population

No position, range or tie is excluded; the recursion limit has to suffice for the non-dominated sorting.
-/

namespace Verif.HVD

open Verif.HV Verif.NDS

variable {K : Type*} [Field K] [LinearOrder K] [IsStrictOrderedRing K]

theorem mapM_total {α β : Type*} {f : α → Option β} {P : β → Prop} {l : List α}
    (h : ∀ a ∈ l, ∃ b, f a = some b ∧ P b) : ∃ r, l.mapM f = some r ∧ r.length = l.length ∧ ∀ b ∈ r, P b := by
  induction l with
  | nil => exact ⟨[], rfl, rfl, by simp⟩
  | cons a l ih =>
    obtain ⟨b, hb, hP⟩ := h a (by simp)
    obtain ⟨r, hr, hl, hQ⟩ := ih (fun a ha => h a (by simp [ha]))
    refine ⟨b :: r, ?_, by simp [hl], ?_⟩
    · rw [List.mapM_cons, hb, hr]; rfl
    · intro x hx
      rcases List.mem_cons.mp hx with rfl | hx
      · exact hP
      · exact hQ x hx

theorem sel_length_le {α : Type*} (a : List α) (idx : List ℕ) : (sel a idx).length ≤ idx.length :=
  List.length_filterMap_le _ _

theorem nodup_length_le' {idx : List ℕ} {n : ℕ} (hn : idx.Nodup) (hv : ∀ j ∈ idx, j < n) : idx.length ≤ n := by
  have := (hn.subperm (l₂ := List.range n) fun j hj => List.mem_range.mpr (hv j hj)).length_le
  simpa using this

theorem improvement_total {argsort : List K → List ℕ} (ha : IsArgsort argsort) {d : ℕ} (hd : 0 < d) (x : ℕ → K)
    (front : List (ℕ → K)) (ref : ℕ → K) : ∃ v, hypervolumeImprovement argsort d x front ref = some v := by
  obtain ⟨a, e1⟩ := compute_total ha hd (x :: front) ref
  obtain ⟨b, e2⟩ := compute_total ha hd front ref
  exact ⟨a - b, by simp [hypervolumeImprovement, hypervolume, e1, e2]⟩

theorem hypervolumeDY_total {argsort : List K → List ℕ} (ha : IsArgsort argsort) {fuel d : ℕ} (P : List (ℕ → K))
    (ref : ℕ → K) (hf : depthBound d P.length ≤ fuel) : ∃ g, hypervolumeDY argsort fuel d P ref = some g := by
  unfold hypervolumeDY
  by_cases h1 : d = 1
  · rw [if_pos h1]; exact ⟨_, rfl⟩
  rw [if_neg h1]
  by_cases h2 : d = 2
  · rw [if_pos h2]; exact ⟨_, rfl⟩
  rw [if_neg h2]
  obtain ⟨r, e, -⟩ := mapM_total (P := fun _ => True) (l := List.range P.length)
    (f := fun i => ((List.range d).mapM fun k => dYEntry argsort fuel d P ref i k).map pt) (by
      intro i hi
      obtain ⟨r, e, -⟩ := mapM_total (P := fun _ => True) (l := List.range d)
        (f := fun k => dYEntry argsort fuel d P ref i k) (by
          intro k hk
          have hk' := List.mem_range.mp hk
          obtain ⟨pr, e, -⟩ := project_spec (k := k) (ref := ref) (by omega : 2 ≤ d) (List.mem_range.mp hi) hf
          obtain ⟨v, hv⟩ := improvement_total ha (by omega : 0 < d - 1) pr.y pr.front pr.ref
          exact ⟨-1 * v, by simp [dYEntry, e, hv], trivial⟩)
      exact ⟨pt r, by simp only [e, Option.map_some], trivial⟩)
  exact ⟨r, e⟩

theorem gradientY_total {argsort : List K → List ℕ} (ha : IsArgsort argsort) {fuel d : ℕ} (hd : 1 ≤ d)
    {Y : List (ℕ → K)} (hY : Y ≠ []) (ref : ℕ → K) (hf : depthBound d Y.length ≤ fuel) :
    ∃ g, gradientY argsort fuel d Y ref = some g ∧ g.length = Y.length := by
  obtain ⟨nd, e, hF⟩ := front0_spec hd hY hf
  have hl := nodup_length_le' hF.nodup hF.valid
  obtain ⟨g, hg⟩ := hypervolumeDY_total (d := d) ha (sel Y nd) ref
    ((depthBound_mono le_rfl ((sel_length_le _ _).trans hl)).trans hf)
  unfold gradientY
  rw [e]
  dsimp only
  rw [hg]
  exact ⟨_, rfl, by simp⟩

theorem hessianColumn_total {argsort : List K → List ℕ} (ha : IsArgsort argsort) {fuel d : ℕ} (hd : 2 ≤ d)
    {Y : List (ℕ → K)} (ref : ℕ → K) (hf : depthBound d Y.length ≤ fuel) {nd : List ℕ} (hF : IsFront0 d Y nd)
    {i k : ℕ} (hi : i < Y.length) (hk : k < d) : ∃ c, hessianColumn argsort fuel d Y ref nd i k = some c := by
  unfold hessianColumn
  by_cases hnd : i ∈ nd
  swap
  · rw [if_pos hnd]; exact ⟨_, rfl⟩
  rw [if_neg (not_not.mpr hnd)]
  obtain ⟨pr, e, hp⟩ := project_spec (k := k) (ref := ref) hd hi hf
  have hl : (i :: pr.idx).length ≤ Y.length := nodup_length_le' (List.nodup_cons.mpr ⟨fun h => lt_irrefl _ (hp.valid i h).2, hp.nodup⟩) (by
    intro j hj
    rcases List.mem_cons.mp hj with rfl | hj
    · exact hi
    · exact (hp.valid j hj).1)
  have hl' : (pr.y :: pr.front).length ≤ Y.length := by
    rw [List.length_cons, hp.front, List.length_map]
    exact hl
  rw [e]
  dsimp only
  have hb : depthBound (d - 1) (pr.y :: pr.front).length ≤ fuel := (depthBound_mono (by omega) hl').trans hf
  obtain ⟨g, hg, -⟩ := gradientY_total ha (by omega : 1 ≤ d - 1) (Y := pr.y :: pr.front) (by simp) pr.ref hb
  rw [ownBlock_eq _ _ _ _ _ fun pi => own_mem_front0 hp hd hk (hF.minimal i hnd) hb, hg]
  obtain ⟨out, hout⟩ := hypervolumeDY_total (d := d - 1) ha (pr.front.map (clip pr.y pr.ref)) pr.ref
    ((depthBound_mono (by omega) (by rw [List.length_map]; rw [List.length_cons] at hl'; omega)).trans hf)
  simp only [Option.map_some]
  unfold crossBlock
  rw [hout]
  exact ⟨_, rfl⟩

theorem hessianY_total {argsort : List K → List ℕ} (ha : IsArgsort argsort) {fuel d : ℕ} (hd : 2 ≤ d)
    {Y : List (ℕ → K)} (hY : Y ≠ []) (ref : ℕ → K) (hf : depthBound d Y.length ≤ fuel) :
    ∃ H, hessianY argsort fuel d Y ref = some H ∧ H.length = Y.length ∧ ∀ r ∈ H, r.length = d := by
  obtain ⟨nd, e, hF⟩ := front0_spec (by omega : 1 ≤ d) hY hf
  unfold hessianY
  rw [e]
  dsimp only
  obtain ⟨H, h1, h2, h3⟩ := mapM_total (P := fun r => r.length = d) (l := List.range Y.length)
    (f := fun i => (List.range d).mapM fun k => hessianColumn argsort fuel d Y ref nd i k) (by
      intro i hi
      obtain ⟨r, e, hr, -⟩ := mapM_total (P := fun _ => True) (l := List.range d)
        (f := fun k => hessianColumn argsort fuel d Y ref nd i k) (by
          intro k hk
          obtain ⟨c, hc⟩ := hessianColumn_total ha hd ref hf hF (List.mem_range.mp hi) (List.mem_range.mp hk)
          exact ⟨c, hc, trivial⟩)
      exact ⟨r, e, by simpa using hr⟩)
  exact ⟨H, h1, by simpa using h2, h3⟩

namespace Problem

variable {p : Problem K} {argsort : List K → List ℕ} {fuel : ℕ} {X : List (ℕ → K)}

theorem computeGradient_total (ha : IsArgsort argsort) (hd : 1 ≤ p.nObj) (hX : X ≠ [])
    {Y : Option (List (ℕ → K))} (hY : ∀ y, Y = some y → y.length = X.length) (YdX : Option (ℕ → ℕ → ℕ → K))
    (hf : depthBound p.nObj X.length ≤ fuel) : ∃ r, p.computeGradient argsort fuel X Y YdX = some r := by
  have hl : (Y.getD (X.map p.func')).length = X.length := by
    cases Y with
    | none => simp
    | some y => exact hY y rfl
  have hne : Y.getD (X.map p.func') ≠ [] := by
    intro h
    rw [h] at hl
    exact hX (List.length_eq_zero_iff.mp hl.symm)
  obtain ⟨g, hg, -⟩ := gradientY_total (fuel := fuel) ha hd hne p.ref' (by rw [hl]; exact hf)
  exact ⟨_, by rw [computeGradient, hg]; rfl⟩

theorem computeHessian_total (ha : IsArgsort argsort) (hd : 2 ≤ p.nObj) (hX : X ≠ [])
    {Y : Option (List (ℕ → K))} (hY : ∀ y, Y = some y → y.length = X.length) (YdX : Option (ℕ → ℕ → ℕ → K))
    (hf : depthBound p.nObj X.length ≤ fuel) : ∃ r, p.computeHessian argsort fuel X Y YdX = some r := by
  have hl : (Y.getD (X.map p.func')).length = X.length := by
    cases Y with
    | none => simp
    | some y => exact hY y rfl
  have hne : Y.getD (X.map p.func') ≠ [] := by
    intro h
    rw [h] at hl
    exact hX (List.length_eq_zero_iff.mp hl.symm)
  obtain ⟨g, hg⟩ := computeGradient_total ha (by omega) hX hY YdX hf
  obtain ⟨H, hH, -⟩ := hessianY_total (fuel := fuel) ha hd hne p.ref' (by rw [hl]; exact hf)
  exact ⟨_, by rw [computeHessian, hg, hH]; rfl⟩

end Problem

end Verif.HVD
