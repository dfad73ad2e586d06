import Verif.Opt.DpNRef
import Verif.Opt.PointsLemmas
import Verif.Props.Kkt
import Verif.Props.BoxStep
import Verif.Props.Newton

/-!
# The parts of an iteration of `DpN` return
-/

set_option linter.unusedSectionVars false

namespace Verif.Props

open Verif.Opt Verif.Ind Verif.HV

variable {K : Type*} [Field K] [LinearOrder K] [IsStrictOrderedRing K]

/-- `T` are the targets of the points `Y` among `M`: with the generational distance each point has a closest one, with
the inverted one all are distributed with the smallest total distance. -/
def Targets (dist : (ℕ → K) → (ℕ → K) → K) (useGd : Bool) (Y M T : List (ℕ → K)) : Prop :=
  T.length = Y.length ∧ if useGd then
    ∀ i < Y.length, T.getD i 0 ∈ M ∧ ∀ r ∈ M, dist (Y.getD i 0) (T.getD i 0) ≤ dist (Y.getD i 0) r
  else T.Perm M ∧ ∀ T', T'.Perm M → (List.zipWith dist Y T).sum ≤ (List.zipWith dist Y T').sum

end Verif.Props

namespace Verif.Opt

open Verif.Ind Verif.Util Verif.HV Verif.Props

variable {K : Type*} [Field K] [LinearOrder K] [IsStrictOrderedRing K]

/-- The direction of the component of a set with one component. -/
theorem Paired.comp {S : RefSet (ℕ → K)} {M : List (ℕ → K)} (h : Paired S M) {i : ℕ} (hi : i < M.length) :
    ∃ t, S.medoidsIdx[i]? = some (some (0, t)) := ⟨i, by simp [h.idx, hi]⟩

/-- The shift of the matched targets. -/
theorem dpnShift_paired (dist : (ℕ → K) → (ℕ → K) → K) {S : RefSet (ℕ → K)} {M Y : List (ℕ → K)} {N : ℕ}
    (hS : OneRef S N) (h : Paired S M) (hM : M.length = Y.length) (iter : ℕ) {stepNorm : List K}
    (hst : iter ≠ 0 → stepNorm.length = Y.length) (hist : ℕ → List (ℕ → K)) :
    ∃ S' M' hist', dpnShift dist iter Y.length Y stepNorm S hist = some (S', hist') ∧ Paired S' M' ∧ OneRef S' N ∧
      S'.ref = S.ref ∧ S'.eta = S.eta ∧
      M'.length = Y.length ∧ ShiftedBy (if iter = 0 then 8 / 100 else 5 / 100 : K)
        (fun i => iter = 0 ∨ AtRest dist Y M stepNorm i) S.eta (fun _ => 0) M M' hist hist' := by
  have he : S.eta.length = S.ref.length := by
    obtain ⟨C, hC, -⟩ := hS.ref
    rw [hS.eta, hC]; rfl
  have hR := h.referenceSet
  obtain ⟨m, a1, a2, a3⟩ : ∃ m, dpnShiftMask dist iter M.length Y M stepNorm = some m ∧ m.length = M.length ∧
      ∀ i < M.length, (m[i]? = some true ↔ (iter = 0 ∨ AtRest dist Y M stepNorm i)) := by
    by_cases hi : iter = 0
    · exact ⟨List.replicate M.length true, by rw [dpnShiftMask, if_pos hi], by simp, fun i hi' => by simp [hi', hi]⟩
    · obtain ⟨m, a1, a2, a3⟩ := dpnShiftMask_spec (dist := dist) hi hM.symm (by rw [hM]; exact hst hi)
      exact ⟨m, a1, a2, fun i hi' => by rw [a3 i hi']; simp [hi]⟩
  obtain ⟨S', M', hist', h1, h2, h3, h4, h6, h7, -, h5⟩ := shiftMasked_spec
    (c := (if iter = 0 then 8 / 100 else 5 / 100 : K)) (hist := hist) (comp := fun _ => 0)
    (h.synced hS) h.matched he a2 (fun i hi => h.comp hi) a3
  have hsh : S.shift (if iter = 0 then 8 / 100 else 5 / 100 : K) (some (nonzero m)) = some S' := by
    unfold shiftMasked at h1
    obtain ⟨S1, e1, e2⟩ := Option.bind_eq_some_iff.mp h1
    obtain ⟨hh, -, e3⟩ := Option.map_eq_some_iff.mp e2
    rw [e1, (Prod.mk.inj e3).1]
  obtain ⟨M1, p1, p2, p3⟩ := shift_paired hS h hsh
  obtain rfl : M1 = M' := Option.some.inj (p1.matched.symm.trans h2)
  refine ⟨S', M1, hist', ?_, p1, p3, h6, h7, p2.trans hM, h5⟩
  unfold dpnShift
  rw [hR, ← hM, a1, Option.bind_some, h1]

namespace Dpn

variable {a : Dpn K}

/-- What is assumed: consistent callbacks, bounds for all variables, the contracts of the matching and of the solver,
and the Euclidean norm. -/
structure Ok (a : Dpn K) : Prop where
  funcs : a.p.Ok a.nObj
  env : a.env.Sound
  xl : a.xl.length = a.p.nVar
  xu : a.xu.length = a.p.nVar
  solve : ∀ A b, IsMat b.length b.length A → (a.solve A b).length = b.length
  precond : ∀ m A, IsMat m m A → IsMat m m (a.precond A)
  norm : ∀ l, a.norm l = a.sqrt (l.map (· ^ 2)).sum
  jac : a.p.constrained = true → a.p.hasJac

theorem min_exists {α : Type*} (f : α → K) {R : List α} (h : R ≠ []) :
    ∃ m, (R.map f).min? = some m ∧ (∃ r ∈ R, f r = m) ∧ ∀ r ∈ R, m ≤ f r := by
  cases hm : (R.map f).min? with
  | none => simp [List.min?_eq_none_iff, h] at hm
  | some m =>
    obtain ⟨h1, h2⟩ := List.min?_eq_some_iff.mp hm
    exact ⟨m, rfl, by simpa using h1, fun r hr => h2 _ (List.mem_map_of_mem hr)⟩

/-- The generational distance: the root mean square of the smallest distances. -/
theorem gdValue_spec {S : RefSet (ℕ → K)} (hR : S.referenceSet ≠ []) (Y : List (ℕ → K)) :
    ∃ D, a.gdValue S Y = some (a.sqrt ((D.map (· ^ 2)).sum / (Y.length : K))) ∧
      List.Forall₂ (fun y d => (∃ r ∈ S.referenceSet, a.env.dist y r = d) ∧ ∀ r ∈ S.referenceSet, d ≤ a.env.dist y r)
        Y D := by
  obtain ⟨D, h1, h2⟩ := mapM_exists (f := fun y => (S.referenceSet.map fun r => a.env.dist y r).min?)
    (P := fun y d => (∃ r ∈ S.referenceSet, a.env.dist y r = d) ∧ ∀ r ∈ S.referenceSet, d ≤ a.env.dist y r) (l := Y)
    (fun y _ => min_exists _ hR)
  exact ⟨D, by rw [gdValue, h1, Option.map_some], h2⟩

/-- A closest target. -/
theorem closest_spec {S : RefSet (ℕ → K)} (hR : S.referenceSet ≠ []) (y : ℕ → K) :
    ∃ r, a.closest S y = some r ∧ r ∈ S.referenceSet ∧ ∀ r' ∈ S.referenceSet, a.env.dist y r ≤ a.env.dist y r' := by
  obtain ⟨m, h1, h2, h3⟩ := min_exists (fun r => a.env.dist y r) hR
  have hmem : m ∈ S.referenceSet.map fun r => a.env.dist y r := by
    obtain ⟨r, hr, e⟩ := h2
    exact List.mem_map.mpr ⟨r, hr, e⟩
  have hlt := List.idxOf_lt_length_of_mem hmem
  have hlt' := hlt
  rw [List.length_map] at hlt'
  refine ⟨_, by rw [closest, h1, Option.bind_some, List.getElem?_eq_getElem hlt'], List.getElem_mem _, fun r' hr' => ?_⟩
  have := List.getElem_idxOf hlt
  rw [List.getElem_map] at this
  rw [this]
  exact h3 r' hr'

/-- The differences to the targets. -/
theorem diffs_spec (ha : a.Ok) (useGd : Bool) {S : RefSet (ℕ → K)} {M Y : List (ℕ → K)} (hS : OneRef S Y.length)
    (h : Paired S M) (hM : M.length = Y.length) (hY : 0 < Y.length) :
    ∃ S' M' T, a.diffs useGd S Y = some (S', List.zipWith (fun y r k => y k - r k) Y T) ∧
      OneRef S' Y.length ∧ Paired S' M' ∧ M'.Perm M ∧ S'.ref = S.ref ∧ S'.eta = S.eta ∧
      Targets a.env.dist useGd Y M T := by
  have hR := h.referenceSet
  cases useGd with
  | true =>
    have hne : S.referenceSet ≠ [] := by
      rw [hR]; exact List.ne_nil_of_length_pos (by omega)
    obtain ⟨T, h1, h2⟩ := mapM_exists (f := a.closest S) (l := Y)
      (P := fun y r => r ∈ S.referenceSet ∧ ∀ r' ∈ S.referenceSet, a.env.dist y r ≤ a.env.dist y r')
      (fun y _ => closest_spec hne y)
    refine ⟨S, M, T, by rw [diffs, if_pos rfl, h1, Option.map_some], hS, h, List.Perm.refl _, rfl, rfl,
      h2.length_eq.symm, ?_⟩
    rw [if_pos rfl]
    intro i hi
    have hi' : i < T.length := by rw [← h2.length_eq]; exact hi
    have := (List.forall₂_iff_get.mp h2).2 i hi hi'
    rw [hR] at this
    rw [List.getD_eq_getElem _ _ hi', List.getD_eq_getElem _ _ hi]
    exact this
  | false =>
    obtain ⟨S', M', h1, h2, h3, h4, h5, h6, h7, -, h8⟩ := match_one ha.env hS hY
    have hp := h7 M h.medoids hM
    refine ⟨S', M', M', ?_, h3, h2, hp, h4, h5, h6, ?_⟩
    · rw [diffs, if_neg (by simp), h1, Option.bind_some, minusRef, h2.referenceSet, if_pos h6, Option.map_some]
    · rw [if_neg (by simp)]
      exact ⟨hp, fun T' hT' => h8 T' (hT'.trans hp.symm)⟩

/-- The inverted generational distance with matching: the mean square of the distances to the own targets. -/
theorem igdValue_spec (ha : a.Ok) {S : RefSet (ℕ → K)} {Y : List (ℕ → K)} (hS : OneRef S Y.length) (hY : 0 < Y.length) :
    ∃ S' M, a.igdValue S Y = some (S', (∑ i ∈ Finset.range Y.length, ∑ k ∈ Finset.range a.nObj,
        (Y.getD i 0 k - M.getD i 0 k) ^ 2) / (Y.length : K)) ∧
      OneRef S' Y.length ∧ Paired S' M ∧ S'.ref = S.ref ∧ S'.eta = S.eta ∧ M.length = Y.length ∧
      (∀ old, S.medoids = [some old] → old.length = Y.length → M.Perm old) ∧
      ((∀ old, S.medoids = [some old] → old.length ≠ Y.length) → M.Subperm S.ref.flatten) ∧
      ∀ M', M'.Perm M → (List.zipWith a.env.dist Y M).sum ≤ (List.zipWith a.env.dist Y M').sum := by
  obtain ⟨S', M, h1, h2, h3, h4, h5, h6, h7⟩ := match_one ha.env hS hY
  refine ⟨S', M, ?_, h3, h2, h4, h5, h6, h7⟩
  rw [igdValue, h1, Option.bind_some, minusRef, h2.referenceSet, if_pos h6, Option.map_some]
  have e : ∀ l : List K, l.sum = ∑ i ∈ Finset.range l.length, l.getD i 0 := fun l => by
    rw [Finset.sum_range]
    simp [List.sum_ofFn.symm]
  rw [e, List.length_map, List.length_zipWith, h6, min_self]
  congr 3
  refine Finset.sum_congr rfl fun i hi => ?_
  have hi := Finset.mem_range.mp hi
  rw [List.getD_eq_getElem _ _ (by simp; omega), List.getElem_map, List.getElem_zipWith, List.getD_eq_getElem Y _ hi,
    List.getD_eq_getElem M _ (by omega)]
  rfl

end Dpn

end Verif.Opt
