import Verif.Opt.DpN
import Verif.Ind.RefSetLemmas
import Verif.Props.Shift

/-!
# Reference sets of one component during the iterations of `DpN`
-/

namespace Verif.Opt

open Verif.Ind Verif.Props

theorem scatter_range {α : Type*} {A V : List α} {N : ℕ} (hA : A.length = N) (hV : V.length = N) :
    Ind.scatter A (List.range N) V = some V := by
  obtain ⟨B, hB⟩ := Option.isSome_iff_exists.mp (scatter_isSome (A := A) (idx := List.range N) (V := V) (by simpa using hV)
    (by intro i hi; rw [hA]; exact List.mem_range.mp hi))
  obtain ⟨h1, h2, h3, -⟩ := scatter_eq_some List.nodup_range hB
  rw [hB]
  congr 1
  apply List.ext_getElem (by omega)
  intro i hi hi'
  have := h3 i (by simp; omega)
  rw [List.getElem_range, List.getElem?_eq_getElem hi, List.getElem?_eq_getElem hi'] at this
  exact Option.some.inj this

section

variable {P K : Type*}

/-- A reference set of one component with at least `N` points, to be matched again at every call. -/
structure OneRef (S : RefSet P) (N : ℕ) : Prop where
  ref : ∃ C, S.ref = [C] ∧ N ≤ C.length
  eta : S.eta.length = 1
  medoids : S.medoids.length = 1
  reMatch : S.reMatch = true

/-- The targets `M` are matched: one for each point. -/
structure Paired (S : RefSet P) (M : List P) : Prop where
  matched : S.matched = some M
  medoids : S.medoids = [some M]
  idx : S.medoidsIdx = (List.range M.length).map fun i => some (0, i)

theorem Paired.referenceSet {S : RefSet P} {M : List P} (h : Paired S M) : S.referenceSet = M := by
  rw [RefSet.referenceSet, h.matched]; rfl

theorem Paired.synced {S : RefSet P} {M : List P} {N : ℕ} (h : Paired S M) (hS : OneRef S N) : Synced S := by
  refine ⟨M, h.matched, by simp [h.idx], fun i hi => ⟨0, i, M, ?_, ?_, ?_, hi, rfl⟩, fun i hi j hj e => ?_⟩
  · simp [h.idx, hi]
  · obtain ⟨C, hC, -⟩ := hS.ref
    simp [hC]
  · simp [h.medoids]
  · simpa [h.idx, hi, hj] using e

variable [Field K] [LinearOrder K] [IsStrictOrderedRing K]

/-- Matching a reference set of one component. -/
theorem match_one [Zero P] {env : MatchEnv P K} (he : env.Sound) {S : RefSet P} {Y : List P} (hS : OneRef S Y.length)
    (hY : 0 < Y.length) :
    ∃ S' M, S.match env Y = some S' ∧ Paired S' M ∧ OneRef S' Y.length ∧ S'.ref = S.ref ∧ S'.eta = S.eta ∧
      M.length = Y.length ∧ (∀ old, S.medoids = [some old] → old.length = Y.length → M.Perm old) ∧
      ((∀ old, S.medoids = [some old] → old.length ≠ Y.length) → M.Subperm S.ref.flatten) ∧
      ∀ M', M'.Perm M → (List.zipWith env.dist Y M).sum ≤ (List.zipWith env.dist Y M').sum := by
  obtain ⟨C, hC, hle⟩ := hS.ref
  obtain ⟨st, hst⟩ := List.length_eq_one_iff.mp hS.medoids
  have hcl : ∃ md, cluster env C Y.length = some md := by
    unfold cluster
    split
    · exact ⟨_, rfl⟩
    · have h1 := (he.kmedoids C Y.length).1
      rw [decide_eq_true ⟨hY, hle⟩] at h1
      obtain ⟨idx, hidx⟩ := Option.isSome_iff_exists.mp h1
      obtain ⟨h2, h3, h4⟩ := (he.kmedoids C Y.length).2 idx hidx
      obtain ⟨md, hmd⟩ := exists_gather (X := C) h4
      exact ⟨md, by rw [hidx, Option.bind_some, hmd]⟩
  have hch : ∃ md0, chooseMedoids env C st Y.length = some md0 := by
    unfold chooseMedoids
    cases st with
    | none => exact hcl
    | some md =>
      dsimp only
      split
      · exact ⟨_, rfl⟩
      · exact hcl
  obtain ⟨md0, hmd0⟩ := hch
  obtain ⟨c1, c2, c3⟩ := chooseMedoids_spec he.kmedoids hmd0
  obtain ⟨M, m1, m2, m3⟩ := matchPoints_spec he.assign c1
  have hMl : M.length = Y.length := m2.length_eq.trans c1
  have hm : S.match env Y = some { S with
      yIdx := some [List.range Y.length], medoids := [some M]
      medoidsIdx := (List.range Y.length).map fun i => some (0, i), matched := some M } := by
    unfold RefSet.match
    rw [if_neg (by simp [hS.reMatch])]
    have hp : S.partition env Y = some ([List.range Y.length], [Y]) := by
      unfold RefSet.partition
      rw [if_pos (by simp [hC])]
    have hcmp : S.matchComponents env [Y] = some [0] := by
      unfold RefSet.matchComponents
      simp [hC]
    rw [hp, Option.bind_some, hcmp, Option.bind_some]
    have hstep : S.matchStep env [List.range Y.length] [Y]
        { out := List.replicate Y.length 0, idx := List.replicate Y.length none, medoids := S.medoids } (0, 0) =
        some { out := M, idx := (List.range Y.length).map fun i => some (0, i), medoids := [some M] } := by
      unfold RefSet.matchStep
      have e1 : ([Y] : List (List P))[0]? = some Y := rfl
      have e2 : S.ref[0]? = some C := by rw [hC]; rfl
      have e3 : ([List.range Y.length] : List (List ℕ))[0]? = some (List.range Y.length) := rfl
      dsimp only
      rw [e1, Option.bind_some, e2, Option.bind_some, if_neg (by omega)]
      have e4 : S.medoids.getD 0 none = st := by rw [hst]; rfl
      rw [e4, hmd0, Option.bind_some, m1, Option.bind_some, e3, Option.bind_some,
        scatter_range (by simp) hMl, Option.bind_some, List.length_range, scatter_range (by simp) (by simp),
        Option.map_some, hst]
      rfl
    simp only [List.map_cons, List.map_nil, List.sum_cons, List.sum_nil, Nat.add_zero]
    have e5 : (List.range ([0] : List ℕ).length).zip [0] = [(0, 0)] := rfl
    rw [e5, List.foldlM_cons, hstep]
    rfl
  refine ⟨_, M, hm, ⟨rfl, rfl, by rw [hMl]⟩, ⟨⟨C, hC, hle⟩, hS.eta, rfl, hS.reMatch⟩, rfl, rfl, hMl, ?_, ?_, m3⟩
  · intro old ho hl
    rw [hst] at ho
    have ho' : st = some old := by simpa using ho
    rw [← c3 old ho' hl]
    exact m2
  · intro h
    rcases c2 with c2 | c2
    · exact absurd c1 (h md0 (by rw [hst, c2]))
    · rw [hC]
      simpa using m2.subperm.trans c2

/-- A shift keeps the pairing. -/
theorem shift_paired [AddCommMonoid P] [SMul K P] {c : K} {S S' : RefSet P} {M : List P} {N : ℕ} {idx : List ℕ}
    (hS : OneRef S N) (h : Paired S M) (hs : S.shift c (some idx) = some S') :
    ∃ M', Paired S' M' ∧ M'.length = M.length ∧ OneRef S' N := by
  have key : ∀ (idx : List ℕ) (S : RefSet P) (M : List P), OneRef S N → Paired S M →
      ∀ S', idx.foldlM (RefSet.shiftOne c) S = some S' → ∃ M', Paired S' M' ∧ M'.length = M.length ∧ OneRef S' N := by
    intro idx
    induction idx with
    | nil =>
      intro S M hS h S' hs
      obtain rfl : S = S' := by simpa using hs
      exact ⟨M, h, rfl, hS⟩
    | cons k idx ih =>
      intro S M hS h S' hs
      rw [List.foldlM_cons] at hs
      cases h1 : RefSet.shiftOne c S k with
      | none => rw [h1] at hs; simp at hs
      | some S1 =>
        rw [h1] at hs
        have hs : idx.foldlM (RefSet.shiftOne c) S1 = some S' := hs
        unfold RefSet.shiftOne RefSet.setMedoids at h1
        by_cases hk : k < M.length
        · have e1 : S.medoidsIdx[k]? = some (some (0, k)) := by
            rw [h.idx, List.getElem?_map, List.getElem?_range hk, Option.map_some]
          obtain ⟨dir, hdir⟩ := List.length_eq_one_iff.mp hS.eta
          simp only [h.matched, e1, h.medoids, Option.bind_some, List.getD_cons_zero, hdir, List.getElem?_cons_zero,
            List.getElem?_eq_getElem hk, if_pos hk, Option.some.injEq] at h1
          obtain ⟨M', g1, g2, g3⟩ := ih S1 (M.set k (M[k] + c • dir))
            (by subst h1; exact ⟨hS.ref, rfl, rfl, hS.reMatch⟩)
            (by subst h1; exact ⟨rfl, rfl, by simpa using h.idx⟩) S' hs
          exact ⟨M', g1, by simpa using g2, g3⟩
        · have e1 : S.medoidsIdx[k]? = none := by
            rw [h.idx, List.getElem?_eq_none (by simpa using hk)]
          simp [h.matched, e1] at h1
  unfold RefSet.shift at hs
  rw [h.matched] at hs
  exact key idx S M hS h S' (by simpa using hs)

end

end Verif.Opt
