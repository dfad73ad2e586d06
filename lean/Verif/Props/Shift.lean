import Verif.Opt.Shift
import Verif.Props.RefSet
import Verif.NDS.NonDominatedLemmas
import Mathlib.Data.Prod.Lex
import Mathlib.Tactic.NormNum
import Mathlib.Tactic.Ring
import Mathlib.Tactic.Linarith
import Mathlib.Tactic.IntervalCases
import Mathlib.Tactic.Positivity

/-!
# C61: the shift of the reference set during the iterations; C62: cleaning the reference set
-/

set_option linter.unusedSectionVars false

namespace Verif.Props

open Verif.Ind Verif.Opt Verif.Util

variable {P K : Type*} [Field K] [LinearOrder K] [IsStrictOrderedRing K]

/-! ## Specification of C61 -/

/-- The outcome of a shift of the targets `M` that belong to the components `comp i` with the directions `eta`:
the targets with `moved i` have moved by `c` times the direction of their component, the others have not, and the
history of every point has got the new target if it has moved. -/
def ShiftedBy [Add P] [SMul K P] (c : K) (moved : ℕ → Prop) (eta : List P) (comp : ℕ → ℕ) (M M' : List P)
    (hist hist' : ℕ → List P) : Prop :=
  M'.length = M.length ∧ ∀ i, (∀ p dir, M[i]? = some p → eta[comp i]? = some dir →
      (moved i → M'[i]? = some (p + c • dir) ∧ hist' i = hist i ++ [p + c • dir]) ∧
      (¬ moved i → M'[i]? = some p ∧ hist' i = hist i)) ∧ (M.length ≤ i → hist' i = hist i)

/-- A quantity is numerically zero. -/
def Vanishes (x : K) : Prop := |x| ≤ 1 / 10 ^ 8

/-- The point `i` has come to rest at its own target. -/
def AtRest (dist : P → P → K) (Y M : List P) (stepNorm : List K) (i : ℕ) : Prop :=
  ∃ y r s, Y[i]? = some y ∧ M[i]? = some r ∧ stepNorm[i]? = some s ∧ Vanishes (dist y r) ∧ Vanishes s

/-- The point `i` has come to rest at some target. -/
def AtRestAny (dist : P → P → K) (Y M : List P) (stepNorm : List K) (i : ℕ) : Prop :=
  ∃ y r s, Y[i]? = some y ∧ r ∈ M ∧ stepNorm[i]? = some s ∧ Vanishes (dist y r) ∧ Vanishes s

/-! ## Lemmas -/

theorem mem_nonzero {m : List Bool} {i : ℕ} : i ∈ nonzero m ↔ m[i]? = some true := by
  unfold nonzero
  rw [List.mem_filter, List.mem_range]
  constructor
  · rintro ⟨h, h2⟩
    rw [List.getD_eq_getElem _ _ h] at h2
    rw [List.getElem?_eq_getElem h, h2]
  · intro h
    obtain ⟨h1, h2⟩ := List.getElem?_eq_some_iff.mp h
    exact ⟨h1, by rw [List.getD_eq_getElem _ _ h1, h2]⟩

theorem nodup_nonzero (m : List Bool) : (nonzero m).Nodup := List.nodup_range.filter _

theorem isClose_zero {x : K} : IsClose x 0 ↔ Vanishes x := by
  simp [IsClose, Vanishes]

/-- The loop that writes the history. -/
theorem hist_loop {R : List P} {l : List ℕ} (hn : l.Nodup) (hl : ∀ i ∈ l, i < R.length) (h : ℕ → List P) :
    ∃ h', l.foldlM (fun (h : ℕ → List P) k => R[k]?.map fun r => Function.update h k (h k ++ [r])) h = some h' ∧
      ∀ i, (i ∉ l → h' i = h i) ∧ ∀ r, i ∈ l → R[i]? = some r → h' i = h i ++ [r] := by
  induction l generalizing h with
  | nil => exact ⟨h, rfl, fun i => ⟨fun _ => rfl, by simp⟩⟩
  | cons k l ih =>
    obtain ⟨hk, hn⟩ := List.nodup_cons.mp hn
    have hkl : k < R.length := hl k (by simp)
    obtain ⟨h', a1, a2⟩ := ih hn (fun i hi => hl i (by simp [hi])) (Function.update h k (h k ++ [R[k]]))
    refine ⟨h', ?_, fun i => ⟨fun hi => ?_, fun r hi hr => ?_⟩⟩
    · rw [List.foldlM_cons, List.getElem?_eq_getElem hkl]
      exact a1
    · rw [List.mem_cons, not_or] at hi
      rw [(a2 i).1 hi.2, Function.update_of_ne hi.1]
    · rcases List.mem_cons.mp hi with rfl | hi
      · rw [(a2 i).1 hk, Function.update_self]
        rw [List.getElem?_eq_getElem hkl, Option.some.injEq] at hr
        rw [hr]
      · rw [(a2 i).2 r hi hr, Function.update_of_ne (fun h => hk (by rw [← h]; exact hi))]

/-- The shift with a mask. -/
theorem shiftMasked_spec [AddCommMonoid P] [SMul K P] {c : K} {S : RefSet P} {M : List P} {mask : List Bool}
    {hist : ℕ → List P} {moved : ℕ → Prop} {comp : ℕ → ℕ} (hs : Synced S) (hM : S.matched = some M)
    (he : S.eta.length = S.ref.length) (hm : mask.length = M.length)
    (hc : ∀ i < M.length, ∃ t, S.medoidsIdx[i]? = some (some (comp i, t)))
    (hmv : ∀ i < M.length, (mask[i]? = some true ↔ moved i)) :
    ∃ S' M' hist', shiftMasked c mask S hist = some (S', hist') ∧ S'.matched = some M' ∧ S'.referenceSet = M' ∧
      Synced S' ∧ S'.ref = S.ref ∧ S'.eta = S.eta ∧ S'.medoidsIdx = S.medoidsIdx ∧
      ShiftedBy c moved S.eta comp M M' hist hist' := by
  have hidx : ∀ i ∈ nonzero mask, i < M.length := fun i hi => by
    obtain ⟨h1, -⟩ := List.getElem?_eq_some_iff.mp (mem_nonzero.mp hi)
    omega
  obtain ⟨S', M', g1, g2, g3, g4, g5, g6, g7, g8, g9, -⟩ := C43_shift (c := c) hs hM he hidx
  obtain ⟨hist', h1, h2⟩ := hist_loop (R := S'.referenceSet) (nodup_nonzero mask)
    (fun i hi => by rw [g3, g4]; exact hidx i hi) hist
  refine ⟨S', M', hist', ?_, g2, g3, g6, g7, g8, g9, g4, fun i => ⟨fun p dir hp hdir => ?_, fun hi => ?_⟩⟩
  · unfold shiftMasked
    rw [g1, Option.bind_some, h1]
    rfl
  · obtain ⟨hi, -⟩ := List.getElem?_eq_some_iff.mp hp
    obtain ⟨t, ht⟩ := hc i hi
    have hg := g5 i _ t p dir ht hp hdir
    constructor
    · intro hmo
      have hin : i ∈ nonzero mask := mem_nonzero.mpr ((hmv i hi).mpr hmo)
      rw [List.count_eq_one_of_mem (nodup_nonzero mask) hin, one_nsmul] at hg
      exact ⟨hg, (h2 i).2 _ hin (by rw [g3, hg])⟩
    · intro hmo
      have hin : i ∉ nonzero mask := fun h => hmo ((hmv i hi).mp (mem_nonzero.mp h))
      rw [List.count_eq_zero_of_not_mem hin, zero_nsmul, add_zero] at hg
      exact ⟨hg, (h2 i).1 hin⟩
  · refine (h2 i).1 fun h => ?_
    have := hidx i h
    omega

/-- The entries of the mask of `DpN`. -/
theorem dpnShiftMask_spec {dist : P → P → K} {iter : ℕ} {Y M : List P} {stepNorm : List K} (hi : iter ≠ 0)
    (hY : Y.length = M.length) (hst : stepNorm.length = M.length) :
    ∃ m, dpnShiftMask dist iter M.length Y M stepNorm = some m ∧ m.length = M.length ∧
      ∀ i < M.length, (m[i]? = some true ↔ AtRest dist Y M stepNorm i) := by
  refine ⟨_, by unfold dpnShiftMask; rw [if_neg hi, if_neg (by rw [not_or]; exact ⟨by simp [hY], by simp [hY, hst]⟩)], ?_, ?_⟩
  · simp [hY, hst]
  · intro i hi
    have e1 : Y[i]? = some Y[i] := List.getElem?_eq_getElem _
    have e2 : M[i]? = some M[i] := List.getElem?_eq_getElem _
    have e3 : stepNorm[i]? = some stepNorm[i] := List.getElem?_eq_getElem _
    rw [List.getElem?_zipWith, List.getElem?_zipWith, e1, e2, e3]
    simp only [Option.some.injEq, Bool.and_eq_true, decide_eq_true_eq, isClose_zero]
    constructor
    · rintro ⟨h1, h2⟩
      exact ⟨_, _, _, e1, e2, e3, h1, h2⟩
    · rintro ⟨y, r, s, f1, f2, f3, h1, h2⟩
      rw [e1, Option.some.injEq] at f1
      rw [e2, Option.some.injEq] at f2
      rw [e3, Option.some.injEq] at f3
      rw [f1, f2, f3]
      exact ⟨h1, h2⟩

/-- The entries of the mask of `MMDNewton`. -/
theorem mmdShiftMask_spec {dist : P → P → K} (hd : ∀ a b, 0 ≤ dist a b) {iter : ℕ} {Y M : List P}
    {stepNorm : List K} (hi : iter ≠ 0) (hY : Y.length = M.length) (hst : stepNorm.length = M.length) :
    ∃ m, mmdShiftMask dist iter M.length Y M stepNorm = some m ∧ m.length = M.length ∧
      ∀ i < M.length, (m[i]? = some true ↔ AtRestAny dist Y M stepNorm i) := by
  unfold mmdShiftMask
  rw [if_neg hi, if_neg (by simp [hY, hst])]
  have hD : ∀ y : P, Y ≠ [] → ∃ v, (M.map fun r => dist y r).min? = some v := fun y hne => by
    have : M ≠ [] := fun h => hne (List.length_eq_zero_iff.mp (by rw [hY, h]; rfl))
    exact Option.isSome_iff_exists.mp (by simpa [List.isSome_min?_iff] using this)
  have hex : ∃ D, (Y.mapM fun y => (M.map fun r => dist y r).min?) = some D := by
    rcases eq_or_ne Y [] with rfl | hne
    · exact ⟨[], rfl⟩
    · choose f hf using fun y => hD y hne
      exact ⟨Y.map f, mapM_eq_some.mpr ⟨by simp, fun t ht => by simp [hf, ht]⟩⟩
  obtain ⟨D, hDe⟩ := hex
  obtain ⟨hl, hDv⟩ := mapM_eq_some.mp hDe
  rw [hDe]
  refine ⟨_, rfl, by simp [hl, hY, hst], fun i hi => ?_⟩
  have e1 : Y[i]? = some Y[i] := List.getElem?_eq_getElem _
  have e2 : D[i]? = some D[i] := List.getElem?_eq_getElem _
  have e3 : stepNorm[i]? = some stepNorm[i] := List.getElem?_eq_getElem _
  have hmin := hDv i (by omega)
  rw [e2] at hmin
  obtain ⟨m1, m2⟩ := List.min?_eq_some_iff.mp hmin
  obtain ⟨r, hr, hrv⟩ := List.mem_map.mp m1
  rw [List.getElem?_zipWith, e2, e3]
  simp only [Option.some.injEq, Bool.and_eq_true, decide_eq_true_eq, isClose_zero]
  constructor
  · rintro ⟨h1, h2⟩
    exact ⟨_, r, _, e1, hr, e3, by rw [hrv]; exact h1, h2⟩
  · rintro ⟨y, r', s, f1, f2, f3, h1, h2⟩
    rw [e1, Option.some.injEq] at f1
    rw [e3, Option.some.injEq] at f3
    subst f1 f3
    refine ⟨?_, h2⟩
    have h3 := m2 _ (List.mem_map.mpr ⟨r', f2, rfl⟩)
    unfold Vanishes at h1 ⊢
    rw [abs_of_nonneg (hd _ _)] at h1
    rw [abs_of_nonneg (by rw [← hrv]; exact hd _ _)]
    exact h3.trans h1

/-! ## C61 -/

section

variable [AddCommMonoid P] [SMul K P]

/-- C61, `DpN`, the first iteration: all the targets move by 0.08 times the directions of their components. -/
theorem C61_dpn_first (dist : P → P → K) {S : RefSet P} {M Y : List P} {stepNorm : List K} {comp : ℕ → ℕ}
    (hist : ℕ → List P) (hs : Synced S) (hM : S.matched = some M) (he : S.eta.length = S.ref.length)
    (hc : ∀ i < M.length, ∃ t, S.medoidsIdx[i]? = some (some (comp i, t))) :
    ∃ S' M' hist', dpnShift dist 0 M.length Y stepNorm S hist = some (S', hist') ∧ S'.referenceSet = M' ∧
      Synced S' ∧ ShiftedBy (8 / 100 : K) (fun _ => True) S.eta comp M M' hist hist' := by
  obtain ⟨S', M', hist', h1, -, h3, h4, -, -, -, h5⟩ := shiftMasked_spec (c := (8 / 100 : K)) (hist := hist)
    (moved := fun _ => True) (mask := List.replicate M.length true) hs hM he (by simp) hc
    (fun i hi => by simp [hi])
  exact ⟨S', M', hist', h1, h3, h4, h5⟩

/-- C61, `DpN`, the other iterations: exactly the targets of the points that have come to rest at their targets
move, by 0.05 times the directions of their components. -/
theorem C61_dpn_later (dist : P → P → K) {S : RefSet P} {M Y : List P} {stepNorm : List K} {comp : ℕ → ℕ}
    {iter : ℕ} (hist : ℕ → List P) (hi : iter ≠ 0) (hs : Synced S) (hM : S.matched = some M)
    (he : S.eta.length = S.ref.length) (hY : Y.length = M.length) (hst : stepNorm.length = M.length)
    (hc : ∀ i < M.length, ∃ t, S.medoidsIdx[i]? = some (some (comp i, t))) :
    ∃ S' M' hist', dpnShift dist iter M.length Y stepNorm S hist = some (S', hist') ∧ S'.referenceSet = M' ∧
      Synced S' ∧ ShiftedBy (5 / 100 : K) (AtRest dist Y M stepNorm) S.eta comp M M' hist hist' := by
  have hR : S.referenceSet = M := by simp [RefSet.referenceSet, hM]
  obtain ⟨m, a1, a2, a3⟩ := dpnShiftMask_spec (dist := dist) hi hY hst
  obtain ⟨S', M', hist', h1, -, h3, h4, -, -, -, h5⟩ := shiftMasked_spec (c := (5 / 100 : K)) (hist := hist)
    hs hM he a2 hc a3
  refine ⟨S', M', hist', ?_, h3, h4, h5⟩
  unfold dpnShift
  rw [hR, a1, Option.bind_some, if_neg hi, h1]

/-- C61, `MMDNewton` with matching, the first iteration. -/
theorem C61_mmd_first (dist : P → P → K) {S : RefSet P} {M Y : List P} {stepNorm : List K} {comp : ℕ → ℕ}
    (hist : ℕ → List P) (hs : Synced S) (hM : S.matched = some M) (he : S.eta.length = S.ref.length)
    (hc : ∀ i < M.length, ∃ t, S.medoidsIdx[i]? = some (some (comp i, t))) :
    ∃ S' M' hist', mmdShift dist 0 M.length Y stepNorm S hist = some (S', hist') ∧ S'.referenceSet = M' ∧
      Synced S' ∧ ShiftedBy (8 / 100 : K) (fun _ => True) S.eta comp M M' hist hist' := by
  obtain ⟨S', M', hist', h1, -, h3, h4, -, -, -, h5⟩ := shiftMasked_spec (c := (8 / 100 : K)) (hist := hist)
    (moved := fun _ => True) (mask := List.replicate M.length true) hs hM he (by simp) hc
    (fun i hi => by simp [hi])
  exact ⟨S', M', hist', h1, h3, h4, h5⟩

/-- C61, `MMDNewton` with matching, the other iterations: the targets of the points that have come to rest at
*any* target move. What is missing: `AtRest` in place of `AtRestAny`. -/
theorem C61_mmd_later_partial {dist : P → P → K} (hd : ∀ a b, 0 ≤ dist a b) {S : RefSet P} {M Y : List P}
    {stepNorm : List K} {comp : ℕ → ℕ} {iter : ℕ} (hist : ℕ → List P) (hi : iter ≠ 0) (hs : Synced S)
    (hM : S.matched = some M) (he : S.eta.length = S.ref.length) (hY : Y.length = M.length)
    (hst : stepNorm.length = M.length)
    (hc : ∀ i < M.length, ∃ t, S.medoidsIdx[i]? = some (some (comp i, t))) :
    ∃ S' M' hist', mmdShift dist iter M.length Y stepNorm S hist = some (S', hist') ∧ S'.referenceSet = M' ∧
      Synced S' ∧ ShiftedBy (8 / 100 : K) (AtRestAny dist Y M stepNorm) S.eta comp M M' hist hist' := by
  have hR : S.referenceSet = M := by simp [RefSet.referenceSet, hM]
  obtain ⟨m, a1, a2, a3⟩ := mmdShiftMask_spec hd hi hY hst
  obtain ⟨S', M', hist', h1, -, h3, h4, -, -, -, h5⟩ := shiftMasked_spec (c := (8 / 100 : K)) (hist := hist)
    hs hM he a2 hc a3
  refine ⟨S', M', hist', ?_, h3, h4, h5⟩
  unfold mmdShift
  rw [hR, a1, Option.bind_some, h1]

/-- C61, `MMDNewton` without matching, on the contrary: whatever the points and the steps are, every iteration
moves every reference point. -/
theorem C61_unmatched_partial {dist : P → P → K} {S S' : RefSet P} {Y : List P} {stepNorm : List K} {iter N : ℕ}
    {hist hist' : ℕ → List P} (hM : S.matched = none) (he : S.eta.length = S.ref.length)
    (h : mmdShift dist iter N Y stepNorm S hist = some (S', hist')) :
    ∀ (k : ℕ) (C : List P) (dir : P), S.ref[k]? = some C → S.eta[k]? = some dir →
      S'.ref[k]? = some (C.map fun r => r + (8 / 100 : K) • dir) := by
  unfold mmdShift at h
  obtain ⟨m, -, h⟩ := Option.bind_eq_some_iff.mp h
  unfold shiftMasked at h
  obtain ⟨S1, h1, h⟩ := Option.bind_eq_some_iff.mp h
  obtain ⟨h', -, h2⟩ := Option.map_eq_some_iff.mp h
  rw [Prod.mk.injEq] at h2
  obtain ⟨rfl, rfl⟩ := h2
  obtain ⟨S2, b1, -, -, -, b2⟩ := C43_shift_unmatched (8 / 100 : K) (some (nonzero m)) hM he
  rw [h1, Option.some.injEq] at b1
  subst b1
  exact b2

end

/-- Two reference points that are matched with two points at the second of them. -/
def restLine : RefSet (ℚ × ℚ) :=
  ((RefSet.new [[(0, 0), (5, 0)]] [(-1, 0)] none).match lineEnv [(5, 0), (5, 0)]).getD
    (RefSet.new [] [] none)

/-- C61 is violated by `MMDNewton` with matching: both the points have come to rest at the second target, and
the first target, at a distance of 5 to its point, moves as well. -/
theorem C61_violated_mmd :
    restLine.referenceSet = [(0, 0), (5, 0)] ∧ ¬ AtRest refLineDist [(5, 0), (5, 0)] [(0, 0), (5, 0)] [0, 0] 0 ∧
    (mmdShift refLineDist 1 2 [(5, 0), (5, 0)] [0, 0] restLine fun _ => []).map (fun r => r.1.referenceSet) =
      some [(-(8 / 100), 0), (5 - 8 / 100, 0)] := by
  refine ⟨by decide +kernel, ?_, by decide +kernel⟩
  rintro ⟨y, r, s, h1, h2, h3, h4, -⟩
  simp only [List.getElem?_cons_zero, Option.some.injEq] at h1 h2
  subst h1 h2
  revert h4
  unfold Vanishes
  decide +kernel

/-- C61 is violated by `MMDNewton` without matching: no point has come to rest (the steps have the norm 1 and the
points are far away), and both the reference points move. -/
theorem C61_violated_unmatched :
    ¬ AtRestAny refLineDist [(9, 0), (9, 0)] [(0, 0), (5, 0)] [1, 1] 0 ∧
    ¬ AtRestAny refLineDist [(9, 0), (9, 0)] [(0, 0), (5, 0)] [1, 1] 1 ∧
    (mmdShift refLineDist 1 2 [(9, 0), (9, 0)] [1, 1] (RefSet.new [[(0, 0), (5, 0)]] [(-1, 0)] none)
      fun _ => []).map (fun r => r.1.referenceSet) = some [(-(8 / 100), 0), (5 - 8 / 100, 0)] := by
  refine ⟨?_, ?_, by decide +kernel⟩ <;>
  · rintro ⟨y, r, s, h1, h2, h3, -, h4⟩
    simp only [List.getElem?_cons_zero, List.getElem?_cons_succ, Option.some.injEq] at h3
    subst h3
    revert h4
    unfold Vanishes
    decide +kernel

/-- The hypotheses of `C61_dpn_first` and `C61_dpn_later` (`Synced` follows from `C43_match_synced`), and the
result for two points of which the second has come to rest. -/
example : ∃ M, restLine.matched = some M ∧ restLine.eta.length = restLine.ref.length ∧ M.length = 2 ∧
    (∀ i < M.length, ∃ t, restLine.medoidsIdx[i]? = some (some (0, t))) ∧
    (dpnShift refLineDist 3 2 [(5, 0), (5, 0)] [0, 0] restLine fun _ => []).map
      (fun r => (r.1.referenceSet, r.2 0, r.2 1)) =
      some ([(0, 0), (5 - 5 / 100, 0)], [], [(5 - 5 / 100, 0)]) := by
  refine ⟨[(0, 0), (5, 0)], by decide +kernel, by decide +kernel, rfl, ?_, by decide +kernel⟩
  intro i hi
  have hi : i < 2 := hi
  interval_cases i
  · exact ⟨0, by decide +kernel⟩
  · exact ⟨1, by decide +kernel⟩

/-- The library functions and the distance of the example meet the assumptions. -/
example : ∀ a b, 0 ≤ refLineDist a b := fun a b => by unfold refLineDist; positivity

/-! ## C62 -/

/-- The rows `a` and `b` agree up to the tolerances. -/
def NearRow (a b : List K) : Prop := List.Forall₂ (fun x y => |x - y| ≤ 1 / 10 ^ 4 + 1 / 10 ^ 3 * |y|) a b

/-- The documented removal of duplicates: no two rows of the output agree, and every row of the input that is not
an outlier agrees with a row of the output. -/
def DuplicatesRemoved (X out : List (List K)) : Prop :=
  out.Pairwise (fun a b => ¬ NearRow a b ∧ ¬ NearRow b a) ∧ ∀ x ∈ X, ∃ y ∈ out, NearRow y x ∨ NearRow x y

/-- The full statement of the first half of C62, for a library that does not find any outliers. -/
def C62Statement : Prop :=
  ∀ (X out : List (List ℚ)), preprocess (fun _ X => some (X.map fun _ => 1)) X = some out →
    DuplicatesRemoved X out

theorem nearRow_iff {a b : List K} (h : a.length = b.length) :
    (List.zipWith (fun a b => decide (CloseTo a b)) a b).all id = true ↔ NearRow a b := by
  induction a generalizing b with
  | nil =>
    cases b with
    | nil => simp [NearRow]
    | cons => simp at h
  | cons x a ih =>
    cases b with
    | nil => simp at h
    | cons y b =>
      simp only [List.zipWith_cons_cons, List.all_cons, id, Bool.and_eq_true, decide_eq_true_eq,
        ih (by simpa using h)]
      unfold NearRow CloseTo
      rw [List.forall₂_cons]

theorem mem_distinctIdx {D : ℕ} {X : List (List K)} (hX : ∀ x ∈ X, x.length = D) {i : ℕ} :
    i ∈ distinctIdx X ↔ ∃ hi : i < X.length, ∀ j (hj : j < X.length), j ≠ i → ¬ NearRow X[j] X[i] := by
  unfold distinctIdx
  rw [List.mem_filter, List.mem_range]
  constructor
  · rintro ⟨hi, h⟩
    refine ⟨hi, fun j hj hne hn => ?_⟩
    have h1 := List.all_eq_true.mp h j (List.mem_range.mpr hj)
    rw [Bool.or_eq_true] at h1
    rcases h1 with h1 | h1
    · exact hne (by simpa using h1)
    · rw [List.getD_eq_getElem X [] hi, List.getD_eq_getElem X [] hj, (nearRow_iff (by
        rw [hX _ (List.getElem_mem hj), hX _ (List.getElem_mem hi)])).mpr hn] at h1
      simp at h1
  · rintro ⟨hi, h⟩
    refine ⟨hi, List.all_eq_true.mpr fun j hj => ?_⟩
    have hj := List.mem_range.mp hj
    rw [Bool.or_eq_true]
    by_cases hne : j = i
    · exact Or.inl (by simpa using hne)
    · right
      rw [List.getD_eq_getElem X [] hi, List.getD_eq_getElem X [] hj, Bool.not_eq_true', ← Bool.not_eq_true,
        nearRow_iff (by rw [hX _ (List.getElem_mem hj), hX _ (List.getElem_mem hi)])]
      exact h j hj hne

theorem fst_zip_sublist {α β : Type*} (A : List α) (B : List β) : ((A.zip B).map Prod.fst).Sublist A := by
  induction A generalizing B with
  | nil => simp
  | cons a A ih =>
    cases B with
    | nil => simp
    | cons b B => simpa using ih B

theorem dropOutliers_sublist {α : Type*} (s : List ℤ) (X : List α) : (dropOutliers s X).Sublist X := by
  unfold dropOutliers
  exact (List.filter_sublist.map Prod.fst).trans (fst_zip_sublist _ _)

theorem distinct_rows_sublist (X : List (List K)) : ((distinctIdx X).map fun i => X.getD i []).Sublist X := by
  have h : (List.range X.length).map (fun i => X.getD i []) = X := by
    refine List.ext_getElem (by simp) fun i h1 h2 => ?_
    rw [List.getElem_map, List.getElem_range, List.getD_eq_getElem]
  conv_rhs => rw [← h]
  exact List.filter_sublist.map _

/-- C62: `preprocess_reference_set` returns rows of the input in their order. -/
theorem C62_rows {lof : ℕ → List (List K) → Option (List ℤ)} {X out : List (List K)}
    (h : preprocess lof X = some out) : out.Sublist X := by
  unfold preprocess at h
  dsimp only at h
  obtain ⟨s, -, rfl⟩ := Option.map_eq_some_iff.mp h
  refine (dropOutliers_sublist _ _).trans ?_
  split
  · exact distinct_rows_sublist X
  · exact List.Sublist.refl _

/-- C62, what holds of the removal of duplicates: if more than 50 rows are far from all the others, the output
consists of such rows only. The full statement is `C62Statement`, which is false: all the copies of a row are
removed, and none if there are not more than 50 other rows. -/
theorem C62_duplicates_partial {D : ℕ} {lof : ℕ → List (List K) → Option (List ℤ)} {X out : List (List K)}
    {I : List ℕ} (hX : ∀ x ∈ X, x.length = D) (hI : I.Nodup) (hIl : 50 < I.length)
    (hfar : ∀ i ∈ I, ∃ hi : i < X.length, ∀ j (hj : j < X.length), j ≠ i → ¬ NearRow X[j] X[i])
    (h : preprocess lof X = some out) :
    out.Pairwise (fun a b => ¬ NearRow a b ∧ ¬ NearRow b a) ∧
      ∀ y ∈ out, ∃ (i : ℕ) (hi : i < X.length), X[i] = y ∧ ∀ j (hj : j < X.length), j ≠ i → ¬ NearRow X[j] y := by
  have hlen : 50 < (distinctIdx X).length := by
    refine lt_of_lt_of_le hIl (List.Subperm.length_le (hI.subperm fun i hi => ?_))
    exact (mem_distinctIdx hX).mpr (hfar i hi)
  unfold preprocess at h
  dsimp only at h
  rw [if_pos hlen] at h
  obtain ⟨s, -, rfl⟩ := Option.map_eq_some_iff.mp h
  have hsub := dropOutliers_sublist s ((distinctIdx X).map fun i => X.getD i [])
  refine ⟨List.Pairwise.sublist hsub ?_, fun y hy => ?_⟩
  · rw [List.pairwise_map]
    have hd : (distinctIdx X).Pairwise (· ≠ ·) := List.nodup_range.filter _
    refine hd.imp_of_mem fun {a b} ha hb hab => ?_
    obtain ⟨ha1, ha2⟩ := (mem_distinctIdx hX).mp ha
    obtain ⟨hb1, hb2⟩ := (mem_distinctIdx hX).mp hb
    rw [List.getD_eq_getElem X [] ha1, List.getD_eq_getElem X [] hb1]
    exact ⟨hb2 a ha1 hab, ha2 b hb1 hab.symm⟩
  · obtain ⟨i, hi, rfl⟩ := List.mem_map.mp (hsub.subset hy)
    obtain ⟨h1, h2⟩ := (mem_distinctIdx hX).mp hi
    refine ⟨i, h1, by rw [List.getD_eq_getElem X [] h1], ?_⟩
    rw [List.getD_eq_getElem X [] h1]
    exact h2

/-- C62 is violated: with few rows nothing is removed. -/
theorem C62_violated_few : ¬ C62Statement := by
  intro h
  have h1 := (h [[0], [0]] [[0], [0]] (by decide +kernel)).1
  rw [List.pairwise_cons] at h1
  refine (h1.1 [0] (by simp)).1 ?_
  unfold NearRow
  rw [List.forall₂_cons]
  exact ⟨by norm_num, List.Forall₂.nil⟩

/-- 51 rows and one row twice. -/
def manyRows : List (List ℚ) := [0] :: [0] :: (List.range 51).map fun i : ℕ => [(i + 1 : ℚ)]

/-- C62 is violated: with many rows both copies of a row are removed, and no other row is close to it. -/
theorem C62_violated_copies : ∃ out, preprocess (fun _ X => some (X.map fun _ => 1)) manyRows = some out ∧
    [0] ∈ manyRows ∧ ¬ ∃ y ∈ out, NearRow y [0] ∨ NearRow [0] y := by
  have h : preprocess (fun _ X => some (X.map fun _ => 1)) manyRows =
    some ((List.range 51).map fun i : ℕ => [(i + 1 : ℚ)]) := by decide +kernel
  refine ⟨_, h, by simp [manyRows], ?_⟩
  rintro ⟨y, hy, hn⟩
  obtain ⟨i, -, rfl⟩ := List.mem_map.mp hy
  have hp : (0 : ℚ) ≤ i := Nat.cast_nonneg i
  unfold NearRow at hn
  simp only [List.forall₂_cons, List.forall₂_nil_left_iff, and_true, sub_zero, zero_sub, abs_neg, abs_zero] at hn
  rw [abs_of_nonneg (by linarith)] at hn
  rcases hn with hn | hn <;> linarith

/-- The rows of `manyRows` but the first two are far from all the others: the hypotheses of
`C62_duplicates_partial`. -/
example : (distinctIdx manyRows).length = 51 ∧ ∀ x ∈ manyRows, x.length = 1 := by
  refine ⟨by decide +kernel, fun x hx => ?_⟩
  simp only [manyRows, List.mem_cons, List.mem_map] at hx
  rcases hx with rfl | rfl | ⟨i, -, rfl⟩ <;> rfl

theorem zip_filter_gather {α : Type*} {A B : List α} {idx : List ℕ} {s : List ℤ} (q : ℤ → Bool)
    (h : idx.map (A[·]?) = B.map some) :
    (((B.zip s).filter fun p => q p.2).map Prod.fst).map some =
      (((idx.zip s).filter fun p => q p.2).map Prod.fst).map (A[·]?) := by
  induction idx generalizing B s with
  | nil =>
    cases B with
    | nil => rfl
    | cons => simp at h
  | cons i idx ih =>
    cases B with
    | nil => simp at h
    | cons b B =>
      cases s with
      | nil => rfl
      | cons t s =>
        simp only [List.map_cons, List.cons.injEq] at h
        simp only [List.zip_cons_cons, List.filter_cons]
        by_cases hq : q t = true
        · simp only [hq, if_true, List.map_cons, ih h.2, h.1]
        · simp only [hq]
          exact ih h.2

/-- C62: `filter_outliers` returns rows of the decision points and of the objective points with the same indices
in increasing order, and no point of the input dominates one of them. -/
theorem C62_filter {α : Type*} {lof : ℕ → List (List K) → Option (List ℤ)} {X X' : List α}
    {Y Y' : List (List K)} (h : filterOutliers lof X Y = some (X', Y')) :
    ∃ idx : List ℕ, idx.Pairwise (· < ·) ∧ X'.map some = idx.map (X[·]?) ∧ Y'.map some = idx.map (Y[·]?) ∧
      ∀ i ∈ idx, ∃ hi : i < Y.length, ∀ j (hj : j < Y.length), ¬ Verif.NDS.Dominates Y[j] Y[i] := by
  unfold filterOutliers at h
  obtain ⟨r, h1, h⟩ := Option.bind_eq_some_iff.mp h
  obtain ⟨X1, h2, h⟩ := Option.bind_eq_some_iff.mp h
  obtain ⟨Y1, h3, h⟩ := Option.bind_eq_some_iff.mp h
  obtain ⟨s, h4, h⟩ := Option.map_eq_some_iff.mp h
  rw [Prod.mk.injEq] at h
  obtain ⟨rfl, rfl⟩ := h
  rw [gather_iff_map] at h2 h3
  have hr : r = Verif.NDS.keptIndices Verif.NDS.anyGreater Y := by
    unfold Verif.NDS.getNonDominated at h1
    dsimp only at h1
    split at h1
    · cases h1
    · simpa using h1.symm
  have hsub : (((r.zip s).filter fun p => decide (p.2 = 1)).map Prod.fst).Sublist r := by
    exact (List.filter_sublist.map Prod.fst).trans (fst_zip_sublist _ _)
  refine ⟨((r.zip s).filter fun p => decide (p.2 = 1)).map Prod.fst, ?_,
    zip_filter_gather (fun t => decide (t = 1)) h2, zip_filter_gather (fun t => decide (t = 1)) h3, fun i hi => ?_⟩
  · refine List.Pairwise.sublist hsub ?_
    rw [hr]
    exact List.Pairwise.filter _ List.pairwise_lt_range
  · have hi := hsub.subset hi
    rw [hr, Verif.NDS.mem_keptIndices] at hi
    obtain ⟨hi, hk⟩ := hi
    refine ⟨hi, fun j hj hd => ?_⟩
    have hji : j ≠ i := by rintro rfl; exact Verif.NDS.Dominates.irrefl _ hd
    have h1 := hk j hj hji
    rw [(Verif.NDS.anyGreater_false_iff hd.1).mpr (Or.inl hd)] at h1
    exact absurd h1 (by simp)

/-- Four points of which the second is dominated and the last is an outlier. -/
example : filterOutliers (fun _ _ => some [1, 1, -1]) ["a", "b", "c", "d"]
    ([[0, 2], [1, 2], [2, 0], [-100, 100]] : List (List ℚ)) = some (["a", "c"], [[0, 2], [2, 0]]) := by
  decide +kernel

end Verif.Props
