import Verif.Opt.BoxStep
import Mathlib.Data.List.GetD
import Verif.Util.LineSearch

/-!
# The move of one DpN iteration
-/

namespace Verif.Opt

open Verif.Util

variable {K : Type*} [Field K] [LinearOrder K]

/-- What an iteration of `DpN` depends on besides the decision points: the Newton step (one row of primal
and dual entries for every point), the merit functions and the interpolation formula. -/
structure DpNInput (K : Type*) where
  step : List (List K)
  phi : ℕ → K → K
  phi0 : ℕ → K
  cubic : K → K → K → K → Option K

/-- The steps and step bounds after the box handling (newton.py 502), for all points. -/
def dpnBoxed (xl xu : List K) (X : List (List K)) (inp : DpNInput K) : List (List K × K) :=
  List.zipWith (fun x st => dpnBox xl xu x (st.take xl.length)) X inp.step

/-- All entries of the step matrix after the box handling: the dual parts do not change. -/
def dpnEntries (xl xu : List K) (X : List (List K)) (inp : DpNInput K) : List K :=
  (List.zipWith (fun r st => r.1 ++ st.drop xl.length) (dpnBoxed xl xu X inp) inp.step).flatten

/-- The decision points after `DpN.newton_iteration` (newton.py 494-506): lines 501-506 with the Newton step
as an input. `none` stands for an index outside of the population (does not happen). -/
def dpnIteration (xl xu : List K) (X : List (List K)) (inp : DpNInput K) : Option (List (List K)) :=
  let b := dpnBoxed xl xu X inp
  ((List.range X.length).mapM fun i =>
    dpnLineSearch inp.cubic X.length (dpnEntries xl xu X inp) inp.phi inp.phi0
      (some fun i => (b.getD i ([], 0)).2) i).map fun sizes =>
    (List.range X.length).map fun i =>
      List.zipWith (fun a s => a + sizes.getD i 0 * s) (X.getD i []) (b.getD i ([], 0)).1

/-- Several iterations of `DpN`. -/
def dpnRun (xl xu : List K) : List (DpNInput K) → List (List K) → Option (List (List K))
  | [], X => some X
  | inp :: l, X => (dpnIteration xl xu X inp).bind (dpnRun xl xu l)

/-! ### Lemmas -/

theorem mapM_eq_some_map {α β : Type*} {f : α → Option β} {g : α → β} {l : List α}
    (h : ∀ a ∈ l, f a = some (g a)) : l.mapM f = some (l.map g) := by
  induction l with
  | nil => rfl
  | cons a l ih =>
    rw [List.mapM_cons, h a (by simp), ih fun b hb => h b (by simp [hb])]
    rfl

theorem interpolating_nonneg [IsStrictOrderedRing K] (c1 : K) (cubic : K → K → K → K → Option K) (phi : K → K)
    (phi0 : K) (t : ℕ) (phi2 s2 s : K) (hs : 0 ≤ s) :
    0 ≤ (interpolating c1 cubic phi phi0 t phi2 s2 s).1 ∧ (interpolating c1 cubic phi phi0 t phi2 s2 s).1 ≤ s := by
  induction t generalizing phi2 s2 s with
  | zero => exact ⟨hs, le_rfl⟩
  | succ t ih =>
    unfold interpolating
    split
    · exact ⟨hs, le_rfl⟩
    · have hn := nextStep_mem cubic phi2 (phi s) s2 hs
      have h := ih (phi s) s (nextStep cubic phi2 (phi s) s2 s) (le_trans (by linarith) hn.1)
      exact ⟨h.1, by linarith [h.2, hn.2]⟩

/-- The step sizes of an iteration. -/
def dpnSizes (xl xu : List K) (X : List (List K)) (inp : DpNInput K) (i : ℕ) : K :=
  if ∀ x ∈ dpnEntries xl xu X inp, IsClose x 0 then 1
  else (interpolating (1 / 10 ^ 4) inp.cubic (inp.phi i) (inp.phi0 i) 8 (inp.phi0 i) 0
    ((dpnBoxed xl xu X inp).getD i ([], 0)).2).1

theorem dpnIteration_eq (xl xu : List K) (X : List (List K)) (inp : DpNInput K) :
    dpnIteration xl xu X inp = some ((List.range X.length).map fun i =>
      List.zipWith (fun a s => a + dpnSizes xl xu X inp i * s) (X.getD i [])
        ((dpnBoxed xl xu X inp).getD i ([], 0)).1) := by
  unfold dpnIteration
  dsimp only
  rw [mapM_eq_some_map (g := dpnSizes xl xu X inp), Option.map_some]
  · refine congrArg some (List.map_congr_left fun i hi => ?_)
    have : ((List.range X.length).map (dpnSizes xl xu X inp)).getD i 0 = dpnSizes xl xu X inp i := by
      rw [List.getD_eq_getElem _ _ (by simpa using hi)]
      simp
    rw [this]
  · intro i hi
    unfold dpnLineSearch dpnSizes
    rw [if_pos (List.mem_range.mp hi)]
    split <;> rfl

theorem dpnBoxed_getD {xl xu : List K} {X : List (List K)} {inp : DpNInput K} {i : ℕ} (hi : i < X.length)
    (h : inp.step.length = X.length) :
    (dpnBoxed xl xu X inp).getD i ([], 0) = dpnBox xl xu X[i] ((inp.step[i]'(by omega)).take xl.length) := by
  unfold dpnBoxed
  rw [List.getD_eq_getElem _ _ (by rw [List.length_zipWith]; omega), List.getElem_zipWith]

/-- The entries of the steps of the points are among all entries. -/
theorem mem_dpnEntries {xl xu : List K} {X : List (List K)} {inp : DpNInput K} {i : ℕ} (hi : i < X.length)
    (h : inp.step.length = X.length) {a : K} (ha : a ∈ ((dpnBoxed xl xu X inp).getD i ([], 0)).1) :
    a ∈ dpnEntries xl xu X inp := by
  have hl : (dpnBoxed xl xu X inp).length = X.length := by
    unfold dpnBoxed
    rw [List.length_zipWith]; omega
  unfold dpnEntries
  rw [List.mem_flatten]
  refine ⟨((dpnBoxed xl xu X inp)[i]'(by omega)).1 ++ (inp.step[i]'(by omega)).drop xl.length, ?_, ?_⟩
  · rw [List.mem_iff_getElem]
    exact ⟨i, by rw [List.length_zipWith]; omega, by rw [List.getElem_zipWith]⟩
  · rw [List.getD_eq_getElem _ _ (by omega)] at ha
    exact List.mem_append_left _ ha

end Verif.Opt
