import Mathlib.Algebra.Order.Field.Basic
import Mathlib.Algebra.Order.AbsoluteValue.Basic
import Mathlib.Tactic.FieldSimp
import Mathlib.Tactic.Linarith
import Mathlib.Tactic.Ring
import Mathlib.Tactic.NormNum

/-!
# Model of the line searches (hvd/line_search.py, hvd/newton.py 611-658, hvd/mmd_newton.py 293-371)

The merit function `phi` is arbitrary. The result is paired with the list of the steps at which
`phi` was evaluated.
-/

namespace Verif.Util

variable {K : Type*} [Field K] [LinearOrder K]

/-- `np.isclose(a, b)` with the default tolerances. -/
def IsClose (a b : K) : Prop := |a - b| ≤ 1 / 10 ^ 8 + 1 / 10 ^ 5 * |b|

instance (a b : K) : Decidable (IsClose a b) := by unfold IsClose; infer_instance

/-- The test of all line searches (line_search.py 20); `np.finfo(float).eps = 2^-52`. -/
def Accept (c1 phi0 s v : K) : Prop := v ≤ (1 - c1 * s) * phi0 ∨ IsClose phi0 (1 / 2 ^ 52)

instance (c1 phi0 s v : K) : Decidable (Accept c1 phi0 s v) := by unfold Accept; infer_instance

/-- The loop with halving (line_search.py 17-32, mmd_newton.py 312-322), with at most `t` further
trials, at step `s`. -/
def halving (c1 : K) (phi : K → K) (phi0 : K) : ℕ → K → K × List K
  | 0, s => (s, [])
  | t + 1, s =>
    if Accept c1 phi0 s (phi s) then (s, [s])
    else
      let r := halving c1 phi phi0 t (s * (1 / 2))
      (r.1, s :: r.2)

/-- `backtracking_line_search` (line_search.py 4-36); `phi0` is the norm of `R`. -/
def backtrackingLineSearch (phi : K → K) (phi0 maxStep : K) : K × List K :=
  halving (1 / 10 ^ 5) phi phi0 6 maxStep

/-- `MMDNewton._backtracking_line_search_global` (mmd_newton.py 293-324): `med` is the median of the
primal part of the step (resolution of double: `1e-15`), `maxSteps` the maximal steps of the points. -/
def mmdLineSearch (med : K) (phi : K → K) (phi0 : K) (maxSteps : Option (List K)) : Option (K × List K) :=
  if IsClose med (1 / 10 ^ 15) then some (1, [])
  else
    match maxSteps with
    | none => some (halving (1 / 10 ^ 6) phi phi0 6 1)
    | some l => l.min?.map fun m => halving (1 / 10 ^ 6) phi phi0 6 m

/-- The next trial step (newton.py 644-651). `cubic` is the interpolation formula of lines 647-649;
`none` is NaN. -/
def nextStep (cubic : K → K → K → K → Option K) (phi2 phi1 s2 s1 : K) : K :=
  match cubic phi2 phi1 s2 s1 with
  | none => s1 * (1 / 2)
  | some c => min (max c (4 / 10 * s1)) (6 / 10 * s1)

/-- The loop with interpolation (newton.py 635-656): `phi2` and `s2` are the previous value and step. -/
def interpolating (c1 : K) (cubic : K → K → K → K → Option K) (phi : K → K) (phi0 : K) :
    ℕ → K → K → K → K × List K
  | 0, _, _, s => (s, [])
  | t + 1, phi2, s2, s =>
    if Accept c1 phi0 s (phi s) then (s, [s])
    else
      let r := interpolating c1 cubic phi phi0 t (phi s) s (nextStep cubic phi2 (phi s) s2 s)
      (r.1, s :: r.2)

/-- `DpN._backtracking_line_search` (newton.py 611-658): `step` holds all entries of the step,
`phi i` and `phi0 i` belong to point `i`; without maximal steps ones are used. If all entries are
close to zero the steps are one. The searches of the points do not influence each other. -/
def dpnLineSearch (cubic : K → K → K → K → Option K) (N : ℕ) (step : List K) (phi : ℕ → K → K)
    (phi0 : ℕ → K) (maxSteps : Option (ℕ → K)) (i : ℕ) : Option K :=
  if i < N then
    if ∀ x ∈ step, IsClose x 0 then some 1
    else some (interpolating (1 / 10 ^ 4) cubic (phi i) (phi0 i) 8 (phi0 i) 0 ((maxSteps.getD fun _ => 1) i)).1
  else none

/-- `MMDNewton._backtracking_line_search_individual` (mmd_newton.py 326-371): the same with at most six
trials per point. -/
def mmdIndividualLineSearch (cubic : K → K → K → K → Option K) (N : ℕ) (step : List K) (phi : ℕ → K → K)
    (phi0 : ℕ → K) (maxSteps : Option (ℕ → K)) (i : ℕ) : Option K :=
  if i < N then
    if ∀ x ∈ step, IsClose x 0 then some 1
    else some (interpolating (1 / 10 ^ 4) cubic (phi i) (phi0 i) 6 (phi0 i) 0 ((maxSteps.getD fun _ => 1) i)).1
  else none

/-! ### Lemmas -/

variable [IsStrictOrderedRing K]

theorem halving_spec (c1 : K) (phi : K → K) (phi0 : K) : ∀ (t : ℕ) (s : K),
    ∃ k ≤ t, (halving c1 phi phi0 t s).1 = s * (1 / 2) ^ k ∧
      (∀ l < k, ¬ Accept c1 phi0 (s * (1 / 2) ^ l) (phi (s * (1 / 2) ^ l))) ∧
      (k < t → Accept c1 phi0 (s * (1 / 2) ^ k) (phi (s * (1 / 2) ^ k))) ∧
      (halving c1 phi phi0 t s).2 = (List.range (min (k + 1) t)).map fun l => s * (1 / 2) ^ l := by
  intro t
  induction t with
  | zero => intro s; exact ⟨0, le_rfl, by simp [halving], by simp, by simp, by simp [halving]⟩
  | succ t ih =>
    intro s
    by_cases h : Accept c1 phi0 s (phi s)
    · refine ⟨0, by omega, by simp [halving, h], by simp, fun _ => by simpa using h, by simp [halving, h]⟩
    · obtain ⟨k, hk, h1, h2, h3, h4⟩ := ih (s * (1 / 2))
      have hpow : ∀ l, s * (1 / 2) * (1 / 2) ^ l = s * (1 / 2) ^ (l + 1) := fun l => by rw [pow_succ]; ring
      refine ⟨k + 1, by omega, ?_, ?_, ?_, ?_⟩
      · simp only [halving, h, if_false]
        rw [h1, hpow]
      · intro l hl
        rcases l with _ | l
        · simpa using h
        · rw [← hpow]; exact h2 l (by omega)
      · intro hlt
        rw [← hpow]; exact h3 (by omega)
      · simp only [halving, h, if_false]
        rw [h4, show min (k + 1 + 1) (t + 1) = min (k + 1) t + 1 by omega, List.range_succ_eq_map,
          List.map_cons, List.map_map]
        simp only [pow_zero, mul_one, List.cons.injEq, true_and]
        refine List.map_congr_left fun l _ => ?_
        simp only [Function.comp]
        rw [hpow]

theorem nextStep_mem (cubic : K → K → K → K → Option K) (phi2 phi1 s2 : K) {s1 : K} (h : 0 ≤ s1) :
    4 / 10 * s1 ≤ nextStep cubic phi2 phi1 s2 s1 ∧ nextStep cubic phi2 phi1 s2 s1 ≤ 6 / 10 * s1 := by
  unfold nextStep
  split
  · constructor <;> linarith
  · exact ⟨le_min (le_max_right _ _) (by linarith), min_le_right _ _⟩

/-- The evaluated steps: each one is between 0.4 and 0.6 times the one before. -/
def Shrinking : List K → Prop := List.IsChain fun a b => 4 / 10 * a ≤ b ∧ b ≤ 6 / 10 * a

theorem interpolating_spec (c1 : K) (cubic : K → K → K → K → Option K) (phi : K → K) (phi0 : K) :
    ∀ (t : ℕ) (phi2 s2 s : K), 0 < s → ∀ r, r = interpolating c1 cubic phi phi0 t phi2 s2 s →
      0 < r.1 ∧ r.1 ≤ s ∧ (4 / 10) ^ t * s ≤ r.1 ∧ r.2.length ≤ t ∧
      (∀ a ∈ r.2.dropLast, ¬ Accept c1 phi0 a (phi a)) ∧
      ((Accept c1 phi0 r.1 (phi r.1) ∧ r.2.getLast? = some r.1) ∨
        (r.2.length = t ∧ ∀ a ∈ r.2, ¬ Accept c1 phi0 a (phi a))) ∧
      Shrinking r.2 ∧ (∀ a, r.2.head? = some a → a = s) := by
  intro t
  induction t with
  | zero =>
    rintro phi2 s2 s hs r rfl
    simp [interpolating, hs, Shrinking]
  | succ t ih =>
    rintro phi2 s2 s hs r rfl
    by_cases h : Accept c1 phi0 s (phi s)
    · simp only [interpolating, h, if_true]
      refine ⟨hs, le_rfl, ?_, by simp, by simp, Or.inl ⟨by first | trivial | exact h, by simp⟩, by simp [Shrinking], by simp⟩
      have : (4 / 10 : K) ^ (t + 1) ≤ 1 := pow_le_one₀ (by norm_num) (by norm_num)
      nlinarith
    · have hn := nextStep_mem cubic phi2 (phi s) s2 hs.le
      have hpos : 0 < nextStep cubic phi2 (phi s) s2 s := lt_of_lt_of_le (by linarith) hn.1
      obtain ⟨a1, a2, a3, a4, a5, a6, a7, a8⟩ := ih (phi s) s _ hpos _ rfl
      simp only [interpolating, h, if_false]
      set r := interpolating c1 cubic phi phi0 t (phi s) s (nextStep cubic phi2 (phi s) s2 s) with hr
      refine ⟨a1, by linarith, ?_, by simpa using a4, ?_, ?_, ?_, by simp⟩
      · have hp : (0 : K) ≤ (4 / 10) ^ t := by positivity
        rw [pow_succ]
        nlinarith
      · intro a ha
        rcases hl : r.2 with _ | ⟨b, l⟩
        · rw [hl] at ha; simp at ha
        · rw [hl, List.dropLast_cons_of_ne_nil (by simp), List.mem_cons] at ha
          rcases ha with rfl | ha
          · exact h
          · rw [hl] at a5; exact a5 a ha
      · rcases a6 with ⟨b1, b2⟩ | ⟨b1, b2⟩
        · refine Or.inl ⟨b1, ?_⟩
          rcases hl : r.2 with _ | ⟨b, l⟩
          · rw [hl] at b2; simp at b2
          · rw [hl] at b2
            rw [List.getLast?_cons_cons, b2]
        · refine Or.inr ⟨by simp [b1], fun a ha => ?_⟩
          rcases List.mem_cons.mp ha with rfl | ha
          · exact h
          · exact b2 a ha
      · unfold Shrinking at a7 ⊢
        rcases hl : r.2 with _ | ⟨b, l⟩
        · simp
        · rw [hl] at a7 a8
          rw [List.isChain_cons_cons]
          have := a8 b (by simp)
          subst this
          exact ⟨hn, a7⟩

end Verif.Util
