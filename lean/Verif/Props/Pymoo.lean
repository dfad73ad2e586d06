import Verif.Prob.Pymoo
import Mathlib.Data.List.Forall2
import Mathlib.Data.List.GetD
import Mathlib.Algebra.Order.Ring.Rat
import Mathlib.Algebra.Order.Group.Basic
import Mathlib.Tactic.NormNum

/-!
# C67: adapters between pymoo problems and native problems
-/

set_option linter.unusedSectionVars false

namespace Verif.Props

open Verif.Prob

variable {K : Type*} [Field K] [LinearOrder K]

/-! ## Specification -/

/-- A vectorised pymoo problem with objectives `f`, inequality constraints `g ≤ 0` and equality constraints `h = 0`:
row by row, and `G`, `H` are written if there are such constraints. -/
structure Vectorised (P : Pymoo K) (f g h : List K → List K) : Prop where
  eval : ∀ X, ∃ o, P.evaluate X = some o ∧ o.F = some (X.map f) ∧
    (0 < P.nIeq → o.G = some (X.map fun x => (g x).map some)) ∧ (0 < P.nEq → o.H = some (X.map h))
  ieqLength : ∀ x, ((g x).length : ℤ) = P.nIeq
  eqLength : ∀ x, ((h x).length : ℤ) = P.nEq

/-- Constraints of a native problem hold at `x`. An entry that is NaN does not satisfy a constraint. -/
def Meets (W : Native K) (x : List K) : Prop :=
  (∀ f, W.ieq = some f → ∃ r, f x = some r ∧ ∀ v ∈ r, ∃ c, v = some c ∧ c ≤ 0) ∧
    ∀ f, W.eq = some f → ∃ r, f x = some r ∧ ∀ c ∈ r, c = 0

/-- The same for the values that a pymoo problem writes for a matrix with the single row `x`. -/
def PymooMeets (P : Pymoo K) (x : List K) : Prop :=
  ∃ o, P.evaluate [x] = some o ∧
    (0 < P.nIeq → ∃ r, o.G = some [r] ∧ ∀ v ∈ r, ∃ c, v = some c ∧ c ≤ 0) ∧
    (0 < P.nEq → ∃ r, o.H = some [r] ∧ ∀ c ∈ r, c = 0)

/-- `x` lies in the box. -/
def Between (xl xu x : List K) : Prop := List.Forall₂ (· ≤ ·) xl x ∧ List.Forall₂ (· ≤ ·) x xu

/-- What pymoo stores for the bounds `b`: all of them, or a single number that they are all equal to. -/
def StoredAs (s : Option (List K)) (b : List K) : Prop := s = some b ∨ ∃ c, s = some [c] ∧ ∀ x ∈ b, x = c

/-! ## Helper lemmas -/

theorem storedBound_some {n : ℕ} {l : List K} (h : l.length = n) : storedBound n (some l) = some (l.map some) := by
  unfold storedBound
  dsimp only
  rw [if_pos h]

theorem storedBound_storedAs {n : ℕ} {s : Option (List K)} {b : List K} (h : StoredAs s b) (hb : b.length = n) :
    storedBound n s = some (b.map some) := by
  rcases h with rfl | ⟨c, rfl, h⟩
  · exact storedBound_some hb
  · obtain rfl : b = List.replicate n c := List.eq_replicate_iff.mpr ⟨hb, h⟩
    unfold storedBound
    dsimp only
    by_cases h1 : [c].length = n
    · obtain rfl : 1 = n := h1
      rfl
    · rw [if_neg h1, List.map_replicate]

theorem no_exceeds {xl xu : List K} (h : List.Forall₂ (· ≤ ·) xl xu) :
    (List.zipWith exceeds (xl.map some) (xu.map some)).any id = false := by
  induction h with
  | nil => rfl
  | cons hab _ ih =>
    simp only [List.map_cons, List.zipWith_cons_cons, List.any_cons, ih, Bool.or_false, id, exceeds]
    simpa using hab

theorem diff_nonpos [IsStrictOrderedRing K] {a b : List K} (h : a.length = b.length) :
    (∀ v ∈ List.zipWith diff (a.map some) (b.map some), ∃ c, v = some c ∧ c ≤ 0) ↔ List.Forall₂ (· ≤ ·) a b := by
  induction a generalizing b with
  | nil =>
    cases b with
    | nil => simp
    | cons _ _ => simp at h
  | cons x a ih =>
    cases b with
    | nil => simp at h
    | cons y b =>
      simp only [List.map_cons, List.zipWith_cons_cons, List.mem_cons, forall_eq_or_imp, List.forall₂_cons]
      rw [ih (by simpa using h)]
      simp [diff]

theorem zipWith_diff_length {a b : List (Option K)} (h : a.length = b.length) :
    (List.zipWith diff a b).length = b.length := by
  rw [List.length_zipWith, h, Nat.min_self]

theorem map_some_nonpos {l : List K} :
    (∀ v ∈ l.map some, ∃ c, v = some c ∧ c ≤ 0) ↔ ∀ c ∈ l, c ≤ 0 := by
  simp

section

variable {P : Pymoo K} {f g h : List K → List K}

theorem Vectorised.objective (hv : Vectorised P f g h) (x : List K) : backedObjective P x = some (f x) := by
  obtain ⟨o, ho, hF, -, -⟩ := hv.eval [x]
  rw [backedObjective, ho, Option.bind_some]
  rw [hF]
  cases o.result <;> simp

theorem Vectorised.ieq (hv : Vectorised P f g h) (hp : 0 < P.nIeq) (x : List K) :
    backedIeq P x = some ((g x).map some) := by
  obtain ⟨o, ho, -, hG, -⟩ := hv.eval [x]
  rw [backedIeq, ho, Option.bind_some, hG hp]
  simp

theorem Vectorised.eq (hv : Vectorised P f g h) (hp : 0 < P.nEq) (x : List K) : backedEq P x = some (h x) := by
  obtain ⟨o, ho, -, -, hH⟩ := hv.eval [x]
  rw [backedEq, ho, Option.bind_some, hH hp]
  simp

end

/-- The native problem that results when nothing goes wrong. -/
def backedNative (P : Pymoo K) (boundary : Bool) (xl xu : List (Option K)) : Native K :=
  { nVar := P.nVar.toNat, nObj := P.nObj.toNat, nEq := P.nEq.toNat
    nIeq := if boundary then P.nIeq.toNat + 2 * P.nVar.toNat else P.nIeq.toNat
    xl := xl, xu := xu, objective := backedObjective P
    ieq := if boundary then some (withBounds (if P.nIeq > 0 then some (backedIeq P) else none) xl xu)
      else if P.nIeq > 0 then some (backedIeq P) else none
    eq := if P.nEq > 0 then some (backedEq P) else none }

theorem backed_eq {P : Pymoo K} {f g h : List K → List K} (hv : Vectorised P f g h) (ht : P.traces = true)
    (hn : 0 < P.nVar) (ho : 0 < P.nObj) (boundary : Bool) {xl xu : List (Option K)}
    (hl : storedBound P.nVar.toNat P.xl = some xl) (hu : storedBound P.nVar.toNat P.xu = some xu)
    (hxl : xl.length = P.nVar.toNat) (hxu : xu.length = P.nVar.toNat)
    (hle : (List.zipWith exceeds xl xu).any id = false) :
    backed P boundary = some (backedNative P boundary xl xu) := by
  have h1 : ¬ (P.nEq < 0 ∨ P.nIeq < 0) := by
    have := hv.ieqLength []
    have := hv.eqLength []
    omega
  have h2 : ¬ (P.nVar < 1 ∨ P.nObj < 1) := by omega
  unfold backed
  rw [if_neg h1, if_neg h2, hl, hu, Option.bind_some, Option.bind_some, hle, if_neg (by simp)]
  dsimp only
  have hval : validates P (backedNative P boundary xl xu) = true := by
    unfold validates
    dsimp only
    have e1 : (backedNative P boundary xl xu).objective = backedObjective P := rfl
    have e2 : (backedNative P boundary xl xu).nVar = P.nVar.toNat := rfl
    rw [ht, e1, e2, hv.objective]
    have e3 : (match (backedNative P boundary xl xu).eq with
        | none => true
        | some f => (f (List.replicate P.nVar.toNat 0)).isSome) = true := by
      unfold backedNative
      dsimp only
      by_cases hp : P.nEq > 0
      · rw [if_pos hp]
        dsimp only
        rw [hv.eq hp]
        rfl
      · rw [if_neg hp]
    have e4 : (match (backedNative P boundary xl xu).ieq with
        | none => true
        | some f => (f (List.replicate P.nVar.toNat 0)).isSome) = true := by
      unfold backedNative
      dsimp only
      cases boundary
      · by_cases hp : P.nIeq > 0
        · simp only [Bool.false_eq_true, if_false, if_pos hp]
          rw [hv.ieq hp]
          rfl
        · simp only [Bool.false_eq_true, if_false, if_neg hp]
      · simp only [if_true]
        unfold withBounds
        rw [if_neg (by simp [hxl, hxu])]
        by_cases hp : P.nIeq > 0
        · simp only [if_pos hp]
          rw [hv.ieq hp]
          rfl
        · simp only [if_neg hp]
          rfl
    simp only [Bool.and_eq_true]
    exact ⟨⟨⟨trivial, rfl⟩, e4⟩, e3⟩
  exact if_pos hval

/-! ## Property C67 -/

/-- Bound number `j` of a list that has one entry for all or one for each. -/
def boundAt (l : List K) (j : ℕ) : K := l.getD (if l.length = 1 then 0 else j) 0

/-- What `from_pymoo` asks for: positive dimensions, counts that are not negative, bounds of the right shape in the right
order, and an evaluation at zero that can be traced and gives all that is needed. -/
structure Adaptable (P : Pymoo K) : Prop where
  nVar : 0 < P.nVar
  nObj : 0 < P.nObj
  nIeq : 0 ≤ P.nIeq
  nEq : 0 ≤ P.nEq
  xl : ∀ l, P.xl = some l → l.length = 1 ∨ (l.length : ℤ) = P.nVar
  xu : ∀ u, P.xu = some u → u.length = 1 ∨ (u.length : ℤ) = P.nVar
  order : ∀ l u, P.xl = some l → P.xu = some u → ∀ j : ℕ, (j : ℤ) < P.nVar → boundAt l j ≤ boundAt u j
  traces : P.traces = true
  eval : ∃ o, P.evaluate [List.replicate P.nVar.toNat 0] = some o ∧
    (o.F.isSome ∨ o.result.isSome ∧ o.F = none ∧ o.G = none ∧ o.H = none) ∧
    (0 < P.nIeq → o.G.isSome) ∧ (0 < P.nEq → o.H.isSome)

theorem storedBound_eq {n : ℕ} (hn : 0 < n) {s : Option (List K)} (h : ∀ l, s = some l → l.length = 1 ∨ l.length = n) :
    storedBound n s = some ((List.range n).map fun j => s.map fun l => boundAt l j) := by
  unfold storedBound
  cases s with
  | none => simp
  | some l =>
    dsimp only
    by_cases hl : l.length = n
    · rw [if_pos hl, Option.some.injEq]
      refine List.ext_getElem (by simp [hl]) fun j h1 h2 => ?_
      have hj : j < l.length := by simpa using h1
      simp only [List.getElem_map, List.getElem_range, Option.map_some, Option.some.injEq, boundAt]
      by_cases h1 : l.length = 1
      · rw [if_pos h1, List.getD_eq_getElem _ _ (by omega)]
        congr 1
        omega
      · rw [if_neg h1, List.getD_eq_getElem _ _ hj]
    · rw [if_neg hl]
      have h1 := (h l rfl).resolve_right hl
      obtain ⟨c, rfl⟩ := List.length_eq_one_iff.mp h1
      simp [boundAt]

theorem storedBound_none {n : ℕ} {l : List K} (h1 : l.length ≠ 1) (hn : l.length ≠ n) : storedBound n (some l) = none := by
  unfold storedBound
  dsimp only
  rw [if_neg hn]
  match l, h1 with
  | [], _ => rfl
  | [_], h1 => exact absurd rfl h1
  | _ :: _ :: _, _ => rfl

theorem backedObjective_isSome {P : Pymoo K} {x : List K} : (backedObjective P x).isSome ↔
    ∃ o, P.evaluate [x] = some o ∧ (o.F.isSome ∨ o.result.isSome ∧ o.F = none ∧ o.G = none ∧ o.H = none) := by
  unfold backedObjective
  cases P.evaluate [x] with
  | none => simp
  | some o =>
    obtain ⟨r, F, G, H⟩ := o
    cases r <;> cases F <;> cases G <;> cases H <;> simp

/-- C67, what is accepted: a problem of this package is returned as it is, a pymoo problem is adapted if and only if the
conditions above hold, anything else is rejected. -/
theorem C67_accepts (boundary : Bool) (s : Source K) : ((fromPymoo boundary s).isSome ↔
    (∃ W, s = .native W) ∨ ∃ P, s = .pymoo P ∧ Adaptable P) ∧ ∀ W, s = .native W → fromPymoo boundary s = some W := by
  cases s with
  | native W => simp [fromPymoo]
  | other => simp [fromPymoo]
  | pymoo P =>
    refine ⟨?_, by simp⟩
    have key : (backed P boundary).isSome ↔ Adaptable P := by
      by_cases h1 : P.nEq < 0 ∨ P.nIeq < 0
      · refine iff_of_false (by unfold backed; rw [if_pos h1]; simp) fun h => ?_
        have := h.nEq
        have := h.nIeq
        omega
      by_cases h2 : P.nVar < 1 ∨ P.nObj < 1
      · refine iff_of_false (by unfold backed; rw [if_neg h1, if_pos h2]; simp) fun h => ?_
        have := h.nVar
        have := h.nObj
        omega
      have hn : 0 < P.nVar.toNat := by omega
      by_cases h3 : ∀ l, P.xl = some l → l.length = 1 ∨ (l.length : ℤ) = P.nVar
      swap
      · refine iff_of_false ?_ fun h => h3 h.xl
        push Not at h3
        obtain ⟨l, hl, e1, e2⟩ := h3
        unfold backed
        rw [if_neg h1, if_neg h2, hl, storedBound_none e1 (by omega)]
        simp
      by_cases h4 : ∀ u, P.xu = some u → u.length = 1 ∨ (u.length : ℤ) = P.nVar
      swap
      · refine iff_of_false ?_ fun h => h4 h.xu
        push Not at h4
        obtain ⟨l, hl, e1, e2⟩ := h4
        unfold backed
        rw [if_neg h1, if_neg h2, hl, storedBound_none e1 (by omega)]
        cases storedBound P.nVar.toNat P.xl <;> simp
      have e3 := storedBound_eq hn (s := P.xl) fun l hl => (h3 l hl).imp_right (by omega)
      have e4 := storedBound_eq hn (s := P.xu) fun l hl => (h4 l hl).imp_right (by omega)
      have h5 : (List.zipWith exceeds ((List.range P.nVar.toNat).map fun j => P.xl.map fun l => boundAt l j)
          ((List.range P.nVar.toNat).map fun j => P.xu.map fun l => boundAt l j)).any id = false ↔
          ∀ l u, P.xl = some l → P.xu = some u → ∀ j : ℕ, (j : ℤ) < P.nVar → boundAt l j ≤ boundAt u j := by
        rw [List.zipWith_map, List.zipWith_self, List.any_map, List.any_eq_false]
        cases P.xl with
        | none => simp [exceeds]
        | some l =>
          cases P.xu with
          | none => simp [exceeds]
          | some u =>
            simp only [List.mem_range, Function.comp, Option.map_some, exceeds, id, decide_eq_true_eq, not_lt,
              Option.some.injEq, gt_iff_lt]
            exact ⟨fun h l' u' e e' j hj => by subst e e'; exact h j (by omega), fun h j hj => h l u rfl rfl j (by omega)⟩
      unfold backed
      rw [if_neg h1, if_neg h2, e3, e4, Option.bind_some, Option.bind_some]
      by_cases h6 : ∀ l u, P.xl = some l → P.xu = some u → ∀ j : ℕ, (j : ℤ) < P.nVar → boundAt l j ≤ boundAt u j
      swap
      · rw [if_pos (by rw [← Bool.not_eq_false, h5]; exact h6)]
        exact iff_of_false (by simp) fun h => h6 h.order
      rw [if_neg (by rw [h5.mpr h6]; simp)]
      dsimp only
      have hval : ∀ {W : Native K} {b : Bool}, b = validates P W → ((if b then some W else none).isSome ↔ validates P W = true) := by
        rintro W b rfl
        cases validates P W <;> simp
      rw [hval rfl]
      unfold validates
      simp only [Bool.and_eq_true]
      have eI : (match (if boundary then some (withBounds (if P.nIeq > 0 then some (backedIeq P) else none)
            ((List.range P.nVar.toNat).map fun j => P.xl.map fun l => boundAt l j)
            ((List.range P.nVar.toNat).map fun j => P.xu.map fun l => boundAt l j))
          else if P.nIeq > 0 then some (backedIeq P) else none) with
          | none => true
          | some f => (f (List.replicate P.nVar.toNat 0)).isSome) = true ↔
          (0 < P.nIeq → (backedIeq P (List.replicate P.nVar.toNat 0)).isSome) := by
        by_cases hp : P.nIeq > 0
        · cases boundary
          · simp [hp]
          · simp only [if_true, if_pos hp, withBounds]
            rw [if_neg (by simp)]
            simp [hp]
        · cases boundary
          · simp [hp]
          · simp only [if_true, if_neg hp, withBounds]
            rw [if_neg (by simp)]
            simp [hp]
      have eE : (match (if P.nEq > 0 then some (backedEq P) else none) with
          | none => true
          | some f => (f (List.replicate P.nVar.toNat 0)).isSome) = true ↔
          (0 < P.nEq → (backedEq P (List.replicate P.nVar.toNat 0)).isSome) := by
        by_cases hp : P.nEq > 0 <;> simp [hp]
      refine (and_congr (and_congr (and_congr Iff.rfl backedObjective_isSome) eI) eE).trans ?_
      constructor
      · rintro ⟨⟨⟨t, o, o1, o2⟩, hi⟩, he⟩
        refine ⟨by omega, by omega, by omega, by omega, h3, h4, h6, t, o, o1, o2, fun h => ?_, fun h => ?_⟩
        · simpa [backedIeq, o1] using hi h
        · simpa [backedEq, o1] using he h
      · rintro ⟨-, -, -, -, -, -, -, t, o, o1, o2, hi, he⟩
        refine ⟨⟨⟨t, o, o1, o2⟩, fun h => ?_⟩, fun h => ?_⟩
        · simpa [backedIeq, o1] using hi h
        · simpa [backedEq, o1] using he h
    change (backed P boundary).isSome ↔ _
    rw [key]
    simp

/-- C67, a vectorised pymoo problem as a native problem: for every such problem with finite bounds that JAX can trace,
`from_pymoo` succeeds; dimensions, bounds and objectives are the ones of the problem; the constraints hold exactly
where those of the problem hold and, with `boundary_constraints`, the point is in the box; and the counts are the
numbers of constraint values. -/
theorem C67_backed [IsStrictOrderedRing K] {P : Pymoo K} {f g h : List K → List K} (hv : Vectorised P f g h)
    (ht : P.traces = true) (hn : 0 < P.nVar) (ho : 0 < P.nObj) {xl xu : List K} (hl : StoredAs P.xl xl)
    (hu : StoredAs P.xu xu) (hxl : (xl.length : ℤ) = P.nVar) (hxu : (xu.length : ℤ) = P.nVar)
    (hle : List.Forall₂ (· ≤ ·) xl xu) (boundary : Bool) :
    ∃ W, fromPymoo boundary (.pymoo P) = some W ∧ (W.nVar : ℤ) = P.nVar ∧ (W.nObj : ℤ) = P.nObj ∧
      W.xl = xl.map some ∧ W.xu = xu.map some ∧ (∀ x, W.objective x = some (f x)) ∧
      (∀ x, x.length = xl.length → (Meets W x ↔
        (∀ c ∈ g x, c ≤ 0) ∧ (∀ c ∈ h x, c = 0) ∧ (boundary = true → Between xl xu x))) ∧
      (∀ F, W.ieq = some F → ∀ x, x.length = xl.length → ∃ r, F x = some r ∧ r.length = W.nIeq) ∧
      (W.ieq = none ↔ W.nIeq = 0) ∧
      ∀ F, W.eq = some F → ∀ x, ∃ r, F x = some r ∧ r.length = W.nEq := by
  have hb := backed_eq hv ht hn ho boundary (xl := xl.map some) (xu := xu.map some)
    (storedBound_storedAs hl (by omega)) (storedBound_storedAs hu (by omega)) (by rw [List.length_map]; omega) (by rw [List.length_map]; omega) (no_exceeds hle)
  refine ⟨_, hb, ?_, ?_, rfl, rfl, hv.objective, ?_, ?_, ?_, ?_⟩
  · change ((P.nVar.toNat : ℕ) : ℤ) = _
    omega
  · change ((P.nObj.toNat : ℕ) : ℤ) = _
    omega
  · intro x hx
    have heq : (∀ F, (backedNative P boundary (xl.map some) (xu.map some)).eq = some F →
        ∃ r, F x = some r ∧ ∀ c ∈ r, c = 0) ↔ ∀ c ∈ h x, c = 0 := by
      change (∀ F, (if P.nEq > 0 then some (backedEq P) else none) = some F → _) ↔ _
      by_cases hp : P.nEq > 0
      · rw [if_pos hp]
        simp [hv.eq hp]
      · rw [if_neg hp]
        have : h x = [] := List.length_eq_zero_iff.mp (by have := hv.eqLength x; omega)
        simp [this]
    have hieq : (∀ F, (backedNative P boundary (xl.map some) (xu.map some)).ieq = some F →
        ∃ r, F x = some r ∧ ∀ v ∈ r, ∃ c, v = some c ∧ c ≤ 0) ↔
        (∀ c ∈ g x, c ≤ 0) ∧ (boundary = true → Between xl xu x) := by
      have hg0 : ¬ P.nIeq > 0 → g x = [] := fun hp =>
        List.length_eq_zero_iff.mp (by have := hv.ieqLength x; omega)
      cases boundary
      · change (∀ F, (if P.nIeq > 0 then some (backedIeq P) else none) = some F → _) ↔ _
        by_cases hp : P.nIeq > 0
        · rw [if_pos hp]
          simp [hv.ieq hp]
        · rw [if_neg hp]
          simp [hg0 hp]
      · change (∀ F, some (withBounds (if P.nIeq > 0 then some (backedIeq P) else none) (xl.map some)
          (xu.map some)) = some F → _) ↔ _
        have hbox : (∀ v ∈ List.zipWith diff (xl.map some) (x.map some) ++
            List.zipWith diff (x.map some) (xu.map some), ∃ c, v = some c ∧ c ≤ 0) ↔ Between xl xu x := by
          simp only [List.mem_append, or_imp, forall_and]
          rw [diff_nonpos hx.symm, diff_nonpos (by omega)]
          rfl
        have hlen : ¬ (x.length ≠ (xl.map some).length ∨ x.length ≠ (xu.map some).length) := by
          simp only [List.length_map]
          omega
        simp only [Option.some.injEq, forall_eq']
        unfold withBounds
        rw [if_neg hlen]
        by_cases hp : P.nIeq > 0
        · simp only [if_pos hp]
          rw [hv.ieq hp]
          simp only [Option.map_some, Option.some.injEq, exists_eq_left', forall_const]
          rw [← hbox]
          simp only [List.mem_append (s := (g x).map some), or_imp, forall_and]
          rw [map_some_nonpos]
        · simp only [if_neg hp, Option.some.injEq, exists_eq_left', forall_const]
          rw [hbox, hg0 hp]
          simp
    rw [Meets, hieq, heq]
    tauto
  · intro F hF x hx
    have hg := hv.ieqLength x
    have hbl : (List.zipWith diff (xl.map some) (x.map some) ++
        List.zipWith diff (x.map some) (xu.map some)).length = 2 * P.nVar.toNat := by
      rw [List.length_append, zipWith_diff_length (by simp [hx]), zipWith_diff_length (by simp; omega)]
      simp only [List.length_map]
      omega
    cases boundary
    · change (if P.nIeq > 0 then some (backedIeq P) else none) = some F at hF
      change ∃ r, F x = some r ∧ r.length = P.nIeq.toNat
      by_cases hp : P.nIeq > 0
      · rw [if_pos hp, Option.some.injEq] at hF
        rw [← hF, hv.ieq hp]
        exact ⟨_, rfl, by rw [List.length_map]; omega⟩
      · rw [if_neg hp] at hF
        exact absurd hF (by simp)
    · change some (withBounds (if P.nIeq > 0 then some (backedIeq P) else none) (xl.map some)
          (xu.map some)) = some F at hF
      change ∃ r, F x = some r ∧ r.length = P.nIeq.toNat + 2 * P.nVar.toNat
      rw [Option.some.injEq] at hF
      rw [← hF]
      unfold withBounds
      rw [if_neg (by simp only [List.length_map]; omega)]
      by_cases hp : P.nIeq > 0
      · simp only [if_pos hp]
        rw [hv.ieq hp]
        refine ⟨_, rfl, ?_⟩
        rw [List.length_append, hbl, List.length_map]
        omega
      · simp only [if_neg hp]
        refine ⟨_, rfl, ?_⟩
        rw [hbl]
        omega
  · cases boundary
    · change (if P.nIeq > 0 then some (backedIeq P) else none) = none ↔ P.nIeq.toNat = 0
      by_cases hp : P.nIeq > 0
      · rw [if_pos hp]
        simp
        omega
      · rw [if_neg hp]
        simp
        omega
    · change some _ = none ↔ P.nIeq.toNat + 2 * P.nVar.toNat = 0
      simp
      omega
  · intro F hF x
    change (if P.nEq > 0 then some (backedEq P) else none) = some F at hF
    change ∃ r, F x = some r ∧ r.length = P.nEq.toNat
    have hh := hv.eqLength x
    by_cases hp : P.nEq > 0
    · rw [if_pos hp, Option.some.injEq] at hF
      rw [← hF, hv.eq hp]
      exact ⟨_, rfl, by omega⟩
    · rw [if_neg hp] at hF
      exact absurd hF (by simp)

/-- C67, a native problem as a pymoo problem: the matrices that `_evaluate` writes consist of the values of the native
problem, row by row, and a point satisfies the constraints of one exactly if it satisfies those of the other. The
constraint functions exist exactly if the counts are positive (which the constructor ensures). -/
theorem C67_adapter (W : Native K) (xl xu : List K) (hi : W.ieq = none ↔ W.nIeq = 0) (he : W.eq = none ↔ W.nEq = 0)
    (X : List (List K)) (hd : ∀ x ∈ X, (W.objective x).isSome ∧ (∀ f, W.ieq = some f → (f x).isSome) ∧
      ∀ f, W.eq = some f → (f x).isSome) :
    (∃ o, (adapter W xl xu).evaluate X = some o ∧ o.result = none ∧
      (∃ F, o.F = some F ∧ List.Forall₂ (fun x y => W.objective x = some y) X F) ∧
      (∀ f, W.ieq = some f → ∃ G, o.G = some G ∧ List.Forall₂ (fun x y => f x = some y) X G) ∧
      (∀ f, W.eq = some f → ∃ H, o.H = some H ∧ List.Forall₂ (fun x y => f x = some y) X H) ∧
      (W.ieq = none → o.G = none) ∧ (W.eq = none → o.H = none)) ∧
    ∀ x ∈ X, (PymooMeets (adapter W xl xu) x ↔ Meets W x) := by
  have hm : ∀ {β : Type _} (f : List K → Option β) (X : List (List K)), (∀ x ∈ X, (f x).isSome) →
      ∃ r, X.mapM f = some r ∧ List.Forall₂ (fun x y => f x = some y) X r := by
    intro β f X hX
    induction X with
    | nil => exact ⟨[], rfl, .nil⟩
    | cons x X ih =>
      obtain ⟨r, hr, hr'⟩ := ih fun y hy => hX y (List.mem_cons_of_mem _ hy)
      obtain ⟨y, hy⟩ := Option.isSome_iff_exists.mp (hX x List.mem_cons_self)
      refine ⟨y :: r, ?_, .cons hy hr'⟩
      rw [List.mapM_cons, hy, hr]
      rfl
  have main : ∀ X : List (List K), (∀ x ∈ X, (W.objective x).isSome ∧ (∀ f, W.ieq = some f → (f x).isSome) ∧
      ∀ f, W.eq = some f → (f x).isSome) → ∃ o, (adapter W xl xu).evaluate X = some o ∧ o.result = none ∧
      (∃ F, o.F = some F ∧ List.Forall₂ (fun x y => W.objective x = some y) X F) ∧
      (∀ f, W.ieq = some f → ∃ G, o.G = some G ∧ List.Forall₂ (fun x y => f x = some y) X G) ∧
      (∀ f, W.eq = some f → ∃ H, o.H = some H ∧ List.Forall₂ (fun x y => f x = some y) X H) ∧
      (W.ieq = none → o.G = none) ∧ (W.eq = none → o.H = none) := by
    intro X hd
    obtain ⟨F, hF, hF'⟩ := hm W.objective X fun x hx => (hd x hx).1
    have hH : ∃ H, (if W.nEq > 0 then (W.eq.bind fun f => X.mapM f).map some else some none) = some H ∧
        (∀ f, W.eq = some f → ∃ r, H = some r ∧ List.Forall₂ (fun x y => f x = some y) X r) ∧
        (W.eq = none → H = none) := by
      cases hq : W.eq with
      | none =>
        rw [if_neg (by have := he.mp hq; omega)]
        exact ⟨none, rfl, by simp, fun _ => rfl⟩
      | some f =>
        have : W.nEq > 0 := by
          by_contra hc
          rw [he.mpr (by omega)] at hq
          exact absurd hq (by simp)
        obtain ⟨r, hr, hr'⟩ := hm f X fun x hx => (hd x hx).2.2 f hq
        rw [if_pos this, Option.bind_some, hr]
        exact ⟨some r, rfl, fun g hg => ⟨r, rfl, by rw [Option.some.injEq] at hg; rwa [← hg]⟩, by simp⟩
    have hG : ∃ G, (if W.nIeq > 0 then (W.ieq.bind fun f => X.mapM f).map some else some none) = some G ∧
        (∀ f, W.ieq = some f → ∃ r, G = some r ∧ List.Forall₂ (fun x y => f x = some y) X r) ∧
        (W.ieq = none → G = none) := by
      cases hq : W.ieq with
      | none =>
        rw [if_neg (by have := hi.mp hq; omega)]
        exact ⟨none, rfl, by simp, fun _ => rfl⟩
      | some f =>
        have : W.nIeq > 0 := by
          by_contra hc
          rw [hi.mpr (by omega)] at hq
          exact absurd hq (by simp)
        obtain ⟨r, hr, hr'⟩ := hm f X fun x hx => (hd x hx).2.1 f hq
        rw [if_pos this, Option.bind_some, hr]
        exact ⟨some r, rfl, fun g hg => ⟨r, rfl, by rw [Option.some.injEq] at hg; rwa [← hg]⟩, by simp⟩
    obtain ⟨H, hH, hH1, hH2⟩ := hH
    obtain ⟨G, hG, hG1, hG2⟩ := hG
    refine ⟨{ F := some F, G := G, H := H }, ?_, rfl, ⟨F, rfl, hF'⟩, hG1, hH1, hG2, hH2⟩
    change adapterEvaluate W X = _
    rw [adapterEvaluate, hF, Option.bind_some, hH, Option.bind_some, hG, Option.map_some]
  refine ⟨main X hd, fun x hx => ?_⟩
  obtain ⟨o, ho, -, -, h1, h2, -, -⟩ := main [x] fun y hy => by
    rw [List.mem_singleton] at hy
    rw [hy]
    exact hd x hx
  have hni : (0 : ℤ) < (adapter W xl xu).nIeq ↔ W.ieq ≠ none := by
    change (0 : ℤ) < (W.nIeq : ℤ) ↔ _
    rw [ne_eq, hi]
    omega
  have hne : (0 : ℤ) < (adapter W xl xu).nEq ↔ W.eq ≠ none := by
    change (0 : ℤ) < (W.nEq : ℤ) ↔ _
    rw [ne_eq, he]
    omega
  rw [PymooMeets, Meets]
  simp only [ho, Option.some.injEq, exists_eq_left', hni, hne]
  refine and_congr ?_ ?_
  · cases hq : W.ieq with
    | none => simp
    | some f =>
      obtain ⟨G, hG, hG'⟩ := h1 f hq
      obtain ⟨y, G', hy, hG2, rfl⟩ := List.forall₂_cons_left_iff.mp hG'
      obtain rfl := List.forall₂_nil_left_iff.mp hG2
      simp [hG, hy]
  · cases hq : W.eq with
    | none => simp
    | some f =>
      obtain ⟨G, hG, hG'⟩ := h2 f hq
      obtain ⟨y, G', hy, hG2, rfl⟩ := List.forall₂_cons_left_iff.mp hG'
      obtain rfl := List.forall₂_nil_left_iff.mp hG2
      simp [hG, hy]

/-- C67 is violated: the pymoo view of a native problem is a pymoo problem that `from_pymoo` always rejects. -/
theorem C67_violated_round_trip (boundary : Bool) (W : Native K) (xl xu : List K) :
    fromPymoo boundary (.pymoo (adapter W xl xu)) = none := by
  change backed _ _ = none
  unfold backed
  split
  · rfl
  split
  · rfl
  rw [Option.bind_eq_none_iff]
  intro a _
  rw [Option.bind_eq_none_iff]
  intro b _
  split
  · rfl
  · exact if_neg (by simp [validates, adapter])

/-- C67 is violated: a vectorised problem without bounds is accepted, and with the default `boundary_constraints=True`
no point satisfies the constraints of the resulting problem, whatever the constraints of the given problem are. -/
theorem C67_violated_unbounded {P : Pymoo K} {f g h : List K → List K} (hv : Vectorised P f g h)
    (ht : P.traces = true) (hn : 0 < P.nVar) (ho : 0 < P.nObj) (hl : P.xl = none) (hu : P.xu = none) :
    ∃ W, fromPymoo true (.pymoo P) = some W ∧ ∀ x, ¬ Meets W x := by
  have hany : (List.zipWith exceeds (List.replicate P.nVar.toNat (none : Option K))
      (List.replicate P.nVar.toNat none)).any id = false := by
    rw [List.zipWith_replicate]
    simp [exceeds]
  refine ⟨_, backed_eq hv ht hn ho true (by rw [hl]; rfl) (by rw [hu]; rfl) (by simp) (by simp) hany, fun x hx => ?_⟩
  obtain ⟨r, hr, hr'⟩ := hx.1 _ rfl
  unfold withBounds at hr
  by_cases hlen : x.length ≠ (List.replicate P.nVar.toNat (none : Option K)).length ∨
      x.length ≠ (List.replicate P.nVar.toNat (none : Option K)).length
  · rw [if_pos hlen] at hr
    exact absurd hr (by simp)
  rw [if_neg hlen] at hr
  dsimp only at hr
  have hmem : (none : Option K) ∈ List.zipWith diff (List.replicate P.nVar.toNat (none : Option K)) (x.map some) ++
      List.zipWith diff (x.map some) (List.replicate P.nVar.toNat none) := by
    rw [List.mem_append]
    left
    have hxl : x.length = P.nVar.toNat := by
      rw [List.length_replicate] at hlen
      omega
    rw [List.mem_iff_getElem]
    exact ⟨0, by simp; omega, by simp [diff]⟩
  have hr0 : (none : Option K) ∈ r := by
    by_cases hp : P.nIeq > 0
    · simp only [if_pos hp] at hr
      rw [hv.ieq hp, Option.map_some, Option.some.injEq] at hr
      rw [← hr]
      exact List.mem_append_right _ hmem
    · simp only [if_neg hp, Option.some.injEq] at hr
      rw [← hr]
      exact hmem
  obtain ⟨c, hc, -⟩ := hr' _ hr0
  exact absurd hc (by simp)

/-- The `ElementwiseProblem` with the objectives `x[0]²` and `(x[1] - 1)²`. -/
def twoSquares (r : ℕ → List ℚ) : List (List ℚ) := [(r 0).map (· ^ 2), (r 1).map fun v => (v - 1) ^ 2]

/-- C67 is violated: an `ElementwiseProblem` with two objectives is accepted, but the objective of the resulting
problem has six values at `(1, 2, 3)`, where pymoo itself computes two. -/
theorem C67_violated_elementwise :
    ∃ W, fromPymoo true (.pymoo (elementwise 3 2 [0, 0, 0] [5, 5, 5] twoSquares)) = some W ∧ W.nObj = 2 ∧
      W.objective [1, 2, 3] = some [1, 4, 9, 0, 1, 4] ∧
      (twoSquares fun i => [([1, 2, 3] : List ℚ).getD i 0]).flatten = [1, 1] := by
  refine ⟨_, rfl, rfl, ?_, ?_⟩
  · simp [backedObjective, elementwise, twoSquares]
    norm_num
  · simp [twoSquares]
    norm_num

/-- C67 in full: going to pymoo and back gives a problem with the same objectives. -/
def C67Statement (K : Type*) [Field K] [LinearOrder K] : Prop :=
  ∀ (W : Native K) (xl xu : List K), W.xl = xl.map some → W.xu = xu.map some →
    ∃ V, fromPymoo false (.pymoo (adapter W xl xu)) = some V ∧ ∀ x, V.objective x = W.objective x

/-- Hence C67 does not hold. -/
theorem C67_violated : ¬ C67Statement ℚ := by
  intro h
  obtain ⟨V, hV, -⟩ := h ⟨1, 1, 0, 0, [some 0], [some 1], some, none, none⟩ [0] [1] rfl rfl
  rw [C67_violated_round_trip] at hV
  exact absurd hV (by simp)

/-- What is left of the round trip: if `_evaluate` of the pymoo view could be traced, then going to pymoo and back
would keep objectives and constraints; with `boundary_constraints` the box is added, also if the constraints of the
native problem already contain it (then there are `2·n_var` redundant constraints more). -/
theorem C67_round_trip_partial [IsStrictOrderedRing K] {W : Native K} {xl xu : List K} (hn : 0 < W.nVar)
    (ho : 0 < W.nObj) (hi : W.ieq = none ↔ W.nIeq = 0) (he : W.eq = none ↔ W.nEq = 0)
    {f g h : List K → List K} (hf : ∀ x, W.objective x = some (f x))
    (hg : ∀ F, W.ieq = some F → ∀ x, F x = some ((g x).map some)) (hgl : ∀ x, (g x).length = W.nIeq)
    (hh : ∀ F, W.eq = some F → ∀ x, F x = some (h x)) (hhl : ∀ x, (h x).length = W.nEq)
    (hxl : xl.length = W.nVar) (hxu : xu.length = W.nVar) (hle : List.Forall₂ (· ≤ ·) xl xu) (boundary : Bool) :
    ∃ V, fromPymoo boundary (.pymoo { adapter W xl xu with traces := true }) = some V ∧
      (∀ x, V.objective x = W.objective x) ∧
      (∀ x, x.length = W.nVar → (Meets V x ↔ Meets W x ∧ (boundary = true → Between xl xu x))) ∧
      ∀ F, V.ieq = some F → ∀ x, x.length = W.nVar → ∃ r, F x = some r ∧
        r.length = W.nIeq + if boundary = true then 2 * W.nVar else 0 := by
  have hm : ∀ {β : Type _} (F : List K → Option β) (F' : List K → β) (X : List (List K)), (∀ x, F x = some (F' x)) →
      X.mapM F = some (X.map F') := by
    intro β F F' X hF
    rw [show F = fun x => some (F' x) from funext hF]
    induction X with
    | nil => rfl
    | cons x X ih =>
      rw [List.mapM_cons, ih]
      rfl
  have hv : Vectorised { adapter W xl xu with traces := true } f g h := by
    refine ⟨fun X => ?_, fun x => ?_, fun x => ?_⟩
    · change ∃ o, adapterEvaluate W X = some o ∧ _ ∧ ((0 : ℤ) < (W.nIeq : ℤ) → _) ∧ ((0 : ℤ) < (W.nEq : ℤ) → _)
      rw [adapterEvaluate, hm _ f X hf, Option.bind_some]
      have hH : (if W.nEq > 0 then (W.eq.bind fun f => X.mapM f).map some else some none) =
          some (if W.nEq > 0 then some (X.map h) else none) := by
        by_cases hp : W.nEq > 0
        · rw [if_pos hp, if_pos hp]
          cases hq : W.eq with
          | none => have := he.mp hq; omega
          | some F => rw [Option.bind_some, hm F h X (hh F hq)]; rfl
        · rw [if_neg hp, if_neg hp]
      have hG : (if W.nIeq > 0 then (W.ieq.bind fun f => X.mapM f).map some else some none) =
          some (if W.nIeq > 0 then some (X.map fun x => (g x).map some) else none) := by
        by_cases hp : W.nIeq > 0
        · rw [if_pos hp, if_pos hp]
          cases hq : W.ieq with
          | none => have := hi.mp hq; omega
          | some F => rw [Option.bind_some, hm F (fun x => (g x).map some) X (hg F hq)]; rfl
        · rw [if_neg hp, if_neg hp]
      rw [hH, hG]
      refine ⟨_, rfl, rfl, fun hp => ?_, fun hp => ?_⟩
      · exact if_pos (by omega)
      · exact if_pos (by omega)
    · change _ = (W.nIeq : ℤ)
      rw [hgl]
    · change _ = (W.nEq : ℤ)
      rw [hhl]
  obtain ⟨V, hV, hVn, -, -, -, hVo, hVs, hVi, -, -⟩ := C67_backed hv rfl (by change (0 : ℤ) < (W.nVar : ℤ); omega)
    (by change (0 : ℤ) < (W.nObj : ℤ); omega) (.inl rfl) (.inl rfl) (by change _ = (W.nVar : ℤ); omega)
    (by change _ = (W.nVar : ℤ); omega) hle boundary
  refine ⟨V, hV, fun x => by rw [hVo, hf], fun x hx => ?_, fun F hF x hx => ?_⟩
  · rw [hVs x (by omega), Meets, ← and_assoc]
    refine and_congr_left fun _ => and_congr ?_ ?_
    · cases hq : W.ieq with
      | none =>
        have := hgl x
        rw [hi.mp hq] at this
        simp [List.length_eq_zero_iff.mp this]
      | some F => simp [hg F hq]
    · cases hq : W.eq with
      | none =>
        have := hhl x
        rw [he.mp hq] at this
        simp [List.length_eq_zero_iff.mp this]
      | some F => simp [hh F hq]
  · obtain ⟨r, hr, hr'⟩ := hVi F hF x (by omega)
    refine ⟨r, hr, ?_⟩
    have hb := backed_eq hv rfl (by change (0 : ℤ) < (W.nVar : ℤ); omega)
      (by change (0 : ℤ) < (W.nObj : ℤ); omega) boundary (xl := xl.map some) (xu := xu.map some)
      (storedBound_some (by change _ = ((W.nVar : ℤ)).toNat; omega))
      (storedBound_some (by change _ = ((W.nVar : ℤ)).toNat; omega))
      (by rw [List.length_map]; change _ = ((W.nVar : ℤ)).toNat; omega)
      (by rw [List.length_map]; change _ = ((W.nVar : ℤ)).toNat; omega) (no_exceeds hle)
    have hVe : V.nIeq = (if boundary then (W.nIeq : ℤ).toNat + 2 * (W.nVar : ℤ).toNat else (W.nIeq : ℤ).toNat) := by
      have := hV.symm.trans hb
      rw [Option.some.injEq] at this
      rw [this]
      rfl
    rw [hr', hVe]
    cases boundary <;> simp

/-! ## Non-vacuity -/

/-- Two variables with a common lower bound, one inequality, one equality constraint. -/
def pymooExample : Pymoo ℚ where
  nVar := 2
  nObj := 1
  nIeq := 1
  nEq := 1
  xl := some [0]
  xu := some [1, 1]
  evaluate := fun X => some
    { F := some (X.map fun x => [x.sum]), G := some (X.map fun x => [x.headD 0 - 1].map some)
      H := some (X.map fun x => [x.getD 1 0]) }
  traces := true

theorem pymooExample_vectorised : Vectorised pymooExample (fun x => [x.sum]) (fun x => [x.headD 0 - 1])
    fun x => [x.getD 1 0] :=
  ⟨fun _ => ⟨_, rfl, rfl, fun _ => rfl, fun _ => rfl⟩, fun _ => rfl, fun _ => rfl⟩

example : ∃ W, fromPymoo true (.pymoo pymooExample) = some W ∧ Meets W [1, 0] ∧ ¬ Meets W [2, 0] ∧
    ¬ Meets W [-1, 0] ∧ W.nVar = 2 := by
  obtain ⟨W, h, hn, -, -, -, -, hs, -⟩ := C67_backed pymooExample_vectorised rfl (by decide) (by decide)
    (xl := [0, 0]) (.inr ⟨0, rfl, by simp⟩) (.inl rfl) rfl rfl (by simp) true
  refine ⟨W, h, (hs [1, 0] rfl).mpr ?_, fun hc => ?_, fun hc => ?_, by simp only [pymooExample] at hn; omega⟩
  · simp [Between]
  · have := ((hs [2, 0] rfl).mp hc).1 1 (by norm_num)
    norm_num at this
  · have := (((hs [-1, 0] rfl).mp hc).2.2 rfl).1
    norm_num at this

example : ∃ W, fromPymoo true (.pymoo { pymooExample with xl := none, xu := none }) = some W ∧
    ∀ x, ¬ Meets W x :=
  C67_violated_unbounded (f := fun x => [x.sum]) (g := fun x => [x.headD 0 - 1]) (h := fun x => [x.getD 1 0])
    ⟨fun _ => ⟨_, rfl, rfl, fun _ => rfl, fun _ => rfl⟩, fun _ => rfl, fun _ => rfl⟩ rfl (by decide) (by decide)
    rfl rfl

/-- One variable, one inequality constraint. -/
def nativeExample : Native ℚ := ⟨1, 1, 1, 0, [some 0], [some 1], some, some fun x => some (x.map fun v => some (v - 1)), none⟩

example : fromPymoo true (.pymoo { pymooExample with nIeq := 2, evaluate := fun X => some { F := some X, H := some X } }) =
    none := by
  have h := (C67_accepts true (.pymoo { pymooExample with nIeq := 2, evaluate := fun X => some { F := some X, H := some X } })).1
  refine Option.not_isSome_iff_eq_none.mp fun hs => ?_
  obtain ⟨W, hW⟩ | ⟨P, hP, hA⟩ := h.mp hs
  · cases hW
  · obtain rfl := Source.pymoo.inj hP
    obtain ⟨o, ho, -, hi, -⟩ := hA.eval
    obtain rfl := Option.some.inj ho
    exact absurd (hi (by decide)) (by simp)

example : PymooMeets (adapter nativeExample [0] [1]) [1] := by
  refine ((C67_adapter nativeExample [0] [1] (by simp [nativeExample]) (by simp [nativeExample]) [[1], [2]]
    (by simp [nativeExample])).2 [1] (by simp)).mpr ?_
  simp [Meets, nativeExample]

example : ∃ V, fromPymoo true (.pymoo { adapter { nativeExample with
      ieq := some fun x => some ([x.headD 0 - 1].map some) } [0] [1] with traces := true }) = some V ∧
    ¬ Meets V [-1] := by
  obtain ⟨V, hV, -, hs, -⟩ := C67_round_trip_partial (W := { nativeExample with
      ieq := some fun x => some ([x.headD 0 - 1].map some) }) (xl := [0]) (xu := [1]) (f := id)
    (g := fun x => [x.headD 0 - 1]) (h := fun _ => [])
    (by decide) (by decide) (by simp [nativeExample]) (by simp [nativeExample]) (fun _ => rfl)
    (by simp [nativeExample]) (fun _ => rfl) (by simp [nativeExample]) (fun _ => rfl) rfl rfl (by simp) true
  refine ⟨V, hV, fun hc => ?_⟩
  have := (((hs [-1] rfl).mp hc).2 rfl).1
  norm_num at this

end Verif.Props
