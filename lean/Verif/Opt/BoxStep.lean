import Mathlib.Algebra.Order.Field.Basic
import Mathlib.Algebra.Order.AbsoluteValue.Basic
import Mathlib.Tactic.Linarith
import Mathlib.Tactic.Ring
import Mathlib.Tactic.FieldSimp
import Mathlib.Tactic.Positivity

/-!
# Step limits that keep the points inside the box

Models of `HVN._compute_max_step_size` and `DpN._handle_box_constraint` (hvd/newton.py) and of
`Lara._handle_box_constraint` (hvd/gradient_based.py). The last one is literally the same code as the
unused `HVN._handle_box_constraint` (hvd/newton.py, lines 305-320).
-/

namespace Verif.Opt

variable {K : Type*} [Field K] [LinearOrder K]

/-- A nonnegative floating-point number: finite, infinite or NaN. -/
inductive Ext (K : Type*) where
  | fin (a : K)
  | inf
  | nan
deriving DecidableEq

namespace Ext

/-- `a / b` for nonnegative `a` and `b`. -/
def div (a b : K) : Ext K := if b = 0 then (if a = 0 then nan else inf) else fin (a / b)

def isNan : Ext K → Bool
  | nan => true
  | _ => false

/-- `a < b`; false if one of them is NaN. -/
def lt : Ext K → Ext K → Bool
  | fin a, fin b => decide (a < b)
  | fin _, inf => true
  | _, _ => false

/-- The smaller one, ignoring NaN. -/
def fmin (a b : Ext K) : Ext K := if a.isNan then b else if b.lt a then b else a

/-- `np.nanmin`: NaN if there is nothing else. -/
def nanmin (l : List (Ext K)) : Ext K := l.foldl fmin nan

/-- `np.argmin`: the first NaN, or the first smallest entry. -/
def argmin (l : List (Ext K)) : ℕ :=
  if l.any isNan then l.findIdx isNan else l.findIdx fun e => l.all fun e' => !(e'.lt e)

/-- `min(1.0, e)` of Python, which returns the first argument if the second one is NaN. -/
def capOne : Ext K → K
  | fin a => if a < 1 then a else 1
  | _ => 1

/-- `np.minimum(1, e)` of NumPy, which returns NaN if one of them is NaN. -/
def minimumOne : Ext K → Ext K
  | fin a => fin (min 1 a)
  | inf => fin 1
  | nan => nan

end Ext

open Ext

/-! ### The models -/

/-- Distances to the lower and to the upper bounds (newton.py 274 and 674-677). -/
def boxDist (xl xu x : List K) : List K :=
  List.zipWith (fun a l => |a - l|) x xl ++ List.zipWith (fun u a => |u - a|) xu x

/-- `step @ normal_vectors` for `normal_vectors = [I, -I]` (newton.py 273, 275, 672, 678). -/
def outward (step : List K) : List K := step ++ step.map fun a => -a

/-- `HVN._compute_max_step_size` (newton.py 268-276); the entries of `X` and `step` are the rows, which the
code concatenates (`ravel`, `tile`). `none` is the exception of `np.min` on an empty array. -/
def hvnMaxStep (limit : Bool) (xl xu : List K) (X step : List (List K)) : Option K :=
  if limit = false then some 1
  else
    let dist := (X.map fun x => List.zipWith (fun a l => |a - l|) x xl).flatten ++
      (X.map fun x => List.zipWith (fun u a => |u - a|) xu x).flatten
    let v := outward step.flatten
    (((dist.zip v).filter fun dv => decide (dv.2 < 0)).map fun dv => dv.1 / |dv.2|).min?.map fun m =>
      min 1 (1 / 4 * m)

/-- Lines 678-679 of newton.py for one point. -/
def dpnRatios (xl xu x step : List K) : List (Ext K) :=
  List.zipWith (fun d v => Ext.div d |min 0 v|) (boxDist xl xu x) (outward step)

/-- `DpN._handle_box_constraint` (newton.py 660-690) for one point: `(s·a) a` for the axis `a = ± e_c` is the
component `c` of the step, so the projection sets it to zero. The code recomputes the step sizes of all
points, which changes nothing for the points that are not projected. -/
def dpnBox (xl xu x step : List K) : List K × K :=
  let s := dpnRatios xl xu x step
  let m := (nanmin s).capOne
  if m = 0 then
    let step' := step.set (argmin s % step.length) 0
    (step', (nanmin (dpnRatios xl xu x step')).capOne)
  else (step, m)

/-- Lines 141-146 of gradient_based.py for one entry: steps that point out of the box are set to zero on
the boundary (`isclose` with `atol = rtol = 1e-10` to zero). -/
def laraZero (l u x st : K) : K :=
  let st := if |x - l| ≤ 1 / 10 ^ 10 ∧ st < 0 then 0 else st
  if |u - x| ≤ 1 / 10 ^ 10 ∧ 0 < st then 0 else st

/-- The absolute value of `d / st` after the assignment `s[s >= 0] = np.inf` (lines 147-149), for `d ≥ 0`:
`0/0` is NaN, and `± inf` becomes `inf` in any case. For `-d / st` the sign of `st` is reversed. -/
def laraRatio (d st : K) : Ext K :=
  if st = 0 then (if d = 0 then nan else inf)
  else if 0 ≤ d / st then inf else fin |d / st|

/-- Lines 147-149 for one row. -/
def laraRow (xl xu x st : List K) : Ext K :=
  (nanmin (List.zipWith (fun d s => laraRatio d s) (List.zipWith (fun a l => |a - l|) x xl) st ++
    List.zipWith (fun d s => laraRatio d (-s)) (List.zipWith (fun u a => |u - a|) xu x) st)).minimumOne

/-- `min` of Python. -/
def pyMin : List (Ext K) → Option (Ext K)
  | [] => none
  | e :: l => some (l.foldl (fun a b => if b.lt a then b else a) e)

/-- `Lara._handle_box_constraint` (gradient_based.py 137-151): the changed step and the common maximal step
size. -/
def laraBox (xl xu : List K) (X step : List (List K)) : Option (List (List K) × Ext K) :=
  let step' := List.zipWith (fun x st => List.zipWith (fun (p : K × K × K) s => laraZero p.1 p.2.1 p.2.2 s)
    (xl.zip (xu.zip x)) st) X step
  (pyMin (List.zipWith (fun x st => laraRow xl xu x st) X step')).map fun m => (step', m)

/-- `Lara._compute_step` (gradient_based.py 129-135) for one point with gradients `J`; `none` if a gradient
has norm zero (NaN). -/
def laraStep (norm : List K → K) (dim : ℕ) (J : List (List K)) : Option (List K) :=
  if J.any (fun v => decide (norm v = 0)) then none
  else some ((J.foldl (fun acc v => List.zipWith (· + ·) acc (v.map (· / norm v))) (List.replicate dim 0)).map
    fun a => -1 * a)

/-- The new population of `Lara.iteration` (gradient_based.py 96-106), from line 101 on: `self.step_size` is
one, clipped to the maximal step size. `none` if there are NaNs or exceptions. -/
def laraIteration (norm : List K → K) (xl xu : List K) (X : List (List K)) (J : List (List (List K))) :
    Option (List (List K)) :=
  (J.mapM (laraStep norm xl.length)).bind fun step =>
    (laraBox xl xu X step).bind fun r =>
      match r.2 with
      | fin m => some (List.zipWith (fun x st => List.zipWith (fun a s => a + s * min (max 1 0) m) x st) X r.1)
      | inf => some (List.zipWith (fun x st => List.zipWith (fun a s => a + s * 1) x st) X r.1)
      | nan => none

/-! ### Lemmas -/

section

variable {K : Type*} [Field K] [LinearOrder K]

omit [Field K] in
theorem Ext.fmin_lower {a b : Ext K} {P : Ext K → Prop} (ha : a.isNan = false → P a) (hb : b.isNan = false → P b) :
    (fmin a b).isNan = false → P (fmin a b) := by
  unfold fmin
  split
  · exact hb
  · split
    · exact hb
    · exact ha

/-- `c` is a lower bound, NaN not counting. -/
def Ext.Below (c : K) : Ext K → Prop
  | fin a => c ≤ a
  | inf => True
  | nan => True

omit [Field K] in
theorem Ext.foldl_fmin_le (l : List (Ext K)) (a : Ext K) {c : K} (h : l.foldl fmin a = fin c) :
    Ext.Below c a ∧ ∀ e ∈ l, Ext.Below c e := by
  induction l generalizing a with
  | nil =>
    rw [List.foldl_nil] at h
    subst h
    exact ⟨le_refl c, by simp⟩
  | cons e l ih =>
    obtain ⟨h1, h2⟩ := ih (fmin a e) h
    have key : Ext.Below c a ∧ Ext.Below c e := by
      unfold fmin at h1
      rcases a with a | _ | _
      · rcases e with e | _ | _
        · simp only [isNan, Bool.false_eq_true, if_false, lt, decide_eq_true_eq] at h1
          split at h1
          · rename_i hlt
            exact ⟨le_trans h1 hlt.le, h1⟩
          · rename_i hlt
            exact ⟨h1, le_trans h1 (not_lt.mp hlt)⟩
        · exact ⟨by simpa [isNan, lt] using h1, trivial⟩
        · exact ⟨by simpa [isNan, lt] using h1, trivial⟩
      · rcases e with e | _ | _
        · exact ⟨trivial, by simpa [isNan, lt] using h1⟩
        · exact ⟨trivial, trivial⟩
        · exact ⟨trivial, trivial⟩
      · exact ⟨trivial, by simpa [isNan] using h1⟩
    refine ⟨key.1, fun e' he' => ?_⟩
    rcases List.mem_cons.mp he' with rfl | he'
    · exact key.2
    · exact h2 e' he'

omit [Field K] in
theorem Ext.foldl_fmin_mem (l : List (Ext K)) (a : Ext K) : l.foldl fmin a = a ∨ l.foldl fmin a ∈ l := by
  induction l generalizing a with
  | nil => exact .inl rfl
  | cons e l ih =>
    rw [List.foldl_cons]
    have : fmin a e = a ∨ fmin a e = e := by
      unfold fmin
      split
      · exact .inr rfl
      · split
        · exact .inr rfl
        · exact .inl rfl
    rcases ih (fmin a e) with h | h
    · rcases this with h' | h'
      · exact .inl (h.trans h')
      · right; rw [h, h']; simp
    · exact .inr (List.mem_cons_of_mem _ h)

omit [Field K] in
/-- If all entries that are not NaN are infinite, so is the minimum or it is NaN. -/
theorem Ext.foldl_fmin_inf (l : List (Ext K)) (a : Ext K) (h : l.foldl fmin a = inf ∨ l.foldl fmin a = nan) :
    (∀ c, a ≠ fin c) ∧ ∀ e ∈ l, ∀ c, e ≠ fin c := by
  induction l generalizing a with
  | nil =>
    rw [List.foldl_nil] at h
    rcases h with rfl | rfl <;> simp
  | cons e l ih =>
    obtain ⟨h1, h2⟩ := ih (fmin a e) h
    have key : (∀ c, a ≠ fin c) ∧ ∀ c, e ≠ fin c := by
      unfold fmin at h1
      rcases a with a | _ | _
      · exfalso
        rcases e with e | _ | _
        · simp only [isNan, Bool.false_eq_true, if_false, lt, decide_eq_true_eq] at h1
          split at h1
          · exact h1 e rfl
          · exact h1 a rfl
        · simp [isNan, lt] at h1
        · simp [isNan, lt] at h1
      · rcases e with e | _ | _
        · simp [isNan, lt] at h1
        · exact ⟨by simp, by simp⟩
        · exact ⟨by simp, by simp⟩
      · rcases e with e | _ | _
        · simp [isNan] at h1
        · exact ⟨by simp, by simp⟩
        · exact ⟨by simp, by simp⟩
    refine ⟨key.1, fun e' he' => ?_⟩
    rcases List.mem_cons.mp he' with rfl | he'
    · exact key.2
    · exact h2 e' he'

variable [IsStrictOrderedRing K]

theorem Ext.div_nonneg {a b c : K} (ha : 0 ≤ a) (hb : 0 ≤ b) (h : Ext.div a b = fin c) : 0 ≤ c := by
  unfold Ext.div at h
  split at h
  · split at h <;> cases h
  · injection h with h
    rw [← h]
    exact _root_.div_nonneg ha hb

/-- The capped minimum is at most one, and at most all finite entries. -/
theorem capOne_nanmin (l : List (Ext K)) (hl : ∀ c, fin c ∈ l → 0 ≤ c) :
    0 ≤ (nanmin l).capOne ∧ (nanmin l).capOne ≤ 1 ∧ ∀ c, fin c ∈ l → (nanmin l).capOne ≤ c := by
  unfold nanmin
  rcases h : l.foldl fmin nan with c | _ | _
  · have h1 := (foldl_fmin_le l nan h).2
    have h2 : fin c ∈ l := by
      rcases foldl_fmin_mem l nan with h' | h'
      · rw [h] at h'; cases h'
      · rwa [h] at h'
    unfold capOne
    have h0 := hl c h2
    simp only
    split
    · rename_i hlt
      exact ⟨h0, hlt.le, fun d hd => h1 _ hd⟩
    · rename_i hlt
      exact ⟨zero_le_one, le_rfl, fun d hd => (not_lt.mp hlt).trans (h1 _ hd)⟩
  · exact ⟨zero_le_one, le_rfl, fun d hd => absurd rfl ((foldl_fmin_inf l nan (.inl h)).2 _ hd d)⟩
  · exact ⟨zero_le_one, le_rfl, fun d hd => absurd rfl ((foldl_fmin_inf l nan (.inr h)).2 _ hd d)⟩

end

end Verif.Opt
