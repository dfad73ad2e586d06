import Verif.Prob.Base
import Verif.Prob.Groups
import Verif.Prob.Backend
import Mathlib.Algebra.Order.Ring.Rat
import Mathlib.Tactic.NormNum
import Mathlib.Tactic.Ring
import Mathlib.Data.List.Nodup

/-!
# C53, C56, C58: constraints for the box, the backend of pymoo, index groups
-/

namespace Verif.Props

open Verif.Prob

/-! ## C53 -/

section

variable {K : Type*} [Field K] [LinearOrder K]

theorem broadcastBound_length {n : ℕ} {b : Bound K} {l : List K} (h : broadcastBound n b = some l) :
    l.length = n := by
  cases b with
  | scalar c =>
    rw [broadcastBound, Option.some.injEq] at h
    rw [← h, List.length_replicate]
  | array a =>
    by_cases ha : a.length = n
    · unfold broadcastBound at h
      dsimp only at h
      rw [if_pos ha, Option.some.injEq] at h
      rw [← h, ha]
    · unfold broadcastBound at h
      dsimp only at h
      rw [if_neg ha] at h
      split at h
      · rw [Option.some.injEq] at h
        rw [← h, List.length_replicate]
      · exact absurd h (by simp)

theorem forall_zipWith_sub_nonpos [IsStrictOrderedRing K] {a b : List K} (h : a.length = b.length) :
    (∀ v ∈ List.zipWith (· - ·) a b, v ≤ 0) ↔ List.Forall₂ (· ≤ ·) a b := by
  induction a generalizing b with
  | nil =>
    cases b with
    | nil => simp
    | cons _ _ => simp at h
  | cons x a ih =>
    cases b with
    | nil => simp at h
    | cons y b =>
      simp only [List.zipWith_cons_cons, List.mem_cons, forall_eq_or_imp, List.forall₂_cons, sub_nonpos]
      rw [ih (by simpa using h)]

/-- What the constructor guarantees. -/
theorem C53_init {nVar nObj nEq nIeq : Int} {xl xu : Bound K} {boundary : Bool} {userIeq : List K → Value K}
    {P : Cmop K} (h : Cmop.init nVar nObj nEq nIeq xl xu boundary userIeq = some P) :
    0 < P.nVar ∧ (P.nVar : Int) = nVar ∧ P.xl.length = P.nVar ∧ P.xu.length = P.nVar ∧ 0 ≤ nIeq ∧
      List.Forall₂ (· ≤ ·) P.xl P.xu ∧
      (P.nIeq : Int) = nIeq + (if boundary then 2 * nVar else 0) ∧
      P.ieq = if boundary then some (addBoundary (if nIeq > 0 then some userIeq else none) P.xl P.xu)
        else if nIeq > 0 then some (fun x => some (userIeq x)) else none := by
  unfold Cmop.init at h
  by_cases h1 : nEq < 0 ∨ nIeq < 0
  · rw [if_pos h1] at h
    exact absurd h (by simp)
  by_cases h2 : nVar < 1 ∨ nObj < 1
  · rw [if_neg h1, if_pos h2] at h
    exact absurd h (by simp)
  rw [if_neg h1, if_neg h2] at h
  obtain ⟨l, hl, h⟩ := Option.bind_eq_some_iff.mp h
  obtain ⟨u, hu, h⟩ := Option.bind_eq_some_iff.mp h
  have hll := broadcastBound_length hl
  have hul := broadcastBound_length hu
  by_cases h3 : (List.zipWith (fun a b => decide (a > b)) l u).any id = true
  · rw [if_pos h3] at h
    exact absurd h (by simp)
  rw [if_neg h3] at h
  have hle : List.Forall₂ (· ≤ ·) l u := by
    rw [List.forall₂_iff_get]
    refine ⟨by rw [hll, hul], fun i hi hi' => ?_⟩
    by_contra hc
    refine h3 (List.any_eq_true.mpr ⟨true, ?_, rfl⟩)
    rw [List.mem_iff_getElem]
    refine ⟨i, by rw [List.length_zipWith]; omega, ?_⟩
    simpa using hc
  push Not at h1 h2
  cases boundary with
  | true =>
    simp only [if_true, Option.some.injEq] at h
    subst h
    refine ⟨?_, ?_, hll, hul, h1.2, hle, ?_, ?_⟩ <;> dsimp only
    · omega
    · omega
    · simp only [if_true]
      omega
    · simp
  | false =>
    simp only [Bool.false_eq_true, if_false, Option.some.injEq] at h
    subst h
    refine ⟨?_, ?_, hll, hul, h1.2, hle, ?_, ?_⟩ <;> dsimp only
    · omega
    · omega
    · simp only [Bool.false_eq_true, if_false]
      omega
    · simp

/-- C53: with boundary constraints, for user constraints returning a vector of as many values as declared (none are
used if none are declared), the values are those of the user followed by `2 n_var` values, all of them `≤ 0` exactly if
the point is in the box; their number is the number reported. -/
theorem C53_boundary [IsStrictOrderedRing K] {nVar nObj nEq nIeq : Int} {xl xu : Bound K}
    {userIeq : List K → Value K} {P : Cmop K}
    (h : Cmop.init nVar nObj nEq nIeq xl xu true userIeq = some P) {x u : List K} (hx : x.length = P.nVar)
    (hu : (u.length : Int) = nIeq) (hux : 0 < nIeq → userIeq x = .vector u) :
    ∃ b, P.ieqConstraint x = some (.vector (u ++ b)) ∧ b.length = 2 * P.nVar ∧ (u ++ b).length = P.nIeq ∧
      ((∀ v ∈ b, v ≤ 0) ↔ List.Forall₂ (· ≤ ·) P.xl x ∧ List.Forall₂ (· ≤ ·) x P.xu) := by
  obtain ⟨h1, h2, h3, h4, h5, -, h7, h8⟩ := C53_init h
  have e1 : P.xl.length = x.length := by rw [h3, hx]
  have e2 : x.length = P.xu.length := by rw [h4, hx]
  have hl : (List.zipWith (· - ·) P.xl x ++ List.zipWith (· - ·) x P.xu).length = 2 * P.nVar := by
    rw [List.length_append, List.length_zipWith, List.length_zipWith]
    omega
  refine ⟨List.zipWith (· - ·) P.xl x ++ List.zipWith (· - ·) x P.xu, ?_, hl, ?_, ?_⟩
  · unfold Cmop.ieqConstraint
    rw [h8, if_pos rfl, Option.bind_some]
    unfold addBoundary subtract
    rw [if_pos e1, if_pos e2, Option.bind_some, Option.bind_some]
    by_cases hn : nIeq > 0
    · rw [if_pos hn]
      dsimp only
      rw [hux hn]
      simp
    · rw [if_neg hn]
      have : u = [] := List.length_eq_zero_iff.mp (by omega)
      simp [this]
  · rw [List.length_append, hl]
    simp only [if_true] at h7
    omega
  · simp only [List.mem_append]
    rw [← forall_zipWith_sub_nonpos e1, ← forall_zipWith_sub_nonpos e2]
    exact ⟨fun hv => ⟨fun v hv' => hv v (Or.inl hv'), fun v hv' => hv v (Or.inr hv')⟩,
      fun hv v => Or.rec (hv.1 v) (hv.2 v)⟩

/-- Without boundary constraints the values are those of the user. -/
theorem C53_plain {nVar nObj nEq nIeq : Int} {xl xu : Bound K} {userIeq : List K → Value K} {P : Cmop K}
    (h : Cmop.init nVar nObj nEq nIeq xl xu false userIeq = some P) (hn : 0 < nIeq) (x : List K) :
    P.ieqConstraint x = some (userIeq x) ∧ (P.nIeq : Int) = nIeq := by
  obtain ⟨-, -, -, -, -, -, h7, h8⟩ := C53_init h
  unfold Cmop.ieqConstraint
  rw [h8]
  simp only [Bool.false_eq_true, if_false] at h7 ⊢
  rw [if_pos hn]
  exact ⟨rfl, by omega⟩

/-- C53: what is excluded above: a user constraint returning an array without axes works alone, but raises with
boundary constraints. -/
theorem C53_scalar {nVar nObj nEq nIeq : Int} {xl xu : Bound K} {userIeq : List K → Value K} {P : Cmop K}
    (h : Cmop.init nVar nObj nEq nIeq xl xu true userIeq = some P) (hn : 0 < nIeq) {x : List K} {c : K}
    (hux : userIeq x = .scalar c) : P.ieqConstraint x = none := by
  obtain ⟨-, -, -, -, -, -, -, h8⟩ := C53_init h
  unfold Cmop.ieqConstraint
  rw [h8, if_pos rfl, Option.bind_some, if_pos hn]
  unfold addBoundary
  cases subtract P.xl x with
  | none => rfl
  | some lo =>
    cases subtract x P.xu with
    | none => rfl
    | some hi =>
      simp only [Option.bind_some]
      rw [hux]

end

/-- One user constraint and the unit square, a scalar and an array as bounds. -/
example : ∃ P : Cmop ℚ, Cmop.init 2 2 0 1 (.scalar 0) (.array [1, 2]) true
    (fun x => .vector [x.sum - 2]) = some P ∧ P.nIeq = 5 ∧
    P.ieqConstraint [1 / 2, 3] = some (.vector [3 / 2, -1 / 2, -3, -1 / 2, 1]) := by
  refine ⟨_, rfl, rfl, ?_⟩
  have h2 : Int.toNat 2 = 2 := rfl
  simp only [Cmop.ieqConstraint, Option.bind_some, addBoundary, subtract, h2, List.replicate]
  norm_num

/-! ## C56 -/

section

variable {E A B : Type}

/-- The computation leaves the backend as it found it, also if it raises. -/
def KeepsBackend (c : Comp E A) : Prop := ∀ w, (c w).2.toolbox = w.toolbox

/-- C56: from any other backend, the context manager restores the backend, whatever happens inside, exceptions
included; inside, JAX is active; result and exception are those of the body. -/
theorem C56_restores_partial (body : Comp E A) (w : Py) (h : w.toolbox ≠ "jax.numpy") :
    (withJax body w).2.toolbox = w.toolbox ∧
      ∃ w1, w1.toolbox = "jax.numpy" ∧ w1.modules = w.modules ∧ (withJax body w).1 = (body w1).1 ∧
        (withJax body w).2.modules = (body w1).2.modules := by
  have hb : (w.toolbox != "jax.numpy") = true := by simpa using h
  refine ⟨by simp [withJax, hb, activate], activate "jax.numpy" w, rfl, rfl, ?_, ?_⟩ <;> simp [withJax, hb, activate]

/-- C56: if JAX is active already, it stays active if the body keeps the backend. -/
theorem C56_nested_partial (body : Comp E A) (hb : KeepsBackend body) : KeepsBackend (withJax body) := by
  intro w
  by_cases h : w.toolbox = "jax.numpy"
  · have hw : (w.toolbox != "jax.numpy") = false := by simpa using h
    simp only [withJax, hw, Bool.false_eq_true, if_false]
    exact hb w
  · exact (C56_restores_partial body w h).1

/-- C56 is violated for other bodies: if JAX is active before, and the body activates another backend, that one stays
active afterwards. -/
theorem C56_violated : ∃ (body : Comp Unit Unit) (w : Py), w.toolbox = "jax.numpy" ∧
    (withJax body w).2.toolbox = "autograd.numpy" :=
  ⟨fun w => (.ok (), activate "autograd.numpy" w), ⟨"jax.numpy", fun _ => none⟩, rfl, by decide⟩

/-- Sequences, with exceptions. -/
def andThen (c : Comp E A) (f : A → Comp E B) : Comp E B := fun w =>
  match c w with
  | (.ok a, w) => f a w
  | (.error e, w) => (.error e, w)

/-- Handlers of exceptions. -/
def handle (c : Comp E A) (f : E → Comp E A) : Comp E A := fun w =>
  match c w with
  | (.ok a, w) => (.ok a, w)
  | (.error e, w) => f e w

/-- Programs using the backend only through the context manager. -/
inductive Scoped : {A : Type} → Comp E A → Prop
  | basic {A : Type} {c : Comp E A} (h : KeepsBackend c) : Scoped c
  | andThen {A B : Type} {c : Comp E A} {f : A → Comp E B} (h : Scoped c) (hf : ∀ a, Scoped (f a)) :
      Scoped (Props.andThen c f)
  | handle {A : Type} {c : Comp E A} {f : E → Comp E A} (h : Scoped c) (hf : ∀ e, Scoped (f e)) :
      Scoped (Props.handle c f)
  | withJax {A : Type} {c : Comp E A} (h : Scoped c) : Scoped (Prob.withJax c)

/-- C56 for all nestings: programs in which the backend is switched by the context manager only, with any sequence,
nesting, raising and handling of exceptions, end with the backend they started with. -/
theorem C56_scoped {c : Comp E A} (h : Scoped c) : KeepsBackend c := by
  induction h with
  | basic h => exact h
  | @andThen A B c f _ _ ih ihf =>
    intro w
    have h1 := ih w
    unfold Props.andThen
    cases hc : c w with
    | mk r w1 =>
      rw [hc] at h1
      cases r with
      | ok a => exact (ihf a w1).trans h1
      | error e => exact h1
  | @handle A c f _ _ ih ihf =>
    intro w
    have h1 := ih w
    unfold Props.handle
    cases hc : c w with
    | mk r w1 =>
      rw [hc] at h1
      cases r with
      | ok a => exact h1
      | error e => exact (ihf e w1).trans h1
  | withJax _ ih => exact C56_nested_partial _ ih

end

/-- The contract of `import_module`: the backend stays, and a module that was not loaded and now is has the active
backend; if nothing is raised, the module is loaded. -/
structure ImportSound (importModule : String → Comp FactoryError Unit) : Prop where
  keeps : ∀ m, KeepsBackend (importModule m)
  binds : ∀ m w, w.modules m = none → (importModule m w).1 = .ok () →
    (importModule m w).2.modules m = some (some w.toolbox)

/-- C56: the factory leaves the backend as it was; a class is only returned from a module bound to JAX; a module loaded
with another backend (or none) is refused, unknown names are refused, both without any change. -/
theorem C56_factory {importModule : String → Comp FactoryError Unit} (hi : ImportSound importModule)
    (table : List (String × String × String)) (name : String) (w : Py) :
    (getPymooProblem importModule table name w).2.toolbox = w.toolbox ∧
      (∀ r, (getPymooProblem importModule table name w).1 = .ok r →
        table.lookup name.toLower = some r ∧
        (getPymooProblem importModule table name w).2.modules r.1 = some (some "jax.numpy")) ∧
      (table.lookup name.toLower = none →
        getPymooProblem importModule table name w = (.error .unsupported, w)) ∧
      (∀ spec b, table.lookup name.toLower = some spec → w.modules spec.1 = some b → b ≠ some "jax.numpy" →
        getPymooProblem importModule table name w = (.error (.mixed b), w)) := by
  unfold getPymooProblem
  cases ht : table.lookup name.toLower with
  | none =>
    refine ⟨rfl, fun r hr => by simp at hr, fun _ => rfl, fun spec b h => by simp at h⟩
  | some spec =>
    obtain ⟨m, cls⟩ := spec
    dsimp only
    unfold importJaxProblem
    cases hm : w.modules m with
    | some b =>
      by_cases hb : b = some "jax.numpy"
      · subst hb
        have hbb : (some "jax.numpy" != some "jax.numpy") = false := by simp
        simp only [hbb, Bool.false_eq_true, if_false]
        refine ⟨trivial, ?_, by simp, ?_⟩
        · intro r hr
          have : (m, cls) = r := by simpa using hr
          subst this
          exact ⟨rfl, hm⟩
        · intro spec b h h2 h3
          have : (m, cls) = spec := by simpa using h
          subst this
          rw [hm, Option.some.injEq] at h2
          exact absurd h2.symm h3
      · have hbb : (b != some "jax.numpy") = true := by simpa using hb
        simp only [hbb, if_true]
        refine ⟨trivial, fun r hr => by simp at hr, by simp, ?_⟩
        intro spec b' h h2 _
        have : (m, cls) = spec := by simpa using h
        subst this
        rw [hm, Option.some.injEq] at h2
        rw [h2]
    | none =>
      dsimp only
      obtain ⟨body, hbody⟩ : ∃ body, body = importBody importModule m cls := ⟨_, rfl⟩
      have hk : KeepsBackend body := by
        intro w
        have := hi.keeps m w
        rw [hbody]
        unfold importBody
        dsimp only
        cases (importModule m w).1 <;> exact this
      have hbind : ∀ w1 r, w1.modules m = none → (body w1).1 = .ok r → r = (m, cls) ∧
          (body w1).2.modules m = some (some w1.toolbox) := by
        intro w1 r h1 h2
        rw [hbody] at h2 ⊢
        unfold importBody at h2 ⊢
        dsimp only at h2 ⊢
        cases hr : (importModule m w1).1 with
        | error e =>
          rw [hr] at h2
          simp at h2
        | ok a =>
          rw [hr] at h2
          have : (m, cls) = r := by simpa using h2
          exact ⟨this.symm, hi.binds m w1 h1 hr⟩
      rw [← hbody]
      refine ⟨C56_nested_partial body hk w, ?_, by simp, ?_⟩
      · intro r hr
        by_cases hw : w.toolbox = "jax.numpy"
        · have hww : (w.toolbox != "jax.numpy") = false := by simpa using hw
          simp only [withJax, hww, Bool.false_eq_true, if_false] at hr ⊢
          obtain ⟨h1, h2⟩ := hbind w r hm hr
          subst h1
          rw [h2, hw]
          exact ⟨rfl, rfl⟩
        · obtain ⟨-, w1, h1, h2, h3, h4⟩ := C56_restores_partial body w hw
          rw [h3] at hr
          obtain ⟨h5, h6⟩ := hbind w1 r (by rw [h2, hm]) hr
          subst h5
          rw [h4, h6, h1]
          exact ⟨rfl, rfl⟩
      · intro spec b h h2 _
        have : (m, cls) = spec := by simpa using h
        subst this
        rw [hm] at h2
        exact absurd h2 (by simp)

/-- An import meeting the contract, and a call from the default backend. -/
example : ∃ imp, ImportSound imp ∧
    (getPymooProblem imp [("bnh", "pymoo.problems.multi.bnh", "BNH")] "BNH"
      ⟨"autograd.numpy", fun _ => none⟩).1 = .ok ("pymoo.problems.multi.bnh", "BNH") := by
  refine ⟨fun m w => (.ok (), { w with modules := fun m' => if m' = m then some (some w.toolbox) else w.modules m' }),
    ⟨fun _ _ => rfl, fun m w _ _ => by simp⟩, ?_⟩
  simp [getPymooProblem, show "BNH".toLower = "bnh" by decide +kernel, importJaxProblem, withJax, importBody]

/-! ## C58 -/

theorem mem_arange {a b s i : ℕ} (hs : 0 < s) : i ∈ arange a b s ↔ a ≤ i ∧ i < b ∧ (i - a) % s = 0 := by
  unfold arange
  simp only [List.mem_map, List.mem_range]
  constructor
  · rintro ⟨k, hk, rfl⟩
    have h1 : (k + 1) * s ≤ b - a + s - 1 := (Nat.le_div_iff_mul_le hs).mp hk
    have h2 : (k + 1) * s = k * s + s := by ring
    refine ⟨by omega, by omega, ?_⟩
    rw [Nat.add_sub_cancel_left]
    exact Nat.mul_mod_left k s
  · rintro ⟨h1, h2, h3⟩
    have h4 : (i - a) / s * s = i - a := Nat.div_mul_cancel (Nat.dvd_of_mod_eq_zero h3)
    refine ⟨(i - a) / s, ?_, by rw [h4]; omega⟩
    change (i - a) / s + 1 ≤ _
    rw [Nat.le_div_iff_mul_le hs, Nat.add_mul, h4]
    omega

theorem arange_nodup {a b s : ℕ} (hs : 0 < s) : (arange a b s).Nodup := by
  refine List.nodup_range.map fun i j h => ?_
  have h : a + i * s = a + j * s := h
  exact Nat.eq_of_mul_eq_mul_right hs (by omega)

/-- C58 for UF1 - UF7: with at least three variables there are two groups, without repetition and not empty; every
distance variable is in exactly one of them, and nothing else is in them. Odd positions are in the first one (counted
from one). -/
theorem C58_uf2d (n : ℕ) : (n < 3 → uf2dGroups n = none) ∧ (3 ≤ n → ∃ J1 J2, uf2dGroups n = some (J1, J2) ∧
    J1 ≠ [] ∧ J2 ≠ [] ∧ J1.Nodup ∧ J2.Nodup ∧
    ∀ i, (i ∈ J1 ↔ 1 ≤ i ∧ i < n ∧ i % 2 = 0) ∧ (i ∈ J2 ↔ 1 ≤ i ∧ i < n ∧ i % 2 = 1)) := by
  refine ⟨fun h => if_pos h, fun h => ⟨_, _, if_neg (by omega), ?_, ?_, arange_nodup (by omega),
    arange_nodup (by omega), fun i => ?_⟩⟩
  · exact List.ne_nil_of_mem ((mem_arange (i := 2) (by omega)).mpr (by omega))
  · exact List.ne_nil_of_mem ((mem_arange (i := 1) (by omega)).mpr (by omega))
  · rw [mem_arange (by omega), mem_arange (by omega)]
    omega

/-- C58 for UF8 - UF10, CF8 and CF9. -/
theorem C58_uf3d (n : ℕ) : (n < 5 → uf3dGroups n = none) ∧
    (5 ≤ n → ∃ J1 J2 J3, uf3dGroups n = some (J1, J2, J3) ∧ J1 ≠ [] ∧ J2 ≠ [] ∧ J3 ≠ [] ∧
      J1.Nodup ∧ J2.Nodup ∧ J3.Nodup ∧
      ∀ i, (i ∈ J1 ↔ 2 ≤ i ∧ i < n ∧ i % 3 = 0) ∧ (i ∈ J2 ↔ 2 ≤ i ∧ i < n ∧ i % 3 = 1) ∧
        (i ∈ J3 ↔ 2 ≤ i ∧ i < n ∧ i % 3 = 2)) := by
  refine ⟨fun h => if_pos h, fun h => ⟨_, _, _, if_neg (by omega), ?_, ?_, ?_, arange_nodup (by omega),
    arange_nodup (by omega), arange_nodup (by omega), fun i => ?_⟩⟩
  · exact List.ne_nil_of_mem ((mem_arange (i := 3) (by omega)).mpr (by omega))
  · exact List.ne_nil_of_mem ((mem_arange (i := 4) (by omega)).mpr (by omega))
  · exact List.ne_nil_of_mem ((mem_arange (i := 2) (by omega)).mpr (by omega))
  · rw [mem_arange (by omega), mem_arange (by omega), mem_arange (by omega)]
    omega

theorem mem_arange_pred {a b s i : ℕ} (hs : 0 < s) (ha : 0 < a) :
    i ∈ (arange a b s).map (· - 1) ↔ a ≤ i + 1 ∧ i + 1 < b ∧ (i + 1 - a) % s = 0 := by
  rw [List.mem_map]
  constructor
  · rintro ⟨j, hj, rfl⟩
    obtain ⟨h1, h2, h3⟩ := (mem_arange hs).mp hj
    rw [Nat.sub_add_cancel (by omega)]
    exact ⟨h1, h2, h3⟩
  · intro h
    exact ⟨i + 1, (mem_arange hs).mpr h, by omega⟩

theorem arange_pred_nodup {a b s : ℕ} (hs : 0 < s) (ha : 0 < a) : ((arange a b s).map (· - 1)).Nodup := by
  refine List.Nodup.map_on (fun i hi j hj h => ?_) (arange_nodup hs)
  have h1 := (mem_arange hs).mp hi
  have h2 := (mem_arange hs).mp hj
  omega

/-- C58 for CF10, for any number of variables. -/
theorem C58_cf10 (n : ℕ) : (cf10Groups n).1.Nodup ∧ (cf10Groups n).2.1.Nodup ∧ (cf10Groups n).2.2.Nodup ∧
    ∀ i, (i ∈ (cf10Groups n).1 ↔ 2 ≤ i ∧ i < n ∧ i % 3 = 0) ∧ (i ∈ (cf10Groups n).2.1 ↔ 2 ≤ i ∧ i < n ∧ i % 3 = 1) ∧
      (i ∈ (cf10Groups n).2.2 ↔ 2 ≤ i ∧ i < n ∧ i % 3 = 2) := by
  refine ⟨arange_pred_nodup (by omega) (by omega), arange_pred_nodup (by omega) (by omega),
    arange_pred_nodup (by omega) (by omega), fun i => ?_⟩
  unfold cf10Groups
  dsimp only
  rw [mem_arange_pred (by omega) (by omega), mem_arange_pred (by omega) (by omega),
    mem_arange_pred (by omega) (by omega)]
  omega

/-- C58 for CF1 - CF7 with an even number of variables. -/
theorem C58_cf_partial {n : ℕ} (hn : n % 2 = 0) : (cfGroups n).1.Nodup ∧ (cfGroups n).2.Nodup ∧
    ∀ i, (i ∈ (cfGroups n).1 ↔ 1 ≤ i ∧ i < n ∧ i % 2 = 0) ∧ (i ∈ (cfGroups n).2 ↔ 1 ≤ i ∧ i < n ∧ i % 2 = 1) := by
  refine ⟨arange_pred_nodup (by omega) (by omega), arange_pred_nodup (by omega) (by omega), fun i => ?_⟩
  unfold cfGroups
  dsimp only
  rw [mem_arange_pred (by omega) (by omega), mem_arange_pred (by omega) (by omega)]
  omega

/-- C58 is violated by CF1 - CF7 for every odd number of variables: the last variable is in neither group, and the
second group contains an index out of range. -/
theorem C58_violated {n : ℕ} (hn : n % 2 = 1) (h3 : 3 ≤ n) :
    n - 1 ∉ (cfGroups n).1 ∧ n - 1 ∉ (cfGroups n).2 ∧ n ∈ (cfGroups n).2 := by
  unfold cfGroups
  dsimp only
  rw [mem_arange_pred (by omega) (by omega), mem_arange_pred (by omega) (by omega),
    mem_arange_pred (by omega) (by omega)]
  omega

/-- What JAX makes of this by clamping indices: for an odd number of variables the last variable, at an odd position, is
read in the group of the even positions, in the place of a variable after the last one. -/
theorem C58_clamped {n : ℕ} (hn : n % 2 = 1) (h3 : 3 ≤ n) :
    ∀ i, (i ∈ (cfGroups n).1.map (clamp n) ↔ 1 ≤ i ∧ i < n - 1 ∧ i % 2 = 0) ∧
      (i ∈ (cfGroups n).2.map (clamp n) ↔ (1 ≤ i ∧ i < n ∧ i % 2 = 1) ∨ i = n - 1) := by
  intro i
  unfold cfGroups clamp
  dsimp only
  constructor
  · rw [List.mem_map]
    constructor
    · rintro ⟨j, hj, rfl⟩
      have := (mem_arange_pred (by omega) (by omega)).mp hj
      omega
    · intro h
      exact ⟨i, (mem_arange_pred (by omega) (by omega)).mpr (by omega), by omega⟩
  · rw [List.mem_map]
    constructor
    · rintro ⟨j, hj, rfl⟩
      have := (mem_arange_pred (by omega) (by omega)).mp hj
      omega
    · rintro (h | h)
      · exact ⟨i, (mem_arange_pred (by omega) (by omega)).mpr (by omega), by omega⟩
      · exact ⟨n, (mem_arange_pred (by omega) (by omega)).mpr (by omega), by omega⟩

example : uf2dGroups 6 = some ([2, 4], [1, 3, 5]) ∧ uf3dGroups 8 = some ([3, 6], [4, 7], [2, 5]) ∧
    cfGroups 6 = ([2, 4], [1, 3, 5]) ∧ cfGroups 7 = ([2, 4], [1, 3, 5, 7]) ∧
    cf10Groups 8 = ([3, 6], [4, 7], [2, 5]) := by
  decide

end Verif.Props
