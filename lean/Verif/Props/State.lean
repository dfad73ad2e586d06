import Verif.Opt.Heap
import Mathlib.Algebra.Order.Field.Rat
import Mathlib.Tactic.NormNum

/-!
# The optimizer state (C23-C26)
-/

namespace Verif.Props

open Verif.Opt

variable {K : Type*} [Field K] [LinearOrder K]

/-! ### Specification -/

/-- The values of an optional function: zeros if it is missing. -/
def optVal (f : Option (Callback K)) (m : ℕ) (q : List K) : List K := f.elim (List.replicate m 0) fun f => f.point q

/-- The arrays that belong to a population, row by row: objectives, Jacobian, constraint values, activity
flags (equalities are active, inequalities from `-1e-4` on), gradients and Hessians of the constraints.
`q` is the primal part of a row. -/
structure InSync (p : Funcs K) (s : State K) : Prop where
  Y : s.Y = s.X.map fun x => p.func.point (x.take p.nVar)
  J : ∀ J, s.J = some J → J = s.X.map fun x => p.jac.point (x.take p.nVar)
  cstr : s.cstrValue = s.X.map fun x => optVal p.h p.nEq (x.take p.nVar) ++ optVal p.g p.nIeq (x.take p.nVar)
  active : s.active = s.X.map fun x => List.replicate p.nEq true ++
    (optVal p.g p.nIeq (x.take p.nVar)).map fun v => decide (-(1 / 10 ^ 4) ≤ v)
  grad : s.cstrGrad = s.X.map fun x =>
    if p.hJac.isNone ∧ p.gJac.isNone then []
    else optVal p.hJac (p.nEq * p.nVar) (x.take p.nVar) ++ optVal p.gJac (p.nIeq * p.nVar) (x.take p.nVar)

/-- The Hessians of the constraints belong to the population. -/
def HessInSync (p : Funcs K) (s : State K) : Prop :=
  ∀ H, s.cstrHess = some H → H = s.X.map fun x =>
    if p.hHess.isNone ∧ p.gHess.isNone then List.replicate ((p.nEq + p.nIeq) * p.nVar * p.nVar) 0
    else optVal p.hHess (p.nEq * p.nVar * p.nVar) (x.take p.nVar) ++
      optVal p.gHess (p.nIeq * p.nVar * p.nVar) (x.take p.nVar)

/-- A call of a method of the state. -/
inductive Op (K : Type*) where
  | update (X : List (List K)) (computeGradient computeHessian : Bool)
  | updateOne (x : List K) (k : ℕ)

/-- The calls one after the other; `none` if one of them raises. -/
def exec (p : Funcs K) (s : State K) : List (Op K) → Option (State K)
  | [] => some s
  | .update X g h :: ops => (p.update s X g h).bind fun s => exec p s ops
  | .updateOne x k :: ops => (p.updateOne s x k).bind fun s => exec p s ops

/-- The points handed over have `dim` entries (primal and dual). -/
def Op.Fits (dim : ℕ) : Op K → Prop
  | .update X _ _ => ∀ x ∈ X, x.length = dim
  | .updateOne x _ => x.length = dim

/-! ### C23 -/

theorem optVal_eq (f : Option (Callback K)) (m : ℕ) (q : List K) : optVal f m q = valOf f m q := by
  rcases f with _ | f <;> rfl

section

variable {p : Funcs K} {nObj dim : ℕ}

theorem InSync.iff {s : State K} : InSync p s ↔
    s.Y = s.X.map (fun x => p.func.point (x.take p.nVar)) ∧
    (∀ J, s.J = some J → J = s.X.map fun x => p.jac.point (x.take p.nVar)) ∧
    s.cstrValue = s.X.map (fun x => p.rowCstr (x.take p.nVar)) ∧
    s.active = s.X.map (fun x => p.rowActive (x.take p.nVar)) ∧
    s.cstrGrad = s.X.map (fun x => p.rowGrad (x.take p.nVar)) := by
  unfold Funcs.rowCstr Funcs.rowActive Funcs.rowGrad
  constructor
  · rintro ⟨h1, h2, h3, h4, h5⟩
    simp only [optVal_eq] at h3 h4 h5
    exact ⟨h1, h2, h3, h4, h5⟩
  · rintro ⟨h1, h2, h3, h4, h5⟩
    refine ⟨h1, h2, ?_, ?_, ?_⟩ <;> simp only [optVal_eq]
    · exact h3
    · exact h4
    · exact h5

theorem HessInSync.iff {s : State K} : HessInSync p s ↔
    ∀ H, s.cstrHess = some H → H = s.X.map fun x => p.rowHess (x.take p.nVar) := by
  unfold HessInSync Funcs.rowHess
  simp only [optVal_eq]

theorem primal_length {X : List (List K)} (hd : p.nVar ≤ dim) (hX : ∀ x ∈ X, x.length = dim) :
    ∀ q ∈ p.primal X, q.length = p.nVar := by
  intro q hq
  obtain ⟨x, hx, rfl⟩ := List.mem_map.mp hq
  rw [List.length_take, hX x hx]
  exact min_eq_left hd

theorem update_sync (hp : p.Ok nObj) (hd : p.nVar ≤ dim) {s s' : State K} {X : List (List K)} {g h : Bool}
    (hX : ∀ x ∈ X, x.length = dim) (hu : p.update s X g h = some s') :
    s'.X = X ∧ InSync p s' ∧ (h = true → HessInSync p s') ∧ s'.J.isSome = g ∧ (h = true → s'.cstrHess.isSome) ∧
      (h = false → s'.cstrHess = s.cstrHess) := by
  have hP := primal_length (p := p) hd hX
  unfold Funcs.update at hu
  simp only [Option.bind_eq_some_iff, Option.map_eq_some_iff] at hu
  obtain ⟨Y, hY, J, hJ, c, hc, dc, hdc, hh, hhc, rfl⟩ := hu
  have hY' := hp.func.evalRows hP hY
  have hc' := hp.evalCstrBatch hP hc
  have hdc' := hp.evalCstrJacBatch hP hdc
  refine ⟨rfl, ?_, ?_, ?_, ?_, ?_⟩
  · rw [InSync.iff]
    refine ⟨?_, ?_, ?_, ?_, ?_⟩
    · simp only [hY', Funcs.primal, List.map_map]
      rfl
    · intro J' hJ'
      simp only at hJ'
      unfold Funcs.evalJ at hJ
      cases g
      · simp only [Bool.false_eq_true, if_false, Option.some.injEq] at hJ
        rw [← hJ] at hJ'
        exact absurd hJ' (by simp)
      · simp only [if_true, Option.map_eq_some_iff] at hJ
        obtain ⟨J0, hJ0, rfl⟩ := hJ
        simp only [Option.some.injEq] at hJ'
        rw [← hJ', hp.jac.evalRows hP hJ0]
        simp only [Funcs.primal, List.map_map]
        rfl
    · simp only [hc'.1, Funcs.primal, List.map_map]
      rfl
    · simp only [hc'.2, Funcs.primal, List.map_map]
      rfl
    · simp only [hdc', Funcs.primal, List.map_map]
      rfl
  · rintro rfl
    rw [HessInSync.iff]
    intro H hH
    unfold Funcs.evalH at hhc
    simp only [if_true, Option.map_eq_some_iff] at hhc
    obtain ⟨r, hr, rfl⟩ := hhc
    simp only [Option.some.injEq] at hH
    rw [← hH, hp.evalCstrHessBatch hP hr]
    simp only [Funcs.primal, List.map_map]
    rfl
  · unfold Funcs.evalJ at hJ
    cases g
    · simp only [Bool.false_eq_true, if_false, Option.some.injEq] at hJ
      rw [← hJ]
      rfl
    · simp only [if_true, Option.map_eq_some_iff] at hJ
      obtain ⟨J0, _, rfl⟩ := hJ
      rfl
  · rintro rfl
    unfold Funcs.evalH at hhc
    simp only [if_true, Option.map_eq_some_iff] at hhc
    obtain ⟨r, _, rfl⟩ := hhc
    rfl
  · rintro rfl
    unfold Funcs.evalH at hhc
    simp only [Bool.false_eq_true, if_false, Option.some.injEq] at hhc
    rw [← hhc]

theorem take_length (hd : p.nVar ≤ dim) {x : List K} (hx : x.length = dim) : (x.take p.nVar).length = p.nVar := by
  rw [List.length_take, hx]
  exact min_eq_left hd

theorem updateOne_sync (hp : p.Ok nObj) (hd : p.nVar ≤ dim) {s s' : State K} {x : List K} {k : ℕ}
    (hx : x.length = dim) (hu : p.updateOne s x k = some s') :
    k < s.X.length ∧ s'.X = s.X.set k x ∧ (InSync p s → InSync p s') ∧ (HessInSync p s → HessInSync p s') ∧
      (InSync p s → ∀ i ≠ k, s'.X[i]? = s.X[i]? ∧ s'.Y[i]? = s.Y[i]? ∧
        (s'.J.bind fun J => J[i]?) = (s.J.bind fun J => J[i]?) ∧ s'.cstrValue[i]? = s.cstrValue[i]? ∧
        s'.active[i]? = s.active[i]? ∧ s'.cstrGrad[i]? = s.cstrGrad[i]? ∧
        (s'.cstrHess.bind fun H => H[i]?) = (s.cstrHess.bind fun H => H[i]?)) ∧
      s'.J.isSome ∧ s'.cstrHess.isSome := by
  have hq := take_length (p := p) hd hx
  unfold Funcs.updateOne at hu
  simp only [Option.bind_eq_some_iff, Option.map_eq_some_iff] at hu
  obtain ⟨X, hX, Y, hY, J0, hJ0, J, hJ, c, hc, cv, hcv, act, hact, dc, hdc, cg, hcg, hh, hhc, H0, hH0, ch, hch, rfl⟩ := hu
  rw [hp.evalCstrPoint hq] at hc
  rw [hp.evalCstrJacPoint hq] at hdc
  rw [hp.evalCstrHessPoint hq] at hhc
  have hc' := Option.some.inj hc
  have hdc' := Option.some.inj hdc
  have hhc' := Option.some.inj hhc
  subst hc' hdc' hhc'
  obtain ⟨hk, rfl⟩ := setRow_spec hX
  obtain ⟨_, rfl⟩ := setRow_spec hY
  obtain ⟨_, rfl⟩ := setRow_spec hJ
  obtain ⟨_, rfl⟩ := setRow_spec hcv
  obtain ⟨_, rfl⟩ := setRow_spec hact
  obtain ⟨_, rfl⟩ := setRow_spec hcg
  obtain ⟨_, rfl⟩ := setRow_spec hch
  refine ⟨hk, rfl, ?_, ?_, ?_, rfl, rfl⟩
  · intro hs
    rw [InSync.iff] at hs ⊢
    obtain ⟨h1, h2, h3, h4, h5⟩ := hs
    refine ⟨?_, ?_, ?_, ?_, ?_⟩
    · simp only [h1, List.map_set]
    · intro J' hJ'
      simp only [Option.some.injEq] at hJ'
      rw [← hJ', h2 J0 hJ0, List.map_set]
    · simp only [h3, List.map_set]
    · simp only [h4, List.map_set]
    · simp only [h5, List.map_set]
  · intro hs
    rw [HessInSync.iff] at hs ⊢
    intro H hH
    simp only [Option.some.injEq] at hH
    rw [← hH, hs H0 hH0, List.map_set]
  · intro _ i hi
    simp only [hJ0, hH0, Option.bind_some, List.getElem?_set_ne (Ne.symm hi), and_self]

/-- C23: after any sequence of calls that does not raise, the objectives, the Jacobians (if they are
there), constraint values, activity flags and constraint gradients are those of the current population. -/
theorem C23_sync (hp : p.Ok nObj) (hd : p.nVar ≤ dim) {ops : List (Op K)} (hops : ∀ op ∈ ops, op.Fits dim)
    {s : State K} (h : exec p State.init ops = some s) : InSync p s := by
  have key : ∀ (ops : List (Op K)) (s0 s : State K), (∀ op ∈ ops, op.Fits dim) → InSync p s0 →
      exec p s0 ops = some s → InSync p s := by
    intro ops
    induction ops with
    | nil => intro s0 s _ h0 h; rw [← Option.some.inj h]; exact h0
    | cons op ops ih =>
      intro s0 s hf h0 h
      have hop := hf op (by simp)
      have hr := fun op' h' => hf op' (List.mem_cons_of_mem _ h')
      cases op with
      | update X g hh =>
        simp only [exec, Option.bind_eq_some_iff] at h
        obtain ⟨s1, h1, h2⟩ := h
        exact ih s1 s hr (update_sync hp hd hop h1).2.1 h2
      | updateOne x k =>
        simp only [exec, Option.bind_eq_some_iff] at h
        obtain ⟨s1, h1, h2⟩ := h
        exact ih s1 s hr ((updateOne_sync hp hd hop h1).2.2.1 h0) h2
  refine key ops State.init s hops ⟨rfl, ?_, rfl, rfl, rfl⟩ h
  intro J hJ
  exact absurd hJ (by simp [State.init])

/-- C23 for the Hessians of the constraints: they are in sync if every `update` computed them. -/
theorem C23_hessian (hp : p.Ok nObj) (hd : p.nVar ≤ dim) {ops : List (Op K)} (hops : ∀ op ∈ ops, op.Fits dim)
    (hh : ∀ X g h, Op.update X g h ∈ ops → h = true) {s : State K} (h : exec p State.init ops = some s) :
    HessInSync p s := by
  have key : ∀ (ops : List (Op K)) (s0 s : State K), (∀ op ∈ ops, op.Fits dim) →
      (∀ X g h, Op.update X g h ∈ ops → h = true) → HessInSync p s0 → exec p s0 ops = some s →
      HessInSync p s := by
    intro ops
    induction ops with
    | nil => intro s0 s _ _ h0 h; rw [← Option.some.inj h]; exact h0
    | cons op ops ih =>
      intro s0 s hf hh h0 h
      have hop := hf op (by simp)
      have hr := fun op' h' => hf op' (List.mem_cons_of_mem _ h')
      have hr2 := fun X g h h' => hh X g h (List.mem_cons_of_mem _ h')
      cases op with
      | update X g hb =>
        simp only [exec, Option.bind_eq_some_iff] at h
        obtain ⟨s1, h1, h2⟩ := h
        exact ih s1 s hr hr2 ((update_sync hp hd hop h1).2.2.1 (hh X g hb (by simp))) h2
      | updateOne x k =>
        simp only [exec, Option.bind_eq_some_iff] at h
        obtain ⟨s1, h1, h2⟩ := h
        exact ih s1 s hr hr2 ((updateOne_sync hp hd hop h1).2.2.2.1 h0) h2
  refine key ops State.init s hops hh ?_ h
  intro H hH
  exact absurd hH (by simp [State.init])

/-- C23: a function with another number of values than stated raises, for single points and for populations. -/
theorem C23_wrong_size {f : Callback K} {m m' : ℕ} (hb : f.batch = none) (hm : m' ≠ m) {X : List (List K)}
    (hX : ∀ x ∈ X, (f.point x).length = m') :
    evalBatch (some f) (some m) X = none ∧ ∀ x ∈ X, evalPoint (some f) (some m) x = none := by
  refine ⟨?_, fun x hx => if_neg (by rw [hX x hx]; exact hm)⟩
  rcases X with _ | ⟨x, X⟩
  · simp [evalBatch, Callback.evalRows, hb, stack]
  · have hr : ∀ V, f.evalRows (x :: X) = some V → V = (x :: X).map f.point := by
      intro V hV
      simp only [Callback.evalRows, hb, stack, List.map_cons] at hV
      split_ifs at hV
      exact (Option.some.inj hV).symm
    rcases hV : f.evalRows (x :: X) with _ | V
    · simp [evalBatch, hV]
    · have hl : V.flatten.length = (X.length + 1) * m' := by
        rw [hr V hV, List.length_flatten, List.map_map, List.map_congr_left (f := List.length ∘ f.point) (g := fun _ => m') hX]
        simp
        rw [Nat.add_mul, Nat.one_mul, Nat.add_comm]
      simp only [evalBatch, hV, Option.bind_some, reshape2]
      rw [if_neg]
      rw [hl, List.length_cons]
      exact fun e => hm (Nat.eq_of_mul_eq_mul_left (by omega) e)

/-- Two values where one is stated. -/
example : evalBatch (some (⟨fun x => [x.sum, 1], none⟩ : Callback ℚ)) (some 1) [[1, 2], [3, 4]] = none :=
  (C23_wrong_size (m' := 2) rfl (by decide) (by simp)).1

/-- C23: `update` does not raise for a non-empty population; the population is replaced. -/
theorem C23_update (hp : p.Ok nObj) (hd : p.nVar ≤ dim) (s : State K) {X : List (List K)} (hne : X ≠ [])
    (hX : ∀ x ∈ X, x.length = dim) (g h : Bool) :
    ∃ s', p.update s X g h = some s' ∧ s'.X = X ∧ InSync p s' ∧ (h = true → HessInSync p s') ∧
      s'.J.isSome = g ∧ (h = true → s'.cstrHess.isSome) := by
  have hP := primal_length (p := p) hd hX
  have hPne : p.primal X ≠ [] := by simpa [Funcs.primal] using hne
  have : ∃ s', p.update s X g h = some s' := by
    unfold Funcs.update
    have hY : evalBatch (some p.func) none (p.primal X) = some ((p.primal X).map p.func.point) :=
      hp.func.evalRows_some hP hPne
    have hJ : ∃ J, p.evalJ (p.primal X) g = some J := by
      unfold Funcs.evalJ
      cases g
      · exact ⟨_, rfl⟩
      · have : evalBatch (some p.jac) none (p.primal X) = some ((p.primal X).map p.jac.point) :=
          hp.jac.evalRows_some hP hPne
        rw [this]
        exact ⟨_, rfl⟩
    have hH : ∃ r, p.evalH s.cstrHess (p.primal X) h = some r := by
      unfold Funcs.evalH
      cases h
      · exact ⟨_, rfl⟩
      · rw [hp.evalCstrHessBatch_some hP hPne]
        exact ⟨_, rfl⟩
    obtain ⟨J, hJ⟩ := hJ
    obtain ⟨r, hr⟩ := hH
    simp only [hY, hJ, hp.evalCstrBatch_some hP hPne, hp.evalCstrJacBatch_some hP hPne, hr]
    exact ⟨_, rfl⟩
  obtain ⟨s', hs'⟩ := this
  obtain ⟨a1, a2, a3, a4, a5, _⟩ := update_sync hp hd hX hs'
  exact ⟨s', hs', a1, a2, a3, a4, a5⟩

/-- C23: `update_one` on a state in sync with Jacobians and Hessians does not raise for an index in range;
row `k` is then that of `x`, the other rows are unchanged, and everything is in sync. -/
theorem C23_updateOne (hp : p.Ok nObj) (hd : p.nVar ≤ dim) {s : State K} (hs : InSync p s) (hh : HessInSync p s)
    (hJ : s.J.isSome) (hH : s.cstrHess.isSome) (hX : ∀ x ∈ s.X, x.length = dim) {x : List K} (hx : x.length = dim)
    {k : ℕ} (hk : k < s.X.length) :
    ∃ s', p.updateOne s x k = some s' ∧ s'.X = s.X.set k x ∧ InSync p s' ∧ HessInSync p s' ∧
      ∀ i ≠ k, s'.X[i]? = s.X[i]? ∧ s'.Y[i]? = s.Y[i]? ∧
        (s'.J.bind fun J => J[i]?) = (s.J.bind fun J => J[i]?) ∧ s'.cstrValue[i]? = s.cstrValue[i]? ∧
        s'.active[i]? = s.active[i]? ∧ s'.cstrGrad[i]? = s.cstrGrad[i]? ∧
        (s'.cstrHess.bind fun H => H[i]?) = (s.cstrHess.bind fun H => H[i]?) := by
  have hq := take_length (p := p) hd hx
  have hqs : ∀ y ∈ s.X, (y.take p.nVar).length = p.nVar := fun y hy => take_length hd (hX y hy)
  obtain ⟨J, hJ⟩ := Option.isSome_iff_exists.mp hJ
  obtain ⟨H, hH⟩ := Option.isSome_iff_exists.mp hH
  have : ∃ s', p.updateOne s x k = some s' := by
    obtain ⟨h1, h2, h3, h4, h5⟩ := InSync.iff.mp hs
    have h6 := HessInSync.iff.mp hh H hH
    have h2 := h2 J hJ
    have e0 : setRow s.X k x = some (s.X.set k x) := by
      have := setRow_map (X := s.X) (f := fun x => x) hk (r := x) (fun y hy => by rw [hX y hy, hx])
      simpa using this
    have e1 : setRow s.Y k (p.func.point (x.take p.nVar)) = some (s.Y.set k (p.func.point (x.take p.nVar))) := by
      rw [h1]
      exact setRow_map hk fun y hy => by rw [hp.func.size _ (hqs y hy), hp.func.size _ hq]
    have e2 : setRow J k (p.jac.point (x.take p.nVar)) = some (J.set k (p.jac.point (x.take p.nVar))) := by
      rw [h2]
      exact setRow_map hk fun y hy => by rw [hp.jac.size _ (hqs y hy), hp.jac.size _ hq]
    have e3 : setRow s.cstrValue k (p.rowCstr (x.take p.nVar)) =
        some (s.cstrValue.set k (p.rowCstr (x.take p.nVar))) := by
      rw [h3]
      exact setRow_map hk fun y hy => by rw [hp.rowCstr_length (hqs y hy), hp.rowCstr_length hq]
    have e4 : setRow s.active k (p.rowActive (x.take p.nVar)) =
        some (s.active.set k (p.rowActive (x.take p.nVar))) := by
      rw [h4]
      exact setRow_map hk fun y hy => by rw [hp.rowActive_length (hqs y hy), hp.rowActive_length hq]
    have e5 : setRow s.cstrGrad k (p.rowGrad (x.take p.nVar)) =
        some (s.cstrGrad.set k (p.rowGrad (x.take p.nVar))) := by
      rw [h5]
      exact setRow_map hk fun y hy => by rw [hp.rowGrad_length (hqs y hy), hp.rowGrad_length hq]
    have e6 : setRow H k (p.rowHess (x.take p.nVar)) = some (H.set k (p.rowHess (x.take p.nVar))) := by
      rw [h6]
      exact setRow_map hk fun y hy => by rw [hp.rowHess_length (hqs y hy), hp.rowHess_length hq]
    unfold Funcs.updateOne
    simp only [e0, e1, hJ, e2, hp.evalCstrPoint hq, e3, e4, hp.evalCstrJacPoint hq, e5, hp.evalCstrHessPoint hq, hH,
      e6, Option.bind_some, Option.map_some]
    exact ⟨_, rfl⟩
  obtain ⟨s', hs'⟩ := this
  obtain ⟨_, a2, a3, a4, a5, _⟩ := updateOne_sync hp hd hx hs'
  exact ⟨s', hs', a2, a3 hs, a4 hh, a5 hs⟩

end

/-- Two variables, two objectives, one equality and one inequality without Hessians; the objectives have a
batch variant, which is a method of its own. -/
def stateFuncs : Funcs ℚ where
  nVar := 2
  nEq := 1
  nIeq := 1
  func := ⟨fun x => [x.getD 0 0 * x.getD 0 0, x.getD 1 0], some fun X => X.map fun x => [x.getD 0 0 ^ 2, x.getD 1 0]⟩
  jac := ⟨fun x => [2 * x.getD 0 0, 0, 0, 1], none⟩
  h := some ⟨fun x => [x.getD 0 0 - x.getD 1 0], none⟩
  hJac := some ⟨fun _ => [1, -1], none⟩
  hHess := none
  g := some ⟨fun x => [x.getD 0 0 - 1], none⟩
  gJac := some ⟨fun _ => [1, 0], none⟩
  gHess := some ⟨fun x => [x.getD 0 0, 0, 0, 0], none⟩

theorem stateFuncs_ok : stateFuncs.Ok 2 where
  func := ⟨fun b hb X _ => by
    simp only [stateFuncs, Option.some.injEq] at hb
    subst hb
    simp [stateFuncs, pow_two], fun _ _ => rfl⟩
  jac := ⟨fun b hb => by simp [stateFuncs] at hb, fun _ _ => rfl⟩
  h := by rintro c hc; simp only [stateFuncs, Option.some.injEq] at hc; subst hc; exact ⟨by simp, fun _ _ => rfl⟩
  g := by rintro c hc; simp only [stateFuncs, Option.some.injEq] at hc; subst hc; exact ⟨by simp, fun _ _ => rfl⟩
  hJac := by rintro c hc; simp only [stateFuncs, Option.some.injEq] at hc; subst hc; exact ⟨by simp, fun _ _ => rfl⟩
  gJac := by rintro c hc; simp only [stateFuncs, Option.some.injEq] at hc; subst hc; exact ⟨by simp, fun _ _ => rfl⟩
  hHess := by rintro c hc; simp [stateFuncs] at hc
  gHess := by rintro c hc; simp only [stateFuncs, Option.some.injEq] at hc; subst hc; exact ⟨by simp, fun _ _ => rfl⟩

/-- Two points with two dual variables each; then the second one is replaced. -/
def stateOps : List (Op ℚ) :=
  [.update [[1, 2, 5, 6], [1 / 2, 1 / 2, 7, 8]] true true, .updateOne [3, 4, 9, 10] 1]

theorem stateOps_fits : ∀ op ∈ stateOps, op.Fits 4 := by
  intro op hop
  simp only [stateOps, List.mem_cons, List.not_mem_nil, or_false] at hop
  rcases hop with rfl | rfl
  · simp [Op.Fits]
  · simp [Op.Fits]

theorem exists_of_any {α : Type*} {o : Option α} {q : α → Bool} (h : o.any q = true) :
    ∃ a, o = some a ∧ q a = true := by
  rcases o with _ | a
  · exact absurd h (by simp)
  · exact ⟨a, rfl, h⟩

example : ∃ s, exec stateFuncs State.init stateOps = some s ∧ (s.Y = [[1, 2], [9, 4]] ∧
    s.J = some [[2, 0, 0, 1], [6, 0, 0, 1]] ∧ s.cstrValue = [[-1, 0], [-1, 2]] ∧
    s.active = [[true, true], [true, true]] ∧
    s.cstrHess = some [[0, 0, 0, 0, 1, 0, 0, 0], [0, 0, 0, 0, 3, 0, 0, 0]]) ∧
    InSync stateFuncs s ∧ HessInSync stateFuncs s := by
  have h : ((exec stateFuncs State.init stateOps).any fun s => decide (s.Y = [[1, 2], [9, 4]] ∧
    s.J = some [[2, 0, 0, 1], [6, 0, 0, 1]] ∧ s.cstrValue = [[-1, 0], [-1, 2]] ∧
    s.active = [[true, true], [true, true]] ∧
    s.cstrHess = some [[0, 0, 0, 0, 1, 0, 0, 0], [0, 0, 0, 0, 3, 0, 0, 0]])) = true := by decide +kernel
  obtain ⟨s, hs, h2⟩ := exists_of_any h
  refine ⟨s, hs, of_decide_eq_true h2, C23_sync stateFuncs_ok (by decide) stateOps_fits hs,
    C23_hessian stateFuncs_ok (by decide) stateOps_fits (by
      intro X g h hm
      simp only [stateOps, List.mem_cons, List.not_mem_nil, or_false] at hm
      rcases hm with hm | hm
      · injection hm
      · exact absurd hm (by simp)) hs⟩

/-- Without `compute_hessian` the Hessians of the old population are kept: after two updates they do not
even have the right number of rows. -/
theorem C23_stale_hessian : ∃ s, exec stateFuncs State.init
      [.update [[1, 2, 5, 6], [2, 2, 7, 8]] true true, .update [[4, 4, 0, 0]] true false] = some s ∧
    InSync stateFuncs s ∧ ¬ HessInSync stateFuncs s := by
  have h : ((exec stateFuncs State.init
      [.update [[1, 2, 5, 6], [2, 2, 7, 8]] true true, .update [[4, 4, 0, 0]] true false]).any fun s =>
      decide (s.X.length = 1 ∧ (s.cstrHess.map List.length) = some 2)) = true := by decide +kernel
  obtain ⟨s, hs, h2⟩ := exists_of_any h
  rw [decide_eq_true_eq] at h2
  refine ⟨s, hs, C23_sync stateFuncs_ok (by decide) (dim := 4) ?_ hs, ?_⟩
  · intro op hop
    simp only [List.mem_cons, List.not_mem_nil, or_false] at hop
    rcases hop with rfl | rfl <;> simp [Op.Fits]
  · intro hh
    rcases hH : s.cstrHess with _ | H
    · rw [hH] at h2; simp at h2
    · have := congrArg List.length (hh H hH)
      rw [hH] at h2
      simp only [Option.map_some, Option.some.injEq] at h2
      rw [List.length_map, h2.1, h2.2] at this
      exact absurd this (by decide)

/-! ### C24 -/

/-- The number of evaluated points of a call, for the Jacobian of the objectives and the Jacobian and the
Hessian of the constraints (if there are any). -/
def Op.evals (p : Funcs K) : Op K → ℕ × ℕ × ℕ
  | .update X g h => (if g then X.length else 0, if p.hasJac then X.length else 0, if h && p.hasHess then X.length else 0)
  | .updateOne _ _ => (1, if p.hasJac then 1 else 0, if p.hasHess then 1 else 0)

/-- C24: the counters are the numbers of evaluated points. -/
theorem C24_counters (p : Funcs K) : ∀ (ops : List (Op K)) (s s' : State K), exec p s ops = some s' →
    s'.nJac = s.nJac + (ops.map fun op => (op.evals p).1).sum ∧
    s'.nCstrJac = s.nCstrJac + (ops.map fun op => (op.evals p).2.1).sum ∧
    s'.nCstrHess = s.nCstrHess + (ops.map fun op => (op.evals p).2.2).sum := by
  intro ops
  induction ops with
  | nil =>
    intro s s' h
    rw [← Option.some.inj h]
    simp
  | cons op ops ih =>
    intro s s' h
    cases op with
    | update X g hb =>
      simp only [exec, Option.bind_eq_some_iff] at h
      obtain ⟨s1, h1, h2⟩ := h
      obtain ⟨i1, i2, i3⟩ := ih s1 s' h2
      unfold Funcs.update at h1
      simp only [Option.bind_eq_some_iff, Option.map_eq_some_iff] at h1
      obtain ⟨Y, hY, J, hJ, c, hc, dc, hdc, hh, hhc, rfl⟩ := h1
      have e1 : J.2 = if g then X.length else 0 := by
        unfold Funcs.evalJ at hJ
        cases g
        · simp only [Bool.false_eq_true, if_false, Option.some.injEq] at hJ
          rw [← hJ]; rfl
        · simp only [if_true, Option.map_eq_some_iff] at hJ
          obtain ⟨J0, _, rfl⟩ := hJ
          simp [Funcs.primal]
      have e2 := Funcs.evalCstrJacBatch_count hdc
      have e3 : hh.2 = if hb && p.hasHess then X.length else 0 := by
        unfold Funcs.evalH at hhc
        cases hb
        · simp only [Bool.false_eq_true, if_false, Option.some.injEq] at hhc
          rw [← hhc]; rfl
        · simp only [if_true, Option.map_eq_some_iff] at hhc
          obtain ⟨r, hr, rfl⟩ := hhc
          rw [Funcs.evalCstrHessBatch_count hr]
          simp [Funcs.primal]
      simp only [Funcs.primal, List.length_map] at e2
      simp only at i1 i2 i3
      simp only [List.map_cons, List.sum_cons, Op.evals, i1, i2, i3, e1, e2, e3]
      omega
    | updateOne x k =>
      simp only [exec, Option.bind_eq_some_iff] at h
      obtain ⟨s1, h1, h2⟩ := h
      obtain ⟨i1, i2, i3⟩ := ih s1 s' h2
      unfold Funcs.updateOne at h1
      simp only [Option.bind_eq_some_iff, Option.map_eq_some_iff] at h1
      obtain ⟨_, _, _, _, _, _, _, _, c, hc, _, _, _, _, dc, hdc, _, _, hh, hhc, _, _, _, _, rfl⟩ := h1
      have e2 := Funcs.evalCstrJacPoint_count hdc
      have e3 := Funcs.evalCstrHessPoint_count hhc
      simp only at i1 i2 i3
      simp only [List.map_cons, List.sum_cons, Op.evals, i1, i2, i3, e2, e3]
      omega

/-- The same callbacks without their batch variants. -/
def unbatched (p : Funcs K) : Funcs K :=
  { p with
    func := ⟨p.func.point, none⟩, jac := ⟨p.jac.point, none⟩
    h := p.h.map fun f => ⟨f.point, none⟩, hJac := p.hJac.map fun f => ⟨f.point, none⟩
    hHess := p.hHess.map fun f => ⟨f.point, none⟩, g := p.g.map fun f => ⟨f.point, none⟩
    gJac := p.gJac.map fun f => ⟨f.point, none⟩, gHess := p.gHess.map fun f => ⟨f.point, none⟩ }

theorem optOk_unbatched {n m : ℕ} {f : Option (Callback K)} (hf : OptOk n m f) :
    OptOk n m (f.map fun f => ⟨f.point, none⟩) := by
  intro c hc
  rcases f with _ | f
  · exact absurd hc (by simp)
  · simp only [Option.map_some, Option.some.injEq] at hc
    subst hc
    exact ⟨by simp, (hf f rfl).size⟩

theorem valOf_unbatched (f : Option (Callback K)) (m : ℕ) :
    valOf (f.map fun f => (⟨f.point, none⟩ : Callback K)) m = valOf f m := by
  rcases f with _ | f <;> rfl

theorem evalBatch_unbatched {n m : ℕ} {f : Option (Callback K)} (hf : OptOk n m f) {X : List (List K)}
    (hX : ∀ x ∈ X, x.length = n) (hne : X ≠ []) :
    evalBatch (f.map fun f => ⟨f.point, none⟩) (some m) X = evalBatch f (some m) X := by
  rw [evalBatch_some hf hX hne, evalBatch_some (optOk_unbatched hf) hX hne, valOf_unbatched]

theorem evalPoint_unbatched (f : Option (Callback K)) (m : ℕ) (x : List K) :
    evalPoint (f.map fun f => (⟨f.point, none⟩ : Callback K)) (some m) x = evalPoint f (some m) x := by
  rcases f with _ | f <;> rfl

theorem evalRows_unbatched {n m : ℕ} {f : Callback K} (hf : CallbackOk n m f) {X : List (List K)}
    (hX : ∀ x ∈ X, x.length = n) (hne : X ≠ []) :
    evalBatch (some (⟨f.point, none⟩ : Callback K)) none X = evalBatch (some f) none X := by
  have h2 : CallbackOk n m (⟨f.point, none⟩ : Callback K) := ⟨by simp, hf.size⟩
  simp only [evalBatch]
  rw [hf.evalRows_some hX hne, h2.evalRows_some hX hne]

/-- C24: the batch variants change nothing, neither values nor counters. -/
theorem C24_batch {p : Funcs K} {nObj dim : ℕ} (hp : p.Ok nObj) (hd : p.nVar ≤ dim) :
    ∀ (ops : List (Op K)) (s : State K), (∀ op ∈ ops, op.Fits dim) → (∀ X g h, Op.update X g h ∈ ops → X ≠ []) →
      exec (unbatched p) s ops = exec p s ops := by
  intro ops
  induction ops with
  | nil => intro s _ _; rfl
  | cons op ops ih =>
    intro s hf hne
    have hop := hf op (by simp)
    have ih := fun s => ih s (fun op' h' => hf op' (List.mem_cons_of_mem _ h'))
      (fun X g h h' => hne X g h (List.mem_cons_of_mem _ h'))
    cases op with
    | update X g hb =>
      have hP := primal_length (p := p) hd hop
      have hPne : p.primal X ≠ [] := by simpa [Funcs.primal] using hne X g hb (by simp)
      have : (unbatched p).update s X g hb = p.update s X g hb := by
        unfold Funcs.update Funcs.evalJ Funcs.evalH Funcs.evalCstrBatch Funcs.evalCstrJacBatch Funcs.evalCstrHessBatch
        have e0 : (unbatched p).primal X = p.primal X := rfl
        have e1 : (unbatched p).flags = p.flags := rfl
        simp only [e0, e1]
        simp only [unbatched, Option.isNone_map, evalRows_unbatched hp.func hP hPne,
          evalRows_unbatched hp.jac hP hPne, evalBatch_unbatched hp.h hP hPne, evalBatch_unbatched hp.g hP hPne,
          evalBatch_unbatched hp.hJac hP hPne, evalBatch_unbatched hp.gJac hP hPne,
          evalBatch_unbatched hp.hHess hP hPne, evalBatch_unbatched hp.gHess hP hPne]
      simp only [exec, this, ih]
    | updateOne x k =>
      have : (unbatched p).updateOne s x k = p.updateOne s x k := by
        have e1 : (unbatched p).flags = p.flags := rfl
        have c1 : ∀ q, (unbatched p).evalCstrPoint q = p.evalCstrPoint q := by
          intro q
          simp only [Funcs.evalCstrPoint, e1]
          simp only [unbatched, evalPoint_unbatched]
        have c2 : ∀ q, (unbatched p).evalCstrJacPoint q = p.evalCstrJacPoint q := by
          intro q
          simp only [Funcs.evalCstrJacPoint, unbatched, Option.isNone_map, evalPoint_unbatched]
        have c3 : ∀ q, (unbatched p).evalCstrHessPoint q = p.evalCstrHessPoint q := by
          intro q
          simp only [Funcs.evalCstrHessPoint, unbatched, Option.isNone_map, evalPoint_unbatched]
        unfold Funcs.updateOne
        simp only [c1, c2, c3]
        rfl
      simp only [exec, this, ih]

/-- Two points, then one: three evaluations of each kind. -/
example : ∃ s, exec stateFuncs State.init stateOps = some s ∧ s.nJac = 3 ∧ s.nCstrJac = 3 ∧ s.nCstrHess = 3 := by
  have h : (exec stateFuncs State.init stateOps).isSome := by decide +kernel
  obtain ⟨s, hs⟩ := Option.isSome_iff_exists.mp h
  obtain ⟨h1, h2, h3⟩ := C24_counters stateFuncs stateOps State.init s hs
  exact ⟨s, hs, h1, h2, h3⟩

example : exec (unbatched stateFuncs) State.init stateOps = exec stateFuncs State.init stateOps :=
  C24_batch stateFuncs_ok (by decide) stateOps State.init stateOps_fits (by
    intro X g h hm
    simp only [stateOps, List.mem_cons, List.not_mem_nil, or_false] at hm
    rcases hm with hm | hm
    · injection hm with h1; rw [h1]; simp
    · exact absurd hm (by simp))

/-! ### C25 -/

/-- C25: slicing selects the same rows of all arrays, and a state in sync stays in sync. -/
theorem C25_rows {p : Funcs K} {s s' : State K} {idx : List ℕ} (h : s.getItem idx = some s') :
    (∀ j (hj : j < idx.length), idx[j] < s.X.length ∧ s'.X[j]? = s.X[idx[j]]? ∧ s'.Y[j]? = s.Y[idx[j]]? ∧
      (s'.J.bind fun J => J[j]?) = (s.J.bind fun J => J[idx[j]]?) ∧
      s'.cstrValue[j]? = s.cstrValue[idx[j]]? ∧ s'.active[j]? = s.active[idx[j]]? ∧
      s'.cstrGrad[j]? = s.cstrGrad[idx[j]]? ∧
      (s'.cstrHess.bind fun H => H[j]?) = (s.cstrHess.bind fun H => H[idx[j]]?)) ∧
    s'.X.length = idx.length ∧ (InSync p s → InSync p s') ∧ (HessInSync p s → HessInSync p s') := by
  unfold State.getItem at h
  simp only [Option.bind_eq_some_iff, Option.map_eq_some_iff] at h
  obtain ⟨X, hX, Y, hY, J0, hJ0, J, hJ, cv, hcv, act, hact, cg, hcg, H0, hH0, ch, hch, rfl⟩ := h
  refine ⟨?_, (selRows_spec hX).1, ?_, ?_⟩
  · intro j hj
    simp only [hJ0, hH0, Option.bind_some]
    exact ⟨((selRows_spec hX).2 j hj).1, ((selRows_spec hX).2 j hj).2, ((selRows_spec hY).2 j hj).2,
      ((selRows_spec hJ).2 j hj).2, ((selRows_spec hcv).2 j hj).2, ((selRows_spec hact).2 j hj).2,
      ((selRows_spec hcg).2 j hj).2, ((selRows_spec hch).2 j hj).2⟩
  · intro hs
    obtain ⟨h1, h2, h3, h4, h5⟩ := InSync.iff.mp hs
    rw [InSync.iff]
    refine ⟨?_, ?_, ?_, ?_, ?_⟩
    · rw [h1, selRows_map _ _ hX] at hY
      exact (Option.some.inj hY).symm
    · intro J' hJ'
      rw [h2 J0 hJ0, selRows_map _ _ hX] at hJ
      rw [← Option.some.inj hJ', ← Option.some.inj hJ]
    · rw [h3, selRows_map _ _ hX] at hcv
      exact (Option.some.inj hcv).symm
    · rw [h4, selRows_map _ _ hX] at hact
      exact (Option.some.inj hact).symm
    · rw [h5, selRows_map _ _ hX] at hcg
      exact (Option.some.inj hcg).symm
  · intro hs
    rw [HessInSync.iff] at hs ⊢
    intro H hH
    rw [hs H0 hH0, selRows_map _ _ hX] at hch
    rw [← Option.some.inj hH, ← Option.some.inj hch]

/-- C25: slicing does not raise if the indices are in range and the Jacobians and the Hessians of the
constraints have been computed. -/
theorem C25_defined {p : Funcs K} {s : State K} (hs : InSync p s) (hh : HessInSync p s) (hJ : s.J.isSome)
    (hH : s.cstrHess.isSome) {idx : List ℕ} (hidx : ∀ i ∈ idx, i < s.X.length) : ∃ s', s.getItem idx = some s' := by
  obtain ⟨J, hJ⟩ := Option.isSome_iff_exists.mp hJ
  obtain ⟨H, hH⟩ := Option.isSome_iff_exists.mp hH
  obtain ⟨h1, h2, h3, h4, h5⟩ := InSync.iff.mp hs
  have h2 := h2 J hJ
  have h6 := HessInSync.iff.mp hh H hH
  obtain ⟨X, hX⟩ := selRows_some hidx
  unfold State.getItem
  rw [hX, h1, hJ, h2, h3, h4, h5, hH, h6]
  simp only [selRows_map _ _ hX, Option.bind_some, Option.map_some]
  exact ⟨_, rfl⟩

/-- C25: slicing raises after an update without Jacobians. -/
theorem C25_no_jacobian {s : State K} (h : s.J = none) (idx : List ℕ) : s.getItem idx = none := by
  unfold State.getItem
  rw [h]
  rcases selRows s.X idx with _ | _
  · rfl
  · simp only [Option.bind_some, Option.bind_none, Option.bind_fun_none]

example : ∃ s s', exec stateFuncs State.init stateOps = some s ∧ s.getItem [1, 1, 0] = some s' ∧
    s'.Y = [[9, 4], [9, 4], [1, 2]] ∧ InSync stateFuncs s' := by
  have h : ((exec stateFuncs State.init stateOps).any fun s => (s.getItem [1, 1, 0]).any fun s' =>
      decide (s'.Y = [[9, 4], [9, 4], [1, 2]])) = true := by decide +kernel
  obtain ⟨s, hs, h2⟩ := exists_of_any h
  obtain ⟨s', hs', h3⟩ := exists_of_any h2
  exact ⟨s, s', hs, hs', of_decide_eq_true h3,
    (C25_rows hs').2.2.1 (C23_sync stateFuncs_ok (by decide) stateOps_fits hs)⟩

/-! #### Independence of the slice

The arrays are objects on a heap now. Calls on the state and on its slice are interleaved arbitrarily. -/

/-- A method call on a state object. -/
def callOn (p : Funcs K) (h : List (Obj K)) (r : Ref) : Op K → Option (List (Obj K) × Ref)
  | .update X g hb => hUpdate p h r X g hb
  | .updateOne x k => hUpdateOne p h r x k

/-- Calls on two state objects; `true` stands for the first one. -/
def interleave (p : Funcs K) : List (Obj K) → Ref → Ref → List (Bool × Op K) → Option (List (Obj K) × Ref × Ref)
  | h, r, r', [] => some (h, r, r')
  | h, r, r', (true, op) :: ops => (callOn p h r op).bind fun hr => interleave p hr.1 hr.2 r' ops
  | h, r, r', (false, op) :: ops => (callOn p h r' op).bind fun hr => interleave p hr.1 r hr.2 ops

/-- A state object refers to seven different arrays. -/
def Owns (h : List (Obj K)) (r : Ref) (s : State K) : Prop := r.addrs.Nodup ∧ r.view h = some s

/-- One call changes the object as the pure model says, and nothing that another object refers to. -/
theorem callOn_spec {p : Funcs K} {h h2 : List (Obj K)} {r r2 r' : Ref} {s s' : State K} {op : Op K}
    (ho : Owns h r s) (ho' : Owns h r' s') (hd : r.addrs.Disjoint r'.addrs) (hc : callOn p h r op = some (h2, r2)) :
    (∃ s2, exec p s [op] = some s2 ∧ Owns h2 r2 s2) ∧ Owns h2 r' s' ∧ r2.addrs.Disjoint r'.addrs := by
  obtain ⟨hn, hv⟩ := ho
  obtain ⟨hn', hv'⟩ := ho'
  obtain ⟨v1, v2, v3, v4⟩ := view_eq_some.mp hv
  obtain ⟨w1, w2, w3, w4⟩ := view_eq_some.mp hv'
  obtain ⟨l1, l2⟩ := readAll_lt v1
  obtain ⟨m1, m2⟩ := readAll_lt w1
  cases op with
  | update X g hb =>
    simp only [callOn, hUpdate, hv, Option.bind_some, Option.map_eq_some_iff] at hc
    obtain ⟨s2, hs2, hc⟩ := hc
    have hex : exec p s [.update X g hb] = some s2 := by
      simp only [exec, hs2, Option.bind_some]
    cases hb
    · simp only [Bool.false_eq_true, if_false, Prod.mk.injEq] at hc
      obtain ⟨rfl, rfl⟩ := hc
      have hH : s2.cstrHess = s.cstrHess := by
        unfold Funcs.update at hs2
        simp only [Option.bind_eq_some_iff, Option.map_eq_some_iff] at hs2
        obtain ⟨Y, hY, J, hJ, c, hc, dc, hdc, hh, hhc, rfl⟩ := hs2
        simp only [Funcs.evalH, Bool.false_eq_true, if_false, Option.some.injEq] at hhc
        rw [← hhc]
      have hlt : ∀ a ∈ r.addrs.drop 6, a < h.length := fun a ha => l1 a (List.mem_of_mem_drop ha)
      refine ⟨⟨s2, hex, ?_, ?_⟩, ⟨hn', ?_⟩, ?_⟩
      · refine List.nodup_append.mpr ⟨List.nodup_range', hn.sublist (List.drop_sublist _ _), ?_⟩
        rintro a ha b hb rfl
        have := hlt a hb
        have := (List.mem_range'_1.mp ha).1
        omega
      · rw [view_eq_some]
        refine ⟨?_, rfl, rfl, rfl⟩
        have e1 := readAll_alloc h (s2.cells.take 6)
        have e2 : readAll (h ++ s2.cells.take 6) (r.addrs.drop 6) = some (s.cells.drop 6) := by
          rw [readAll_append hlt]; exact readAll_drop 6 v1
        have e3 : s.cells.drop 6 = s2.cells.drop 6 := by simp only [State.cells, List.drop, hH]
        rw [e3] at e2
        have := readAll_append_addrs e1 e2
        rwa [List.take_append_drop] at this
      · rw [view_eq_some, readAll_append m1]
        exact ⟨w1, w2, w3, w4⟩
      · intro a ha hb
        rcases List.mem_append.mp ha with ha | ha
        · have := m1 a hb
          have := (List.mem_range'_1.mp ha).1
          omega
        · exact hd (List.mem_of_mem_drop ha) hb
    · simp only [if_true, Prod.mk.injEq] at hc
      obtain ⟨rfl, rfl⟩ := hc
      refine ⟨⟨s2, hex, List.nodup_range', ?_⟩, ⟨hn', ?_⟩, ?_⟩
      · rw [view_eq_some]
        exact ⟨readAll_alloc h s2.cells, rfl, rfl, rfl⟩
      · rw [view_eq_some, readAll_append m1]
        exact ⟨w1, w2, w3, w4⟩
      · intro a ha hb
        have := m1 a hb
        have := (List.mem_range'_1.mp ha).1
        omega
  | updateOne x k =>
    simp only [callOn, hUpdateOne, hv, Option.bind_some, Option.map_eq_some_iff, Prod.mk.injEq] at hc
    obtain ⟨s2, hs2, rfl, rfl⟩ := hc
    refine ⟨⟨s2, by simp only [exec, hs2, Option.bind_some], hn, ?_⟩, ⟨hn', ?_⟩, hd⟩
    · rw [view_eq_some]
      exact ⟨readAll_writeAll hn (by rw [l2]; rfl) l1, rfl, rfl, rfl⟩
    · rw [view_eq_some, readAll_congr (h := h) fun a ha => getElem?_writeAll fun hb => hd hb ha]
      exact ⟨w1, w2, w3, w4⟩

theorem exec_cons {p : Funcs K} {s s1 : State K} {op : Op K} {ops : List (Op K)} (h : exec p s [op] = some s1) :
    exec p s (op :: ops) = exec p s1 ops := by
  cases op <;> simp only [exec, Option.bind_eq_some_iff, Option.some.injEq] at h ⊢ <;>
    obtain ⟨_, h, rfl⟩ := h <;> rw [h] <;> rfl

/-- C25: whatever is called afterwards on the state and on its slice, each of them only sees its own calls. -/
theorem C25_independent {p : Funcs K} {h h0 h2 : List (Obj K)} {r r0 r2 r0' : Ref} {s : State K} {idx : List ℕ}
    (ho1 : Owns h r s) (hg : hGetItem h r idx = some (h0, r0)) {ops : List (Bool × Op K)}
    (hi : interleave p h0 r r0 ops = some (h2, r2, r0')) : ∃ s0 s2 s0', s.getItem idx = some s0 ∧
      exec p s ((ops.filter fun o => o.1).map Prod.snd) = some s2 ∧ r2.view h2 = some s2 ∧
      exec p s0 ((ops.filter fun o => !o.1).map Prod.snd) = some s0' ∧ r0'.view h2 = some s0' := by
  obtain ⟨s0, hs0, ho0, ho, hd⟩ : ∃ s0, s.getItem idx = some s0 ∧ Owns h0 r0 s0 ∧ Owns h0 r s ∧
      r.addrs.Disjoint r0.addrs := by
    obtain ⟨hn, hv⟩ := ho1
    obtain ⟨v1, v2, v3, v4⟩ := view_eq_some.mp hv
    obtain ⟨l1, l2⟩ := readAll_lt v1
    simp only [hGetItem, hv, Option.bind_some, Option.map_eq_some_iff, Prod.mk.injEq] at hg
    obtain ⟨s0, hs0, rfl, rfl⟩ := hg
    refine ⟨s0, hs0, ⟨List.nodup_range', ?_⟩, ⟨hn, ?_⟩, ?_⟩
    · rw [view_eq_some]
      exact ⟨readAll_alloc h s0.cells, rfl, rfl, rfl⟩
    · rw [view_eq_some, readAll_append l1]
      exact ⟨v1, v2, v3, v4⟩
    · intro a ha hb
      have := l1 a ha
      have := (List.mem_range'_1.mp hb).1
      omega
  refine ⟨s0, ?_⟩
  suffices ∃ s2 s0', exec p s ((ops.filter fun o => o.1).map Prod.snd) = some s2 ∧ r2.view h2 = some s2 ∧
      exec p s0 ((ops.filter fun o => !o.1).map Prod.snd) = some s0' ∧ r0'.view h2 = some s0' by
    obtain ⟨s2, s0', h⟩ := this
    exact ⟨s2, s0', hs0, h⟩
  clear hg hs0 ho1
  induction ops generalizing h0 r r0 s s0 with
  | nil =>
    simp only [interleave, Option.some.injEq, Prod.mk.injEq] at hi
    obtain ⟨rfl, rfl, rfl⟩ := hi
    exact ⟨s, s0, rfl, ho.2, rfl, ho0.2⟩
  | cons o ops ih =>
    rcases o with ⟨b, op⟩
    cases b
    · simp only [interleave, Option.bind_eq_some_iff] at hi
      obtain ⟨⟨h1, r1⟩, hc, hi⟩ := hi
      obtain ⟨⟨s1, e1, o1⟩, o2, d2⟩ := callOn_spec ho0 ho (List.disjoint_symm hd) hc
      obtain ⟨s2, s0', i1, i2, i3, i4⟩ := ih hi s1 o1 o2 (List.disjoint_symm d2)
      refine ⟨s2, s0', ?_, i2, ?_, i4⟩
      · simpa using i1
      · simp only [List.filter_cons, Bool.not_false, if_true, List.map_cons]
        rw [exec_cons e1]; exact i3
    · simp only [interleave, Option.bind_eq_some_iff] at hi
      obtain ⟨⟨h1, r1⟩, hc, hi⟩ := hi
      obtain ⟨⟨s1, e1, o1⟩, o2, d2⟩ := callOn_spec ho ho0 hd hc
      obtain ⟨s2, s0', i1, i2, i3, i4⟩ := ih hi s0 o2 o1 d2
      refine ⟨s2, s0', ?_, i2, ?_, i4⟩
      · simp only [List.filter_cons, if_true, List.map_cons]
        rw [exec_cons e1]; exact i1
      · simpa using i3

/-- A state with two rows, its slice, and writes to both. -/
example : ∃ s, exec stateFuncs State.init stateOps = some s ∧
    Owns (s.cells) ⟨[0, 1, 2, 3, 4, 5, 6], s.nJac, s.nCstrJac, s.nCstrHess⟩ s ∧
    ((hGetItem s.cells ⟨[0, 1, 2, 3, 4, 5, 6], s.nJac, s.nCstrJac, s.nCstrHess⟩ [1, 0]).any fun hr =>
      (interleave stateFuncs hr.1 ⟨[0, 1, 2, 3, 4, 5, 6], s.nJac, s.nCstrJac, s.nCstrHess⟩ hr.2
        [(true, .updateOne [0, 0, 0, 0] 0), (false, .updateOne [7, 7, 7, 7] 0)]).any fun x =>
          (x.2.1.view x.1).any fun a => (x.2.2.view x.1).any fun b =>
            decide (a.X = [[0, 0, 0, 0], [3, 4, 9, 10]] ∧ b.X = [[7, 7, 7, 7], [1, 2, 5, 6]])) = true := by
  have h : ((exec stateFuncs State.init stateOps).any fun s =>
    ((hGetItem s.cells ⟨[0, 1, 2, 3, 4, 5, 6], s.nJac, s.nCstrJac, s.nCstrHess⟩ [1, 0]).any fun hr =>
      (interleave stateFuncs hr.1 ⟨[0, 1, 2, 3, 4, 5, 6], s.nJac, s.nCstrJac, s.nCstrHess⟩ hr.2
        [(true, .updateOne [0, 0, 0, 0] 0), (false, .updateOne [7, 7, 7, 7] 0)]).any fun x =>
          (x.2.1.view x.1).any fun a => (x.2.2.view x.1).any fun b =>
            decide (a.X = [[0, 0, 0, 0], [3, 4, 9, 10]] ∧ b.X = [[7, 7, 7, 7], [1, 2, 5, 6]]))) = true := by
    decide +kernel
  obtain ⟨s, hs, h2⟩ := exists_of_any h
  refine ⟨s, hs, ⟨show [0, 1, 2, 3, 4, 5, 6].Nodup by decide, ?_⟩, h2⟩
  rw [view_eq_some]
  exact ⟨by rw [readAll_eq_some]; rfl, rfl, rfl, rfl⟩

/-! ### C26 -/

/-- C26: row `i` is reported feasible iff all equalities are within `1e-4` of zero and all inequalities are
below `-1e-4`. -/
theorem C26_feasible {p : Funcs K} {nObj dim : ℕ} (hp : p.Ok nObj) (hd : p.nVar ≤ dim) {s : State K}
    (hs : InSync p s) (hX : ∀ x ∈ s.X, x.length = dim) :
    (p.isFeasible s).length = s.X.length ∧ ∀ i (hi : i < s.X.length), (p.isFeasible s)[i]? = some true ↔
      (∀ v ∈ optVal p.h p.nEq (s.X[i].take p.nVar), |v| ≤ 1 / 10 ^ 4) ∧
      (∀ v ∈ optVal p.g p.nIeq (s.X[i].take p.nVar), v < -(1 / 10 ^ 4)) := by
  unfold Funcs.isFeasible
  rw [hs.cstr, hs.active, List.map_map, List.map_map, Funcs.zipWith_map_map]
  refine ⟨by simp, fun i hi => ?_⟩
  rw [List.getElem?_map, List.getElem?_eq_getElem hi]
  simp only [Option.map_some, Option.some.injEq, Function.comp_apply]
  have hq : (s.X[i].take p.nVar).length = p.nVar := take_length hd (hX _ (List.getElem_mem hi))
  have hl : (optVal p.h p.nEq (s.X[i].take p.nVar)).length = p.nEq := by
    rw [optVal_eq]; exact valOf_length hp.h hq
  rw [List.take_append_of_le_length hl.ge, List.take_of_length_le hl.le,
    List.drop_append_of_le_length (by simp), List.drop_of_length_le (by simp), List.nil_append]
  simp only [sub_zero, zero_mul, add_zero, Bool.and_eq_true, List.all_eq_true, decide_eq_true_eq,
    Bool.not_eq_true', List.any_map, List.any_eq_false, Function.comp_apply, id_eq, not_le]

/-- C26: the row then passes the feasibility test of `check_KKT` with any tolerance from `1e-4` on. -/
theorem C26_implies_KKT_feasible [IsStrictOrderedRing K] {p : Funcs K} {nObj dim : ℕ} (hp : p.Ok nObj)
    (hd : p.nVar ≤ dim) {s : State K} (hs : InSync p s) (hX : ∀ x ∈ s.X, x.length = dim) {i : ℕ} (hi : i < s.X.length)
    (h : (p.isFeasible s)[i]? = some true) {tol : K} (htol : 1 / 10 ^ 4 ≤ tol) :
    (∀ v ∈ optVal p.h p.nEq (s.X[i].take p.nVar), |v| ≤ tol) ∧
    (∀ v ∈ optVal p.g p.nIeq (s.X[i].take p.nVar), v ≤ tol) := by
  obtain ⟨h1, h2⟩ := ((C26_feasible hp hd hs hX).2 i hi).mp h
  refine ⟨fun v hv => (h1 v hv).trans htol, fun v hv => ?_⟩
  have := h2 v hv
  have h4 : (0 : K) < 1 / 10 ^ 4 := by positivity
  linarith

/-- C26: the converse fails. The point `(1, 1)` is feasible, but its inequality is active. -/
theorem C26_active_infeasible : ∃ s, exec stateFuncs State.init [.update [[1, 1, 0, 0], [0, 0, 0, 0]] true true] = some s ∧
    stateFuncs.isFeasible s = [false, true] ∧ s.cstrValue = [[0, 0], [0, -1]] := by
  have h : ((exec stateFuncs State.init [.update [[1, 1, 0, 0], [0, 0, 0, 0]] true true]).any fun s =>
      decide (stateFuncs.isFeasible s = [false, true] ∧ s.cstrValue = [[0, 0], [0, -1]])) = true := by decide +kernel
  obtain ⟨s, hs, h2⟩ := exists_of_any h
  exact ⟨s, hs, of_decide_eq_true h2⟩

end Verif.Props
