import Verif.Opt.State

/-!
# Lemmas on `State`
-/

namespace Verif.Opt

open Verif.Util

variable {K : Type*} [Field K] [LinearOrder K]

/-- The value of an optional callback at a point: zeros if there is none. -/
def valOf (f : Option (Callback K)) (m : ℕ) (x : List K) : List K :=
  match f with
  | none => List.replicate m 0
  | some f => f.point x

/-- The batch variant of a callback, if there is one, does the same as the callback row by row, and at
every point of dimension `n` there are `m` values. -/
structure CallbackOk (n m : ℕ) (f : Callback K) : Prop where
  agrees : ∀ b, f.batch = some b → ∀ X : List (List K), (∀ x ∈ X, x.length = n) → b X = X.map f.point
  size : ∀ x : List K, x.length = n → (f.point x).length = m

theorem CallbackOk.evalRows {n m : ℕ} {f : Callback K} (hf : CallbackOk n m f) {X V : List (List K)}
    (hX : ∀ x ∈ X, x.length = n) (h : f.evalRows X = some V) : V = X.map f.point := by
  unfold Callback.evalRows at h
  rcases hb : f.batch with _ | b
  · rw [hb] at h
    simp only [stack] at h
    split at h
    · exact absurd h (by simp)
    · rename_i he
      split_ifs at h
      rw [← Option.some.inj h, ← he]
  · rw [hb] at h
    rw [← Option.some.inj h]
    exact hf.agrees b hb X hX

theorem CallbackOk.evalRows_some {n m : ℕ} {f : Callback K} (hf : CallbackOk n m f) {X : List (List K)}
    (hX : ∀ x ∈ X, x.length = n) (hne : X ≠ []) : f.evalRows X = some (X.map f.point) := by
  unfold Callback.evalRows
  rcases hb : f.batch with _ | b
  · simp only [stack]
    rcases X with _ | ⟨x, X⟩
    · exact absurd rfl hne
    · simp only [List.map_cons]
      rw [if_pos]
      rw [List.all_eq_true]
      intro r hr
      obtain ⟨y, hy, rfl⟩ := List.mem_map.mp hr
      rw [hf.size y (hX y (by simp [hy])), hf.size x (hX x (by simp))]
      simp
  · simp only
    rw [hf.agrees b hb X hX]

theorem reshape2_eq {N m : ℕ} {V : List (List K)} (hN : V.length = N) (hV : ∀ v ∈ V, v.length = m) :
    reshape2 N m V = some V := by
  have hl : V.map List.length = List.replicate N m := by
    rw [List.eq_replicate_iff]
    refine ⟨by simpa using hN, fun a ha => ?_⟩
    obtain ⟨v, hv, rfl⟩ := List.mem_map.mp ha
    exact hV v hv
  unfold reshape2
  rw [if_pos (by rw [List.length_flatten, hl]; simp), ← hl, slices_flatten]

/-- A given or missing callback with `m` values. -/
def OptOk (n m : ℕ) (f : Option (Callback K)) : Prop := ∀ c, f = some c → CallbackOk n m c

theorem evalBatch_spec {n m : ℕ} {f : Option (Callback K)} (hf : OptOk n m f) {X V : List (List K)}
    (hX : ∀ x ∈ X, x.length = n) (h : evalBatch f (some m) X = some V) : V = X.map (valOf f m) := by
  rcases f with _ | f
  · simp only [evalBatch, Option.some.injEq] at h
    rw [← h]
    unfold valOf
    simp
  · simp only [evalBatch] at h
    have hc := hf f rfl
    rcases hr : f.evalRows X with _ | W
    · rw [hr] at h; exact absurd h (by simp)
    · rw [hr] at h
      have hW := hc.evalRows hX hr
      subst hW
      simp only [Option.bind_some] at h
      rw [reshape2_eq (by simp) (by
        intro v hv
        obtain ⟨x, hx, rfl⟩ := List.mem_map.mp hv
        exact hc.size x (hX x hx))] at h
      rw [← Option.some.inj h]
      rfl

theorem evalBatch_some {n m : ℕ} {f : Option (Callback K)} (hf : OptOk n m f) {X : List (List K)}
    (hX : ∀ x ∈ X, x.length = n) (hne : X ≠ []) : evalBatch f (some m) X = some (X.map (valOf f m)) := by
  rcases f with _ | f
  · simp only [evalBatch]
    unfold valOf
    simp
  · have hc := hf f rfl
    simp only [evalBatch]
    rw [hc.evalRows_some hX hne]
    simp only [Option.bind_some]
    rw [reshape2_eq (by simp) (by
      intro v hv
      obtain ⟨x, hx, rfl⟩ := List.mem_map.mp hv
      exact hc.size x (hX x hx))]
    rfl

theorem evalPoint_some {n m : ℕ} {f : Option (Callback K)} (hf : OptOk n m f) {x : List K}
    (hx : x.length = n) : evalPoint f (some m) x = some (valOf f m x) := by
  rcases f with _ | f
  · rfl
  · simp only [evalPoint]
    rw [if_pos ((hf f rfl).size x hx)]
    rfl

theorem valOf_length {n m : ℕ} {f : Option (Callback K)} (hf : OptOk n m f) {x : List K}
    (hx : x.length = n) : (valOf f m x).length = m := by
  rcases f with _ | f
  · simp [valOf]
  · exact (hf f rfl).size x hx

/-- All callbacks are consistent with the dimensions given to the constructor; `nObj` objectives. -/
structure Funcs.Ok (p : Funcs K) (nObj : ℕ) : Prop where
  func : CallbackOk p.nVar nObj p.func
  jac : CallbackOk p.nVar (nObj * p.nVar) p.jac
  h : OptOk p.nVar p.nEq p.h
  g : OptOk p.nVar p.nIeq p.g
  hJac : OptOk p.nVar (p.nEq * p.nVar) p.hJac
  gJac : OptOk p.nVar (p.nIeq * p.nVar) p.gJac
  hHess : OptOk p.nVar (p.nEq * p.nVar * p.nVar) p.hHess
  gHess : OptOk p.nVar (p.nIeq * p.nVar * p.nVar) p.gHess

namespace Funcs

variable (p : Funcs K)

/-- The rows at a point with primal part `q`. -/
def rowCstr (q : List K) : List K := valOf p.h p.nEq q ++ valOf p.g p.nIeq q

def rowActive (q : List K) : List Bool :=
  List.replicate p.nEq true ++ (valOf p.g p.nIeq q).map fun v => decide (v ≥ -(1 / 10 ^ 4))

def rowGrad (q : List K) : List K :=
  if p.hJac.isNone ∧ p.gJac.isNone then []
  else valOf p.hJac (p.nEq * p.nVar) q ++ valOf p.gJac (p.nIeq * p.nVar) q

def rowHess (q : List K) : List K :=
  if p.hHess.isNone ∧ p.gHess.isNone then List.replicate ((p.nEq + p.nIeq) * p.nVar * p.nVar) 0
  else valOf p.hHess (p.nEq * p.nVar * p.nVar) q ++ valOf p.gHess (p.nIeq * p.nVar * p.nVar) q

variable {p} {nObj : ℕ}

theorem zipWith_map_map {α β γ δ : Type*} (f : α → β) (g : α → γ) (op : β → γ → δ) (X : List α) :
    List.zipWith op (X.map f) (X.map g) = X.map fun x => op (f x) (g x) := by
  induction X with
  | nil => rfl
  | cons x X ih => simp [ih]

theorem Ok.evalCstrBatch (hp : p.Ok nObj) {X : List (List K)} (hX : ∀ x ∈ X, x.length = p.nVar)
    {c : List (List K) × List (List Bool)} (h : p.evalCstrBatch X = some c) :
    c.1 = X.map p.rowCstr ∧ c.2 = X.map p.rowActive := by
  unfold Funcs.evalCstrBatch at h
  rw [Option.bind_eq_some_iff] at h
  obtain ⟨H, hH, h⟩ := h
  rw [Option.bind_eq_some_iff] at h
  obtain ⟨G, hG, h⟩ := h
  rw [evalBatch_spec hp.h hX hH, evalBatch_spec hp.g hX hG] at h
  rw [← Option.some.inj h]
  refine ⟨?_, ?_⟩
  · simp only
    rw [zipWith_map_map]
    rfl
  · simp only [List.map_map]
    rfl

theorem Ok.evalCstrBatch_some (hp : p.Ok nObj) {X : List (List K)} (hX : ∀ x ∈ X, x.length = p.nVar)
    (hne : X ≠ []) : p.evalCstrBatch X = some (X.map p.rowCstr, X.map p.rowActive) := by
  unfold Funcs.evalCstrBatch
  rw [evalBatch_some hp.h hX hne, evalBatch_some hp.g hX hne]
  simp only [Option.bind_some]
  rw [zipWith_map_map, List.map_map]
  rfl

theorem Ok.evalCstrPoint (hp : p.Ok nObj) {x : List K} (hx : x.length = p.nVar) :
    p.evalCstrPoint x = some (p.rowCstr x, p.rowActive x) := by
  unfold Funcs.evalCstrPoint
  rw [evalPoint_some hp.h hx, evalPoint_some hp.g hx]
  rfl

/-- Whether a Jacobian of the constraints is given. -/
def hasJac (p : Funcs K) : Bool := p.hJac.isSome || p.gJac.isSome

/-- Whether a Hessian of the constraints is given. -/
def hasHess (p : Funcs K) : Bool := p.hHess.isSome || p.gHess.isSome

theorem hasJac_iff : ¬ (p.hJac.isNone ∧ p.gJac.isNone) ↔ p.hasJac = true := by
  unfold hasJac
  rcases p.hJac with _ | _ <;> rcases p.gJac with _ | _ <;> simp

theorem hasHess_iff : ¬ (p.hHess.isNone ∧ p.gHess.isNone) ↔ p.hasHess = true := by
  unfold hasHess
  rcases p.hHess with _ | _ <;> rcases p.gHess with _ | _ <;> simp

theorem evalCstrJacBatch_count {X : List (List K)} {c : List (List K) × ℕ} (h : p.evalCstrJacBatch X = some c) :
    c.2 = if p.hasJac then X.length else 0 := by
  unfold Funcs.evalCstrJacBatch at h
  by_cases hn : p.hJac.isNone ∧ p.gJac.isNone
  · rw [if_pos hn] at h
    rw [← Option.some.inj h, if_neg (by rw [← hasJac_iff]; exact not_not.mpr hn)]
  · rw [if_neg hn, Option.bind_eq_some_iff] at h
    obtain ⟨_, _, h⟩ := h
    rw [Option.bind_eq_some_iff] at h
    obtain ⟨_, _, h⟩ := h
    rw [← Option.some.inj h, if_pos (hasJac_iff.mp hn)]

theorem evalCstrJacPoint_count {x : List K} {c : List K × ℕ} (h : p.evalCstrJacPoint x = some c) :
    c.2 = if p.hasJac then 1 else 0 := by
  unfold Funcs.evalCstrJacPoint at h
  by_cases hn : p.hJac.isNone ∧ p.gJac.isNone
  · rw [if_pos hn] at h
    rw [← Option.some.inj h, if_neg (by rw [← hasJac_iff]; exact not_not.mpr hn)]
  · rw [if_neg hn, Option.bind_eq_some_iff] at h
    obtain ⟨_, _, h⟩ := h
    rw [Option.bind_eq_some_iff] at h
    obtain ⟨_, _, h⟩ := h
    rw [← Option.some.inj h, if_pos (hasJac_iff.mp hn)]

theorem evalCstrHessBatch_count {X : List (List K)} {c : List (List K) × ℕ} (h : p.evalCstrHessBatch X = some c) :
    c.2 = if p.hasHess then X.length else 0 := by
  unfold Funcs.evalCstrHessBatch at h
  by_cases hn : p.hHess.isNone ∧ p.gHess.isNone
  · rw [if_pos hn] at h
    rw [← Option.some.inj h, if_neg (by rw [← hasHess_iff]; exact not_not.mpr hn)]
  · rw [if_neg hn, Option.bind_eq_some_iff] at h
    obtain ⟨_, _, h⟩ := h
    rw [Option.bind_eq_some_iff] at h
    obtain ⟨_, _, h⟩ := h
    rw [← Option.some.inj h, if_pos (hasHess_iff.mp hn)]

theorem evalCstrHessPoint_count {x : List K} {c : List K × ℕ} (h : p.evalCstrHessPoint x = some c) :
    c.2 = if p.hasHess then 1 else 0 := by
  unfold Funcs.evalCstrHessPoint at h
  by_cases hn : p.hHess.isNone ∧ p.gHess.isNone
  · rw [if_pos hn] at h
    rw [← Option.some.inj h, if_neg (by rw [← hasHess_iff]; exact not_not.mpr hn)]
  · rw [if_neg hn, Option.bind_eq_some_iff] at h
    obtain ⟨_, _, h⟩ := h
    rw [Option.bind_eq_some_iff] at h
    obtain ⟨_, _, h⟩ := h
    rw [← Option.some.inj h, if_pos (hasHess_iff.mp hn)]

theorem Ok.evalCstrJacBatch (hp : p.Ok nObj) {X : List (List K)} (hX : ∀ x ∈ X, x.length = p.nVar)
    {c : List (List K) × ℕ} (h : p.evalCstrJacBatch X = some c) : c.1 = X.map p.rowGrad := by
  unfold Funcs.evalCstrJacBatch at h
  by_cases hn : p.hJac.isNone ∧ p.gJac.isNone
  · rw [if_pos hn] at h
    rw [← Option.some.inj h]
    unfold rowGrad
    simp [hn]
  · rw [if_neg hn, Option.bind_eq_some_iff] at h
    obtain ⟨H, hH, h⟩ := h
    rw [Option.bind_eq_some_iff] at h
    obtain ⟨G, hG, h⟩ := h
    rw [evalBatch_spec hp.hJac hX hH, evalBatch_spec hp.gJac hX hG] at h
    rw [← Option.some.inj h]
    simp only
    rw [zipWith_map_map]
    unfold rowGrad
    simp only [if_neg hn]

theorem Ok.evalCstrJacBatch_some (hp : p.Ok nObj) {X : List (List K)} (hX : ∀ x ∈ X, x.length = p.nVar)
    (hne : X ≠ []) : p.evalCstrJacBatch X = some (X.map p.rowGrad, if p.hasJac then X.length else 0) := by
  have : ∃ c, p.evalCstrJacBatch X = some c := by
    unfold Funcs.evalCstrJacBatch
    by_cases hn : p.hJac.isNone ∧ p.gJac.isNone
    · rw [if_pos hn]; exact ⟨_, rfl⟩
    · rw [if_neg hn, evalBatch_some hp.hJac hX hne, evalBatch_some hp.gJac hX hne]
      exact ⟨_, rfl⟩
  obtain ⟨c, hc⟩ := this
  rw [hc, ← hp.evalCstrJacBatch hX hc, ← evalCstrJacBatch_count hc]

theorem Ok.evalCstrJacPoint (hp : p.Ok nObj) {x : List K} (hx : x.length = p.nVar) :
    p.evalCstrJacPoint x = some (p.rowGrad x, if p.hasJac then 1 else 0) := by
  unfold Funcs.evalCstrJacPoint rowGrad
  by_cases hn : p.hJac.isNone ∧ p.gJac.isNone
  · rw [if_pos hn, if_pos hn, if_neg (by rw [← hasJac_iff]; exact not_not.mpr hn)]
  · rw [if_neg hn, if_neg hn, if_pos (hasJac_iff.mp hn), evalPoint_some hp.hJac hx, evalPoint_some hp.gJac hx]
    rfl

theorem Ok.evalCstrHessBatch (hp : p.Ok nObj) {X : List (List K)} (hX : ∀ x ∈ X, x.length = p.nVar)
    {c : List (List K) × ℕ} (h : p.evalCstrHessBatch X = some c) : c.1 = X.map p.rowHess := by
  unfold Funcs.evalCstrHessBatch at h
  by_cases hn : p.hHess.isNone ∧ p.gHess.isNone
  · rw [if_pos hn] at h
    rw [← Option.some.inj h]
    unfold rowHess
    simp [hn]
  · rw [if_neg hn, Option.bind_eq_some_iff] at h
    obtain ⟨H, hH, h⟩ := h
    rw [Option.bind_eq_some_iff] at h
    obtain ⟨G, hG, h⟩ := h
    rw [evalBatch_spec hp.hHess hX hH, evalBatch_spec hp.gHess hX hG] at h
    rw [← Option.some.inj h]
    simp only
    rw [zipWith_map_map]
    unfold rowHess
    simp only [if_neg hn]

theorem Ok.evalCstrHessBatch_some (hp : p.Ok nObj) {X : List (List K)} (hX : ∀ x ∈ X, x.length = p.nVar)
    (hne : X ≠ []) : p.evalCstrHessBatch X = some (X.map p.rowHess, if p.hasHess then X.length else 0) := by
  have : ∃ c, p.evalCstrHessBatch X = some c := by
    unfold Funcs.evalCstrHessBatch
    by_cases hn : p.hHess.isNone ∧ p.gHess.isNone
    · rw [if_pos hn]; exact ⟨_, rfl⟩
    · rw [if_neg hn, evalBatch_some hp.hHess hX hne, evalBatch_some hp.gHess hX hne]
      exact ⟨_, rfl⟩
  obtain ⟨c, hc⟩ := this
  rw [hc, ← hp.evalCstrHessBatch hX hc, ← evalCstrHessBatch_count hc]

theorem Ok.evalCstrHessPoint (hp : p.Ok nObj) {x : List K} (hx : x.length = p.nVar) :
    p.evalCstrHessPoint x = some (p.rowHess x, if p.hasHess then 1 else 0) := by
  unfold Funcs.evalCstrHessPoint rowHess
  by_cases hn : p.hHess.isNone ∧ p.gHess.isNone
  · rw [if_pos hn, if_pos hn, if_neg (by rw [← hasHess_iff]; exact not_not.mpr hn)]
  · rw [if_neg hn, if_neg hn, if_pos (hasHess_iff.mp hn), evalPoint_some hp.hHess hx, evalPoint_some hp.gHess hx]
    rfl

theorem Ok.rowCstr_length (hp : p.Ok nObj) {x : List K} (hx : x.length = p.nVar) :
    (p.rowCstr x).length = p.nEq + p.nIeq := by
  unfold rowCstr
  rw [List.length_append, valOf_length hp.h hx, valOf_length hp.g hx]

theorem Ok.rowActive_length (hp : p.Ok nObj) {x : List K} (hx : x.length = p.nVar) :
    (p.rowActive x).length = p.nEq + p.nIeq := by
  unfold rowActive
  rw [List.length_append, List.length_map, valOf_length hp.g hx, List.length_replicate]

theorem Ok.rowGrad_length (hp : p.Ok nObj) {x : List K} (hx : x.length = p.nVar) :
    (p.rowGrad x).length = if p.hasJac then (p.nEq + p.nIeq) * p.nVar else 0 := by
  unfold rowGrad
  by_cases hn : p.hJac.isNone ∧ p.gJac.isNone
  · rw [if_pos hn, if_neg (by rw [← hasJac_iff]; exact not_not.mpr hn)]
    rfl
  · rw [if_neg hn, if_pos (hasJac_iff.mp hn), List.length_append, valOf_length hp.hJac hx, valOf_length hp.gJac hx,
      Nat.add_mul]

theorem Ok.rowHess_length (hp : p.Ok nObj) {x : List K} (hx : x.length = p.nVar) :
    (p.rowHess x).length = (p.nEq + p.nIeq) * p.nVar * p.nVar := by
  unfold rowHess
  by_cases hn : p.hHess.isNone ∧ p.gHess.isNone
  · rw [if_pos hn, List.length_replicate]
  · rw [if_neg hn, List.length_append, valOf_length hp.hHess hx, valOf_length hp.gHess hx, Nat.add_mul, Nat.add_mul]

end Funcs

theorem setRow_spec {α : Type*} {A B : List (List α)} {k : ℕ} {r : List α} (h : setRow A k r = some B) :
    k < A.length ∧ B = A.set k r := by
  unfold setRow at h
  rcases hk : A[k]? with _ | old
  · rw [hk] at h; exact absurd h (by simp)
  · rw [hk] at h
    simp only at h
    split_ifs at h
    exact ⟨(List.getElem?_eq_some_iff.mp hk).1, (Option.some.inj h).symm⟩

theorem setRow_map {α β : Type*} {X : List α} {f : α → List β} {k : ℕ} (hk : k < X.length) {r : List β}
    (hr : ∀ x ∈ X, (f x).length = r.length) : setRow (X.map f) k r = some ((X.map f).set k r) := by
  unfold setRow
  rw [List.getElem?_map, List.getElem?_eq_getElem hk]
  simp only [Option.map_some]
  rw [if_pos (hr _ (List.getElem_mem hk))]

theorem selRows_map {α β : Type*} (X : List (List α)) (f : List α → List β) {Z : List (List α)} {idx : List ℕ}
    (h : selRows X idx = some Z) : selRows (X.map f) idx = some (Z.map f) := by
  unfold selRows at *
  induction idx generalizing Z with
  | nil =>
    simp only [List.mapM_nil] at h ⊢
    cases h
    rfl
  | cons i idx ih =>
    rw [List.mapM_cons] at h ⊢
    simp only [bind, Option.bind_eq_some_iff, pure] at h ⊢
    obtain ⟨a, h1, b, h2, h3⟩ := h
    refine ⟨f a, by rw [List.getElem?_map, h1]; rfl, b.map f, ih h2, ?_⟩
    rw [← Option.some.inj h3]
    rfl

theorem selRows_spec {α : Type*} {X Z : List (List α)} {idx : List ℕ} (h : selRows X idx = some Z) :
    Z.length = idx.length ∧ ∀ j (hj : j < idx.length), idx[j] < X.length ∧ Z[j]? = X[idx[j]]? := by
  unfold selRows at h
  induction idx generalizing Z with
  | nil =>
    simp only [List.mapM_nil] at h
    cases h
    simp
  | cons i idx ih =>
    rw [List.mapM_cons] at h
    simp only [bind, Option.bind_eq_some_iff, pure] at h
    obtain ⟨a, h1, b, h2, h3⟩ := h
    obtain ⟨e1, e2⟩ := ih h2
    rw [← Option.some.inj h3]
    refine ⟨by simp [e1], fun j hj => ?_⟩
    rcases j with _ | j
    · exact ⟨(List.getElem?_eq_some_iff.mp h1).1, by simp [h1]⟩
    · simp only [List.length_cons] at hj
      obtain ⟨a1, a2⟩ := e2 j (by omega)
      exact ⟨a1, by simpa using a2⟩

theorem selRows_some {α : Type*} {X : List (List α)} {idx : List ℕ} (h : ∀ i ∈ idx, i < X.length) :
    ∃ Z, selRows X idx = some Z := by
  unfold selRows
  induction idx with
  | nil => exact ⟨[], rfl⟩
  | cons i idx ih =>
    obtain ⟨Z, hZ⟩ := ih fun j hj => h j (by simp [hj])
    have hi := h i (by simp)
    refine ⟨X[i] :: Z, ?_⟩
    rw [List.mapM_cons, List.getElem?_eq_getElem hi, hZ]
    rfl

end Verif.Opt
