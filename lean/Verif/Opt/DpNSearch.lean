import Verif.Opt.DpNRows

/-!
# The line search of `DpN`
-/

set_option linter.unusedSectionVars false

namespace Verif.Props

open Verif.Opt Verif.Ind Verif.HV

variable {K : Type*} [Field K] [LinearOrder K] [IsStrictOrderedRing K]

/-- The row `x` moved by `s` times `d`. -/
def moved (x d : List K) (s : K) : List K := List.zipWith (fun x d => x + s * d) x d

/-- `v` is the norm of the residual of point `i` after this point alone has moved to `x`, with targets `T` such that
`Tg Y T` for the objective points `Y`. -/
def MovedNormBy (a : Dpn K) (useGd : Bool) (X : List (List K)) (Tg : List (ℕ → K) → List (ℕ → K) → Prop) (i : ℕ)
    (x : List K) (v : K) : Prop :=
  ∃ T r, Tg ((X.set i x).map fun x => pt (a.p.func.point (x.take a.p.nVar))) T ∧
    r.length = a.p.nVar + a.p.nDual ∧
    KktResidual a.p x (dpGrad a useGd X.length (x.take a.p.nVar) (T.getD i 0)) (pt r) ∧ v = a.norm r

/-- The condition of Armijo for the step `s`, or the residual is numerically zero already. -/
def ArmijoMet (phi0 s v : K) : Prop :=
  v ≤ (1 - s / 10 ^ 4) * phi0 ∨ |phi0 - 1 / 2 ^ 52| ≤ 1 / 10 ^ 8 + 1 / 10 ^ 5 * (1 / 2 ^ 52)

/-- The outcome `α` of the search for point `i` with direction `d`, residual `r` and largest step `s`: after the rejected
steps `tr`, each between 0.4 and 0.6 times the one before, `α` is accepted, or eight steps have been rejected. -/
def SearchedBy (a : Dpn K) (useGd : Bool) (X : List (List K)) (Tg : List (ℕ → K) → List (ℕ → K) → Prop) (i : ℕ)
    (d r : List K) (s α : K) : Prop :=
  ∃ tr : List K, tr.length ≤ 8 ∧ (tr ++ [α]).head? = some s ∧
    (tr ++ [α]).IsChain (fun b c => 4 / 10 * b ≤ c ∧ c ≤ 6 / 10 * b) ∧
    (∀ b ∈ tr, ∃ v, MovedNormBy a useGd X Tg i (moved (X.getD i []) d b) v ∧ ¬ ArmijoMet (a.norm r) b v) ∧
    (tr.length = 8 ∨ ∃ v, MovedNormBy a useGd X Tg i (moved (X.getD i []) d α) v ∧ ArmijoMet (a.norm r) α v)

/-- The same with the targets of the indicator among `M`. -/
def Searched (a : Dpn K) (useGd : Bool) (X : List (List K)) (M : List (ℕ → K)) (i : ℕ) (d r : List K) (s α : K) : Prop :=
  SearchedBy a useGd X (fun Y T => Targets a.env.dist useGd Y M T) i d r s α

theorem SearchedBy.mem {a : Dpn K} {useGd : Bool} {X : List (List K)} {Tg : List (ℕ → K) → List (ℕ → K) → Prop} {i : ℕ}
    {d r : List K} {s α : K} (hs : 0 ≤ s) (h : SearchedBy a useGd X Tg i d r s α) : 0 ≤ α ∧ α ≤ s := by
  obtain ⟨tr, -, h2, h3, -⟩ := h
  clear * - hs h2 h3
  induction tr generalizing s with
  | nil => obtain rfl : α = s := by simpa using h2
           exact ⟨hs, le_rfl⟩
  | cons b tr ih =>
    obtain rfl : b = s := by simpa using h2
    cases hh : (tr ++ [α]).head? with
    | none => simp at hh
    | some c =>
      have hc : 4 / 10 * b ≤ c ∧ c ≤ 6 / 10 * b := by
        rw [List.cons_append] at h3
        exact (List.isChain_cons.mp h3).1 c (by simp [hh])
      have := ih (s := c) (by linarith [hc.1]) hh (by rw [List.cons_append] at h3; exact (List.isChain_cons.mp h3).2)
      exact ⟨this.1, by linarith [hc.2]⟩

end Verif.Props

namespace Verif.Opt

open Verif.Ind Verif.Util Verif.HV Verif.Props

variable {K : Type*} [Field K] [LinearOrder K] [IsStrictOrderedRing K] [Inhabited K]

theorem armijoMet_iff {phi0 s v : K} : Accept (1 / 10 ^ 4) phi0 s v ↔ ArmijoMet phi0 s v := by
  unfold Accept ArmijoMet IsClose
  rw [abs_of_pos (show (0 : K) < 1 / 2 ^ 52 by positivity), show 1 / 10 ^ 4 * s = s / 10 ^ 4 by ring]

theorem Targets.perm {dist : (ℕ → K) → (ℕ → K) → K} {useGd : Bool} {Y M M' T : List (ℕ → K)}
    (h : Targets dist useGd Y M T) (hp : M.Perm M') : Targets dist useGd Y M' T := by
  unfold Targets at *
  refine ⟨h.1, ?_⟩
  obtain ⟨-, h⟩ := h
  cases useGd with
  | true =>
    rw [if_pos rfl] at *
    exact fun i hi => ⟨hp.mem_iff.mp (h i hi).1, fun r hr => (h i hi).2 r (hp.mem_iff.mpr hr)⟩
  | false =>
    rw [if_neg (by simp)] at *
    exact ⟨h.1.trans hp, fun T' hT' => h.2 T' (hT'.trans hp.symm)⟩

theorem Usable.updateOne {p : Funcs K} {nObj dim N0 : ℕ} (hp : p.Ok nObj) (hd : p.nVar ≤ dim) {s : State K}
    (h : Usable p dim N0 s) {x : List K} (hx : x.length = dim) {k : ℕ} (hk : k < s.X.length) :
    ∃ t, p.updateOne s x k = some t ∧ t.X = s.X.set k x ∧ Usable p dim N0 t ∧ t.nJac = s.nJac + 1 := by
  obtain ⟨t, ht, -⟩ := C23_updateOne hp hd h.sync h.hess h.jac h.cHess h.dim hx hk
  obtain ⟨-, h1, h2, h3, -, h4, h5⟩ := updateOne_sync hp hd hx ht
  refine ⟨t, ht, h1, ⟨?_, by rw [h1, List.length_set]; exact h.le, fun y hy => ?_, h2 h.sync, h3 h.hess, h4, h5⟩, ?_⟩
  · rw [h1]
    exact List.ne_nil_of_length_pos (by rw [List.length_set]; omega)
  · rw [h1] at hy
    rcases List.mem_or_eq_of_mem_set hy with hy | rfl
    · exact h.dim y hy
    · exact hx
  · have := (C24_counters p [.updateOne x k] s t (by simp [exec, ht])).1
    simpa [Op.evals] using this

theorem Usable.counter {p : Funcs K} {dim N0 : ℕ} {s : State K} (h : Usable p dim N0 s) (n : ℕ) :
    Usable p dim N0 { s with nJac := n } :=
  ⟨h.ne, h.le, h.dim, ⟨h.sync.Y, h.sync.J, h.sync.cstr, h.sync.active, h.sync.grad⟩, h.hess, h.jac, h.cHess⟩

/-- The loop with interpolation, for a merit function with an invariant that counts the calls. -/
theorem interpolatingM_spec {σ : Type*} (cubic : K → K → K → K → Option K) {phi : K → σ → Option (K × σ)} {phi0 : K}
    {Inv : ℕ → σ → Prop} {Q : K → K → Prop}
    (hphi : ∀ s n w, Inv n w → ∃ v w', phi s w = some (v, w') ∧ Inv (n + 1) w' ∧ Q s v) :
    ∀ (t : ℕ) (phi2 s2 s : K) (w : σ) (n : ℕ), 0 ≤ s → Inv n w →
      ∃ α w' tr, interpolatingM (1 / 10 ^ 4) cubic phi phi0 t phi2 s2 s w = some (α, w') ∧
        tr.length ≤ t ∧ Inv (n + min (tr.length + 1) t) w' ∧ (tr ++ [α]).head? = some s ∧
        (tr ++ [α]).IsChain (fun b c => 4 / 10 * b ≤ c ∧ c ≤ 6 / 10 * b) ∧
        (∀ b ∈ tr, ∃ v, Q b v ∧ ¬ ArmijoMet phi0 b v) ∧ (tr.length = t ∨ ∃ v, Q α v ∧ ArmijoMet phi0 α v) := by
  intro t
  induction t with
  | zero =>
    intro phi2 s2 s w n hs hw
    exact ⟨s, w, [], rfl, le_rfl, by simpa using hw, rfl, by simp, by simp, .inl rfl⟩
  | succ t ih =>
    intro phi2 s2 s w n hs hw
    obtain ⟨v, w1, h1, h2, h3⟩ := hphi s n w hw
    unfold interpolatingM
    rw [h1, Option.bind_some]
    dsimp only
    by_cases hacc : Accept (1 / 10 ^ 4) phi0 s v
    · rw [if_pos hacc]
      exact ⟨s, w1, [], rfl, by simp, by simpa using h2, rfl, by simp, by simp, .inr ⟨v, h3, armijoMet_iff.mp hacc⟩⟩
    · rw [if_neg hacc]
      have hn := nextStep_mem cubic phi2 v s2 hs
      obtain ⟨α, w', tr, g1, g2, g3, g4, g5, g6, g7⟩ := ih v s (nextStep cubic phi2 v s2 s) w1 (n + 1)
        (by linarith [hn.1]) h2
      refine ⟨α, w', s :: tr, g1, by simpa using g2, ?_, rfl, ?_, ?_, ?_⟩
      · have e : n + 1 + min (tr.length + 1) t = n + min ((s :: tr).length + 1) (t + 1) := by
          rw [List.length_cons]; omega
        rw [← e]; exact g3
      · rw [List.cons_append]
        refine List.isChain_cons.mpr ⟨fun c hc => ?_, g5⟩
        rw [g4] at hc
        obtain rfl : nextStep cubic phi2 v s2 s = c := by simpa using hc
        exact hn
      · intro b hb
        rcases List.mem_cons.mp hb with rfl | hb
        · exact ⟨v, h3, fun h => hacc (armijoMet_iff.mpr h)⟩
        · exact g6 b hb
      · rcases g7 with g7 | g7
        · exact .inl (by simp [g7])
        · exact .inr g7

namespace Dpn

variable {a : Dpn K} {N0 : ℕ}

/-- What is needed of the reference set for `N` points: the differences to the targets can be computed, with targets
that have the property `Tg`, and the invariant is kept. -/
def Flow (a : Dpn K) (useGd : Bool) (N : ℕ) (Inv : RefSet (ℕ → K) → Prop)
    (Tg : List (ℕ → K) → List (ℕ → K) → Prop) : Prop :=
  ∀ S Y, Inv S → Y.length = N → ∃ S' T, a.diffs useGd S Y = some (S', List.zipWith (fun y r k => y k - r k) Y T) ∧
    Inv S' ∧ T.length = N ∧ Tg Y T

/-- What the merit function keeps: everything but the number of Jacobian evaluations and the distribution of the
targets. -/
def Kept (s : State K) (Inv : RefSet (ℕ → K) → Prop) (n : ℕ) (w : State K × RefSet (ℕ → K)) : Prop :=
  w.1 = { s with nJac := n } ∧ Inv w.2

variable {Inv : RefSet (ℕ → K) → Prop} {Tg : List (ℕ → K) → List (ℕ → K) → Prop}

theorem phi_spec (ha : a.Ok) (useGd : Bool) {s : State K} (hs : Usable a.p (a.p.nVar + a.p.nDual) N0 s)
    (hf : a.Flow useGd s.X.length Inv Tg) {step : List (List K)}
    (hst : ∀ i < s.X.length, (step.getD i []).length = a.p.nVar + a.p.nDual) {i : ℕ} (hi : i < s.X.length) (α : K)
    (n : ℕ) (w : State K × RefSet (ℕ → K)) (hw : Kept s Inv n w) :
    ∃ v w', a.phi useGd step i α w = some (v, w') ∧ Kept s Inv (n + 1) w' ∧
      MovedNormBy a useGd s.X Tg i (moved (s.X.getD i []) (step.getD i []) α) v := by
  obtain ⟨w1, S⟩ := w
  obtain ⟨rfl, h1⟩ := hw
  have hx : (s.X.getD i []).length = a.p.nVar + a.p.nDual := by
    rw [List.getD_eq_getElem _ _ hi]; exact hs.dim _ (List.getElem_mem _)
  have hml : (moved (s.X.getD i []) (step.getD i []) α).length = a.p.nVar + a.p.nDual := by
    rw [moved, List.length_zipWith, hx, hst i hi, min_self]
  obtain ⟨t, t1, t2, t3, t4⟩ := Usable.updateOne ha.funcs (Nat.le_add_right _ _) (Usable.counter hs n)
    (x := moved (s.X.getD i []) (step.getD i []) α) hml (k := i) hi
  have htl : t.X.length = s.X.length := by rw [t2, List.length_set]
  have htY : t.Y.map pt = (s.X.set i (moved (s.X.getD i []) (step.getD i []) α)).map
      fun x => pt (a.p.func.point (x.take a.p.nVar)) := by
    rw [t3.sync.Y, t2, List.map_map]; rfl
  obtain ⟨S', T, f1, f2, f3, f4⟩ := hf S (t.Y.map pt) h1 (by rw [htY, List.length_map, List.length_set])
  obtain ⟨rows, r1, r8, r9⟩ := residual_of ha useGd t3 (f3.trans htl.symm) f1
  obtain ⟨r, q1, q2, q3⟩ := r9 i (by omega)
  have hxi : t.X.getD i [] = moved (s.X.getD i []) (step.getD i []) α := by
    rw [t2, List.getD_eq_getElem _ _ (by rw [List.length_set]; exact hi), List.getElem_set_self]
  have hri : rows[i]? = some (rows.getD i []) := by
    rw [List.getD_eq_getElem _ _ (by omega), List.getElem?_eq_getElem (by omega)]
  refine ⟨a.norm (rows.getD i []), ({ s with nJac := n + 1 }, S'), ?_, ⟨rfl, f2⟩, T, r, ?_, q1, ?_, q2.symm⟩
  · unfold phi
    have : (a.p.updateOne { s with nJac := n } (List.zipWith (fun x d => x + α * d) (s.X.getD i []) (step.getD i [])) i) =
      some t := t1
    dsimp only
    rw [this, Option.bind_some, r1, Option.bind_some]
    dsimp only
    rw [hri, Option.map_some, t4]
  · rw [← htY]
    exact f4
  · rw [hxi, htl] at q3
    exact q3

/-- The line search returns; a step that is numerically zero is not searched. -/
theorem lineSearch_spec (ha : a.Ok) (useGd : Bool) {s : State K} (hs : Usable a.p (a.p.nVar + a.p.nDual) N0 s)
    (hf : a.Flow useGd s.X.length Inv Tg) {S0 : RefSet (ℕ → K)} (hS : Inv S0)
    {step R : List (List K)} (hst : ∀ i < s.X.length, (step.getD i []).length = a.p.nVar + a.p.nDual)
    {sizes : List K} (hsz : ∀ i < s.X.length, 0 ≤ sizes.getD i 0) :
    ∃ αs w' n, a.lineSearch useGd step R sizes (s, S0) = some (αs, w') ∧ αs.length = s.X.length ∧ Kept s Inv n w' ∧
      (((∀ r ∈ step, ∀ x ∈ r, Vanishes x) ∧ n = s.nJac ∧ ∀ i < s.X.length, αs.getD i 0 = 1) ∨
       ((¬ ∀ r ∈ step, ∀ x ∈ r, Vanishes x) ∧ s.nJac + s.X.length ≤ n ∧ n ≤ s.nJac + 8 * s.X.length ∧
        ∀ i < s.X.length, SearchedBy a useGd s.X Tg i (step.getD i []) (R.getD i []) (sizes.getD i 0) (αs.getD i 0))) := by
  have h0 : Kept s Inv s.nJac (s, S0) := ⟨rfl, hS⟩
  have hiff : (∀ r ∈ step, ∀ x ∈ r, IsClose x 0) ↔ ∀ r ∈ step, ∀ x ∈ r, Vanishes x :=
    forall₂_congr fun r _ => forall₂_congr fun x _ => isClose_zero
  unfold lineSearch
  by_cases hz : ∀ r ∈ step, ∀ x ∈ r, IsClose x 0
  · rw [if_pos hz]
    exact ⟨_, _, s.nJac, rfl, by simp, h0, .inl ⟨hiff.mp hz, rfl, fun i hi => by
      rw [List.getD_eq_getElem _ _ (by simpa using hi), List.getElem_replicate]⟩⟩
  · rw [if_neg hz]
    have key : ∀ m ≤ s.X.length, ∃ αs w' n, (List.range m).foldlM (fun (acc : List K × State K × RefSet (ℕ → K)) i =>
        (interpolatingM (1 / 10 ^ 4) a.cubic (a.phi useGd step i) (a.norm (R.getD i [])) 8 (a.norm (R.getD i [])) 0
          (sizes.getD i 0) acc.2).map fun r => (acc.1 ++ [r.1], r.2)) ([], s, S0) = some (αs, w') ∧ αs.length = m ∧
        Kept s Inv n w' ∧ s.nJac + m ≤ n ∧ n ≤ s.nJac + 8 * m ∧
        ∀ i < m, SearchedBy a useGd s.X Tg i (step.getD i []) (R.getD i []) (sizes.getD i 0) (αs.getD i 0) := by
      intro m
      induction m with
      | zero => intro _; exact ⟨[], (s, S0), s.nJac, rfl, rfl, h0, le_rfl, le_rfl, by omega⟩
      | succ m ih =>
        intro hm
        obtain ⟨αs, w', n, g1, g2, g3, g4, g5, g6⟩ := ih (by omega)
        obtain ⟨α, w2, tr, k1, k2, k3, k4, k5, k6, k7⟩ := interpolatingM_spec a.cubic (phi0 := a.norm (R.getD m []))
          (fun α n w hw => phi_spec ha useGd hs hf hst (show m < s.X.length by omega) α n w hw) 8
          (a.norm (R.getD m [])) 0 (sizes.getD m 0) w' n (hsz m (by omega)) g3
        refine ⟨αs ++ [α], w2, _, ?_, by simp [g2], k3, by omega, by omega, fun i hi => ?_⟩
        · rw [List.range_succ, List.foldlM_append, g1]
          simp only [List.foldlM_cons, List.foldlM_nil]
          change ((interpolatingM (1 / 10 ^ 4) a.cubic (a.phi useGd step m) (a.norm (R.getD m [])) 8 (a.norm (R.getD m [])) 0
            (sizes.getD m 0) w').map fun r => (αs ++ [r.1], r.2)).bind _ = _
          rw [k1]
          rfl
        · rcases Nat.lt_succ_iff_lt_or_eq.mp hi with hi' | rfl
          · rw [List.getD_append _ _ _ _ (by omega)]
            exact g6 i hi'
          · have : (αs ++ [α]).getD i 0 = α := by
              rw [List.getD_append_right _ _ _ _ (by omega), g2, Nat.sub_self]; rfl
            rw [this]
            exact ⟨tr, k2, k4, k5, k6, k7⟩
    obtain ⟨αs, w', n, g1, g2, g3, g4, g5, g6⟩ := key s.X.length le_rfl
    exact ⟨αs, w', n, g1, g2, g3, .inr ⟨fun hv => hz (hiff.mpr hv), g4, g5, g6⟩⟩

end Dpn

end Verif.Opt
