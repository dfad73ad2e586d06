import Verif.Opt.MMDNLemmas

/-!
# The derivatives, the residual and the Newton step of `MMDNewton`
-/

set_option linter.unusedSectionVars false

namespace Verif.Props

open Verif.Opt Verif.Ind Verif.HV Verif.Util

/-- The objective vectors of a population. -/
def mmdImages (a : Mmdn) (X : List (List ℝ)) : List (ℕ → ℝ) := X.map fun x => pt (a.p.func.point (x.take a.p.nVar))

/-- `T` are the reference points of the points `Y`, given the reference points `M`: with matching, `M` is distributed to
the points with the smallest total distance. -/
def MmdTargets (a : Mmdn) (Y M T : List (ℕ → ℝ)) : Prop :=
  if a.matching then Targets a.env.dist false Y M T else T = M

/-- `v` is the norm of the whole residual at the population `X`, with reference points related to the points by `Tg`. -/
def ResidualNormBy (a : Mmdn) (Tg : List (ℕ → ℝ) → List (ℕ → ℝ) → Prop) (X : List (List ℝ)) (v : ℝ) : Prop :=
  ∃ (T : List (ℕ → ℝ)) (G r : ℕ → ℕ → ℝ), Tg (mmdImages a X) T ∧ (MmdSmooth a → MmdGrad a T X G) ∧
    (∀ i < X.length, KktResidual a.p (X.getD i []) (G i) (r i)) ∧
    v = √(∑ i ∈ Finset.range X.length, ∑ c ∈ Finset.range (a.p.nVar + a.p.nDual), r i c ^ 2)

/-- `v` is the norm of the whole residual at the population `X`, with the reference points `M` in place. -/
def ResidualNorm (a : Mmdn) (M : List (ℕ → ℝ)) (X : List (List ℝ)) (v : ℝ) : Prop :=
  ResidualNormBy a (fun Y T => MmdTargets a Y M T) X v

end Verif.Props

namespace Verif.Opt

open Verif.Ind Verif.Util Verif.HV Verif.Props

namespace Mmdn

variable {a : Mmdn}

/-- What is assumed: consistent callbacks, bounds for all variables, the contracts of the matching and of the solver,
and distances that are not negative. -/
structure Ok (a : Mmdn) : Prop where
  funcs : a.p.Ok a.nObj
  env : a.env.Sound
  nonneg : ∀ x y, 0 ≤ a.env.dist x y
  xl : a.xl.length = a.p.nVar
  xu : a.xu.length = a.p.nVar
  solve : ∀ A b, IsMat b.length b.length A → (a.solve A b).length = b.length
  precond : ∀ m A, IsMat m m A → IsMat m m (a.precond A)
  jac : a.p.constrained = true → a.p.hasJac

/-- The reference points in place are `M`. -/
structure RefOk (a : Mmdn) (N : ℕ) (S : RefSet (ℕ → ℝ)) (M : List (ℕ → ℝ)) : Prop where
  set : S.referenceSet = M
  ne : M ≠ []
  matched : a.matching = true → OneRef S N ∧ Paired S M ∧ M.length = N
  unmatched : a.matching = false → S.matched = none

/-! ### Arrays -/

theorem at2_tableOf {N n : ℕ} (g : Fin N → Fin n → ℝ) (i : Fin N) (v : Fin n) : at2 (tableOf g) i v = g i v := by
  simp [at2, tableOf, List.getD_eq_getElem?_getD]

theorem tableOf_isMat {N n : ℕ} (g : Fin N → Fin n → ℝ) : IsMat N n (tableOf g) := by
  refine ⟨by simp [tableOf], fun r hr => ?_⟩
  obtain ⟨i, rfl⟩ := (List.mem_ofFn' _ _).mp hr
  simp

theorem flatIdx_val {N n : ℕ} (i : Fin N) (v : Fin n) : (flatIdx i v : ℕ) = i * n + v := by
  simp [flatIdx, finProdFinEquiv]
  ring

theorem ofFn_pt {x : List ℝ} {n m : ℕ} (hx : x.length = n + m) : List.ofFn (fun v : Fin n => pt x v) = x.take n := by
  apply List.ext_getElem (by simp [hx])
  intro i h1 h2
  have : i < x.length := by simp at h2; omega
  simp [pt, List.getElem?_eq_getElem this]

theorem images_eq {N0 : ℕ} {t : State ℝ} (ht : Usable a.p (a.p.nVar + a.p.nDual) N0 t) :
    t.Y.map pt = mmdImages a t.X := by
  rw [ht.sync.Y, List.map_map]; rfl

theorem given_images {N0 : ℕ} {t : State ℝ} (ht : Usable a.p (a.p.nVar + a.p.nDual) N0 t) :
    a.objective.images (a.decision t) (some (a.rows t.X.length (t.Y.map pt))) =
      fun i => a.objective.func (a.decision t i) := by
  funext i k
  have hi : (i : ℕ) < t.X.length := i.isLt
  rw [Objective.images, Option.getD_some, images_eq ht, rows, mmdImages, List.getD_eq_getElem _ _ (by simpa using hi),
    List.getElem_map]
  unfold objective decision
  dsimp only
  rw [ofFn_pt (m := a.p.nDual) (by rw [List.getD_eq_getElem _ _ hi]; exact ht.dim _ (List.getElem_mem hi)),
    List.getD_eq_getElem _ _ hi]

theorem given_jacobians {N0 : ℕ} {t : State ℝ} (ht : Usable a.p (a.p.nVar + a.p.nDual) N0 t) :
    a.objective.jacobians (a.decision t) (a.givenJ t) = fun i => a.objective.jac (a.decision t i) := by
  obtain ⟨J, hJ⟩ := Option.isSome_iff_exists.mp ht.jac
  funext i k v
  have hi : (i : ℕ) < t.X.length := i.isLt
  rw [Objective.jacobians, givenJ, hJ, Option.map_some, Option.getD_some, ht.sync.J J hJ,
    List.getD_eq_getElem _ _ (by simpa using hi), List.getElem_map]
  unfold objective decision
  dsimp only
  rw [ofFn_pt (m := a.p.nDual) (by rw [List.getD_eq_getElem _ _ hi]; exact ht.dim _ (List.getElem_mem hi)),
    List.getD_eq_getElem _ _ hi]

/-! ### Derivatives of the indicator -/

/-- The derivatives for given reference points. -/
noncomputable def derivs (a : Mmdn) (t : State ℝ) (T : List (ℕ → ℝ)) : Option (MMDHessian t.X.length a.p.nVar a.nObj) :=
  if a.matching then mmdmHessian a.objective (1 / 4) a.kernel (a.rows t.X.length T) (a.decision t)
    (some (a.rows t.X.length (t.Y.map pt))) (a.givenJ t)
  else mmdHessian a.objective a.kernel (a.rows T.length T) (a.decision t)
    (some (a.rows t.X.length (t.Y.map pt))) (a.givenJ t)

theorem smooth_hasHess (hs : MmdSmooth a) {N : ℕ} (X : Fin N → Fin a.p.nVar → ℝ) : HasHess a.objective X :=
  ⟨fun _ => Filter.Eventually.of_forall fun x k => hs.jac x k, fun _ k v => hs.hess _ k v⟩

theorem derivs_spec {N0 : ℕ} {t : State ℝ} (ht : Usable a.p (a.p.nVar + a.p.nDual) N0 t) {T : List (ℕ → ℝ)} (hT : T ≠ []) :
    ∃ H, a.derivs t T = some H ∧ (MmdSmooth a → MmdGrad a T t.X (at2 (tableOf H.dX)) ∧
      (MmdHess a T t.X fun i v j w => at2 (tableOf H.dX2) (i * a.p.nVar + v) (j * a.p.nVar + w)) ∧
      SymmetricIn t.X.length a.p.nVar
        fun i v j w => at2 (tableOf H.dX2) (i * a.p.nVar + v) (j * a.p.nVar + w)) := by
  have hN : 0 < t.X.length := List.length_pos_iff.mpr ht.ne
  have hM : 0 < T.length := List.length_pos_iff.mpr hT
  have hex : ∃ H, a.derivs t T = some H := by
    unfold derivs mmdmHessian mmdmGradient mmdHessian
    split
    · rw [if_neg (by omega)]; exact ⟨_, rfl⟩
    · rw [if_neg (by omega)]; exact ⟨_, rfl⟩
  obtain ⟨H, hH⟩ := hex
  refine ⟨H, hH, fun hs => ?_⟩
  have h2 : ∀ (V : Fin t.X.length → Fin a.p.nVar → ℝ), (fun (j : Fin t.X.length) (w : Fin a.p.nVar) => ∑ i, ∑ v, V i v *
      at2 (tableOf H.dX2) ((i : ℕ) * a.p.nVar + v) ((j : ℕ) * a.p.nVar + w)) =
      fun j w => ∑ i, ∑ v, V i v * H.dX2 (flatIdx i v) (flatIdx j w) := by
    intro V
    funext j w
    refine Finset.sum_congr rfl fun i _ => Finset.sum_congr rfl fun v _ => ?_
    rw [← flatIdx_val, ← flatIdx_val, at2_tableOf]
  have h3 : (∀ p q, H.dX2 p q = H.dX2 q p) → SymmetricIn t.X.length a.p.nVar
      fun i v j w => at2 (tableOf H.dX2) (i * a.p.nVar + v) (j * a.p.nVar + w) := by
    intro hs i hi v hv j hj w hw
    have := hs (flatIdx ⟨i, hi⟩ ⟨v, hv⟩) (flatIdx ⟨j, hj⟩ ⟨w, hw⟩)
    rw [← at2_tableOf H.dX2, ← at2_tableOf H.dX2, flatIdx_val, flatIdx_val] at this
    exact this
  have h1 : (fun (i : Fin t.X.length) (v : Fin a.p.nVar) => at2 (tableOf H.dX) i v) = H.dX := by
    funext i v
    exact at2_tableOf _ _ _
  have hX : (fun (i : Fin t.X.length) (v : Fin a.p.nVar) => pt (t.X.getD i []) v) = a.decision t := rfl
  unfold MmdGrad MmdHess
  simp only [h2, h1, hX]
  unfold derivs at hH
  by_cases hm : a.matching = true
  · rw [if_pos hm] at hH
    have hv : (fun Z : Fin t.X.length → Fin a.p.nVar → ℝ => mmdValue a T fun i => objVec a (Z i)) =
        fun Z => mmdmOf (1 / 4) a.kernel.k (a.rows t.X.length T) fun i => a.objective.func (Z i) := by
      funext Z
      rw [mmdValue, if_pos hm]
      rfl
    rw [hv]
    obtain ⟨H', e1, -, -, e2, -, e3, -, e5⟩ := C41_derivatives (beta := 1 / 4) hN (given_images ht) (given_jacobians ht)
      (smooth_hasHess hs (a.decision t)) hs.symm hs.stationary (r := a.rows t.X.length T)
      (fun i j _ => hs.diff _ _) (fun i => hs.diff _ _)
    obtain rfl : H = H' := Option.some.inj (hH.symm.trans e1)
    exact ⟨e2, e3, h3 e5⟩
  · rw [if_neg hm] at hH
    have hv : (fun Z : Fin t.X.length → Fin a.p.nVar → ℝ => mmdValue a T fun i => objVec a (Z i)) =
        fun Z => mmdOf a.kernel.k (a.rows T.length T) fun i => a.objective.func (Z i) := by
      funext Z
      rw [mmdValue, if_neg hm]
      rfl
    rw [hv]
    obtain ⟨H', e1, ⟨g, e2, e3⟩, -, e4, -, e5⟩ := C40_hessian hN hM (given_images ht) (given_jacobians ht)
      (smooth_hasHess hs (a.decision t)) hs.symm hs.stationary (R := a.rows T.length T)
      (fun i j _ => hs.diff _ _) (fun i r => hs.diff _ _)
    obtain rfl : H = H' := Option.some.inj (hH.symm.trans e1)
    obtain ⟨g', f1, -, f2⟩ := C39_gradient hN hM (given_images ht) (given_jacobians ht)
      (smooth_hasHess hs (a.decision t)).hasJac hs.symm (fun x => hs.stationary.diag x) (R := a.rows T.length T)
      (fun i j _ => (hs.diff _ _).near.self_of_nhds) (fun i r => (hs.diff _ _).near.self_of_nhds)
    obtain rfl : g = g' := Option.some.inj (e2.symm.trans f1)
    rw [← e3] at f2
    exact ⟨f2, e4, h3 e5⟩

/-- Looking at the reference set, once it has been matched. -/
theorem indicator_of {N : ℕ} {t : State ℝ} (ht : Usable a.p (a.p.nVar + a.p.nDual) N t) (hm : a.matching = true)
    {S S' : RefSet (ℕ → ℝ)} {T : List (ℕ → ℝ)} (h1 : S.match a.env (mmdImages a t.X) = some S')
    (hR : S'.referenceSet = T) (hTl : T.length = t.X.length) :
    ∃ H, a.hessian t S = some (S', H) ∧ a.gradient t S = some (S', H.toMMDGradient) ∧
      (MmdSmooth a → MmdGrad a T t.X (at2 (tableOf H.dX)) ∧
        (MmdHess a T t.X fun i v j w => at2 (tableOf H.dX2) (i * a.p.nVar + v) (j * a.p.nVar + w)) ∧
        SymmetricIn t.X.length a.p.nVar
          fun i v j w => at2 (tableOf H.dX2) (i * a.p.nVar + v) (j * a.p.nVar + w)) := by
  have hpos : 0 < t.X.length := List.length_pos_iff.mpr ht.ne
  have hY := images_eq ht
  have hT : T ≠ [] := List.ne_nil_of_length_pos (by omega)
  obtain ⟨H, e1, e2⟩ := derivs_spec ht hT
  refine ⟨H, ?_, ?_, e2⟩
  · unfold derivs at e1
    rw [if_pos hm] at e1
    rw [hessian, if_pos hm, hY, h1, Option.bind_some, hR, if_pos hTl, ← hY, e1, Option.map_some]
  · unfold derivs at e1
    rw [if_pos hm] at e1
    unfold mmdmHessian at e1
    obtain ⟨g, g1, g2⟩ := Option.map_eq_some_iff.mp e1
    rw [gradient, if_pos hm, hY, h1, Option.bind_some, hR, if_pos hTl, ← hY, g1, Option.map_some, ← g2]

/-- Looking at the reference set. -/
theorem indicator_spec (ha : a.Ok) {N : ℕ} {t : State ℝ} (ht : Usable a.p (a.p.nVar + a.p.nDual) N t)
    (hN : t.X.length = N) {S : RefSet (ℕ → ℝ)} {M : List (ℕ → ℝ)} (hS : RefOk a N S M) :
    ∃ S' T H, a.hessian t S = some (S', H) ∧ a.gradient t S = some (S', H.toMMDGradient) ∧ RefOk a N S' T ∧
      S'.ref = S.ref ∧ S'.eta = S.eta ∧ MmdTargets a (mmdImages a t.X) M T ∧ T.Perm M ∧
      (MmdSmooth a → MmdGrad a T t.X (at2 (tableOf H.dX)) ∧
        (MmdHess a T t.X fun i v j w => at2 (tableOf H.dX2) (i * a.p.nVar + v) (j * a.p.nVar + w)) ∧
        SymmetricIn t.X.length a.p.nVar
          fun i v j w => at2 (tableOf H.dX2) (i * a.p.nVar + v) (j * a.p.nVar + w)) := by
  have hpos : 0 < t.X.length := List.length_pos_iff.mpr ht.ne
  have hY := images_eq ht
  have hYl : (mmdImages a t.X).length = N := by simp [mmdImages, hN]
  by_cases hm : a.matching = true
  · obtain ⟨m1, m2, m3⟩ := hS.matched hm
    obtain ⟨S', T, h1, h2, h3, h4, h5, h6, h7, -, h8⟩ := match_one ha.env (Y := mmdImages a t.X) (by rw [hYl]; exact m1)
      (by omega)
    have hp := h7 M m2.medoids (by rw [m3, hYl])
    have hT : T ≠ [] := List.ne_nil_of_length_pos (by omega)
    obtain ⟨H, e1, e1', e2⟩ := indicator_of ht hm h1 h2.referenceSet (by omega)
    refine ⟨S', T, H, e1, e1', ⟨h2.referenceSet, hT, fun _ => ⟨by rw [← hYl]; exact h3, h2, by rw [h6, hYl]⟩, by simp [hm]⟩, h4,
      h5, ?_, hp, e2⟩
    · rw [MmdTargets, if_pos hm]
      exact ⟨h6, by rw [if_neg (by simp)]; exact ⟨hp, fun T' hT' => h8 T' (hT'.trans hp.symm)⟩⟩
  · obtain ⟨H, e1, e2⟩ := derivs_spec ht hS.ne
    refine ⟨S, M, H, ?_, ?_, hS, rfl, rfl, by rw [MmdTargets, if_neg hm], List.Perm.refl _, e2⟩
    · unfold derivs at e1
      rw [if_neg hm] at e1
      obtain rfl := hS.set
      rw [hessian, if_neg hm, e1, Option.map_some]
    · unfold derivs at e1
      rw [if_neg hm] at e1
      obtain rfl := hS.set
      unfold mmdHessian at e1
      rw [gradient, if_neg hm, mmdGradient]
      by_cases h0 : t.X.length = 0 ∨ S.referenceSet.length = 0
      · rw [if_pos h0] at e1; simp at e1
      · rw [if_neg h0] at e1 ⊢
        rw [Option.map_some, ← Option.some.inj e1]

/-! ### Residual -/

theorem frobNorm_eq {R : List (List ℝ)} {N d : ℕ} (h : IsMat N d R) :
    frobNorm R = √(∑ i ∈ Finset.range N, ∑ c ∈ Finset.range d, at2 R i c ^ 2) := by
  have e : ∀ l : List ℝ, l.sum = ∑ i ∈ Finset.range l.length, l.getD i 0 := fun l => by
    rw [Finset.sum_range]
    simp [List.sum_ofFn.symm]
  have h1 : (R.flatten.map (· ^ 2)).sum = (R.map fun r => (r.map (· ^ 2)).sum).sum := by
    rw [List.map_flatten, List.sum_flatten, List.map_map]
    rfl
  rw [frobNorm, h1, e, List.length_map, h.1]
  congr 1
  refine Finset.sum_congr rfl fun i hi => ?_
  have hi := Finset.mem_range.mp hi
  have hi' : i < R.length := by rw [h.1]; exact hi
  rw [List.getD_eq_getElem _ _ (by simpa using hi'), List.getElem_map, e, List.length_map, h.2 _ (List.getElem_mem hi')]
  refine Finset.sum_congr rfl fun c hc => ?_
  have hc := Finset.mem_range.mp hc
  have hl := h.2 _ (List.getElem_mem hi')
  rw [List.getD_eq_getElem _ _ (by rw [List.length_map, hl]; exact hc), List.getElem_map, at2,
    List.getD_eq_getElem R _ hi', List.getD_eq_getElem _ _ (by rw [hl]; exact hc)]

/-- The rows of the residual, for a gradient given as an array. -/
theorem rows_spec (ha : a.Ok) {N : ℕ} {t : State ℝ} (ht : Usable a.p (a.p.nVar + a.p.nDual) N t)
    (g : Fin t.X.length → Fin a.p.nVar → ℝ) :
    ∃ ds R, a.p.layerPoints t (tableOf g) = some ds ∧ ds.length = t.X.length ∧
      (∀ i (hi : i < ds.length), ds[i].Shape a.p.nVar a.p.nDual ∧ a.p.PointOf (t.X.getD i []) ds[i] ∧
        ∀ v < a.p.nVar, ds[i].grad.getD v 0 = at2 (tableOf g) i v) ∧
      mmdR a.p.constrained (ds.map NewtonPoint.toPointData) = some R ∧ IsMat t.X.length (a.p.nVar + a.p.nDual) R ∧
      ∀ i < t.X.length, KktResidual a.p (t.X.getD i []) (at2 (tableOf g) i) (at2 R i) := by
  obtain ⟨g1, g2⟩ := tableOf_isMat g
  obtain ⟨ds, l1, l2, l3⟩ := Funcs.layerPoints_spec ha.funcs ha.jac ht (grad := tableOf g) g1 g2
  have hsh : ∀ d ∈ ds, d.Shape a.p.nVar a.p.nDual := fun d hd => by
    obtain ⟨i, hi, rfl⟩ := List.mem_iff_getElem.mp hd
    exact (l3 i hi).1
  obtain ⟨R, hR, hR1, hR2⟩ := hvnR_rows (c := a.p.constrained) hsh Funcs.nDual_free
  have hG : ∀ i (hi : i < ds.length), ∀ v < a.p.nVar, ds[i].grad.getD v 0 = at2 (tableOf g) i v := fun i hi v _ => by
    rw [(l3 i hi).2.1]; rfl
  have hx : ∀ i < t.X.length, (t.X.getD i []).length = a.p.nVar + a.p.nDual := by
    intro i hi
    rw [List.getD_eq_getElem _ _ hi]
    exact ht.dim _ (List.getElem_mem hi)
  refine ⟨ds, R, l1, l2, fun i hi => ⟨(l3 i hi).1, (l3 i hi).2.2, hG i hi⟩, by rw [mmdR_eq_hvnR hsh, hR],
    ⟨hR1.trans l2, fun r hr => ?_⟩, fun i hi => ?_⟩
  · obtain ⟨i, hi, rfl⟩ := List.mem_iff_getElem.mp hr
    have := (hR2 i (by omega)).1
    rwa [List.getD_eq_getElem _ _ hi] at this
  · have hi' : i < ds.length := by omega
    obtain ⟨-, r1, r2⟩ := hR2 i hi'
    exact kktResidual_of ha.funcs (hx i hi) (l3 i hi').2.2 (l3 i hi').1 (hG i hi') r1 r2

theorem residual_of (ha : a.Ok) {N : ℕ} {t : State ℝ} (ht : Usable a.p (a.p.nVar + a.p.nDual) N t)
    {S S' : RefSet (ℕ → ℝ)} {T : List (ℕ → ℝ)} {D : MMDGradient t.X.length a.p.nVar a.nObj}
    {Tg : List (ℕ → ℝ) → List (ℕ → ℝ) → Prop} (h2 : a.gradient t S = some (S', D)) (h6 : Tg (mmdImages a t.X) T)
    (h8 : MmdSmooth a → MmdGrad a T t.X (at2 (tableOf D.dX))) :
    ∃ R, a.residual t S = some (S', R) ∧ ResidualNormBy a Tg t.X (frobNorm R) := by
  obtain ⟨ds, R, d1, -, -, d4, d5, d6⟩ := rows_spec ha ht D.dX
  refine ⟨R, ?_, T, at2 (tableOf D.dX), at2 R, h6, h8, d6, frobNorm_eq d5⟩
  rw [residual, h2, Option.bind_some, d1, Option.bind_some, d4, Option.map_some]

theorem residual_spec (ha : a.Ok) {N : ℕ} {t : State ℝ} (ht : Usable a.p (a.p.nVar + a.p.nDual) N t)
    (hN : t.X.length = N) {S : RefSet (ℕ → ℝ)} {M : List (ℕ → ℝ)} (hS : RefOk a N S M) :
    ∃ S' T R, a.residual t S = some (S', R) ∧ RefOk a N S' T ∧ S'.ref = S.ref ∧ S'.eta = S.eta ∧ T.Perm M ∧
      ResidualNorm a M t.X (frobNorm R) := by
  obtain ⟨S', T, H, -, h2, h3, h4, h5, h6, h7, h8⟩ := indicator_spec ha ht hN hS
  obtain ⟨R, r1, r2⟩ := residual_of ha ht (Tg := fun Y T => MmdTargets a Y M T) h2 h6 fun hs => (h8 hs).1
  exact ⟨S', T, R, r1, h3, h4, h5, h7, r2⟩

/-! ### Newton step -/

theorem newton_of (ha : a.Ok) {N0 : ℕ} {t : State ℝ} (ht : Usable a.p (a.p.nVar + a.p.nDual) N0 t) {N : ℕ}
    (hN : t.X.length = N) {S S' : RefSet (ℕ → ℝ)} {T : List (ℕ → ℝ)} {D : MMDHessian t.X.length a.p.nVar a.nObj}
    (h1 : a.hessian t S = some (S', D))
    (h8 : MmdSmooth a → MmdGrad a T t.X (at2 (tableOf D.dX)) ∧
        (MmdHess a T t.X fun i v j w => at2 (tableOf D.dX2) (i * a.p.nVar + v) (j * a.p.nVar + w)) ∧
        SymmetricIn t.X.length a.p.nVar
          fun i v j w => at2 (tableOf D.dX2) (i * a.p.nVar + v) (j * a.p.nVar + w)) :
    ∃ st R, ∃ (G : ℕ → ℕ → ℝ) (H : ℕ → ℕ → ℕ → ℕ → ℝ), a.newton t S = some (S', st, R) ∧
      (MmdSmooth a → MmdGrad a T t.X G ∧ MmdHess a T t.X H ∧ SymmetricIn N a.p.nVar H) ∧
      IsMat N (a.p.nVar + a.p.nDual) st ∧ IsMat N (a.p.nVar + a.p.nDual) R ∧
      (∀ i < N, KktResidual a.p (t.X.getD i []) (G i) (at2 R i)) ∧
      (∀ A, TableOf N a.p.nVar H A → SolverSound a.solve →
        (∃ z : ℕ → ℕ → ℝ, ∀ i < N, KktNewtonFlat a.p (t.X.getD i []) (G i)
          (fun v => ∑ j ∈ Finset.range N, ∑ w ∈ Finset.range a.p.nVar,
            at2 (a.precond A) (i * a.p.nVar + v) (j * a.p.nVar + w) * z j w) (z i)) →
        ∀ i < N, KktNewtonFlat a.p (t.X.getD i []) (G i)
            (fun v => ∑ j ∈ Finset.range N, ∑ w ∈ Finset.range a.p.nVar,
              at2 (a.precond A) (i * a.p.nVar + v) (j * a.p.nVar + w) * at2 st j w) (at2 st i) ∧
          ∀ k < a.p.nDual, ¬ IsActive a.p ((t.X.getD i []).take a.p.nVar) k → at2 st i (a.p.nVar + k) = 0) := by
  subst hN
  obtain ⟨ds, R, d1, l2, l3, d4, d5, d6⟩ := rows_spec ha ht D.dX
  set G := at2 (tableOf D.dX) with hG
  set Hess := tableOf D.dX2 with hHess
  set H : ℕ → ℕ → ℕ → ℕ → ℝ := fun i v j w => at2 Hess (i * a.p.nVar + v) (j * a.p.nVar + w) with hH
  have hsh : ∀ d ∈ ds, d.Shape a.p.nVar a.p.nDual := fun d hd => by
    obtain ⟨i, hi, rfl⟩ := List.mem_iff_getElem.mp hd
    exact (l3 i hi).1
  have hHm : IsMat (ds.length * a.p.nVar) (ds.length * a.p.nVar) Hess := by rw [l2]; exact tableOf_isMat _
  have hx : ∀ i < t.X.length, (t.X.getD i []).length = a.p.nVar + a.p.nDual := by
    intro i hi
    rw [List.getD_eq_getElem _ _ hi]
    exact ht.dim _ (List.getElem_mem hi)
  have hkk : ∀ (z : ℕ → ℕ → ℝ) (i) (hi : i < ds.length), NewtonEquations false a.p.nVar a.p.nDual ds[i]
      (fun v => ∑ j ∈ Finset.range t.X.length, ∑ w ∈ Finset.range a.p.nVar,
        at2 (a.precond Hess) (i * a.p.nVar + v) (j * a.p.nVar + w) * z j w) (z i) ↔
      KktNewtonFlat a.p (t.X.getD i []) (G i)
        (fun v => ∑ j ∈ Finset.range t.X.length, ∑ w ∈ Finset.range a.p.nVar,
          at2 (a.precond Hess) (i * a.p.nVar + v) (j * a.p.nVar + w) * z j w) (z i) := fun z i hi =>
    kktNewtonFlat_iff ha.funcs (hx i (by omega)) (l3 i hi).2.1 (l3 i hi).2.2 _ _
  have hNpos : 0 < ds.length := by rw [l2]; exact List.length_pos_iff.mpr ht.ne
  have hpm : IsMat (ds.length * a.p.nVar) (ds.length * a.p.nVar) (a.precond Hess) := ha.precond _ _ hHm
  obtain ⟨st, hS1, hS2, hS3⟩ := mmdStep_total ha.solve hNpos hsh hpm
  refine ⟨st, R, G, H, ?_, h8, ⟨hS2.trans l2, hS3⟩, d5, d6, ?_⟩
  · rw [newton, h1, Option.bind_some, d1, Option.bind_some, d4, Option.bind_some, hS1, Option.map_some]
  · rintro A hA hs ⟨z, hz⟩
    obtain rfl : A = Hess := hA.unique ⟨by rw [← l2]; exact hHm, fun _ _ _ _ _ _ _ _ => rfl⟩
    obtain ⟨S', e1, e2, e3, e4⟩ := C60_mmd_partial hs hNpos hsh (Hess := a.precond Hess) hpm
      ⟨(List.range t.X.length).map fun j => (List.range (a.p.nVar + a.p.nDual)).map fun w => z j w,
        ⟨by rw [List.length_map, List.length_range, l2], fun x hx => by
          obtain ⟨j, -, rfl⟩ := List.mem_map.mp hx
          simp⟩, fun i hi => by
          have := (hkk z i hi).mpr (hz i (by omega))
          have e : ∀ j < t.X.length, ∀ w < a.p.nVar + a.p.nDual,
              at2 ((List.range t.X.length).map fun j => (List.range (a.p.nVar + a.p.nDual)).map fun w => z j w) j w = z j w :=
            fun j hj w hw => at2_table hj hw
          unfold NewtonEquations at this ⊢
          refine ⟨fun v hv => ?_, fun k hk ha => ?_⟩
          · rw [← this.1 v hv]
            congr 1
            · congr 1
              unfold hessTimes
              rw [l2]
              exact Finset.sum_congr rfl fun j hj => Finset.sum_congr rfl fun w hw => by
                rw [e j (Finset.mem_range.mp hj) w (by have := Finset.mem_range.mp hw; omega)]
            · exact Finset.sum_congr rfl fun k hk => by
                rw [e i (by omega) (a.p.nVar + k) (by have := Finset.mem_range.mp hk; omega)]
          · rw [← this.2 k hk ha]
            exact Finset.sum_congr rfl fun w hw => by
              rw [e i (by omega) w (by have := Finset.mem_range.mp hw; omega)]⟩
    obtain rfl : st = S' := Option.some.inj (hS1.symm.trans e1)
    intro i hi
    refine ⟨(hkk (at2 st) i (by omega)).mp ?_, fun k hk hna => e4 i (by omega) k hk ?_⟩
    · have := e3 i (by omega)
      unfold hessTimes at this
      simpa only [l2] using this
    · rw [← Bool.not_eq_true, PointOf.active ha.funcs (hx i hi) (l3 i (by omega)).2.1 hk]
      exact hna

theorem newton_spec (ha : a.Ok) {N : ℕ} {t : State ℝ} (ht : Usable a.p (a.p.nVar + a.p.nDual) N t)
    (hN : t.X.length = N) {S : RefSet (ℕ → ℝ)} {M : List (ℕ → ℝ)} (hS : RefOk a N S M) :
    ∃ S' T st R, ∃ (G : ℕ → ℕ → ℝ) (H : ℕ → ℕ → ℕ → ℕ → ℝ), a.newton t S = some (S', st, R) ∧ RefOk a N S' T ∧
      S'.ref = S.ref ∧ S'.eta = S.eta ∧
      MmdTargets a (mmdImages a t.X) M T ∧ T.Perm M ∧ (MmdSmooth a → MmdGrad a T t.X G ∧ MmdHess a T t.X H ∧ SymmetricIn N a.p.nVar H) ∧
      IsMat N (a.p.nVar + a.p.nDual) st ∧ IsMat N (a.p.nVar + a.p.nDual) R ∧
      (∀ i < N, KktResidual a.p (t.X.getD i []) (G i) (at2 R i)) ∧
      (∀ A, TableOf N a.p.nVar H A → SolverSound a.solve →
        (∃ z : ℕ → ℕ → ℝ, ∀ i < N, KktNewtonFlat a.p (t.X.getD i []) (G i)
          (fun v => ∑ j ∈ Finset.range N, ∑ w ∈ Finset.range a.p.nVar,
            at2 (a.precond A) (i * a.p.nVar + v) (j * a.p.nVar + w) * z j w) (z i)) →
        ∀ i < N, KktNewtonFlat a.p (t.X.getD i []) (G i)
            (fun v => ∑ j ∈ Finset.range N, ∑ w ∈ Finset.range a.p.nVar,
              at2 (a.precond A) (i * a.p.nVar + v) (j * a.p.nVar + w) * at2 st j w) (at2 st i) ∧
          ∀ k < a.p.nDual, ¬ IsActive a.p ((t.X.getD i []).take a.p.nVar) k → at2 st i (a.p.nVar + k) = 0) := by
  obtain ⟨S', T, D, h1, -, h3, h4, h5, h6, h7, h8⟩ := indicator_spec ha ht hN hS
  obtain ⟨st, R, G, H, n1, n2⟩ := newton_of ha ht hN h1 h8
  exact ⟨S', T, st, R, G, H, n1, h3, h4, h5, h6, h7, n2⟩

end Mmdn

end Verif.Opt
