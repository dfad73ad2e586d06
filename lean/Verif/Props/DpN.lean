import Verif.Opt.DpNSearch
import Verif.Props.HVN
import Mathlib.Analysis.Real.Sqrt

/-!
# C70: the indicator that `DpN` works on; C71: the iterations of `DpN`
-/

set_option linter.unusedSectionVars false

namespace Verif.Props

open Verif.Opt Verif.Ind Verif.Util Verif.HV

variable {K : Type*} [Field K] [LinearOrder K] [IsStrictOrderedRing K] [Inhabited K]

/-! ## C71: specification -/

/-- The objective points of a population. -/
def images (a : Dpn K) (X : List (List K)) : List (ℕ → K) := X.map fun x => pt (a.p.func.point (x.take a.p.nVar))

/-- What an iteration starts from: a usable population of `N` points, a reference set of one component with at least as
many points and one direction, and the last step if there was one. -/
structure DpnReady (a : Dpn K) (N : ℕ) (s : DpnState K) : Prop where
  state : Usable a.p (a.p.nVar + a.p.nDual) N s.state
  size : s.state.X.length = N
  ref : OneRef s.ref N
  matched : s.ref.matched = none ∨ ∃ M, Paired s.ref M ∧ M.length = N
  step : s.iter ≠ 0 → s.step.length = N

/-- The primal direction `d` is `n`, or one of its components has been set to zero because the point is on the boundary
and `n` leads out of the box. -/
def Projected (xl xu x n d : List K) : Prop :=
  d = n ∨ (∃ c, d = n.set c 0) ∧ ∃ j < xl.length, (n.getD j 0 < 0 ∧ x.getD j 0 = xl.getD j 0) ∨
    (0 < n.getD j 0 ∧ x.getD j 0 = xu.getD j 0)

/-- The targets of an iteration: `M0` is matched to the points, `M1` are the targets after the shift, `T` are those of
the indicator that is chosen. -/
structure DpnTargets (a : Dpn K) (s s' : DpnState K) (M0 M1 T : List (ℕ → K)) : Prop where
  gd : ∃ D, s'.gd = a.sqrt ((D.map (· ^ 2)).sum / (s.state.X.length : K)) ∧
    List.Forall₂ (fun y d => (∃ r ∈ s.ref.referenceSet, a.env.dist y r = d) ∧ ∀ r ∈ s.ref.referenceSet, d ≤ a.env.dist y r)
      (images a s.state.X) D
  igd : s'.igd = (∑ i ∈ Finset.range s.state.X.length, ∑ k ∈ Finset.range a.nObj,
    ((images a s.state.X).getD i 0 k - M0.getD i 0 k) ^ 2) / (s.state.X.length : K)
  kept : ∀ old, s.ref.medoids = [some old] → old.length = s.state.X.length → M0.Perm old
  fresh : (∀ old, s.ref.medoids = [some old] → old.length ≠ s.state.X.length) → M0.Subperm s.ref.ref.flatten
  matched : Targets a.env.dist false (images a s.state.X) M0 M0
  shifted : ShiftedBy (if s.iter = 0 then 8 / 100 else 5 / 100 : K)
    (fun i => s.iter = 0 ∨ AtRest a.env.dist (images a s.state.X) M0 (s.step.map fun r => a.norm (r.take a.p.nVar)) i)
    s.ref.eta (fun _ => 0) M0 M1 s.hist s'.hist
  targets : Targets a.env.dist (a.gdActive s'.gd s'.igd) (images a s.state.X) M1 T
  after : ∃ M, Paired s'.ref M ∧ M.Perm M1 ∧ s'.ref.ref = s.ref.ref ∧ s'.ref.eta = s.ref.eta

/-- The movement of point `i` in an iteration with targets `T`, Newton directions `n` and step sizes `α`. -/
structure DpnMove (a : Dpn K) (s s' : DpnState K) (T : List (ℕ → K)) (n : List (List K)) (i : ℕ) : Prop where
  residual : KktResidual a.p (s.state.X.getD i []) (dpGrad a (a.gdActive s'.gd s'.igd) s.state.X.length
    ((s.state.X.getD i []).take a.p.nVar) (T.getD i 0)) (pt (s'.R.getD i []))
  inactive : ∀ k < a.p.nDual, ¬ IsActive a.p ((s.state.X.getD i []).take a.p.nVar) k → pt (n.getD i []) (a.p.nVar + k) = 0
  newton : ∀ A, IsMat a.p.nVar a.p.nVar A → (∀ v < a.p.nVar, ∀ w < a.p.nVar, at2 A v w =
      dpHess a (a.gdActive s'.gd s'.igd) s.state.X.length ((s.state.X.getD i []).take a.p.nVar) (T.getD i 0) v w) →
    SolverSound a.solve →
    (∃ z : ℕ → K, KktNewton a.p (s.state.X.getD i []) (dpGrad a (a.gdActive s'.gd s'.igd) s.state.X.length
      ((s.state.X.getD i []).take a.p.nVar) (T.getD i 0))
        (fun v => ∑ w ∈ Finset.range a.p.nVar, at2 (a.precond A) v w * z w) z) →
    KktNewton a.p (s.state.X.getD i []) (dpGrad a (a.gdActive s'.gd s'.igd) s.state.X.length
      ((s.state.X.getD i []).take a.p.nVar) (T.getD i 0))
        (fun v => ∑ w ∈ Finset.range a.p.nVar, at2 (a.precond A) v w * pt (n.getD i []) w) (pt (n.getD i []))
  projected : ∃ d, Projected a.xl a.xu ((s.state.X.getD i []).take a.p.nVar) ((n.getD i []).take a.p.nVar) d ∧
    s'.step.getD i [] = d ++ (n.getD i []).drop a.p.nVar
  handled : s'.step.getD i [] = (dpnBox a.xl a.xu ((s.state.X.getD i []).take a.p.nVar) ((n.getD i []).take a.p.nVar)).1 ++
    (n.getD i []).drop a.p.nVar

/-! ### Lemmas -/

theorem SearchedBy.mono {a : Dpn K} {useGd : Bool} {X : List (List K)} {Tg Tg' : List (ℕ → K) → List (ℕ → K) → Prop}
    {i : ℕ} {d r : List K} {s α : K} (h : SearchedBy a useGd X Tg i d r s α) (hp : ∀ Y T, Tg Y T → Tg' Y T) :
    SearchedBy a useGd X Tg' i d r s α := by
  have key : ∀ {x v}, MovedNormBy a useGd X Tg i x v → MovedNormBy a useGd X Tg' i x v := by
    rintro x v ⟨T, r, h1, h2⟩
    exact ⟨T, r, hp _ _ h1, h2⟩
  obtain ⟨tr, h1, h2, h3, h4, h5⟩ := h
  refine ⟨tr, h1, h2, h3, fun b hb => ?_, h5.imp_right ?_⟩
  · obtain ⟨v, e1, e2⟩ := h4 b hb
    exact ⟨v, key e1, e2⟩
  · rintro ⟨v, e1, e2⟩
    exact ⟨v, key e1, e2⟩

theorem usable_images {a : Dpn K} {N0 : ℕ} {t : State K} (ht : Usable a.p (a.p.nVar + a.p.nDual) N0 t) :
    t.Y.map pt = images a t.X := by
  rw [ht.sync.Y, List.map_map]; rfl

theorem images_length (a : Dpn K) (X : List (List K)) : (images a X).length = X.length := by simp [images]

theorem nanmin_pos {l : List (Ext K)} (h : ∀ e ∈ l, e = .inf ∨ ∃ b, 0 < b ∧ e = .fin b) : 0 < (Ext.nanmin l).capOne := by
  have key : ∀ (l : List (Ext K)) (acc : Ext K), (∀ e ∈ l, e = .inf ∨ ∃ b, 0 < b ∧ e = .fin b) →
      (acc = .nan ∨ acc = .inf ∨ ∃ b, 0 < b ∧ acc = .fin b) →
      (l.foldl Ext.fmin acc = .nan ∨ l.foldl Ext.fmin acc = .inf ∨ ∃ b, 0 < b ∧ l.foldl Ext.fmin acc = .fin b) := by
    intro l
    induction l with
    | nil => exact fun acc _ h => h
    | cons e l ih =>
      intro acc hl ha
      rw [List.foldl_cons]
      refine ih _ (fun x hx => hl x (List.mem_cons_of_mem _ hx)) ?_
      have he := hl e List.mem_cons_self
      unfold Ext.fmin
      by_cases h1 : acc.isNan = true
      · rw [if_pos h1]; exact .inr he
      · rw [if_neg h1]
        by_cases h2 : e.lt acc = true
        · rw [if_pos h2]; exact .inr he
        · rw [if_neg h2]; exact ha
  unfold Ext.nanmin
  rcases key l .nan h (.inl rfl) with h | h | ⟨b, hb, h⟩
  · rw [h]; exact zero_lt_one
  · rw [h]; exact zero_lt_one
  · rw [h, Ext.capOne]
    split
    · exact hb
    · exact zero_lt_one

/-- Points in the interior of the box are not held back. -/
theorem dpnBox_interior {xl xu x n : List K} (hx : x.length = xl.length) (hu : xu.length = xl.length)
    (hin : ∀ d < xl.length, xl.getD d 0 < x.getD d 0 ∧ x.getD d 0 < xu.getD d 0) :
    (dpnBox xl xu x n).1 = n ∧ 0 < (dpnBox xl xu x n).2 := by
  have hpos : 0 < (Ext.nanmin (dpnRatios xl xu x n)).capOne := by
    refine nanmin_pos fun e he => ?_
    unfold dpnRatios at he
    obtain ⟨i, hi, rfl⟩ := List.mem_iff_getElem.mp he
    rw [List.getElem_zipWith]
    have hd : 0 < (boxDist xl xu x)[i]'(by rw [List.length_zipWith] at hi; omega) := by
      have hi' : i < (boxDist xl xu x).length := by rw [List.length_zipWith] at hi; omega
      unfold boxDist at hi' ⊢
      rw [List.getElem_append]
      split
      · rename_i hlt
        rw [List.length_zipWith] at hlt
        rw [List.getElem_zipWith, abs_pos, sub_ne_zero]
        have := (hin i (by omega)).1
        rw [List.getD_eq_getElem xl _ (by omega), List.getD_eq_getElem x _ (by omega)] at this
        exact this.ne'
      · rename_i hge
        rw [List.length_append, List.length_zipWith, List.length_zipWith] at hi'
        rw [List.length_zipWith] at hge
        rw [List.getElem_zipWith, abs_pos, sub_ne_zero]
        have := (hin (i - min x.length xl.length) (by omega)).2
        rw [List.getD_eq_getElem xu _ (by omega), List.getD_eq_getElem x _ (by omega)] at this
        simp only [List.length_zipWith]
        exact this.ne'
    unfold Ext.div
    split
    · rw [if_neg hd.ne']; exact .inl rfl
    · rename_i hne
      exact .inr ⟨_, div_pos hd ((abs_nonneg _).lt_of_ne' hne), rfl⟩
  unfold dpnBox
  dsimp only
  rw [if_neg hpos.ne']
  exact ⟨rfl, hpos⟩

/-- Steps that stay in the box are not shortened. -/
theorem dpnBox_full {xl xu x n : List K} (hx : x.length = xl.length) (hu : xu.length = xl.length) (hn : n.length = xl.length)
    (hin : ∀ d < xl.length, xl.getD d 0 < x.getD d 0 ∧ x.getD d 0 < xu.getD d 0)
    (hto : ∀ d < xl.length, xl.getD d 0 ≤ x.getD d 0 + n.getD d 0 ∧ x.getD d 0 + n.getD d 0 ≤ xu.getD d 0) :
    (dpnBox xl xu x n).2 = 1 := by
  have key : ∀ e ∈ dpnRatios xl xu x n, e = .inf ∨ ∃ b, 1 ≤ b ∧ e = .fin b := by
    intro e he
    unfold dpnRatios at he
    obtain ⟨i, hi, rfl⟩ := List.mem_iff_getElem.mp he
    rw [List.getElem_zipWith]
    obtain ⟨d, v, hd0, hdv, hd, hv⟩ : ∃ d v : K, 0 < d ∧ |min 0 v| ≤ d ∧
        (boxDist xl xu x)[i]'(by rw [List.length_zipWith] at hi; omega) = d ∧
        (outward n)[i]'(by rw [List.length_zipWith] at hi; omega) = v := by
      refine ⟨_, _, ?_, ?_, rfl, rfl⟩
      all_goals
        have hi' : i < (boxDist xl xu x).length := by rw [List.length_zipWith] at hi; omega
        simp only [boxDist, outward, List.getElem_append, List.length_zipWith, hx, hu, hn, min_self]
        have hi2 : i < xl.length + xl.length := by
          unfold boxDist at hi'
          rw [List.length_append, List.length_zipWith, List.length_zipWith] at hi'
          omega
        by_cases hlt : i < xl.length
        · simp only [hlt, dif_pos, List.getElem_zipWith]
          have h1 := (hin i hlt).1
          have h2 := (hto i hlt).1
          rw [List.getD_eq_getElem xl _ hlt, List.getD_eq_getElem x _ (by omega)] at h1 h2
          rw [List.getD_eq_getElem n _ (by omega)] at h2
          rw [abs_of_pos (sub_pos.mpr h1)]
          first
            | exact sub_pos.mpr h1
            | (rw [abs_of_nonpos (min_le_left _ _)]
               rcases min_choice 0 n[i] with h | h <;> rw [h] <;> linarith)
        · simp only [hlt, dif_neg, not_false_eq_true, List.getElem_zipWith, List.getElem_map]
          have h1 := (hin (i - xl.length) (by omega)).2
          have h2 := (hto (i - xl.length) (by omega)).2
          rw [List.getD_eq_getElem xu _ (by omega), List.getD_eq_getElem x _ (by omega)] at h1 h2
          rw [List.getD_eq_getElem n _ (by omega)] at h2
          rw [abs_of_pos (sub_pos.mpr h1)]
          first
            | exact sub_pos.mpr h1
            | (rw [abs_of_nonpos (min_le_left _ _)]
               rcases min_choice 0 (-n[i - xl.length]) with h | h <;> rw [h] <;> linarith)
    rw [hd, hv]
    unfold Ext.div
    split
    · rw [if_neg hd0.ne']; exact .inl rfl
    · rename_i hne
      exact .inr ⟨_, (one_le_div ((abs_nonneg _).lt_of_ne' hne)).mpr hdv, rfl⟩
  have h1 : (Ext.nanmin (dpnRatios xl xu x n)).capOne = 1 := by
    unfold Ext.nanmin
    rcases Ext.foldl_fmin_mem (dpnRatios xl xu x n) .nan with h | h
    · rw [h]; rfl
    · rcases key _ h with h | ⟨b, hb, h⟩
      · rw [h]; rfl
      · rw [h, Ext.capOne, if_neg (not_lt.mpr hb)]
  unfold dpnBox
  dsimp only
  rw [if_neg (by rw [h1]; exact one_ne_zero)]
  exact h1

theorem box_spec {a : Dpn K} (ha : a.Ok) {N : ℕ} {X n : List (List K)} (hX : IsMat N (a.p.nVar + a.p.nDual) X)
    (hn : IsMat N (a.p.nVar + a.p.nDual) n) :
    IsMat N (a.p.nVar + a.p.nDual) (a.box X n).1 ∧ (a.box X n).2.length = N ∧ ∀ i < N,
      (∃ d, Projected a.xl a.xu ((X.getD i []).take a.p.nVar) ((n.getD i []).take a.p.nVar) d ∧
        (a.box X n).1.getD i [] = d ++ (n.getD i []).drop a.p.nVar) ∧
      (a.box X n).1.getD i [] =
        (dpnBox a.xl a.xu ((X.getD i []).take a.p.nVar) ((n.getD i []).take a.p.nVar)).1 ++ (n.getD i []).drop a.p.nVar ∧
      ((∀ d < a.p.nVar, a.xl.getD d 0 < (X.getD i []).getD d 0 ∧ (X.getD i []).getD d 0 < a.xu.getD d 0) →
        0 < (a.box X n).2.getD i 0 ∧ ((∀ d < a.p.nVar,
          a.xl.getD d 0 ≤ (X.getD i []).getD d 0 + ((a.box X n).1.getD i []).getD d 0 ∧
          (X.getD i []).getD d 0 + ((a.box X n).1.getD i []).getD d 0 ≤ a.xu.getD d 0) → (a.box X n).2.getD i 0 = 1)) ∧
      0 ≤ (a.box X n).2.getD i 0 ∧ (a.box X n).2.getD i 0 ≤ 1 ∧
      ((∀ d < a.p.nVar, a.xl.getD d 0 ≤ (X.getD i []).getD d 0 ∧ (X.getD i []).getD d 0 ≤ a.xu.getD d 0) →
        ∀ s, 0 ≤ s → s ≤ (a.box X n).2.getD i 0 → ∀ d < a.p.nVar,
          a.xl.getD d 0 ≤ (X.getD i []).getD d 0 + s * ((a.box X n).1.getD i []).getD d 0 ∧
          (X.getD i []).getD d 0 + s * ((a.box X n).1.getD i []).getD d 0 ≤ a.xu.getD d 0) := by
  have hlen : ∀ {A : List (List K)}, IsMat N (a.p.nVar + a.p.nDual) A → ∀ i < N,
      (A.getD i []).length = a.p.nVar + a.p.nDual := fun hA i hi => by
    rw [List.getD_eq_getElem _ _ (by rw [hA.1]; exact hi)]
    exact hA.2 _ (List.getElem_mem _)
  have h1 : (a.box X n).1.length = N := by simp [Dpn.box, hX.1, hn.1]
  have h2 : (a.box X n).2.length = N := by simp [Dpn.box, hX.1, hn.1]
  have e1 : ∀ i < N, (a.box X n).1.getD i [] =
      (dpnBox a.xl a.xu ((X.getD i []).take a.p.nVar) ((n.getD i []).take a.p.nVar)).1 ++ (n.getD i []).drop a.p.nVar := by
    intro i hi
    rw [List.getD_eq_getElem _ _ (by omega), List.getD_eq_getElem X _ (by rw [hX.1]; exact hi),
      List.getD_eq_getElem n _ (by rw [hn.1]; exact hi)]
    simp [Dpn.box]
  have e2 : ∀ i < N, (a.box X n).2.getD i 0 =
      (dpnBox a.xl a.xu ((X.getD i []).take a.p.nVar) ((n.getD i []).take a.p.nVar)).2 := by
    intro i hi
    rw [List.getD_eq_getElem _ _ (by omega), List.getD_eq_getElem X _ (by rw [hX.1]; exact hi),
      List.getD_eq_getElem n _ (by rw [hn.1]; exact hi)]
    simp [Dpn.box]
  have hxt : ∀ i < N, ((X.getD i []).take a.p.nVar).length = a.xl.length := fun i hi => by
    rw [List.length_take, hlen hX i hi, ha.xl]; omega
  have hnt : ∀ i < N, ((n.getD i []).take a.p.nVar).length = a.xl.length := fun i hi => by
    rw [List.length_take, hlen hn i hi, ha.xl]; omega
  have hu : a.xu.length = a.xl.length := ha.xu.trans ha.xl.symm
  have hbl : ∀ i < N, (dpnBox a.xl a.xu ((X.getD i []).take a.p.nVar) ((n.getD i []).take a.p.nVar)).1.length = a.p.nVar :=
    fun i hi => ((dpnBox_length ..).trans (hnt i hi)).trans ha.xl
  have htk : ∀ (r : List K) d, d < a.p.nVar → (r.take a.p.nVar).getD d 0 = r.getD d 0 := fun r d hd => by
    simp only [List.getD_eq_getElem?_getD, List.getElem?_take, if_pos hd]
  refine ⟨⟨h1, fun r hr => ?_⟩, h2, fun i hi => ⟨⟨_, C33_projection _ _ _ _ (hxt i hi) hu (hnt i hi) _ rfl, e1 i hi⟩, e1 i hi, fun hin => ?_, ?_⟩⟩
  · obtain ⟨i, hi, rfl⟩ := List.mem_iff_getElem.mp hr
    have := e1 i (by omega)
    rw [List.getD_eq_getElem _ _ hi] at this
    rw [this, List.length_append, hbl i (by omega), List.length_drop, hlen hn i (by omega)]
    omega
  · have hin' : ∀ d < a.xl.length, a.xl.getD d 0 < ((X.getD i []).take a.p.nVar).getD d 0 ∧
        ((X.getD i []).take a.p.nVar).getD d 0 < a.xu.getD d 0 := fun d hd => by
      rw [htk _ d (by rw [← ha.xl]; exact hd)]; exact hin d (by rw [← ha.xl]; exact hd)
    obtain ⟨hb1, hb2⟩ := dpnBox_interior (n := (n.getD i []).take a.p.nVar) (hxt i hi) hu hin'
    rw [e2 i hi]
    refine ⟨hb2, fun hto => dpnBox_full (hxt i hi) hu (hnt i hi) hin' fun d hd => ?_⟩
    have := hto d (by rw [← ha.xl]; exact hd)
    rw [e1 i hi, hb1, List.take_append_drop] at this
    rw [htk _ d (by rw [← ha.xl]; exact hd), htk _ d (by rw [← ha.xl]; exact hd)]
    exact this
  · rw [e2 i hi]
    have hc := capOne_nanmin (dpnRatios a.xl a.xu ((X.getD i []).take a.p.nVar)
      (dpnBox a.xl a.xu ((X.getD i []).take a.p.nVar) ((n.getD i []).take a.p.nVar)).1) fun c hc => div_fin_nonneg hc
    rw [← dpnBox_eq] at hc
    refine ⟨hc.1, hc.2.1, fun hb s hs hs' d hd => ?_⟩
    have := (C33_handler _ _ _ _ (hxt i hi) hu (hnt i hi) (fun d hd => by
      rw [htk _ d (by rw [← ha.xl]; exact hd)]; exact hb d (by rw [← ha.xl]; exact hd)) _ rfl).2.2.2 s hs hs' d
        (by rw [ha.xl]; exact hd)
    rw [htk _ d hd] at this
    rw [e1 i hi, List.getD_append _ _ _ _ (by rw [hbl i hi]; exact hd)]
    exact this

/-- The part of an iteration after the shift, for reference sets with an invariant. -/
theorem iterate_of {a : Dpn K} (ha : a.Ok) {s : DpnState K}
    (hst : Usable a.p (a.p.nVar + a.p.nDual) s.state.X.length s.state) {g v : K} {S1 S2 S3 : RefSet (ℕ → K)}
    {hist' : ℕ → List (ℕ → K)} {T : List (ℕ → K)} {Inv : RefSet (ℕ → K) → Prop}
    {Tg : List (ℕ → K) → List (ℕ → K) → Prop} (g1 : a.gdValue s.ref (images a s.state.X) = some g)
    (i1 : a.igdValue s.ref (images a s.state.X) = some (S1, v))
    (k1 : dpnShift a.env.dist s.iter s.state.X.length (images a s.state.X)
      (s.step.map fun r => a.norm (r.take a.p.nVar)) S1 s.hist = some (S2, hist'))
    (hd : a.diffs (a.gdActive g v) S2 (images a s.state.X) =
      some (S3, List.zipWith (fun y r k => y k - r k) (images a s.state.X) T)) (hT : T.length = s.state.X.length)
    (hf : a.Flow (a.gdActive g v) s.state.X.length Inv Tg) (h3 : Inv S3) :
    ∃ s' n, ∃ α : ℕ → K, a.iterate s = some s' ∧ Usable a.p (a.p.nVar + a.p.nDual) s.state.X.length s'.state ∧
      s'.state.X.length = s.state.X.length ∧ Inv s'.ref ∧ s'.gd = g ∧ s'.igd = v ∧ s'.iter = s.iter ∧ s'.hist = hist' ∧
      IsMat s.state.X.length (a.p.nVar + a.p.nDual) n ∧ IsMat s.state.X.length (a.p.nVar + a.p.nDual) s'.step ∧
      (∀ i < s.state.X.length, DpnMove a s s' T n i) ∧
      (∀ i < s.state.X.length, s'.state.X.getD i [] = moved (s.state.X.getD i []) (s'.step.getD i []) (α i)) ∧
      (∀ i < s.state.X.length, 0 ≤ α i ∧ α i ≤ 1) ∧
      (((∀ r ∈ s'.step, ∀ x ∈ r, Vanishes x) ∧ (∀ i < s.state.X.length, α i = 1) ∧
          s'.state.nJac = s.state.nJac + s.state.X.length) ∨
       ((¬ ∀ r ∈ s'.step, ∀ x ∈ r, Vanishes x) ∧
        s.state.nJac + 2 * s.state.X.length ≤ s'.state.nJac ∧ s'.state.nJac ≤ s.state.nJac + 9 * s.state.X.length ∧
        ∀ i < s.state.X.length, ∃ m, 0 ≤ m ∧ m ≤ 1 ∧
          ((∀ d < a.p.nVar, a.xl.getD d 0 < (s.state.X.getD i []).getD d 0 ∧
            (s.state.X.getD i []).getD d 0 < a.xu.getD d 0) → 0 < m ∧ ((∀ d < a.p.nVar,
              a.xl.getD d 0 ≤ (s.state.X.getD i []).getD d 0 + (s'.step.getD i []).getD d 0 ∧
              (s.state.X.getD i []).getD d 0 + (s'.step.getD i []).getD d 0 ≤ a.xu.getD d 0) → m = 1)) ∧
          SearchedBy a (a.gdActive g v) s.state.X Tg i (s'.step.getD i []) (s'.R.getD i []) m (α i) ∧
          ((∀ d < a.p.nVar, a.xl.getD d 0 ≤ (s.state.X.getD i []).getD d 0 ∧
              (s.state.X.getD i []).getD d 0 ≤ a.xu.getD d 0) →
            ∀ d < a.p.nVar, a.xl.getD d 0 ≤ (s'.state.X.getD i []).getD d 0 ∧
              (s'.state.X.getD i []).getD d 0 ≤ a.xu.getD d 0))) := by
  have hY := usable_images hst
  have hpos : 0 < s.state.X.length := List.length_pos_iff.mpr hst.ne
  obtain ⟨n, R, n1, n8, n9, n10⟩ := Dpn.newton_of ha (a.gdActive g v) hst hT (by rw [hY]; exact hd)
  have hXm : IsMat s.state.X.length (a.p.nVar + a.p.nDual) s.state.X := ⟨rfl, hst.dim⟩
  obtain ⟨b1, b2, b3⟩ := box_spec ha hXm n8
  set b := a.box s.state.X n with hb
  have hrow : ∀ i < s.state.X.length, (b.1.getD i []).length = a.p.nVar + a.p.nDual := fun i hi => by
    rw [List.getD_eq_getElem _ _ (by rw [b1.1]; exact hi)]
    exact b1.2 _ (List.getElem_mem _)
  have hxrow : ∀ i < s.state.X.length, (s.state.X.getD i []).length = a.p.nVar + a.p.nDual := fun i hi => by
    rw [List.getD_eq_getElem _ _ hi]
    exact hst.dim _ (List.getElem_mem _)
  obtain ⟨αs, w, m, l1, l2, l3, l4⟩ := Dpn.lineSearch_spec ha (a.gdActive g v) hst hf h3
    (R := R) hrow (fun i hi => (b3 i hi).2.2.2.1)
  obtain ⟨w1, S4⟩ := w
  obtain ⟨rfl, o1⟩ := l3
  dsimp only at o1
  set X' := List.zipWith (fun x (sd : K × List K) => List.zipWith (fun x d => x + sd.1 * d) x sd.2) s.state.X
    (αs.zip b.1) with hX'
  have hX'l : X'.length = s.state.X.length := by simp [hX', l2, b1.1]
  have hX'i : ∀ i < s.state.X.length, X'.getD i [] = moved (s.state.X.getD i []) (b.1.getD i []) (αs.getD i 0) := by
    intro i hi
    rw [List.getD_eq_getElem _ _ (by omega), List.getD_eq_getElem s.state.X _ hi,
      List.getD_eq_getElem b.1 _ (by rw [b1.1]; exact hi), List.getD_eq_getElem αs _ (by omega)]
    simp [hX', moved]
  obtain ⟨t, t1, t2, t3, t4⟩ := Usable.update ha.funcs (Nat.le_add_right a.p.nVar a.p.nDual)
    { s.state with nJac := m } (X := X') (N0 := s.state.X.length) (List.ne_nil_of_length_pos (by omega)) hX'l.le
    (fun x hx => by
      obtain ⟨i, hi, rfl⟩ := List.mem_iff_getElem.mp hx
      have := hX'i i (by omega)
      rw [List.getD_eq_getElem _ _ hi] at this
      rw [this, moved, List.length_zipWith, hxrow i (by omega), hrow i (by omega), min_self])
  have htl : t.X.length = s.state.X.length := by rw [t2, hX'l]
  have hα : ∀ i < s.state.X.length, 0 ≤ αs.getD i 0 ∧ αs.getD i 0 ≤ 1 := by
    intro i hi
    rcases l4 with ⟨-, -, h⟩ | ⟨-, -, -, h⟩
    · rw [h i hi]; exact ⟨zero_le_one, le_rfl⟩
    · obtain ⟨-, -, -, p1, p2, -⟩ := b3 i hi
      exact ⟨((h i hi).mem p1).1, ((h i hi).mem p1).2.trans p2⟩
  refine ⟨{ state := t, ref := S4, gd := g, igd := v, iter := s.iter, step := b.1, R := R, hist := hist' }, n,
    fun i => αs.getD i 0, ?_, t3, htl, o1, rfl, rfl, rfl, rfl, n8, b1, ?_, fun i hi => by rw [t2]; exact hX'i i hi, hα, ?_⟩
  · unfold Dpn.iterate
    simp only [hY, g1, i1, k1, n1, Option.bind_some]
    rw [← hb, l1, Option.bind_some]
    simp only
    rw [← hX', t1, Option.map_some]
  · intro i hi
    obtain ⟨q1, q2, q3⟩ := n10 i hi
    exact ⟨q1, q2, q3, (b3 i hi).1, (b3 i hi).2.1⟩
  · rcases l4 with ⟨z1, z2, z3⟩ | ⟨z1, z2, z3, z4⟩
    · exact .inl ⟨z1, z3, by rw [t4, hX'l]; simp only; omega⟩
    · refine .inr ⟨z1, by rw [t4, hX'l]; simp only; omega, by rw [t4, hX'l]; simp only; omega, fun i hi => ?_⟩
      obtain ⟨-, -, p0, p1, p2, p3⟩ := b3 i hi
      refine ⟨b.2.getD i 0, p1, p2, p0, z4 i hi, fun hin d hd => ?_⟩
      have hm := (z4 i hi).mem p1
      have := p3 hin _ hm.1 hm.2 d hd
      rw [t2, hX'i i hi]
      have e : (moved (s.state.X.getD i []) (b.1.getD i []) (αs.getD i 0)).getD d 0 =
          (s.state.X.getD i []).getD d 0 + αs.getD i 0 * (b.1.getD i []).getD d 0 := by
        have h1 := hxrow i hi
        have h2 := hrow i hi
        rw [moved, List.getD_eq_getElem _ _ (by rw [List.length_zipWith]; omega), List.getElem_zipWith,
          List.getD_eq_getElem (s.state.X.getD i []) _ (by omega), List.getD_eq_getElem (b.1.getD i []) _ (by omega)]
      rw [e]
      exact this

theorem box_of {a : Dpn K} {N : ℕ} {s s' : DpnState K} {α : ℕ → K} (hX : IsMat N (a.p.nVar + a.p.nDual) s.state.X)
    (hl : s'.state.X.length = N) (h3 : IsMat N (a.p.nVar + a.p.nDual) s'.step)
    (h4 : ∀ i < N, s'.state.X.getD i [] = moved (s.state.X.getD i []) (s'.step.getD i []) (α i))
    (h5 : ((∀ r ∈ s'.step, ∀ x ∈ r, Vanishes x) ∧ ∀ i < N, α i = 1) ∨ ∀ i < N,
      (∀ d < a.p.nVar, a.xl.getD d 0 ≤ (s.state.X.getD i []).getD d 0 ∧ (s.state.X.getD i []).getD d 0 ≤ a.xu.getD d 0) →
      ∀ d < a.p.nVar, a.xl.getD d 0 ≤ (s'.state.X.getD i []).getD d 0 ∧ (s'.state.X.getD i []).getD d 0 ≤ a.xu.getD d 0)
    (hb : ∀ x ∈ s.state.X, ∀ d < a.p.nVar, a.xl.getD d 0 ≤ x.getD d 0 ∧ x.getD d 0 ≤ a.xu.getD d 0) :
    (∀ x ∈ s'.state.X, ∀ d < a.p.nVar,
      a.xl.getD d 0 - 1 / 10 ^ 8 ≤ x.getD d 0 ∧ x.getD d 0 ≤ a.xu.getD d 0 + 1 / 10 ^ 8) ∧
    ((∃ r ∈ s'.step, ∃ x ∈ r, 1 / 10 ^ 8 < |x|) →
      ∀ x ∈ s'.state.X, ∀ d < a.p.nVar, a.xl.getD d 0 ≤ x.getD d 0 ∧ x.getD d 0 ≤ a.xu.getD d 0) := by
  have get : ∀ x ∈ s'.state.X, ∃ i < N, x = s'.state.X.getD i [] := fun x hx => by
    obtain ⟨i, hi, rfl⟩ := List.mem_iff_getElem.mp hx
    exact ⟨i, by rw [← hl]; exact hi, by rw [List.getD_eq_getElem _ _ hi]⟩
  have hb' : ∀ i < N, ∀ d < a.p.nVar, a.xl.getD d 0 ≤ (s.state.X.getD i []).getD d 0 ∧
      (s.state.X.getD i []).getD d 0 ≤ a.xu.getD d 0 := fun i hi => by
    have hi' : i < s.state.X.length := by rw [hX.1]; exact hi
    rw [List.getD_eq_getElem _ _ hi']
    exact hb _ (List.getElem_mem _)
  rcases h5 with ⟨z1, z2⟩ | z
  · refine ⟨fun x hx d hd => ?_, fun ⟨r, hr, x, hx, hlt⟩ => absurd (z1 r hr x hx) (not_le.mpr hlt)⟩
    obtain ⟨i, hi, rfl⟩ := get x hx
    have hi1 : i < s.state.X.length := by rw [hX.1]; exact hi
    have hi2 : i < s'.step.length := by rw [h3.1]; exact hi
    have l1 : (s.state.X.getD i []).length = a.p.nVar + a.p.nDual := by
      rw [List.getD_eq_getElem _ _ hi1]; exact hX.2 _ (List.getElem_mem _)
    have l2 : (s'.step.getD i []).length = a.p.nVar + a.p.nDual := by
      rw [List.getD_eq_getElem _ _ hi2]; exact h3.2 _ (List.getElem_mem _)
    have e : (s'.state.X.getD i []).getD d 0 = (s.state.X.getD i []).getD d 0 + 1 * (s'.step.getD i []).getD d 0 := by
      rw [h4 i hi, z2 i hi, moved, List.getD_eq_getElem _ _ (by rw [List.length_zipWith]; omega), List.getElem_zipWith,
        List.getD_eq_getElem (s.state.X.getD i []) _ (by omega), List.getD_eq_getElem (s'.step.getD i []) _ (by omega)]
    have hv : |(s'.step.getD i []).getD d 0| ≤ 1 / 10 ^ 8 := by
      rw [List.getD_eq_getElem s'.step _ hi2] at l2 ⊢
      rw [List.getD_eq_getElem _ _ (by omega)]
      exact z1 _ (List.getElem_mem _) _ (List.getElem_mem _)
    have hv := abs_le.mp hv
    have := hb' i hi d hd
    rw [e]
    constructor <;> linarith [this.1, this.2, hv.1, hv.2]
  · have key : ∀ x ∈ s'.state.X, ∀ d < a.p.nVar, a.xl.getD d 0 ≤ x.getD d 0 ∧ x.getD d 0 ≤ a.xu.getD d 0 := by
      intro x hx
      obtain ⟨i, hi, rfl⟩ := get x hx
      exact z i hi (hb' i hi)
    have he : (0 : K) < 1 / 10 ^ 8 := by positivity
    exact ⟨fun x hx d hd => ⟨by linarith [(key x hx d hd).1], by linarith [(key x hx d hd).2]⟩, fun _ => key⟩

theorem start_of {a : Dpn K} (ha : a.Ok) {S : RefSet (ℕ → K)} {X0 : List (List K)} (hne : X0 ≠ [])
    (hle : ∀ d < a.p.nVar, a.xl.getD d 0 ≤ a.xu.getD d 0) :
    ((∃ x ∈ X0, x.length ≠ a.p.nVar) → a.start S X0 = none) ∧
    ((∀ x ∈ X0, x.length = a.p.nVar) → ∃ s, a.start S X0 = some s ∧ Usable a.p (a.p.nVar + a.p.nDual) X0.length s.state ∧
      s.state.X.length = X0.length ∧ s.iter = 0 ∧
      s.state.nJac = X0.length ∧ s.ref = S ∧ (∀ i, s.hist i = []) ∧
      ∀ i < X0.length, (∀ k < a.p.nDual, (s.state.X.getD i []).getD (a.p.nVar + k) 0 = 0) ∧ ∀ d < a.p.nVar,
        a.xl.getD d 0 ≤ (s.state.X.getD i []).getD d 0 ∧ (s.state.X.getD i []).getD d 0 ≤ a.xu.getD d 0 ∧
        ∀ v, a.xl.getD d 0 ≤ v → v ≤ a.xu.getD d 0 →
          |(s.state.X.getD i []).getD d 0 - (X0.getD i []).getD d 0| ≤ |v - (X0.getD i []).getD d 0|) := by
  constructor
  · rintro ⟨x, hx, hxl⟩
    unfold Dpn.start
    rw [if_neg]
    simp only [List.all_eq_true, decide_eq_true_eq]
    exact fun h => hxl (h x hx).1
  · intro hX
    have hcl : ∀ x ∈ X0, (a.clipRow x).length = a.p.nVar := fun x hx => by
      simp [Dpn.clipRow, hX x hx, ha.xl, ha.xu]
    have hdim : ∀ x ∈ X0.map fun x => a.clipRow x ++ List.replicate a.p.nDual 0, x.length = a.p.nVar + a.p.nDual := by
      intro x hx
      obtain ⟨y, hy, rfl⟩ := List.mem_map.mp hx
      rw [List.length_append, hcl y hy, List.length_replicate]
    obtain ⟨t, t1, t2, t3, t4⟩ := Usable.update ha.funcs (Nat.le_add_right a.p.nVar a.p.nDual) State.init
      (N0 := X0.length) (by simpa using hne) (by simp) hdim
    refine ⟨_, by
      unfold Dpn.start
      rw [if_pos (by simpa [ha.xl, ha.xu] using hX), t1, Option.map_some], t3, by simp [t2], rfl, ?_,
      rfl, fun _ => rfl, fun i hi => ?_⟩
    · simp [t4, State.init]
    · have hmem : X0[i] ∈ X0 := List.getElem_mem _
      have hc := hcl _ hmem
      have hx := hX _ hmem
      have e : t.X.getD i [] = a.clipRow X0[i] ++ List.replicate a.p.nDual 0 := by
        rw [t2, List.getD_eq_getElem _ _ (by simpa using hi), List.getElem_map]
      dsimp only
      rw [e, List.getD_eq_getElem X0 _ hi]
      refine ⟨fun k hk => ?_, fun d hd => ?_⟩
      · rw [List.getD_append_right _ _ _ _ (by omega), hc, Nat.add_sub_cancel_left, List.getD_replicate _ hk]
      · have hd' := hle d hd
        have h1 := ha.xl
        have h2 := ha.xu
        rw [List.getD_append _ _ _ _ (by omega), List.getD_eq_getElem (a.clipRow _) _ (by omega),
          List.getD_eq_getElem X0[i] _ (by omega)]
        rw [List.getD_eq_getElem a.xl _ (by omega), List.getD_eq_getElem a.xu _ (by omega)] at *
        simp only [Dpn.clipRow, List.getElem_map, List.getElem_zip]
        refine ⟨le_min (le_max_right _ _) hd', min_le_right _ _, fun v hv1 hv2 => ?_⟩
        rcases le_total X0[i][d] a.xl[d] with h | h
        · rw [max_eq_right h, min_eq_left hd', abs_of_nonneg (by linarith), abs_of_nonneg (by linarith)]
          linarith
        · rw [max_eq_left h]
          rcases le_total X0[i][d] a.xu[d] with h' | h'
          · rw [min_eq_left h', sub_self, abs_zero]
            exact abs_nonneg _
          · rw [min_eq_right h', abs_of_nonpos (by linarith), abs_of_nonpos (by linarith)]
            linarith

/-! ### Theorems -/

/-- C71: an iteration of `DpN` with a reference set of one component returns. It evaluates the indicators, shifts the
targets, computes residuals and Newton directions with respect to the targets of the chosen indicator, projects them at
the box, searches the step sizes and moves the points. -/
theorem C71_iteration {a : Dpn K} (ha : a.Ok) {N : ℕ} {s : DpnState K} (hs : DpnReady a N s) :
    ∃ s' M0 M1 T n, ∃ α : ℕ → K, a.iterate s = some s' ∧ DpnReady a N s' ∧ s'.iter = s.iter ∧ DpnTargets a s s' M0 M1 T ∧
      IsMat N (a.p.nVar + a.p.nDual) n ∧ IsMat N (a.p.nVar + a.p.nDual) s'.step ∧
      (∀ i < N, DpnMove a s s' T n i) ∧
      (∀ i < N, s'.state.X.getD i [] = moved (s.state.X.getD i []) (s'.step.getD i []) (α i)) ∧
      (∀ i < N, 0 ≤ α i ∧ α i ≤ 1) ∧
      (((∀ r ∈ s'.step, ∀ x ∈ r, Vanishes x) ∧ (∀ i < N, α i = 1) ∧ s'.state.nJac = s.state.nJac + N) ∨
       ((¬ ∀ r ∈ s'.step, ∀ x ∈ r, Vanishes x) ∧
        s.state.nJac + 2 * N ≤ s'.state.nJac ∧ s'.state.nJac ≤ s.state.nJac + 9 * N ∧
        ∀ i < N, ∃ m, 0 ≤ m ∧ m ≤ 1 ∧
          ((∀ d < a.p.nVar, a.xl.getD d 0 < (s.state.X.getD i []).getD d 0 ∧
            (s.state.X.getD i []).getD d 0 < a.xu.getD d 0) → 0 < m ∧ ((∀ d < a.p.nVar,
              a.xl.getD d 0 ≤ (s.state.X.getD i []).getD d 0 + (s'.step.getD i []).getD d 0 ∧
              (s.state.X.getD i []).getD d 0 + (s'.step.getD i []).getD d 0 ≤ a.xu.getD d 0) → m = 1)) ∧
          Searched a (a.gdActive s'.gd s'.igd) s.state.X M1 i (s'.step.getD i []) (s'.R.getD i []) m (α i) ∧
          ((∀ d < a.p.nVar, a.xl.getD d 0 ≤ (s.state.X.getD i []).getD d 0 ∧
              (s.state.X.getD i []).getD d 0 ≤ a.xu.getD d 0) →
            ∀ d < a.p.nVar, a.xl.getD d 0 ≤ (s'.state.X.getD i []).getD d 0 ∧
              (s'.state.X.getD i []).getD d 0 ≤ a.xu.getD d 0))) := by
  obtain ⟨hst, rfl, href, hmt, hstep⟩ := hs
  have hY := usable_images hst
  have hYl := images_length a s.state.X
  have hpos : 0 < s.state.X.length := List.length_pos_iff.mpr hst.ne
  have hRne : s.ref.referenceSet ≠ [] := by
    rcases hmt with h | ⟨M, h, hl⟩
    · obtain ⟨C, hC, hCl⟩ := href.ref
      rw [RefSet.referenceSet, h]
      simp only [Option.getD_none, hC, List.flatten_cons, List.flatten_nil, List.append_nil]
      exact List.ne_nil_of_length_pos (by omega)
    · rw [h.referenceSet]
      exact List.ne_nil_of_length_pos (by omega)
  obtain ⟨D, g1, g2⟩ := Dpn.gdValue_spec (a := a) hRne (images a s.state.X)
  obtain ⟨S1, M0, i1, i2, i3, i4, i5, i6, i7, i8, i9⟩ := Dpn.igdValue_spec ha (S := s.ref) (Y := images a s.state.X)
    (by rw [hYl]; exact href) (by rw [hYl]; exact hpos)
  obtain ⟨S2, M1, hist', k1, k2, k3, k4, k5, k6, k7⟩ := dpnShift_paired a.env.dist i2 i3 i6 s.iter
    (stepNorm := s.step.map fun r => a.norm (r.take a.p.nVar)) (fun h => by simpa [hYl] using hstep h) s.hist
  rw [hYl] at g1 i1 i2 i6 i7 i8 k1 k3 k6
  set g := a.sqrt ((D.map (· ^ 2)).sum / (s.state.X.length : K)) with hg
  set v := (∑ i ∈ Finset.range s.state.X.length, ∑ k ∈ Finset.range a.nObj,
    ((images a s.state.X).getD i 0 k - M0.getD i 0 k) ^ 2) / (s.state.X.length : K) with hv
  obtain ⟨S3, M3, T, n1, n2, n3, n4, n5, n6, n7⟩ := Dpn.diffs_spec ha (a.gdActive g v) (Y := images a s.state.X)
    (S := S2) (M := M1) (by rw [hYl]; exact k3) k2 (by rw [hYl]; exact k6) (by rw [hYl]; exact hpos)
  rw [hYl] at n2
  obtain ⟨s', n, α, q1, q2, q3, ⟨M4, o1, o2, o3, o4, o5⟩, q5, q6, q7, q8, q9, q10, q11, q12, q13, q14⟩ := iterate_of ha hst
    g1 i1 k1 n1 (n7.1.trans hYl)
    (Inv := fun S => ∃ M, OneRef S s.state.X.length ∧ Paired S M ∧ M.Perm M1 ∧ S.ref = S2.ref ∧ S.eta = S2.eta)
    (Tg := fun Y T => Targets a.env.dist (a.gdActive g v) Y M1 T)
    (by
      rintro S Y ⟨M, e1, e2, e3, e4, e5⟩ hYN
      obtain ⟨S', M', T', f1, f2, f3, f4, f5, f6, f7⟩ := Dpn.diffs_spec ha (a.gdActive g v) (Y := Y) (S := S) (M := M)
        (by rw [hYN]; exact e1) e2 (by rw [hYN, e3.length_eq, k6]) (by rw [hYN]; exact hpos)
      exact ⟨S', T', f1, ⟨M', by rw [hYN] at f2; exact f2, f3, f4.trans e3, f5.trans e4, f6.trans e5⟩, f7.1.trans hYN,
        Verif.Opt.Targets.perm f7 e3⟩)
    ⟨M3, n2, n3, n4, n5, n6⟩
  refine ⟨s', M0, M1, T, n, α, q1, ⟨q2, q3, o1, .inr ⟨M4, o2, o3.length_eq.trans k6⟩, fun _ => q10.1⟩, q7, ?_, q9, q10, q11,
    q12, q13, ?_⟩
  · exact ⟨⟨D, q5.trans hg, g2⟩, q6.trans hv, i7, i8, ⟨by rw [i6, hYl], List.Perm.refl _, i9⟩,
      by rw [← i5, q8]; exact k7, by rw [q5, q6]; exact n7, M4, o2, o3, o4.trans (k4.trans i4), o5.trans (k5.trans i5)⟩
  · rw [q5, q6]
    exact q14

/-- C71, the box: an iteration that starts in the box leads out of it by at most `1e-8`, and not at all unless all
components of the step are that small. -/
theorem C71_box {a : Dpn K} (ha : a.Ok) {N : ℕ} {s s' : DpnState K} (hs : DpnReady a N s) (hi : a.iterate s = some s')
    (hb : ∀ x ∈ s.state.X, ∀ d < a.p.nVar, a.xl.getD d 0 ≤ x.getD d 0 ∧ x.getD d 0 ≤ a.xu.getD d 0) :
    (∀ x ∈ s'.state.X, ∀ d < a.p.nVar,
      a.xl.getD d 0 - 1 / 10 ^ 8 ≤ x.getD d 0 ∧ x.getD d 0 ≤ a.xu.getD d 0 + 1 / 10 ^ 8) ∧
    ((∃ r ∈ s'.step, ∃ x ∈ r, 1 / 10 ^ 8 < |x|) →
      ∀ x ∈ s'.state.X, ∀ d < a.p.nVar, a.xl.getD d 0 ≤ x.getD d 0 ∧ x.getD d 0 ≤ a.xu.getD d 0) := by
  obtain ⟨s1, M0, M1, T, n, α, h1, h2, -, -, -, h3, -, h4, -, h5⟩ := C71_iteration ha hs
  obtain rfl : s1 = s' := Option.some.inj (h1.symm.trans hi)
  exact box_of (α := α) ⟨hs.size, hs.state.dim⟩ h2.size h3 h4 (h5.imp (fun h => ⟨h.1, h.2.1⟩) fun h i hi =>
    (h.2.2.2 i hi).choose_spec.2.2.2.2) hb

/-- C71, the loop: any number of iterations returns, always with as many points, after at most nine evaluations of the
Jacobian per point and iteration. -/
theorem C71_run {a : Dpn K} (ha : a.Ok) {N : ℕ} (n : ℕ) {s : DpnState K} (hs : DpnReady a N s) :
    ∃ s', a.run n s = some s' ∧ DpnReady a N s' ∧ s'.iter = s.iter + n ∧
      s.state.nJac + n * N ≤ s'.state.nJac ∧ s'.state.nJac ≤ s.state.nJac + n * (9 * N) := by
  induction n generalizing s with
  | zero => exact ⟨s, rfl, hs, rfl, by simp, by simp⟩
  | succ n ih =>
    obtain ⟨s1, M0, M1, T, m, α, h1, h2, h3, -, -, h4, -, -, -, h5⟩ := C71_iteration ha hs
    have hr : DpnReady a N (Dpn.log s1) := ⟨h2.state, h2.size, h2.ref, h2.matched, fun _ => h4.1⟩
    obtain ⟨s', g1, g2, g3, g4, g5⟩ := ih hr
    have e1 : (Dpn.log s1).iter = s1.iter + 1 := rfl
    have e2 : (Dpn.log s1).state = s1.state := rfl
    rw [e2] at g4 g5
    have hj : s.state.nJac + N ≤ s1.state.nJac ∧ s1.state.nJac ≤ s.state.nJac + 9 * N := by
      rcases h5 with ⟨-, -, h⟩ | ⟨-, h, h', -⟩ <;> omega
    refine ⟨s', by rw [Dpn.run, h1, Option.bind_some, g1], g2, by omega, ?_, ?_⟩
    · rw [Nat.succ_mul]; omega
    · rw [Nat.succ_mul]; omega

/-- C71, the start: the given points, each coordinate moved to the nearest number between its bounds, with multipliers
zero, and the given reference set. Points of another length are rejected. -/
theorem C71_start {a : Dpn K} (ha : a.Ok) {S : RefSet (ℕ → K)} {X0 : List (List K)} (hne : X0 ≠ [])
    (hS : OneRef S X0.length) (hm : S.matched = none) (hle : ∀ d < a.p.nVar, a.xl.getD d 0 ≤ a.xu.getD d 0) :
    ((∃ x ∈ X0, x.length ≠ a.p.nVar) → a.start S X0 = none) ∧
    ((∀ x ∈ X0, x.length = a.p.nVar) → ∃ s, a.start S X0 = some s ∧ DpnReady a X0.length s ∧ s.iter = 0 ∧
      s.state.nJac = X0.length ∧ s.ref = S ∧ (∀ i, s.hist i = []) ∧
      ∀ i < X0.length, (∀ k < a.p.nDual, (s.state.X.getD i []).getD (a.p.nVar + k) 0 = 0) ∧ ∀ d < a.p.nVar,
        a.xl.getD d 0 ≤ (s.state.X.getD i []).getD d 0 ∧ (s.state.X.getD i []).getD d 0 ≤ a.xu.getD d 0 ∧
        ∀ v, a.xl.getD d 0 ≤ v → v ≤ a.xu.getD d 0 →
          |(s.state.X.getD i []).getD d 0 - (X0.getD i []).getD d 0| ≤ |v - (X0.getD i []).getD d 0|) := by
  obtain ⟨h1, h2⟩ := start_of ha (S := S) hne hle
  refine ⟨h1, fun h => ?_⟩
  obtain ⟨s, g1, g2, g3, g4, g5, g6, g7⟩ := h2 h
  exact ⟨s, g1, ⟨g2, g3, by rw [g6]; exact hS, by rw [g6]; exact .inl hm, fun h => absurd g4 h⟩, g4, g5, g6, g7⟩

/-! ## C70: the choice of the indicator -/

/-- The contracts of `cdist` and of `sqrt`: the distances are Euclidean. -/
structure Euclidean (a : Dpn K) : Prop where
  nonneg : ∀ y r, 0 ≤ a.env.dist y r
  square : ∀ y r, a.env.dist y r ^ 2 = ∑ k ∈ Finset.range a.nObj, (y k - r k) ^ 2
  root : ∀ x, 0 ≤ x → 0 ≤ a.sqrt x ∧ a.sqrt x ^ 2 = x

/-- The targets are fresh, or those that have been matched to as many points. -/
def TargetsFit (S : RefSet (ℕ → K)) (N : ℕ) : Prop :=
  (S.matched = none ∧ ∀ old, S.medoids = [some old] → old.length ≠ N) ∨ ∃ M, Paired S M ∧ M.length = N

/-- C70 in full: with `type="deltap"` the iteration works on the generational distance if and only if it is larger than
the root of the mean square of the distances to the own targets. -/
def C70Statement (K : Type*) [Field K] [LinearOrder K] [IsStrictOrderedRing K] : Prop :=
  ∀ (a : Dpn K), a.Ok → Euclidean a → a.kind = .deltap → ∀ (S S' : RefSet (ℕ → K)) (Y : List (ℕ → K)) (g v : K),
    OneRef S Y.length → TargetsFit S Y.length → 0 < Y.length → a.gdValue S Y = some g → a.igdValue S Y = some (S', v) →
    (a.gdActive g v = true ↔ a.sqrt v < g)

theorem TargetsFit.ne {S : RefSet (ℕ → K)} {N : ℕ} (h : TargetsFit S N) (hS : OneRef S N) (hN : 0 < N) :
    S.referenceSet ≠ [] := by
  rcases h with ⟨h, -⟩ | ⟨M, h, hl⟩
  · obtain ⟨C, hC, hCl⟩ := hS.ref
    rw [RefSet.referenceSet, h]
    simp only [Option.getD_none, hC, List.flatten_cons, List.flatten_nil, List.append_nil]
    exact List.ne_nil_of_length_pos (by omega)
  · rw [h.referenceSet]
    exact List.ne_nil_of_length_pos (by omega)

/-- What holds of C70: the two values exist; `igd` is the mean square of the distances to the own targets `M`, without
the root, and never smaller than the square of `gd`. The generational distance is used exactly if `igd < gd`; then it is
not the larger one of the two root mean squares, and both values are below one. If the types are given, they are used. -/
theorem C70_partial {a : Dpn K} (ha : a.Ok) (he : Euclidean a) {S : RefSet (ℕ → K)} {Y : List (ℕ → K)}
    (hS : OneRef S Y.length) (hf : TargetsFit S Y.length) (hY : 0 < Y.length) :
    ∃ g S' v M, a.gdValue S Y = some g ∧ a.igdValue S Y = some (S', v) ∧ S'.referenceSet = M ∧
      v = (∑ i ∈ Finset.range Y.length, a.env.dist (Y.getD i 0) (M.getD i 0) ^ 2) / (Y.length : K) ∧
      0 ≤ g ∧ g ^ 2 ≤ v ∧ g ≤ a.sqrt v ∧
      (a.kind = .gd → a.gdActive g v = true) ∧ (a.kind = .igd → a.gdActive g v = false) ∧
      (a.kind = .deltap → a.gdActive g v = true → v < g ∧ g < 1) ∧
      (a.kind = .deltap → 1 ≤ v → a.gdActive g v = false) := by
  obtain ⟨D, g1, g2⟩ := Dpn.gdValue_spec (a := a) (hf.ne hS hY) Y
  obtain ⟨S', M, i1, i2, i3, i4, i5, i6, i7, i8, i9⟩ := Dpn.igdValue_spec ha hS hY
  have hmem : ∀ r ∈ M, r ∈ S.referenceSet := by
    rcases hf with ⟨h, h'⟩ | ⟨old, h, hl⟩
    · have := (i8 h').subset
      rw [RefSet.referenceSet, h]
      exact fun r hr => this hr
    · intro r hr
      rw [h.referenceSet]
      exact (i7 old h.medoids hl).subset hr
  have hN : (0 : K) < (Y.length : K) := by exact_mod_cast hY
  simp only [← he.square] at i1
  set v := (∑ i ∈ Finset.range Y.length, a.env.dist (Y.getD i 0) (M.getD i 0) ^ 2) / (Y.length : K) with hv
  have hD : D.length = Y.length := g2.length_eq.symm
  have hsum : (D.map (· ^ 2)).sum ≤ ∑ i ∈ Finset.range Y.length, a.env.dist (Y.getD i 0) (M.getD i 0) ^ 2 := by
    have e : (D.map (· ^ 2)).sum = ∑ i ∈ Finset.range Y.length, D.getD i 0 ^ 2 := by
      rw [← hD, Finset.sum_range, ← List.sum_ofFn]
      congr 1
      refine List.ext_getElem (by simp) fun i h1 h2 => ?_
      simp at h1
      simp [h1]
    rw [e]
    refine Finset.sum_le_sum fun i hi => ?_
    have hi := Finset.mem_range.mp hi
    have := (List.forall₂_iff_get.mp g2).2 i hi (by omega)
    obtain ⟨⟨r, -, hr⟩, hle⟩ := this
    simp only [List.get_eq_getElem] at hr hle
    rw [List.getD_eq_getElem D _ (by omega), List.getD_eq_getElem Y _ hi, List.getD_eq_getElem M _ (by omega)]
    exact pow_le_pow_left₀ (by rw [← hr]; exact he.nonneg _ _) (hle _ (hmem _ (List.getElem_mem _))) 2
  have hD0 : 0 ≤ (D.map (· ^ 2)).sum / (Y.length : K) := by
    refine div_nonneg (List.sum_nonneg fun x hx => ?_) hN.le
    obtain ⟨d, -, rfl⟩ := List.mem_map.mp hx
    positivity
  obtain ⟨q1, q2⟩ := he.root _ hD0
  set g := a.sqrt ((D.map (· ^ 2)).sum / (Y.length : K)) with hg
  have hle : g ^ 2 ≤ v := by
    rw [q2, hv]
    exact div_le_div_of_nonneg_right hsum hN.le
  have hv0 : 0 ≤ v := (sq_nonneg g).trans hle
  obtain ⟨w1, w2⟩ := he.root v hv0
  have hlt : v < g → g < 1 := fun h => by
    by_contra hc
    push Not at hc
    nlinarith
  refine ⟨g, S', v, M, g1, i1, i3.referenceSet, rfl, q1, hle, ?_, ?_, ?_, ?_, ?_⟩
  · by_contra hc
    push Not at hc
    nlinarith
  · intro h; rw [Dpn.gdActive, h]
  · intro h; rw [Dpn.gdActive, h]
  · intro h
    rw [Dpn.gdActive, h]
    exact fun h' => ⟨of_decide_eq_true h', hlt (of_decide_eq_true h')⟩
  · intro h h1
    rw [Dpn.gdActive, h]
    refine decide_eq_false fun h' => ?_
    linarith [hlt h']

/-- The reference set with the single target zero. -/
def zeroRef (K : Type*) [Field K] : RefSet (ℕ → K) := RefSet.new [[0]] [0] none

/-- C70 depends on the unit: for one point at distance `t` from its only target, both root mean squares are `t`, but the
generational distance is chosen below one and the inverted one above. Dividing the objectives by a constant changes the
choice. -/
theorem C70_violated_unit {a : Dpn K} (ha : a.Ok) (he : Euclidean a) (hk : a.kind = .deltap) {y : ℕ → K} {t : K}
    (ht : 0 < t) (hy : ∑ k ∈ Finset.range a.nObj, y k ^ 2 = t ^ 2) :
    ∃ g S' v, a.gdValue (zeroRef K) [y] = some g ∧ a.igdValue (zeroRef K) [y] = some (S', v) ∧ g = t ∧ a.sqrt v = t ∧
      (a.gdActive g v = true ↔ t < 1) := by
  have hS : OneRef (zeroRef K) [y].length := ⟨⟨[0], rfl, by simp⟩, rfl, rfl, rfl⟩
  have hfit : TargetsFit (zeroRef K) [y].length := .inl ⟨rfl, fun old h => by simp [zeroRef, RefSet.new] at h⟩
  obtain ⟨D, g1, g2⟩ := Dpn.gdValue_spec (a := a) (hfit.ne hS (by simp)) [y]
  obtain ⟨S', M, i1, i2, i3, i4, i5, i6, i7, i8, i9⟩ := Dpn.igdValue_spec ha hS (by simp)
  have hM : M = [0] := by
    have := i8 (fun old h => by simp [zeroRef, RefSet.new] at h)
    exact (this.perm_of_length_le (by rw [i6]; simp [zeroRef, RefSet.new])).eq_singleton
  have hd : a.env.dist y 0 ^ 2 = t ^ 2 := by rw [he.square, ← hy]; simp
  have hD : (D.map (· ^ 2)).sum = t ^ 2 := by
    match D, g2 with
    | [d], .cons h .nil =>
      obtain ⟨⟨r, hr, e⟩, -⟩ := h
      obtain rfl : r = 0 := by simpa [zeroRef, RefSet.new, RefSet.referenceSet] using hr
      simp [← e, hd]
  have hv : (∑ i ∈ Finset.range [y].length, ∑ k ∈ Finset.range a.nObj,
      ([y].getD i 0 k - M.getD i 0 k) ^ 2) / (([y].length : ℕ) : K) = t ^ 2 := by
    rw [hM, ← hy]; simp
  have hroot : a.sqrt (t ^ 2) = t := by
    obtain ⟨r1, r2⟩ := he.root (t ^ 2) (by positivity)
    exact (pow_left_inj₀ r1 ht.le (by norm_num)).mp r2
  rw [hv] at i1
  rw [hD] at g1
  refine ⟨t, S', t ^ 2, ?_, i1, rfl, hroot, ?_⟩
  · rw [g1]
    simp [hroot]
  · rw [Dpn.gdActive, hk]
    simp only [decide_eq_true_eq]
    constructor
    · intro h; nlinarith
    · intro h; nlinarith

/-! ### Examples -/

/-- `f(x) = (x, 1 - x)` on `[0, 1]`, with the Euclidean distance computed by `sqrt`. -/
noncomputable def lineDpn (kind : DpKind) (sqrt : K → K) : Dpn K where
  p := lineFuncs K
  nObj := 2
  hess := fun _ => [0, 0]
  kind := kind
  xl := [0]
  xu := [1]
  env := bruteEnv (fun y r => sqrt ((y 0 - r 0) ^ 2 + (y 1 - r 1) ^ 2)) fun _ _ => 0
  sqrt := sqrt
  norm := fun l => sqrt (l.map (· ^ 2)).sum
  cubic := fun _ _ _ _ => none
  solve := oneSolve
  precond := id

theorem lineDpn_ok (kind : DpKind) (sqrt : K → K) : (lineDpn kind sqrt).Ok where
  funcs := lineFuncs_ok
  env := bruteEnv_sound _ _
  xl := rfl
  xu := rfl
  solve := fun A b _ => oneSolve_length A b
  precond := fun _ _ h => h
  norm := fun _ => rfl
  jac := by intro h; simp [Funcs.constrained, lineDpn, lineFuncs] at h

theorem lineDpn_euclidean (kind : DpKind) : Euclidean (lineDpn kind Real.sqrt) where
  nonneg := fun _ _ => Real.sqrt_nonneg _
  square := fun y r => by
    show Real.sqrt _ ^ 2 = _
    rw [Real.sq_sqrt (by positivity), show (lineDpn kind Real.sqrt).nObj = 2 from rfl, Finset.sum_range_succ,
      Finset.sum_range_one]
  root := fun x hx => ⟨Real.sqrt_nonneg _, Real.sq_sqrt hx⟩

/-- Hence C70 does not hold. -/
theorem C70_violated : ¬ C70Statement ℝ := by
  intro h
  obtain ⟨g, S', v, h1, h2, h3, h4, h5⟩ := C70_violated_unit (lineDpn_ok .deltap Real.sqrt) (lineDpn_euclidean .deltap) rfl
    (y := fun k => if k = 0 then 1 / 2 else 0) (t := 1 / 2) (by norm_num)
    (by rw [show (lineDpn .deltap Real.sqrt).nObj = 2 from rfl, Finset.sum_range_succ, Finset.sum_range_one]; norm_num)
  have := (h _ (lineDpn_ok .deltap Real.sqrt) (lineDpn_euclidean .deltap) rfl _ S' _ g v
    ⟨⟨[0], rfl, by simp⟩, rfl, rfl, rfl⟩ (.inl ⟨rfl, fun old h => by simp [zeroRef, RefSet.new] at h⟩) (by simp) h1 h2).mp
    (h5.mpr (by norm_num))
  rw [h4, h3] at this
  exact lt_irrefl _ this

/-- The reference point `(0, 1)` with the direction `(-1, -1)`. -/
def cornerRef : RefSet (ℕ → ℚ) := RefSet.new [[fun k => if k = 1 then 1 else 0]] [fun _ => -1] none

/-- From `1/4` to the minimiser `0` in one iteration, with three evaluations of the Jacobian. -/
example : ((lineDpn .gd (fun x : ℚ => x)).start cornerRef [[1 / 4]]).bind (fun s => ((lineDpn .gd fun x : ℚ => x).iterate s).map
    fun s => (s.state.X, s.state.nJac, s.step)) = some ([[0]], 3, [[-1 / 4]]) := by decide +kernel

/-- Three points of the plane and their direction. -/
def threeRef : RefSet (ℕ → ℚ) :=
  RefSet.new [[fun k => if k = 1 then 1 else 0, fun _ => 1 / 2, fun k => if k = 0 then 1 else 0]] [fun _ => -1] none

/-- The hypotheses of `C71_start`, `C71_run`, `C71_iteration` and `C71_box`: two points, one of them outside the box, and
three reference points. -/
example (n : ℕ) : ∃ s s', (lineDpn .deltap fun x : ℚ => x).start threeRef [[1 / 4], [2]] = some s ∧
    (lineDpn .deltap fun x : ℚ => x).run n s = some s' ∧ s'.state.X.length = 2 ∧ s'.state.nJac ≤ 2 + n * 18 := by
  obtain ⟨s, h1, h2, -, h3, -⟩ := (C71_start (lineDpn_ok .deltap fun x : ℚ => x) (S := threeRef) (X0 := [[1 / 4], [2]])
    (by simp) ⟨⟨_, rfl, by simp⟩, rfl, rfl, rfl⟩ rfl (fun d hd => by
      obtain rfl : d = 0 := Nat.lt_one_iff.mp hd
      simp [lineDpn])).2 (by simp [lineDpn, lineFuncs])
  obtain ⟨s', g1, g2, -, -, g3⟩ := C71_run (lineDpn_ok .deltap fun x : ℚ => x) n h2
  exact ⟨s, s', h1, g1, g2.size, by rw [h3] at g3; exact g3⟩

/-- The hypotheses of `C70_partial`. -/
example : ∃ g S' v, (lineDpn .deltap Real.sqrt).gdValue (zeroRef ℝ) [fun _ => 1] = some g ∧
    (lineDpn .deltap Real.sqrt).igdValue (zeroRef ℝ) [fun _ => 1] = some (S', v) ∧ g ≤ Real.sqrt v := by
  obtain ⟨g, S', v, M, h1, h2, -, -, -, -, h3, -⟩ := C70_partial (lineDpn_ok .deltap Real.sqrt)
    (lineDpn_euclidean .deltap) (S := zeroRef ℝ) (Y := [fun _ => 1]) ⟨⟨[0], rfl, by simp⟩, rfl, rfl, rfl⟩
    (.inl ⟨rfl, fun old h => by simp [zeroRef, RefSet.new] at h⟩) (by simp)
  exact ⟨g, S', v, h1, h2, h3⟩

end Verif.Props
