import Verif.Opt.MMDNStep
import Verif.Opt.DpNSearch
import Verif.Opt.HVNIterLemmas
import Verif.Props.HVN

/-!
# C72: the iterations of `MMDNewton`
-/

set_option linter.unusedSectionVars false

namespace Verif.Props

open Verif.Opt Verif.Ind Verif.Util Verif.HV

/-! ## Specification -/

/-- What an iteration starts from: a usable population of `N` points and the last step if there was one. With matching,
the reference set has one component with at least `N` points; without, it has at least `N` points and a direction for
each component, and no target is set. -/
structure MmdnReady (a : Mmdn) (N : ℕ) (s : MmdnState) : Prop where
  state : Usable a.p (a.p.nVar + a.p.nDual) N s.state
  size : s.state.X.length = N
  matched : a.matching = true → OneRef s.ref N
  unmatched : a.matching = false → s.ref.matched = none ∧ s.ref.eta.length = s.ref.ref.length ∧
    N ≤ s.ref.ref.flatten.length
  step : s.iter ≠ 0 → s.step.length = N

/-- The reference points of an iteration: `M0` when the indicator is evaluated, `M1` after the shift, `T` those of the
Newton step. Without matching all reference points are shifted. -/
structure MmdnTargets (a : Mmdn) (s s' : MmdnState) (M0 M1 T : List (ℕ → ℝ)) : Prop where
  value : s'.value = mmdValue a M0 fun (i : Fin s.state.X.length) k => (mmdImages a s.state.X).getD i 0 k
  matched : a.matching = true →
    (∀ old, s.ref.medoids = [some old] → old.length = s.state.X.length → M0.Perm old) ∧
    ((∀ old, s.ref.medoids = [some old] → old.length ≠ s.state.X.length) → M0.Subperm s.ref.ref.flatten) ∧
    Targets a.env.dist false (mmdImages a s.state.X) M0 M0 ∧
    ShiftedBy (8 / 100 : ℝ) (fun i => s.iter = 0 ∨
      AtRestAny a.env.dist (mmdImages a s.state.X) M0 (s.step.map fun r => euclNorm (r.take a.p.nVar)) i)
      s.ref.eta (fun _ => 0) M0 M1 s.hist s'.hist ∧
    s'.ref.ref = s.ref.ref ∧ ∃ M, Paired s'.ref M ∧ M.Perm M1
  unmatched : a.matching = false → M0 = s.ref.ref.flatten ∧ M1 = s'.ref.ref.flatten ∧
    s'.ref.ref = List.zipWith (fun C dir => C.map fun r => r + (8 / 100 : ℝ) • dir) s.ref.ref s.ref.eta
  eta : s'.ref.eta = s.ref.eta
  targets : MmdTargets a (mmdImages a s.state.X) M1 T

/-- The directions: `G` and `H` are the first and second derivatives of the indicator as a function of the decision
points, `R` is the residual of the first-order conditions, and the step solves their Newton equations without the second
derivatives of the constraints and with the preconditioned table of `H`, if they have a solution. -/
structure MmdnMove (a : Mmdn) (s s' : MmdnState) (T : List (ℕ → ℝ)) (G : ℕ → ℕ → ℝ) (H : ℕ → ℕ → ℕ → ℕ → ℝ) : Prop where
  derivs : MmdSmooth a → MmdGrad a T s.state.X G ∧ MmdHess a T s.state.X H ∧ SymmetricIn s.state.X.length a.p.nVar H
  residual : ∀ i < s.state.X.length, KktResidual a.p (s.state.X.getD i []) (G i) (at2 s'.R i)
  newton : ∀ A, TableOf s.state.X.length a.p.nVar H A → SolverSound a.solve →
    (∃ z : ℕ → ℕ → ℝ, ∀ i < s.state.X.length, KktNewtonFlat a.p (s.state.X.getD i []) (G i)
      (fun v => ∑ j ∈ Finset.range s.state.X.length, ∑ w ∈ Finset.range a.p.nVar,
        at2 (a.precond A) (i * a.p.nVar + v) (j * a.p.nVar + w) * z j w) (z i)) →
    ∀ i < s.state.X.length, KktNewtonFlat a.p (s.state.X.getD i []) (G i)
        (fun v => ∑ j ∈ Finset.range s.state.X.length, ∑ w ∈ Finset.range a.p.nVar,
          at2 (a.precond A) (i * a.p.nVar + v) (j * a.p.nVar + w) * at2 s'.step j w) (at2 s'.step i) ∧
      ∀ k < a.p.nDual, ¬ IsActive a.p ((s.state.X.getD i []).take a.p.nVar) k → at2 s'.step i (a.p.nVar + k) = 0

/-- If the preconditioning changes nothing, these are the equations with the second derivatives. -/
theorem MmdnMove.newton_keep {a : Mmdn} {s s' : MmdnState} {T : List (ℕ → ℝ)} {G : ℕ → ℕ → ℝ} {H : ℕ → ℕ → ℕ → ℕ → ℝ}
    (h : MmdnMove a s s' T G H) (hid : ∀ A, TableOf s.state.X.length a.p.nVar H A →
      ∀ i < s.state.X.length, ∀ v < a.p.nVar, ∀ j < s.state.X.length, ∀ w < a.p.nVar,
        at2 (a.precond A) (i * a.p.nVar + v) (j * a.p.nVar + w) = H i v j w) (hs : SolverSound a.solve)
    (hex : ∃ z : ℕ → ℕ → ℝ, ∀ i < s.state.X.length, KktNewtonFlat a.p (s.state.X.getD i []) (G i)
      (fun v => ∑ j ∈ Finset.range s.state.X.length, ∑ w ∈ Finset.range a.p.nVar, H i v j w * z j w) (z i)) :
    ∀ i < s.state.X.length, KktNewtonFlat a.p (s.state.X.getD i []) (G i)
        (fun v => ∑ j ∈ Finset.range s.state.X.length, ∑ w ∈ Finset.range a.p.nVar, H i v j w * at2 s'.step j w)
        (at2 s'.step i) ∧
      ∀ k < a.p.nDual, ¬ IsActive a.p ((s.state.X.getD i []).take a.p.nVar) k → at2 s'.step i (a.p.nVar + k) = 0 := by
  obtain ⟨A, hA⟩ := TableOf.exists s.state.X.length a.p.nVar H
  have e : ∀ i < s.state.X.length, ∀ (z : ℕ → ℕ → ℝ) (y : ℕ → ℝ), KktNewtonFlat a.p (s.state.X.getD i []) (G i)
      (fun v => ∑ j ∈ Finset.range s.state.X.length, ∑ w ∈ Finset.range a.p.nVar,
        at2 (a.precond A) (i * a.p.nVar + v) (j * a.p.nVar + w) * z j w) y ↔
      KktNewtonFlat a.p (s.state.X.getD i []) (G i)
      (fun v => ∑ j ∈ Finset.range s.state.X.length, ∑ w ∈ Finset.range a.p.nVar, H i v j w * z j w) y := by
    intro i hi z y
    unfold KktNewtonFlat
    refine and_congr (forall₂_congr fun v hv => ?_) Iff.rfl
    have : (∑ j ∈ Finset.range s.state.X.length, ∑ w ∈ Finset.range a.p.nVar,
        at2 (a.precond A) (i * a.p.nVar + v) (j * a.p.nVar + w) * z j w) =
        ∑ j ∈ Finset.range s.state.X.length, ∑ w ∈ Finset.range a.p.nVar, H i v j w * z j w :=
      Finset.sum_congr rfl fun j hj => Finset.sum_congr rfl fun w hw => by
        rw [hid A hA i hi v hv j (Finset.mem_range.mp hj) w (Finset.mem_range.mp hw)]
    beta_reduce
    rw [this]
  obtain ⟨z, hz⟩ := hex
  have := h.newton A hA hs ⟨z, fun i hi => (e i hi z (z i)).mpr (hz i hi)⟩
  exact fun i hi => ⟨(e i hi _ _).mp (this i hi).1, (this i hi).2⟩

/-- Without preconditioning these are the equations with the second derivatives. -/
theorem MmdnMove.newton_id {a : Mmdn} {s s' : MmdnState} {T : List (ℕ → ℝ)} {G : ℕ → ℕ → ℝ} {H : ℕ → ℕ → ℕ → ℕ → ℝ}
    (h : MmdnMove a s s' T G H) (hid : ∀ A, a.precond A = A) (hs : SolverSound a.solve)
    (hex : ∃ z : ℕ → ℕ → ℝ, ∀ i < s.state.X.length, KktNewtonFlat a.p (s.state.X.getD i []) (G i)
      (fun v => ∑ j ∈ Finset.range s.state.X.length, ∑ w ∈ Finset.range a.p.nVar, H i v j w * z j w) (z i)) :
    ∀ i < s.state.X.length, KktNewtonFlat a.p (s.state.X.getD i []) (G i)
        (fun v => ∑ j ∈ Finset.range s.state.X.length, ∑ w ∈ Finset.range a.p.nVar, H i v j w * at2 s'.step j w)
        (at2 s'.step i) ∧
      ∀ k < a.p.nDual, ¬ IsActive a.p ((s.state.X.getD i []).take a.p.nVar) k → at2 s'.step i (a.p.nVar + k) = 0 :=
  h.newton_keep (fun A hA i hi v hv j hj w hw => by rw [hid, hA.2 i hi v hv j hj w hw]) hs hex

/-- `m` is the median of the entries. -/
def IsMedian (l : List ℝ) (m : ℝ) : Prop :=
  ∃ s : List ℝ, s.Perm l ∧ s.Pairwise (· ≤ ·) ∧ l ≠ [] ∧ m = (s.getD ((l.length - 1) / 2) 0 + s.getD (l.length / 2) 0) / 2

/-- The entries of the step of the variables. -/
def stepEntries (a : Mmdn) (step : List (List ℝ)) : List ℝ := (step.map fun r => r.take a.p.nVar).flatten

open Classical in
/-- The common step size: one if the median of the step is close to zero, and the first of `1`, `1/2`, ..., `1/32` for
which the norm of the residual is small enough otherwise, `1/64` if there is none. `Tg` relates points and reference
points. -/
def MmdnSearchedBy (a : Mmdn) (X : List (List ℝ)) (Tg : List (ℕ → ℝ) → List (ℕ → ℝ) → Prop) (step R : List (List ℝ))
    (α : ℝ) : Prop :=
  if ∃ m, IsMedian (stepEntries a step) m ∧ |m - 1 / 10 ^ 15| ≤ 1 / 10 ^ 8 + 1 / 10 ^ 5 * |1 / 10 ^ 15| then α = 1
  else ∃ j ≤ 6, α = (1 / 2) ^ j ∧
    (∀ l < j, ∃ v, ResidualNormBy a Tg (movedBy X step ((1 / 2) ^ l)) v ∧ ¬ Accept (1 / 10 ^ 6) (frobNorm R) ((1 / 2) ^ l) v) ∧
    (j < 6 → ∃ v, ResidualNormBy a Tg (movedBy X step α) v ∧ Accept (1 / 10 ^ 6) (frobNorm R) α v)

/-- The same for the reference points `M`. -/
def MmdnSearched (a : Mmdn) (X : List (List ℝ)) (M : List (ℕ → ℝ)) (step R : List (List ℝ)) (α : ℝ) : Prop :=
  MmdnSearchedBy a X (fun Y T => MmdTargets a Y M T) step R α

/-! ## Lemmas -/

theorem npMedian_iff {l : List ℝ} {m : ℝ} : npMedian l = some m ↔ IsMedian l m := by
  have hp : (l.mergeSort fun x y => decide (x ≤ y)).Perm l := List.mergeSort_perm _ _
  have hs : (l.mergeSort fun x y => decide (x ≤ y)).Pairwise (· ≤ ·) := by
    have := List.pairwise_mergeSort (le := fun x y : ℝ => decide (x ≤ y))
      (by intro x y z h1 h2; simp only [decide_eq_true_eq] at *; exact h1.trans h2)
      (by intro x y; simp only [Bool.or_eq_true, decide_eq_true_eq]; exact le_total x y) l
    exact this.imp (by intro x y h; simpa using h)
  unfold npMedian IsMedian
  dsimp only
  by_cases h0 : l = []
  · rw [if_pos h0]
    simp [h0]
  · rw [if_neg h0, Option.some.injEq]
    constructor
    · intro h
      exact ⟨_, hp, hs, h0, h.symm⟩
    · rintro ⟨s, s1, s2, -, rfl⟩
      rw [(hp.trans s1.symm).eq_of_pairwise' hs s2]

theorem skips_iff {a : Mmdn} {step : List (List ℝ)} : a.Skips step ↔
    ∃ m, IsMedian (stepEntries a step) m ∧ |m - 1 / 10 ^ 15| ≤ 1 / 10 ^ 8 + 1 / 10 ^ 5 * |1 / 10 ^ 15| := by
  unfold Mmdn.Skips stepEntries
  rw [← List.flatMap_def]
  simp only [npMedian_iff]
  rfl

theorem MmdTargets.perm {a : Mmdn} {Y M M' T : List (ℕ → ℝ)} (h : MmdTargets a Y M T) (hp : M.Perm M')
    (he : a.matching = false → M = M') : MmdTargets a Y M' T := by
  unfold MmdTargets at h ⊢
  by_cases hm : a.matching = true
  · rw [if_pos hm] at h ⊢
    exact Verif.Opt.Targets.perm h hp
  · rw [if_neg hm] at h ⊢
    rw [h, he (by simpa using hm)]

theorem ResidualNorm.perm {a : Mmdn} {M M' : List (ℕ → ℝ)} {X : List (List ℝ)} {v : ℝ} (h : ResidualNorm a M X v)
    (hp : M.Perm M') (he : a.matching = false → M = M') : ResidualNorm a M' X v := by
  obtain ⟨T, G, r, h1, h2⟩ := h
  exact ⟨T, G, r, h1.perm hp he, h2⟩

/-- The value of the indicator. -/
theorem mmdnValue_spec {a : Mmdn} (ha : a.Ok) {N : ℕ} {s : MmdnState} (hs : MmdnReady a N s) :
    ∃ S M, a.value s.ref (mmdImages a s.state.X) =
        some (S, mmdValue a M fun (i : Fin s.state.X.length) k => (mmdImages a s.state.X).getD i 0 k) ∧
      Mmdn.RefOk a N S M ∧ S.ref = s.ref.ref ∧ S.eta = s.ref.eta ∧
      (a.matching = true →
        (∀ old, s.ref.medoids = [some old] → old.length = s.state.X.length → M.Perm old) ∧
        ((∀ old, s.ref.medoids = [some old] → old.length ≠ s.state.X.length) → M.Subperm s.ref.ref.flatten) ∧
        Targets a.env.dist false (mmdImages a s.state.X) M M) ∧
      (a.matching = false → S = s.ref ∧ M = s.ref.ref.flatten) := by
  obtain ⟨hst, hN, hm, hu, -⟩ := hs
  have hpos : 0 < s.state.X.length := List.length_pos_iff.mpr hst.ne
  have hl : (mmdImages a s.state.X).length = s.state.X.length := by simp [mmdImages]
  by_cases hmm : a.matching = true
  · obtain ⟨S', M, h1, h2, h3, h4, h5, h6, h7, h8, h9⟩ := match_one ha.env (S := s.ref) (Y := mmdImages a s.state.X)
      (by rw [hl, hN]; exact hm hmm) (by omega)
    have hT : M ≠ [] := List.ne_nil_of_length_pos (by omega)
    refine ⟨S', M, ?_, ⟨h2.referenceSet, hT, fun _ => ⟨by rw [← hN, ← hl]; exact h3, h2, by rw [h6, hl, hN]⟩, by simp [hmm]⟩,
      h4, h5, fun _ => ⟨by rw [← hl]; exact h7, by rw [← hl]; exact h8, h6, ?_⟩, by simp [hmm]⟩
    · rw [Mmdn.value, if_pos hmm, h1, Option.bind_some, if_neg (by rw [h2.referenceSet]; omega), C41_value,
        if_neg (by omega), Option.map_some, h2.referenceSet, mmdValue, if_pos hmm]
      rw [hl]
      rfl
    · rw [if_neg (by simp)]
      exact ⟨List.Perm.refl _, h9⟩
  · have hmf : a.matching = false := by simpa using hmm
    obtain ⟨u1, u2, u3⟩ := hu hmf
    have hR : s.ref.referenceSet = s.ref.ref.flatten := by rw [RefSet.referenceSet, u1]; rfl
    have hne : s.ref.ref.flatten ≠ [] := List.ne_nil_of_length_pos (by omega)
    refine ⟨s.ref, s.ref.ref.flatten, ?_, ⟨hR, hne, by simp [hmf], fun _ => u1⟩, rfl, rfl, by simp [hmf],
      fun _ => ⟨rfl, rfl⟩⟩
    rw [Mmdn.value, if_neg hmm, C38_value, if_neg (by rw [hR]; omega), Option.map_some, mmdValue, if_neg hmm, hR]
    rw [hl]
    rfl

theorem mmdnStart_of {a : Mmdn} (ha : a.Ok) {S : RefSet (ℕ → ℝ)} {X0 : List (List ℝ)} (hne : X0 ≠ [])
    (hle : ∀ d < a.p.nVar, a.xl.getD d 0 ≤ a.xu.getD d 0) :
    ((∃ x ∈ X0, x.length ≠ a.p.nVar) → a.start S X0 = none) ∧
    ((∀ x ∈ X0, x.length = a.p.nVar) → ∃ s, a.start S X0 = some s ∧ Usable a.p (a.p.nVar + a.p.nDual) X0.length s.state ∧
      s.state.X.length = X0.length ∧ s.iter = 0 ∧
      s.state.nJac = X0.length ∧ s.ref = S ∧
      ∀ i < X0.length, (∀ k < a.p.nDual, (s.state.X.getD i []).getD (a.p.nVar + k) 0 = 0) ∧ ∀ d < a.p.nVar,
        a.xl.getD d 0 ≤ (s.state.X.getD i []).getD d 0 ∧ (s.state.X.getD i []).getD d 0 ≤ a.xu.getD d 0 ∧
        ∀ v, a.xl.getD d 0 ≤ v → v ≤ a.xu.getD d 0 →
          |(s.state.X.getD i []).getD d 0 - (X0.getD i []).getD d 0| ≤ |v - (X0.getD i []).getD d 0|) := by
  constructor
  · rintro ⟨x, hx, hxl⟩
    unfold Mmdn.start
    rw [if_neg]
    simp only [List.all_eq_true, decide_eq_true_eq]
    exact fun h => hxl (h x hx).1
  · intro hX
    have hcl : ∀ x ∈ X0, (a.clipRow x).length = a.p.nVar := fun x hx => by
      simp [Mmdn.clipRow, hX x hx, ha.xl, ha.xu]
    have hdim : ∀ x ∈ X0.map fun x => a.clipRow x ++ List.replicate a.p.nDual 0, x.length = a.p.nVar + a.p.nDual := by
      intro x hx
      obtain ⟨y, hy, rfl⟩ := List.mem_map.mp hx
      rw [List.length_append, hcl y hy, List.length_replicate]
    obtain ⟨t, t1, t2, t3, t4⟩ := Usable.update ha.funcs (Nat.le_add_right a.p.nVar a.p.nDual) State.init
      (N0 := X0.length) (by simpa using hne) (by simp) hdim
    refine ⟨_, by
      unfold Mmdn.start
      rw [if_pos (by simpa [ha.xl, ha.xu] using hX), t1, Option.map_some], t3, by simp [t2], rfl, ?_,
      rfl, fun i hi => ?_⟩
    · simp [t4, State.init]
    · have hmem : X0[i] ∈ X0 := List.getElem_mem _
      have hc := hcl _ hmem
      have hx := hX _ hmem
      have e : t.X.getD i [] = a.clipRow X0[i] ++ List.replicate a.p.nDual 0 := by
        rw [t2, List.getD_eq_getElem _ _ (by simpa using hi), List.getElem_map]
      dsimp only
      rw [e, List.getD_eq_getElem X0 _ hi]
      refine ⟨fun k hk => ?_, fun d hd => ?_⟩
      · rw [List.getD_append_right _ _ _ _ (by omega), hc, Nat.add_sub_cancel_left, List.getD_replicate _ hk]
      · have hd' := hle d hd
        have h1 := ha.xl
        have h2 := ha.xu
        rw [List.getD_append _ _ _ _ (by omega), List.getD_eq_getElem (a.clipRow _) _ (by omega),
          List.getD_eq_getElem X0[i] _ (by omega)]
        rw [List.getD_eq_getElem a.xl _ (by omega), List.getD_eq_getElem a.xu _ (by omega)] at *
        simp only [Mmdn.clipRow, List.getElem_map, List.getElem_zip]
        refine ⟨le_min (le_max_right _ _) hd', min_le_right _ _, fun v hv1 hv2 => ?_⟩
        rcases le_total X0[i][d] a.xl[d] with h | h
        · rw [max_eq_right h, min_eq_left hd', abs_of_nonneg (by linarith), abs_of_nonneg (by linarith)]
          linarith
        · rw [max_eq_left h]
          rcases le_total X0[i][d] a.xu[d] with h' | h'
          · rw [min_eq_left h', sub_self, abs_zero]
            exact abs_nonneg _
          · rw [min_eq_right h', abs_of_nonpos (by linarith), abs_of_nonpos (by linarith)]
            linarith

/-! ## C72 -/

/-- C72, an iteration: it returns. It evaluates the indicator, shifts the reference points, computes the residual and the
Newton direction for the reference points of the points, searches a common step size and moves the points; the counter
increases by one for each point. Missing are the box and the second derivatives of the constraints in the Newton
equations. -/
theorem C72_iteration_partial {a : Mmdn} (ha : a.Ok) {N : ℕ} {s : MmdnState} (hs : MmdnReady a N s) :
    ∃ s' M0 M1 T G H α, a.iterate s = some s' ∧ MmdnReady a N s' ∧ s'.iter = s.iter + 1 ∧
      MmdnTargets a s s' M0 M1 T ∧ MmdnMove a s s' T G H ∧ MmdnSearched a s.state.X M1 s'.step s'.R α ∧
      IsMat N (a.p.nVar + a.p.nDual) s'.step ∧ IsMat N (a.p.nVar + a.p.nDual) s'.R ∧
      (∀ i < N, ∀ c < a.p.nVar + a.p.nDual, (s'.state.X.getD i []).getD c 0 =
        (s.state.X.getD i []).getD c 0 + α * (s'.step.getD i []).getD c 0) ∧
      s'.state.nJac = s.state.nJac + N := by
  obtain ⟨S1, M0, v1, v2, v3, v4, v5, v6⟩ := mmdnValue_spec ha hs
  obtain ⟨hst, rfl, hm, hu, hstep⟩ := hs
  have hpos : 0 < s.state.X.length := List.length_pos_iff.mpr hst.ne
  have hY := Mmdn.images_eq hst
  have hl : (mmdImages a s.state.X).length = s.state.X.length := by simp [mmdImages]
  -- the shift
  have hshift : ∃ S2 M1 hist', mmdShift a.env.dist s.iter s.state.X.length (mmdImages a s.state.X)
      (s.step.map fun r => euclNorm (r.take a.p.nVar)) S1 s.hist = some (S2, hist') ∧
      Mmdn.RefOk a s.state.X.length S2 M1 ∧ S2.eta = s.ref.eta ∧
      (a.matching = true → S2.ref = s.ref.ref ∧ ShiftedBy (8 / 100 : ℝ) (fun i => s.iter = 0 ∨
        AtRestAny a.env.dist (mmdImages a s.state.X) M0 (s.step.map fun r => euclNorm (r.take a.p.nVar)) i)
        s.ref.eta (fun _ => 0) M0 M1 s.hist hist') ∧
      (a.matching = false → M1 = S2.ref.flatten ∧
        S2.ref = List.zipWith (fun C dir => C.map fun r => r + (8 / 100 : ℝ) • dir) s.ref.ref s.ref.eta) := by
    by_cases hmm : a.matching = true
    · obtain ⟨m1, m2, m3⟩ := v2.matched hmm
      obtain ⟨S2, M1, hist', k1, k2, k3, k4, k5, k6, k7⟩ := mmdShift_paired ha.nonneg (Y := mmdImages a s.state.X) m1 m2
        (by rw [m3, hl]) s.iter (stepNorm := s.step.map fun r => euclNorm (r.take a.p.nVar))
        (fun h => by simpa [hl] using hstep h) s.hist
      rw [hl] at k1 k6
      refine ⟨S2, M1, hist', k1, ⟨k2.referenceSet, List.ne_nil_of_length_pos (by omega), fun _ => ⟨k3, k2, k6⟩,
        by simp [hmm]⟩, k5.trans v4, fun _ => ⟨k4.trans v3, by rw [← v4]; exact k7⟩, by simp [hmm]⟩
    · have hmf : a.matching = false := by simpa using hmm
      obtain ⟨rfl, rfl⟩ := v6 hmf
      obtain ⟨u1, u2, u3⟩ := hu hmf
      obtain ⟨S2, hist', k1, k2, k3, k4⟩ := mmdShift_unmatched (dist := a.env.dist) (Y := mmdImages a s.state.X) u1 u2
        (by rw [hl]; exact u3) (by omega) s.iter (stepNorm := s.step.map fun r => euclNorm (r.take a.p.nVar))
        (fun h => by simpa [hl] using hstep h) s.hist
      rw [hl] at k1
      have hlen : S2.ref.flatten.length = s.ref.ref.flatten.length := by
        rw [k4, List.length_flatten, List.length_flatten]
        congr 1
        apply List.ext_getElem (by simp [u2])
        intro i h1 h2
        simp
      refine ⟨S2, S2.ref.flatten, hist', k1, ⟨by rw [RefSet.referenceSet, k2]; rfl,
        List.ne_nil_of_length_pos (by omega), by simp [hmf], fun _ => k2⟩, k3, by simp [hmf], fun _ => ⟨rfl, k4⟩⟩
  obtain ⟨S2, M1, hist', k1, k2, k3, k4, k5⟩ := hshift
  -- the Newton step
  obtain ⟨S3, T, st, R, G, H, n1, n2, n3, n4, n5, n6, n7, n8, n9, n10, n11⟩ := Mmdn.newton_spec ha hst rfl k2
  have hT1 : a.matching = false → T = M1 := fun h => by
    have := n5
    rwa [MmdTargets, if_neg (by simp [h])] at this
  have hmv := fun α => movedBy_shape α hst.dim n8.2 n8.1
  -- the line search
  have hphi : ∀ α S, (∃ M, Mmdn.RefOk a s.state.X.length S M ∧ S.ref = S2.ref ∧ S.eta = S2.eta ∧ M.Perm M1 ∧
      (a.matching = false → M = M1)) → ∃ v S', a.phi s.state st α S = some (v, S') ∧
      (∃ M, Mmdn.RefOk a s.state.X.length S' M ∧ S'.ref = S2.ref ∧ S'.eta = S2.eta ∧ M.Perm M1 ∧
        (a.matching = false → M = M1)) ∧ ResidualNorm a M1 (movedBy s.state.X st α) v := by
    rintro α S ⟨M, r1, r2, r3, r4, r5⟩
    obtain ⟨h1, h2, -⟩ := hmv α
    obtain ⟨t, t1, t2, t3, -⟩ := Usable.update ha.funcs (Nat.le_add_right a.p.nVar a.p.nDual) s.state
      (X := movedBy s.state.X st α) (N0 := s.state.X.length) (List.ne_nil_of_length_pos (by omega)) h1.le h2
    obtain ⟨S', T', R', q1, q2, q3, q4, q5, q6⟩ := Mmdn.residual_spec ha t3 (by rw [t2, h1]) r1
    refine ⟨_, S', by rw [Mmdn.phi, t1, Option.bind_some, q1, Option.map_some], ⟨T', q2, q3.trans r2, q4.trans r3,
      q5.trans r4, fun h => ?_⟩, ?_⟩
    · obtain ⟨-, -, -, hq, -⟩ := q6
      have e1 := q2.set
      have : S' = S := by
        have hh := q1
        unfold Mmdn.residual Mmdn.gradient at hh
        simp only [h, Bool.false_eq_true, if_false] at hh
        obtain ⟨g, g1, g2⟩ := Option.bind_eq_some_iff.mp hh
        obtain ⟨g', -, g3⟩ := Option.map_eq_some_iff.mp g1
        obtain ⟨d, -, g4⟩ := Option.bind_eq_some_iff.mp g2
        obtain ⟨d', -, g5⟩ := Option.map_eq_some_iff.mp g4
        rw [← g3] at g5
        exact (Prod.mk.inj g5).1.symm
      rw [← e1, this, r1.set, r5 h]
    · rw [t2] at q6
      exact q6.perm r4 r5
  have hls : ∃ α S4, a.lineSearch s.state st R S3 = some (α, S4) ∧
      (∃ M, Mmdn.RefOk a s.state.X.length S4 M ∧ S4.ref = S2.ref ∧ S4.eta = S2.eta ∧ M.Perm M1 ∧
        (a.matching = false → M = M1)) ∧ MmdnSearched a s.state.X M1 st R α := by
    have hI : ∃ M, Mmdn.RefOk a s.state.X.length S3 M ∧ S3.ref = S2.ref ∧ S3.eta = S2.eta ∧ M.Perm M1 ∧
        (a.matching = false → M = M1) := ⟨T, n2, n3, n4, n6, hT1⟩
    unfold Mmdn.lineSearch MmdnSearched MmdnSearchedBy
    by_cases hsk : a.Skips st
    · rw [if_pos hsk]
      exact ⟨1, S3, rfl, hI, by rw [if_pos (skips_iff.mp hsk)]⟩
    · rw [if_neg hsk]
      obtain ⟨j, hj, S4, j1, j2, j3, j4⟩ := halvingW_spec (c1 := 1 / 10 ^ 6) (phi0 := frobNorm R) hphi 6 1 S3 hI
      simp only [one_mul] at j1 j3 j4
      refine ⟨_, S4, j1, j2, ?_⟩
      rw [if_neg fun h => hsk (skips_iff.mpr h)]
      exact ⟨j, hj, rfl, j3, j4⟩
  obtain ⟨α, S4, l1, ⟨M4, l2, l3, l4, l5, l6⟩, l7⟩ := hls
  obtain ⟨b1, b2, b3⟩ := hmv α
  obtain ⟨t, t1, t2, t3, t4⟩ := Usable.update ha.funcs (Nat.le_add_right a.p.nVar a.p.nDual) s.state
    (X := movedBy s.state.X st α) (N0 := s.state.X.length) (List.ne_nil_of_length_pos (by omega)) b1.le b2
  refine ⟨{ state := t, ref := S4,
            value := mmdValue a M0 fun (i : Fin s.state.X.length) k => (mmdImages a s.state.X).getD i 0 k,
            iter := s.iter + 1, step := st, R := R, hist := hist' }, M0, M1, T, G, H, α,
    ?_, ?_, rfl, ?_, ⟨n7, n10, n11⟩, l7, n8, n9, fun i hi c hc => by rw [t2]; exact b3 i hi c hc, by rw [t4, b1]⟩
  · unfold Mmdn.iterate
    simp only [hY, v1, k1, n1, l1, Option.bind_some]
    rw [t1, Option.map_some]
  · refine ⟨t3, by rw [t2, b1], fun h => (l2.matched h).1, fun h => ⟨l2.unmatched h, ?_, ?_⟩, fun _ => n8.1⟩
    · dsimp only
      rw [l4, k3, l3, (k5 h).2]
      simp [(hu h).2.1]
    · dsimp only
      rw [l3, (k5 h).2]
      refine (hu h).2.2.trans (le_of_eq ?_)
      rw [List.length_flatten, List.length_flatten]
      congr 1
      apply List.ext_getElem (by simp [(hu h).2.1])
      intro i h1 h2
      simp
  · refine ⟨rfl, fun h => ?_, fun h => ⟨(v6 h).2, ?_, ?_⟩, l4.trans k3, n5⟩
    · obtain ⟨x1, x2, x3⟩ := v5 h
      exact ⟨x1, x2, x3, (k4 h).2, l3.trans (k4 h).1, M4, (l2.matched h).2.1, l5⟩
    · rw [l3]; exact (k5 h).1
    · rw [l3]; exact (k5 h).2

/-- C72, the loop: any number of iterations returns, always with as many points. The counter increases by the number of
points in each iteration, although the line search evaluates the Jacobian as well. -/
theorem C72_run {a : Mmdn} (ha : a.Ok) {N : ℕ} (n : ℕ) {s : MmdnState} (hs : MmdnReady a N s) :
    ∃ s', a.run n s = some s' ∧ MmdnReady a N s' ∧ s'.iter = s.iter + n ∧ s'.state.nJac = s.state.nJac + n * N := by
  induction n generalizing s with
  | zero => exact ⟨s, rfl, hs, rfl, by simp⟩
  | succ n ih =>
    obtain ⟨s1, M0, M1, T, G, H, α, h1, h2, h3, -, -, -, -, -, -, h4⟩ := C72_iteration_partial ha hs
    obtain ⟨s', g1, g2, g3, g4⟩ := ih h2
    exact ⟨s', by rw [Mmdn.run, h1, Option.bind_some, g1], g2, by omega, by rw [g4, h4, Nat.succ_mul]; omega⟩

/-- C72, the start: the given points, each coordinate moved to the nearest number between its bounds, with multipliers
zero. Points of another length are rejected. -/
theorem C72_start {a : Mmdn} (ha : a.Ok) {S : RefSet (ℕ → ℝ)} {X0 : List (List ℝ)} (hne : X0 ≠ [])
    (hS : a.matching = true → OneRef S X0.length) (hS' : a.matching = false → S.matched = none ∧
      S.eta.length = S.ref.length ∧ X0.length ≤ S.ref.flatten.length)
    (hle : ∀ d < a.p.nVar, a.xl.getD d 0 ≤ a.xu.getD d 0) :
    ((∃ x ∈ X0, x.length ≠ a.p.nVar) → a.start S X0 = none) ∧
    ((∀ x ∈ X0, x.length = a.p.nVar) → ∃ s, a.start S X0 = some s ∧ MmdnReady a X0.length s ∧ s.iter = 0 ∧
      s.state.nJac = X0.length ∧ s.ref = S ∧
      ∀ i < X0.length, (∀ k < a.p.nDual, (s.state.X.getD i []).getD (a.p.nVar + k) 0 = 0) ∧ ∀ d < a.p.nVar,
        a.xl.getD d 0 ≤ (s.state.X.getD i []).getD d 0 ∧ (s.state.X.getD i []).getD d 0 ≤ a.xu.getD d 0 ∧
        ∀ v, a.xl.getD d 0 ≤ v → v ≤ a.xu.getD d 0 →
          |(s.state.X.getD i []).getD d 0 - (X0.getD i []).getD d 0| ≤ |v - (X0.getD i []).getD d 0|) := by
  obtain ⟨h1, h2⟩ := mmdnStart_of ha (S := S) hne hle
  refine ⟨h1, fun h => ?_⟩
  obtain ⟨s, g1, g2, g3, g4, g5, g6, g7⟩ := h2 h
  exact ⟨s, g1, ⟨g2, g3, by rw [g6]; exact hS, by rw [g6]; exact hS', fun h => absurd g4 h⟩, g4, g5, g6, g7⟩

/-- C72, without matching the first iteration raises if there are fewer reference points than points: the history is
read for every point. -/
theorem C72_few {a : Mmdn} (ha : a.Ok) {N : ℕ} {s : MmdnState} (hst : Usable a.p (a.p.nVar + a.p.nDual) N s.state)
    (hm : a.matching = false) (hu : s.ref.matched = none) (he : s.ref.eta.length = s.ref.ref.length) (hi : s.iter = 0)
    (hlt : s.ref.ref.flatten.length < s.state.X.length) : a.iterate s = none := by
  have hR : s.ref.referenceSet = s.ref.ref.flatten := by rw [RefSet.referenceSet, hu]; rfl
  unfold Mmdn.iterate
  dsimp only
  rw [Mmdn.images_eq hst]
  cases hv : a.value s.ref (mmdImages a s.state.X) with
  | none => rfl
  | some v =>
    have hv1 : v.1 = s.ref := by
      rw [Mmdn.value, if_neg (by simp [hm])] at hv
      obtain ⟨w, -, rfl⟩ := Option.map_eq_some_iff.mp hv
      rfl
    rw [Option.bind_some, hv1]
    have : mmdShift a.env.dist s.iter s.state.X.length (mmdImages a s.state.X)
        (s.step.map fun r => euclNorm (r.take a.p.nVar)) s.ref s.hist = none := by
      have hsh : ∀ idx, s.ref.shift (8 / 100 : ℝ) idx = some { s.ref with
          ref := List.zipWith (fun C dir => C.map fun r => r + (8 / 100 : ℝ) • dir) s.ref.ref s.ref.eta } := by
        intro idx
        unfold RefSet.shift
        rw [hu]
        dsimp only
        rw [if_neg (by omega), hu]
      unfold mmdShift mmdShiftMask
      rw [if_pos hi, Option.bind_some]
      unfold shiftMasked
      rw [hsh, Option.bind_some, Option.map_eq_none_iff]
      set R := (List.zipWith (fun (C : List (ℕ → ℝ)) dir => C.map fun r => r + (8 / 100 : ℝ) • dir) s.ref.ref s.ref.eta).flatten
        with hRd
      have hRe : RefSet.referenceSet { s.ref with
          ref := List.zipWith (fun C dir => C.map fun r => r + (8 / 100 : ℝ) • dir) s.ref.ref s.ref.eta } = R := by
        rw [RefSet.referenceSet, hu]; rfl
      have hlen : R.length = s.ref.ref.flatten.length := by
        rw [hRd, List.length_flatten, List.length_flatten]
        congr 1
        apply List.ext_getElem (by simp [he])
        intro i h1 h2
        simp
      rw [hRe]
      have key : ∀ (l : List ℕ) (h : ℕ → List (ℕ → ℝ)), (∃ k ∈ l, R.length ≤ k) →
          l.foldlM (fun h k => R[k]?.map fun r => Function.update h k (h k ++ [r])) h = none := by
        intro l
        induction l with
        | nil => rintro h ⟨k, hk, -⟩; simp at hk
        | cons k l ih =>
          rintro h ⟨k', hk', hle⟩
          rw [List.foldlM_cons]
          rcases List.mem_cons.mp hk' with rfl | hmem
          · rw [List.getElem?_eq_none hle]; rfl
          · cases hg : R[k]? with
            | none => rfl
            | some r => exact ih _ ⟨k', hmem, hle⟩
      refine key _ _ ⟨R.length, mem_nonzero.mpr ?_, le_rfl⟩
      rw [List.getElem?_replicate, if_pos (by omega)]
    rw [this]
    rfl

/-! ## C72 does not hold -/

/-- C72 in full: an iteration returns, and if all points are in the box, all are in the box afterwards. -/
def C72Statement : Prop :=
  ∀ (a : Mmdn) (N : ℕ) (s : MmdnState), a.Ok → MmdSmooth a → SolverSound a.solve → (∀ A, a.precond A = A) → MmdnReady a N s →
    PopInBox a.xl a.xu (a.p.primal s.state.X) → ∃ s', a.iterate s = some s' ∧ PopInBox a.xl a.xu (a.p.primal s'.state.X)

/-- `f(x) = (x, 1 - x)` on `[0, 1]`, with the kernel `rbf` and the Euclidean distance. -/
noncomputable def lineMmdn (matching : Bool) : Mmdn where
  p := lineFuncs ℝ
  nObj := 2
  hess := fun _ => [0, 0]
  matching := matching
  kernel := autodiff (rbf 1)
  xl := [0]
  xu := [1]
  env := bruteEnv (fun y r => √((y 0 - r 0) ^ 2 + (y 1 - r 1) ^ 2)) fun _ _ => 0
  solve := oneSolve
  precond := id

theorem lineMmdn_ok (matching : Bool) : (lineMmdn matching).Ok where
  funcs := lineFuncs_ok
  env := bruteEnv_sound _ _
  nonneg := fun _ _ => Real.sqrt_nonneg _
  xl := rfl
  xu := rfl
  solve := fun A b _ => oneSolve_length A b
  precond := fun _ _ h => h
  jac := by intro h; simp [Funcs.constrained, lineMmdn, lineFuncs] at h

theorem lineMmdn_smooth (matching : Bool) : MmdSmooth (lineMmdn matching) where
  jac := by
    intro (x : Fin 1 → ℝ) k
    show HasFDerivAt (fun x : Fin 1 → ℝ => pt [x 0, 1 - x 0] k) (lin fun v : Fin 1 => pt [1, -1] (k * 1 + v)) x
    have h0 : HasFDerivAt (fun x : Fin 1 → ℝ => x 0) (ContinuousLinearMap.proj (R := ℝ) (φ := fun _ : Fin 1 => ℝ) 0) x :=
      hasFDerivAt_apply 0 x
    fin_cases k
    · refine h0.congr_fderiv ?_
      ext v; simp [pt]
    · refine (h0.const_sub 1).congr_fderiv ?_
      ext v; simp [pt]
  hess := by
    intro (x : Fin 1 → ℝ) k (v : Fin 1)
    show HasFDerivAt (fun x : Fin 1 → ℝ => pt [1, -1] (k * 1 + v)) (lin fun w : Fin 1 => pt [0, 0] ((k * 1 + v) * 1 + w)) x
    refine (hasFDerivAt_const _ x).congr_fderiv ?_
    ext w
    fin_cases k <;> simp [pt]
  symm := rbf_symm 1
  stationary := stationary_rbf 1
  diff := fun _ _ => autodiff_diff2At (contDiff_rbf 1).contDiffAt

/-- The derivative along the line of equal entries. -/
theorem hasDerivAt_of_lin2 {Φ : (Fin 1 → Fin 1 → ℝ) → ℝ} {f : ℝ → ℝ} (hf : ∀ Z, Φ Z = f (Z 0 0)) {g : Fin 1 → Fin 1 → ℝ}
    {Z : Fin 1 → Fin 1 → ℝ} (h : HasFDerivAt Φ (lin2 g) Z) : HasDerivAt f (g 0 0) (Z 0 0) := by
  have e : (fun _ _ => Z 0 0 : Fin 1 → Fin 1 → ℝ) = Z := by
    funext i v
    rw [Subsingleton.elim i 0, Subsingleton.elim v 0]
  have h1 : HasDerivAt (fun t : ℝ => (fun _ _ => t : Fin 1 → Fin 1 → ℝ)) (fun _ _ => 1) (Z 0 0) := by
    rw [hasDerivAt_pi]; intro i
    rw [hasDerivAt_pi]; intro v
    exact hasDerivAt_id _
  have h2 : HasFDerivAt Φ (lin2 g) ((fun t : ℝ => (fun _ _ => t : Fin 1 → Fin 1 → ℝ)) (Z 0 0)) := by
    dsimp only; rw [e]; exact h
  have h3 := h2.comp_hasDerivAt (Z 0 0) h1
  have e2 : Φ ∘ (fun t : ℝ => (fun _ _ => t : Fin 1 → Fin 1 → ℝ)) = f := by
    funext t; exact hf _
  rw [e2] at h3
  simpa using h3

/-- The reference point `(0, 6/5)` with the direction `(-1, -1)`. -/
noncomputable def highRef : RefSet (ℕ → ℝ) := RefSet.new [[fun k => if k = 1 then 6 / 5 else 0]] [fun _ => -1] none

/-- C72 does not hold: the box is not looked at. A point on the lower bound moves by `-5/48` or a part of it. -/
theorem C72_violated_box : ¬ C72Statement := by
  intro h
  have ha := lineMmdn_ok true
  obtain ⟨s, b1, b2, b3, -, b4, b5⟩ := (C72_start ha (S := highRef) (X0 := [[0]]) (by simp)
    (fun _ => ⟨⟨_, rfl, by simp⟩, rfl, rfl, rfl⟩) (by simp [lineMmdn]) (fun d hd => by
      obtain rfl : d = 0 := Nat.lt_one_iff.mp hd
      simp [lineMmdn])).2 (by simp [lineMmdn, lineFuncs])
  have hX : s.state.X = [[0]] := by
    have e : (lineMmdn true).clipRow [0] = [0] := by simp [Mmdn.clipRow, lineMmdn]
    unfold Mmdn.start at b1
    rw [if_pos (by simp [lineMmdn, lineFuncs])] at b1
    obtain ⟨t, t1, rfl⟩ := Option.map_eq_some_iff.mp b1
    rw [List.map_cons, List.map_nil, e] at t1
    obtain ⟨t', u1, u2, -⟩ := Usable.update ha.funcs
      (Nat.le_add_right (lineMmdn true).p.nVar (lineMmdn true).p.nDual) State.init (N0 := 1)
      (X := [[0] ++ List.replicate (lineMmdn true).p.nDual 0]) (by simp) (by simp)
      (by simp [lineMmdn, lineFuncs, Funcs.nDual])
    obtain rfl : t = t' := Option.some.inj (t1.symm.trans u1)
    exact u2
  obtain ⟨s', M0, M1, T, G, H, α, h1, h2, -, h4, h5, h6, h7, -, h9, -⟩ := C72_iteration_partial ha b2
  obtain ⟨s'', k1, k2⟩ := h _ _ s ha (lineMmdn_smooth true) oneSolve_sound (fun _ => rfl) b2 (by
    rw [hX]
    intro x hx
    obtain rfl : x = [0] := by simpa [Funcs.primal, lineMmdn, lineFuncs] using hx
    refine ⟨rfl, fun d hd => ?_⟩
    obtain rfl : d = 0 := Nat.lt_one_iff.mp hd
    simp [lineMmdn])
  obtain rfl : s' = s'' := Option.some.inj (h1.symm.trans k1)
  -- the targets
  obtain ⟨m1, m2, m3, m4, -⟩ := h4.matched rfl
  have hM0 : M0 = [fun k => if k = 1 then 6 / 5 else 0] := by
    have hs := m2 (by rw [b4]; intro old h; simp [highRef, RefSet.new] at h)
    rw [b4] at hs
    have hl : M0.length = 1 := by rw [m3.1, mmdImages, hX]; rfl
    exact List.perm_singleton.mp (hs.perm_of_length_le (by rw [hl]; simp [highRef, RefSet.new]))
  have hM1 : M1 = [fun k => if k = 1 then 28 / 25 else -2 / 25] := by
    obtain ⟨l1, l2⟩ := m4
    have := (((l2 0).1 _ (fun _ => -1) (by rw [hM0]; rfl) (by rw [b4]; rfl)).1 (.inl b3)).1
    have hl : M1.length = 1 := by rw [l1, hM0]; rfl
    obtain ⟨r, rfl⟩ := List.length_eq_one_iff.mp hl
    have e := Option.some.inj this
    rw [e]
    congr 1
    funext k
    simp only [Pi.add_apply, Pi.smul_apply, smul_eq_mul]
    split <;> norm_num
  have hT : T = [fun k => if k = 1 then 28 / 25 else -2 / 25] := by
    have := h4.targets
    rw [MmdTargets, if_pos (show (lineMmdn true).matching = true from rfl)] at this
    obtain ⟨-, t1⟩ := this
    rw [if_neg (by simp), hM1] at t1
    exact List.perm_singleton.mp t1.1
  -- the derivatives
  obtain ⟨d1, d2, -⟩ := h5.derivs (lineMmdn_smooth true)
  rw [hX, hT] at d1 d2
  set f : ℝ → ℝ := fun t => 9 / 4 - 2 * Real.exp (-(2 * t ^ 2 + 2 / 5 * t + 13 / 625)) with hf
  set f' : ℝ → ℝ := fun t => 2 * (4 * t + 2 / 5) * Real.exp (-(2 * t ^ 2 + 2 / 5 * t + 13 / 625)) with hf'
  have hfd : ∀ t, HasDerivAt f (f' t) t := by
    intro t
    have h1 : HasDerivAt (fun t : ℝ => -(2 * t ^ 2 + 2 / 5 * t + 13 / 625)) (-(4 * t + 2 / 5)) t := by
      have := ((((hasDerivAt_pow 2 t).const_mul 2).add ((hasDerivAt_id t).const_mul (2 / 5))).add_const (13 / 625)).neg
      refine this.congr_deriv ?_
      simp; ring
    refine ((h1.exp.const_mul 2).const_sub (9 / 4)).congr_deriv ?_
    simp only [hf']; ring
  have hfd2 : HasDerivAt f' (192 / 25 * Real.exp (-(13 / 625))) 0 := by
    have h1 : HasDerivAt (fun t : ℝ => -(2 * t ^ 2 + 2 / 5 * t + 13 / 625)) (-(4 * 0 + 2 / 5)) 0 := by
      have := ((((hasDerivAt_pow 2 (0 : ℝ)).const_mul 2).add ((hasDerivAt_id (0 : ℝ)).const_mul (2 / 5))).add_const (13 / 625)).neg
      refine this.congr_deriv ?_
      simp
    have h2 : HasDerivAt (fun t : ℝ => 2 * (4 * t + 2 / 5)) 8 0 := by
      have := (((hasDerivAt_id (0 : ℝ)).const_mul 4).add_const (2 / 5)).const_mul 2
      refine this.congr_deriv ?_
      norm_num
    refine (h2.mul h1.exp).congr_deriv ?_
    norm_num
    ring
  have hval : ∀ Z : Fin 1 → Fin 1 → ℝ, mmdValue (lineMmdn true) [fun k => if k = 1 then 28 / 25 else -2 / 25]
      (fun i : Fin 1 => objVec (lineMmdn true) (Z i)) = f (Z 0 0) := by
    intro Z
    rw [mmdValue, if_pos (show (lineMmdn true).matching = true from rfl), mmdmOf]
    simp only [Finset.univ_unique, Fin.default_eq_zero, Finset.sum_singleton]
    have e1 : (lineMmdn true).kernel.k (objVec (lineMmdn true) (Z 0)) (objVec (lineMmdn true) (Z 0)) = 1 := by
      show rbf 1 _ _ = 1
      simp [rbf]
    have e2 : (lineMmdn true).kernel.k (objVec (lineMmdn true) (Z 0)) (fun k => ([fun k => if k = 1 then 28 / 25 else -2 / 25] :
        List (ℕ → ℝ)).getD (0 : Fin 1) 0 k) = Real.exp (-(2 * Z 0 0 ^ 2 + 2 / 5 * Z 0 0 + 13 / 625)) := by
      show rbf 1 (fun k : Fin 2 => pt [Z 0 0, 1 - Z 0 0] k) (fun k : Fin 2 => if (k : ℕ) = 1 then 28 / 25 else -2 / 25) = _
      rw [rbf, Fin.sum_univ_two]
      congr 1
      simp [pt]
      ring
    rw [e1, e2]
    simp only [hf, Nat.cast_one]
    ring
  have hG : G 0 0 = 4 / 5 * Real.exp (-(13 / 625)) := by
    have := hasDerivAt_of_lin2 hval d1
    have e := this.unique (hfd _)
    have e' : G 0 0 = f' 0 := e
    rw [e']
    simp only [hf']
    norm_num
  have hH : H 0 0 0 0 = 192 / 25 * Real.exp (-(13 / 625)) := by
    have hΦ : ∀ Z : Fin 1 → Fin 1 → ℝ, fderiv ℝ (fun Z : Fin 1 → Fin 1 → ℝ => mmdValue (lineMmdn true)
        [fun k => if k = 1 then 28 / 25 else -2 / 25] fun i : Fin 1 => objVec (lineMmdn true) (Z i)) Z (fun _ _ => 1) =
        f' (Z 0 0) := by
      intro Z
      have h0 : HasFDerivAt (fun Z : Fin 1 → Fin 1 → ℝ => Z 0 0) ((ContinuousLinearMap.proj (R := ℝ) (φ := fun _ : Fin 1 => ℝ) 0).comp
          (ContinuousLinearMap.proj (R := ℝ) (φ := fun _ : Fin 1 => Fin 1 → ℝ) 0)) Z :=
        ((ContinuousLinearMap.proj (R := ℝ) (φ := fun _ : Fin 1 => ℝ) 0).comp
          (ContinuousLinearMap.proj (R := ℝ) (φ := fun _ : Fin 1 => Fin 1 → ℝ) 0)).hasFDerivAt
      have h1 := (hfd (Z 0 0)).comp_hasFDerivAt Z h0
      have e : (fun Z : Fin 1 → Fin 1 → ℝ => mmdValue (lineMmdn true)
        [fun k => if k = 1 then 28 / 25 else -2 / 25] fun i : Fin 1 => objVec (lineMmdn true) (Z i)) = f ∘ fun Z => Z 0 0 := by
        funext Z; exact hval Z
      rw [e, h1.fderiv]
      simp
    have := hasDerivAt_of_lin2 hΦ (d2 fun _ _ => 1)
    have e : ∑ i : Fin 1, ∑ v : Fin 1, (1 : ℝ) * H i v 0 0 = _ := this.unique hfd2
    simpa using e
  have hE := Real.exp_pos (-(13 / 625))
  -- the step
  have hnw := h5.newton_id (fun _ => rfl) oneSolve_sound
  have hst : at2 s'.step 0 0 = -5 / 48 := by
    rw [hX] at hnw
    have e := ((hnw ⟨fun _ _ => -5 / 48, fun i hi => by
      obtain rfl : i = 0 := Nat.lt_one_iff.mp hi
      refine ⟨fun v hv => ?_, fun k hk => absurd hk (by simp [lineMmdn, lineFuncs, Funcs.nDual])⟩
      obtain rfl : v = 0 := Nat.lt_one_iff.mp hv
      simp [lineMmdn, lineFuncs, Funcs.nDual, hG, hH]
      ring⟩ 0 (by simp)).1.1 0 (by simp [lineMmdn, lineFuncs]))
    simp [lineMmdn, lineFuncs, Funcs.nDual, hG, hH] at e
    have : Real.exp (-(13 / 625)) * (192 / 25 * at2 s'.step 0 0 + 4 / 5) = 0 := by linarith
    rcases mul_eq_zero.mp this with h | h
    · exact absurd h hE.ne'
    · linarith
  have hα : 0 < α := by
    unfold MmdnSearched MmdnSearchedBy at h6
    split at h6
    · rw [h6]; norm_num
    · obtain ⟨j, -, rfl, -⟩ := h6
      positivity
  have hx := h9 0 (by simp) 0 (by simp [lineMmdn, lineFuncs])
  have hl : 0 < s'.state.X.length := by rw [h2.size]; simp
  have hb := ((k2 ((s'.state.X.getD 0 []).take (lineMmdn true).p.nVar) (by
    rw [List.getD_eq_getElem _ _ hl]
    exact List.mem_map.mpr ⟨_, List.getElem_mem hl, rfl⟩)).2 0 (by simp [lineMmdn])).1
  have e0 : ((s'.state.X.getD 0 []).take (lineMmdn true).p.nVar).getD 0 0 = (s'.state.X.getD 0 []).getD 0 0 := by
    simp [List.getD_eq_getElem?_getD, List.getElem?_take, lineMmdn, lineFuncs]
  rw [e0, hx, hX] at hb
  have : (s'.step.getD 0 []).getD 0 0 = -5 / 48 := hst
  rw [this] at hb
  simp [lineMmdn] at hb
  linarith

/-! ### Examples -/

/-- Three reference points and their direction. -/
noncomputable def threeRefs : RefSet (ℕ → ℝ) :=
  RefSet.new [[fun k => if k = 1 then 1 else 0, fun _ => 1 / 2, fun k => if k = 0 then 1 else 0]] [fun _ => -1] none

/-- The hypotheses of `C72_start`, `C72_run` and `C72_iteration_partial`, with and without matching: two points, one of
them outside the box, and three reference points. -/
example (matching : Bool) (n : ℕ) : ∃ s s', (lineMmdn matching).start threeRefs [[1 / 4], [2]] = some s ∧
    (lineMmdn matching).run n s = some s' ∧ s'.state.X.length = 2 ∧ s'.state.nJac = 2 + n * 2 := by
  obtain ⟨s, h1, h2, -, h3, -⟩ := (C72_start (lineMmdn_ok matching) (S := threeRefs) (X0 := [[1 / 4], [2]])
    (by simp) (fun _ => ⟨⟨_, rfl, by simp⟩, rfl, rfl, rfl⟩) (fun _ => ⟨rfl, rfl, by simp [threeRefs, RefSet.new]⟩)
    (fun d hd => by
      obtain rfl : d = 0 := Nat.lt_one_iff.mp hd
      simp [lineMmdn])).2 (by simp [lineMmdn, lineFuncs])
  obtain ⟨s', g1, g2, -, g3⟩ := C72_run (lineMmdn_ok matching) n h2
  exact ⟨s, s', h1, g1, g2.size, by rw [g3, h3]; rfl⟩

/-- The hypotheses of `C72_few`: two points and one reference point. -/
example : ∃ t, (lineFuncs ℝ).update State.init [[1 / 4], [1 / 2]] true true = some t ∧
    (lineMmdn false).iterate { state := t, ref := highRef, value := 0, iter := 0, step := [], R := [], hist := fun _ => [] } =
      none := by
  obtain ⟨t, h1, h2, h3, -⟩ := Usable.update (N0 := 2) (dim := 1) (lineFuncs_ok (K := ℝ)) le_rfl State.init
    (X := [[1 / 4], [1 / 2]]) (by simp) (by simp) (by simp)
  exact ⟨t, h1, C72_few (lineMmdn_ok false) h3 rfl rfl rfl rfl (by simp [highRef, RefSet.new, h2])⟩

end Verif.Props
