import Verif.Opt.MMDN
import Verif.Opt.DpNLemmas
import Verif.Opt.HVNEnv
import Verif.Props.MMD

/-!
# The parts of an iteration of `MMDNewton` return
-/

set_option linter.unusedSectionVars false

namespace Verif.Props

open Verif.Opt Verif.Ind Verif.HV Verif.Util

/-! ### Specification -/

/-- The objective vector of a point, by the callback. -/
def objVec (a : Mmdn) (x : Fin a.p.nVar → ℝ) : Fin a.nObj → ℝ := fun k => pt (a.p.func.point (List.ofFn x)) k

/-- The indicator of the objective vectors `Y` for the reference points `T`; with matching `T` are the targets of the
points in their order. -/
noncomputable def mmdValue (a : Mmdn) (T : List (ℕ → ℝ)) {N : ℕ} (Y : Fin N → Fin a.nObj → ℝ) : ℝ :=
  if a.matching then mmdmOf (1 / 4) a.kernel.k (fun i k => T.getD i 0 k) Y
  else mmdOf a.kernel.k (fun (j : Fin T.length) k => T.getD j 0 k) Y

/-- `G` are the partial derivatives of the indicator as a function of the decision points, at the population `X`. -/
def MmdGrad (a : Mmdn) (T : List (ℕ → ℝ)) (X : List (List ℝ)) (G : ℕ → ℕ → ℝ) : Prop :=
  HasFDerivAt (fun Z : Fin X.length → Fin a.p.nVar → ℝ => mmdValue a T fun i => objVec a (Z i))
    (lin2 fun i v => G i v) fun i v => pt (X.getD i []) v

/-- `H` are the second partial derivatives. -/
def MmdHess (a : Mmdn) (T : List (ℕ → ℝ)) (X : List (List ℝ)) (H : ℕ → ℕ → ℕ → ℕ → ℝ) : Prop :=
  ∀ V : Fin X.length → Fin a.p.nVar → ℝ, HasFDerivAt
    (fun Z => fderiv ℝ (fun Z : Fin X.length → Fin a.p.nVar → ℝ => mmdValue a T fun i => objVec a (Z i)) Z V)
    (lin2 fun j w => ∑ i, ∑ v, V i v * H i v j w) fun i v => pt (X.getD i []) v

/-- The Newton equations of one point as in `KktNewton`, but without the second derivatives of the constraints. -/
def KktNewtonFlat (p : Funcs ℝ) (x : List ℝ) (G HS s : ℕ → ℝ) : Prop :=
  (∀ v < p.nVar, HS v +
      ∑ k ∈ Finset.range p.nDual, (if IsActive p (x.take p.nVar) k then cGrad p (x.take p.nVar) k v * s (p.nVar + k) else 0) =
    -(G v + ∑ k ∈ Finset.range p.nDual,
      if IsActive p (x.take p.nVar) k then pt x (p.nVar + k) * cGrad p (x.take p.nVar) k v else 0)) ∧
  ∀ k < p.nDual, IsActive p (x.take p.nVar) k → ∑ w ∈ Finset.range p.nVar, cGrad p (x.take p.nVar) k w * s w = -cVal p (x.take p.nVar) k

/-- The callbacks are the derivatives, and the kernel is symmetric, stationary and twice differentiable. -/
structure MmdSmooth (a : Mmdn) : Prop where
  jac : ∀ x k, HasFDerivAt (fun x => a.objective.func x k) (lin (a.objective.jac x k)) x
  hess : ∀ x k v, HasFDerivAt (fun x => a.objective.jac x k v) (lin (a.objective.hess x k v)) x
  symm : ∀ x y, a.kernel.k x y = a.kernel.k y x
  stationary : Verif.Ind.Stationary a.kernel.k
  diff : ∀ x y, a.kernel.Diff2At x y

theorem kktNewtonFlat_iff {p : Funcs ℝ} {nObj : ℕ} {x : List ℝ} {d : NewtonPoint ℝ} (hp : p.Ok nObj)
    (hx : x.length = p.nVar + p.nDual) (h : p.PointOf x d) {G : ℕ → ℝ}
    (hG : ∀ v < p.nVar, d.grad.getD v 0 = G v) (HS s : ℕ → ℝ) :
    NewtonEquations false p.nVar p.nDual d HS s ↔ KktNewtonFlat p x G HS s := by
  unfold NewtonEquations KktNewtonFlat cGrad cVal
  refine and_congr (forall₂_congr fun v hv => ?_) (forall₂_congr fun k hk => ?_)
  · have e2 : (∑ k ∈ Finset.range p.nDual, if d.act.getD k false = true then
        (d.dH.getD k []).getD v 0 * s (p.nVar + k) else 0) =
        ∑ k ∈ Finset.range p.nDual, if IsActive p (x.take p.nVar) k then
          pt (p.rowGrad (x.take p.nVar)) (k * p.nVar + v) * s (p.nVar + k) else 0 :=
      Finset.sum_congr rfl fun k hk => by
        have hk := Finset.mem_range.mp hk
        rw [h.dH k hk v hv]
        exact if_congr (PointOf.active hp hx h hk) rfl rfl
    have e3 : (∑ k ∈ Finset.range p.nDual, if d.act.getD k false = true then
        d.dual.getD k 0 * (d.dH.getD k []).getD v 0 else 0) =
        ∑ k ∈ Finset.range p.nDual, if IsActive p (x.take p.nVar) k then
          pt x (p.nVar + k) * pt (p.rowGrad (x.take p.nVar)) (k * p.nVar + v) else 0 :=
      Finset.sum_congr rfl fun k hk => by
        have hk := Finset.mem_range.mp hk
        rw [h.dual k hk, h.dH k hk v hv]
        exact if_congr (PointOf.active hp hx h hk) rfl rfl
    rw [hG v hv, e2, e3, if_neg (by simp), add_zero]
  · rw [PointOf.active hp hx h hk, h.cstr k hk,
      Finset.sum_congr rfl fun w hw => by rw [h.dH k hk w (Finset.mem_range.mp hw)]]

end Verif.Props

namespace Verif.Opt

open Verif.Ind Verif.Util Verif.HV Verif.Props

/-! ### Step and residual -/

section

variable {K : Type*} [Field K] [LinearOrder K] [IsStrictOrderedRing K] [Inhabited K]

theorem mmdR_eq_hvnR {c : Bool} {n p : ℕ} {ds : List (NewtonPoint K)} (h : ∀ d ∈ ds, d.Shape n p) :
    mmdR c (ds.map NewtonPoint.toPointData) = hvnR c (ds.map NewtonPoint.toPointData) := by
  cases c with
  | false => rfl
  | true => rw [(hvnR_eq h).1, (hvnR_eq h).2]

theorem mmdStep_total {solve : List (List K) → List K → List K}
    (hs : ∀ A b, IsMat b.length b.length A → (solve A b).length = b.length) {n p : ℕ}
    {Hess : List (List K)} {ds : List (NewtonPoint K)} (hN : 0 < ds.length) (h : ∀ d ∈ ds, d.Shape n p)
    (hH : IsMat (ds.length * n) (ds.length * n) Hess) :
    ∃ S, mmdStep solve n p Hess ds = some S ∧ S.length = ds.length ∧ ∀ r ∈ S, r.length = n + p := by
  unfold mmdStep
  rcases Nat.eq_zero_or_pos p with rfl | hp
  · rw [if_pos rfl]
    have hl : (ds.map fun d => d.grad).flatten.length = ds.length * n := by
      rw [flatten_length_uniform (n := n), List.length_map]
      intro l hl
      obtain ⟨d, hd, rfl⟩ := List.mem_map.mp hl
      exact (h d hd).base.grad
    have hsl := hs Hess (ds.map fun d => d.grad).flatten (by rw [hl]; exact hH)
    obtain ⟨S, h1, h2, -, h4⟩ := reshape_spec (w := n) (x := (solve Hess (ds.map fun d => d.grad).flatten).map (-1 * ·)) hN
      (by rw [List.length_map, hsl, hl])
    exact ⟨S, h1, h2, h4⟩
  · rw [if_neg (by omega), (hvnR_eq h).2, Option.bind_some, pack_R h, Option.bind_some]
    have ha : ∀ m ∈ ds.map fun d => d.act, n + m.length = n + p := fun m hm => by
      obtain ⟨d, hd, rfl⟩ := List.mem_map.mp hm
      rw [(h d hd).base.act]
    set r := (ds.map fun d => activeLagrange d.toPointData).flatten ++ (ds.map fun d => select d.act d.cstr).flatten
      with hr
    have hrl : r.length = ds.length * n + ((ds.map fun d => d.act).map fun m => m.count true).sum := by
      rw [hr, List.length_append, flatten_length_uniform (n := n), List.length_map, List.length_flatten, List.map_map,
        List.map_map]
      · congr 2
        refine List.map_congr_left fun d hd => ?_
        simp only [Function.comp_apply]
        rw [select_length _ _ ((h d hd).base.cstr.trans (h d hd).base.act.symm)]
      · intro l hl
        obtain ⟨d, hd, rfl⟩ := List.mem_map.mp hl
        exact (activeLagrange_length _).trans (h d hd).base.grad
    have hM := newtonMatrix_isMat false h hH
    rw [← hrl] at hM
    obtain ⟨S, h1, h2, h3, -⟩ := pack_unpack (n := n) (dim := n + p) (N := ds.length)
      (v := (solve (newtonMatrix false n Hess ds) r).map (-1 * ·)) hN (by simp) ha
      (by rw [List.length_map, hs _ _ hM, hrl])
    refine ⟨S, ?_, h2, h3⟩
    rw [← h1, unpack, List.map_map]
    rfl

end

/-! ### The loop of the line search -/

theorem halvingW_spec {σ : Type*} {c1 phi0 : ℝ} {phi : ℝ → σ → Option (ℝ × σ)} {I : σ → Prop} {Q : ℝ → ℝ → Prop}
    (hphi : ∀ s w, I w → ∃ v w', phi s w = some (v, w') ∧ I w' ∧ Q s v) :
    ∀ (t : ℕ) (s : ℝ) (w : σ), I w → ∃ k ≤ t, ∃ w', halvingW c1 phi phi0 t s w = some (s * (1 / 2) ^ k, w') ∧ I w' ∧
      (∀ l < k, ∃ v, Q (s * (1 / 2) ^ l) v ∧ ¬ Accept c1 phi0 (s * (1 / 2) ^ l) v) ∧
      (k < t → ∃ v, Q (s * (1 / 2) ^ k) v ∧ Accept c1 phi0 (s * (1 / 2) ^ k) v) := by
  intro t
  induction t with
  | zero => intro s w hw; exact ⟨0, le_rfl, w, by simp [halvingW], hw, by simp, by simp⟩
  | succ t ih =>
    intro s w hw
    obtain ⟨v, w1, hv, hw1, hq⟩ := hphi s w hw
    by_cases h : Accept c1 phi0 s v
    · exact ⟨0, by omega, w1, by simp [halvingW, hv, h], hw1, by simp, fun _ => ⟨v, by simpa using hq, by simpa using h⟩⟩
    · obtain ⟨k, hk, w', h1, h0, h2, h3⟩ := ih (s * (1 / 2)) w1 hw1
      have hpow : ∀ l, s * (1 / 2) * (1 / 2) ^ l = s * (1 / 2) ^ (l + 1) := fun l => by rw [pow_succ]; ring
      refine ⟨k + 1, by omega, w', ?_, h0, ?_, ?_⟩
      · simp only [halvingW, hv, Option.bind_some]
        rw [if_neg h, h1, hpow]
      · intro l hl
        rcases l with _ | l
        · exact ⟨v, by simpa using hq, by simpa using h⟩
        · rw [← hpow]; exact h2 l (by omega)
      · intro hlt
        rw [← hpow]; exact h3 (by omega)

/-! ### The shift -/

theorem mmdShift_paired {dist : (ℕ → ℝ) → (ℕ → ℝ) → ℝ} (hd : ∀ x y, 0 ≤ dist x y) {S : RefSet (ℕ → ℝ)}
    {M Y : List (ℕ → ℝ)} {N : ℕ} (hS : OneRef S N) (h : Paired S M) (hM : M.length = Y.length) (iter : ℕ)
    {stepNorm : List ℝ} (hst : iter ≠ 0 → stepNorm.length = Y.length) (hist : ℕ → List (ℕ → ℝ)) :
    ∃ S' M' hist', mmdShift dist iter Y.length Y stepNorm S hist = some (S', hist') ∧ Paired S' M' ∧ OneRef S' N ∧
      S'.ref = S.ref ∧ S'.eta = S.eta ∧
      M'.length = Y.length ∧ ShiftedBy (8 / 100 : ℝ)
        (fun i => iter = 0 ∨ AtRestAny dist Y M stepNorm i) S.eta (fun _ => 0) M M' hist hist' := by
  have he : S.eta.length = S.ref.length := by
    obtain ⟨C, hC, -⟩ := hS.ref
    rw [hS.eta, hC]; rfl
  have hR := h.referenceSet
  obtain ⟨m, a1, a2, a3⟩ : ∃ m, mmdShiftMask dist iter M.length Y M stepNorm = some m ∧ m.length = M.length ∧
      ∀ i < M.length, (m[i]? = some true ↔ (iter = 0 ∨ AtRestAny dist Y M stepNorm i)) := by
    by_cases hi : iter = 0
    · exact ⟨List.replicate M.length true, by rw [mmdShiftMask, if_pos hi], by simp, fun i hi' => by simp [hi', hi]⟩
    · obtain ⟨m, a1, a2, a3⟩ := mmdShiftMask_spec hd hi hM.symm (by rw [hM]; exact hst hi)
      exact ⟨m, a1, a2, fun i hi' => by rw [a3 i hi']; simp [hi]⟩
  obtain ⟨S', M', hist', h1, h2, h3, h4, h6, h7, -, h5⟩ := shiftMasked_spec
    (c := (8 / 100 : ℝ)) (hist := hist) (comp := fun _ => 0)
    (h.synced hS) h.matched he a2 (fun i hi => h.comp hi) a3
  have hsh : S.shift (8 / 100 : ℝ) (some (nonzero m)) = some S' := by
    unfold shiftMasked at h1
    obtain ⟨S1, e1, e2⟩ := Option.bind_eq_some_iff.mp h1
    obtain ⟨hh, -, e3⟩ := Option.map_eq_some_iff.mp e2
    rw [e1, (Prod.mk.inj e3).1]
  obtain ⟨M1, p1, p2, p3⟩ := shift_paired hS h hsh
  obtain rfl : M1 = M' := Option.some.inj (p1.matched.symm.trans h2)
  refine ⟨S', M1, hist', ?_, p1, p3, h6, h7, p2.trans hM, h5⟩
  unfold mmdShift
  rw [hR, ← hM, a1, Option.bind_some, h1]

/-- The shift without matching: everything moves. -/
theorem mmdShift_unmatched {dist : (ℕ → ℝ) → (ℕ → ℝ) → ℝ} {S : RefSet (ℕ → ℝ)} {Y : List (ℕ → ℝ)}
    (hm : S.matched = none) (he : S.eta.length = S.ref.length) (hN : Y.length ≤ S.ref.flatten.length) (hY : 0 < Y.length)
    (iter : ℕ) {stepNorm : List ℝ} (hst : iter ≠ 0 → stepNorm.length = Y.length) (hist : ℕ → List (ℕ → ℝ)) :
    ∃ S' hist', mmdShift dist iter Y.length Y stepNorm S hist = some (S', hist') ∧ S'.matched = none ∧
      S'.eta = S.eta ∧ S'.ref = List.zipWith (fun C dir => C.map fun r => r + (8 / 100 : ℝ) • dir) S.ref S.eta := by
  have hmask : ∃ m, mmdShiftMask dist iter Y.length Y S.referenceSet stepNorm = some m ∧ m.length = Y.length := by
    unfold mmdShiftMask
    by_cases hi : iter = 0
    · exact ⟨_, by rw [if_pos hi], by simp⟩
    · rw [if_neg hi, if_neg (by simp [hst hi])]
      have hne : S.referenceSet ≠ [] := by
        rw [RefSet.referenceSet, hm]
        exact List.ne_nil_of_length_pos (by simp only [Option.getD_none]; omega)
      obtain ⟨D, h1, h2⟩ := mapM_exists (f := fun y => (S.referenceSet.map fun r => dist y r).min?)
        (P := fun _ _ => True) (l := Y) (fun y _ => by
          obtain ⟨m, h, -⟩ := Dpn.min_exists (fun r => dist y r) hne
          exact ⟨m, h, trivial⟩)
      exact ⟨_, by rw [h1, Option.map_some], by simp [h2.length_eq.symm, hst hi]⟩
  obtain ⟨m, m1, m2⟩ := hmask
  have hsh : S.shift (8 / 100 : ℝ) (some (nonzero m)) = some { S with
      ref := List.zipWith (fun C dir => C.map fun r => r + (8 / 100 : ℝ) • dir) S.ref S.eta } := by
    unfold RefSet.shift
    rw [hm]
    dsimp only
    rw [if_neg (by omega)]
  have hlen : (List.zipWith (fun (C : List (ℕ → ℝ)) dir => C.map fun r => r + (8 / 100 : ℝ) • dir) S.ref S.eta).flatten.length =
      S.ref.flatten.length := by
    rw [List.length_flatten, List.length_flatten]
    congr 1
    apply List.ext_getElem (by simp [he])
    intro i h1 h2
    simp
  obtain ⟨hist', h1, -⟩ := hist_loop (R := (List.zipWith (fun (C : List (ℕ → ℝ)) dir =>
      C.map fun r => r + (8 / 100 : ℝ) • dir) S.ref S.eta).flatten) (nodup_nonzero m)
    (fun i hi => by
      obtain ⟨h3, -⟩ := List.getElem?_eq_some_iff.mp (mem_nonzero.mp hi)
      rw [hlen]; omega) hist
  refine ⟨{ S with
      ref := List.zipWith (fun C dir => C.map fun r => r + (8 / 100 : ℝ) • dir) S.ref S.eta }, hist', ?_, hm, rfl, rfl⟩
  unfold mmdShift
  rw [m1, Option.bind_some]
  unfold shiftMasked
  rw [hsh, Option.bind_some]
  have e : RefSet.referenceSet { S with
      ref := List.zipWith (fun (C : List (ℕ → ℝ)) dir => C.map fun r => r + (8 / 100 : ℝ) • dir) S.ref S.eta } =
      (List.zipWith (fun (C : List (ℕ → ℝ)) dir => C.map fun r => r + (8 / 100 : ℝ) • dir) S.ref S.eta).flatten := by
    rw [RefSet.referenceSet, hm]; rfl
  rw [e, h1, Option.map_some]

end Verif.Opt
