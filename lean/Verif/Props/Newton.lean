import Verif.Opt.NewtonLemmas
import Verif.Props.Residual
import Mathlib.Analysis.SpecialFunctions.Sqrt
import Mathlib.Analysis.Calculus.Deriv.Pow
import Mathlib.Analysis.Calculus.Deriv.Slope
import Mathlib.Analysis.Calculus.Deriv.Add
import Mathlib.Analysis.Calculus.Deriv.Mul

/-!
# The Newton step (C60)
-/

namespace Verif.Props

open Verif.Opt Verif.Util

set_option linter.unusedSectionVars false

section Step

variable {K : Type*} [CommRing K]

/-- `x` solves the square system with matrix `A` and right-hand side `b`. -/
def SolvesSystem (A : List (List K)) (b x : List K) : Prop :=
  x.length = b.length ∧ ∀ i < b.length, ∑ j ∈ Finset.range b.length, at2 A i j * x.getD j 0 = b.getD i 0

/-- The assumed contract of `spsolve` or `solve` with the fallback `np.linalg.lstsq`: for a square system a vector
of the right length is returned, and it is a solution if there is one. -/
def SolverSound (solve : List (List K) → List K → List K) : Prop :=
  ∀ A b, IsMat b.length b.length A → (∃ x, SolvesSystem A b x) → SolvesSystem A b (solve A b)

/-- The Newton equations of one point: the first-order changes of the active part of the Lagrangian's gradient and
of the active constraints cancel them. `hs v` is the first-order change of entry `v` of the indicator's gradient,
`s` are the steps of the `n` variables and of the `p` multipliers. With `curvature = false` the change of the
constraints' gradients is left out. -/
def NewtonEquations (curvature : Bool) (n p : ℕ) (d : NewtonPoint K) (hs s : ℕ → K) : Prop :=
  (∀ v < n, hs v + (if curvature then ∑ w ∈ Finset.range n, (∑ k ∈ Finset.range p,
      if d.act.getD k false = true then d.dual.getD k 0 * ((d.ddH.getD k []).getD v []).getD w 0 else 0) * s w
      else 0) +
      ∑ k ∈ Finset.range p, (if d.act.getD k false = true then (d.dH.getD k []).getD v 0 * s (n + k) else 0) =
    -(d.grad.getD v 0 + ∑ k ∈ Finset.range p,
      if d.act.getD k false = true then d.dual.getD k 0 * (d.dH.getD k []).getD v 0 else 0)) ∧
  ∀ k < p, d.act.getD k false = true →
    ∑ w ∈ Finset.range n, (d.dH.getD k []).getD w 0 * s w = -d.cstr.getD k 0

/-- The first-order change of entry `v` of the gradient at point `i`, for the Hessian of the indicator in all
points. -/
def hessTimes (n N : ℕ) (Hess S : List (List K)) (i v : ℕ) : K :=
  ∑ j ∈ Finset.range N, ∑ w ∈ Finset.range n, at2 Hess (i * n + v) (j * n + w) * at2 S j w

/-- `S` solves the Newton equations of all points together. -/
def NewtonStep (curvature : Bool) (n p : ℕ) (Hess : List (List K)) (ds : List (NewtonPoint K))
    (S : List (List K)) : Prop :=
  ∀ i (hi : i < ds.length), NewtonEquations curvature n p ds[i] (hessTimes n ds.length Hess S i) (at2 S i)

theorem getD_map_dotL {A : List (List K)} {x b : List K} {m : ℕ} (hA : IsMat m m A) (hx : x.length = m)
    (hb : b.length = m) : A.map (dotL · x) = b ↔
      ∀ i < m, ∑ j ∈ Finset.range m, at2 A i j * x.getD j 0 = b.getD i 0 := by
  have e : ∀ i (hi : i < m), ∑ j ∈ Finset.range m, at2 A i j * x.getD j 0 =
      (A.map (dotL · x))[i]'(by rw [List.length_map, hA.1]; exact hi) := by
    intro i hi
    have hi' : i < A.length := by rw [hA.1]; exact hi
    rw [List.getElem_map, dotL_eq_sum _ _ (hA.2 _ (List.getElem_mem hi')) hx]
    unfold at2
    rw [List.getD_eq_getElem A _ hi']
  constructor
  · intro h i hi
    rw [e i hi, List.getD_eq_getElem _ _ (by omega)]
    simp only [h]
  · intro h
    refine List.ext_getElem (by rw [List.length_map, hA.1, hb]) fun i h1 h2 => ?_
    rw [← e i (by omega), h i (by omega), List.getD_eq_getElem _ _ h2]

theorem map_dotL_neg (A : List (List K)) (x : List K) :
    A.map (dotL · (x.map (-1 * ·))) = (A.map (dotL · x)).map (-1 * ·) := by
  rw [List.map_map]
  refine List.map_congr_left fun r _ => ?_
  simp only [Function.comp_apply]
  rw [dotL_neg, neg_one_mul]

theorem solver_neg {solve : List (List K) → List K → List K} (hs : SolverSound solve) {A : List (List K)} {b : List K}
    (hA : IsMat b.length b.length A) {x : List K} (hx : x.length = b.length)
    (hAx : A.map (dotL · x) = b.map (-1 * ·)) :
    (solve A b).length = b.length ∧ A.map (dotL · ((solve A b).map (-1 * ·))) = b.map (-1 * ·) := by
  have hsol : SolvesSystem A b (x.map (-1 * ·)) := by
    refine ⟨by rw [List.length_map, hx], ?_⟩
    rw [← getD_map_dotL hA (by rw [List.length_map, hx]) rfl, map_dotL_neg, hAx, List.map_map]
    simp [Function.comp_def]
  obtain ⟨h1, h2⟩ := hs A b hA ⟨_, hsol⟩
  rw [← getD_map_dotL hA h1 rfl] at h2
  exact ⟨h1, by rw [map_dotL_neg, h2]⟩

theorem blockDiagFrom_length (n b : ℕ) (Bs : List (List (List K))) :
    (blockDiagFrom n b Bs).length = (Bs.map List.length).sum := by
  induction Bs generalizing b with
  | nil => simp [blockDiagFrom]
  | cons B Bs ih => rw [blockDiagFrom, List.length_append, ih]; simp

theorem bordered_isMat {c : ℕ} {A H : List (List K)} (hA : IsMat c c A) (hH : ∀ r ∈ H, r.length = c) :
    IsMat (c + H.length) (c + H.length) (bordered c A H) := by
  refine ⟨by simp [bordered, hA.1], fun r hr => ?_⟩
  unfold bordered at hr
  rcases List.mem_append.mp hr with hr | hr
  · obtain ⟨i, hi, rfl⟩ := List.mem_iff_getElem.mp hr
    rw [List.getElem_zipWith, List.length_append, hA.2 _ (List.getElem_mem _), List.getElem_map]
    simp [column]
  · obtain ⟨r, hr', rfl⟩ := List.mem_map.mp hr
    simp [hH r hr']

theorem addRows_isMat {a b : ℕ} {A B : List (List K)} (hA : IsMat a b A) (hB : IsMat a b B) :
    IsMat a b (addRows A B) := by
  refine ⟨by simp [addRows, hA.1, hB.1], fun r hr => ?_⟩
  unfold addRows at hr
  obtain ⟨i, hi, rfl⟩ := List.mem_iff_getElem.mp hr
  rw [List.getElem_zipWith, List.length_zipWith, hA.2 _ (List.getElem_mem _), hB.2 _ (List.getElem_mem _), min_self]

theorem newtonMatrix_isMat (curvature : Bool) {n p : ℕ} {Hess : List (List K)} {ds : List (NewtonPoint K)}
    (h : ∀ d ∈ ds, d.Shape n p) (hH : IsMat (ds.length * n) (ds.length * n) Hess) :
    IsMat (ds.length * n + ((ds.map fun d => d.act).map fun m => m.count true).sum)
      (ds.length * n + ((ds.map fun d => d.act).map fun m => m.count true).sum) (newtonMatrix curvature n Hess ds) := by
  have hl : (blockDiag n (ds.map fun d => select d.act d.dH)).length =
      ((ds.map fun d => d.act).map fun m => m.count true).sum := by
    rw [blockDiag, blockDiagFrom_length, List.map_map, List.map_map]
    congr 1
    refine List.map_congr_left fun d hd => ?_
    simp only [Function.comp_apply]
    rw [select_length _ _ ((h d hd).base.dH.trans (h d hd).base.act.symm)]
  have hr : ∀ r ∈ blockDiag n (ds.map fun d => select d.act d.dH), r.length = ds.length * n := by
    intro r hr
    rw [blockDiagFrom_length_rows ?_ r hr]
    · simp
    · intro B hB r hr
      obtain ⟨d, hd, rfl⟩ := List.mem_map.mp hB
      exact (h d hd).rows r (select_subset _ _ _ hr)
  have hM : IsMat (ds.length * n) (ds.length * n) (blockDiag n (ds.map (activeHess n))) := by
    refine ⟨?_, fun r hr => ?_⟩
    · rw [blockDiag, blockDiagFrom_length, List.map_map]
      have : (ds.map (List.length ∘ activeHess n)) = ds.map fun _ => n :=
        List.map_congr_left fun d _ => activeHess_length n d
      rw [this]
      simp
    · rw [blockDiagFrom_length_rows ?_ r hr]
      · simp
      · intro B hB r hr
        obtain ⟨d, hd, rfl⟩ := List.mem_map.mp hB
        exact activeHess_row n d r hr
  unfold newtonMatrix
  rw [← hl]
  refine bordered_isMat ?_ hr
  cases curvature
  · exact hH
  · exact addRows_isMat hH hM

theorem primalPart_eq (curvature : Bool) {n p : ℕ} {Hess : List (List K)} {d : NewtonPoint K} (hd : d.Shape n p)
    {N : ℕ} (hH : IsMat (N * n) (N * n) Hess) {S : List (List K)} (hS : IsMat N (n + p) S) {i v : ℕ} (hi : i < N)
    (hv : v < n) :
    primalPart curvature n Hess d (S.map (List.take n)).flatten (S.getD i []) i v =
      hessTimes n N Hess S i v + (if curvature then ∑ w ∈ Finset.range n, (∑ k ∈ Finset.range p,
        if d.act.getD k false = true then d.dual.getD k 0 * ((d.ddH.getD k []).getD v []).getD w 0 else 0) *
          at2 S i w else 0) +
      ∑ k ∈ Finset.range p, (if d.act.getD k false = true then (d.dH.getD k []).getD v 0 * at2 S i (n + k) else 0) := by
  have hq : i * n + v < N * n := by
    have : (i + 1) * n ≤ N * n := Nat.mul_le_mul_right n hi
    rw [add_mul] at this; omega
  have hiS : i < S.length := by rw [hS.1]; exact hi
  have hrow : (S.getD i []).length = n + p := by
    rw [List.getD_eq_getElem _ _ hiS]; exact hS.2 _ (List.getElem_mem _)
  have htk : ∀ r ∈ S.map (List.take n), r.length = n := by
    intro r hr
    obtain ⟨s, hs, rfl⟩ := List.mem_map.mp hr
    rw [List.length_take, hS.2 s hs]; omega
  have htake : ∀ j < N, ∀ w < n, ((S.map (List.take n)).getD j []).getD w 0 = at2 S j w := by
    intro j hj w hw
    have hjS : j < S.length := by rw [hS.1]; exact hj
    have hjl := hS.2 _ (List.getElem_mem hjS)
    unfold at2
    rw [List.getD_eq_getElem (S.map _) _ (by simpa using hjS), List.getElem_map, List.getD_eq_getElem S _ hjS,
      List.getD_eq_getElem _ _ (by rw [List.length_take, hjl]; omega), List.getElem_take,
      List.getD_eq_getElem _ _ (by rw [hjl]; omega)]
  unfold primalPart
  congr 1
  · congr 1
    · have hHl : (Hess.getD (i * n + v) []).length = N * n := by
        rw [List.getD_eq_getElem _ _ (by rw [hH.1]; exact hq)]
        exact hH.2 _ (List.getElem_mem _)
      rw [dotL_flatten _ _ htk (by rw [hHl, List.length_map, hS.1]), List.length_map, hS.1]
      unfold hessTimes
      refine Finset.sum_congr rfl fun j hj => Finset.sum_congr rfl fun w hw => ?_
      rw [htake j (Finset.mem_range.mp hj) w (Finset.mem_range.mp hw)]
      rfl
    · cases curvature
      · rfl
      · simp only [if_true]
        rw [dotL_eq_sum (n := n) _ _ ?_ (by rw [List.length_take, hrow]; omega)]
        · refine Finset.sum_congr rfl fun w hw => ?_
          have hw := Finset.mem_range.mp hw
          rw [activeHess_getD hd hv hw]
          congr 1
          unfold at2
          rw [List.getD_eq_getElem (List.take _ _) _ (by rw [List.length_take, hrow]; omega), List.getElem_take,
            List.getD_eq_getElem (S.getD i []) _ (by rw [hrow]; omega)]
        · rw [List.getD_eq_getElem _ _ (by rw [activeHess_length]; exact hv)]
          exact activeHess_row n d _ (List.getElem_mem _)
  · have e := dotL_select d.act d.dH ((S.getD i []).drop n) (fun r : List K => r.getD v 0) (fun a : K => a) [] 0
      (hd.base.dH.trans hd.base.act.symm) (by rw [List.length_drop, hrow, hd.base.act]; omega)
    rw [List.map_id'] at e
    unfold column
    rw [e, hd.base.act]
    refine Finset.sum_congr rfl fun k hk => ?_
    have hk := Finset.mem_range.mp hk
    unfold at2
    rw [List.getD_eq_getElem (List.drop _ _) _ (by rw [List.length_drop, hrow]; omega), List.getElem_drop,
      List.getD_eq_getElem (S.getD i []) _ (by rw [hrow]; omega)]

theorem newtonStep_iff (curvature : Bool) {n p : ℕ} {Hess : List (List K)} {ds : List (NewtonPoint K)}
    (h : ∀ d ∈ ds, d.Shape n p) (hH : IsMat (ds.length * n) (ds.length * n) Hess)
    {S : List (List K)} (hS : IsMat ds.length (n + p) S) :
    NewtonStep curvature n p Hess ds S ↔
    (newtonMatrix curvature n Hess ds).map (dotL · ((S.map (List.take n)).flatten ++
        (List.zipWith (fun r m => select m (r.drop n)) S (ds.map fun d => d.act)).flatten)) =
      ((ds.map fun d => activeLagrange d.toPointData).flatten ++
        (ds.map fun d => select d.act d.cstr).flatten).map (-1 * ·) := by
  rw [newton_system_iff curvature h hH.1 hH.2 hS.1 hS.2]
  unfold NewtonStep NewtonEquations
  refine forall₂_congr fun i hi => ?_
  have hd := h _ (List.getElem_mem hi)
  have hiS : i < S.length := by rw [hS.1]; exact hi
  have hrow : (S.getD i []).length = n + p := by
    rw [List.getD_eq_getElem _ _ hiS]; exact hS.2 _ (List.getElem_mem _)
  refine and_congr (forall₂_congr fun v hv => ?_) (forall₂_congr fun k hk => imp_congr_right fun _ => ?_)
  · rw [primalPart_eq curvature hd hH hS hi hv, activeLagrange_getD hd.base hv]
  · have hdl : (ds[i].dH.getD k []).length = n := by
      rw [List.getD_eq_getElem _ _ (by rw [hd.base.dH]; exact hk)]
      exact hd.rows _ (List.getElem_mem _)
    rw [dotL_eq_sum _ _ hdl (by rw [List.length_take, hrow]; omega)]
    have : ∀ w ∈ Finset.range n, (ds[i].dH.getD k []).getD w 0 * at2 S i w =
        (ds[i].dH.getD k []).getD w 0 * (List.take n (S.getD i [])).getD w 0 := by
      intro w hw
      have hw := Finset.mem_range.mp hw
      unfold at2
      rw [List.getD_eq_getElem (List.take _ _) _ (by rw [List.length_take, hrow]; omega), List.getElem_take,
            List.getD_eq_getElem (S.getD i []) _ (by rw [hrow]; omega)]
    rw [Finset.sum_congr rfl this]

/-- The common part of the steps. -/
theorem step_core (curvature : Bool) {solve : List (List K) → List K → List K} (hs : SolverSound solve) {n p : ℕ}
    {Hess : List (List K)} {ds : List (NewtonPoint K)} (hN : 0 < ds.length) (h : ∀ d ∈ ds, d.Shape n p)
    (hH : IsMat (ds.length * n) (ds.length * n) Hess)
    (hex : ∃ S, IsMat ds.length (n + p) S ∧ NewtonStep curvature n p Hess ds S) :
    ∃ S, unpack ((solve (newtonMatrix curvature n Hess ds) ((ds.map fun d => activeLagrange d.toPointData).flatten ++
        (ds.map fun d => select d.act d.cstr).flatten)).map (-1 * ·)) ds.length (n + p) n (ds.map fun d => d.act) =
          some S ∧ IsMat ds.length (n + p) S ∧ NewtonStep curvature n p Hess ds S ∧
      (∀ i (hi : i < ds.length), ∀ k < p, ds[i].act.getD k false = false → at2 S i (n + k) = 0) ∧
      (solve (newtonMatrix curvature n Hess ds) ((ds.map fun d => activeLagrange d.toPointData).flatten ++
        (ds.map fun d => select d.act d.cstr).flatten)).length =
          ds.length * n + ((ds.map fun d => d.act).map fun m => m.count true).sum := by
  obtain ⟨S0, hS0, hst0⟩ := hex
  have ha : IsMat ds.length p (ds.map fun d => d.act) :=
    ⟨by simp, fun m hm => by obtain ⟨d, hd, rfl⟩ := List.mem_map.mp hm; exact (h d hd).base.act⟩
  set r := (ds.map fun d => activeLagrange d.toPointData).flatten ++ (ds.map fun d => select d.act d.cstr).flatten
    with hr
  have hrl : r.length = ds.length * n + ((ds.map fun d => d.act).map fun m => m.count true).sum := by
    rw [hr, List.length_append, flatten_length_uniform (n := n), List.length_map, List.length_flatten, List.map_map,
      List.map_map]
    · congr 2
      refine List.map_congr_left fun d hd => ?_
      simp only [Function.comp_apply]
      rw [select_length _ _ ((h d hd).base.cstr.trans (h d hd).base.act.symm)]
    · intro l hl
      obtain ⟨d, hd, rfl⟩ := List.mem_map.mp hl
      exact (activeLagrange_length _).trans (h d hd).base.grad
  have hM := newtonMatrix_isMat curvature h hH
  rw [← hrl] at hM
  have hv0 : ((S0.map (List.take n)).flatten ++
      (List.zipWith (fun r m => select m (r.drop n)) S0 (ds.map fun d => d.act)).flatten).length = r.length := by
    rw [hrl, List.length_append, flatten_length_uniform (n := n), List.length_map, List.length_flatten, hS0.1]
    · congr 2
      refine List.ext_getElem (by simp [hS0.1]) fun i h1 h2 => ?_
      simp only [List.length_map] at h2
      simp only [List.getElem_map, List.getElem_zipWith]
      rw [select_length]
      rw [List.length_drop, hS0.2 _ (List.getElem_mem _), (h _ (List.getElem_mem h2)).base.act]
      omega
    · intro l hl
      obtain ⟨s, hs, rfl⟩ := List.mem_map.mp hl
      rw [List.length_take, hS0.2 s hs]; omega
  obtain ⟨h1, h2⟩ := solver_neg hs hM hv0 ((newtonStep_iff curvature h hH hS0).mp hst0)
  obtain ⟨S, hu, hS, hp⟩ := C17_pack_unpack (n := n) (v := (solve (newtonMatrix curvature n Hess ds) r).map (-1 * ·))
    hN ha (by rw [List.length_map, h1, hrl])
  obtain ⟨v, Z, hp', hu', -, -, hz⟩ := C17_unpack_pack (n := n) hN hS ha
  rw [hp] at hp'
  obtain rfl := Option.some.inj hp'
  rw [hu] at hu'
  obtain rfl := Option.some.inj hu'
  refine ⟨S, hu, hS, ?_, fun i hi k hk hact => ?_, h1.trans hrl⟩
  · rw [newtonStep_iff curvature h hH hS, ← hr]
    unfold pack at hp
    split at hp
    · rw [Option.some.inj hp]
      exact h2
    · simp at hp
  · have := hz i hi (n + k) (by omega)
    rw [if_neg] at this
    · exact this
    · push Not
      refine ⟨by omega, ?_⟩
      unfold flag
      rw [List.getD_eq_getElem (ds.map _) _ (by simpa using hi), List.getElem_map, Nat.add_sub_cancel_left, hact]
      simp

theorem no_constraints {n : ℕ} {Hess : List (List K)} {ds : List (NewtonPoint K)} (h : ∀ d ∈ ds, d.Shape n 0)
    (hH : IsMat (ds.length * n) (ds.length * n) Hess) : newtonMatrix false n Hess ds = Hess ∧
      (ds.map fun d => activeLagrange d.toPointData).flatten ++ (ds.map fun d => select d.act d.cstr).flatten =
        (ds.map fun d => d.grad).flatten := by
  have ha : ∀ d ∈ ds, d.act = [] := fun d hd => List.length_eq_zero_iff.mp (h d hd).base.act
  constructor
  · have : blockDiag n (ds.map fun d => select d.act d.dH) = [] := by
      rw [← List.length_eq_zero_iff, blockDiag, blockDiagFrom_length, List.sum_eq_zero_iff]
      intro x hx
      obtain ⟨B, hB, rfl⟩ := List.mem_map.mp hx
      obtain ⟨d, hd, rfl⟩ := List.mem_map.mp hB
      rw [ha d hd]
      simp [select]
    unfold newtonMatrix
    rw [this]
    unfold bordered
    refine List.ext_getElem (by simp [hH.1]) fun i h1 h2 => ?_
    simp [column]
  · have e1 : (ds.map fun d => select d.act d.cstr).flatten = [] := by
      rw [List.flatten_eq_nil_iff]
      intro l hl
      obtain ⟨d, hd, rfl⟩ := List.mem_map.mp hl
      rw [ha d hd]
      simp [select]
    rw [e1, List.append_nil]
    congr 1
    refine List.map_congr_left fun d hd => ?_
    refine List.ext_getElem (activeLagrange_length _) fun v h1 h2 => ?_
    have hv : v < n := by rw [← (h d hd).base.grad]; exact h2
    have := activeLagrange_getD (h d hd).base hv
    rw [List.getD_eq_getElem _ _ h1, List.getD_eq_getElem _ _ h2] at this
    simpa using this

theorem newtonStep_zero {n : ℕ} {Hess : List (List K)} {ds : List (NewtonPoint K)} {S : List (List K)} :
    NewtonStep true n 0 Hess ds S ↔ NewtonStep false n 0 Hess ds S := by
  simp [NewtonStep, NewtonEquations]

/-- C60 for `HVN`: if the Newton equations of all points have a solution, then the step is a matrix that solves
them, and the step of the inactive multipliers is zero. -/
theorem C60_hvn {solve : List (List K) → List K → List K} (hs : SolverSound solve) {n p : ℕ}
    {Hess : List (List K)} {ds : List (NewtonPoint K)} (hN : 0 < ds.length) (h : ∀ d ∈ ds, d.Shape n p)
    (hH : IsMat (ds.length * n) (ds.length * n) Hess)
    (hex : ∃ S, IsMat ds.length (n + p) S ∧ NewtonStep true n p Hess ds S) :
    ∃ S, hvnStep solve n p Hess ds = some S ∧ IsMat ds.length (n + p) S ∧ NewtonStep true n p Hess ds S ∧
      ∀ i (hi : i < ds.length), ∀ k < p, ds[i].act.getD k false = false → at2 S i (n + k) = 0 := by
  unfold hvnStep
  rcases Nat.eq_zero_or_pos p with rfl | hp
  · simp only [newtonStep_zero] at hex ⊢
    obtain ⟨S, h1, h2, h3, h4, -⟩ := step_core false hs hN h hH hex
    rw [(no_constraints h hH).1, (no_constraints h hH).2] at h1
    refine ⟨S, ?_, h2, h3, h4⟩
    rw [if_pos trivial, ← h1, unpack, unpackFull, if_pos (by simp)]
  · obtain ⟨S, h1, h2, h3, h4, -⟩ := step_core true hs hN h hH hex
    refine ⟨S, ?_, h2, h3, h4⟩
    rw [if_neg (by omega), (hvnR_eq h).1, Option.bind_some, pack_R h, Option.bind_some, h1]

/-- C60 for `MMDNewton`, partial: the step solves the equations without the curvature of the constraints. -/
theorem C60_mmd_partial {solve : List (List K) → List K → List K} (hs : SolverSound solve) {n p : ℕ}
    {Hess : List (List K)} {ds : List (NewtonPoint K)} (hN : 0 < ds.length) (h : ∀ d ∈ ds, d.Shape n p)
    (hH : IsMat (ds.length * n) (ds.length * n) Hess)
    (hex : ∃ S, IsMat ds.length (n + p) S ∧ NewtonStep false n p Hess ds S) :
    ∃ S, mmdStep solve n p Hess ds = some S ∧ IsMat ds.length (n + p) S ∧ NewtonStep false n p Hess ds S ∧
      ∀ i (hi : i < ds.length), ∀ k < p, ds[i].act.getD k false = false → at2 S i (n + k) = 0 := by
  unfold mmdStep
  obtain ⟨S, h1, h2, h3, h4, -⟩ := step_core false hs hN h hH hex
  refine ⟨S, ?_, h2, h3, h4⟩
  rcases Nat.eq_zero_or_pos p with rfl | hp
  · rw [(no_constraints h hH).1, (no_constraints h hH).2] at h1
    rw [if_pos rfl, ← h1, unpack, unpackFull, if_pos (by simp)]
  · rw [if_neg (by omega), (hvnR_eq h).2, Option.bind_some, pack_R h, Option.bind_some, ← h1, unpack, List.map_map]
    rfl

/-- `MMDNewton` meets C60 if the curvature of the active constraints plays no role, for instance for linear
constraints: then its step solves the full Newton equations. -/
theorem C60_mmd_linear_partial {solve : List (List K) → List K → List K} (hs : SolverSound solve) {n p : ℕ}
    {Hess : List (List K)} {ds : List (NewtonPoint K)} (hN : 0 < ds.length) (h : ∀ d ∈ ds, d.Shape n p)
    (hH : IsMat (ds.length * n) (ds.length * n) Hess)
    (hlin : ∀ d ∈ ds, ∀ k < p, d.act.getD k false = true → d.dual.getD k 0 = 0 ∨
      ∀ v < n, ∀ w < n, ((d.ddH.getD k []).getD v []).getD w 0 = 0)
    (hex : ∃ S, IsMat ds.length (n + p) S ∧ NewtonStep true n p Hess ds S) :
    ∃ S, mmdStep solve n p Hess ds = some S ∧ IsMat ds.length (n + p) S ∧ NewtonStep true n p Hess ds S := by
  have hiff : ∀ S, NewtonStep true n p Hess ds S ↔ NewtonStep false n p Hess ds S := by
    intro S
    unfold NewtonStep NewtonEquations
    refine forall₂_congr fun i hi => and_congr (forall₂_congr fun v hv => ?_) Iff.rfl
    have : ∑ w ∈ Finset.range n, (∑ k ∈ Finset.range p, if ds[i].act.getD k false = true then
        ds[i].dual.getD k 0 * ((ds[i].ddH.getD k []).getD v []).getD w 0 else 0) * at2 S i w = 0 := by
      refine Finset.sum_eq_zero fun w hw => ?_
      rw [Finset.sum_eq_zero, zero_mul]
      intro k hk
      split
      · rename_i hact
        rcases hlin _ (List.getElem_mem hi) k (Finset.mem_range.mp hk) hact with h0 | h0
        · rw [h0, zero_mul]
        · rw [h0 v hv w (Finset.mem_range.mp hw), mul_zero]
      · rfl
    simp only [if_true]
    rw [this]
    simp
  simp only [hiff] at hex ⊢
  obtain ⟨S, h1, h2, h3, -⟩ := C60_mmd_partial hs hN h hH hex
  exact ⟨S, h1, h2, h3⟩

theorem blockDiag_single (n : ℕ) (B : List (List K)) : blockDiag n [B] = B := by
  simp [blockDiag, blockDiagFrom]

/-- C60 for a single point of `DpN`. -/
theorem dpnRow_spec {solve : List (List K) → List K → List K} (hs : SolverSound solve) {n p : ℕ}
    {Hess : List (List K)} {d : NewtonPoint K} (h : d.Shape n p) (hH : IsMat n n Hess)
    (hex : ∃ s : ℕ → K, NewtonEquations true n p d (fun v => ∑ w ∈ Finset.range n, at2 Hess v w * s w) s) :
    ∃ r, dpnRow solve n p Hess d = some r ∧ r.length = n + p ∧
      NewtonEquations true n p d (fun v => ∑ w ∈ Finset.range n, at2 Hess v w * r.getD w 0) (fun j => r.getD j 0) ∧
      ∀ k < p, d.act.getD k false = false → r.getD (n + k) 0 = 0 := by
  obtain ⟨s, hs0⟩ := hex
  have h1' : ∀ d' ∈ [d], NewtonPoint.Shape n p d' := by simpa using h
  have hH' : IsMat ([d].length * n) ([d].length * n) Hess := by simpa using hH
  have ht : ∀ (r : List K) (v : ℕ), hessTimes n 1 Hess [r] 0 v = ∑ w ∈ Finset.range n, at2 Hess v w * r.getD w 0 := by
    intro r v
    simp [hessTimes, at2]
  have hiff : ∀ r : List K, NewtonStep true n p Hess [d] [r] ↔
      NewtonEquations true n p d (fun v => ∑ w ∈ Finset.range n, at2 Hess v w * r.getD w 0) (fun j => r.getD j 0) := by
    intro r
    unfold NewtonStep
    have e1 : (hessTimes n [d].length Hess [r] 0) = fun v => ∑ w ∈ Finset.range n, at2 Hess v w * r.getD w 0 :=
      funext (ht r)
    have e2 : at2 [r] 0 = fun j => r.getD j 0 := by funext j; simp [at2]
    constructor
    · intro hx
      have := hx 0 (by simp)
      rwa [e1, e2] at this
    · intro hx i hi
      obtain rfl : i = 0 := by simpa using hi
      rw [e1, e2]
      exact hx
  have hr0 : ∀ j < n + p, ((List.range (n + p)).map s).getD j 0 = s j := by
    intro j hj
    rw [List.getD_eq_getElem _ _ (by simpa using hj), List.getElem_map, List.getElem_range]
  have hex : ∃ S, IsMat [d].length (n + p) S ∧ NewtonStep true n p Hess [d] S := by
    refine ⟨[(List.range (n + p)).map s], ⟨by simp, by simp⟩, (hiff _).mpr ?_⟩
    obtain ⟨ha, hb⟩ := hs0
    refine ⟨fun v hv => ?_, fun k hk hact => ?_⟩
    · rw [← ha v hv]
      congr 1
      · congr 1
        · exact Finset.sum_congr rfl fun w hw => by rw [hr0 w (by have := Finset.mem_range.mp hw; omega)]
        · simp only [if_true]
          exact Finset.sum_congr rfl fun w hw => by rw [hr0 w (by have := Finset.mem_range.mp hw; omega)]
      · exact Finset.sum_congr rfl fun k hk => by dsimp only; rw [hr0 (n + k) (by have := Finset.mem_range.mp hk; omega)]
    · rw [← hb k hk hact]
      exact Finset.sum_congr rfl fun w hw => by dsimp only; rw [hr0 w (by have := Finset.mem_range.mp hw; omega)]
  unfold dpnRow
  by_cases hp : p = 0
  · obtain ⟨S, h1, h2, h3, h4⟩ := C60_hvn hs (by simp) h1' hH' hex
    obtain ⟨r, rfl⟩ : ∃ r, S = [r] := List.length_eq_one_iff.mp h2.1
    refine ⟨r, ?_, h2.2 r (by simp), (hiff r).mp h3, fun k hk hact => by simpa [at2] using h4 0 (by simp) k hk hact⟩
    unfold hvnStep at h1
    rw [if_pos hp] at h1 ⊢
    simp only [List.map_cons, List.map_nil, List.flatten_cons, List.flatten_nil, List.append_nil, List.length_singleton,
      reshape, Nat.mod_one, slices, List.replicate_one, Nat.div_one] at h1
    simp only [ne_eq, not_true_eq_false, or_false, one_ne_zero, if_false, List.take_length, Option.some.injEq,
      List.cons.injEq, and_true] at h1
    have hrl := h2.2 r (by simp)
    rw [h1]
    have := scatter_replicate ([] : List Bool) ([] : List K) r
    rw [hrl, hp] at this
    simpa [scatter] using this
  · obtain ⟨S, h1, h2, h3, h4, h5⟩ := step_core true hs (by simp) h1' hH' hex
    obtain ⟨r, rfl⟩ : ∃ r, S = [r] := List.length_eq_one_iff.mp h2.1
    refine ⟨r, ?_, h2.2 r (by simp), (hiff r).mp h3, fun k hk hact => by simpa [at2] using h4 0 (by simp) k hk hact⟩
    rw [if_neg hp]
    simp only [List.map_cons, List.map_nil, List.flatten_cons, List.flatten_nil, List.append_nil, List.length_singleton,
      newtonMatrix, blockDiag_single, if_true, one_mul, List.sum_cons, List.sum_nil, add_zero] at h1 h5
    set v := (solve (bordered n (addRows Hess (activeHess n d)) (select d.act d.dH))
      (activeLagrange d.toPointData ++ select d.act d.cstr)) with hv
    have hvl : (v.map (-1 * ·)).length = n + d.act.count true := by rw [List.length_map, h5]
    generalize v.map (-1 * ·) = u at h1 hvl ⊢
    have hact := h.base.act
    unfold unpack unpackFull at h1
    rw [if_neg (by omega), if_neg (by simp)] at h1
    have htl : (u.take n).length = n := by rw [List.length_take, hvl]; omega
    have hre : reshape 1 (u.take (1 * n)) = some [u.take n] := by
      rw [one_mul]
      simp [reshape, Nat.mod_one, slices]
    have hdr : (u.drop n).take (d.act.count true) = u.drop n := by
      apply List.take_of_length_le
      rw [List.length_drop, hvl]; omega
    rw [hre, Option.bind_some] at h1
    have hc : (List.replicate n true ++ d.act).count true - n = d.act.count true := by
      rw [List.count_append, List.count_replicate_self]; omega
    simp only [List.map_cons, List.map_nil, slices, List.zip_cons_cons, List.zip_nil_right, List.mapM_cons,
      List.mapM_nil, one_mul, hc, hdr, List.take_append_drop] at h1
    rw [if_pos (by simp [hact])] at h1
    cases hsc : scatter (List.replicate n true ++ d.act) u with
    | none => rw [hsc] at h1; simp at h1
    | some x =>
      rw [hsc] at h1
      simp at h1
      rw [h1]

/-- C60 for `DpN`: the points are treated one by one. -/
theorem C60_dpn {solve : List (List K) → List K → List K} (hs : SolverSound solve) {n p : ℕ}
    {Hess : List (List (List K))} {ds : List (NewtonPoint K)} (hl : Hess.length = ds.length)
    (h : ∀ d ∈ ds, d.Shape n p) (hH : ∀ H ∈ Hess, IsMat n n H)
    (hex : ∀ i (hi : i < ds.length), ∃ s : ℕ → K, NewtonEquations true n p ds[i]
      (fun v => ∑ w ∈ Finset.range n, at2 (Hess.getD i []) v w * s w) s) :
    ∃ S, dpnStep solve n p Hess ds = some S ∧ IsMat ds.length (n + p) S ∧ ∀ i (hi : i < ds.length),
      NewtonEquations true n p ds[i] (fun v => ∑ w ∈ Finset.range n, at2 (Hess.getD i []) v w * at2 S i w) (at2 S i) ∧
      ∀ k < p, ds[i].act.getD k false = false → at2 S i (n + k) = 0 := by
  obtain ⟨S, h1, h2⟩ := mapM_exists (f := fun q : List (List K) × NewtonPoint K => dpnRow solve n p q.1 q.2)
    (l := Hess.zip ds) (P := fun q r => r.length = n + p ∧
      NewtonEquations true n p q.2 (fun v => ∑ w ∈ Finset.range n, at2 q.1 v w * r.getD w 0) (fun j => r.getD j 0) ∧
      ∀ k < p, q.2.act.getD k false = false → r.getD (n + k) 0 = 0) (by
    intro q hq
    obtain ⟨i, hi, rfl⟩ := List.mem_iff_getElem.mp hq
    rw [List.length_zip] at hi
    rw [List.getElem_zip]
    have := hex i (by omega)
    rw [List.getD_eq_getElem _ _ (by omega)] at this
    exact dpnRow_spec hs (h _ (List.getElem_mem _)) (hH _ (List.getElem_mem _)) this)
  have hlen : S.length = ds.length := by rw [← h2.length_eq, List.length_zip, hl, min_self]
  refine ⟨S, h1, ⟨hlen, fun r hr => ?_⟩, fun i hi => ?_⟩
  · obtain ⟨i, hi, rfl⟩ := List.mem_iff_getElem.mp hr
    exact ((List.forall₂_iff_get.mp h2).2 i (by rw [List.length_zip]; omega) hi).1
  · obtain ⟨-, e1, e2⟩ := (List.forall₂_iff_get.mp h2).2 i (by rw [List.length_zip]; omega) (by omega)
    simp only [List.get_eq_getElem, List.getElem_zip] at e1 e2
    have er : at2 S i = fun j => S[i].getD j 0 := by
      funext j
      unfold at2
      rw [List.getD_eq_getElem S _ (by omega)]
    rw [er, List.getD_eq_getElem Hess _ (by omega)]
    exact ⟨e1, e2⟩

end Step

/-! ### The merit function along the step -/

section Merit

/-- The data of one point along the step: the set of active constraints does not change, and the derivatives at zero
are those given by the chain rule. `hs v` is the derivative of entry `v` of the indicator's gradient. -/
structure AlongStep (n p : ℕ) (D : ℝ → NewtonPoint ℝ) (hs s : ℕ → ℝ) : Prop where
  act : ∀ t, (D t).act = (D 0).act
  grad : ∀ v < n, HasDerivAt (fun t => (D t).grad.getD v 0) (hs v) 0
  dual : ∀ k < p, HasDerivAt (fun t => (D t).dual.getD k 0) (s (n + k)) 0
  cstr : ∀ k < p, HasDerivAt (fun t => (D t).cstr.getD k 0)
    (∑ w ∈ Finset.range n, ((D 0).dH.getD k []).getD w 0 * s w) 0
  dH : ∀ k < p, ∀ v < n, HasDerivAt (fun t => ((D t).dH.getD k []).getD v 0)
    (∑ w ∈ Finset.range n, (((D 0).ddH.getD k []).getD v []).getD w 0 * s w) 0

/-- The Frobenius norm of a matrix with `N` rows of length `D`. -/
noncomputable def frobenius (N D : ℕ) (R : List (List ℝ)) : ℝ :=
  √(∑ i ∈ Finset.range N, ∑ j ∈ Finset.range D, at2 R i j ^ 2)

/-- Entry `j` of the residual at a point. -/
def residualEntry (n p : ℕ) (d : NewtonPoint ℝ) (j : ℕ) : ℝ :=
  if j < n then d.grad.getD j 0 + ∑ k ∈ Finset.range p,
    (if d.act.getD k false = true then d.dual.getD k 0 * (d.dH.getD k []).getD j 0 else 0)
  else if d.act.getD (j - n) false = true then d.cstr.getD (j - n) 0 else 0

theorem residualEntry_deriv {n p : ℕ} {D : ℝ → NewtonPoint ℝ} {hs s : ℕ → ℝ} (hD : AlongStep n p D hs s)
    (hN : NewtonEquations true n p (D 0) hs s) {j : ℕ} (hj : j < n + p) :
    HasDerivAt (fun t => residualEntry n p (D t) j) (-residualEntry n p (D 0) j) 0 := by
  unfold residualEntry
  by_cases hjn : j < n
  · simp only [hjn, if_true]
    rw [← hN.1 j hjn]
    have hk : ∀ k ∈ Finset.range p, HasDerivAt
        (fun t => if (D t).act.getD k false = true then (D t).dual.getD k 0 * ((D t).dH.getD k []).getD j 0 else 0)
        (if (D 0).act.getD k false = true then s (n + k) * ((D 0).dH.getD k []).getD j 0 + (D 0).dual.getD k 0 *
          ∑ w ∈ Finset.range n, (((D 0).ddH.getD k []).getD j []).getD w 0 * s w else 0) 0 := by
      intro k hk
      have hk := Finset.mem_range.mp hk
      simp only [hD.act]
      split
      · exact (hD.dual k hk).mul (hD.dH k hk j hjn)
      · exact hasDerivAt_const _ _
    have h1 := HasDerivAt.fun_sum hk
    have h2 := (hD.grad j hjn).add h1
    refine h2.congr_deriv ?_
    simp only [if_true]
    rw [add_assoc]
    congr 1
    have : ∑ w ∈ Finset.range n, (∑ k ∈ Finset.range p, if (D 0).act.getD k false = true then
        (D 0).dual.getD k 0 * (((D 0).ddH.getD k []).getD j []).getD w 0 else 0) * s w =
        ∑ k ∈ Finset.range p, ∑ w ∈ Finset.range n, (if (D 0).act.getD k false = true then
        (D 0).dual.getD k 0 * (((D 0).ddH.getD k []).getD j []).getD w 0 else 0) * s w := by
      rw [Finset.sum_comm]
      exact Finset.sum_congr rfl fun w _ => Finset.sum_mul _ _ _
    rw [this, ← Finset.sum_add_distrib]
    refine Finset.sum_congr rfl fun k _ => ?_
    split
    · rw [Finset.mul_sum, add_comm, mul_comm (s (n + k))]
      congr 1
      exact Finset.sum_congr rfl fun w _ => by ring
    · simp
  · simp only [hjn, if_false, hD.act]
    split
    · rename_i hact
      rw [← hN.2 (j - n) (by omega) hact]
      exact hD.cstr (j - n) (by omega)
    · simpa using hasDerivAt_const (0 : ℝ) (0 : ℝ)

theorem sqrt_descent {F : ℝ → ℝ} {F0 c1 : ℝ} (hF : HasDerivAt F (-2 * F0) 0) (h0 : F 0 = F0) (hp : 0 < F0)
    (hc : c1 < 1) : ∃ ε > 0, ∀ t, 0 < t → t < ε → √(F t) ≤ (1 - c1 * t) * √F0 := by
  have hs : 0 < √F0 := Real.sqrt_pos.mpr hp
  have hd : HasDerivAt (fun t => √(F t)) (-√F0) 0 := by
    have := hF.sqrt (by rw [h0]; exact hp.ne')
    refine this.congr_deriv ?_
    rw [h0, div_eq_iff (by positivity)]
    nlinarith [Real.mul_self_sqrt hp.le]
  rw [hasDerivAt_iff_tendsto_slope_zero] at hd
  have hev := hd.eventually_lt_const (u := -c1 * √F0) (by nlinarith [mul_pos (sub_pos.2 hc) hs])
  rw [eventually_nhdsWithin_iff, Metric.eventually_nhds_iff] at hev
  obtain ⟨ε, hε, h⟩ := hev
  refine ⟨ε, hε, fun t ht0 ht => ?_⟩
  have := h (y := t) (by rw [Real.dist_eq, sub_zero, abs_of_pos ht0]; exact ht) (by simpa using ht0.ne')
  rw [zero_add, h0, smul_eq_mul, inv_mul_lt_iff₀ ht0] at this
  linarith

/-- C60, consequence for the line search: if the step solves the Newton equations of all points, then the residual
of every point and the residual of all points together satisfy the condition of the line searches for every
sufficiently small positive step size, if `c1 < 1`. -/
theorem C60_armijo {N n p : ℕ} {D : ℝ → List (NewtonPoint ℝ)} (hl : ∀ t, (D t).length = N)
    (h : ∀ t, ∀ d ∈ D t, d.Shape n p) {hs s : ℕ → ℕ → ℝ}
    (hD : ∀ i (hi : i < N), AlongStep n p (fun t => (D t)[i]'(by rw [hl]; exact hi)) (hs i) (s i))
    (hN : ∀ i (hi : i < N), NewtonEquations true n p ((D 0)[i]'(by rw [hl]; exact hi)) (hs i) (s i))
    {c1 : ℝ} (hc : c1 < 1) :
    ∃ R : ℝ → List (List ℝ), (∀ t, hvnR true ((D t).map NewtonPoint.toPointData) = some (R t)) ∧
      ∃ ε > 0, ∀ t, 0 < t → t < ε → Accept c1 (frobenius N (n + p) (R 0)) t (frobenius N (n + p) (R t)) ∧
        ∀ i < N, Accept c1 (frobenius 1 (n + p) [(R 0).getD i []]) t (frobenius 1 (n + p) [(R t).getD i []]) := by
  have hC := fun t => C35_constrained n p ((D t).map NewtonPoint.toPointData) (by
    intro d hd
    obtain ⟨d', hd', rfl⟩ := List.mem_map.mp hd
    exact (h t d' hd').base)
  choose R hR _ _ _ hM hent using hC
  refine ⟨R, hR, ?_⟩
  have hentry : ∀ t i (hi : i < N) j, j < n + p →
      at2 (R t) i j = residualEntry n p ((D t)[i]'(by rw [hl]; exact hi)) j := by
    intro t i hi j hj
    obtain ⟨e1, e2, -⟩ := hent t i (by rw [List.length_map, hl]; exact hi)
    simp only [List.getElem_map] at e1 e2
    unfold residualEntry
    by_cases hjn : j < n
    · rw [if_pos hjn]; exact e1 j hjn
    · rw [if_neg hjn]
      obtain ⟨k, rfl⟩ := Nat.exists_eq_add_of_le (not_lt.mp hjn)
      rw [Nat.add_sub_cancel_left]
      exact e2 k (by omega)
  -- the derivative of the squared norm of one row
  have hrow : ∀ i < N, HasDerivAt (fun t => ∑ j ∈ Finset.range (n + p), at2 (R t) i j ^ 2)
      (-2 * ∑ j ∈ Finset.range (n + p), at2 (R 0) i j ^ 2) 0 := by
    intro i hi
    rw [Finset.mul_sum]
    refine HasDerivAt.fun_sum fun j hj => ?_
    have hj := Finset.mem_range.mp hj
    have := residualEntry_deriv (hD i hi) (hN i hi) hj
    have e : (fun t => at2 (R t) i j) = fun t => residualEntry n p ((D t)[i]'(by rw [hl]; exact hi)) j :=
      funext fun t => hentry t i hi j hj
    rw [← e, ← hentry 0 i hi j hj] at this
    refine (this.fun_pow 2).congr_deriv ?_
    simp only [Nat.cast_ofNat]
    ring
  have hall : HasDerivAt (fun t => ∑ i ∈ Finset.range N, ∑ j ∈ Finset.range (n + p), at2 (R t) i j ^ 2)
      (-2 * ∑ i ∈ Finset.range N, ∑ j ∈ Finset.range (n + p), at2 (R 0) i j ^ 2) 0 := by
    rw [Finset.mul_sum]
    exact HasDerivAt.fun_sum fun i hi => hrow i (Finset.mem_range.mp hi)
  have key : ∀ F : ℝ → ℝ, HasDerivAt F (-2 * F 0) 0 → (∀ t, 0 ≤ F t) →
      ∃ ε > 0, ∀ t, 0 < t → t < ε → Accept c1 (√(F 0)) t (√(F t)) := by
    intro F hF hF0
    rcases (hF0 0).lt_or_eq with hp | hz
    · obtain ⟨ε, hε, hh⟩ := sqrt_descent hF rfl hp hc
      exact ⟨ε, hε, fun t h1 h2 => Or.inl (hh t h1 h2)⟩
    · refine ⟨1, one_pos, fun t _ _ => Or.inr ?_⟩
      rw [← hz, Real.sqrt_zero]
      unfold IsClose
      rw [zero_sub, abs_neg, abs_of_pos (by positivity)]
      norm_num
  obtain ⟨ε0, hε0, h0⟩ := key _ hall fun t => Finset.sum_nonneg fun i _ => Finset.sum_nonneg fun j _ => sq_nonneg _
  have hi' : ∀ i, ∃ ε > 0, i < N → ∀ t, 0 < t → t < ε →
      Accept c1 (frobenius 1 (n + p) [(R 0).getD i []]) t (frobenius 1 (n + p) [(R t).getD i []]) := by
    intro i
    by_cases hi : i < N
    · obtain ⟨ε, hε, hh⟩ := key _ (hrow i hi) fun t => Finset.sum_nonneg fun j _ => sq_nonneg _
      refine ⟨ε, hε, fun _ t h1 h2 => ?_⟩
      have := hh t h1 h2
      unfold frobenius
      rw [Finset.sum_range_one, Finset.sum_range_one]
      exact this
    · exact ⟨1, one_pos, fun hh => absurd hh hi⟩
  choose ε hε hh using hi'
  refine ⟨(Finset.range N).fold min ε0 ε, ?_, fun t h1 h2 => ?_⟩
  · rw [gt_iff_lt, Finset.lt_fold_min]
    exact ⟨hε0, fun i _ => hε i⟩
  · rw [Finset.lt_fold_min] at h2
    exact ⟨h0 t h1 h2.1, fun i hi => hh i hi t h1 (h2.2 i (Finset.mem_range.mpr hi))⟩

end Merit

/-! ### `MMDNewton` and examples -/

section Mmd

/-- One point with one variable `x = 1 - t/2`, the multiplier `-8 - a t`, the constant gradient 20 of the indicator
and the constraint `x ^ 2 = 0`. -/
noncomputable def curvedPoint (a t : ℝ) : NewtonPoint ℝ where
  grad := [20]
  dual := [-8 - a * t]
  act := [true]
  cstr := [(1 - t / 2) ^ 2]
  dH := [[2 * (1 - t / 2)]]
  ddH := [[[2]]]

theorem curvedPoint_shape (a t : ℝ) : (curvedPoint a t).Shape 1 1 :=
  ⟨⟨rfl, rfl, rfl, rfl, rfl⟩, by simp [curvedPoint], rfl⟩

theorem curvedPoint_along (a : ℝ) : AlongStep 1 1 (curvedPoint a) (fun _ => 0) (at2 [[-1 / 2, -a]] 0) := by
  have hx : HasDerivAt (fun t : ℝ => 1 - t / 2) (-1 / 2) 0 := by
    have := ((hasDerivAt_id (0 : ℝ)).div_const 2).const_sub 1
    exact this.congr_deriv (by norm_num)
  refine ⟨fun _ => rfl, fun v hv => ?_, fun k hk => ?_, fun k hk => ?_, fun k hk v hv => ?_⟩
  · exact hasDerivAt_const (0 : ℝ) (([20] : List ℝ).getD v 0)
  · obtain rfl : k = 0 := by omega
    have := ((hasDerivAt_id (0 : ℝ)).const_mul a).const_sub (-8)
    exact this.congr_deriv (by simp [at2])
  · obtain rfl : k = 0 := by omega
    exact (hx.fun_pow 2).congr_deriv (by simp [at2, curvedPoint])
  · obtain rfl : k = 0 := by omega
    obtain rfl : v = 0 := by omega
    exact (hx.const_mul 2).congr_deriv (by simp [at2, curvedPoint])

theorem curvedPoint_newton (a : ℝ) (S : List (List ℝ)) (b : Bool) :
    NewtonStep b 1 1 [[0]] [curvedPoint a 0] S ↔
      (if b then -16 * at2 S 0 0 else 0) + 2 * at2 S 0 1 = -4 ∧ 2 * at2 S 0 0 = -1 := by
  unfold NewtonStep
  constructor
  · intro hx
    have := hx 0 (by simp)
    simp only [NewtonEquations, curvedPoint, hessTimes, Finset.range_one, Finset.sum_singleton] at this
    obtain ⟨h1, h2⟩ := this
    have h1 := h1 0 (by simp)
    have h2 := h2 0 (by simp) (by simp)
    cases b <;> simp [at2] at h1 h2 ⊢ <;> constructor <;> linarith
  · rintro ⟨h1, h2⟩ i hi
    obtain rfl : i = 0 := by simpa using hi
    simp only [NewtonEquations, curvedPoint, hessTimes, Finset.range_one, Finset.sum_singleton]
    refine ⟨fun v hv => ?_, fun k hk _ => ?_⟩
    · obtain rfl : v = 0 := by omega
      cases b <;> simp [at2] at h1 h2 ⊢ <;> linarith
    · obtain rfl : k = 0 := by omega
      simp [at2] at h1 h2 ⊢
      linarith

theorem curvedPoint_norm (t : ℝ) : ∃ R, mmdR true [(curvedPoint 2 t).toPointData] = some R ∧
    frobenius 1 2 R = √((4 + 4 * t + 2 * t ^ 2) ^ 2 + (1 - t / 2) ^ 4) := by
  have hsh : ∀ d ∈ [curvedPoint 2 t], d.Shape 1 1 := by simpa using curvedPoint_shape 2 t
  refine ⟨_, (hvnR_eq hsh).2, ?_⟩
  unfold frobenius
  congr 1
  simp only [Finset.sum_range_one, Finset.sum_range_succ, Finset.range_zero, Finset.sum_empty]
  simp [at2, activeLagrange, lagrangeGrad, curvedPoint, select, zeroOut]
  ring

/-- C60 is violated by `MMDNewton`, which leaves out the curvature of the constraints: the Newton equations at
`curvedPoint 2 0` have a solution, the step is another one, `(-1/2, -2)`, and along this step the norm of the residual
at every positive step size is larger than at the start, so the condition of the line search never holds. -/
theorem C60_violated_mmd :
    (∃ S, IsMat 1 (1 + 1) S ∧ NewtonStep true 1 1 [[0]] [curvedPoint 2 0] S) ∧
    (∀ solve : List (List ℝ) → List ℝ → List ℝ, SolverSound solve →
      mmdStep solve 1 1 [[0]] [curvedPoint 2 0] = some [[-1 / 2, -2]]) ∧
    ¬ NewtonStep true 1 1 [[0]] [curvedPoint 2 0] [[-1 / 2, -2]] ∧
    AlongStep 1 1 (curvedPoint 2) (fun _ => 0) (at2 [[-1 / 2, -2]] 0) ∧
    ∀ t, 0 < t → ∃ R0 R, mmdR true [(curvedPoint 2 0).toPointData] = some R0 ∧
      mmdR true [(curvedPoint 2 t).toPointData] = some R ∧ frobenius 1 2 R0 < frobenius 1 2 R ∧
      ¬ Accept (1 / 10 ^ 6) (frobenius 1 2 R0) t (frobenius 1 2 R) := by
  refine ⟨⟨[[-1 / 2, -6]], ⟨rfl, by simp⟩, (curvedPoint_newton _ _ _).mpr (by simp [at2]; norm_num)⟩,
    fun solve hsol => ?_, ?_, curvedPoint_along 2, fun t ht => ?_⟩
  · have hsh : ∀ d ∈ [curvedPoint 2 0], d.Shape 1 1 := by simpa using curvedPoint_shape 2 0
    obtain ⟨S, h1, h2, h3, -⟩ := C60_mmd_partial hsol (Hess := [[0]]) (ds := [curvedPoint 2 0]) (by simp) hsh
      ⟨rfl, by simp⟩ ⟨[[-1 / 2, -2]], ⟨rfl, by simp⟩, (curvedPoint_newton _ _ _).mpr (by simp [at2]; norm_num)⟩
    rw [h1]
    obtain ⟨r, rfl⟩ : ∃ r, S = [r] := List.length_eq_one_iff.mp h2.1
    have hr := h2.2 r (by simp)
    match r, hr with
    | [a, b], _ =>
      have := (curvedPoint_newton _ _ _).mp h3
      simp [at2] at this
      have ha : a = -1 / 2 := by linarith [this.2]
      have hb : b = -2 := by linarith [this.1]
      rw [ha, hb]
  · rw [curvedPoint_newton]
    simp [at2]
    norm_num
  · obtain ⟨R0, h1, h2⟩ := curvedPoint_norm 0
    obtain ⟨R, h3, h4⟩ := curvedPoint_norm t
    have h2 : frobenius 1 2 R0 = √17 := by rw [h2]; norm_num
    have hlt : frobenius 1 2 R0 < frobenius 1 2 R := by
      rw [h2, h4]
      apply Real.sqrt_lt_sqrt (by norm_num)
      nlinarith [sq_nonneg (1 - t / 2), mul_pos ht ht, mul_pos ht (mul_pos ht ht), sq_nonneg ((1 - t / 2) ^ 2 - 1),
        mul_pos (mul_pos ht ht) (mul_pos ht ht)]
    refine ⟨R0, R, h1, h3, hlt, ?_⟩
    have h4 : 1 < √17 := by
      rw [Real.lt_sqrt (by norm_num)]; norm_num
    rintro (h | h)
    · rw [h2] at h hlt
      nlinarith
    · rw [h2] at h
      unfold IsClose at h
      rw [abs_of_pos (by norm_num; linarith), abs_of_pos (by positivity)] at h
      norm_num at h
      linarith

end Mmd

/-! ### Examples -/

/-- There are solvers with the assumed contract. -/
theorem exists_solver (K : Type*) [CommRing K] : ∃ solve : List (List K) → List K → List K, SolverSound solve := by
  classical
  refine ⟨fun A b => if h : ∃ x, SolvesSystem A b x then h.choose else b, fun A b _ h => ?_⟩
  dsimp only
  rw [dif_pos h]
  exact h.choose_spec

/-- Two points with two variables each and two constraints, one of them inactive at the first point. -/
def examplePoints : List (NewtonPoint ℤ) :=
  [{ grad := [2, 1], dual := [1, 3], act := [true, false], cstr := [2, 5], dH := [[1, 1], [0, 1]],
     ddH := [[[1, 0], [0, 1]], [[0, 1], [1, 0]]] },
   { grad := [0, -1], dual := [2, -1], act := [true, true], cstr := [1, 1], dH := [[1, 0], [1, 1]],
     ddH := [[[1, 0], [0, 0]], [[0, 0], [0, 1]]] }]

/-- The same points with linear constraints. -/
def linearPoints : List (NewtonPoint ℤ) :=
  [{ grad := [1, 0], dual := [1, 3], act := [true, false], cstr := [2, 5], dH := [[1, 1], [0, 1]],
     ddH := [[[0, 0], [0, 0]], [[0, 0], [0, 0]]] },
   { grad := [-2, -1], dual := [2, -1], act := [true, true], cstr := [1, 1], dH := [[1, 0], [1, 1]],
     ddH := [[[0, 0], [0, 0]], [[0, 0], [0, 0]]] }]

def exampleHess : List (List ℤ) := [[2, 0, 1, 0], [0, 2, 0, 0], [1, 0, 2, 0], [0, 0, 0, 3]]

/-- The Newton step of the examples. -/
def exampleStep : List (List ℤ) := [[-1, -1, 1, 0], [-1, 0, 2, 2]]

theorem examplePoints_shape : ∀ d ∈ examplePoints, d.Shape 2 2 := by
  intro d hd
  simp only [examplePoints, List.mem_cons, List.not_mem_nil, or_false] at hd
  rcases hd with rfl | rfl
  · exact ⟨⟨rfl, rfl, rfl, rfl, rfl⟩, by simp, rfl⟩
  · exact ⟨⟨rfl, rfl, rfl, rfl, rfl⟩, by simp, rfl⟩

theorem linearPoints_shape : ∀ d ∈ linearPoints, d.Shape 2 2 := by
  intro d hd
  simp only [linearPoints, List.mem_cons, List.not_mem_nil, or_false] at hd
  rcases hd with rfl | rfl
  · exact ⟨⟨rfl, rfl, rfl, rfl, rfl⟩, by simp, rfl⟩
  · exact ⟨⟨rfl, rfl, rfl, rfl, rfl⟩, by simp, rfl⟩

theorem exampleStep_spec : NewtonStep true 2 2 exampleHess examplePoints exampleStep ∧
    NewtonStep true 2 2 exampleHess linearPoints exampleStep ∧
    NewtonStep false 2 2 exampleHess linearPoints exampleStep := by
  unfold NewtonStep NewtonEquations hessTimes at2
  decide +kernel

example : ∃ solve : List (List ℤ) → List ℤ → List ℤ, SolverSound solve ∧
    ∃ S, hvnStep solve 2 2 exampleHess examplePoints = some S ∧ IsMat 2 4 S ∧
      NewtonStep true 2 2 exampleHess examplePoints S := by
  obtain ⟨solve, hs⟩ := exists_solver ℤ
  obtain ⟨S, h1, h2, h3, -⟩ := C60_hvn hs (Hess := exampleHess) (by decide) examplePoints_shape
    ⟨rfl, by decide⟩ ⟨exampleStep, ⟨rfl, by decide⟩, exampleStep_spec.1⟩
  exact ⟨solve, hs, S, h1, h2, h3⟩

example : ∃ solve : List (List ℤ) → List ℤ → List ℤ, SolverSound solve ∧
    (∃ S, mmdStep solve 2 2 exampleHess linearPoints = some S ∧ IsMat 2 4 S ∧
      NewtonStep false 2 2 exampleHess linearPoints S) ∧
    ∃ S, mmdStep solve 2 2 exampleHess linearPoints = some S ∧ IsMat 2 4 S ∧
      NewtonStep true 2 2 exampleHess linearPoints S := by
  obtain ⟨solve, hs⟩ := exists_solver ℤ
  obtain ⟨S, h1, h2, h3, -⟩ := C60_mmd_partial hs (Hess := exampleHess) (by decide) linearPoints_shape
    ⟨rfl, by decide⟩ ⟨exampleStep, ⟨rfl, by decide⟩, exampleStep_spec.2.2⟩
  obtain ⟨S', h1', h2', h3'⟩ := C60_mmd_linear_partial hs (Hess := exampleHess) (by decide) linearPoints_shape
    ⟨rfl, by decide⟩ (by decide +kernel) ⟨exampleStep, ⟨rfl, by decide⟩, exampleStep_spec.2.1⟩
  exact ⟨solve, hs, ⟨S, h1, h2, h3⟩, S', h1', h2', h3'⟩

example : ∃ solve : List (List ℤ) → List ℤ → List ℤ, SolverSound solve ∧
    ∃ S, dpnStep solve 2 2 [[[3, 0], [0, 2]], [[3, 0], [0, 3]]] examplePoints = some S ∧ IsMat 2 4 S := by
  obtain ⟨solve, hs⟩ := exists_solver ℤ
  obtain ⟨S, h1, h2, -⟩ := C60_dpn hs (Hess := [[[3, 0], [0, 2]], [[3, 0], [0, 3]]]) (ds := examplePoints) rfl
    examplePoints_shape (by intro H hH; simp at hH; rcases hH with rfl | rfl <;> exact ⟨rfl, by simp⟩) (by
      intro i hi
      refine ⟨at2 exampleStep i, ?_⟩
      revert i
      unfold NewtonEquations at2
      decide +kernel)
  exact ⟨solve, hs, S, h1, h2⟩

/-- The full Newton step at `curvedPoint 6 0` is `(-1/2, -6)`. -/
example : ∃ R : ℝ → List (List ℝ), (∀ t, hvnR true [(curvedPoint 6 t).toPointData] = some (R t)) ∧
    ∃ ε > 0, ∀ t, 0 < t → t < ε → Accept (1 / 10 ^ 5) (frobenius 1 2 (R 0)) t (frobenius 1 2 (R t)) := by
  obtain ⟨R, h1, ε, h2, h3⟩ := C60_armijo (N := 1) (n := 1) (p := 1) (D := fun t => [curvedPoint 6 t])
    (hs := fun _ _ => 0) (s := fun _ => at2 [[-1 / 2, -6]] 0) (c1 := 1 / 10 ^ 5) (fun _ => rfl)
    (fun t d hd => by
      obtain rfl := List.mem_singleton.mp hd
      exact curvedPoint_shape 6 t)
    (fun i hi => by
      obtain rfl : i = 0 := by omega
      exact curvedPoint_along 6)
    (fun i hi => by
      obtain rfl : i = 0 := by omega
      have := (curvedPoint_newton 6 [[-1 / 2, -6]] true).mpr (by simp [at2]; norm_num) 0 (by simp)
      have e : hessTimes 1 [curvedPoint 6 0].length [[0]] [[-1 / 2, -6]] 0 = fun _ : ℕ => (0 : ℝ) := by
        funext v
        cases v <;> simp [hessTimes, at2]
      rw [e] at this
      exact this)
    (by norm_num)
  exact ⟨R, h1, ε, h2, fun t ht hte => (h3 t ht hte).1⟩

end Verif.Props
