import Verif.Opt.KKTLemmas
import Verif.Opt.SaveLoad
import Verif.Props.State
import Mathlib.Data.List.GetD

/-!
# KKT test and persistence of the state (C27, C28)
-/

namespace Verif.Props

open Verif.Opt

variable {K : Type*} [Field K] [LinearOrder K]

/-! ### C27

Specification: approximate first-order conditions with explicit multipliers. -/

/-- At a point with objective Jacobian `J`, constraint values `h`, `g` and constraint Jacobians `dh`, `dg`
the constraints hold up to `tolF`, and there are convex weights `w`, free multipliers `mu` and nonnegative
multipliers `nu` that vanish for the inequalities below `-tolA`, such that all entries of the stationarity
residual are at most `tolS`. -/
def ApproxKKT (nVar nObj nEq nIeq : ℕ) (J : ℕ → ℕ → K) (h g : ℕ → K) (dh dg : ℕ → ℕ → K) (tolS tolF tolA : K) : Prop :=
  (∀ k < nEq, |h k| ≤ tolF) ∧ (∀ k < nIeq, g k ≤ tolF) ∧
  ∃ w mu nu : ℕ → K, (∀ j < nObj, 0 ≤ w j) ∧ ∑ j ∈ Finset.range nObj, w j = 1 ∧
    (∀ k < nIeq, 0 ≤ nu k) ∧ (∀ k < nIeq, g k < -tolA → nu k = 0) ∧
    ∀ v < nVar, |∑ j ∈ Finset.range nObj, w j * J j v + ∑ k ∈ Finset.range nEq, mu k * dh k v +
      ∑ k ∈ Finset.range nIeq, nu k * dg k v| ≤ tolS

/-- Assumption on the solver: what it reports as solved is an optimal solution, and it solves every program
that has one. -/
def SolvesLP (solver : LP K → LPResult K) : Prop :=
  ∀ lp, ((solver lp).success = true → lp.Optimal (solver lp).x) ∧
    ((∃ x, lp.Optimal x) → (solver lp).success = true)

/-- There are such solvers. -/
theorem exists_solvesLP : ∃ solver : LP K → LPResult K, SolvesLP solver := by
  classical
  refine ⟨fun lp => if h : ∃ x, lp.Optimal x then ⟨true, h.choose⟩ else ⟨false, []⟩, fun lp => ⟨fun h => ?_, fun h => ?_⟩⟩
  · by_cases hx : ∃ x, lp.Optimal x
    · simp only [dif_pos hx]; exact hx.choose_spec
    · simp only [dif_neg hx, Bool.false_eq_true] at h
  · simp only [dif_pos h]

theorem kktRow_iff [IsStrictOrderedRing K] {p : Funcs K} {solver : LP K → LPResult K} (hs : SolvesLP solver)
    {tolS tolF tolA : K} {J c D : List K} (hc : c.length = p.nEq + p.nIeq) :
    p.kktRow solver tolS tolF tolA J c D = true ↔
      ApproxKKT p.nVar (J.length / p.nVar) p.nEq p.nIeq (fun j v => J.getD (j * p.nVar + v) 0)
        (fun k => c.getD k 0) (fun k => c.getD (p.nEq + k) 0) (fun k v => D.getD (k * p.nVar + v) 0)
        (fun k v => D.getD ((p.nEq + k) * p.nVar + v) 0) tolS tolF tolA := by
  set nObj := J.length / p.nVar with hnObj
  set G := c.drop p.nEq with hG
  set act := p.activeIeq G tolA with hact
  have hGl : G.length = p.nIeq := by rw [hG, List.length_drop, hc]; omega
  have hGd : ∀ k, G.getD k 0 = c.getD (p.nEq + k) 0 := by
    intro k; rw [hG, List.getD_eq_getElem?_getD, List.getD_eq_getElem?_getD, List.getElem?_drop]
  have hmem : ∀ k, k ∈ act ↔ k < p.nIeq ∧ -tolA ≤ c.getD (p.nEq + k) 0 := by
    intro k
    rw [hact, Funcs.activeIeq, List.mem_filter, List.mem_range, decide_eq_true_eq, hGd]
  have hnd : act.Nodup := List.nodup_range.filter _
  have hres : ∀ w mu nu : ℕ → K, (∀ k, k ∉ act → nu k = 0) → ∀ v,
      p.residual J D nObj act w mu nu v =
      ∑ j ∈ Finset.range nObj, w j * J.getD (j * p.nVar + v) 0 +
        ∑ k ∈ Finset.range p.nEq, mu k * D.getD (k * p.nVar + v) 0 +
        ∑ k ∈ Finset.range p.nIeq, nu k * D.getD ((p.nEq + k) * p.nVar + v) 0 := by
    intro w mu nu hz v
    unfold Funcs.residual
    congr 1
    · congr 1 <;> exact Finset.sum_congr rfl fun _ _ => mul_comm _ _
    · rw [hact, Funcs.activeIeq, sum_map_filter_range]
      refine Finset.sum_congr rfl fun k hk => ?_
      split
      · exact mul_comm _ _
      · rename_i hn
        rw [hz k, zero_mul]
        intro hk'
        rw [hact, Funcs.activeIeq, List.mem_filter] at hk'
        exact hn hk'.2
  have hfeas : (c.take p.nEq).any (fun v => decide (tolF < |v|)) = false ∧ G.any (fun v => decide (tolF < v)) = false ↔
      (∀ k < p.nEq, |c.getD k 0| ≤ tolF) ∧ (∀ k < p.nIeq, c.getD (p.nEq + k) 0 ≤ tolF) := by
    simp only [List.any_eq_false, decide_eq_true_eq, not_lt]
    refine and_congr ⟨fun h k hk => ?_, fun h v hv => ?_⟩ ⟨fun h k hk => ?_, fun h v hv => ?_⟩
    · refine h _ ?_
      have hk' : k < c.length := by omega
      rw [List.getD_eq_getElem _ _ hk', List.mem_take_iff_getElem]
      exact ⟨k, by omega, rfl⟩
    · obtain ⟨k, hk, rfl⟩ := List.mem_take_iff_getElem.mp hv
      have := h k (by omega)
      rwa [List.getD_eq_getElem _ _ (by omega)] at this
    · rw [← hGd, List.getD_eq_getElem _ _ (by omega)]
      exact h _ (List.getElem_mem _)
    · obtain ⟨k, hk, rfl⟩ := List.mem_iff_getElem.mp hv
      have := h k (by omega)
      rwa [← hGd, List.getD_eq_getElem _ _ hk] at this
  unfold Funcs.kktRow ApproxKKT
  dsimp only
  rw [← hG, ← hact]
  rcases hany : (c.take p.nEq).any (fun v => decide (tolF < |v|)) || G.any (fun v => decide (tolF < v)) with _ | _
  · rw [Bool.or_eq_false_iff, hfeas] at hany
    obtain ⟨hf1, hf2⟩ := hany
    simp only [Bool.false_eq_true, if_false, Bool.and_eq_true]
    obtain ⟨hopt, hsuc⟩ := hs (p.kktLP J D act)
    constructor
    · rintro ⟨h1, h2⟩
      refine ⟨hf1, hf2, ?_⟩
      obtain ⟨hfe, _⟩ := hopt h1
      obtain ⟨w, mu, nu, t, hx, hz⟩ := Funcs.exists_multipliers (p := p) (nObj := nObj) hnd
        (by rw [hfe.length]; simp [Funcs.kktLP, hnObj])
      rw [hx] at hfe h2
      obtain ⟨f1, f2, f3, f4, f5⟩ := (Funcs.feasible_multipliers J D act w mu nu t).mp hfe
      have h2 : t ≤ tolS := by
        simpa [Funcs.multipliers] using h2
      refine ⟨w, mu, nu, f3, f2, fun k hk => ?_, fun k hk hg => ?_, fun v hv => ?_⟩
      · by_cases hk' : k ∈ act
        · exact f4 k hk'
        · rw [hz k hk']
      · refine hz k fun hk' => ?_
        exact absurd ((hmem k).mp hk').2 (not_le.mpr hg)
      · rw [← hres w mu nu hz v]
        obtain ⟨a, b⟩ := f1 v hv
        exact (abs_le.mpr ⟨by linarith, a⟩).trans h2
    · rintro ⟨_, _, w, mu, nu, k1, k2, k3, k4, k5⟩
      have hz : ∀ k, k ∉ act → (fun k => if k < p.nIeq then nu k else 0) k = 0 := by
        intro k hk
        simp only
        split
        · rename_i hlt
          refine k4 k hlt ?_
          by_contra hcon
          exact hk ((hmem k).mpr ⟨hlt, not_lt.mp hcon⟩)
        · rfl
      set nu' : ℕ → K := fun k => if k < p.nIeq then nu k else 0
      have hr : ∀ v < p.nVar, |p.residual J D nObj act w mu nu' v| ≤ tolS := by
        intro v hv
        rw [hres w mu nu' hz v]
        have : ∑ k ∈ Finset.range p.nIeq, nu' k * D.getD ((p.nEq + k) * p.nVar + v) 0 =
            ∑ k ∈ Finset.range p.nIeq, nu k * D.getD ((p.nEq + k) * p.nVar + v) 0 :=
          Finset.sum_congr rfl fun k hk => by simp only [nu', if_pos (Finset.mem_range.mp hk)]
        rw [this]
        exact k5 v hv
      have hfe : (p.kktLP J D act).Feasible (p.multipliers nObj act w mu nu' (max tolS 0)) := by
        rw [Funcs.feasible_multipliers]
        refine ⟨fun v hv => ?_, k2, k1, fun k hk => ?_, le_max_right _ _⟩
        · obtain ⟨a, b⟩ := abs_le.mp (hr v hv)
          exact ⟨b.trans (le_max_left _ _), (by linarith : _ ≤ tolS).trans (le_max_left _ _)⟩
        · have := ((hmem k).mp hk).1
          simp only [nu', if_pos this]
          exact k3 k this
      have hlen : ∀ y, (p.kktLP J D act).Feasible y → ∃ w mu nu t, y = p.multipliers nObj act w mu nu t ∧
          ∀ k, k ∉ act → nu k = 0 := fun y hy => Funcs.exists_multipliers (p := p) (nObj := nObj) hnd
        (by rw [hy.length]; simp [Funcs.kktLP, hnObj])
      have hex := LP.exists_optimal _ hfe (m := 0) (by
        intro y hy
        obtain ⟨w, mu, nu, t, rfl, _⟩ := hlen y hy
        rw [Funcs.objective_multipliers]
        exact ((Funcs.feasible_multipliers J D act w mu nu t).mp hy).2.2.2.2)
      refine ⟨hsuc hex, ?_⟩
      obtain ⟨ho1, ho2⟩ := hopt (hsuc hex)
      obtain ⟨w', mu', nu2, t, hx, _⟩ := hlen _ ho1
      have hle := ho2 _ hfe
      rw [hx, Funcs.objective_multipliers, Funcs.objective_multipliers] at hle
      rw [hx]
      have htol : 0 ≤ tolS ∨ tolS < 0 := le_or_gt 0 tolS
      simp only [Funcs.multipliers, List.getLast?_append, List.getLast?_singleton, Option.some_or, decide_eq_true_eq]
      rcases Nat.eq_zero_or_pos p.nVar with h0 | h0
      · exact absurd k2 (by rw [hnObj, h0, Nat.div_zero]; simp)
      · have := (abs_nonneg _).trans (hr 0 h0)
        rwa [max_eq_left this] at hle
  · simp only [if_true]
    have : ¬ ((∀ k < p.nEq, |c.getD k 0| ≤ tolF) ∧ (∀ k < p.nIeq, c.getD (p.nEq + k) 0 ≤ tolF)) := by
      rw [← hfeas, ← Bool.or_eq_false_iff, hany]
      simp
    constructor
    · intro h; exact absurd h (by simp)
    · rintro ⟨a, b, _⟩; exact absurd ⟨a, b⟩ this

/-- C27: for a state that is in sync, `check_KKT` marks exactly the rows with approximate multipliers. -/
theorem C27_check_KKT [IsStrictOrderedRing K] {p : Funcs K} {nObj dim : ℕ} (hp : p.Ok nObj) (hd : p.nVar ≤ dim)
    (hn : 0 < p.nVar) {s : State K} (hs : InSync p s) (hX : ∀ x ∈ s.X, x.length = dim) (hJ : s.J.isSome)
    (hj : p.nEq + p.nIeq = 0 ∨ p.hJac.isSome ∨ p.gJac.isSome) {solver : LP K → LPResult K} (hsol : SolvesLP solver)
    {tolS tolF tolA : K} (h1 : 0 ≤ tolS) (h2 : 0 ≤ tolF) (h3 : 0 ≤ tolA) :
    ∃ bs, p.checkKKT solver s tolS tolF tolA = .ok bs ∧ bs.length = s.X.length ∧
      ∀ i (hi : i < s.X.length), bs[i]? = some true ↔
        ∀ q, q = s.X[i].take p.nVar →
        ApproxKKT p.nVar nObj p.nEq p.nIeq (fun j v => (p.jac.point q).getD (j * p.nVar + v) 0)
          (fun k => (optVal p.h p.nEq q).getD k 0) (fun k => (optVal p.g p.nIeq q).getD k 0)
          (fun k v => (optVal p.hJac (p.nEq * p.nVar) q).getD (k * p.nVar + v) 0)
          (fun k v => (optVal p.gJac (p.nIeq * p.nVar) q).getD (k * p.nVar + v) 0) tolS tolF tolA := by
  obtain ⟨J, hJ⟩ := Option.isSome_iff_exists.mp hJ
  have hq : ∀ i (hi : i < s.X.length), (s.X[i].take p.nVar).length = p.nVar :=
    fun i hi => take_length hd (hX _ (List.getElem_mem hi))
  unfold Funcs.checkKKT
  rw [if_neg (by rintro (h | h | h); exacts [absurd h1 (not_le.mpr h), absurd h2 (not_le.mpr h), absurd h3 (not_le.mpr h)]), hJ]
  simp only
  have hgl : ∀ i (hi : i < s.X.length), p.nEq + p.nIeq ≠ 0 →
      (s.cstrGrad.getD i []) = optVal p.hJac (p.nEq * p.nVar) (s.X[i].take p.nVar) ++
        optVal p.gJac (p.nIeq * p.nVar) (s.X[i].take p.nVar) := by
    intro i hi h0
    rw [hs.grad, List.getD_eq_getElem _ _ (by simpa using hi), List.getElem_map, if_neg]
    rintro ⟨a, b⟩
    rcases hj with h | h | h
    · exact h0 h
    · rw [Option.isNone_iff_eq_none] at a; rw [a] at h; simp at h
    · rw [Option.isNone_iff_eq_none] at b; rw [b] at h; simp at h
  have lH : ∀ q : List K, q.length = p.nVar → (optVal p.hJac (p.nEq * p.nVar) q).length = p.nEq * p.nVar := by
    intro q hq; rw [optVal_eq]; exact valOf_length hp.hJac hq
  have lG : ∀ q : List K, q.length = p.nVar → (optVal p.gJac (p.nIeq * p.nVar) q).length = p.nIeq * p.nVar := by
    intro q hq; rw [optVal_eq]; exact valOf_length hp.gJac hq
  have lh : ∀ q : List K, q.length = p.nVar → (optVal p.h p.nEq q).length = p.nEq := by
    intro q hq; rw [optVal_eq]; exact valOf_length hp.h hq
  have lg : ∀ q : List K, q.length = p.nVar → (optVal p.g p.nIeq q).length = p.nIeq := by
    intro q hq; rw [optVal_eq]; exact valOf_length hp.g hq
  rw [if_neg, if_neg hn.ne']
  · refine ⟨_, rfl, by simp, fun i hi => ?_⟩
    rw [List.getElem?_map, List.getElem?_range hi, Option.map_some, Option.some.injEq]
    have hqi := hq i hi
    have eJ : J.getD i [] = p.jac.point (s.X[i].take p.nVar) := by
      rw [hs.J J hJ, List.getD_eq_getElem _ _ (by simpa using hi), List.getElem_map]
    have ec : s.cstrValue.getD i [] = optVal p.h p.nEq (s.X[i].take p.nVar) ++ optVal p.g p.nIeq (s.X[i].take p.nVar) := by
      rw [hs.cstr, List.getD_eq_getElem _ _ (by simpa using hi), List.getElem_map]
    have lJ : (p.jac.point (s.X[i].take p.nVar)).length = nObj * p.nVar := hp.jac.size _ hqi
    rw [kktRow_iff hsol (by rw [ec, List.length_append, lh _ hqi, lg _ hqi]), eJ, ec, lJ, Nat.mul_div_cancel _ hn,
      forall_eq]
    have getD_left : ∀ (a b : List K) k, k < a.length → (a ++ b).getD k 0 = a.getD k 0 := by
      intro a b k hk; rw [List.getD_append _ _ _ _ hk]
    have getD_right : ∀ (a b : List K) k, (a ++ b).getD (a.length + k) 0 = b.getD k 0 := by
      intro a b k; rw [List.getD_append_right _ _ _ _ (by omega)]; congr 1; omega
    unfold ApproxKKT
    beta_reduce
    have g1 : ∀ k < p.nEq, (optVal p.h p.nEq (s.X[i].take p.nVar) ++ optVal p.g p.nIeq (s.X[i].take p.nVar)).getD k 0 =
        (optVal p.h p.nEq (s.X[i].take p.nVar)).getD k 0 := fun k hk => getD_left _ _ _ (by rw [lh _ hqi]; exact hk)
    have g2 : ∀ k, (optVal p.h p.nEq (s.X[i].take p.nVar) ++ optVal p.g p.nIeq (s.X[i].take p.nVar)).getD (p.nEq + k) 0 =
        (optVal p.g p.nIeq (s.X[i].take p.nVar)).getD k 0 := by
      intro k
      have := getD_right (optVal p.h p.nEq (s.X[i].take p.nVar)) (optVal p.g p.nIeq (s.X[i].take p.nVar)) k
      rwa [lh _ hqi] at this
    have g3 : ∀ v < p.nVar, ∀ k < p.nEq, (s.cstrGrad.getD i []).getD (k * p.nVar + v) 0 =
        (optVal p.hJac (p.nEq * p.nVar) (s.X[i].take p.nVar)).getD (k * p.nVar + v) 0 := by
      intro v hv k hk
      rw [hgl i hi (by omega)]
      refine getD_left _ _ _ ?_
      rw [lH _ hqi]
      calc k * p.nVar + v < k * p.nVar + p.nVar := by omega
        _ = (k + 1) * p.nVar := by ring
        _ ≤ p.nEq * p.nVar := Nat.mul_le_mul_right _ hk
    have g4 : ∀ v, ∀ k < p.nIeq, (s.cstrGrad.getD i []).getD ((p.nEq + k) * p.nVar + v) 0 =
        (optVal p.gJac (p.nIeq * p.nVar) (s.X[i].take p.nVar)).getD (k * p.nVar + v) 0 := by
      intro v k hk
      rw [hgl i hi (by omega)]
      have := getD_right (optVal p.hJac (p.nEq * p.nVar) (s.X[i].take p.nVar))
        (optVal p.gJac (p.nIeq * p.nVar) (s.X[i].take p.nVar)) (k * p.nVar + v)
      rw [lH _ hqi] at this
      rw [← this]
      congr 1
      ring
    refine and_congr (forall₂_congr fun k hk => by rw [g1 k hk]) (and_congr (by simp only [g2]) ?_)
    refine exists_congr fun w => exists_congr fun mu => exists_congr fun nu => and_congr_right fun _ =>
      and_congr_right fun _ => and_congr_right fun _ => and_congr (by simp only [g2]) (forall₂_congr fun v hv => ?_)
    have e3 : ∑ k ∈ Finset.range p.nEq, mu k * (s.cstrGrad.getD i []).getD (k * p.nVar + v) 0 =
        ∑ k ∈ Finset.range p.nEq, mu k * (optVal p.hJac (p.nEq * p.nVar) (s.X[i].take p.nVar)).getD (k * p.nVar + v) 0 :=
      Finset.sum_congr rfl fun k hk => by rw [g3 v hv k (Finset.mem_range.mp hk)]
    have e4 : ∑ k ∈ Finset.range p.nIeq, nu k * (s.cstrGrad.getD i []).getD ((p.nEq + k) * p.nVar + v) 0 =
        ∑ k ∈ Finset.range p.nIeq, nu k * (optVal p.gJac (p.nIeq * p.nVar) (s.X[i].take p.nVar)).getD (k * p.nVar + v) 0 :=
      Finset.sum_congr rfl fun k hk => by rw [g4 v k (Finset.mem_range.mp hk)]
    rw [e3, e4]
  · rintro ⟨h0, hany⟩
    rw [List.any_eq_true] at hany
    obtain ⟨r, hr, hne⟩ := hany
    obtain ⟨i, hi, rfl⟩ := List.mem_iff_getElem.mp hr
    have hi' : i < s.X.length := by rw [hs.grad] at hi; simpa using hi
    have := hgl i hi' h0
    rw [List.getD_eq_getElem _ _ hi] at this
    rw [this] at hne
    rw [decide_eq_true_eq, List.length_append, lH _ (hq i hi'), lG _ (hq i hi')] at hne
    exact hne (by ring)

/-- C27: the errors. A negative tolerance, missing objective Jacobians (after
`update(compute_gradient=False)`) and missing constraint Jacobians are reported. -/
theorem C27_errors {p : Funcs K} (solver : LP K → LPResult K) (s : State K) (tolS tolF tolA : K) :
    (p.checkKKT solver s tolS tolF tolA = .error .negativeTolerance ↔ tolS < 0 ∨ tolF < 0 ∨ tolA < 0) ∧
    (0 ≤ tolS → 0 ≤ tolF → 0 ≤ tolA → s.J = none → p.checkKKT solver s tolS tolF tolA = .error .noJacobian) ∧
    (0 ≤ tolS → 0 ≤ tolF → 0 ≤ tolA → s.J.isSome → 0 < (p.nEq + p.nIeq) * p.nVar → p.hJac = none → p.gJac = none →
      InSync p s → s.X ≠ [] → p.checkKKT solver s tolS tolF tolA = .error .noConstraintJacobian) := by
  refine ⟨⟨fun h => ?_, fun h => ?_⟩, fun h1 h2 h3 hJ => ?_, fun h1 h2 h3 hJ hpos hh hg hs hne => ?_⟩
  · unfold Funcs.checkKKT at h
    split at h
    · assumption
    · split at h
      · cases h
      · split at h
        · cases h
        · split at h <;> cases h
  · unfold Funcs.checkKKT
    rw [if_pos h]
  · unfold Funcs.checkKKT
    rw [if_neg (by rintro (h | h | h); exacts [absurd h1 (not_le.mpr h), absurd h2 (not_le.mpr h), absurd h3 (not_le.mpr h)]), hJ]
  · obtain ⟨J, hJ⟩ := Option.isSome_iff_exists.mp hJ
    unfold Funcs.checkKKT
    rw [if_neg (by rintro (h | h | h); exacts [absurd h1 (not_le.mpr h), absurd h2 (not_le.mpr h), absurd h3 (not_le.mpr h)]), hJ]
    simp only
    rw [if_pos]
    refine ⟨fun h0 => by rw [h0, zero_mul] at hpos; exact absurd hpos (lt_irrefl _), ?_⟩
    rw [List.any_eq_true]
    refine ⟨[], ?_, decide_eq_true hpos.ne⟩
    rw [hs.grad]
    obtain ⟨x, X, hx⟩ := List.exists_cons_of_ne_nil hne
    rw [hx]
    simp [hh, hg]

/-- One variable, the objectives `x²` and `(x - 2)²`, the constraint `x ≤ 1`. -/
def kktFuncs : Funcs ℚ where
  nVar := 1
  nEq := 0
  nIeq := 1
  func := ⟨fun x => [x.getD 0 0 ^ 2, (x.getD 0 0 - 2) ^ 2], none⟩
  jac := ⟨fun x => [2 * x.getD 0 0, 2 * (x.getD 0 0 - 2)], none⟩
  h := none
  hJac := none
  hHess := none
  g := some ⟨fun x => [x.getD 0 0 - 1], none⟩
  gJac := some ⟨fun _ => [1], none⟩
  gHess := none

theorem kktFuncs_ok : kktFuncs.Ok 2 where
  func := ⟨fun b hb => by simp [kktFuncs] at hb, fun _ _ => rfl⟩
  jac := ⟨fun b hb => by simp [kktFuncs] at hb, fun _ _ => rfl⟩
  h := by rintro c hc; simp [kktFuncs] at hc
  g := by rintro c hc; simp only [kktFuncs, Option.some.injEq] at hc; subst hc; exact ⟨by simp, fun _ _ => rfl⟩
  hJac := by rintro c hc; simp [kktFuncs] at hc
  gJac := by rintro c hc; simp only [kktFuncs, Option.some.injEq] at hc; subst hc; exact ⟨by simp, fun _ _ => rfl⟩
  hHess := by rintro c hc; simp [kktFuncs] at hc
  gHess := by rintro c hc; simp [kktFuncs] at hc

/-- At `x = 1` both objectives balance, at `x = -1` both decrease to the right; `x = 3` is infeasible. -/
example (solver : LP ℚ → LPResult ℚ) (hsol : SolvesLP solver) :
    ∃ s, exec kktFuncs State.init [.update [[1, 0], [-1, 0], [3, 0]] true true] = some s ∧
      kktFuncs.checkKKT solver s (1 / 10 ^ 4) (1 / 10 ^ 4) (1 / 10 ^ 4) = .ok [true, false, false] := by
  have h : ((exec kktFuncs State.init [.update [[1, 0], [-1, 0], [3, 0]] true true]).any fun s =>
      decide (s.X = [[1, 0], [-1, 0], [3, 0]] ∧ s.J.isSome)) = true := by decide +kernel
  obtain ⟨s, hs, h2⟩ := exists_of_any h
  obtain ⟨hX, hJ⟩ := of_decide_eq_true h2
  refine ⟨s, hs, ?_⟩
  have hsync := C23_sync kktFuncs_ok (dim := 2) (by decide) (by
    intro op hop
    simp only [List.mem_cons, List.not_mem_nil, or_false] at hop
    subst hop
    simp [Op.Fits]) hs
  obtain ⟨bs, hbs, hlen, hrow⟩ := C27_check_KKT kktFuncs_ok (dim := 2) (by decide) (by decide) hsync
    (by rw [hX]; simp) hJ (.inr (.inr rfl)) hsol (tolS := 1 / 10 ^ 4) (tolF := 1 / 10 ^ 4) (tolA := 1 / 10 ^ 4)
    (by norm_num) (by norm_num) (by norm_num)
  rw [hbs]
  obtain ⟨Xs, Ys, Js, cv, act, cg, ch, n1, n2, n3⟩ := s
  simp only at hX hlen hrow
  subst hX
  have r0 := (hrow 0 (by simp)).mpr (by
    rintro q rfl
    refine ⟨by simp [kktFuncs], by simp [kktFuncs, optVal], fun _ => 1 / 2, fun _ => 0, fun _ => 0, ?_⟩
    simp [kktFuncs, optVal, Finset.sum_range_succ]
    norm_num)
  have r1 : bs[1]? ≠ some true := by
    intro h
    obtain ⟨_, _, w, mu, nu, k1, k2, k3, k4, k5⟩ := (hrow 1 (by simp)).mp h _ rfl
    have h0 := k1 0 (by decide)
    have h1 := k1 1 (by decide)
    have h4 := k4 0 (by decide) (by simp [kktFuncs, optVal]; norm_num)
    have h5 := k5 0 (by decide)
    simp [kktFuncs, optVal, Finset.sum_range_succ, h4] at h5 k2
    have := (abs_le.mp h5).1
    norm_num at this
    linarith
  have r2 : bs[2]? ≠ some true := by
    intro h
    obtain ⟨_, h2, _⟩ := (hrow 2 (by simp)).mp h _ rfl
    have := h2 0 (by decide)
    simp [kktFuncs, optVal] at this
    norm_num at this
  rcases bs with _ | ⟨b0, _ | ⟨b1, _ | ⟨b2, _ | ⟨_, _⟩⟩⟩⟩ <;> simp at hlen r0 r1 r2 ⊢
  exact ⟨r0, r1, r2⟩

/-! ### C28 -/

/-- The intended behaviour: saving succeeds, and loading the file gives back everything but the callbacks. -/
def C28Statement : Prop :=
  ∀ (fs : Files ℕ) (filename : String) (d : Dict ℕ), d.map Prod.fst = stateKeys →
    ∃ fs', save fs filename d = (fs', .ok ()) ∧ ∃ d', load fs' (filename ++ ".pkl") = .ok d' ∧
      ∀ key, key ∉ ["func", "jac", "h", "h_jac", "h_hess", "g", "g_jac", "g_hess"] → d'.lookup key = d.lookup key

/-- C28 (negative): `save` raises for every state, because there is no attribute `_jac`, and what was in the
file is lost. -/
theorem C28_save_raises {V : Type*} (fs : Files V) (filename : String) (d : Dict V) (hd : d.map Prod.fst = stateKeys) :
    (save fs filename d).2 = .error (.keyError "_jac") ∧
      load (save fs filename d).1 (filename ++ ".pkl") = .error .eof := by
  have h : savedWithout.foldlM delKey d = .error (.keyError "_jac") := by
    have h1 : delKey d "func" = .ok (d.filter fun kv => kv.1 ≠ "func") := by
      unfold delKey; rw [if_pos (by rw [hd]; decide)]
    have h2 : delKey (d.filter fun kv => kv.1 ≠ "func") "_jac" = .error (.keyError "_jac") := by
      unfold delKey
      rw [if_neg]
      intro hm
      obtain ⟨kv, hkv, he⟩ := List.mem_map.mp hm
      have : "_jac" ∈ d.map Prod.fst := List.mem_map.mpr ⟨kv, (List.mem_filter.mp hkv).1, he⟩
      rw [hd] at this
      exact absurd this (by decide)
    simp only [savedWithout, List.foldlM_cons, h1]
    show (delKey (d.filter fun kv => kv.1 ≠ "func") "_jac" >>= _) = _
    rw [h2]
    rfl
  unfold save load
  simp only [h, Function.update_self]
  trivial

theorem C28_violated : ¬ C28Statement := by
  intro h
  obtain ⟨fs', h1, _⟩ := h (fun _ => none) "a" (stateKeys.map fun k => (k, 0)) (by decide)
  have h2 := (C28_save_raises (fun _ => none) "a" (stateKeys.map fun k => (k, (0 : ℕ))) (by decide)).1
  rw [h1] at h2
  cases h2

theorem foldlM_delKey {V : Type*} (keys : List String) (d : Dict V) (hn : keys.Nodup)
    (h : ∀ k ∈ keys, k ∈ d.map Prod.fst) :
    keys.foldlM delKey d = .ok (d.filter fun kv => decide (kv.1 ∉ keys)) := by
  induction keys generalizing d with
  | nil => simp [pure, Except.pure]
  | cons a keys ih =>
    obtain ⟨hn1, hn2⟩ := List.nodup_cons.mp hn
    have h1 : delKey d a = .ok (d.filter fun kv => kv.1 ≠ a) := by
      unfold delKey; rw [if_pos (h a (by simp))]
    rw [List.foldlM_cons, h1]
    show keys.foldlM delKey (d.filter fun kv => kv.1 ≠ a) = _
    rw [ih _ hn2, List.filter_filter]
    · congr 1
      refine List.filter_congr fun kv _ => ?_
      simp only [List.mem_cons, not_or, ne_eq, Bool.decide_and]
      rw [Bool.and_comm]
    · intro k hk
      obtain ⟨kv, hkv, rfl⟩ := List.mem_map.mp (h k (List.mem_cons_of_mem _ hk))
      refine List.mem_map.mpr ⟨kv, List.mem_filter.mpr ⟨hkv, ?_⟩, rfl⟩
      rw [decide_eq_true_eq]
      rintro rfl
      exact hn1 hk

theorem lookup_filter {V : Type*} (P : String → Bool) (key : String) (hk : P key = true) (d : Dict V) :
    (d.filter fun kv => P kv.1).lookup key = d.lookup key := by
  induction d with
  | nil => rfl
  | cons kv d ih =>
    rcases kv with ⟨k, v⟩
    rw [List.filter_cons, List.lookup_cons]
    by_cases hkk : key = k
    · subst hkk
      simp [hk, List.lookup_cons]
    · have : (key == k) = false := by simpa using hkk
      split
      · rw [List.lookup_cons, this, ih]
      · rw [ih, this]

/-- C28 (partial; missing: the objects that exist have no attribute `_jac`, see `C28_violated`): if all
deleted attributes exist, everything else is restored, other files are unchanged, and the name to be given to
`load` has the suffix. -/
theorem C28_round_trip_partial {V : Type*} (fs : Files V) (filename : String) (d : Dict V)
    (h : ∀ k ∈ ["func", "_jac", "h", "h_jac", "h_hess", "g", "g_jac", "g_hess"], k ∈ d.map Prod.fst) :
    ∃ fs', save fs filename d = (fs', .ok ()) ∧ (∀ f, f ≠ filename ++ ".pkl" → fs' f = fs f) ∧
      ∃ d', load fs' (filename ++ ".pkl") = .ok d' ∧
      ∀ key, key ∉ ["func", "_jac", "h", "h_jac", "h_hess", "g", "g_jac", "g_hess"] → d'.lookup key = d.lookup key := by
  have h1 := foldlM_delKey savedWithout d (by decide) h
  refine ⟨Function.update (Function.update fs (filename ++ ".pkl") (some .empty)) (filename ++ ".pkl")
    (some (.pickle (d.filter fun kv => decide (kv.1 ∉ savedWithout)))), ?_, ?_,
    d.filter (fun kv => decide (kv.1 ∉ savedWithout)), ?_, ?_⟩
  · unfold save
    simp only [h1]
  · intro f hf
    rw [Function.update_of_ne hf, Function.update_of_ne hf]
  · unfold load
    rw [Function.update_self]
  · intro key hkey
    exact lookup_filter (fun k => decide (k ∉ savedWithout)) key (decide_eq_true hkey) d

example : ∃ fs', save (fun _ => none) "run" (("_jac", 0) :: (stateKeys.map fun k => (k, k.length))) = (fs', .ok ()) ∧
    ∃ d', load fs' "run.pkl" = .ok d' ∧ d'.lookup "cstr_hess" = some 9 := by
  obtain ⟨fs', h1, _, d', h2, h3⟩ := C28_round_trip_partial (fun _ => none) "run"
    (("_jac", 0) :: (stateKeys.map fun k => (k, k.length))) (by decide)
  exact ⟨fs', h1, d', h2, (h3 "cstr_hess" (by decide)).trans (by decide)⟩

end Verif.Props
