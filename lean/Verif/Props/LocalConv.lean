import Verif.Opt.OneLayer
import Verif.Opt.LocalNewton
import Verif.Props.Newton

/-!
# C77: local convergence of `HVN`

The iteration of `HVN` near a regular zero of the residual: the line search accepts the full Newton step and the
population converges quadratically. This file treats any residual and Newton step; `Verif.Props.LocalConvHv` the
hypervolume.
-/

namespace Verif.Props

open Verif.Opt Verif.Util Verif.NDS Metric

/-- The entries of a population with the indices in `A` (point, coordinate). -/
def entries (A : Finset (ℕ × ℕ)) (Z : List (List ℝ)) : A → ℝ := fun q => at2 Z q.1.1 q.1.2

/-- `z` is a zero of `F`, near which `F` has the derivative `F'`; this is Lipschitz continuous, and injective at `z`. -/
structure RegularZero {E : Type*} [NormedAddCommGroup E] [NormedSpace ℝ E] (F : E → E) (F' : E → E →L[ℝ] E) (z : E) :
    Prop where
  zero : F z = 0
  deriv : ∃ r > 0, ∃ L, (∀ x ∈ ball z r, HasFDerivAt F (F' x) x) ∧
    ∀ x ∈ ball z r, ∀ y ∈ ball z r, ‖F' x - F' y‖ ≤ L * ‖x - y‖
  inj : ∀ v, F' z v = 0 → v = 0

/-- `R` holds the values `y`, and zeros elsewhere; its norm is the Frobenius norm. -/
structure Holds (e : HvnEnv ℝ) (N dim : ℕ) (A : Finset (ℕ × ℕ)) (R : List (List ℝ)) (y : A → ℝ) : Prop where
  on : entries A R = y
  off : ∀ i < N, ∀ c < dim, (i, c) ∉ A → at2 R i c = 0
  norm : e.norm R = frobenius N dim R

/-- For all populations of `N` points whose entries in `A` are within `r` of `z`: the residual is `F`, the Newton step
solves the Newton equations of `F` if they can be solved, the points are apart from each other, and no feasible point
dominates another one. -/
structure NearZero (e : HvnEnv ℝ) (N dim N0 : ℕ) (A : Finset (ℕ × ℕ)) (F : (A → ℝ) → A → ℝ)
    (F' : (A → ℝ) → (A → ℝ) →L[ℝ] A → ℝ) (z : A → ℝ) (r : ℝ) : Prop where
  index : ∀ q ∈ A, q.1 < N ∧ q.2 < dim
  newton : ∀ t, Usable e.p dim N0 t → t.X.length = N → ‖entries A t.X - z‖ < r → ∀ S R, e.newton t = some (S, R) →
    Holds e N dim A R (F (entries A t.X)) ∧
      ((∃ s, F' (entries A t.X) s = -F (entries A t.X)) → F' (entries A t.X) (entries A S) = -F (entries A t.X))
  residual : ∀ t, Usable e.p dim N0 t → t.X.length = N → ‖entries A t.X - z‖ < r → ∀ R, e.residual t = some R →
    Holds e N dim A R (F (entries A t.X))
  apart : ∀ t, Usable e.p dim N0 t → t.X.length = N → ‖entries A t.X - z‖ < r → ∀ i < N, ∀ j < N, i ≠ j →
    1 / 10 ^ 8 < e.dist ((t.X.getD i []).take e.p.nVar) ((t.X.getD j []).take e.p.nVar)
  layer : ∀ t, Usable e.p dim N0 t → t.X.length = N → ‖entries A t.X - z‖ < r → ∀ i < N, ∀ j < N,
    MarginFeasible e.p ((t.X.getD i []).take e.p.nVar) → MarginFeasible e.p ((t.X.getD j []).take e.p.nVar) →
      ¬ Dominates (e.p.func.point ((t.X.getD i []).take e.p.nVar)) (e.p.func.point ((t.X.getD j []).take e.p.nVar))

theorem Holds.norm_eq {e : HvnEnv ℝ} {N dim : ℕ} {A : Finset (ℕ × ℕ)} (hA : ∀ q ∈ A, q.1 < N ∧ q.2 < dim)
    {R : List (List ℝ)} {y : A → ℝ} (h : Holds e N dim A R y) : e.norm R = √(∑ q, y q ^ 2) := by
  rw [h.norm, frobenius, ← h.on]
  congr 1
  rw [← Finset.sum_product' (Finset.range N) (Finset.range dim) fun i j => at2 R i j ^ 2]
  have hsub : A ⊆ Finset.range N ×ˢ Finset.range dim := fun q hq => by
    have := hA q hq
    simpa using this
  rw [← Finset.sum_subset hsub (fun q hq hqA => by
    rw [Finset.mem_product, Finset.mem_range, Finset.mem_range] at hq
    rw [h.off q.1 hq.1 q.2 hq.2 hqA]
    norm_num)]
  exact (Finset.sum_coe_sort A fun q => at2 R q.1 q.2 ^ 2).symm

theorem sqrt_sum_bounds {ι : Type*} [Fintype ι] (y : ι → ℝ) :
    ‖y‖ ≤ √(∑ q, y q ^ 2) ∧ √(∑ q, y q ^ 2) ≤ Fintype.card ι * ‖y‖ := by
  constructor
  · rw [pi_norm_le_iff_of_nonneg (Real.sqrt_nonneg _)]
    intro q
    rw [Real.norm_eq_abs, ← Real.sqrt_sq_eq_abs]
    exact Real.sqrt_le_sqrt (Finset.single_le_sum (f := fun q => y q ^ 2) (fun q _ => sq_nonneg _) (Finset.mem_univ q))
  · have h0 : 0 ≤ (Fintype.card ι : ℝ) * ‖y‖ := mul_nonneg (Nat.cast_nonneg _) (norm_nonneg _)
    rw [Real.sqrt_le_left h0]
    have h1 : ∑ q, y q ^ 2 ≤ ∑ _q : ι, ‖y‖ ^ 2 := Finset.sum_le_sum fun q _ => by
      rw [← sq_abs, ← Real.norm_eq_abs]
      exact pow_le_pow_left₀ (norm_nonneg _) (norm_le_pi_norm y q) 2
    refine h1.trans ?_
    rw [Finset.sum_const, Finset.card_univ, nsmul_eq_mul, mul_pow]
    refine mul_le_mul_of_nonneg_right ?_ (sq_nonneg _)
    have : (Fintype.card ι) ≤ (Fintype.card ι) ^ 2 := Nat.le_self_pow two_ne_zero _
    exact_mod_cast this

theorem entries_movedBy {A : Finset (ℕ × ℕ)} {N dim : ℕ} (hA : ∀ q ∈ A, q.1 < N ∧ q.2 < dim) {X S : List (List ℝ)}
    (hX : X.length = N) (hXr : ∀ x ∈ X, x.length = dim) (hS : S.length = N) (hSr : ∀ x ∈ S, x.length = dim) :
    entries A (movedBy X S 1) = entries A X + entries A S := by
  obtain ⟨-, -, h⟩ := movedBy_shape 1 hXr hSr (hS.trans hX.symm)
  funext q
  obtain ⟨h1, h2⟩ := hA q.1 q.2
  have := h q.1.1 (by omega) q.1.2 h2
  rw [one_mul] at this
  exact this

/-- The points of `z` are at least `η` inside the box. -/
structure InsideBy (e : HvnEnv ℝ) (N : ℕ) (A : Finset (ℕ × ℕ)) (z : A → ℝ) (η : ℝ) : Prop where
  xl : e.xl.length = e.p.nVar
  xu : e.xu.length = e.p.nVar
  mem : ∀ i < N, ∀ d < e.p.nVar, (i, d) ∈ A
  low : ∀ q : A, q.1.2 < e.p.nVar → e.xl.getD q.1.2 0 + η ≤ z q
  up : ∀ q : A, q.1.2 < e.p.nVar → z q + η ≤ e.xu.getD q.1.2 0

/-- The step limit for a small step of points away from the bounds: one, or a failure for the zero step. -/
theorem hvnMaxStep_small {xl xu : List ℝ} {X step : List (List ℝ)} (hu : xu.length = xl.length)
    (hX : ∀ x ∈ X, x.length = xl.length) (hS : SameShape xl X step) {η : ℝ}
    (hd : ∀ x ∈ X, ∀ d < xl.length, 4 * η ≤ |x.getD d 0 - xl.getD d 0| ∧ 4 * η ≤ |xu.getD d 0 - x.getD d 0|)
    (hs : ∀ r ∈ step, ∀ c ∈ r, |c| ≤ η) :
    hvnMaxStep true xl xu X step = some 1 ∨
      hvnMaxStep true xl xu X step = none ∧ ∀ i < X.length, ∀ d < xl.length, at2 step i d = 0 := by
  rcases hm : hvnMaxStep true xl xu X step with _ | m
  · right
    rw [hvnMaxStep_eq, Option.map_eq_none_iff, List.min?_eq_none_iff] at hm
    exact ⟨rfl, (hvnRatios_eq_nil hX hu hS.2 hS.1).mp hm⟩
  · left
    rcases C32_tight xl xu X step m hm with rfl | ⟨c, b, hb, hmb, hc, hbs⟩
    · rfl
    have hb' : |b| ≤ η := by
      rcases hbs with ⟨r, hr, h⟩ | ⟨r, hr, h⟩
      · exact hs r hr b h
      · rw [← abs_neg]; exact hs r hr _ h
    have hc' : 4 * η ≤ c := by
      rcases hc with ⟨x, hx, q, hq, rfl⟩ | ⟨x, hx, q, hq, rfl⟩
      · obtain ⟨d, hd1, rfl⟩ := List.mem_iff_getElem.mp hq
        have hl := hX x hx
        rw [List.length_zip] at hd1
        have := (hd x hx d (by omega)).1
        rw [List.getD_eq_getElem _ _ (by omega), List.getD_eq_getElem _ _ (by omega)] at this
        simpa using this
      · obtain ⟨d, hd1, rfl⟩ := List.mem_iff_getElem.mp hq
        have hl := hX x hx
        rw [List.length_zip] at hd1
        have := (hd x hx d (by omega)).2
        rw [List.getD_eq_getElem _ _ (by omega), List.getD_eq_getElem _ _ (by omega)] at this
        simpa using this
    have hm1 : m ≤ 1 := by
      rw [hvnMaxStep_eq] at hm
      obtain ⟨c, -, rfl⟩ := Option.map_eq_some_iff.mp hm
      exact min_le_left _ _
    have h0 : 0 < |b| := abs_pos.mpr hb.ne
    have : 1 ≤ m := by
      by_contra hlt
      push Not at hlt
      nlinarith
    rw [le_antisymm hm1 this]

/-- One iteration near a regular zero, with or without the step limit. -/
theorem near_iteration {e : HvnEnv ℝ} {nObj dim N N0 : ℕ} (he : EnvOk e nObj dim N0) {η : ℝ} (hη : 0 < η)
    {A : Finset (ℕ × ℕ)} {F : (A → ℝ) → A → ℝ} {F' : (A → ℝ) → (A → ℝ) →L[ℝ] A → ℝ} {z : A → ℝ}
    (hl : e.limit = false ∨ InsideBy e N A z η)
    (hz : RegularZero F F' z) {r : ℝ} (hr : 0 < r) (hn : NearZero e N dim N0 A F F' z r) :
    ∃ δ > 0, ∃ C > 0, ∀ s, Usable e.p dim N0 s → s.X.length = N → ‖entries A s.X - z‖ < δ →
      (∃ s' t S R, e.iterate s = some s' ∧ Usable e.p dim N0 s' ∧ s'.X.length = N ∧
        t.X = s.X ∧ e.newton t = some (S, R) ∧ s'.X = movedBy s.X S 1 ∧
        ‖entries A s'.X - z‖ ≤ C * ‖entries A s.X - z‖ ^ 2 ∧
        ‖entries A s'.X - z‖ ≤ ‖entries A s.X - z‖ / 2) ∨
      e.limit = true ∧ e.iterate s = none ∧ ∃ t S R, t.X = s.X ∧ e.newton t = some (S, R) ∧
        ∀ i < N, ∀ d < e.p.nVar, at2 S i d = 0 := by
  obtain ⟨ρ, hρ, L, hd, hL⟩ := hz.deriv
  obtain ⟨δ, hδ, C, hC, -, hloc⟩ := newton_local hρ hd hL hz.zero hz.inj
  set c : ℝ := ((Fintype.card A : ℕ) : ℝ) with hc
  have hc0 : 0 ≤ c := Nat.cast_nonneg _
  refine ⟨min (min (min δ r) (1 / (2 * (c + 1) * C))) (η / 8), by positivity, C, hC, fun s hs hN hδs => ?_⟩
  obtain ⟨hδs, hδ4⟩ := lt_min_iff.mp hδs
  obtain ⟨hδs, hδ3⟩ := lt_min_iff.mp hδs
  obtain ⟨hδ1, hδ2⟩ := lt_min_iff.mp hδs
  obtain ⟨-, hsol, hstep⟩ := hloc _ hδ1
  have hshape : ∀ t, Usable e.p dim N0 t → t.X = s.X → ∀ S R, e.newton t = some (S, R) →
      entries A (movedBy s.X S 1) = entries A s.X + entries A S := by
    intro t ht htX S R hSR
    obtain ⟨S', R', h1, h2, -, h3, -⟩ := he.newton t ht
    rw [hSR] at h1
    obtain ⟨rfl, rfl⟩ := Prod.mk.inj (Option.some.inj h1)
    exact entries_movedBy hn.index hN hs.dim (by rw [h2, htX, hN]) h3
  have hnew : ∀ t, Usable e.p dim N0 t → t.X = s.X → ∀ S R, e.newton t = some (S, R) →
      Holds e N dim A R (F (entries A s.X)) ∧ F' (entries A s.X) (entries A S) = -F (entries A s.X) := by
    intro t ht htX S R hSR
    obtain ⟨h1, h2⟩ := hn.newton t ht (by rw [htX, hN]) (by rw [htX]; exact hδ2) S R hSR
    rw [htX] at h1 h2
    exact ⟨h1, h2 hsol⟩
  have hall := HvnEnv.iterate_limit he hs
    (by rw [hN]; exact hn.apart s hs hN hδ2) (by rw [hN]; exact hn.layer s hs hN hδ2) (by
      intro t ht htX S R hSR t' ht' htX' R' hR'
      obtain ⟨g1, g2⟩ := hnew t ht htX S R hSR
      obtain ⟨b1, b2, b3⟩ := hstep _ g2
      have hmv := hshape t ht htX S R hSR
      have hlen : t'.X.length = N := by
        obtain ⟨S', R'', k1, k2, -, k3, -⟩ := he.newton t ht
        rw [hSR] at k1
        obtain ⟨rfl, rfl⟩ := Prod.mk.inj (Option.some.inj k1)
        rw [htX', (movedBy_shape 1 hs.dim k3 (by rw [k2, htX])).1, hN]
      have hnear : ‖entries A t'.X - z‖ < r := by
        rw [htX', hmv]
        have := norm_nonneg (entries A s.X - z)
        linarith
      have g3 := hn.residual t' ht' hlen hnear R' hR'
      rw [htX', hmv] at g3
      left
      rw [g1.norm_eq hn.index, g3.norm_eq hn.index]
      have l1 := (sqrt_sum_bounds (F (entries A s.X))).1
      have l2 := (sqrt_sum_bounds (F (entries A s.X + entries A S))).2
      have l3 : c * (C * ‖entries A s.X - z‖) ≤ 1 / 2 := by
        have := hδ3.le
        rw [le_div_iff₀ (by positivity)] at this
        nlinarith [norm_nonneg (entries A s.X - z), mul_nonneg hC.le (norm_nonneg (entries A s.X - z))]
      have l4 : c * ‖F (entries A s.X + entries A S)‖ ≤ c * (C * ‖entries A s.X - z‖) * ‖F (entries A s.X)‖ := by
        rw [mul_assoc]
        exact mul_le_mul_of_nonneg_left b3 hc0
      have l5 := mul_le_mul_of_nonneg_right l3 (norm_nonneg (F (entries A s.X)))
      have l6 := norm_nonneg (F (entries A s.X))
      linarith)
  have hmax : ∀ t, Usable e.p dim N0 t → t.X = s.X → ∀ S R, e.newton t = some (S, R) →
      hvnMaxStep e.limit e.xl e.xu (e.p.primal t.X) (S.map (List.take e.p.nVar)) = some 1 ∨
      hvnMaxStep e.limit e.xl e.xu (e.p.primal t.X) (S.map (List.take e.p.nVar)) = none ∧ e.limit = true ∧
        ∀ i < N, ∀ d < e.p.nVar, at2 S i d = 0 := by
    intro t ht htX S R hSR
    by_cases hlf : e.limit = false
    · left; unfold hvnMaxStep; rw [if_pos hlf]
    have hlt : e.limit = true := by simpa using hlf
    have hin := hl.resolve_left hlf
    obtain ⟨S', R', k1, k2, -, k3, -⟩ := he.newton t ht
    rw [hSR] at k1
    obtain ⟨rfl, rfl⟩ := Prod.mk.inj (Option.some.inj k1)
    obtain ⟨-, g2⟩ := hnew t ht htX S R hSR
    obtain ⟨-, b2, -⟩ := hstep _ g2
    have hnv := he.nVar
    have hSe : ∀ i < N, ∀ d < e.p.nVar, |at2 S i d| ≤ η / 4 * (3 / 4) := by
      intro i hi d hd
      have e1 : entries A S = (entries A s.X + entries A S - z) - (entries A s.X - z) := by abel
      refine (norm_le_pi_norm (entries A S) ⟨(i, d), hin.mem i hi d hd⟩).trans ?_
      rw [e1]
      refine (norm_sub_le _ _).trans ?_
      linarith [norm_nonneg (entries A s.X - z)]
    have hXe : ∀ i < N, ∀ d < e.p.nVar, e.xl.getD d 0 + η * (7 / 8) ≤ at2 s.X i d ∧ at2 s.X i d + η * (7 / 8) ≤ e.xu.getD d 0 := by
      intro i hi d hd
      have e1 := norm_le_pi_norm (entries A s.X - z) ⟨(i, d), hin.mem i hi d hd⟩
      have e2 := hin.low ⟨(i, d), hin.mem i hi d hd⟩ hd
      have e3 := hin.up ⟨(i, d), hin.mem i hi d hd⟩ hd
      rw [Pi.sub_apply, Real.norm_eq_abs] at e1
      have e4 := abs_le.mp (e1.trans hδ4.le)
      simp only [entries] at e4
      constructor <;> linarith
    have htake : ∀ M : List (List ℝ), ∀ i d, d < e.p.nVar → at2 (M.map (List.take e.p.nVar)) i d = at2 M i d := by
      intro M i d hd
      simp only [at2, List.getD_eq_getElem?_getD, List.getElem?_map]
      cases M[i]? with
      | none => simp
      | some r => simp [List.getElem?_take, hd]
    rw [hlt, htX]
    have hres := hvnMaxStep_small (xl := e.xl) (xu := e.xu) (X := e.p.primal s.X) (step := S.map (List.take e.p.nVar))
      (η := η / 4 * (3 / 4)) (hin.xu.trans hin.xl.symm) (fun x hx => by
        obtain ⟨y, hy, rfl⟩ := List.mem_map.mp hx
        rw [List.length_take, hs.dim y hy, hin.xl]; omega) ⟨by simp [Funcs.primal, k2, htX], fun x hx => by
        obtain ⟨y, hy, rfl⟩ := List.mem_map.mp hx
        rw [List.length_take, k3 y hy, hin.xl]; omega⟩ (fun x hx d hd => by
        obtain ⟨i, hi, rfl⟩ := List.mem_iff_getElem.mp hx
        have hi' : i < N := by rw [← hN]; simpa [Funcs.primal] using hi
        rw [hin.xl] at hd
        have e1 := hXe i hi' d hd
        have e2 : ((e.p.primal s.X)[i]).getD d 0 = at2 s.X i d := by
          rw [← htake s.X i d hd]
          show ((e.p.primal s.X)[i]).getD d 0 = ((e.p.primal s.X).getD i []).getD d 0
          rw [List.getD_eq_getElem (e.p.primal s.X) _ hi]
        rw [e2, abs_of_nonneg (by linarith), abs_of_nonneg (by linarith)]
        constructor <;> linarith) (fun x hx c hc => by
        obtain ⟨y, hy, rfl⟩ := List.mem_map.mp hx
        obtain ⟨i, hi, rfl⟩ := List.mem_iff_getElem.mp hy
        obtain ⟨d, hd, rfl⟩ := List.mem_iff_getElem.mp hc
        rw [List.length_take] at hd
        have := hSe i (by rw [← hN, ← htX, ← k2]; exact hi) d (by omega)
        rw [at2, List.getD_eq_getElem _ _ hi, List.getD_eq_getElem _ _ (by omega)] at this
        rw [List.getElem_take]
        exact this)
    rcases hres with h1 | ⟨h1, h2⟩
    · exact .inl h1
    · refine .inr ⟨h1, rfl, fun i hi d hd => ?_⟩
      rw [← htake S i d hd]
      exact h2 i (by simpa [Funcs.primal, hN] using hi) d (by rw [hin.xl]; exact hd)
  rcases hall fun t ht htX S R hSR => (hmax t ht htX S R hSR).imp id (·.1) with
    ⟨s', t, S, R, h1, h2, h3, h4, h5, h6⟩ | ⟨h1, t, S, R, h2, h3, h4, h5⟩
  case inr =>
    rcases hmax t h2 h3 S R h4 with h | ⟨-, hlt, h⟩
    · rw [h5] at h; cases h
    · exact .inr ⟨hlt, h1, t, S, R, h3, h4, h⟩
  left
  obtain ⟨-, g2⟩ := hnew t h3 h4 S R h5
  obtain ⟨b1, b2, -⟩ := hstep _ g2
  have hmv := hshape t h3 h4 S R h5
  have hlen : s'.X.length = N := by
    obtain ⟨S', R'', k1, k2, -, k3, -⟩ := he.newton t h3
    rw [h5] at k1
    obtain ⟨rfl, rfl⟩ := Prod.mk.inj (Option.some.inj k1)
    rw [h6, (movedBy_shape 1 hs.dim k3 (by rw [k2, h4])).1, hN]
  exact ⟨s', t, S, R, h1, h2, hlen, h4, h5, h6, by rw [h6, hmv]; exact b1, by rw [h6, hmv]; exact b2⟩

/-- C77, one iteration: near a regular zero of the residual the line search of `HVN` accepts the full Newton step, no
point is lost, and the error is squared (and at least halved). -/
theorem C77_iteration {e : HvnEnv ℝ} {nObj dim N N0 : ℕ} (he : EnvOk e nObj dim N0) (hl : e.limit = false)
    {A : Finset (ℕ × ℕ)} {F : (A → ℝ) → A → ℝ} {F' : (A → ℝ) → (A → ℝ) →L[ℝ] A → ℝ} {z : A → ℝ}
    (hz : RegularZero F F' z) {r : ℝ} (hr : 0 < r) (hn : NearZero e N dim N0 A F F' z r) :
    ∃ δ > 0, ∃ C > 0, ∀ s, Usable e.p dim N0 s → s.X.length = N → ‖entries A s.X - z‖ < δ →
      ∃ s' t S R, e.iterate s = some s' ∧ Usable e.p dim N0 s' ∧ s'.X.length = N ∧
        t.X = s.X ∧ e.newton t = some (S, R) ∧ s'.X = movedBy s.X S 1 ∧
        ‖entries A s'.X - z‖ ≤ C * ‖entries A s.X - z‖ ^ 2 ∧
        ‖entries A s'.X - z‖ ≤ ‖entries A s.X - z‖ / 2 := by
  obtain ⟨δ, hδ, C, hC, h⟩ := near_iteration he one_pos (.inl hl) hz hr hn
  refine ⟨δ, hδ, C, hC, fun s hs hN hd => ?_⟩
  rcases h s hs hN hd with h | ⟨h, -⟩
  · exact h
  · rw [hl] at h; cases h

/-- C77, one iteration with `limit_max_step_size=True`, for a zero inside the box: the same, unless the Newton step of the
variables is zero; then the iteration raises (C32). -/
theorem C77_limit_iteration {e : HvnEnv ℝ} {nObj dim N N0 : ℕ} (he : EnvOk e nObj dim N0) {η : ℝ} (hη : 0 < η)
    {A : Finset (ℕ × ℕ)} {F : (A → ℝ) → A → ℝ} {F' : (A → ℝ) → (A → ℝ) →L[ℝ] A → ℝ} {z : A → ℝ}
    (hin : InsideBy e N A z η) (hz : RegularZero F F' z) {r : ℝ} (hr : 0 < r) (hn : NearZero e N dim N0 A F F' z r) :
    ∃ δ > 0, ∃ C > 0, ∀ s, Usable e.p dim N0 s → s.X.length = N → ‖entries A s.X - z‖ < δ →
      (∃ s' t S R, e.iterate s = some s' ∧ Usable e.p dim N0 s' ∧ s'.X.length = N ∧
        t.X = s.X ∧ e.newton t = some (S, R) ∧ s'.X = movedBy s.X S 1 ∧
        ‖entries A s'.X - z‖ ≤ C * ‖entries A s.X - z‖ ^ 2 ∧
        ‖entries A s'.X - z‖ ≤ ‖entries A s.X - z‖ / 2) ∨
      e.limit = true ∧ e.iterate s = none ∧ ∃ t S R, t.X = s.X ∧ e.newton t = some (S, R) ∧
        ∀ i < N, ∀ d < e.p.nVar, at2 S i d = 0 :=
  near_iteration he hη (.inr hin) hz hr hn

/-- C77, a run: from every population close enough to a regular zero the iterations converge to it quadratically. -/
theorem C77_run {e : HvnEnv ℝ} {nObj dim N N0 : ℕ} (he : EnvOk e nObj dim N0) (hl : e.limit = false)
    {A : Finset (ℕ × ℕ)} {F : (A → ℝ) → A → ℝ} {F' : (A → ℝ) → (A → ℝ) →L[ℝ] A → ℝ} {z : A → ℝ}
    (hz : RegularZero F F' z) {r : ℝ} (hr : 0 < r) (hn : NearZero e N dim N0 A F F' z r) :
    ∃ δ > 0, ∃ C > 0, ∀ s, Usable e.p dim N0 s → s.X.length = N → ‖entries A s.X - z‖ < δ →
      ∀ n, ∃ s', e.run n s = some s' ∧ Usable e.p dim N0 s' ∧ s'.X.length = N ∧
        ‖entries A s'.X - z‖ ≤ ‖entries A s.X - z‖ / 2 ^ n ∧
        C * ‖entries A s'.X - z‖ ≤ (C * ‖entries A s.X - z‖) ^ 2 ^ n := by
  obtain ⟨δ, hδ, C, hC, h⟩ := C77_iteration he hl hz hr hn
  refine ⟨δ, hδ, C, hC, fun s hs hN hδs n => ?_⟩
  induction n generalizing s with
  | zero => exact ⟨s, rfl, hs, hN, by simp, by simp⟩
  | succ n ih =>
    obtain ⟨s1, -, -, -, h1, h2, h3, -, -, -, h4, h5⟩ := h s hs hN hδs
    have h0 := norm_nonneg (entries A s.X - z)
    obtain ⟨s', g1, g2, g3, g4, g5⟩ := ih s1 h2 h3 (by linarith)
    refine ⟨s', by rw [HvnEnv.run, h1, Option.bind_some, g1], g2, g3, ?_, ?_⟩
    · refine g4.trans ?_
      rw [pow_succ', ← div_div]
      exact div_le_div_of_nonneg_right h5 (by positivity)
    · refine g5.trans ?_
      rw [pow_succ', pow_mul]
      refine pow_le_pow_left₀ (mul_nonneg hC.le (norm_nonneg _)) ?_ _
      rw [mul_pow, pow_two C, mul_assoc]
      exact mul_le_mul_of_nonneg_left h4 hC.le

/-- C77, a run with `limit_max_step_size=True`, for a zero inside the box: what it returns converges quadratically, and it
raises only when it reaches a population from which the Newton step of the variables is zero. -/
theorem C77_limit_run {e : HvnEnv ℝ} {nObj dim N N0 : ℕ} (he : EnvOk e nObj dim N0) {η : ℝ} (hη : 0 < η)
    {A : Finset (ℕ × ℕ)} {F : (A → ℝ) → A → ℝ} {F' : (A → ℝ) → (A → ℝ) →L[ℝ] A → ℝ} {z : A → ℝ}
    (hin : InsideBy e N A z η) (hz : RegularZero F F' z) {r : ℝ} (hr : 0 < r) (hn : NearZero e N dim N0 A F F' z r) :
    ∃ δ > 0, ∃ C > 0, ∀ s, Usable e.p dim N0 s → s.X.length = N → ‖entries A s.X - z‖ < δ →
      (∀ n s', e.run n s = some s' → Usable e.p dim N0 s' ∧ s'.X.length = N ∧
        ‖entries A s'.X - z‖ ≤ ‖entries A s.X - z‖ / 2 ^ n ∧
        C * ‖entries A s'.X - z‖ ≤ (C * ‖entries A s.X - z‖) ^ 2 ^ n) ∧
      ∀ n, e.run n s = none → ∃ m < n, ∃ s' t S R, e.run m s = some s' ∧ t.X = s'.X ∧ e.newton t = some (S, R) ∧
        ∀ i < N, ∀ d < e.p.nVar, at2 S i d = 0 := by
  obtain ⟨δ, hδ, C, hC, h⟩ := C77_limit_iteration he hη hin hz hr hn
  refine ⟨δ, hδ, C, hC, fun s hs hN hδs => ⟨fun n => ?_, fun n => ?_⟩⟩
  · induction n generalizing s with
    | zero =>
      intro s' h'
      obtain rfl := Option.some.inj h'
      exact ⟨hs, hN, by simp, by simp⟩
    | succ n ih =>
      intro s' h'
      rcases h s hs hN hδs with ⟨s1, -, -, -, h1, h2, h3, -, -, -, h4, h5⟩ | ⟨-, h1, -⟩
      · rw [HvnEnv.run, h1, Option.bind_some] at h'
        have h0 := norm_nonneg (entries A s.X - z)
        obtain ⟨g2, g3, g4, g5⟩ := ih s1 h2 h3 (by linarith) s' h'
        refine ⟨g2, g3, ?_, ?_⟩
        · refine g4.trans ?_
          rw [pow_succ', ← div_div]
          exact div_le_div_of_nonneg_right h5 (by positivity)
        · refine g5.trans ?_
          rw [pow_succ', pow_mul]
          refine pow_le_pow_left₀ (mul_nonneg hC.le (norm_nonneg _)) ?_ _
          rw [mul_pow, pow_two C, mul_assoc]
          exact mul_le_mul_of_nonneg_left h4 hC.le
      · rw [HvnEnv.run, h1] at h'
        cases h'
  · induction n generalizing s with
    | zero => exact fun h' => by cases h'
    | succ n ih =>
      intro h'
      rcases h s hs hN hδs with ⟨s1, -, -, -, h1, h2, h3, -, -, -, -, h5⟩ | ⟨-, h1, t, S, R, g1, g2, g3⟩
      · rw [HvnEnv.run, h1, Option.bind_some] at h'
        have h0 := norm_nonneg (entries A s.X - z)
        obtain ⟨m, hm, s', t, S, R, g1, g⟩ := ih s1 h2 h3 (by linarith) h'
        exact ⟨m + 1, by omega, s', t, S, R, by rw [HvnEnv.run, h1, Option.bind_some, g1], g⟩
      · exact ⟨0, by omega, s, t, S, R, rfl, g1, g2, g3⟩

end Verif.Props
