import Verif.Scripts.Piecewise
import Mathlib.Analysis.Calculus.Deriv.Comp
import Mathlib.Analysis.Calculus.Deriv.Add
import Mathlib.Analysis.Calculus.Deriv.Mul
import Mathlib.Analysis.Calculus.Deriv.Pow
import Mathlib.Tactic.Linarith
import Mathlib.Tactic.FieldSimp
import Mathlib.Tactic.Ring

/-!
# C79: piecewise curves and their derivatives
-/

namespace Verif.Props

open Verif.Scripts

variable {K V : Type*}

/-! ## What is wanted -/

/-- The curve that runs through all pieces, the `k`-th one from `k / N` to `(k + 1) / N`: its value at `(k + s) / N`. -/
def OnCurve [Field K] [LinearOrder K] (pieces : List (Curve K V)) (t : K) (v : V) : Prop :=
  ∃ (k : ℕ) (h : k < pieces.length) (s : K), 0 ≤ s ∧ s ≤ 1 ∧ t = (k + s) / pieces.length ∧
    v = (pieces[k].objective s)

/-- The derivatives of a piece are right in its interior. -/
structure CurveExact [NormedAddCommGroup V] [NormedSpace ℝ V] (c : Curve ℝ V) : Prop where
  first : ∀ s, 0 < s → s < 1 → HasDerivAt c.objective (c.jacobian s) s
  second : ∀ s, 0 < s → s < 1 → HasDerivAt c.jacobian (c.hessian s) s

/-- The full statement of C79 for derivatives: the objective is defined near `t`, and the jacobian is its derivative. -/
def JacobianRight [NormedAddCommGroup V] [NormedSpace ℝ V] (index : ℕ → ℝ → ℤ) (pieces : List (Curve ℝ V)) (t : ℝ) : Prop :=
  ∃ (F : ℝ → V) (J : V), (∀ᶠ u in nhds t, piecewise index pieces Curve.objective u = some (F u)) ∧
    piecewise index pieces Curve.jacobian t = some J ∧ HasDerivAt F J t

/-! ## Index arithmetic -/

section
variable [Field K] [LinearOrder K] [IsStrictOrderedRing K] [FloorRing K]

theorem floor_div_size {N : ℕ} (t : K) : ⌊t / (1 / (N : K))⌋ = ⌊t * N⌋ := by
  rw [div_div_eq_mul_div, div_one]

theorem pyIndex_nat {α : Type*} (l : List α) (k : ℕ) : pyIndex l (k : ℤ) = l[k]? := by
  unfold pyIndex
  rw [if_pos (by omega), Int.toNat_natCast]

theorem pyIndex_intervals {N k : ℕ} (h : k ≤ N) : pyIndex (intervals K N) (k : ℤ) = some ((k : K) / N) := by
  rw [pyIndex_nat, intervals, List.getElem?_map, List.getElem?_range (by omega)]
  rfl

theorem piecewise_of_index {index : ℕ → K → ℤ} {pieces : List (Curve K V)} (method : Curve K V → K → V) {t : K} {k : ℕ}
    (hk : k < pieces.length) (hi : index pieces.length t = k) :
    piecewise index pieces method t = some (method pieces[k] (pieces.length * t - k)) := by
  unfold piecewise
  dsimp only
  rw [hi, pyIndex_nat, List.getElem?_eq_getElem hk, pyIndex_intervals (by omega)]
  have : (pieces.length : K) ≠ 0 := by
    have : pieces.length ≠ 0 := by omega
    exact_mod_cast this
  simp only [Option.bind_some, Option.map_some]
  rw [mul_sub, mul_div_cancel₀ _ this]

theorem getIndex_of_mem {N k : ℕ} {t : K} (hN : 0 < N) (hk : k < N) (h1 : (k : K) ≤ N * t) (h2 : N * t < k + 1) :
    getIndex N t = k := by
  unfold getIndex
  have hN' : (0 : K) < N := by exact_mod_cast hN
  rw [if_neg, floor_div_size, Int.floor_eq_iff]
  · rw [mul_comm]
    exact ⟨by exact_mod_cast h1, by exact_mod_cast h2⟩
  · rintro rfl
    rw [mul_one] at h2
    have : N < k + 1 := by exact_mod_cast h2
    omega

theorem piecewise_last {index : ℕ → K → ℤ} {pieces : List (Curve K V)} (hN : 0 < pieces.length)
    (method : Curve K V → K → V) {t : K} (hf : index pieces.length t = -1) :
    piecewise index pieces method t =
      some (method (pieces[pieces.length - 1]'(by omega)) (pieces.length * (t - 1))) := by
  have hN' : (0 : K) < pieces.length := by exact_mod_cast hN
  unfold piecewise
  dsimp only
  rw [hf]
  have e1 : pyIndex pieces (-1) = some (pieces[pieces.length - 1]'(by omega)) := by
    unfold pyIndex
    rw [if_neg (by omega), if_pos (by omega), show ((pieces.length : ℤ) + -1).toNat = pieces.length - 1 by omega,
      List.getElem?_eq_getElem (by omega)]
  have e2 : pyIndex (intervals K pieces.length) (-1) = some 1 := by
    unfold pyIndex intervals
    rw [if_neg (by omega), if_pos (by simp), List.length_map, List.length_range,
      show (((pieces.length + 1 : ℕ) : ℤ) + -1).toNat = pieces.length by omega, List.getElem?_map,
      List.getElem?_range (by omega), Option.map_some, div_self hN'.ne']
  rw [e1, e2]
  rfl

/-! ## C79 -/

/-- C79, values: for every parameter in `[0, 1]` the objective is a point of the curve, and all of the curve but the right
ends of inner pieces is reached. -/
theorem C79_objective {pieces : List (Curve K V)} (hN : 0 < pieces.length) {t : K} (h0 : 0 ≤ t) (h1 : t ≤ 1) :
    ∃ v, piecewise getIndex pieces Curve.objective t = some v ∧ OnCurve pieces t v := by
  have hN' : (0 : K) < pieces.length := by exact_mod_cast hN
  rcases h1.lt_or_eq with h1 | rfl
  · have hf : 0 ≤ ⌊pieces.length * t⌋ := Int.floor_nonneg.mpr (mul_nonneg hN'.le h0)
    obtain ⟨k, hk⟩ := Int.eq_ofNat_of_zero_le hf
    have hlt : pieces.length * t < pieces.length := by nlinarith
    have g1 : (k : K) ≤ pieces.length * t := by
      have := Int.floor_le (pieces.length * t : K)
      rw [hk] at this
      exact_mod_cast this
    have g2 : pieces.length * t < (k : K) + 1 := by
      have := Int.lt_floor_add_one (pieces.length * t : K)
      rw [hk] at this
      exact_mod_cast this
    have hkN : k < pieces.length := by
      have : (k : K) < pieces.length := g1.trans_lt hlt
      exact_mod_cast this
    refine ⟨_, piecewise_of_index _ hkN (getIndex_of_mem hN hkN g1 g2), k, hkN, _, by linarith, by linarith, ?_, rfl⟩
    field_simp
    ring
  · have hi : getIndex pieces.length (1 : K) = ((pieces.length - 1 : ℕ) : ℤ) := by
      unfold getIndex
      rw [if_pos rfl]
      omega
    have hc : ((pieces.length - 1 : ℕ) : K) = pieces.length - 1 := by
      rw [Nat.cast_sub hN, Nat.cast_one]
    refine ⟨_, piecewise_of_index _ (by omega) hi, pieces.length - 1, by omega, _, ?_, ?_, ?_, rfl⟩
    · rw [hc]; linarith
    · rw [hc]; linarith
    · rw [hc]
      field_simp
      ring

/-- C79, values: every point of the `k`-th piece but its right end is reached at `(k + s) / N`. -/
theorem C79_onto {pieces : List (Curve K V)} {k : ℕ} (hk : k < pieces.length) {s : K} (h0 : 0 ≤ s) (h1 : s < 1) :
    piecewise getIndex pieces Curve.objective ((k + s) / pieces.length) = some (pieces[k].objective s) := by
  have hN : 0 < pieces.length := by omega
  have hN' : (0 : K) < pieces.length := by exact_mod_cast hN
  have e : (pieces.length : K) * ((k + s) / pieces.length) = k + s := mul_div_cancel₀ _ hN'.ne'
  rw [piecewise_of_index _ hk (getIndex_of_mem hN hk (by rw [e]; linarith) (by rw [e]; linarith)), e, add_sub_cancel_left]

/-- C79, splines: the derivatives of the spline are used inside of a piece, but both derivatives are reported as zero at
every end of a piece, whatever they are. The code wants that for the ends of the curve (a comment says so), but it also
holds between two pieces: an optimiser that arrives there takes the point for stationary. -/
theorem C79_ends [Zero V] {sp sp1 sp2 : List (K → V)} {pieces : List (Curve K V)} (hN : 0 < pieces.length)
    (h0 : sp.length = pieces.length) (h1 : sp1.length = pieces.length) (h2 : sp2.length = pieces.length)
    (hp : ∀ (k : ℕ) (h : k < pieces.length), pieces[k] = Curve.spline (sp[k]'(by omega)) (sp1[k]'(by omega)) (sp2[k]'(by omega))) :
    (∀ (k : ℕ) (h : k < pieces.length) (s : K), 0 < s → s < 1 →
      piecewise getIndex pieces Curve.jacobian ((k + s) / pieces.length) = some ((sp1[k]'(by omega)) s) ∧
      piecewise getIndex pieces Curve.hessian ((k + s) / pieces.length) = some ((sp2[k]'(by omega)) s)) ∧
    ∀ k ≤ pieces.length, piecewise getIndex pieces Curve.jacobian ((k : K) / pieces.length) = some 0 ∧
      piecewise getIndex pieces Curve.hessian ((k : K) / pieces.length) = some 0 := by
  have hN' : (0 : K) < pieces.length := by exact_mod_cast hN
  refine ⟨fun k hk s hs0 hs1 => ?_, fun k hk => ?_⟩
  · have e : (pieces.length : K) * ((k + s) / pieces.length) = k + s := mul_div_cancel₀ _ hN'.ne'
    have hi := getIndex_of_mem (t := (k + s) / (pieces.length : K)) hN hk (by rw [e]; linarith) (by rw [e]; linarith)
    rw [piecewise_of_index _ hk hi, piecewise_of_index _ hk hi, e, add_sub_cancel_left, hp k hk]
    have hne : ¬ (s = 0 ∨ s = 1) := by
      rintro (h | h)
      · exact hs0.ne' h
      · exact hs1.ne h
    exact ⟨by simp only [Curve.spline, if_neg hne], by simp only [Curve.spline, if_neg hne]⟩
  · have e : (pieces.length : K) * ((k : K) / pieces.length) = k := mul_div_cancel₀ _ hN'.ne'
    rcases hk.lt_or_eq with hk | rfl
    · have hi := getIndex_of_mem (t := (k : K) / (pieces.length : K)) hN hk (by rw [e]) (by rw [e]; linarith)
      rw [piecewise_of_index _ hk hi, piecewise_of_index _ hk hi, e, sub_self, hp k hk]
      exact ⟨by simp [Curve.spline], by simp [Curve.spline]⟩
    · rw [div_self hN'.ne']
      have hi : getIndex pieces.length (1 : K) = ((pieces.length - 1 : ℕ) : ℤ) := by
        unfold getIndex
        rw [if_pos rfl]
        omega
      have hc : (pieces.length : K) * 1 - ((pieces.length - 1 : ℕ) : K) = 1 := by
        rw [Nat.cast_sub hN, Nat.cast_one]; ring
      rw [piecewise_of_index _ (by omega) hi, piecewise_of_index _ (by omega) hi, hc, hp _ (by omega)]
      exact ⟨by simp [Curve.spline], by simp [Curve.spline]⟩

/-- Parameters above one raise. -/
theorem C79_above {pieces : List (Curve K V)} (hN : 0 < pieces.length) (method : Curve K V → K → V) {t : K} (h : 1 < t) :
    piecewise getIndex pieces method t = none := by
  have hN' : (0 : K) < pieces.length := by exact_mod_cast hN
  have hf : (pieces.length : ℤ) ≤ getIndex pieces.length t := by
    unfold getIndex
    rw [if_neg h.ne', floor_div_size, Int.le_floor]
    push_cast
    nlinarith
  obtain ⟨k, hk⟩ := Int.eq_ofNat_of_zero_le (le_trans (by omega) hf)
  unfold piecewise
  dsimp only
  rw [hk, pyIndex_nat, List.getElem?_eq_none (by omega)]
  rfl

/-- Parameters below zero are not refused: up to `-1 / N` they belong to the last piece, at a parameter far outside of
`[0, 1]`. -/
theorem C79_below {pieces : List (Curve K V)} (hN : 0 < pieces.length) (method : Curve K V → K → V) {t : K}
    (h0 : t < 0) (h1 : -1 ≤ pieces.length * t) :
    piecewise getIndex pieces method t =
      some (method (pieces[pieces.length - 1]'(by omega)) (pieces.length * (t - 1))) := by
  have hN' : (0 : K) < pieces.length := by exact_mod_cast hN
  have hf : getIndex pieces.length t = -1 := by
    unfold getIndex
    rw [if_neg (by linarith), floor_div_size, Int.floor_eq_iff]
    push_cast
    constructor <;> nlinarith
  exact piecewise_last hN method hf

/-- The version of examples/subset_selection takes small positive parameters for the last piece, too, also if there is only
one piece. -/
theorem C79_violated_close {pieces : List (Curve K V)} (hN : 0 < pieces.length) (method : Curve K V → K → V) {t : K}
    (h0 : 0 < t) (h1 : t ≤ 1 / 10 ^ 8) (h2 : pieces.length * t < 1) :
    piecewise getIndexClose pieces method t =
      some (method (pieces[pieces.length - 1]'(by omega)) (pieces.length * (t - 1))) := by
  have hN' : (0 : K) < pieces.length := by exact_mod_cast hN
  have hz : ⌊t / (1 / (pieces.length : K))⌋ = 0 := by
    rw [floor_div_size, Int.floor_eq_iff]
    push_cast
    constructor <;> nlinarith
  have hf : getIndexClose pieces.length t = -1 := by
    unfold getIndexClose
    dsimp only
    rw [hz, if_pos]
    · rfl
    · refine ⟨?_, h0.ne'⟩
      unfold isClose
      rw [decide_eq_true_eq]
      simpa [abs_of_pos h0] using h1
  exact piecewise_last hN method hf

end

section
variable [NormedAddCommGroup V] [NormedSpace ℝ V]

/-- Inside the `k`-th part the objective is defined, and its derivatives are `N` and `N ^ 2` times what the code returns. -/
theorem C79_derivatives {pieces : List (Curve ℝ V)} {k : ℕ} (hk : k < pieces.length) (hx : CurveExact pieces[k]) {t : ℝ}
    (h1 : (k : ℝ) < pieces.length * t) (h2 : pieces.length * t < k + 1) :
    ∃ (F F' : ℝ → V) (J H : V),
      (∀ᶠ u in nhds t, piecewise getIndex pieces Curve.objective u = some (F u) ∧ HasDerivAt F (F' u) u) ∧
      piecewise getIndex pieces Curve.jacobian t = some J ∧ piecewise getIndex pieces Curve.hessian t = some H ∧
      HasDerivAt F ((pieces.length : ℝ) • J) t ∧ HasDerivAt F' (((pieces.length : ℝ) ^ 2) • H) t := by
  have hN : 0 < pieces.length := by omega
  have hin : ∀ u : ℝ, HasDerivAt (fun u => (pieces.length : ℝ) * u - k) pieces.length u := by
    intro u
    simpa using ((hasDerivAt_id u).const_mul (pieces.length : ℝ)).sub_const (k : ℝ)
  have hev : ∀ᶠ u in nhds t, (k : ℝ) < pieces.length * u ∧ pieces.length * u < k + 1 := by
    have hc : ContinuousAt (fun u : ℝ => (pieces.length : ℝ) * u) t := by fun_prop
    exact (hc.eventually (lt_mem_nhds h1)).and (hc.eventually (gt_mem_nhds h2))
  have hd : ∀ u : ℝ, (k : ℝ) < pieces.length * u → pieces.length * u < k + 1 →
      HasDerivAt (fun u => pieces[k].objective (pieces.length * u - k))
        ((pieces.length : ℝ) • pieces[k].jacobian (pieces.length * u - k)) u := fun u g1 g2 =>
    (hx.first _ (by linarith) (by linarith)).scomp u (hin u)
  refine ⟨fun u => pieces[k].objective (pieces.length * u - k),
    fun u => (pieces.length : ℝ) • pieces[k].jacobian (pieces.length * u - k), _, _, ?_,
    piecewise_of_index _ hk (getIndex_of_mem hN hk h1.le h2), piecewise_of_index _ hk (getIndex_of_mem hN hk h1.le h2),
    hd t h1 h2, ?_⟩
  · filter_upwards [hev] with u hu
    exact ⟨piecewise_of_index _ hk (getIndex_of_mem hN hk hu.1.le hu.2), hd u hu.1 hu.2⟩
  · have := ((hx.second _ (by linarith) (by linarith)).scomp t (hin t)).const_smul (pieces.length : ℝ)
    rw [smul_smul, ← pow_two] at this
    exact this

/-- C79 where the code is right: one piece. -/
theorem C79_partial {c : Curve ℝ V} (hx : CurveExact c) {t : ℝ} (h1 : 0 < t) (h2 : t < 1) : JacobianRight getIndex [c] t := by
  obtain ⟨F, F', J, H, g1, g2, -, g4, -⟩ := C79_derivatives (pieces := [c]) (k := 0) (by simp) hx
    (by simpa using h1) (by simpa using h2)
  refine ⟨F, J, g1.mono fun u hu => hu.1, g2, ?_⟩
  simpa using g4

/-- C79 is violated with two or more pieces wherever the piece does not stand still: the inner derivative is missing. -/
theorem C79_violated {pieces : List (Curve ℝ V)} (h2 : 2 ≤ pieces.length) {k : ℕ} (hk : k < pieces.length)
    (hx : CurveExact pieces[k]) {t : ℝ} (h3 : (k : ℝ) < pieces.length * t) (h4 : pieces.length * t < k + 1)
    (hne : pieces[k].jacobian (pieces.length * t - k) ≠ 0) : ¬ JacobianRight getIndex pieces t := by
  rintro ⟨F₀, J₀, g1, g2, g3⟩
  obtain ⟨F, F', J, H, e1, e2, -, e4, -⟩ := C79_derivatives hk hx h3 h4
  obtain rfl : J = J₀ := Option.some.inj (e2.symm.trans g2)
  have hJ : J ≠ 0 := by
    rw [piecewise_of_index _ hk (getIndex_of_mem (by omega) hk h3.le h4)] at e2
    rwa [← Option.some.inj e2]
  have hFF : F₀ =ᶠ[nhds t] F := by
    filter_upwards [g1, e1] with u h5 h6
    exact Option.some.inj (h5.symm.trans h6.1)
  have := (g3.congr_of_eventuallyEq hFF.symm).unique e4
  have h7 : ((pieces.length : ℝ) - 1) • J = 0 := by
    rw [sub_smul, one_smul, ← this, sub_self]
  have h8 : (2 : ℝ) ≤ pieces.length := by exact_mod_cast h2
  rcases smul_eq_zero.mp h7 with h9 | h9
  · linarith
  · exact hJ h9

end

/-- The consequence for Newton steps: where the gradient is `N` times and the matrix `N ^ 2` times the one of the code,
the step of the code is `N` times the Newton step. -/
theorem C79_step {n : ℕ} {N : ℝ} (hN : N ≠ 0) {A A' : Fin n → Fin n → ℝ} {g g' s s' : Fin n → ℝ}
    (hA : ∀ i j, A i j = N ^ 2 * A' i j) (hg : ∀ i, g i = N * g' i) (hreg : ∀ v : Fin n → ℝ, (∀ i, ∑ j, A i j * v j = 0) → v = 0)
    (hs : ∀ i, ∑ j, A i j * s j = -g i) (hs' : ∀ i, ∑ j, A' i j * s' j = -g' i) : s' = N • s := by
  have h := hreg (s' - N • s) fun i => ?_
  · exact sub_eq_zero.mp h
  · have e : ∑ j, A i j * (s' - N • s) j = N ^ 2 * ∑ j, A' i j * s' j - N * ∑ j, A i j * s j := by
      rw [Finset.mul_sum, Finset.mul_sum, ← Finset.sum_sub_distrib]
      refine Finset.sum_congr rfl fun j _ => ?_
      simp only [Pi.sub_apply, Pi.smul_apply, smul_eq_mul]
      rw [mul_sub, hA]
      ring
    rw [e, hs, hs', hg]
    ring

/-! ## Examples -/

/-- A parabola with its derivatives. -/
noncomputable def parabola (a : ℝ) : Curve ℝ ℝ := Curve.spline (fun s => a + s ^ 2) (fun s => 2 * s) fun _ => 2

theorem parabola_exact (a : ℝ) : CurveExact (parabola a) where
  first := by
    intro s h0 h1
    have e : (parabola a).jacobian s = 2 * s := by
      simp only [parabola, Curve.spline]
      rw [if_neg (by rintro (h | h) <;> linarith)]
    rw [e]
    simpa [parabola, Curve.spline] using ((hasDerivAt_id s).pow 2).const_add a
  second := by
    intro s h0 h1
    have e : (parabola a).hessian s = 2 := by
      simp only [parabola, Curve.spline]
      rw [if_neg (by rintro (h | h) <;> linarith)]
    rw [e]
    have h2 : HasDerivAt (fun s : ℝ => 2 * s) 2 s := by simpa using (hasDerivAt_id s).const_mul (2 : ℝ)
    refine h2.congr_of_eventuallyEq ?_
    filter_upwards [lt_mem_nhds h0, gt_mem_nhds h1] with u g0 g1
    simp only [parabola, Curve.spline]
    rw [if_neg (by rintro (h | h) <;> linarith)]

/-- Two parabolas: the jacobian is wrong at `1/4`. -/
example : ¬ JacobianRight getIndex [parabola 0, parabola 5] (1 / 4) := by
  refine C79_violated (k := 0) (by simp) (by simp) (parabola_exact 0) (by norm_num) (by norm_num) ?_
  simp only [List.getElem_cons_zero, parabola, Curve.spline]
  norm_num

/-- One parabola: it is right. -/
example : JacobianRight getIndex [parabola 0] (1 / 4) := C79_partial (parabola_exact 0) (by norm_num) (by norm_num)

/-- Small parameters in the version of examples/subset_selection: the only piece is evaluated near -1. -/
example : piecewise getIndexClose [(⟨fun s => s, fun _ => 1, fun _ => 0⟩ : Curve ℚ ℚ)] Curve.objective (1 / 10 ^ 9) =
    some (1 * (1 / 10 ^ 9 - 1)) :=
  C79_violated_close (by simp) _ (by norm_num) (by norm_num) (by norm_num)

/-- The hypotheses of `C79_ends`: two parabolas; the derivative at the end is 2, not 0. -/
example : piecewise getIndex [parabola 0, parabola 1] Curve.jacobian 1 = some 0 ∧
    HasDerivAt (fun s : ℝ => 1 + s ^ 2) 2 1 := by
  refine ⟨?_, by simpa using ((hasDerivAt_id (1 : ℝ)).pow 2).const_add 1⟩
  have := ((C79_ends (pieces := [parabola 0, parabola 1]) (sp := [fun s => 0 + s ^ 2, fun s => 1 + s ^ 2])
    (sp1 := [fun s => 2 * s, fun s => 2 * s]) (sp2 := [fun _ => 2, fun _ => 2]) (by simp) rfl rfl rfl (by
      intro k hk
      match k, hk with
      | 0, _ => rfl
      | 1, _ => rfl)).2 2 (by simp)).1
  simpa using this

end Verif.Props
