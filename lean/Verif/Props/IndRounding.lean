import Verif.Ind.FlModel
import Verif.Props.Rounding
import Verif.Props.MMD

/-!
# C84: GD, IGD and MMD with rounding
-/

namespace Verif.Props

open Verif.Ind Verif.HV

variable {N M m : ℕ} {u : ℝ} {fl : ℝ → ℝ}

/-! ## Sums -/

theorem flSum_near {ι : Type} [DecidableEq ι] (hr : Rounding u fl) {f g : ι → ℝ} {k : ℕ} (hg : ∀ i, 0 ≤ g i)
    (h : ∀ i, Near u k (f i) (g i)) {s : Finset ι} {v : ℝ} (hs : FlSum fl f s v) :
    Near u (k + (s.card - 1)) v (∑ i ∈ s, g i) := by
  induction hs with
  | empty => simp [Near]
  | one i => simpa using h i
  | @add s t a b hd h1 h2 _ _ ih1 ih2 =>
    have c1 := h1.card_pos
    have c2 := h2.card_pos
    have c : (s ∪ t).card = s.card + t.card := Finset.card_union_of_disjoint hd
    rw [Finset.sum_union hd]
    have hn1 : 0 ≤ ∑ i ∈ s, g i := Finset.sum_nonneg fun i _ => hg i
    have hn2 : 0 ≤ ∑ i ∈ t, g i := Finset.sum_nonneg fun i _ => hg i
    have e1 := ih1.mono hr.nonneg hr.lt_one hn1 (m := k + (s.card + t.card - 2)) (by omega)
    have e2 := ih2.mono hr.nonneg hr.lt_one hn2 (m := k + (s.card + t.card - 2)) (by omega)
    have := (e1.add e2).round hr (add_nonneg hn1 hn2)
    convert this using 1
    omega

theorem exists_flSum {ι : Type} [DecidableEq ι] (fl : ℝ → ℝ) (f : ι → ℝ) (s : Finset ι) : ∃ v, FlSum fl f s v := by
  induction s using Finset.induction_on with
  | empty => exact ⟨_, .empty⟩
  | @insert i s hi ih =>
    rcases s.eq_empty_or_nonempty with rfl | hs
    · exact ⟨_, by simpa using FlSum.one (fl := fl) (f := f) i⟩
    · obtain ⟨v, hv⟩ := ih
      exact ⟨_, FlSum.add (s := {i}) (Finset.disjoint_singleton_left.mpr hi) ⟨i, by simp⟩ hs (.one i) hv⟩

theorem _root_.Verif.HV.Near.sqrt {k : ℕ} {a b : ℝ} (hu : 0 ≤ u) (hu1 : u < 1) (h : Near u k a b) : Near u k √a √b := by
  have l0 : 0 ≤ (1 - u) ^ k := pow_nonneg (by linarith) k
  have l1 : (1 - u) ^ k ≤ 1 := pow_le_one₀ (by linarith) (by linarith)
  have l2 : 1 ≤ (1 + u) ^ k := one_le_pow₀ (by linarith)
  constructor
  · calc (1 - u) ^ k * √b ≤ √((1 - u) ^ k) * √b := by
          refine mul_le_mul_of_nonneg_right ?_ (Real.sqrt_nonneg _)
          exact Real.le_sqrt_of_sq_le (by nlinarith)
      _ = √((1 - u) ^ k * b) := (Real.sqrt_mul l0 b).symm
      _ ≤ √a := Real.sqrt_le_sqrt h.1
  · calc √a ≤ √((1 + u) ^ k * b) := Real.sqrt_le_sqrt h.2
      _ = √((1 + u) ^ k) * √b := Real.sqrt_mul (by linarith) b
      _ ≤ (1 + u) ^ k * √b := by
          refine mul_le_mul_of_nonneg_right ?_ (Real.sqrt_nonneg _)
          exact Real.sqrt_le_iff.mpr ⟨by linarith, by nlinarith⟩

theorem square_near (hr : Rounding u fl) (x y : ℝ) : Near u 3 (fl (fl (x - y) * fl (x - y))) ((x - y) ^ 2) := by
  have e : Near u 2 (fl (x - y) * fl (x - y)) ((x - y) ^ 2) := by
    rcases le_total 0 (x - y) with h | h
    · have := (Near.refl (u := u) (x - y)).round hr h
      have := this.mul this hr.nonneg hr.lt_one h h
      rwa [← sq (x - y)] at this
    · have := Near.round_neg hr (a := x - y) (Near.refl (u := u) (-(x - y))) (by linarith)
      have := this.mul this hr.nonneg hr.lt_one (by linarith) (by linarith)
      rwa [neg_mul_neg, neg_mul_neg, ← sq (x - y)] at this
  exact e.round hr (sq_nonneg _)

theorem squares_near (hr : Rounding u fl) {x y : Fin m → ℝ} {s : ℝ} (h : FlSquares fl x y s) :
    Near u (m + 3) s (∑ a, (x a - y a) ^ 2) := by
  refine (flSum_near hr (fun a => sq_nonneg _) (fun a => square_near hr (x a) (y a)) h).mono hr.nonneg hr.lt_one
    (Finset.sum_nonneg fun a _ => sq_nonneg _) ?_
  simp
  omega

theorem cdist_near (hr : Rounding u fl) {A : Fin N → Fin m → ℝ} {B : Fin M → Fin m → ℝ} {D : Fin N → Fin M → ℝ}
    (h : FlCdist fl A B D) (i : Fin N) (j : Fin M) : Near u (m + 4) (D i j) (eucl (A i) (B j)) := by
  obtain ⟨s, h1, h2⟩ := h i j
  rw [h2, eucl_eq]
  exact ((squares_near hr h1).sqrt hr.nonneg hr.lt_one).round hr (Real.sqrt_nonneg _)

theorem nearest_near (hr : Rounding u fl) {A : Fin N → Fin m → ℝ} {B : Fin M → Fin m → ℝ} {D : Fin N → Fin M → ℝ}
    (h : FlCdist fl A B D) {ind : Fin N → Fin M} (hi : argminRows D = some ind) (i : Fin N) :
    Near u (m + 4) (D i (ind i)) (nearest B (A i)) := by
  have : Nonempty (Fin M) := ⟨ind i⟩
  obtain ⟨j, hj⟩ := Finite.exists_min fun j => eucl (A i) (B j)
  rw [nearest_eq hj]
  have l0 : 0 ≤ (1 - u) ^ (m + 4) := pow_nonneg (by linarith [hr.lt_one]) _
  exact ⟨(mul_le_mul_of_nonneg_left (hj (ind i)) l0).trans (cdist_near hr h i (ind i)).1,
    (argminRows_eq_some hi i j).trans (cdist_near hr h i j).2⟩

theorem mean_near {ι : Type} [DecidableEq ι] [Fintype ι] (hr : Rounding u fl) {f g : ι → ℝ} {k : ℕ} (hg : ∀ i, 0 ≤ g i)
    (h : ∀ i, Near u k (f i) (g i)) {v : ℝ} (hv : FlMean fl f v) :
    Near u (k + Fintype.card ι) v ((∑ i, g i) / Fintype.card ι) := by
  obtain ⟨h0, s, hs, rfl⟩ := hv
  have hn : 0 ≤ ∑ i, g i := Finset.sum_nonneg fun i _ => hg i
  have e := flSum_near hr hg h hs
  have e1 : Near u (k + ((Finset.univ : Finset ι).card - 1)) (s / Fintype.card ι) ((∑ i, g i) / Fintype.card ι) := by
    have hp : (0 : ℝ) ≤ Fintype.card ι := Nat.cast_nonneg _
    exact ⟨by rw [← mul_div_assoc]; exact div_le_div_of_nonneg_right e.1 hp,
      by rw [← mul_div_assoc]; exact div_le_div_of_nonneg_right e.2 hp⟩
  have := e1.round hr (div_nonneg hn (Nat.cast_nonneg _))
  rw [Finset.card_univ] at this
  convert this using 1
  omega

theorem distances_near (hr : Rounding u fl) {A : Fin N → Fin m → ℝ} {B : Fin M → Fin m → ℝ} {v : ℝ}
    (h : ∃ D, FlCdist fl A B D ∧ ∃ ind, argminRows D = some ind ∧
      ∃ q, FlMean fl (fun i => fl (D i (ind i) * D i (ind i))) q ∧ v = fl √q) :
    N ≠ 0 ∧ Near u (N + 2 * m + 10) v √((∑ i, nearest B (A i) ^ 2) / N) := by
  obtain ⟨D, hD, ind, hi, q, hq, rfl⟩ := h
  refine ⟨by simpa using hq.1, ?_⟩
  have e := mean_near hr (g := fun i => nearest B (A i) ^ 2) (k := 2 * m + 9) (fun i => sq_nonneg _) (fun i => by
    have h1 := nearest_near hr hD hi i
    have h2 := (h1.mul h1 hr.nonneg hr.lt_one (nearest_nonneg _ _) (nearest_nonneg _ _)).round hr
      (mul_nonneg (nearest_nonneg _ _) (nearest_nonneg _ _))
    rw [← sq (nearest B (A i))] at h2
    exact h2.mono hr.nonneg hr.lt_one (sq_nonneg _) (by omega)) hq
  rw [Fintype.card_fin] at e
  refine ((e.sqrt hr.nonneg hr.lt_one).round hr (Real.sqrt_nonneg _)).mono hr.nonneg hr.lt_one (Real.sqrt_nonneg _) ?_
  omega

/-! ## GD and IGD -/

/-- C84 for GD: the computed value is exact up to `N + 2 d + 10` roundings, for `N` points in `d` objectives, whatever the
order of summation and also where the rounded distances have another nearest point. -/
theorem C84_gd (hr : Rounding u fl) {R : Fin M → Fin m → ℝ} {Y : Fin N → Fin m → ℝ} {v : ℝ} (h : FlGd fl R Y v) :
    ∃ g, gdCompute 2 R Y = some g ∧ RelErr u (N + 2 * m + 10) v g := by
  have hM : M ≠ 0 := by
    obtain ⟨D, -, ind, hi, q, hq, -⟩ := h
    have hN : 0 < N := Nat.pos_of_ne_zero (by simpa using hq.1)
    exact ((Nat.zero_le _).trans_lt (ind ⟨0, hN⟩).2).ne'
  obtain ⟨hN, e⟩ := distances_near hr h
  refine ⟨_, by rw [C36_value, if_neg (by tauto)], ?_⟩
  have : gdPow 2 R Y ^ ((1 : ℝ) / 2) = √((∑ i, nearest R (Y i) ^ 2) / N) := by
    rw [← Real.sqrt_eq_rpow]
    simp [gdPow]
  rw [this]
  exact e.relErr hr.nonneg hr.lt_one (Real.sqrt_nonneg _)

/-- C84 for IGD without matching, for `M` reference points. -/
theorem C84_igd (hr : Rounding u fl) {R : Fin M → Fin m → ℝ} {Y : Fin N → Fin m → ℝ} {v : ℝ} (h : FlIgd fl R Y v) :
    ∃ g, igdCompute 2 R Y = some g ∧ RelErr u (M + 2 * m + 10) v g := C84_gd hr h

/-- C84 for IGD with matching: the mean of the squared distances. -/
theorem C84_igd_matched (hr : Rounding u fl) {matched Y : Fin N → Fin m → ℝ} {v : ℝ} (h : FlIgdMatched fl matched Y v) :
    ∃ g, igdComputeMatched matched Y = some g ∧ RelErr u (N + m + 3) v g := by
  obtain ⟨s, hs, hv⟩ := h
  have hN : N ≠ 0 := by simpa using hv.1
  have e := mean_near hr (k := m + 3) (fun i => Finset.sum_nonneg fun a _ => sq_nonneg (Y i a - matched i a))
    (fun i => squares_near hr (hs i)) hv
  rw [Fintype.card_fin] at e
  refine ⟨_, by rw [igdComputeMatched, mean, if_neg hN], ?_⟩
  have := e.relErr hr.nonneg hr.lt_one (div_nonneg (Finset.sum_nonneg fun i _ =>
    Finset.sum_nonneg fun a _ => sq_nonneg (Y i a - matched i a)) (Nat.cast_nonneg _))
  convert this using 1
  omega

/-! ## Kernels -/

/-- The error of a kernel in `m` objectives: `m + 6` roundings of the argument and one of the value. -/
noncomputable def kernelError (u : ℝ) (m : ℕ) : ℝ := ((1 + u) ^ (m + 6) - 1 + u) / (1 - u) ^ (m + 6)

theorem exp_le_one {a : ℝ} (ha : 0 ≤ a) : Real.exp (-a) ≤ 1 := Real.exp_le_one_iff.mpr (by linarith)

theorem exp_slope {x y : ℝ} : Real.exp y - Real.exp x ≤ (y - x) * Real.exp y := by
  have h := Real.add_one_le_exp (x - y)
  have e : Real.exp x = Real.exp (x - y) * Real.exp y := by rw [← Real.exp_add]; congr 1; ring
  have := mul_le_mul_of_nonneg_right h (Real.exp_pos y).le
  rw [← e] at this
  nlinarith

theorem exp_near {K : ℕ} (hu : 0 ≤ u) (hu1 : u < 1) {a a' : ℝ} (ha : 0 ≤ a) (h : Near u K a' a) :
    |Real.exp (-a') - Real.exp (-a)| ≤ ((1 + u) ^ K - 1) / (1 - u) ^ K := by
  have c0 : 0 < (1 - u) ^ K := pow_pos (by linarith) K
  have c1 : (1 - u) ^ K ≤ 1 := pow_le_one₀ (by linarith) (by linarith)
  have g0 : 1 ≤ (1 + u) ^ K := one_le_pow₀ (by linarith)
  have hrel : |a' - a| ≤ ((1 + u) ^ K - 1) * a := h.relErr hu hu1 ha
  have hx : (1 - u) ^ K * a * Real.exp (-((1 - u) ^ K * a)) ≤ 1 := by
    have h1 := Real.add_one_le_exp ((1 - u) ^ K * a)
    rw [Real.exp_neg, ← div_eq_mul_inv, div_le_one (Real.exp_pos _)]
    linarith
  have key : |Real.exp (-a') - Real.exp (-a)| ≤ |a' - a| * Real.exp (-((1 - u) ^ K * a)) := by
    have b1 : Real.exp (-a') ≤ Real.exp (-((1 - u) ^ K * a)) := Real.exp_le_exp.mpr (by linarith [h.1])
    have b2 : Real.exp (-a) ≤ Real.exp (-((1 - u) ^ K * a)) := Real.exp_le_exp.mpr (by nlinarith)
    rw [abs_le]
    constructor
    · have s1 := exp_slope (x := -a') (y := -a)
      have s2 : (-a - -a') * Real.exp (-a) ≤ |a' - a| * Real.exp (-((1 - u) ^ K * a)) := by
        refine mul_le_mul ?_ b2 (Real.exp_pos _).le (abs_nonneg _)
        have := le_abs_self (a' - a)
        linarith
      linarith
    · have s1 := exp_slope (x := -a) (y := -a')
      have s2 : (-a' - -a) * Real.exp (-a') ≤ |a' - a| * Real.exp (-((1 - u) ^ K * a)) := by
        refine mul_le_mul ?_ b1 (Real.exp_pos _).le (abs_nonneg _)
        have := neg_abs_le (a' - a)
        linarith
      linarith
  refine key.trans ?_
  rw [le_div_iff₀ c0]
  calc |a' - a| * Real.exp (-((1 - u) ^ K * a)) * (1 - u) ^ K
      ≤ ((1 + u) ^ K - 1) * a * Real.exp (-((1 - u) ^ K * a)) * (1 - u) ^ K := by
        refine mul_le_mul_of_nonneg_right (mul_le_mul_of_nonneg_right hrel (Real.exp_pos _).le) c0.le
    _ = ((1 + u) ^ K - 1) * ((1 - u) ^ K * a * Real.exp (-((1 - u) ^ K * a))) := by ring
    _ ≤ ((1 + u) ^ K - 1) * 1 := mul_le_mul_of_nonneg_left hx (by linarith)
    _ = (1 + u) ^ K - 1 := mul_one _

theorem round_error (hr : Rounding u fl) {e x w b : ℝ} (he : 0 ≤ e) (heb : e ≤ b) (h : |e - x| ≤ w) :
    0 ≤ fl e ∧ |fl e - x| ≤ w + u * b := by
  have h1 := hr.err e
  rw [abs_of_nonneg he] at h1
  have h2 := abs_le.mp h1
  have hu1 := hr.lt_one
  have hu := hr.nonneg
  constructor
  · nlinarith
  · calc |fl e - x| = |(fl e - e) + (e - x)| := by congr 1; ring
      _ ≤ |fl e - e| + |e - x| := abs_add_le _ _
      _ ≤ u * e + w := add_le_add h1 h
      _ ≤ w + u * b := by nlinarith

theorem exp_kernel (hr : Rounding u fl) {theta : ℝ} (ht : 0 ≤ theta) {s t : ℝ} (ht0 : 0 ≤ t) {k : ℕ} (hk : k ≤ m + 5)
    (h : Near u k s t) :
    0 ≤ fl (Real.exp (-fl (theta * s))) ∧ |fl (Real.exp (-fl (theta * s))) - Real.exp (-(theta * t))| ≤ kernelError u m := by
  have hu := hr.nonneg
  have hu1 := hr.lt_one
  have hp : 0 ≤ theta * t := mul_nonneg ht ht0
  have e1 : Near u k (theta * s) (theta * t) := by
    simpa using (Near.refl theta).mul h hu hu1 ht ht0
  have e2 : Near u (m + 6) (fl (theta * s)) (theta * t) := (e1.round hr hp).mono hu hu1 hp (by omega)
  have e3 := exp_near hu hu1 hp e2
  have hnn : 0 ≤ fl (theta * s) := e2.nonneg hu1 hp
  obtain ⟨h1, h2⟩ := round_error hr (Real.exp_pos _).le (exp_le_one hnn) e3
  refine ⟨h1, h2.trans ?_⟩
  have c0 : 0 < (1 - u) ^ (m + 6) := pow_pos (by linarith) _
  have c1 : (1 - u) ^ (m + 6) ≤ 1 := pow_le_one₀ (by linarith) (by linarith)
  rw [kernelError, add_div, mul_one]
  have : u ≤ u / (1 - u) ^ (m + 6) := by
    rw [le_div_iff₀ c0]
    nlinarith
  linarith

/-- C84, kernels: the computed value of each of the three kernels is not negative and its absolute error is at most
`kernelError`, about `(m + 7) u`. -/
theorem C84_kernels (hr : Rounding u fl) {theta : ℝ} (ht : 0 ≤ theta) {x y : Fin m → ℝ} {v : ℝ} :
    (FlRbf fl theta x y v → 0 ≤ v ∧ |v - rbf theta x y| ≤ kernelError u m) ∧
    (FlLaplace fl theta x y v → 0 ≤ v ∧ |v - laplace theta x y| ≤ kernelError u m) ∧
    (FlRationalQuadratic fl theta x y v → 0 ≤ v ∧ |v - rationalQuadratic theta 1 x y| ≤ kernelError u m) := by
  have hu := hr.nonneg
  have hu1 := hr.lt_one
  refine ⟨?_, ?_, ?_⟩
  · rintro ⟨s, hs, rfl⟩
    have := exp_kernel hr ht (m := m) (Finset.sum_nonneg fun a _ => sq_nonneg (x a - y a)) (by omega) (squares_near hr hs)
    rwa [← neg_mul] at this
  · rintro ⟨s, hs, rfl⟩
    have hn : ∀ a, Near u 1 |fl (x a - y a)| |x a - y a| := fun a => by
      rcases le_total 0 (x a - y a) with h | h
      · have h1 := (Near.refl (u := u) (x a - y a)).round hr h
        rw [abs_of_nonneg h, abs_of_nonneg (h1.nonneg hu1 h)]
        exact h1
      · have h1 := Near.round_neg hr (a := x a - y a) (Near.refl (u := u) (-(x a - y a))) (by linarith)
        have h2 := h1.nonneg hu1 (by linarith)
        rw [abs_of_nonpos h, abs_of_nonpos (by linarith)]
        exact h1
    have e := flSum_near hr (fun a => abs_nonneg (x a - y a)) hn hs
    have := exp_kernel hr ht (m := m) (Finset.sum_nonneg fun a _ => abs_nonneg (x a - y a)) (by simp; omega) e
    rwa [← neg_mul] at this
  · rintro ⟨s, hs, rfl⟩
    set t : ℝ := ∑ a, (x a - y a) ^ 2 with htd
    have t0 : 0 ≤ t := Finset.sum_nonneg fun a _ => sq_nonneg (x a - y a)
    have p0 : 0 ≤ t * theta := mul_nonneg t0 ht
    have e1 : Near u (m + 4) (fl (s * theta)) (t * theta) := by
      have := ((squares_near hr hs).mul (Near.refl theta) hu hu1 t0 ht).round hr p0
      exact this
    have e2 : Near u (m + 5) (fl (fl (s * theta) / 2)) (t * theta / 2) := by
      refine Near.round hr (k := m + 4) ⟨?_, ?_⟩ (by linarith)
      · linarith [e1.1]
      · linarith [e1.2]
    have e3 : Near u (m + 6) (fl (fl (fl (s * theta) / 2) + 1)) (t * theta / 2 + 1) :=
      (e2.add ((Near.refl (1 : ℝ)).mono hu hu1 zero_le_one (Nat.zero_le _))).round hr (by linarith)
    set b : ℝ := t * theta / 2 + 1 with hb
    set a : ℝ := fl (fl (fl (s * theta) / 2) + 1) with ha
    have b1 : 1 ≤ b := by rw [hb]; linarith
    have c0 : 0 < (1 - u) ^ (m + 6) := pow_pos (by linarith) _
    have c1 : (1 - u) ^ (m + 6) ≤ 1 := pow_le_one₀ (by linarith) (by linarith)
    have a0 : (1 - u) ^ (m + 6) ≤ a := by nlinarith [e3.1]
    have apos : 0 < a := c0.trans_le a0
    have hrel : |a - b| ≤ ((1 + u) ^ (m + 6) - 1) * b := e3.relErr hu hu1 (by linarith)
    have hinv : |a⁻¹ - b⁻¹| ≤ ((1 + u) ^ (m + 6) - 1) / (1 - u) ^ (m + 6) := by
      rw [inv_sub_inv apos.ne' (by linarith), abs_div, abs_of_pos (mul_pos apos (by linarith)), abs_sub_comm,
        div_le_div_iff₀ (mul_pos apos (by linarith)) c0]
      have g0 : 1 ≤ (1 + u) ^ (m + 6) := one_le_pow₀ (by linarith)
      calc |a - b| * (1 - u) ^ (m + 6) ≤ ((1 + u) ^ (m + 6) - 1) * b * a :=
            mul_le_mul hrel a0 c0.le (mul_nonneg (by linarith) (by linarith))
        _ = ((1 + u) ^ (m + 6) - 1) * (a * b) := by ring
    have hk : rationalQuadratic theta 1 x y = b⁻¹ := by
      rw [rationalQuadratic, hb, ← htd, Real.rpow_neg_one, mul_one]
    rw [hk]
    obtain ⟨h1, h2⟩ := round_error hr (inv_nonneg.mpr apos.le) (inv_anti₀ c0 a0) hinv
    refine ⟨h1, h2.trans_eq ?_⟩
    rw [kernelError, add_div, ← div_eq_mul_inv]

/-! ## MMD -/

/-- The error of a mean of `P` kernel values with error `w`. -/
noncomputable def meanError (u w : ℝ) (P : ℕ) : ℝ := ((1 + u) ^ P - 1) * (1 + w) + w

theorem meanCdist_error (hr : Rounding u fl) {k : (Fin m → ℝ) → (Fin m → ℝ) → ℝ} {kf : (Fin m → ℝ) → (Fin m → ℝ) → ℝ → Prop}
    {w : ℝ} (hk : ∀ x y v, kf x y v → 0 ≤ v ∧ |v - k x y| ≤ w) (h01 : ∀ x y, 0 ≤ k x y ∧ k x y ≤ 1)
    {A : Fin N → Fin m → ℝ} {B : Fin M → Fin m → ℝ} {v : ℝ} (h : FlMeanCdist fl kf A B v) {P : ℕ} (hP : N * M ≤ P) :
    ∃ g, meanCdist k A B = some g ∧ 0 ≤ v ∧ 0 ≤ g ∧ g ≤ 1 ∧ |v - g| ≤ meanError u w P := by
  have hu := hr.nonneg
  have hu1 := hr.lt_one
  obtain ⟨K, hK, hv⟩ := h
  have hc : N * M ≠ 0 := by simpa using hv.1
  have hpos : (0 : ℝ) < (N * M : ℕ) := by exact_mod_cast Nat.pos_of_ne_zero hc
  have hK0 : ∀ q, 0 ≤ K q := fun q => (hk _ _ _ (hK q)).1
  have hKe : ∀ q, |K q - k (A q.1) (B q.2)| ≤ w := fun q => (hk _ _ _ (hK q)).2
  have e := mean_near hr (g := K) (k := 0) hK0 (fun q => Near.refl _) hv
  rw [Fintype.card_prod, Fintype.card_fin, Fintype.card_fin, zero_add] at e
  set S : ℝ := ∑ q, K q with hS
  have hS0 : 0 ≤ S := Finset.sum_nonneg fun q _ => hK0 q
  set T : ℝ := ∑ q : Fin N × Fin M, k (A q.1) (B q.2) with hT
  have hcard : ((Finset.univ : Finset (Fin N × Fin M)).card : ℝ) = (N * M : ℕ) := by
    rw [Finset.card_univ, Fintype.card_prod, Fintype.card_fin, Fintype.card_fin]
  have hT0 : 0 ≤ T := Finset.sum_nonneg fun q _ => (h01 _ _).1
  have hT1 : T ≤ (N * M : ℕ) := by
    rw [← hcard]
    have := Finset.sum_le_card_nsmul (Finset.univ : Finset (Fin N × Fin M)) (fun q => k (A q.1) (B q.2)) 1
      fun q _ => (h01 _ _).2
    simpa using this
  have hST : |S - T| ≤ (N * M : ℕ) * w := by
    rw [hS, hT, ← Finset.sum_sub_distrib]
    refine (Finset.abs_sum_le_sum_abs _ _).trans ?_
    rw [← hcard]
    have := Finset.sum_le_card_nsmul (Finset.univ : Finset (Fin N × Fin M)) (fun q => |K q - k (A q.1) (B q.2)|) w
      fun q _ => hKe q
    simpa using this
  have hq : |S / (N * M : ℕ) - T / (N * M : ℕ)| ≤ w := by
    rw [← sub_div, abs_div, abs_of_pos hpos, div_le_iff₀ hpos]
    linarith
  have hT1' : T / (N * M : ℕ) ≤ 1 := (div_le_one hpos).mpr hT1
  have hS1 : S / (N * M : ℕ) ≤ 1 + w := by linarith [(abs_le.mp hq).2]
  have hS0' : 0 ≤ S / (N * M : ℕ) := div_nonneg hS0 hpos.le
  have e' := e.mono hu hu1 hS0' hP
  have hrel : |v - S / (N * M : ℕ)| ≤ ((1 + u) ^ P - 1) * (S / (N * M : ℕ)) := e'.relErr hu hu1 hS0'
  have g0 : 1 ≤ (1 + u) ^ P := one_le_pow₀ (by linarith)
  refine ⟨T / (N * M : ℕ), ?_, e.nonneg hu1 hS0', div_nonneg hT0 hpos.le, hT1', ?_⟩
  · rw [meanCdist, if_neg hc, hT, Fintype.sum_prod_type]
  · calc |v - T / (N * M : ℕ)| = |(v - S / (N * M : ℕ)) + (S / (N * M : ℕ) - T / (N * M : ℕ))| := by congr 1; ring
      _ ≤ |v - S / (N * M : ℕ)| + |S / (N * M : ℕ) - T / (N * M : ℕ)| := abs_add_le _ _
      _ ≤ ((1 + u) ^ P - 1) * (1 + w) + w :=
        add_le_add (hrel.trans (mul_le_mul_of_nonneg_left hS1 (by linarith))) hq

/-- C84 for MMD: the absolute error, for kernels with values in `[0, 1]` that are computed with an absolute error of at
most `w`, and at most `P` pairs of points. -/
theorem C84_mmd_partial (hr : Rounding u fl) {k : (Fin m → ℝ) → (Fin m → ℝ) → ℝ}
    {kf : (Fin m → ℝ) → (Fin m → ℝ) → ℝ → Prop} {w : ℝ} (hk : ∀ x y v, kf x y v → 0 ≤ v ∧ |v - k x y| ≤ w)
    (h01 : ∀ x y, 0 ≤ k x y ∧ k x y ≤ 1) {R : Fin M → Fin m → ℝ} {Y : Fin N → Fin m → ℝ} {v : ℝ}
    (h : FlMmd fl kf R Y v) {P : ℕ} (hP : max N M * max N M ≤ P) :
    ∃ g, mmdCompute k R Y = some g ∧
      |v - g| ≤ 4 * meanError u w P + u * (6 + 2 * u) * (1 + meanError u w P) := by
  have hu := hr.nonneg
  obtain ⟨rr, yy, ry, h1, h2, h3, rfl⟩ := h
  obtain ⟨g1, a1, b1, c1, d1, e1⟩ := meanCdist_error hr hk h01 h1 (P := P)
    ((Nat.mul_le_mul (le_max_right _ _) (le_max_right _ _)).trans hP)
  obtain ⟨g2, a2, b2, c2, d2, e2⟩ := meanCdist_error hr hk h01 h2 (P := P)
    ((Nat.mul_le_mul (le_max_left _ _) (le_max_left _ _)).trans hP)
  obtain ⟨g3, a3, b3, c3, d3, e3⟩ := meanCdist_error hr hk h01 h3 (P := P)
    ((Nat.mul_le_mul (le_max_right _ _) (le_max_left _ _)).trans hP)
  refine ⟨g1 + g2 - 2 * g3, by rw [mmdCompute, a1, a2, a3]; rfl, ?_⟩
  set E := meanError u w P
  have E0 : 0 ≤ E := (abs_nonneg _).trans e1
  rw [abs_le] at e1 e2 e3
  have s1 := hr.err (rr + yy)
  have s2 := hr.err (2 * ry)
  rw [abs_of_nonneg (by linarith : 0 ≤ rr + yy)] at s1
  rw [abs_of_nonneg (by linarith : 0 ≤ 2 * ry)] at s2
  have t1 : u * (rr + yy) ≤ u * (2 * (1 + E)) := mul_le_mul_of_nonneg_left (by linarith) hu
  have t2 : u * (2 * ry) ≤ u * (2 * (1 + E)) := mul_le_mul_of_nonneg_left (by linarith) hu
  have s1' := abs_le.mp s1
  have s2' := abs_le.mp s2
  have n1 : 0 ≤ fl (rr + yy) := by nlinarith [hr.lt_one]
  have n2 : 0 ≤ fl (2 * ry) := by nlinarith [hr.lt_one]
  have m1 : |fl (rr + yy) - fl (2 * ry)| ≤ 2 * (1 + E) + u * (2 * (1 + E)) := by
    rw [abs_le]
    constructor <;> linarith
  have s3 := hr.err (fl (rr + yy) - fl (2 * ry))
  have t3 := s3.trans (mul_le_mul_of_nonneg_left m1 hu)
  rw [abs_le] at t3
  rw [abs_le]
  constructor <;> nlinarith

theorem kernel_bounds {theta : ℝ} (ht : 0 ≤ theta) (x y : Fin m → ℝ) :
    (0 ≤ rbf theta x y ∧ rbf theta x y ≤ 1) ∧ (0 ≤ laplace theta x y ∧ laplace theta x y ≤ 1) ∧
    (0 ≤ rationalQuadratic theta 1 x y ∧ rationalQuadratic theta 1 x y ≤ 1) := by
  have t0 : 0 ≤ ∑ a, (x a - y a) ^ 2 := Finset.sum_nonneg fun a _ => sq_nonneg (x a - y a)
  have t1 : 0 ≤ ∑ a, |x a - y a| := Finset.sum_nonneg fun a _ => abs_nonneg (x a - y a)
  refine ⟨⟨(Real.exp_pos _).le, Real.exp_le_one_iff.mpr ?_⟩, ⟨(Real.exp_pos _).le, Real.exp_le_one_iff.mpr ?_⟩, ?_⟩
  · nlinarith
  · nlinarith
  · have : 1 ≤ (∑ a, (x a - y a) ^ 2) * theta / 2 + 1 := by
      have := mul_nonneg t0 ht
      linarith
    rw [rationalQuadratic, Real.rpow_neg_one, mul_one]
    exact ⟨inv_nonneg.mpr (by linarith), inv_le_one_of_one_le₀ this⟩

theorem pow_bound {u : ℝ} (hu : 0 ≤ u) (hu1 : u < 1) {m : ℕ} (hm : m * u ≤ 1 / 2) : (1 + u) ^ m - 1 ≤ 2 * (m * u) := by
  have h : RelErr u m ((1 + u) ^ m) 1 := by
    have : 1 ≤ (1 + u) ^ m := one_le_pow₀ (by linarith)
    rw [RelErr, abs_of_nonneg (by linarith), mul_one]
  have h1 := h.gamma hu hu1 zero_le_one (by linarith)
  have h0 : 0 ≤ m * u := mul_nonneg (Nat.cast_nonneg _) hu
  have h2 : m * u / (1 - m * u) ≤ 2 * (m * u) := by
    rw [div_le_iff₀ (by linarith)]
    nlinarith
  have := (abs_le.mp h1).2
  linarith

theorem doubles_bound (hm : m ≤ 1000) {P : ℕ} (hPr : (P : ℝ) = 1000000) :
    4 * meanError (1 / 2 ^ 53) (kernelError (1 / 2 ^ 53) m) P +
      1 / 2 ^ 53 * (6 + 2 * (1 / 2 ^ 53)) * (1 + meanError (1 / 2 ^ 53) (kernelError (1 / 2 ^ 53) m) P) ≤ 1 / 10 ^ 8 := by
  have hw : kernelError (1 / 2 ^ 53) m ≤ 1 / 10 ^ 12 := by
    have hm' : ((m + 6 : ℕ) : ℝ) ≤ 1006 := by exact_mod_cast (by omega : m + 6 ≤ 1006)
    have h1 := pow_bound (u := 1 / 2 ^ 53) (by positivity) (by norm_num) (m := m + 6) (by
      have := mul_le_mul_of_nonneg_right hm' (by positivity : (0 : ℝ) ≤ 1 / 2 ^ 53)
      refine this.trans (by norm_num))
    have h2 : 1 + ((m + 6 : ℕ) : ℝ) * (-(1 / 2 ^ 53)) ≤ (1 + -(1 / 2 ^ 53)) ^ (m + 6) := one_add_mul_le_pow (by norm_num) _
    rw [← sub_eq_add_neg] at h2
    have h3 : ((m + 6 : ℕ) : ℝ) * (1 / 2 ^ 53) ≤ 1006 * (1 / 2 ^ 53) := mul_le_mul_of_nonneg_right hm' (by positivity)
    have h4 : (1 / 2 : ℝ) ≤ (1 - 1 / 2 ^ 53) ^ (m + 6) := by
      refine le_trans ?_ h2
      have : (1006 : ℝ) * (1 / 2 ^ 53) ≤ 1 / 2 := by norm_num
      linarith
    rw [kernelError, div_le_iff₀ (by linarith)]
    have : 2 * ((1006 : ℝ) * (1 / 2 ^ 53)) + 1 / 2 ^ 53 ≤ 1 / 10 ^ 12 * (1 / 2) := by norm_num
    nlinarith
  have hw0 : 0 ≤ kernelError (1 / 2 ^ 53) m := by
    have : (1 : ℝ) ≤ (1 + 1 / 2 ^ 53) ^ (m + 6) := one_le_pow₀ (by norm_num)
    exact div_nonneg (by linarith [(by positivity : (0 : ℝ) ≤ 1 / 2 ^ 53)]) (pow_nonneg (by norm_num) _)
  have hG := pow_bound (u := 1 / 2 ^ 53) (by positivity) (by norm_num) (m := P) (by rw [hPr]; norm_num)
  have hG0 : (1 : ℝ) ≤ (1 + 1 / 2 ^ 53) ^ P := one_le_pow₀ (by norm_num)
  have hG1 : (1 + 1 / 2 ^ 53 : ℝ) ^ P - 1 ≤ 1 / 10 ^ 9 := hG.trans (by rw [hPr]; norm_num)
  have hE : meanError (1 / 2 ^ 53) (kernelError (1 / 2 ^ 53) m) P ≤ 11 / 10 ^ 10 := by
    unfold meanError
    generalize kernelError (1 / 2 ^ 53) m = w at *
    generalize (1 + 1 / 2 ^ 53 : ℝ) ^ P = G at *
    have : (G - 1) * (1 + w) ≤ 1 / 10 ^ 9 * (1 + 1 / 10 ^ 12) := mul_le_mul hG1 (by linarith) (by linarith) (by norm_num)
    norm_num at *
    linarith
  generalize meanError (1 / 2 ^ 53) (kernelError (1 / 2 ^ 53) m) P = E at *
  norm_num at *
  linarith

/-- Doubles: for at most 1000 points and reference points in at most 1000 objectives, with any of the three kernels, the
error of MMD is below `10^-8`. -/
theorem C84_doubles (hr : Rounding (1 / 2 ^ 53) fl) {theta : ℝ} (ht : 0 ≤ theta) (hN : N ≤ 1000) (hM : M ≤ 1000)
    (hm : m ≤ 1000) {R : Fin M → Fin m → ℝ} {Y : Fin N → Fin m → ℝ} {v : ℝ} :
    (FlMmd fl (FlRbf fl theta) R Y v → ∃ g, mmdCompute (rbf theta) R Y = some g ∧ |v - g| ≤ 1 / 10 ^ 8) ∧
    (FlMmd fl (FlLaplace fl theta) R Y v → ∃ g, mmdCompute (laplace theta) R Y = some g ∧ |v - g| ≤ 1 / 10 ^ 8) ∧
    (FlMmd fl (FlRationalQuadratic fl theta) R Y v →
      ∃ g, mmdCompute (rationalQuadratic theta 1) R Y = some g ∧ |v - g| ≤ 1 / 10 ^ 8) := by
  obtain ⟨P, hPe⟩ : ∃ P : ℕ, P = 1000000 := ⟨_, rfl⟩
  have hPr : (P : ℝ) = 1000000 := by rw [hPe]; norm_num
  have hP : max N M * max N M ≤ P := hPe ▸ (Nat.mul_le_mul (max_le hN hM) (max_le hN hM)).trans (by norm_num)
  clear hPe
  have hfin := doubles_bound hm hPr
  refine ⟨fun h => ?_, fun h => ?_, fun h => ?_⟩
  · obtain ⟨g, h1, h2⟩ := C84_mmd_partial hr (k := rbf theta) (kf := FlRbf fl theta) (w := kernelError (1 / 2 ^ 53) m)
      (fun x y v hv => (C84_kernels hr ht).1 hv) (fun x y => (kernel_bounds ht x y).1) h hP
    exact ⟨g, h1, h2.trans hfin⟩
  · obtain ⟨g, h1, h2⟩ := C84_mmd_partial hr (k := laplace theta) (kf := FlLaplace fl theta) (w := kernelError (1 / 2 ^ 53) m)
      (fun x y v hv => (C84_kernels hr ht).2.1 hv) (fun x y => (kernel_bounds ht x y).2.1) h hP
    exact ⟨g, h1, h2.trans hfin⟩
  · obtain ⟨g, h1, h2⟩ := C84_mmd_partial hr (k := rationalQuadratic theta 1) (kf := FlRationalQuadratic fl theta) (w := kernelError (1 / 2 ^ 53) m)
      (fun x y v hv => (C84_kernels hr ht).2.2 hv) (fun x y => (kernel_bounds ht x y).2.2) h hP
    exact ⟨g, h1, h2.trans hfin⟩

theorem snap_small (hu1 : u < 1) {x : ℝ} (h : |x| < 1 / 2) : snap u x = x := by
  have h0 : round x = 0 := round_eq_zero_iff.mpr ⟨by linarith [(abs_lt.mp h).1], (abs_lt.mp h).2⟩
  unfold snap
  split
  · next h1 =>
    rw [h0, Int.cast_zero, zero_sub, abs_neg] at h1
    have : |x| = 0 := by nlinarith [abs_nonneg x]
    rw [h0, abs_eq_zero.mp this, Int.cast_zero]
  · rfl

theorem snap_one_of {x : ℝ} (hu : 0 ≤ u) (hu1 : u < 1 / 2) (h1 : x ≤ 1) (h2 : 1 - x ≤ u * x) : snap u x = 1 := by
  have hx : 1 / 2 ≤ x := by
    rcases le_total 0 x with h | h
    · nlinarith
    · nlinarith [mul_nonneg hu (neg_nonneg.mpr h)]
  have h0 : round x = 1 := by
    rw [round_eq, Int.floor_eq_iff]
    constructor <;> push_cast <;> linarith
  unfold snap
  rw [h0, if_pos]
  · simp
  · rw [Int.cast_one, abs_of_nonneg (by linarith), abs_of_nonneg (by linarith)]
    exact h2

theorem flMean_single {k : (Fin 1 → ℝ) → (Fin 1 → ℝ) → ℝ → Prop} {fl : ℝ → ℝ} (h1 : fl 1 = 1) {A B : Fin 1 → Fin 1 → ℝ}
    (h : k (A 0) (B 0) 1) : FlMeanCdist fl k A B 1 := by
  refine ⟨fun _ => 1, fun q => ?_, by simp, 1, ?_, ?_⟩
  · have e1 : q.1 = 0 := Subsingleton.elim _ _
    have e2 : q.2 = 0 := Subsingleton.elim _ _
    rw [e1, e2]
    exact h
  · exact FlSum.one (fl := fl) (f := fun _ : Fin 1 × Fin 1 => (1 : ℝ)) (0, 0)
  · simp [h1]

/-- C84 does not hold for MMD: its relative error is not bounded. However small the unit `u`, there is a rounding and two
different sets whose computed MMD is zero (the default kernel, one point, one objective). -/
theorem C84_violated (hu : 0 < u) (hu1 : u < 1 / 2) :
    ∃ fl, Rounding u fl ∧ ∃ R Y : Fin 1 → Fin 1 → ℝ, FlMmd fl (FlRbf fl 1) R Y 0 ∧
      ∃ g, mmdCompute (rbf 1) R Y = some g ∧ 0 < g := by
  obtain ⟨t, ht, ht2⟩ : ∃ t : ℝ, 0 < t ∧ t ^ 2 = u / 4 := ⟨√(u / 4), Real.sqrt_pos.mpr (by linarith), Real.sq_sqrt (by linarith)⟩
  have ht1 : t < 1 / 2 := by nlinarith
  have s0 : snap u 0 = 0 := by simpa using snap_int hu.le 0
  have s1 : snap u 1 = 1 := by simpa using snap_int hu.le 1
  have s2 : snap u 2 = 2 := by simpa using snap_int hu.le 2
  have hsum : ∀ f : Fin 1 → ℝ, FlSum (snap u) f Finset.univ (f 0) := fun f => FlSum.one (fl := snap u) (f := f) 0
  have e1 : Real.exp (-(u / 4)) ≤ 1 := exp_le_one (by linarith)
  have e2 : 1 - u / 4 ≤ Real.exp (-(u / 4)) := by linarith [Real.add_one_le_exp (-(u / 4))]
  have same : ∀ x : Fin 1 → ℝ, FlRbf (snap u) 1 x x 1 := fun x =>
    ⟨_, hsum _, by simp [s0, s1]⟩
  have other : FlRbf (snap u) 1 (fun _ : Fin 1 => (0 : ℝ)) (fun _ => t) 1 := by
    refine ⟨_, hsum _, ?_⟩
    have a1 : snap u (0 - t) = -t := by
      rw [zero_sub, snap_small (by linarith)]
      rw [abs_neg, abs_of_pos ht]
      exact ht1
    have a2 : snap u (u / 4) = u / 4 := snap_small (by linarith) (by rw [abs_of_pos (by linarith)]; linarith)
    rw [a1, neg_mul_neg, ← sq, ht2, a2, one_mul, a2, snap_one_of hu.le hu1 e1 (by nlinarith)]
  refine ⟨snap u, snap_rounding hu.le (by linarith), fun _ _ => 0, fun _ _ => t,
    ⟨1, 1, 1, flMean_single s1 (same _), flMean_single s1 (same _), flMean_single s1 other, ?_⟩,
    mmdOf (rbf 1) (fun _ _ => 0 : Fin 1 → Fin 1 → ℝ) (fun _ _ => t : Fin 1 → Fin 1 → ℝ), ?_, ?_⟩
  · rw [one_add_one_eq_two, mul_one, s2, sub_self, s0]
  · rw [C38_value, if_neg (by norm_num)]
  · have : Real.exp (-t ^ 2) < 1 := Real.exp_lt_one_iff.mpr (by nlinarith)
    simp [mmdOf, rbf]
    linarith

/-- Doubles: for at most a million points in at most a thousand objectives the relative error of GD is below `10^-9`. -/
theorem C84_doubles_gd (hr : Rounding (1 / 2 ^ 53) fl) (hN : N ≤ 10 ^ 6) (hm : m ≤ 1000) {R : Fin M → Fin m → ℝ}
    {Y : Fin N → Fin m → ℝ} {v : ℝ} (h : FlGd fl R Y v) :
    ∃ g, gdCompute 2 R Y = some g ∧ |v - g| ≤ 1 / 10 ^ 9 * g := by
  obtain ⟨g, h1, h2⟩ := C84_gd hr h
  have g0 : 0 ≤ g := (C36_zero two_pos h1).1
  refine ⟨g, h1, h2.trans (mul_le_mul_of_nonneg_right ?_ g0)⟩
  have hK : ((N + 2 * m + 10 : ℕ) : ℝ) ≤ 1002010 := by exact_mod_cast (by omega : N + 2 * m + 10 ≤ 1002010)
  have hb : ((N + 2 * m + 10 : ℕ) : ℝ) * (1 / 2 ^ 53) ≤ 1002010 * (1 / 2 ^ 53) := mul_le_mul_of_nonneg_right hK (by positivity)
  refine (pow_bound (by positivity) (by norm_num) (hb.trans (by norm_num))).trans ?_
  have : 2 * ((1002010 : ℝ) * (1 / 2 ^ 53)) ≤ 1 / 10 ^ 9 := by norm_num
  linarith

/-! ## Examples -/

theorem exists_flCdist (fl : ℝ → ℝ) (A : Fin N → Fin m → ℝ) (B : Fin M → Fin m → ℝ) : ∃ D, FlCdist fl A B D := by
  choose s hs using fun i j => exists_flSum fl (fun a => fl (fl (A i a - B j a) * fl (A i a - B j a))) Finset.univ
  exact ⟨fun i j => fl √(s i j), fun i j => ⟨s i j, hs i j, rfl⟩⟩

/-- With points and reference points there is a computed value, for every rounding. -/
example (fl : ℝ → ℝ) (R : Fin 3 → Fin 2 → ℝ) (Y : Fin 4 → Fin 2 → ℝ) : (∃ v, FlGd fl R Y v) ∧ ∃ v, FlIgd fl R Y v := by
  constructor
  · obtain ⟨D, hD⟩ := exists_flCdist fl Y R
    obtain ⟨ind, hi⟩ := exists_argminRows (by norm_num) D
    obtain ⟨s, hs⟩ := exists_flSum fl (fun i => fl (D i (ind i) * D i (ind i))) Finset.univ
    exact ⟨_, D, hD, ind, hi, _, ⟨by simp, s, hs, rfl⟩, rfl⟩
  · obtain ⟨D, hD⟩ := exists_flCdist fl R Y
    obtain ⟨ind, hi⟩ := exists_argminRows (by norm_num) D
    obtain ⟨s, hs⟩ := exists_flSum fl (fun i => fl (D i (ind i) * D i (ind i))) Finset.univ
    exact ⟨_, D, hD, ind, hi, _, ⟨by simp, s, hs, rfl⟩, rfl⟩

/-- A rounding with the error of doubles that is not exact. -/
example : Rounding (1 / 2 ^ 53) (snap (1 / 2 ^ 53)) ∧ snap (1 / 2 ^ 53) (1 + 1 / 2 ^ 54) ≠ 1 + 1 / 2 ^ 54 := by
  refine ⟨snap_rounding (by positivity) (by norm_num), ?_⟩
  have h0 : round (1 + 1 / 2 ^ 54 : ℝ) = 1 := by
    rw [round_eq, Int.floor_eq_iff]
    constructor <;> norm_num
  unfold snap
  rw [h0, if_pos]
  · norm_num
  · norm_num [abs_of_pos, abs_of_neg]

example (fl : ℝ → ℝ) : ∃ v, FlIgdMatched fl (![![0, 1], ![1, 0]] : Fin 2 → Fin 2 → ℝ) ![![2, 1], ![1, 3]] v := by
  choose s hs using fun i => exists_flSum fl (fun a : Fin 2 =>
    fl (fl ((![![2, 1], ![1, 3]] : Fin 2 → Fin 2 → ℝ) i a - (![![0, 1], ![1, 0]] : Fin 2 → Fin 2 → ℝ) i a) *
      fl ((![![2, 1], ![1, 3]] : Fin 2 → Fin 2 → ℝ) i a - (![![0, 1], ![1, 0]] : Fin 2 → Fin 2 → ℝ) i a))) Finset.univ
  obtain ⟨v, hv⟩ := exists_flSum fl s Finset.univ
  exact ⟨_, s, hs, by simp, v, hv, rfl⟩

example (fl : ℝ → ℝ) (x y : Fin 3 → ℝ) : (∃ v, FlRbf fl 2 x y v) ∧ (∃ v, FlLaplace fl 2 x y v) ∧
    ∃ v, FlRationalQuadratic fl 2 x y v := by
  obtain ⟨s, hs⟩ := exists_flSum fl (fun a => fl (fl (x a - y a) * fl (x a - y a))) Finset.univ
  obtain ⟨t, ht⟩ := exists_flSum fl (fun a => |fl (x a - y a)|) Finset.univ
  exact ⟨⟨_, s, hs, rfl⟩, ⟨_, t, ht, rfl⟩, _, s, hs, rfl⟩

end Verif.Props
