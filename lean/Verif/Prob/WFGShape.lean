import Verif.Prob.WFGTransform
import Mathlib.Algebra.BigOperators.Intervals

/-!
# The WFG shapes
-/

namespace Verif.Prob.WFG

/-- The value of a shape, by the number of leading factors. -/
noncomputable def T (p q : ℝ → ℝ) : List ℝ → ℕ → ℝ
  | [], _ => 1
  | a :: _, 0 => q a
  | a :: l, j + 1 => p a * T p q l j

theorem T_length (p q : ℝ → ℝ) : ∀ l : List ℝ, T p q l l.length = (l.map p).prod
  | [] => rfl
  | a :: l => by
    rw [List.length_cons, T, T_length p q l, List.map_cons, List.prod_cons]

theorem T_lt (p q : ℝ → ℝ) : ∀ (l : List ℝ) (j : ℕ), j < l.length → T p q l j = ((l.take j).map p).prod * q (l.getD j 0)
  | [], j, h => absurd h (Nat.not_lt_zero j)
  | a :: l, 0, _ => by
    rw [T, List.take_zero, List.map_nil, List.prod_nil, one_mul, List.getD_cons_zero]
  | a :: l, j + 1, h => by
    rw [T, T_lt p q l j (by simpa using h), List.take_succ_cons, List.map_cons, List.prod_cons, List.getD_cons_succ, mul_assoc]

/-- Shape `m` of the code. -/
theorem shapeFn_eq (p q : ℝ → ℝ) (x : List ℝ) (m : ℕ) (h1 : 1 ≤ m) (h2 : m ≤ x.length + 1) (hx : x ≠ []) :
    shapeFn p q x m = correct01 (T p q x (x.length + 1 - m)) := by
  have hp := List.length_pos_of_ne_nil hx
  unfold shapeFn
  by_cases hm : m = 1
  · rw [if_pos hm, hm, Nat.add_sub_cancel, T_length]
  · rw [if_neg hm]
    by_cases hm' : m ≤ x.length
    · rw [if_pos hm', T_lt p q x _ (by omega), show x.length + 1 - m = x.length - m + 1 by omega]
    · have : x.length + 1 - m = 0 := by omega
      rw [if_neg hm', this, T_lt p q x 0 hp, List.take_zero, List.map_nil, List.prod_nil, one_mul]

/-- Products of two functions of the unit interval. -/
theorem T_mem {p q : ℝ → ℝ} (hp : ∀ v, 0 ≤ v → v ≤ 1 → 0 ≤ p v ∧ p v ≤ 1) (hq : ∀ v, 0 ≤ v → v ≤ 1 → 0 ≤ q v ∧ q v ≤ 1) :
    ∀ (l : List ℝ) (j : ℕ), In01 l → 0 ≤ T p q l j ∧ T p q l j ≤ 1
  | [], _, _ => by
    rw [T]
    norm_num
  | a :: l, 0, h => by
    rw [T]
    have := h a List.mem_cons_self
    exact hq a this.1 this.2
  | a :: l, j + 1, h => by
    rw [T]
    have ha := h a List.mem_cons_self
    have := hp a ha.1 ha.2
    have ih := T_mem hp hq l j fun v hv => h v (List.mem_cons_of_mem _ hv)
    exact ⟨mul_nonneg this.1 ih.1, mul_le_one₀ this.2 ih.1 ih.2⟩

/-- If `p + q = 1`, the values add up to one. -/
theorem T_sum {p q : ℝ → ℝ} (h : ∀ v, p v + q v = 1) : ∀ l : List ℝ, ∑ j ∈ Finset.range (l.length + 1), T p q l j = 1
  | [] => by simp [T]
  | a :: l => by
    rw [List.length_cons, Finset.sum_range_succ']
    simp only [T]
    rw [← Finset.mul_sum, T_sum h l, mul_one, h a]

theorem T_sq (p q : ℝ → ℝ) : ∀ (l : List ℝ) (j : ℕ), T p q l j ^ 2 = T (fun v => p v ^ 2) (fun v => q v ^ 2) l j
  | [], _ => by
    rw [T, T]
    norm_num
  | a :: l, 0 => by rw [T, T]
  | a :: l, j + 1 => by rw [T, T, mul_pow, T_sq p q l j]

/-- The functions a shape is made of. -/
structure Shape (p q : ℝ → ℝ) : Prop where
  mono : StrictMonoOn p (Set.Icc 0 1)
  anti : StrictAntiOn q (Set.Icc 0 1)
  zero : p 0 = 0
  one : q 1 = 0

theorem Shape.p_nonneg {p q : ℝ → ℝ} (h : Shape p q) {v : ℝ} (h0 : 0 ≤ v) (h1 : v ≤ 1) : 0 ≤ p v := by
  rw [← h.zero]
  exact h.mono.monotoneOn ⟨le_rfl, zero_le_one⟩ ⟨h0, h1⟩ h0

theorem Shape.q_nonneg {p q : ℝ → ℝ} (h : Shape p q) {v : ℝ} (h0 : 0 ≤ v) (h1 : v ≤ 1) : 0 ≤ q v := by
  rw [← h.one]
  exact h.anti.antitoneOn ⟨h0, h1⟩ ⟨zero_le_one, le_rfl⟩ h1

/-- Not all values of a shape vanish. -/
theorem Shape.exists_pos {p q : ℝ → ℝ} (h : Shape p q) : ∀ l : List ℝ, In01 l → ∃ j, j ≤ l.length ∧ 0 < T p q l j
  | [], _ => ⟨0, le_rfl, by rw [T]; norm_num⟩
  | a :: l, hl => by
    have ha := hl a List.mem_cons_self
    rcases eq_or_lt_of_le ha.1 with h0 | h0
    · refine ⟨0, Nat.zero_le _, ?_⟩
      have := h.one
      rw [T, ← h0]
      refine this.symm.trans_lt ?_
      exact h.anti ⟨le_rfl, zero_le_one⟩ ⟨zero_le_one, le_rfl⟩ one_pos
    · obtain ⟨j, hj, hp⟩ := h.exists_pos l fun v hv => hl v (List.mem_cons_of_mem _ hv)
      refine ⟨j + 1, by rw [List.length_cons]; omega, ?_⟩
      rw [T]
      refine mul_pos ?_ hp
      rw [← h.zero]
      exact h.mono ⟨le_rfl, zero_le_one⟩ ha h0

/-- One step of the following theorem, in which the value without a factor may be of another kind. -/
theorem Shape.step {p q q0 : ℝ → ℝ} (h : Shape p q) (h0 : StrictAntiOn q0 (Set.Icc 0 1)) (a b : ℝ) (l l' : List ℝ)
    (ha : 0 ≤ a ∧ a ≤ 1) (hb : 0 ≤ b ∧ b ≤ 1) (hl : In01 l) (hlen : l.length = l'.length)
    (ih : (∀ j, j ≤ l.length → T p q l j ≤ T p q l' j) → ∀ j, j ≤ l.length → T p q l j = T p q l' j)
    (hq : q0 a ≤ q0 b) (hp : ∀ j, j ≤ l.length → p a * T p q l j ≤ p b * T p q l' j) :
    a = b ∧ ∀ j, j ≤ l.length → p a * T p q l j = p b * T p q l' j := by
  have hba : b ≤ a := (h0.le_iff_ge ha hb).mp hq
  have hpba : p b ≤ p a := h.mono.monotoneOn hb ha hba
  obtain ⟨i, hi, hpos⟩ := h.exists_pos l hl
  rcases eq_or_lt_of_le (h.p_nonneg hb.1 hb.2) with hz | hz
  · have hpa : p a = 0 := by
      have := hp i hi
      rw [← hz, zero_mul] at this
      refine le_antisymm ?_ (h.p_nonneg ha.1 ha.2)
      by_contra hc
      exact absurd this (not_le.mpr (mul_pos (not_le.mp hc) hpos))
    refine ⟨h.mono.injOn ha hb (by rw [hpa, hz]), fun j _ => ?_⟩
    rw [hpa, ← hz, zero_mul, zero_mul]
  · have hT : ∀ j, j ≤ l.length → T p q l j = T p q l' j := ih fun j hj => by
      rcases lt_or_ge (T p q l j) 0 with hn | hn
      · exfalso
        have key : ∀ (l : List ℝ) (j : ℕ), In01 l → 0 ≤ T p q l j := by
          intro l
          induction l with
          | nil => intro j _; rw [T]; norm_num
          | cons c l ihc =>
            intro j hc
            have hc' := hc c List.mem_cons_self
            cases j with
            | zero => exact h.q_nonneg hc'.1 hc'.2
            | succ j => exact mul_nonneg (h.p_nonneg hc'.1 hc'.2) (ihc j fun v hv => hc v (List.mem_cons_of_mem _ hv))
        exact absurd (key l j hl) (not_le.mpr hn)
      · have h1 := mul_le_mul_of_nonneg_right hpba hn
        exact le_of_mul_le_mul_left (h1.trans (hp j hj)) hz
    have hpab : p a ≤ p b := by
      have := hp i hi
      rw [← hT i hi] at this
      exact le_of_mul_le_mul_right this hpos
    have hab : a = b := h.mono.injOn ha hb (le_antisymm hpab hpba)
    exact ⟨hab, fun j hj => by rw [hab, hT j hj]⟩

/-- The values of a shape form an antichain. -/
theorem Shape.antichain {p q : ℝ → ℝ} (h : Shape p q) : ∀ (l l' : List ℝ), l.length = l'.length → In01 l → In01 l' →
    (∀ j, j ≤ l.length → T p q l j ≤ T p q l' j) → ∀ j, j ≤ l.length → T p q l j = T p q l' j
  | [], [], _, _, _, _, _, _ => rfl
  | [], _ :: _, hl, _, _, _, _, _ => by simp at hl
  | _ :: _, [], hl, _, _, _, _, _ => by simp at hl
  | a :: l, b :: l', hl, h1, h2, hT, j, hj => by
    have hlen : l.length = l'.length := by simpa using hl
    have hin := fun v hv => h1 v (List.mem_cons_of_mem a hv)
    obtain ⟨e, hE⟩ := h.step h.anti a b l l' (h1 a List.mem_cons_self) (h2 b List.mem_cons_self)
      hin hlen
      (h.antichain l l' hlen hin fun v hv => h2 v (List.mem_cons_of_mem _ hv))
      (by simpa only [T] using hT 0 (Nat.zero_le _))
      (fun j hj => by simpa only [T] using hT (j + 1) (by rw [List.length_cons]; omega))
    cases j with
    | zero => simp only [T, e]
    | succ j => simpa only [T] using hE j (by rw [List.length_cons] at hj; omega)

/-! ## The shapes of the code -/

theorem half_pi_mem {v : ℝ} (h0 : 0 ≤ v) (h1 : v ≤ 1) : 0 ≤ 0.5 * v * Real.pi ∧ 0.5 * v * Real.pi ≤ Real.pi / 2 := by
  have := Real.pi_pos
  constructor
  · positivity
  · nlinarith

theorem sin_strictMono : StrictMonoOn (fun v : ℝ => Real.sin (0.5 * v * Real.pi)) (Set.Icc 0 1) := by
  intro a ha b hb hab
  have h1 := half_pi_mem ha.1 ha.2
  have h2 := half_pi_mem hb.1 hb.2
  have := Real.pi_pos
  exact Real.sin_lt_sin_of_lt_of_le_pi_div_two (by linarith) h2.2 (by nlinarith)

theorem cos_strictAnti : StrictAntiOn (fun v : ℝ => Real.cos (0.5 * v * Real.pi)) (Set.Icc 0 1) := by
  intro a ha b hb hab
  have h1 := half_pi_mem ha.1 ha.2
  have h2 := half_pi_mem hb.1 hb.2
  have := Real.pi_pos
  exact Real.cos_lt_cos_of_nonneg_of_le_pi_div_two h1.1 h2.2 (by nlinarith)

theorem half_pi_one : (0.5 : ℝ) * 1 * Real.pi = Real.pi / 2 := by ring

theorem shape_concave : Shape (fun v => Real.sin (0.5 * v * Real.pi)) (fun v => Real.cos (0.5 * v * Real.pi)) where
  mono := sin_strictMono
  anti := cos_strictAnti
  zero := by norm_num
  one := by
    show Real.cos (0.5 * 1 * Real.pi) = 0
    rw [half_pi_one, Real.cos_pi_div_two]

theorem shape_convex : Shape (fun v => 1 - Real.cos (0.5 * v * Real.pi)) (fun v => 1 - Real.sin (0.5 * v * Real.pi)) where
  mono := fun _ ha _ hb hab => sub_lt_sub_left (cos_strictAnti ha hb hab) 1
  anti := fun _ ha _ hb hab => sub_lt_sub_left (sin_strictMono ha hb hab) 1
  zero := by norm_num
  one := by
    show 1 - Real.sin (0.5 * 1 * Real.pi) = 0
    rw [half_pi_one, Real.sin_pi_div_two, sub_self]

theorem shape_linear : Shape (fun v => v) (fun v => 1 - v) where
  mono := fun _ _ _ _ hab => hab
  anti := fun _ _ _ _ hab => sub_lt_sub_left hab 1
  zero := rfl
  one := sub_self 1

theorem mixed_strictAnti : StrictAntiOn mixed (Set.Icc 0 1) := by
  have e : ∀ x ∈ Set.Icc (0 : ℝ) 1, mixed x = 1 - x + Real.sin (10 * Real.pi * x) / (10 * Real.pi) := by
    intro x hx
    have hm := mixed_mem hx.1 hx.2
    have hc : Real.cos (2 * 5 * Real.pi * x + 0.5 * Real.pi) = -Real.sin (10 * Real.pi * x) := by
      rw [← Real.cos_add_pi_div_two]
      congr 1
      ring
    have hval : 1 - x - Real.cos (2 * 5 * Real.pi * x + 0.5 * Real.pi) / (2 * 5 * Real.pi) =
        1 - x + Real.sin (10 * Real.pi * x) / (10 * Real.pi) := by
      rw [hc]
      ring
    have hd : (0 : ℝ) < 10 * Real.pi := mul_pos (by norm_num) Real.pi_pos
    have s1 : Real.sin (10 * Real.pi * x) ≤ 10 * Real.pi * x := Real.sin_le (mul_nonneg hd.le hx.1)
    have s2 : Real.sin (10 * Real.pi * (1 - x)) ≤ 10 * Real.pi * (1 - x) := Real.sin_le (mul_nonneg hd.le (by linarith [hx.2]))
    have e2 : Real.sin (10 * Real.pi * x) = -Real.sin (10 * Real.pi * (1 - x)) := by
      have : 10 * Real.pi * (1 - x) = -(10 * Real.pi * x) + (5 : ℕ) * (2 * Real.pi) := by
        push_cast
        ring
      rw [this, Real.sin_add_nat_mul_two_pi, Real.sin_neg, neg_neg]
    have q1 : Real.sin (10 * Real.pi * x) / (10 * Real.pi) ≤ x := by
      rw [div_le_iff₀ hd]
      linarith
    have q2 : -(1 - x) ≤ Real.sin (10 * Real.pi * x) / (10 * Real.pi) := by
      rw [le_div_iff₀ hd, e2]
      linarith
    unfold mixed
    rw [hval]
    exact correct01_of_mem (by linarith) (by linarith)
  intro a ha b hb hab
  rw [e a ha, e b hb]
  have hd : (0 : ℝ) < 10 * Real.pi := mul_pos (by norm_num) Real.pi_pos
  have hs : Real.sin (10 * Real.pi * b) - Real.sin (10 * Real.pi * a) < 10 * Real.pi * (b - a) := by
    rw [Real.sin_sub_sin]
    have hpos : 0 < (10 * Real.pi * b - 10 * Real.pi * a) / 2 := by
      have := mul_pos hd (sub_pos.mpr hab)
      linarith
    have h1 := Real.sin_lt hpos
    have c1 := Real.cos_le_one ((10 * Real.pi * b + 10 * Real.pi * a) / 2)
    have c2 := Real.neg_one_le_cos ((10 * Real.pi * b + 10 * Real.pi * a) / 2)
    obtain ⟨u, hu⟩ : ∃ u, u = (10 * Real.pi * b - 10 * Real.pi * a) / 2 := ⟨_, rfl⟩
    obtain ⟨c, hc⟩ : ∃ c, c = Real.cos ((10 * Real.pi * b + 10 * Real.pi * a) / 2) := ⟨_, rfl⟩
    rw [← hu] at hpos h1 ⊢
    have h2 : -u < Real.sin u := by
      rcases le_or_gt u 1 with h | h
      · linarith [Real.sin_pos_of_pos_of_le_one hpos h]
      · linarith [Real.neg_one_le_sin u]
    rw [← hc] at c1 c2 ⊢
    have : Real.sin u * c ≤ |Real.sin u| := by
      calc Real.sin u * c ≤ |Real.sin u * c| := le_abs_self _
        _ = |Real.sin u| * |c| := abs_mul _ _
        _ ≤ |Real.sin u| * 1 := mul_le_mul_of_nonneg_left (abs_le.mpr ⟨c2, c1⟩) (abs_nonneg _)
        _ = |Real.sin u| := mul_one _
    have h3 : |Real.sin u| < u := abs_lt.mpr ⟨h2, h1⟩
    have e3 : 10 * Real.pi * (b - a) = 2 * u := by
      rw [hu]
      ring
    rw [e3]
    linarith
  have : (Real.sin (10 * Real.pi * b) - Real.sin (10 * Real.pi * a)) / (10 * Real.pi) < b - a := by
    rw [div_lt_iff₀ hd]
    linarith
  rw [sub_div] at this
  linarith

/-- The factors of the shapes of each problem. -/
noncomputable def pOf (number : ℕ) : ℝ → ℝ :=
  if number ≤ 2 then fun v => 1 - Real.cos (0.5 * v * Real.pi)
  else if number = 3 then fun v => v else fun v => Real.sin (0.5 * v * Real.pi)

noncomputable def qOf (number : ℕ) : ℝ → ℝ :=
  if number ≤ 2 then fun v => 1 - Real.sin (0.5 * v * Real.pi)
  else if number = 3 then fun v => 1 - v else fun v => Real.cos (0.5 * v * Real.pi)

/-- The value without a factor: that of the last objective. -/
noncomputable def q0Of (number : ℕ) : ℝ → ℝ :=
  if number = 1 then mixed else if number = 2 then disconnected else qOf number

theorem shape_of (number : ℕ) : Shape (pOf number) (qOf number) := by
  unfold pOf qOf
  by_cases h2 : number ≤ 2
  · rw [if_pos h2, if_pos h2]
    exact shape_convex
  · rw [if_neg h2, if_neg h2]
    by_cases h3 : number = 3
    · rw [if_pos h3, if_pos h3]
      exact shape_linear
    · rw [if_neg h3, if_neg h3]
      exact shape_concave

theorem anti_of (number : ℕ) (h : number ≠ 2) : StrictAntiOn (q0Of number) (Set.Icc 0 1) := by
  unfold q0Of
  by_cases h1 : number = 1
  · rw [if_pos h1]
    exact mixed_strictAnti
  · rw [if_neg h1, if_neg h]
    exact (shape_of number).anti

theorem p_mem (number : ℕ) (v : ℝ) (h0 : 0 ≤ v) (h1 : v ≤ 1) : 0 ≤ pOf number v ∧ pOf number v ≤ 1 := by
  refine ⟨(shape_of number).p_nonneg h0 h1, ?_⟩
  have hh := half_pi_mem h0 h1
  have := Real.pi_pos
  have hc := Real.cos_nonneg_of_neg_pi_div_two_le_of_le (x := 0.5 * v * Real.pi) (by linarith) hh.2
  unfold pOf
  by_cases h2 : number ≤ 2
  · rw [if_pos h2]
    linarith
  · rw [if_neg h2]
    by_cases h3 : number = 3
    · rw [if_pos h3]
      exact h1
    · rw [if_neg h3]
      exact Real.sin_le_one _

theorem q_mem (number : ℕ) (v : ℝ) (h0 : 0 ≤ v) (h1 : v ≤ 1) : 0 ≤ qOf number v ∧ qOf number v ≤ 1 := by
  refine ⟨(shape_of number).q_nonneg h0 h1, ?_⟩
  have hh := half_pi_mem h0 h1
  have := Real.pi_pos
  have hc := Real.sin_nonneg_of_nonneg_of_le_pi (x := 0.5 * v * Real.pi) hh.1 (by linarith)
  unfold qOf
  by_cases h2 : number ≤ 2
  · rw [if_pos h2]
    linarith
  · rw [if_neg h2]
    by_cases h3 : number = 3
    · rw [if_pos h3]
      linarith
    · rw [if_neg h3]
      exact Real.cos_le_one _

theorem q0_mem (number : ℕ) (v : ℝ) (h0 : 0 ≤ v) (h1 : v ≤ 1) : 0 ≤ q0Of number v ∧ q0Of number v ≤ 1 := by
  unfold q0Of
  by_cases e1 : number = 1
  · rw [if_pos e1]
    exact mixed_mem h0 h1
  · rw [if_neg e1]
    by_cases e2 : number = 2
    · rw [if_pos e2]
      exact disconnected_mem h0 h1
    · rw [if_neg e2]
      exact q_mem number v h0 h1

/-- The value of objective `n_obj - j` before scaling. -/
noncomputable def H (number : ℕ) (cols : List ℝ) (j : ℕ) : ℝ :=
  if j = 0 then q0Of number (cols.getD 0 0) else T (pOf number) (qOf number) cols j

theorem H_mem (number : ℕ) (cols : List ℝ) (j : ℕ) (h : In01 cols) : 0 ≤ H number cols j ∧ H number cols j ≤ 1 := by
  unfold H
  by_cases hj : j = 0
  · rw [if_pos hj]
    have := getD_mem01 h 0
    exact q0_mem number _ this.1 this.2
  · rw [if_neg hj]
    exact T_mem (p_mem number) (q_mem number) cols j h

theorem shapes_length (number nObj : ℕ) (h : 2 ≤ nObj) (y : List ℝ) : (shapes number nObj y).length = nObj := by
  unfold shapes
  split <;> simp
  all_goals omega

theorem shapes_getElem (number nObj : ℕ) (h1 : 1 ≤ number) (hn : 2 ≤ nObj) (cols : List ℝ) (last : ℝ)
    (hc : cols.length = nObj - 1) (hin : In01 cols) (m : ℕ) (hm : m < nObj) :
    (shapes number nObj (cols ++ [last]))[m]'(by rw [shapes_length number nObj hn]; exact hm) =
      H number cols (nObj - 1 - m) := by
  have hne : cols ≠ [] := ne_nil_of_length hc (by omega)
  have hd : (cols ++ [last]).dropLast = cols := List.dropLast_concat
  have hg : (cols ++ [last]).getD 0 0 = cols.getD 0 0 := by
    rw [List.getD_append _ _ _ _ (by omega)]
  have raw : ∀ p q : ℝ → ℝ, p = pOf number → q = qOf number →
      shapeFn p q cols (m + 1) = T (pOf number) (qOf number) cols (nObj - 1 - m) := by
    rintro p q rfl rfl
    rw [shapeFn_eq _ _ _ _ (by omega) (by omega) hne, show cols.length + 1 - (m + 1) = nObj - 1 - m by omega]
    have := T_mem (p_mem number) (q_mem number) cols (nObj - 1 - m) hin
    exact correct01_of_mem this.1 this.2
  have full : ∀ p q : ℝ → ℝ, p = pOf number → q = qOf number → number ≠ 1 → number ≠ 2 →
      shapeFn p q cols (m + 1) = H number cols (nObj - 1 - m) := by
    intro p q hp hq n1 n2
    rw [raw p q hp hq]
    unfold H
    by_cases hj : nObj - 1 - m = 0
    · rw [if_pos hj, hj, T_lt _ _ _ _ (by omega), List.take_zero, List.map_nil, List.prod_nil, one_mul]
      unfold q0Of
      rw [if_neg n1, if_neg n2]
    · rw [if_neg hj]
  have part : ∀ (p q : ℝ → ℝ) (e : ℝ), p = pOf number → q = qOf number → e = q0Of number (cols.getD 0 0) →
      ∀ hm', (((List.range (nObj - 1)).map fun i => shapeFn p q cols (i + 1)) ++ [e])[m]'hm' = H number cols (nObj - 1 - m) := by
    intro p q e hp hq he hm'
    by_cases hml : m < nObj - 1
    · rw [List.getElem_append_left (by simpa using hml), List.getElem_map, List.getElem_range, raw p q hp hq]
      unfold H
      rw [if_neg (by omega)]
    · rw [List.getElem_append_right (by simpa using hml), List.getElem_singleton, he]
      unfold H
      rw [if_pos (by omega)]
  by_cases n1 : number = 1
  · subst n1
    unfold shapes
    simp only [hd, hg]
    exact part _ _ _ rfl rfl rfl _
  · by_cases n2 : number = 2
    · subst n2
      unfold shapes
      simp only [hd, hg]
      exact part _ _ _ rfl rfl rfl _
    · by_cases n3 : number = 3
      · subst n3
        unfold shapes
        simp only [hd, List.getElem_map, List.getElem_range]
        exact full _ _ rfl rfl n1 n2
      · have hs : shapes number nObj (cols ++ [last]) = (List.range nObj).map fun i => concave (cols ++ [last]).dropLast (i + 1) := by
          unfold shapes
          split
          · exact absurd rfl n1
          · exact absurd rfl n2
          · exact absurd rfl n3
          · rfl
        simp only [hs, hd, List.getElem_map, List.getElem_range]
        refine full _ _ ?_ ?_ n1 n2
        · unfold pOf
          rw [if_neg (by omega), if_neg n3]
        · unfold qOf
          rw [if_neg (by omega), if_neg n3]

/-- The values of all objectives form an antichain, for each problem but WFG2. -/
theorem H_antichain (number : ℕ) (hn : number ≠ 2) (l l' : List ℝ) (hl : l ≠ []) (hlen : l.length = l'.length) (h : In01 l)
    (h' : In01 l') (hH : ∀ j, j ≤ l.length → H number l j ≤ H number l' j) :
    ∀ j, j ≤ l.length → H number l j = H number l' j := by
  cases l with
  | nil => exact absurd rfl hl
  | cons a l =>
    cases l' with
    | nil => simp at hlen
    | cons b l' =>
      have hlen' : l.length = l'.length := by simpa using hlen
      have hin := fun v hv => h v (List.mem_cons_of_mem a hv)
      have hs : ∀ j (c : ℝ) (l : List ℝ), H number (c :: l) (j + 1) = pOf number c * T (pOf number) (qOf number) l j := by
        intro j c l
        unfold H
        rw [if_neg (Nat.succ_ne_zero j), T]
      have hz : ∀ (c : ℝ) (l : List ℝ), H number (c :: l) 0 = q0Of number c := by
        intro c l
        unfold H
        rw [if_pos rfl, List.getD_cons_zero]
      obtain ⟨e, hE⟩ := (shape_of number).step (anti_of number hn) a b l l' (h a List.mem_cons_self) (h' b List.mem_cons_self)
        hin hlen' ((shape_of number).antichain l l' hlen' hin fun v hv => h' v (List.mem_cons_of_mem _ hv))
        (by have := hH 0 (Nat.zero_le _); rwa [hz, hz] at this)
        (fun j hj => by have := hH (j + 1) (by rw [List.length_cons]; omega); rwa [hs, hs] at this)
      intro j hj
      cases j with
      | zero => rw [hz, hz, e]
      | succ j =>
        rw [hs, hs]
        exact hE j (by rw [List.length_cons] at hj; omega)

/-- WFG4 to WFG9: the squares add up to one. -/
theorem H_sphere (number : ℕ) (h4 : 4 ≤ number) (cols : List ℝ) (hc : cols ≠ []) :
    ∑ j ∈ Finset.range (cols.length + 1), H number cols j ^ 2 = 1 := by
  have hp : pOf number = fun v => Real.sin (0.5 * v * Real.pi) := by
    unfold pOf
    rw [if_neg (by omega), if_neg (by omega)]
  have hq : qOf number = fun v => Real.cos (0.5 * v * Real.pi) := by
    unfold qOf
    rw [if_neg (by omega), if_neg (by omega)]
  have e : ∀ j, H number cols j = T (pOf number) (qOf number) cols j := by
    intro j
    unfold H
    by_cases hj : j = 0
    · rw [if_pos hj, hj, T_lt _ _ _ _ (List.length_pos_of_ne_nil hc), List.take_zero, List.map_nil, List.prod_nil, one_mul]
      unfold q0Of
      rw [if_neg (by omega), if_neg (by omega)]
    · rw [if_neg hj]
  simp only [e, T_sq]
  refine T_sum (fun v => ?_) cols
  rw [hp, hq]
  exact Real.sin_sq_add_cos_sq _

end Verif.Prob.WFG
