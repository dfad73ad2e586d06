import Verif.Prob.WFGLemmas
import Mathlib.Data.List.GetD
import Mathlib.Algebra.Order.BigOperators.Group.Finset
import Mathlib.Algebra.BigOperators.Ring.Finset
import Mathlib.Algebra.Order.BigOperators.Group.List

/-!
# Ranges of the WFG reductions
-/

namespace Verif.Prob.WFG

/-- All entries are in the unit interval. -/
def In01 (l : List ℝ) : Prop := ∀ v ∈ l, 0 ≤ v ∧ v ≤ 1

/-! ## The non-separable reduction -/

/-- The sum of the values and of all distances between them. -/
noncomputable def spread (n : ℕ) (y : ℕ → ℝ) : ℝ :=
  ∑ a ∈ Finset.range n, y a + ∑ a ∈ Finset.range n, ∑ b ∈ Finset.range n, |y a - y b|

theorem spread_convex (n : ℕ) (y y0 y1 : ℕ → ℝ) (t : ℝ) (ht0 : 0 ≤ t) (ht1 : t ≤ 1)
    (h : ∀ a, y a = (1 - t) * y0 a + t * y1 a) : spread n y ≤ (1 - t) * spread n y0 + t * spread n y1 := by
  have hp : ∀ a b, |y a - y b| ≤ (1 - t) * |y0 a - y0 b| + t * |y1 a - y1 b| := by
    intro a b
    have e : y a - y b = (1 - t) * (y0 a - y0 b) + t * (y1 a - y1 b) := by
      rw [h a, h b]
      ring
    rw [e]
    refine (abs_add_le _ _).trans_eq ?_
    rw [abs_mul, abs_mul, abs_of_nonneg ht0, abs_of_nonneg (by linarith : 0 ≤ 1 - t)]
  unfold spread
  have h1 : ∑ a ∈ Finset.range n, y a = (1 - t) * ∑ a ∈ Finset.range n, y0 a + t * ∑ a ∈ Finset.range n, y1 a := by
    rw [Finset.mul_sum, Finset.mul_sum, ← Finset.sum_add_distrib]
    exact Finset.sum_congr rfl fun a _ => h a
  have h2 : ∑ a ∈ Finset.range n, ∑ b ∈ Finset.range n, |y a - y b| ≤
      (1 - t) * (∑ a ∈ Finset.range n, ∑ b ∈ Finset.range n, |y0 a - y0 b|) +
        t * ∑ a ∈ Finset.range n, ∑ b ∈ Finset.range n, |y1 a - y1 b| := by
    simp only [Finset.mul_sum]
    rw [← Finset.sum_add_distrib]
    refine Finset.sum_le_sum fun a _ => ?_
    rw [← Finset.sum_add_distrib]
    exact Finset.sum_le_sum fun b _ => hp a b
  nlinarith

/-- For zeros and ones the value depends on the number of ones only. -/
theorem spread_binary (n : ℕ) (y : ℕ → ℝ) (h : ∀ a, y a = 0 ∨ y a = 1) :
    ∃ j : ℤ, spread n y = (j : ℝ) * (1 + 2 * n - 2 * j) := by
  have hj : ∃ j : ℤ, ∑ a ∈ Finset.range n, y a = (j : ℝ) := by
    induction n with
    | zero => exact ⟨0, by simp⟩
    | succ n ih =>
      obtain ⟨j, hj⟩ := ih
      rw [Finset.sum_range_succ, hj]
      rcases h n with h | h
      · exact ⟨j, by rw [h, add_zero]⟩
      · exact ⟨j + 1, by rw [h]; push_cast; rfl⟩
  obtain ⟨j, hj⟩ := hj
  refine ⟨j, ?_⟩
  have hp : ∀ a b, |y a - y b| = y a + y b - 2 * (y a * y b) := by
    intro a b
    rcases h a with ha | ha <;> rcases h b with hb | hb <;> rw [ha, hb] <;> norm_num
  unfold spread
  have : ∑ a ∈ Finset.range n, ∑ b ∈ Finset.range n, |y a - y b| = 2 * n * j - 2 * j ^ 2 := by
    simp only [hp, Finset.sum_sub_distrib, Finset.sum_add_distrib, Finset.sum_const, Finset.card_range, nsmul_eq_mul,
      ← Finset.mul_sum, ← Finset.sum_mul, hj]
    ring
  rw [this, hj]
  ring

/-- The bound: the integer maximum of `j (1 + 2 n - 2 j)`. -/
theorem spread_le (n : ℕ) (v : ℤ) (hv : 2 * v = n ∨ 2 * v = n + 1) :
    ∀ (s : Finset ℕ) (y : ℕ → ℝ), (∀ a, 0 ≤ y a ∧ y a ≤ 1) → (∀ a, a ∉ s → y a = 0 ∨ y a = 1) →
      spread n y ≤ (v : ℝ) * (1 + 2 * n - 2 * v) := by
  classical
  intro s
  induction s using Finset.induction_on with
  | empty =>
    intro y _ hy
    obtain ⟨j, hj⟩ := spread_binary n y fun a => hy a (Finset.notMem_empty a)
    rw [hj]
    have hint : j * (1 + 2 * (n : ℤ) - 2 * j) ≤ v * (1 + 2 * (n : ℤ) - 2 * v) := by
      rcases hv with hv | hv
      · have : v * (1 + 2 * (n : ℤ) - 2 * v) - j * (1 + 2 * (n : ℤ) - 2 * j) = (v - j) * (2 * (v - j) + 1) := by
          rw [← hv]
          ring
        have : 0 ≤ (v - j) * (2 * (v - j) + 1) := by
          rcases le_or_gt 0 (v - j) with h | h
          · positivity
          · exact mul_nonneg_of_nonpos_of_nonpos h.le (by linarith)
        linarith
      · have hn : (n : ℤ) = 2 * v - 1 := by linarith
        have : v * (1 + 2 * (n : ℤ) - 2 * v) - j * (1 + 2 * (n : ℤ) - 2 * j) = (v - j) * (2 * (v - j) - 1) := by
          rw [hn]
          ring
        have : 0 ≤ (v - j) * (2 * (v - j) - 1) := by
          rcases lt_or_ge 0 (v - j) with h | h
          · exact mul_nonneg h.le (by linarith)
          · exact mul_nonneg_of_nonpos_of_nonpos h (by linarith)
        linarith
    exact_mod_cast hint
  | insert c s _ ih =>
    intro y hy hs
    have key : ∀ w : ℝ, w = 0 ∨ w = 1 → spread n (Function.update y c w) ≤ (v : ℝ) * (1 + 2 * n - 2 * v) := by
      intro w hw
      refine ih _ (fun a => ?_) (fun a ha => ?_)
      · by_cases hac : a = c
        · subst hac
          rw [Function.update_self]
          rcases hw with rfl | rfl <;> norm_num
        · rw [Function.update_of_ne hac]
          exact hy a
      · by_cases hac : a = c
        · subst hac
          rw [Function.update_self]
          exact hw
        · rw [Function.update_of_ne hac]
          exact hs a (fun h => (Finset.mem_insert.mp h).elim hac ha)
    have hc := spread_convex n y (Function.update y c 0) (Function.update y c 1) (y c) (hy c).1 (hy c).2 (fun a => by
      by_cases hac : a = c
      · subst hac
        rw [Function.update_self, Function.update_self]
        ring
      · rw [Function.update_of_ne hac, Function.update_of_ne hac]
        ring)
    have k0 := mul_le_mul_of_nonneg_left (key 0 (Or.inl rfl)) (by linarith [(hy c).2] : 0 ≤ 1 - y c)
    have k1 := mul_le_mul_of_nonneg_left (key 1 (Or.inr rfl)) (hy c).1
    linarith

theorem getD_mem01 {y : List ℝ} (h : In01 y) (c : ℕ) : 0 ≤ y.getD c 0 ∧ y.getD c 0 ≤ 1 := by
  by_cases hc : c < y.length
  · rw [List.getD_eq_getElem _ _ hc]
    exact h _ (List.getElem_mem hc)
  · rw [List.getD_eq_default _ _ (not_lt.mp hc)]
    norm_num

theorem nonSepNum_nonneg {y : List ℝ} (h : In01 y) (A : ℕ) : 0 ≤ nonSepNum y A :=
  Finset.sum_nonneg fun c _ => add_nonneg (getD_mem01 h c).1 (Finset.sum_nonneg fun _ _ => abs_nonneg _)

/-- The indices of the inner loop are different, so its sum is at most the sum over all of them. -/
theorem nonSepNum_le_spread (y : List ℝ) : nonSepNum y y.length ≤ spread y.length (y.getD · 0) := by
  unfold nonSepNum spread
  rw [Finset.sum_add_distrib]
  refine add_le_add le_rfl (Finset.sum_le_sum fun c hc => ?_)
  have hn : 0 < y.length := lt_of_le_of_lt (Nat.zero_le _) (Finset.mem_range.mp hc)
  have hinj : Set.InjOn (fun o => (c + o + 1) % y.length) (Finset.range (y.length - 1) : Set ℕ) := by
    intro o ho o' ho' e
    have l1 : o < y.length - 1 := Finset.mem_range.mp ho
    have l2 : o' < y.length - 1 := Finset.mem_range.mp ho'
    have e' : (c + 1 + o) % y.length = (c + 1 + o') % y.length := by
      have : (c + o + 1) % y.length = (c + o' + 1) % y.length := e
      rw [show c + 1 + o = c + o + 1 by omega, show c + 1 + o' = c + o' + 1 by omega, this]
    have e'' : o % y.length = o' % y.length := Nat.ModEq.add_left_cancel' (c + 1) e'
    rwa [Nat.mod_eq_of_lt (by omega), Nat.mod_eq_of_lt (by omega)] at e''
  rw [← Finset.sum_image (f := fun b => |y.getD c 0 - y.getD b 0|) hinj]
  refine Finset.sum_le_sum_of_subset_of_nonneg (fun b hb => ?_) (fun _ _ _ => abs_nonneg _)
  obtain ⟨o, _, rfl⟩ := Finset.mem_image.mp hb
  exact Finset.mem_range.mpr (Nat.mod_lt _ hn)

theorem ceil_half (n : ℕ) : 2 * ⌈(n : ℝ) / 2⌉ = (n : ℤ) ∨ 2 * ⌈(n : ℝ) / 2⌉ = (n : ℤ) + 1 := by
  have h1 := Int.le_ceil ((n : ℝ) / 2)
  have h2 := Int.ceil_lt_add_one ((n : ℝ) / 2)
  have h3 : (n : ℝ) ≤ ((2 * ⌈(n : ℝ) / 2⌉ : ℤ) : ℝ) := by
    push_cast
    linarith
  have h4 : ((2 * ⌈(n : ℝ) / 2⌉ : ℤ) : ℝ) < ((n + 2 : ℤ) : ℝ) := by
    push_cast
    linarith
  have h5 : (n : ℤ) ≤ 2 * ⌈(n : ℝ) / 2⌉ := by exact_mod_cast h3
  have h6 : 2 * ⌈(n : ℝ) / 2⌉ < (n : ℤ) + 2 := by exact_mod_cast h4
  omega

theorem denominator_pos (n : ℕ) (hn : 0 < n) : 0 < (⌈(n : ℝ) / 2⌉ : ℝ) * (1 + 2 * n - 2 * (⌈(n : ℝ) / 2⌉ : ℝ)) := by
  have hn' : (1 : ℤ) ≤ n := by exact_mod_cast hn
  have h := ceil_half n
  have h1 : (0 : ℤ) < ⌈(n : ℝ) / 2⌉ := by omega
  have h2 : (0 : ℤ) < 1 + 2 * n - 2 * ⌈(n : ℝ) / 2⌉ := by omega
  exact_mod_cast mul_pos h1 h2

theorem nonSeparable_eq (y : List ℝ) (hy : y ≠ []) : nonSeparable y y.length =
    some (correct01 (nonSepNum y y.length / ((⌈(y.length : ℝ) / 2⌉ : ℝ) * (1 + 2 * y.length - 2 * (⌈(y.length : ℝ) / 2⌉ : ℝ))))) := by
  have hl : y.length ≠ 0 := fun h => hy (List.length_eq_zero_iff.mp h)
  unfold nonSeparable
  rw [if_neg (by rintro (h | h); exacts [hy h, hl h])]
  have hl' : (y.length : ℝ) ≠ 0 := by exact_mod_cast hl
  dsimp only
  congr 3
  field_simp

theorem nonSeparable_mem (y : List ℝ) (hy : y ≠ []) (h : In01 y) :
    ∃ v, nonSeparable y y.length = some v ∧ 0 ≤ v ∧ v ≤ 1 := by
  have hd := denominator_pos y.length (List.length_pos_of_ne_nil hy)
  have hle := (nonSepNum_le_spread y).trans (spread_le y.length _ (ceil_half y.length) (Finset.range y.length) (y.getD · 0)
    (fun a => getD_mem01 h a) (fun a ha => Or.inl (List.getD_eq_default _ _ (not_lt.mp fun h' => ha (Finset.mem_range.mpr h')))))
  have r0 := div_nonneg (nonSepNum_nonneg h y.length) hd.le
  have r1 := (div_le_one hd).mpr hle
  exact ⟨_, nonSeparable_eq y hy, by rw [correct01_of_mem r0 r1]; exact r0, by rw [correct01_of_mem r0 r1]; exact r1⟩

theorem nonSeparable_zero (n : ℕ) (hn : 0 < n) : nonSeparable (List.replicate n 0) n = some 0 := by
  have hne : List.replicate n (0 : ℝ) ≠ [] := fun h => by
    have := congrArg List.length h
    rw [List.length_replicate] at this
    exact absurd this (by simpa using hn.ne')
  have h := nonSeparable_eq _ hne
  rw [List.length_replicate] at h
  have hz : nonSepNum (List.replicate n 0) n = 0 := by
    unfold nonSepNum
    have hg : ∀ c, (List.replicate n (0 : ℝ)).getD c 0 = 0 := by
      intro c
      by_cases hc : c < (List.replicate n (0 : ℝ)).length
      · rw [List.getD_eq_getElem _ _ hc, List.getElem_replicate]
      · rw [List.getD_eq_default _ _ (not_lt.mp hc)]
    simp only [hg, sub_self, abs_zero, Finset.sum_const_zero, add_zero]
  rw [h, hz, zero_div]
  norm_num [correct01]

/-! ## Means -/

theorem sum_mem {l : List ℝ} (h : In01 l) : 0 ≤ l.sum ∧ l.sum ≤ l.length := by
  induction l with
  | nil => norm_num
  | cons a l ih =>
    have h1 := ih fun v hv => h v (List.mem_cons_of_mem _ hv)
    have h2 := h a List.mem_cons_self
    rw [List.sum_cons, List.length_cons]
    push_cast
    constructor <;> linarith

theorem uniformSum_mem {l : List ℝ} (hl : l ≠ []) (h : In01 l) : ∃ v, uniformSum l = some v ∧ 0 ≤ v ∧ v ≤ 1 := by
  have hp : (0 : ℝ) < l.length := by exact_mod_cast List.length_pos_of_ne_nil hl
  have hs := sum_mem h
  have r0 : 0 ≤ l.sum / l.length := div_nonneg hs.1 hp.le
  have r1 : l.sum / l.length ≤ 1 := (div_le_one hp).mpr hs.2
  unfold uniformSum
  rw [if_neg hl, correct01_of_mem r0 r1]
  exact ⟨_, rfl, r0, r1⟩

theorem uniformSum_eq {l : List ℝ} (hl : l ≠ []) (h : In01 l) : uniformSum l = some (l.sum / l.length) := by
  have hp : (0 : ℝ) < l.length := by exact_mod_cast List.length_pos_of_ne_nil hl
  have hs := sum_mem h
  unfold uniformSum
  rw [if_neg hl, correct01_of_mem (div_nonneg hs.1 hp.le) ((div_le_one hp).mpr hs.2)]

theorem weightedSum_mem {l : List (ℝ × ℝ)} (hl : l ≠ []) (h : ∀ q ∈ l, (0 ≤ q.1 ∧ q.1 ≤ 1) ∧ 0 < q.2) :
    ∃ v, weightedSum l = some v ∧ 0 ≤ v ∧ v ≤ 1 := by
  have key : ∀ l : List (ℝ × ℝ), (∀ q ∈ l, (0 ≤ q.1 ∧ q.1 ≤ 1) ∧ 0 < q.2) →
      0 ≤ (l.map fun q => q.1 * q.2).sum ∧ (l.map fun q => q.1 * q.2).sum ≤ (l.map Prod.snd).sum ∧
        (l ≠ [] → 0 < (l.map Prod.snd).sum) := by
    intro l
    induction l with
    | nil => simp
    | cons q l ih =>
      intro h
      obtain ⟨h1, h2, _⟩ := ih fun v hv => h v (List.mem_cons_of_mem _ hv)
      obtain ⟨⟨a, b⟩, c⟩ := h q List.mem_cons_self
      simp only [List.map_cons, List.sum_cons]
      have e0 : 0 ≤ q.1 * q.2 := mul_nonneg a c.le
      have e1 : q.1 * q.2 ≤ q.2 := mul_le_of_le_one_left c.le b
      exact ⟨by linarith, by linarith, fun _ => by linarith⟩
  obtain ⟨h1, h2, h3⟩ := key l h
  have r0 := div_nonneg h1 (h3 hl).le
  have r1 := (div_le_one (h3 hl)).mpr h2
  unfold weightedSum
  rw [if_neg hl, correct01_of_mem r0 r1]
  exact ⟨_, rfl, r0, r1⟩

theorem weightedSum_zero {l : List (ℝ × ℝ)} (hl : l ≠ []) (h : ∀ q ∈ l, q.1 = 0) : weightedSum l = some 0 := by
  unfold weightedSum
  have : (l.map fun q => q.1 * q.2).sum = 0 := by
    refine List.sum_eq_zero fun v hv => ?_
    obtain ⟨q, hq, rfl⟩ := List.mem_map.mp hv
    rw [h q hq, zero_mul]
  rw [if_neg hl, this, zero_div]
  norm_num [correct01]

theorem uniformSum_zero {l : List ℝ} (hl : l ≠ []) (h : ∀ v ∈ l, v = 0) : uniformSum l = some 0 := by
  unfold uniformSum
  rw [if_neg hl, List.sum_eq_zero h, zero_div]
  norm_num [correct01]

/-! ## The groups -/

theorem mapM_some_of {α : Type} (f : α → Option ℝ) (P : ℝ → Prop) (l : List α)
    (h : ∀ a ∈ l, ∃ v, f a = some v ∧ P v) : ∃ out, l.mapM f = some out ∧ out.length = l.length ∧ ∀ v ∈ out, P v := by
  induction l with
  | nil => exact ⟨[], rfl, rfl, fun _ h => absurd h List.not_mem_nil⟩
  | cons a l ih =>
    obtain ⟨v, hv, hP⟩ := h a List.mem_cons_self
    obtain ⟨out, ho, hl, hout⟩ := ih fun b hb => h b (List.mem_cons_of_mem _ hb)
    refine ⟨v :: out, ?_, by rw [List.length_cons, List.length_cons, hl], ?_⟩
    · rw [List.mapM_cons, hv, ho]
      rfl
    · intro w hw
      rcases List.mem_cons.mp hw with rfl | hw
      exacts [hP, hout w hw]

theorem reduceGroups_mem {α : Type} (P : α → Prop) (f g : List α → Option ℝ) (nObj k : ℕ) (x : List α)
    (hdvd : k = k / (nObj - 1) * (nObj - 1)) (hk : k ≤ x.length) (hx : ∀ a ∈ x, P a)
    (hf : ∀ l : List α, l.length = k / (nObj - 1) → (∀ a ∈ l, P a) → ∃ v, f l = some v ∧ 0 ≤ v ∧ v ≤ 1)
    (hg : ∀ l : List α, l.length = x.length - k → (∀ a ∈ l, P a) → ∃ v, g l = some v ∧ 0 ≤ v ∧ v ≤ 1) :
    ∃ cols last, reduceGroups f g nObj k x = some (cols ++ [last]) ∧ cols.length = nObj - 1 ∧ In01 (cols ++ [last]) ∧
      g (x.drop k) = some last := by
  obtain ⟨cols, hc, hlen, hin⟩ := mapM_some_of (fun i => f ((x.drop (i * (k / (nObj - 1)))).take (k / (nObj - 1))))
    (fun v => 0 ≤ v ∧ v ≤ 1) (List.range (nObj - 1)) (by
      intro i hi
      have hi' := List.mem_range.mp hi
      refine hf _ ?_ fun a ha => hx a (List.mem_of_mem_drop (List.mem_of_mem_take ha))
      rw [List.length_take, List.length_drop, Nat.min_eq_left]
      have : (i + 1) * (k / (nObj - 1)) ≤ (nObj - 1) * (k / (nObj - 1)) := Nat.mul_le_mul_right _ hi'
      rw [Nat.mul_comm (nObj - 1), ← hdvd, Nat.succ_mul] at this
      omega)
  obtain ⟨last, hl, hl01⟩ := hg (x.drop k) (List.length_drop ..) fun a ha => hx a (List.mem_of_mem_drop ha)
  refine ⟨cols, last, ?_, by rw [hlen, List.length_range], ?_, hl⟩
  · unfold reduceGroups
    dsimp only
    rw [hc, hl]
    rfl
  · intro v hv
    rcases List.mem_append.mp hv with h | h
    · exact hin v h
    · rw [List.mem_singleton.mp h]
      exact hl01

theorem post_mem (A cols : List ℝ) (last : ℝ) (hA : ∀ a ∈ A, a = 0 ∨ a = 1) (hl : A.length = cols.length)
    (h : In01 (cols ++ [last])) : ∃ c, post A (cols ++ [last]) = c ++ [last] ∧ c.length = cols.length ∧ In01 (c ++ [last]) := by
  refine ⟨List.zipWith (fun a v => max last a * (v - 0.5) + 0.5) A cols, ?_, by rw [List.length_zipWith, hl, Nat.min_self], ?_⟩
  · unfold post
    rw [List.getLastD_eq_getLast?, List.getLast?_append, List.dropLast_concat]
    rfl
  · have hlast := h last (List.mem_append_right _ List.mem_cons_self)
    intro v hv
    rcases List.mem_append.mp hv with hv | hv
    · obtain ⟨i, hi, rfl⟩ := List.getElem_of_mem hv
      rw [List.getElem_zipWith]
      have hi' := hi
      rw [List.length_zipWith] at hi'
      have ha := hA (A[i]'(by omega)) (List.getElem_mem _)
      have hc := h (cols[i]'(by omega)) (List.mem_append_left _ (List.getElem_mem _))
      generalize A[i]'_ = a at ha
      generalize cols[i]'_ = c at hc
      have m0 : 0 ≤ max last a := le_max_of_le_left hlast.1
      have m1 : max last a ≤ 1 := max_le hlast.2 (by rcases ha with rfl | rfl <;> norm_num)
      norm_num
      constructor <;> nlinarith [hc.1, hc.2]
    · rw [List.mem_singleton.mp hv]
      exact hlast

/-! ## The transformations -/

theorem map_mem {f : ℝ → ℝ} (hf : ∀ v, 0 ≤ v → v ≤ 1 → 0 ≤ f v ∧ f v ≤ 1) {l : List ℝ} (h : In01 l) : In01 (l.map f) := by
  intro v hv
  obtain ⟨w, hw, rfl⟩ := List.mem_map.mp hv
  exact hf w (h w hw).1 (h w hw).2

theorem take_mem {l : List ℝ} (h : In01 l) (n : ℕ) : In01 (l.take n) := fun v hv => h v (List.mem_of_mem_take hv)

theorem drop_mem {l : List ℝ} (h : In01 l) (n : ℕ) : In01 (l.drop n) := fun v hv => h v (List.mem_of_mem_drop hv)

theorem append_mem {l l' : List ℝ} (h : In01 l) (h' : In01 l') : In01 (l ++ l') := fun v hv =>
  (List.mem_append.mp hv).elim (h v) (h' v)

theorem mapTail_length (k : ℕ) (f : ℝ → ℝ) (x : List ℝ) : (x.take k ++ (x.drop k).map f).length = x.length := by
  rw [List.length_append, List.length_map, List.length_take, List.length_drop]
  omega

theorem mapTail_drop (k : ℕ) (f : ℝ → ℝ) (x : List ℝ) (hk : k ≤ x.length) :
    (x.take k ++ (x.drop k).map f).drop k = (x.drop k).map f := by
  have : (x.take k).length = k := by rw [List.length_take, Nat.min_eq_left hk]
  rw [List.drop_append, this, Nat.sub_self, List.drop_eq_nil_of_le (by omega)]
  rfl

theorem pairs_mem : ∀ l : List ℝ, In01 l → ∃ out, pairs l = some out ∧ out.length = l.length / 2 ∧ In01 out
  | [], _ => ⟨[], rfl, rfl, fun _ h => absurd h List.not_mem_nil⟩
  | [_], _ => ⟨[], rfl, by simp, fun _ h => absurd h List.not_mem_nil⟩
  | a :: b :: l, h => by
    obtain ⟨v, hv, h01⟩ := nonSeparable_mem [a, b] (by simp) fun w hw => h w (by
      rcases List.mem_cons.mp hw with rfl | hw
      · exact List.mem_cons_self
      · rw [List.mem_singleton.mp hw]
        exact List.mem_cons_of_mem _ List.mem_cons_self)
    obtain ⟨out, ho, hl, h'⟩ := pairs_mem l fun w hw => h w (List.mem_cons_of_mem _ (List.mem_cons_of_mem _ hw))
    have hv' : nonSeparable [a, b] 2 = some v := hv
    refine ⟨v :: out, by rw [pairs, hv', ho]; rfl, by rw [List.length_cons, hl, List.length_cons, List.length_cons]; omega, ?_⟩
    intro w hw
    rcases List.mem_cons.mp hw with rfl | hw
    exacts [h01, h' w hw]

theorem pairs_zero : ∀ l : List ℝ, (∀ v ∈ l, v = 0) → ∃ out, pairs l = some out ∧ ∀ v ∈ out, v = 0
  | [], _ => ⟨[], rfl, fun _ h => absurd h List.not_mem_nil⟩
  | [_], _ => ⟨[], rfl, fun _ h => absurd h List.not_mem_nil⟩
  | a :: b :: l, h => by
    obtain ⟨out, ho, h'⟩ := pairs_zero l fun w hw => h w (List.mem_cons_of_mem _ (List.mem_cons_of_mem _ hw))
    have ha := h a List.mem_cons_self
    have hb := h b (List.mem_cons_of_mem _ List.mem_cons_self)
    have hv := nonSeparable_zero 2 (by norm_num)
    subst ha hb
    have hv' : nonSeparable [0, 0] 2 = some 0 := hv
    refine ⟨0 :: out, by rw [pairs, hv', ho]; rfl, ?_⟩
    intro w hw
    rcases List.mem_cons.mp hw with rfl | hw
    exacts [rfl, h' w hw]

theorem dependent_mem (cond : ℕ → Bool) (others : ℕ → List ℝ → List ℝ) (y : List ℝ) (h : In01 y)
    (ho : ∀ i, i < y.length → cond i = true → others i y ≠ [] ∧ In01 (others i y)) :
    ∃ out, dependent cond others y = some out ∧ out.length = y.length ∧ In01 out := by
  obtain ⟨out, h1, h2, h3⟩ := mapM_some_of (fun i => if cond i then (uniformSum (others i y)).map fun u => paramDependent (y.getD i 0) u
    else some (y.getD i 0)) (fun v => 0 ≤ v ∧ v ≤ 1) (List.range y.length) (by
      intro i hi
      have hy := getD_mem01 h i
      by_cases hc : cond i = true
      · rw [if_pos hc]
        obtain ⟨hne, hin⟩ := ho i (List.mem_range.mp hi) hc
        obtain ⟨u, hu, hu0, hu1⟩ := uniformSum_mem hne hin
        rw [hu]
        exact ⟨_, rfl, paramDependent_mem hy.1 hy.2 hu0 hu1⟩
      · rw [if_neg hc]
        exact ⟨_, rfl, hy⟩)
  exact ⟨out, h1, by rw [h2, List.length_range], h3⟩

end Verif.Prob.WFG
