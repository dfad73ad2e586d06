import Verif.Scripts.PolyFeatures
import Mathlib.Tactic.Ring
import Mathlib.Tactic.NormNum
import Mathlib.Tactic.Linarith
import Mathlib.Data.Nat.Choose.Sum
import Mathlib.Algebra.Order.BigOperators.Group.List
import Mathlib.Data.List.Nodup
import Mathlib.Data.List.Zip

/-!
# C82: polynomial features

`poly_features` should give every monomial up to the degree exactly once, and `PolynomialRegression` a weight to each.
-/

namespace Verif.Props

open Verif.Scripts

variable {K : Type*} [CommSemiring K]

/-! ## Specification -/

/-- The monomial with exponents `e` at `x`. -/
def monomialAt (x : List K) (e : List ℕ) : K := (List.zipWith (· ^ ·) x e).prod

/-- `E` lists the exponents of the non-constant monomials in `n` variables up to degree `d`, each once. -/
structure IsMonomials (n d : ℕ) (E : List (List ℕ)) : Prop where
  nodup : E.Nodup
  mem : ∀ e, e ∈ E ↔ e.length = n ∧ 1 ≤ e.sum ∧ e.sum ≤ d

/-- The same for monomials without squares. -/
structure IsSquarefree (n d : ℕ) (E : List (List ℕ)) : Prop where
  nodup : E.Nodup
  mem : ∀ e, e ∈ E ↔ e.length = n ∧ 1 ≤ e.sum ∧ e.sum ≤ d ∧ ∀ k ∈ e, k ≤ 1

/-! ## Exponents -/

/-- Adds one to the first exponent. -/
def incHead : List ℕ → List ℕ
  | [] => []
  | k :: l => (k + 1) :: l

/-- The exponents of degree `k`. -/
def exps : ℕ → ℕ → List (List ℕ)
  | n, 0 => [List.replicate n 0]
  | 0, _ + 1 => []
  | n + 1, k + 1 => (exps (n + 1) k).map incHead ++ (exps n (k + 1)).map (0 :: ·)

/-- The exponents of degree `k` without squares. -/
def sqfree : ℕ → ℕ → List (List ℕ)
  | n, 0 => [List.replicate n 0]
  | 0, _ + 1 => []
  | n + 1, k + 1 => (sqfree n k).map (1 :: ·) ++ (sqfree n (k + 1)).map (0 :: ·)

theorem monomialAt_zero (x : List K) : monomialAt x (List.replicate x.length 0) = 1 := by
  induction x with
  | nil => rfl
  | cons a x ih => simpa [monomialAt, List.replicate_succ] using ih

theorem monomialAt_cons (a : K) (x : List K) (k : ℕ) (e : List ℕ) : monomialAt (a :: x) (k :: e) = a ^ k * monomialAt x e := by
  simp [monomialAt]

theorem monomialAt_incHead (a : K) (x : List K) {e : List ℕ} (he : e ≠ []) :
    monomialAt (a :: x) (incHead e) = a * monomialAt (a :: x) e := by
  obtain ⟨k, l, rfl⟩ := List.exists_cons_of_ne_nil he
  rw [incHead, monomialAt_cons, monomialAt_cons]
  ring

theorem mem_exps {n k : ℕ} {e : List ℕ} : e ∈ exps n k ↔ e.length = n ∧ e.sum = k := by
  induction n, k using exps.induct generalizing e with
  | case1 n =>
    simp only [exps, List.mem_singleton]
    constructor
    · rintro rfl; simp
    · rintro ⟨rfl, h⟩
      exact List.eq_replicate_iff.mpr ⟨rfl, fun b hb => by have := List.single_le_sum (by simp) b hb; omega⟩
  | case2 k =>
    simp only [exps, List.not_mem_nil, false_iff]
    rintro ⟨h, h'⟩
    rw [List.length_eq_zero_iff.mp h] at h'
    simp at h'
  | case3 n k ih1 ih2 =>
    simp only [exps, List.mem_append, List.mem_map, ih1, ih2]
    constructor
    · rintro (⟨f, ⟨h1, h2⟩, rfl⟩ | ⟨f, ⟨h1, h2⟩, rfl⟩)
      · obtain ⟨j, l, rfl⟩ := List.exists_cons_of_length_eq_add_one h1
        refine ⟨by simpa [incHead] using h1, ?_⟩
        rw [incHead, List.sum_cons]
        rw [List.sum_cons] at h2
        omega
      · simp [h1, h2]
    · rintro ⟨h1, h2⟩
      obtain ⟨j, l, rfl⟩ := List.exists_cons_of_length_eq_add_one h1
      rw [List.sum_cons] at h2
      rcases j with _ | j
      · exact .inr ⟨l, ⟨by simpa using h1, by omega⟩, rfl⟩
      · exact .inl ⟨j :: l, ⟨by simpa using h1, by rw [List.sum_cons]; omega⟩, rfl⟩

theorem nodup_exps (n k : ℕ) : (exps n k).Nodup := by
  induction n, k using exps.induct with
  | case1 n => simp [exps]
  | case2 k => simp [exps]
  | case3 n k ih1 ih2 =>
    rw [exps, List.nodup_append']
    refine ⟨List.Nodup.map_on ?_ ih1, ih2.map (fun a b h => (List.cons.inj h).2), ?_⟩
    · intro a ha b hb h
      obtain ⟨i, a, rfl⟩ := List.exists_cons_of_length_eq_add_one (mem_exps.mp ha).1
      obtain ⟨j, b, rfl⟩ := List.exists_cons_of_length_eq_add_one (mem_exps.mp hb).1
      simpa [incHead] using h
    · rw [List.disjoint_left]
      rintro e h1 h2
      obtain ⟨f, hf, rfl⟩ := List.mem_map.mp h1
      obtain ⟨g, -, h⟩ := List.mem_map.mp h2
      obtain ⟨i, f, rfl⟩ := List.exists_cons_of_length_eq_add_one (mem_exps.mp hf).1
      simp [incHead] at h

theorem length_exps (n k : ℕ) : (exps (n + 1) k).length = (n + k).choose k := by
  induction n generalizing k with
  | zero =>
    rw [Nat.zero_add k, Nat.choose_self, zero_add]
    induction k with
    | zero => simp [exps]
    | succ k ih => simp [exps, ih]
  | succ n ihn =>
    induction k with
    | zero => simp [exps]
    | succ k ih =>
      rw [exps, List.length_append, List.length_map, List.length_map, ih, ihn]
      rw [show n + 1 + (k + 1) = (n + 1 + k) + 1 from rfl, Nat.choose_succ_succ]
      congr 2
      omega

theorem combsRepl_prod (x : List K) (k : ℕ) :
    (combsRepl x k).map List.prod = (exps x.length k).map (monomialAt x) := by
  induction x, k using combsRepl.induct with
  | case1 x => simp [combsRepl, exps, monomialAt_zero]
  | case2 k => simp [combsRepl, exps]
  | case3 c cs k ih1 ih2 =>
    rw [combsRepl, List.length_cons, exps, List.map_append, List.map_append, List.map_map, List.map_map, List.map_map]
    congr 1
    · have : (List.prod ∘ fun x => c :: x) = fun l : List K => c * l.prod := by funext l; simp
      rw [this]
      have h : ((combsRepl (c :: cs) k).map List.prod).map (c * ·) =
        ((exps (cs.length + 1) k).map (monomialAt (c :: cs))).map (c * ·) := by rw [ih1, List.length_cons]
      rw [List.map_map, List.map_map] at h
      refine Eq.trans h (List.map_congr_left fun e he => ?_)
      exact (monomialAt_incHead c cs (fun h0 => by rw [h0] at he; simpa using (mem_exps.mp he).1)).symm
    · rw [ih2]
      exact List.map_congr_left fun e _ => by rw [Function.comp_apply, monomialAt_cons, pow_zero, one_mul]

theorem mem_sqfree {n k : ℕ} {e : List ℕ} : e ∈ sqfree n k ↔ e.length = n ∧ e.sum = k ∧ ∀ j ∈ e, j ≤ 1 := by
  induction n, k using sqfree.induct generalizing e with
  | case1 n =>
    simp only [sqfree, List.mem_singleton]
    constructor
    · rintro rfl; simp
    · rintro ⟨rfl, h, -⟩
      exact List.eq_replicate_iff.mpr ⟨rfl, fun b hb => by have := List.single_le_sum (by simp) b hb; omega⟩
  | case2 k =>
    simp only [sqfree, List.not_mem_nil, false_iff]
    rintro ⟨h, h', -⟩
    rw [List.length_eq_zero_iff.mp h] at h'
    simp at h'
  | case3 n k ih1 ih2 =>
    simp only [sqfree, List.mem_append, List.mem_map, ih1, ih2]
    constructor
    · rintro (⟨f, ⟨h1, h2, h3⟩, rfl⟩ | ⟨f, ⟨h1, h2, h3⟩, rfl⟩)
      · refine ⟨by simp [h1], by rw [List.sum_cons]; omega, fun j hj => ?_⟩
        rcases List.mem_cons.mp hj with rfl | hj
        · exact le_rfl
        · exact h3 j hj
      · refine ⟨by simp [h1], by rw [List.sum_cons]; omega, fun j hj => ?_⟩
        rcases List.mem_cons.mp hj with rfl | hj
        · exact zero_le_one
        · exact h3 j hj
    · rintro ⟨h1, h2, h3⟩
      obtain ⟨j, l, rfl⟩ := List.exists_cons_of_length_eq_add_one h1
      rw [List.sum_cons] at h2
      have hj := h3 j List.mem_cons_self
      have hl : ∀ i ∈ l, i ≤ 1 := fun i hi => h3 i (List.mem_cons_of_mem _ hi)
      rcases j with _ | j
      · exact .inr ⟨l, ⟨by simpa using h1, by omega, hl⟩, rfl⟩
      · obtain rfl : j = 0 := by omega
        exact .inl ⟨l, ⟨by simpa using h1, by omega, hl⟩, rfl⟩

theorem nodup_sqfree (n k : ℕ) : (sqfree n k).Nodup := by
  induction n, k using sqfree.induct with
  | case1 n => simp [sqfree]
  | case2 k => simp [sqfree]
  | case3 n k ih1 ih2 =>
    rw [sqfree, List.nodup_append']
    refine ⟨ih1.map (fun a b h => (List.cons.inj h).2), ih2.map (fun a b h => (List.cons.inj h).2), ?_⟩
    rw [List.disjoint_left]
    rintro e h1 h2
    obtain ⟨f, -, rfl⟩ := List.mem_map.mp h1
    obtain ⟨g, -, h⟩ := List.mem_map.mp h2
    simp at h

theorem combs_prod (x : List K) (k : ℕ) : (combs x k).map List.prod = (sqfree x.length k).map (monomialAt x) := by
  induction x, k using combs.induct with
  | case1 x => simp [combs, sqfree, monomialAt_zero]
  | case2 k => simp [combs, sqfree]
  | case3 c cs k ih1 ih2 =>
    rw [combs, List.length_cons, sqfree, List.map_append, List.map_append, List.map_map, List.map_map, List.map_map]
    congr 1
    · have h : ((combs cs k).map List.prod).map (c * ·) = ((sqfree cs.length k).map (monomialAt cs)).map (c * ·) := by rw [ih1]
      rw [List.map_map, List.map_map] at h
      have : (List.prod ∘ fun x => c :: x) = fun l : List K => c * l.prod := by funext l; simp
      rw [this]
      refine Eq.trans h (List.map_congr_left fun e _ => ?_)
      rw [Function.comp_apply, Function.comp_apply, monomialAt_cons, pow_one]
    · rw [ih2]
      exact List.map_congr_left fun e _ => by rw [Function.comp_apply, monomialAt_cons, pow_zero, one_mul]

theorem exps_one (x : List K) : (exps x.length 1).map (monomialAt x) = x := by
  induction x with
  | nil => simp [exps]
  | cons c cs ih =>
    rw [List.length_cons, exps, List.map_append, List.map_map]
    have : ((exps cs.length 1).map (0 :: ·)).map (monomialAt (c :: cs)) = cs := by
      rw [List.map_map]
      refine Eq.trans (List.map_congr_left fun e _ => ?_) ih
      rw [Function.comp_apply, monomialAt_cons, pow_zero, one_mul]
    rw [this]
    simp [exps, incHead, monomialAt_incHead, List.replicate_succ, monomialAt_cons, monomialAt_zero]

theorem sqfree_one (x : List K) : (sqfree x.length 1).map (monomialAt x) = x := by
  induction x with
  | nil => simp [sqfree]
  | cons c cs ih =>
    rw [List.length_cons, sqfree, List.map_append, List.map_map]
    have : ((sqfree cs.length 1).map (0 :: ·)).map (monomialAt (c :: cs)) = cs := by
      rw [List.map_map]
      refine Eq.trans (List.map_congr_left fun e _ => ?_) ih
      rw [Function.comp_apply, monomialAt_cons, pow_zero, one_mul]
    rw [this]
    simp [sqfree, monomialAt_cons, monomialAt_zero]

/-- The exponents of the columns. -/
def allExps (f : ℕ → List (List ℕ)) (d : ℕ) : List (List ℕ) := (List.range' 1 d).flatMap f

theorem polyProds_false (d : ℕ) (x : List K) : polyProds d false x = (allExps (exps x.length) d).map (monomialAt x) := by
  rcases d with _ | d
  · rfl
  · unfold polyProds allExps
    rw [if_pos (by omega), List.range'_succ, List.flatMap_cons, List.map_append, exps_one, List.map_flatMap]
    simp [combsRepl_prod]

theorem polyProds_true (d : ℕ) (x : List K) : polyProds d true x = (allExps (sqfree x.length) d).map (monomialAt x) := by
  rcases d with _ | d
  · rfl
  · unfold polyProds allExps
    rw [if_pos (by omega), List.range'_succ, List.flatMap_cons, List.map_append, sqfree_one, List.map_flatMap]
    simp [combs_prod]

theorem allExps_nodup {f : ℕ → List (List ℕ)} (hf : ∀ k, (f k).Nodup) (hs : ∀ k, ∀ e ∈ f k, e.sum = k) (d : ℕ) :
    (allExps f d).Nodup := by
  rw [allExps, List.nodup_flatMap]
  refine ⟨fun k _ => hf k, List.Pairwise.imp_of_mem ?_ (List.nodup_range' (s := 1) (n := d))⟩
  intro a b _ _ hab
  rw [Function.onFun, List.disjoint_left]
  intro e h1 h2
  exact hab ((hs a e h1).symm.trans (hs b e h2))

theorem mem_allExps {f : ℕ → List (List ℕ)} {d : ℕ} {e : List ℕ} : e ∈ allExps f d ↔ ∃ k, 1 ≤ k ∧ k ≤ d ∧ e ∈ f k := by
  rw [allExps, List.mem_flatMap]
  refine exists_congr fun k => ?_
  rw [List.mem_range'_1, and_assoc]
  refine and_congr_right fun h => and_congr_left fun _ => by omega

/-! ## The property -/

/-- C82: the columns are the monomials up to the degree, each once and in an order that does not depend on the values;
with `interaction_only` those without squares. -/
theorem C82_features {n d : ℕ} (hn : 1 ≤ n) (hd : 1 ≤ d) :
    (∃ E, IsMonomials n d E ∧ ∀ x : List K, x.length = n → polyFeatures d false x = some (E.map (monomialAt x))) ∧
    ∃ E, IsSquarefree n d E ∧ ∀ x : List K, x.length = n → polyFeatures d true x = some (E.map (monomialAt x)) := by
  have hne : ∀ (io : Bool) (x : List K), x.length = n → polyProds d io x ≠ [] := by
    intro io x hx h
    rw [polyProds, if_pos hd, List.append_eq_nil_iff] at h
    rw [h.1] at hx
    simp at hx
    omega
  refine ⟨⟨allExps (exps n) d, ⟨allExps_nodup (nodup_exps n) (fun k e he => (mem_exps.mp he).2) d, fun e => ?_⟩,
    fun x hx => ?_⟩, ⟨allExps (sqfree n) d, ⟨allExps_nodup (nodup_sqfree n) (fun k e he => (mem_sqfree.mp he).2.1) d,
    fun e => ?_⟩, fun x hx => ?_⟩⟩
  · simp only [mem_allExps, mem_exps]
    constructor
    · rintro ⟨k, h1, h2, h3, rfl⟩
      exact ⟨h3, h1, h2⟩
    · rintro ⟨h1, h2, h3⟩
      exact ⟨_, h2, h3, h1, rfl⟩
  · rw [polyFeatures, if_neg (hne _ x hx), polyProds_false, hx]
  · simp only [mem_allExps, mem_sqfree]
    constructor
    · rintro ⟨k, h1, h2, h3, rfl, h4⟩
      exact ⟨h3, h1, h2, h4⟩
    · rintro ⟨h1, h2, h3, h4⟩
      exact ⟨_, h2, h3, h1, rfl, h4⟩
  · rw [polyFeatures, if_neg (hne _ x hx), polyProds_true, hx]

/-- The number of columns. -/
theorem C82_count {d : ℕ} {x h : List K} (hh : polyFeatures d false x = some h) : h.length + 1 = (x.length + d).choose d := by
  rw [polyFeatures] at hh
  split at hh
  · simp at hh
  · next hne =>
    obtain rfl := Option.some.inj hh
    rw [polyProds_false, List.length_map]
    obtain ⟨n, hn⟩ : ∃ n, x.length = n + 1 := by
      rcases Nat.eq_zero_or_pos x.length with h0 | h0
      · exfalso
        apply hne
        rw [polyProds_false, h0, List.map_eq_nil_iff, List.eq_nil_iff_forall_not_mem]
        intro e he
        obtain ⟨k, h1, -, h3⟩ := mem_allExps.mp he
        obtain ⟨h4, h5⟩ := mem_exps.mp h3
        rw [List.length_eq_zero_iff.mp h4] at h5
        simp at h5
        omega
      · exact ⟨x.length - 1, by omega⟩
    rw [hn]
    clear hne hh
    induction d with
    | zero => simp [allExps]
    | succ d ih =>
      have e : allExps (exps (n + 1)) (d + 1) = allExps (exps (n + 1)) d ++ exps (n + 1) (d + 1) := by
        unfold allExps
        rw [List.range'_concat, List.flatMap_append]
        simp [Nat.add_comm]
      have := length_exps n (d + 1)
      have hp : (n + 1 + d + 1).choose (d + 1) = (n + 1 + d).choose d + (n + 1 + d).choose (d + 1) := Nat.choose_succ_succ _ _
      rw [e, List.length_append, this]
      have e2 : n + (d + 1) = n + 1 + d := by omega
      rw [e2, show n + 1 + (d + 1) = n + 1 + d + 1 from rfl]
      omega

/-- C82 is violated by the number of weights: with at least one feature, `forward` returns exactly for degree two. -/
theorem C82_forward {n d : ℕ} (hn : 1 ≤ n) {w : List K} (hw : w.length = hiddenDim n d) (b : K) {x : List K}
    (hx : x.length = n) : (polyForward d w b x).isSome ↔ d = 2 := by
  rcases Nat.lt_or_ge d 1 with h0 | h1
  · obtain rfl : d = 0 := by omega
    simp [polyForward, polyFeatures, polyProds]
  · obtain ⟨⟨E, -, hE⟩, -⟩ := C82_features (K := K) hn h1
    have hc := C82_count (hE x hx)
    rw [polyForward, hE x hx, Option.bind_some]
    rw [hx] at hc
    have key : (E.map (monomialAt x)).length = w.length ↔ d = 2 := by
      rw [hw, hiddenDim]
      obtain ⟨m, rfl⟩ : ∃ m, d = m + 1 := ⟨d - 1, by omega⟩
      have hp : (n + m + 1).choose (m + 1) = (n + m).choose m + (n + m).choose (m + 1) := Nat.choose_succ_succ _ _
      rw [show n + (m + 1) = n + m + 1 from rfl] at hc ⊢
      rw [show n + m + 1 - 1 = n + m from rfl]
      have hs : (n + m).choose m = (n + m).choose n := by rw [Nat.choose_symm_add]
      rcases Nat.lt_or_ge m 2 with h2 | h2
      · obtain rfl | rfl : m = 0 ∨ m = 1 := by omega
        · rw [Nat.choose_zero_right] at hp
          omega
        · rw [Nat.choose_one_right] at hp
          omega
      · have h3 : (n + 2).choose n ≤ (n + m).choose n := Nat.choose_le_choose _ (by omega)
        have h4 : (n + 2).choose n = (n + 2).choose 2 := Nat.choose_symm_add
        have h5 : (n + 2).choose 2 = (n + 1).choose 1 + (n + 1).choose 2 := Nat.choose_succ_succ _ _
        have h6 : (n + 1).choose 2 = n.choose 1 + n.choose 2 := Nat.choose_succ_succ _ _
        rw [Nat.choose_one_right] at h5 h6
        omega
    split
    · next h => simpa using key.mp h
    · next h => simpa using fun h' => h (key.mpr h')

/-- The hypotheses of C82: three features up to degree two are nine columns. -/
example : polyFeatures 2 false [(2 : ℤ), 3, 5] = some [2, 3, 5, 4, 6, 10, 9, 15, 25] ∧
    polyFeatures 2 true [(2 : ℤ), 3, 5] = some [2, 3, 5, 6, 10, 15] ∧ (3 + 2).choose 2 = 9 + 1 ∧
    polyForward 2 (List.replicate 9 1) 1 [(2 : ℤ), 3, 5] = some 80 ∧
    polyForward 3 (List.replicate (hiddenDim 2 3) 1) 1 [(2 : ℤ), 3] = none := by
  simp [polyForward, polyFeatures, polyProds, combsRepl, combs, hiddenDim, Nat.choose, List.range', List.replicate]

example : (polyForward 2 (List.replicate 9 (1 : ℤ)) 1 [2, 3, 5]).isSome ∧
    ¬ (polyForward 3 (List.replicate 13 (1 : ℤ)) 1 [2, 3, 5]).isSome :=
  ⟨(C82_forward (n := 3) (by norm_num) (by decide) 1 rfl).mpr rfl,
    fun h => absurd ((C82_forward (n := 3) (by norm_num) (by decide) 1 rfl).mp h) (by norm_num)⟩

end Verif.Props
