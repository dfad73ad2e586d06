import Verif.Moea.MonteCarlo
import Verif.Moea.Survival
import Verif.Moea.Moead
import Verif.Ind.RefSetLemmas
import Mathlib.Algebra.CharZero.Defs
import Mathlib.Algebra.BigOperators.Field
import Mathlib.Algebra.Order.Field.Basic
import Mathlib.Tactic.FieldSimp
import Mathlib.Tactic.Ring
import Mathlib.Tactic.Linarith
import Mathlib.Data.Rat.Defs
import Mathlib.Algebra.Order.Ring.Rat
import Mathlib.Tactic.NormNum
import Mathlib.Data.Nat.Choose.Basic
import Mathlib.Data.Finset.Powerset
import Mathlib.Algebra.BigOperators.Intervals

/-!
# C46 - C49: evolutionary algorithms
-/

namespace Verif.Props

open Verif.Moea

variable {K : Type*}

/-! ## C46 -/

section

variable [Field K] [CharZero K] {N n : ℕ}

theorem alpha_self {i : ℕ} (h0 : 0 < i) (h : i ≤ N) : alpha N (N : K) i = 1 / i := by
  unfold alpha
  rw [if_neg (by omega), Finset.prod_eq_one]
  intro j hj
  have hj := Finset.mem_Ico.mp hj
  refine div_self (sub_ne_zero.mpr ?_)
  exact_mod_cast (by omega : N ≠ j)

theorem alpha_one (i : ℕ) : alpha N (1 : K) i = if i = 1 then 1 else 0 := by
  unfold alpha
  by_cases h0 : i = 0
  · simp [h0]
  by_cases h1 : i = 1
  · simp [h1]
  rw [if_neg h0, if_neg h1, Finset.prod_eq_zero (i := 1) (Finset.mem_Ico.mpr (by omega)) (by simp), zero_div]

/-- The samples dominated by at least one point. -/
def dominatedBySome (dom : Fin N → Fin n → Bool) : Finset (Fin n) :=
  Finset.univ.filter fun s => ∃ i, dom i s = true

/-- The samples dominated by the point `i` and no other. -/
def dominatedOnlyBy (dom : Fin N → Fin n → Bool) (i : Fin N) : Finset (Fin n) :=
  Finset.univ.filter fun s => dom i s = true ∧ ∀ j, dom j s = true → j = i

/-- C46: the estimate is the volume times the fraction of dominated samples. -/
theorem C46_hv_partial (dom : Fin N → Fin n → Bool) (V : K) (hn : 0 < n) :
    hvMonteCarlo dom V = some (V * ((dominatedBySome dom).card / n)) := by
  unfold hvMonteCarlo
  rw [if_neg (by omega)]
  congr 1
  have h : ∑ i, weightSum (alpha N (N : K)) dom i = ((dominatedBySome dom).card : K) := by
    unfold weightSum
    simp only [Finset.sum_filter]
    rw [Finset.sum_comm, dominatedBySome, Finset.card_filter, Nat.cast_sum]
    refine Finset.sum_congr rfl fun s _ => ?_
    rw [← Finset.sum_filter, Finset.sum_const, nsmul_eq_mul]
    change (nDom dom s : K) * _ = _
    by_cases h0 : nDom dom s = 0
    · rw [h0, if_neg]
      · simp
      · rintro ⟨i, hi⟩
        have := Finset.card_eq_zero.mp h0
        have : i ∈ (∅ : Finset (Fin N)) := this ▸ Finset.mem_filter.mpr ⟨Finset.mem_univ _, hi⟩
        simp at this
    · have hle : nDom dom s ≤ N := by
        unfold nDom
        exact (Finset.card_le_univ _).trans (by simp)
      rw [alpha_self (by omega) hle, if_pos]
      · have : (nDom dom s : K) ≠ 0 := by exact_mod_cast h0
        field_simp
        simp
      · obtain ⟨i, hi⟩ := Finset.card_pos.mp (Nat.pos_of_ne_zero h0)
        exact ⟨i, (Finset.mem_filter.mp hi).2⟩
  rw [h]
  ring

/-- C46: the contribution with `k = 1` is the volume times the fraction of samples dominated by that point
alone. -/
theorem C46_hvc_partial (dom : Fin N → Fin n → Bool) (V : K) (hn : 0 < n) :
    hvcMonteCarlo dom V 1 = some fun i => V * ((dominatedOnlyBy dom i).card / n) := by
  unfold hvcMonteCarlo
  rw [if_neg (by omega)]
  congr 1
  funext i
  have h : weightSum (alpha N (1 : K)) dom i = ((dominatedOnlyBy dom i).card : K) := by
    unfold weightSum dominatedOnlyBy
    rw [Finset.card_filter, Nat.cast_sum, Finset.sum_filter]
    refine Finset.sum_congr rfl fun s _ => ?_
    by_cases hd : dom i s = true
    · rw [if_pos hd, alpha_one]
      have : nDom dom s = 1 ↔ ∀ j, dom j s = true → j = i := by
        unfold nDom
        rw [Finset.card_eq_one]
        constructor
        · rintro ⟨a, ha⟩ j hj
          have h1 : i ∈ ({a} : Finset (Fin N)) := ha ▸ Finset.mem_filter.mpr ⟨Finset.mem_univ _, hd⟩
          have h2 : j ∈ ({a} : Finset (Fin N)) := ha ▸ Finset.mem_filter.mpr ⟨Finset.mem_univ _, hj⟩
          rw [Finset.mem_singleton] at h1 h2
          rw [h1, h2]
        · intro h
          refine ⟨i, Finset.ext fun j => ?_⟩
          rw [Finset.mem_filter, Finset.mem_singleton]
          exact ⟨fun hj => h j hj.2, fun hj => ⟨Finset.mem_univ _, hj ▸ hd⟩⟩
      by_cases h1 : nDom dom s = 1
      · rw [if_pos h1, if_pos ⟨hd, this.mp h1⟩, Nat.cast_one]
      · rw [if_neg h1, if_neg fun h => h1 (this.mpr h.2), Nat.cast_zero]
    · rw [if_neg hd, if_neg fun h => hd h.1, Nat.cast_zero]
  rw [h]
  ring

/-- The sets of `k` points that contain all points of `D`. -/
def teams (N k : ℕ) (D : Finset (Fin N)) : Finset (Finset (Fin N)) :=
  (Finset.powersetCard k Finset.univ).filter fun T => D ⊆ T

theorem card_teams {k : ℕ} {D : Finset (Fin N)} (h : D.card ≤ k) :
    (teams N k D).card = (N - D.card).choose (k - D.card) := by
  have hc : (Finset.univ \ D : Finset (Fin N)).card = N - D.card := by
    rw [Finset.card_sdiff_of_subset (Finset.subset_univ D), Finset.card_univ, Fintype.card_fin]
  rw [← hc, ← Finset.card_powersetCard]
  refine Finset.card_bij' (fun T _ => T \ D) (fun S _ => S ∪ D) ?_ ?_ ?_ ?_
  · intro T hT
    obtain ⟨h1, h2⟩ := Finset.mem_filter.mp hT
    rw [Finset.mem_powersetCard] at h1 ⊢
    exact ⟨Finset.sdiff_subset_sdiff h1.1 le_rfl, by rw [Finset.card_sdiff_of_subset h2, h1.2]⟩
  · intro S hS
    rw [Finset.mem_powersetCard] at hS
    refine Finset.mem_filter.mpr ⟨Finset.mem_powersetCard.mpr ⟨Finset.subset_univ _, ?_⟩, Finset.subset_union_right⟩
    rw [Finset.card_union_of_disjoint (Finset.disjoint_of_subset_left hS.1 Finset.sdiff_disjoint), hS.2]
    omega
  · intro T hT
    exact Finset.sdiff_union_of_subset (Finset.mem_filter.mp hT).2
  · intro S hS
    rw [Finset.mem_powersetCard] at hS
    exact Finset.union_sdiff_cancel_right (Finset.disjoint_of_subset_left hS.1 Finset.sdiff_disjoint)

theorem card_teams_zero {k : ℕ} {D : Finset (Fin N)} (h : k < D.card) : (teams N k D).card = 0 := by
  rw [Finset.card_eq_zero, teams, Finset.filter_eq_empty_iff]
  intro T hT hD
  have := Finset.card_le_card hD
  rw [(Finset.mem_powersetCard.mp hT).2] at this
  omega

theorem prod_choose {k d : ℕ} (hd : 1 ≤ d) (hk : d ≤ k) (hN : k ≤ N) :
    (∏ j ∈ Finset.Ico 1 d, ((k : K) - j) / ((N : K) - j)) * ((N - 1).choose (k - 1) : ℕ) =
      ((N - d).choose (k - d) : ℕ) := by
  induction d, hd using Nat.le_induction with
  | base => simp
  | succ d hd ih =>
    rw [Finset.prod_Ico_succ_top hd, mul_right_comm, ih (by omega)]
    have h1 : ((N : K) - d) ≠ 0 := sub_ne_zero.mpr (by exact_mod_cast (by omega : N ≠ d))
    have h2 := Nat.add_one_mul_choose_eq (N - (d + 1)) (k - (d + 1))
    rw [show N - (d + 1) + 1 = N - d by omega, show k - (d + 1) + 1 = k - d by omega] at h2
    have h3 : ((N - d : ℕ) : K) * ((N - (d + 1)).choose (k - (d + 1)) : ℕ) =
        ((N - d).choose (k - d) : ℕ) * ((k - d : ℕ) : K) := by exact_mod_cast h2
    rw [Nat.cast_sub (by omega), Nat.cast_sub (by omega)] at h3
    rw [← mul_div_assoc, div_eq_iff h1, ← h3, mul_comm]

/-- C46: the contribution of a point for any number `k` of points to be removed. A sample counts with the probability
that all points that dominate it are in a random set of `k` points containing the given one, divided by the number of
these points. -/
theorem C46_hype_partial (dom : Fin N → Fin n → Bool) (V : K) (hn : 0 < n) {k : ℕ} (hk : 1 ≤ k) (hN : k ≤ N) :
    ∃ hvc, hvcMonteCarlo dom V (k : K) = some hvc ∧ ∀ i, hvc i = V * ((∑ s with dom i s = true,
      ((teams N k (Finset.univ.filter fun j => dom j s = true)).card / (teams N k {i}).card : K) /
        (Finset.univ.filter fun j => dom j s = true).card) / n) := by
  unfold hvcMonteCarlo
  rw [if_neg (by omega)]
  refine ⟨_, rfl, fun i => ?_⟩
  have h : weightSum (alpha N (k : K)) dom i = ∑ s with dom i s = true,
      ((teams N k (Finset.univ.filter fun j => dom j s = true)).card / (teams N k {i}).card : K) /
        (Finset.univ.filter fun j => dom j s = true).card := by
    refine Finset.sum_congr rfl fun s hs => ?_
    have hi : dom i s = true := (Finset.mem_filter.mp hs).2
    have hpos : 0 < nDom dom s := Finset.card_pos.mpr ⟨i, Finset.mem_filter.mpr ⟨Finset.mem_univ _, hi⟩⟩
    have hc : ((teams N k {i}).card : K) ≠ 0 := by
      rw [card_teams (by simpa using hk), Finset.card_singleton]
      exact_mod_cast (Nat.choose_pos (by omega)).ne'
    unfold alpha
    rw [if_neg hpos.ne']
    change _ = (((teams N k _).card : K) / _) / (nDom dom s : K)
    congr 1
    rw [eq_div_iff hc, card_teams (by simpa using hk), Finset.card_singleton]
    rcases le_or_gt (nDom dom s) k with hle | hlt
    · rw [prod_choose hpos hle hN, card_teams hle]
      rfl
    · rw [card_teams_zero hlt, Finset.prod_eq_zero (i := k) (Finset.mem_Ico.mpr ⟨hk, hlt⟩) (by simp)]
      simp
  rw [h]
  ring

/-- Two of three points are removed; the only sample is dominated by the first two points: the probability is a half, and
the contribution of each of them a quarter. -/
example : ∃ hvc, hvcMonteCarlo (fun (i : Fin 3) (_ : Fin 1) => decide (i.val < 2)) (1 : ℚ) 2 = some hvc ∧ hvc 0 = 1 / 4 :=
  ⟨_, rfl, by decide +kernel⟩

/-- The dominated samples with a point are those without it and those it dominates alone. -/
theorem card_dominated_delete (dom : Fin (N + 1) → Fin n → Bool) (k : Fin (N + 1)) :
    (dominatedBySome dom).card =
      (dominatedBySome fun i => dom (k.succAbove i)).card + (dominatedOnlyBy dom k).card := by
  rw [← Finset.card_union_of_disjoint]
  · congr 1
    ext s
    simp only [dominatedBySome, dominatedOnlyBy, Finset.mem_union, Finset.mem_filter, Finset.mem_univ,
      true_and]
    constructor
    · rintro ⟨i, hi⟩
      by_cases h : ∃ j, dom (k.succAbove j) s = true
      · exact Or.inl h
      · have hall : ∀ j, dom j s = true → j = k := by
          intro j hj
          by_contra hne
          obtain ⟨j', rfl⟩ := Fin.exists_succAbove_eq hne
          exact h ⟨j', hj⟩
        exact Or.inr ⟨hall i hi ▸ hi, hall⟩
    · rintro (⟨j, hj⟩ | h)
      · exact ⟨_, hj⟩
      · exact ⟨_, h.1⟩
  · rw [Finset.disjoint_left]
    intro s h1 h2
    simp only [dominatedBySome, dominatedOnlyBy, Finset.mem_filter, Finset.mem_univ, true_and] at h1 h2
    obtain ⟨j, hj⟩ := h1
    exact Fin.succAbove_ne k j (h2.2 _ hj)

/-- C46: after `delete` (with `n_exclusive = 1`) the whole state is that computed anew for the remaining
points on the same samples. -/
theorem C46_delete_partial (dom : Fin (N + 1) → Fin n → Bool) (V : K) (hn : 0 < n) (k : Fin (N + 1)) :
    ∃ st st', mcCalc dom V 1 = some st ∧ st.delete 1 k = some st' ∧
      mcCalc (fun i => dom (k.succAbove i)) V 1 = some st' := by
  unfold mcCalc MCState.delete
  rw [C46_hv_partial dom V hn, C46_hvc_partial dom V hn, C46_hv_partial _ V hn, C46_hvc_partial _ V hn]
  refine ⟨_, _, rfl, ?_, rfl⟩
  dsimp only
  rw [C46_hvc_partial _ V hn, Option.map_some]
  congr 2
  rw [card_dominated_delete dom k]
  push_cast
  ring

end

/-- C46: with `n_exclusive = 2`, `delete` breaks `hv`: two points dominate the same sample; without the first
the estimate is 1, but `hv` becomes 1/2. -/
theorem C46_violated_exclusive : ∃ st st', mcCalc (fun (_ : Fin 2) (_ : Fin 1) => true) (1 : ℚ) 2 = some st ∧
    st.delete 2 0 = some st' ∧ st'.hv = 1 / 2 ∧
    hvMonteCarlo (fun (_ : Fin 1) (_ : Fin 1) => true) (1 : ℚ) = some 1 := by
  refine ⟨(mcCalc (fun (_ : Fin 2) (_ : Fin 1) => true) (1 : ℚ) 2).get (by decide +kernel),
    (((mcCalc (fun (_ : Fin 2) (_ : Fin 1) => true) (1 : ℚ) 2).get (by decide +kernel)).delete 2 0).get
      (by decide +kernel), by simp, by simp, by decide +kernel, by decide +kernel⟩

/-- C46 is violated by the functions as decorated: with `jax.jit` every call raises. -/
theorem C46_violated_jit [Field K] {N n : ℕ} (dom : Fin N → Fin n → Bool) (V : K) :
    hvMonteCarloJit dom V = none := rfl

/-- Three points and four samples. -/
example : hvMonteCarlo (fun (i : Fin 3) (s : Fin 4) => decide (i.val ≤ s.val ∧ s.val < 3)) (8 : ℚ) = some 6 ∧
    (hvcMonteCarlo (fun (i : Fin 3) (s : Fin 4) => decide (i.val ≤ s.val ∧ s.val < 3)) (8 : ℚ) 1).map
      (fun f => (f 0, f 1, f 2)) = some (2, 0, 0) := by
  decide +kernel

/-! ## C47 -/

section

variable {H : Type*} [LinearOrder K]

/-- The contract of the hypervolume objects: one contribution for every member. -/
structure HvObject.Sound (hv : HvObject H K) : Prop where
  new : ∀ front, (hv.hvc (hv.new front)).length = front.length
  delete : ∀ h k, k < (hv.hvc h).length → (hv.hvc (hv.delete h k)).length + 1 = (hv.hvc h).length

theorem moea_argmin_spec {l : List K} (h : l ≠ []) :
    ∃ k, argmin l = some k ∧ ∃ hk : k < l.length, ∀ x ∈ l, l[k] ≤ x := by
  unfold argmin
  cases hm : l.min? with
  | none => exact absurd (List.min?_eq_none_iff.mp hm) h
  | some v =>
    obtain ⟨h1, h2⟩ := List.min?_eq_some_iff.mp hm
    have hk := List.idxOf_lt_length_of_mem h1
    refine ⟨l.idxOf v, rfl, hk, fun x hx => ?_⟩
    rw [List.getElem_idxOf hk]
    exact h2 x hx

theorem shrink_spec {hv : HvObject H K} (hs : HvObject.Sound hv) {n s : ℕ} (t : ℕ) (h : H) (front : List ℕ)
    (hl : (hv.hvc h).length = front.length) (ht : front.length ≤ t) (hsn : s ≤ n) :
    ∃ out, shrink hv n s t h front = some out ∧ out.Sublist front ∧
      out.length = min front.length (n - s) := by
  induction t generalizing h front with
  | zero =>
    have : front = [] := List.length_eq_zero_iff.mp (by omega)
    subst this
    exact ⟨[], rfl, List.Sublist.refl _, by simp⟩
  | succ t ih =>
    unfold shrink
    by_cases hc : s + front.length > n
    · rw [if_pos hc]
      have hne : hv.hvc h ≠ [] := by
        intro e
        rw [e] at hl
        simp only [List.length_nil] at hl
        omega
      obtain ⟨k, hk, hkl, -⟩ := moea_argmin_spec hne
      have he : (front.eraseIdx k).length = front.length - 1 := List.length_eraseIdx_of_lt (by omega)
      obtain ⟨out, o1, o2, o3⟩ := ih (hv.delete h k) (front.eraseIdx k)
        (by have := hs.delete h k hkl; omega) (by omega)
      rw [hk, Option.bind_some]
      exact ⟨out, o1, o2.trans (List.eraseIdx_sublist _ _), by omega⟩
    · rw [if_neg hc]
      exact ⟨front, rfl, List.Sublist.refl _, by omega⟩

theorem surviveFront_spec {hv : HvObject H K} (hs : HvObject.Sound hv) {n : ℕ} {L : List ℕ} (front : List ℕ)
    (hL : L.length ≤ n) : ∃ part, surviveFront hv n L front = some (L ++ part) ∧ part.Sublist front ∧
      part.length = min front.length (n - L.length) := by
  unfold surviveFront
  by_cases hc : L.length + front.length > n
  · rw [if_pos hc]
    obtain ⟨out, o1, o2, o3⟩ := shrink_spec hs front.length (hv.new front) front (hs.new front) le_rfl hL
    exact ⟨out, by rw [o1]; rfl, o2, o3⟩
  · rw [if_neg hc]
    exact ⟨front, rfl, List.Sublist.refl _, by omega⟩

theorem survive_full {hv : HvObject H K} (hs : HvObject.Sound hv) {n : ℕ} {L : List ℕ}
    (hL : L.length = n) (fronts : List (List ℕ)) : fronts.foldlM (surviveFront hv n) L = some L := by
  induction fronts with
  | nil => rfl
  | cons f fronts ih =>
    obtain ⟨part, h1, -, h3⟩ := surviveFront_spec hs (L := L) f hL.le
    have : part = [] := List.length_eq_zero_iff.mp (by omega)
    rw [List.foldlM_cons, h1, this, List.append_nil]
    exact ih

theorem survive_structure {hv : HvObject H K} (hs : HvObject.Sound hv) {n : ℕ} {L : List ℕ}
    (hL : L.length ≤ n) (fronts : List (List ℕ)) :
    ∃ a part, fronts.foldlM (surviveFront hv n) L = some (L ++ (fronts.take a).flatten ++ part) ∧
      part.Sublist (fronts.getD a []) ∧
      (L ++ (fronts.take a).flatten ++ part).length = min n (L.length + fronts.flatten.length) := by
  induction fronts generalizing L with
  | nil => exact ⟨0, [], by simp, by simp, by simp; omega⟩
  | cons f fronts ih =>
    obtain ⟨part, h1, h2, h3⟩ := surviveFront_spec hs (L := L) f hL
    rw [List.foldlM_cons, h1]
    by_cases hc : L.length + f.length ≤ n
    · have hp : part = f := h2.eq_of_length (by omega)
      subst hp
      obtain ⟨a, part', g1, g2, g3⟩ := ih (L := L ++ part) (by simpa using hc)
      refine ⟨a + 1, part', ?_, by simpa using g2, ?_⟩
      · simpa [List.append_assoc] using g1
      · simp only [List.take_succ_cons, List.flatten_cons, List.length_append] at g3 ⊢
        omega
    · have hfull : (L ++ part).length = n := by
        rw [List.length_append]
        omega
      refine ⟨0, part, ?_, by simpa using h2, ?_⟩
      · simpa using survive_full hs hfull fronts
      · simp only [List.take_zero, List.flatten_nil, List.append_nil, List.flatten_cons,
          List.length_append] at hfull ⊢
        omega

/-- C47: for fronts as the sorting returns them (disjoint, of a population of `N`, at least `n_survive` or
all ranked), exactly `min(n_survive, N)` different individuals survive; if a member of a front survives,
all members of the better fronts survive, and nobody without a rank survives. -/
theorem C47_survival {hv : HvObject H K} (hs : HvObject.Sound hv) {n N : ℕ} {fronts : List (List ℕ)}
    (hf : fronts.flatten.Nodup) (hN : ∀ i ∈ fronts.flatten, i < N)
    (hr : min n N ≤ fronts.flatten.length) :
    ∃ out, survive hv (some n) fronts = some out ∧ out.length = min n N ∧ out.Nodup ∧
      (∀ i ∈ out, i ∈ fronts.flatten ∧ i < N) ∧
      ∀ (a b : ℕ) (F G : List ℕ), fronts[a]? = some F → fronts[b]? = some G → a < b →
        (∃ j ∈ G, j ∈ out) → ∀ i ∈ F, i ∈ out := by
  obtain ⟨a, part, h1, h2, h3⟩ := survive_structure hs (n := n) (L := []) (by simp) fronts
  have hle : fronts.flatten.length ≤ N := by
    have := (List.subperm_of_subset hf fun i hi => List.mem_range.mpr (hN i hi)).length_le
    simpa using this
  simp only [List.nil_append, List.length_nil, zero_add] at h1 h3
  have hsub : ((fronts.take a).flatten ++ part).Sublist fronts.flatten := by
    have : fronts.flatten = (fronts.take a).flatten ++ (fronts.drop a).flatten := by
      rw [← List.flatten_append, List.take_append_drop]
    rw [this]
    refine List.Sublist.append (List.Sublist.refl _) (h2.trans ?_)
    by_cases ha : a < fronts.length
    · rw [List.getD_eq_getElem _ _ ha, List.drop_eq_getElem_cons ha, List.flatten_cons]
      exact List.sublist_append_left _ _
    · rw [List.getD_eq_default _ _ (by omega)]
      exact List.nil_sublist _
  refine ⟨_, h1, ?_, hf.sublist hsub, fun i hi => ⟨hsub.subset hi, hN i (hsub.subset hi)⟩, ?_⟩
  · rw [h3]
    omega
  · rintro a' b F G hF hG hab ⟨j, hjG, hj⟩ i hi
    have hsep := Verif.Ind.separate_of_nodup hf
    -- the front of `j` is at most `a`
    have hb : b ≤ a := by
      rcases List.mem_append.mp hj with hj | hj
      · obtain ⟨l, hl, hjl⟩ := List.mem_flatten.mp hj
        obtain ⟨c, hc, rfl⟩ := List.getElem_of_mem hl
        have hcl : c < a := by
          rw [List.length_take] at hc
          omega
        have hc' : fronts[c]? = some ((fronts.take a)[c]) := by
          rw [List.getElem_take, List.getElem?_eq_getElem]
        by_contra hne
        exact (hsep b G hG).2 c _ hc' (by omega) j hjG hjl
      · have hj' := h2.subset hj
        by_cases ha : a < fronts.length
        · rw [List.getD_eq_getElem _ _ ha] at hj'
          by_contra hne
          exact (hsep b G hG).2 a _ (List.getElem?_eq_getElem ha) (by omega) j hjG hj'
        · rw [List.getD_eq_default _ _ (by omega)] at hj'
          simp at hj'
    refine List.mem_append_left _ (List.mem_flatten.mpr ⟨F, ?_, hi⟩)
    obtain ⟨hal, rfl⟩ := List.getElem?_eq_some_iff.mp hF
    rw [List.mem_iff_getElem]
    exact ⟨a', by rw [List.length_take]; omega, by rw [List.getElem_take]⟩

/-- C47, no number of survivors: `n_survive=None` is an error in the loop over the fronts, if there is one. -/
theorem C47_no_number {hv : HvObject H K} {fronts : List (List ℕ)} : survive hv none fronts = none ↔ 0 < fronts.length := by
  rw [survive, List.length_pos_iff]
  split_ifs with h <;> simp [h]

/-- C47: the individual removed is one with the least contribution (the case of one individual too many). -/
theorem C47_least {hv : HvObject H K} (hs : HvObject.Sound hv) {n : ℕ} {L front : List ℕ}
    (hL : L.length ≤ n) (h : L.length + front.length = n + 1) : ∃ k, k < front.length ∧
      surviveFront hv n L front = some (L ++ front.eraseIdx k) ∧
      ∃ hk' : k < (hv.hvc (hv.new front)).length, ∀ c ∈ hv.hvc (hv.new front),
        (hv.hvc (hv.new front))[k] ≤ c := by
  have hnew := hs.new front
  have hne : hv.hvc (hv.new front) ≠ [] := by
    intro e
    rw [e] at hnew
    simp only [List.length_nil] at hnew
    omega
  obtain ⟨k, hk, hkl, hmin⟩ := moea_argmin_spec hne
  refine ⟨k, by omega, ?_, hkl, hmin⟩
  unfold surviveFront
  rw [if_pos (by omega)]
  have he : (front.eraseIdx k).length = front.length - 1 := List.length_eraseIdx_of_lt (by omega)
  obtain ⟨t, ht⟩ : ∃ t, front.length = t + 1 := ⟨front.length - 1, by omega⟩
  rw [ht]
  unfold shrink
  rw [if_pos (by omega), hk, Option.bind_some]
  have : shrink hv n L.length t (hv.delete (hv.new front) k) (front.eraseIdx k) =
      some (front.eraseIdx k) := by
    cases t with
    | zero => rfl
    | succ t =>
      unfold shrink
      rw [if_neg (by omega)]
  rw [this]
  rfl

end

/-- A hypervolume object with given contributions, deletion of an entry. -/
def listHv (c : ℕ → ℚ) : HvObject (List ℚ) ℚ :=
  { new := fun front => front.map c, hvc := id, delete := List.eraseIdx }

/-- The hypotheses of `C47_survival`; of the second front the individual with the least contribution goes. -/
example : HvObject.Sound (listHv fun i => (i : ℚ) - 2) ∧ [[0, 4], [3, 1, 2], [5]].flatten.Nodup ∧
    survive (listHv fun i => (i : ℚ) - 2) (some 4) [[0, 4], [3, 1, 2], [5]] = some [0, 4, 3, 2] := by
  refine ⟨⟨fun _ => by simp [listHv], fun h k hk => ?_⟩, by decide, by decide +kernel⟩
  have hk : k < h.length := hk
  change (h.eraseIdx k).length + 1 = h.length
  rw [List.length_eraseIdx_of_lt hk]
  omega

/-- No number of survivors. -/
example : survive (listHv fun i => (i : ℚ) - 2) none [[0, 4], [3]] = none := C47_no_number.mpr (by decide)

/-! ## C48 -/

section

variable [LinearOrder K]

/-- Pareto dominance. -/
def Dominates (x y : List K) : Prop :=
  x.length = y.length ∧ (∀ i (h : i < x.length) (h' : i < y.length), x[i] ≤ y[i]) ∧
    ∃ i, ∃ (h : i < x.length) (h' : i < y.length), x[i] < y[i]

/-- The contract of `Dominator.get_relation`. -/
def RelSound (rel : List K → List K → Int) : Prop :=
  ∀ x y : List K, x.length = y.length → (rel x y = 1 ↔ Dominates x y) ∧ (rel x y = -1 ↔ Dominates y x)

theorem not_dominates_both {x y : List K} (h1 : Dominates x y) (h2 : Dominates y x) : False := by
  obtain ⟨-, -, i, hi, hi', hlt⟩ := h1
  exact absurd (h2.2.1 i hi' hi) (not_le.mpr hlt)

/-- C48: one tournament between individuals of the population has a winner, one of the two; if one of them is
infeasible, a strictly smaller violation wins; if both are feasible, a dominating one wins. -/
theorem C48_tournament [Zero K] {rel : List K → List K → Int} (hrel : RelSound rel) {pop : List (Indiv K)}
    {a b : ℕ} {ia ib : Indiv K} (ha : pop[a]? = some ia) (hb : pop[b]? = some ib)
    (hl : ia.F.length = ib.F.length) (coin : Bool) :
    ∃ w, tournament rel pop coin a b = some w ∧ (w = a ∨ w = b) ∧
      (ia.cv > 0 ∨ ib.cv > 0 → (ia.cv < ib.cv → w = a) ∧ (ib.cv < ia.cv → w = b)) ∧
      (ia.cv ≤ 0 → ib.cv ≤ 0 → (Dominates ia.F ib.F → w = a) ∧ (Dominates ib.F ia.F → w = b)) := by
  obtain ⟨r1, r2⟩ := hrel ia.F ib.F hl
  unfold tournament
  rw [ha, hb]
  simp only [Option.bind_some, Option.map_some]
  refine ⟨_, rfl, ?_, fun h => ?_, fun h1 h2 => ?_⟩
  · unfold compareSmaller
    split_ifs <;> simp
  · rw [if_pos h]
    unfold compareSmaller
    refine ⟨fun h => by rw [if_pos h], fun h => by rw [if_neg (not_lt.mpr h.le), if_pos h]⟩
  · rw [if_neg (by simp [not_lt.mpr h1, not_lt.mpr h2])]
    refine ⟨fun h => by rw [if_pos (r1.mpr h)], fun h => ?_⟩
    rw [if_neg fun e => not_dominates_both (r1.mp e) h, if_pos (r2.mpr h)]

/-- C48 for all tournaments: there is one winner for every row, that of the tournament of the row. -/
theorem C48_all [Zero K] {rel : List K → List K → Int} {pop : List (Indiv K)} {coin : ℕ → Bool}
    {P : List (List ℕ)} {out : List ℕ} (h : cvAndDomTournament rel pop coin P = some out) :
    out.length = P.length ∧ ∀ (i : ℕ) (row : List ℕ), P[i]? = some row → ∃ a b w, row = [a, b] ∧
      out[i]? = some w ∧ tournament rel pop (coin i) a b = some w := by
  unfold cvAndDomTournament at h
  obtain ⟨h1, h2⟩ := Verif.Ind.mapM_eq_some.mp h
  have hl : ((List.range P.length).zip P).length = P.length := by simp
  refine ⟨by rw [h1, hl], fun i row hi => ?_⟩
  obtain ⟨hi, rfl⟩ := List.getElem?_eq_some_iff.mp hi
  have h3 := h2 i (by omega)
  simp only [List.getElem_zip, List.getElem_range] at h3
  have ho : i < out.length := by omega
  rw [List.getElem?_eq_getElem ho] at h3
  match hrow : P[i], h3 with
  | [], h3 => simp at h3
  | [_], h3 => simp at h3
  | [a, b], h3 => exact ⟨a, b, out[i], rfl, List.getElem?_eq_getElem ho, h3⟩
  | _ :: _ :: _ :: _, h3 => simp at h3

/-- Rows that are not pairs are an error. -/
theorem C48_binary [Zero K] {rel : List K → List K → Int} {pop : List (Indiv K)} {coin : ℕ → Bool}
    {P : List (List ℕ)} (h : ∃ row ∈ P, row.length ≠ 2) : cvAndDomTournament rel pop coin P = none := by
  cases hc : cvAndDomTournament rel pop coin P with
  | none => rfl
  | some out =>
    obtain ⟨row, hr, hl⟩ := h
    obtain ⟨i, hi, rfl⟩ := List.getElem_of_mem hr
    obtain ⟨a, b, w, h1, -⟩ := (C48_all hc).2 i _ (List.getElem?_eq_getElem hi)
    exact absurd (by rw [h1]; rfl) hl

open Classical in
/-- The contract can be met. -/
theorem relSound_exists : ∃ rel : List K → List K → Int, RelSound rel := by
  refine ⟨fun x y => if Dominates x y then 1 else if Dominates y x then -1 else 0, fun x y _ => ?_⟩
  by_cases h1 : Dominates x y
  · have h2 : ¬ Dominates y x := fun h2 => not_dominates_both h1 h2
    simp [h1, h2]
  · by_cases h2 : Dominates y x <;> simp [h1, h2]

end

/-- The dominating one of two feasible individuals. -/
example : Dominates [(1 : ℚ), 2] [1, 3] := by
  refine ⟨rfl, fun i h h' => ?_, 1, by simp, by simp, by norm_num⟩
  match i, h with
  | 0, _ => simp
  | 1, _ => norm_num

/-! ## C49 -/

section

variable {I : Type*} [Field K] [LinearOrder K]

/-- The offspring is strictly better in the subproblem `j`: without constraints by its value; with
constraints, violations up to `e` count as feasible; feasible individuals are compared by value, infeasible
ones by the violation, and a feasible one is better than an infeasible one. -/
def StrictlyBetter (g : ℕ → I → K) (cv : I → K) (eps : Option K) (j : ℕ) (off x : I) : Prop :=
  match eps with
  | none => g j off < g j x
  | some e => (cv off ≤ e ∧ cv x ≤ e ∧ g j off < g j x) ∨ (cv off ≤ e ∧ e < cv x) ∨
      (e < cv off ∧ e < cv x ∧ cv off < cv x)

theorem parameterLess_lt [IsStrictOrderedRing K] {fmax f f' c c' e : K} (hf : f ≤ fmax) (hf' : f' ≤ fmax) :
    parameterLess fmax f (max (c - e) 0) < parameterLess fmax f' (max (c' - e) 0) ↔
      (c ≤ e ∧ c' ≤ e ∧ f < f') ∨ (c ≤ e ∧ e < c') ∨ (e < c ∧ e < c' ∧ c < c') := by
  unfold parameterLess
  have h1 : ∀ c : K, max (c - e) 0 > 0 ↔ e < c := fun c => by
    rw [gt_iff_lt, lt_max_iff]
    simp
  simp only [h1]
  by_cases hc : e < c
  · rw [if_pos hc]
    have hm : max (c - e) 0 = c - e := max_eq_left (by linarith)
    by_cases hc' : e < c'
    · have hm' : max (c' - e) 0 = c' - e := max_eq_left (by linarith)
      rw [if_pos hc', hm, hm']
      constructor
      · intro h
        exact Or.inr (Or.inr ⟨hc, hc', by linarith⟩)
      · rintro (⟨h, -⟩ | ⟨h, -⟩ | ⟨-, -, h⟩) <;> linarith
    · rw [if_neg hc', hm]
      constructor
      · intro h
        linarith
      · rintro (⟨h, -⟩ | ⟨h, -⟩ | ⟨-, h, -⟩) <;> linarith
  · rw [if_neg hc]
    by_cases hc' : e < c'
    · have hm' : max (c' - e) 0 = c' - e := max_eq_left (by linarith)
      rw [if_pos hc', hm']
      constructor
      · intro _
        exact Or.inr (Or.inl ⟨not_lt.mp hc, hc'⟩)
      · intro _
        linarith
    · rw [if_neg hc']
      constructor
      · intro h
        exact Or.inl ⟨not_lt.mp hc, not_lt.mp hc', h⟩
      · rintro (⟨-, -, h⟩ | ⟨-, h⟩ | ⟨h, -, -⟩)
        · exact h
        · exact absurd h hc'
        · exact absurd h hc

theorem foldl_set_getElem? {α : Type*} (l : List (ℕ × Bool)) (pop : List α) (off : α) (i : ℕ) :
    (l.foldl (fun pop q => pop.set q.1 off) pop)[i]? =
      if i ∈ l.map Prod.fst then pop[i]?.map fun _ => off else pop[i]? := by
  induction l generalizing pop with
  | nil => simp
  | cons q l ih =>
    rw [List.foldl_cons, ih]
    simp only [List.map_cons, List.mem_cons]
    by_cases h1 : i = q.1
    · subst h1
      simp only [true_or, if_true]
      by_cases hl : q.1 < pop.length
      · rw [List.getElem?_set_self hl, List.getElem?_eq_getElem hl]
        simp
      · rw [List.getElem?_eq_none (by simpa using hl), List.getElem?_eq_none (by simpa using hl)]
        simp
    · simp only [h1, false_or]
      rw [List.getElem?_set_ne (Ne.symm h1)]

/-- C49: for neighbours in the population (at least one), a neighbour is replaced exactly if the
offspring is strictly better in its subproblem, and everybody else stays. -/
theorem C49_replace [IsStrictOrderedRing K] (g : ℕ → I → K) (cv : I → K) (eps : Option K) {nbs : List ℕ}
    (off : I) {pop : List I} (hb : ∀ j ∈ nbs, j < pop.length) (hne : nbs ≠ []) :
    ∃ pop', replace g cv eps nbs off pop = some pop' ∧ pop'.length = pop.length ∧
      ∀ (i : ℕ) (x : I), pop[i]? = some x → ∃ x', pop'[i]? = some x' ∧
        (i ∈ nbs ∧ StrictlyBetter g cv eps i off x → x' = off) ∧
        (¬ (i ∈ nbs ∧ StrictlyBetter g cv eps i off x) → x' = x) := by
  obtain ⟨sel, hsel⟩ := Verif.Ind.exists_gather (X := pop) (idx := nbs) hb
  obtain ⟨s1, s2⟩ := Verif.Ind.gather_eq_some.mp hsel
  have hsel' : (nbs.mapM fun j => pop[j]?) = some sel := hsel
  -- the values that are compared
  obtain ⟨FV, offFV, hm, hF, hO, hlt⟩ : ∃ FV offFV : List K,
      mergeCv eps (List.zipWith g nbs sel) (nbs.map fun j => g j off) (sel.map cv) (cv off) =
        some (FV, offFV) ∧ FV.length = nbs.length ∧ offFV.length = nbs.length ∧
      ∀ t (h1 : t < nbs.length) (h2 : t < sel.length) (h3 : t < FV.length) (h4 : t < offFV.length),
        offFV[t] < FV[t] ↔ StrictlyBetter g cv eps nbs[t] off sel[t] := by
    cases eps with
    | none =>
      refine ⟨_, _, rfl, by simp [s1], by simp, fun t h1 h2 h3 h4 => ?_⟩
      simp [StrictlyBetter]
    | some e =>
      have e1 : List.zipWith g nbs sel ≠ [] := by
        intro h
        have := congrArg List.length h
        rw [List.length_zipWith, s1, min_self] at this
        exact hne (List.length_eq_zero_iff.mp this)
      have e2 : (nbs.map fun j => g j off) ≠ [] := by simpa using hne
      obtain ⟨m, hm⟩ : ∃ m, (List.zipWith g nbs sel).max? = some m := by
        cases h : (List.zipWith g nbs sel).max? with
        | none => exact absurd (List.max?_eq_none_iff.mp h) e1
        | some m => exact ⟨m, rfl⟩
      obtain ⟨m', hm'⟩ : ∃ m, (nbs.map fun j => g j off).max? = some m := by
        cases h : (nbs.map fun j => g j off).max? with
        | none => exact absurd (List.max?_eq_none_iff.mp h) e2
        | some m => exact ⟨m, rfl⟩
      refine ⟨List.zipWith (fun f c => parameterLess (max m m') f (max (c - e) 0)) (List.zipWith g nbs sel)
          (sel.map cv), (nbs.map fun j => g j off).map fun f => parameterLess (max m m') f (max (cv off - e) 0),
        ?_, ?_, ?_, fun t h1 h2 h3 h4 => ?_⟩
      · unfold mergeCv
        dsimp only
        rw [hm, hm']
        rfl
      · simp [s1]
      · simp
      · simp only [List.getElem_zipWith, List.getElem_map]
        rw [parameterLess_lt]
        · rfl
        · refine ((List.max?_eq_some_iff.mp hm').2 _ ?_).trans (le_max_right _ _)
          exact List.mem_map.mpr ⟨_, List.getElem_mem h1, rfl⟩
        · refine ((List.max?_eq_some_iff.mp hm).2 _ ?_).trans (le_max_left _ _)
          rw [List.mem_iff_getElem]
          exact ⟨t, by rw [List.length_zipWith]; omega, by rw [List.getElem_zipWith]⟩
  unfold replace
  rw [hsel', Option.bind_some, hm, Option.map_some]
  refine ⟨_, rfl, ?_, ?_⟩
  · generalize ((nbs.zip (List.zipWith (fun o f => decide (o < f)) offFV FV)).filter fun q => q.2) = l
    clear hb hsel hsel' s2
    induction l generalizing pop with
    | nil => rfl
    | cons q l ih => rw [List.foldl_cons, ih, List.length_set]
  · intro i x hx
    rw [foldl_set_getElem?, hx]
    have hmem : i ∈ (((nbs.zip (List.zipWith (fun o f => decide (o < f)) offFV FV)).filter fun q => q.2).map
        Prod.fst) ↔ i ∈ nbs ∧ StrictlyBetter g cv eps i off x := by
      constructor
      · intro h
        obtain ⟨q, hq, rfl⟩ := List.mem_map.mp h
        obtain ⟨hq1, hq2⟩ := List.mem_filter.mp hq
        obtain ⟨t, ht, rfl⟩ := List.getElem_of_mem hq1
        simp only [List.length_zip, List.length_zipWith, hF, hO] at ht
        simp only [List.getElem_zip, List.getElem_zipWith, decide_eq_true_eq] at hq2 hx ⊢
        have h1 := (hlt t (by omega) (by omega) (by omega) (by omega)).mp hq2
        have h2 := s2 t (by omega)
        rw [hx, List.getElem?_eq_getElem (by omega : t < sel.length), Option.some.injEq] at h2
        rw [h2]
        exact ⟨List.getElem_mem _, h1⟩
      · rintro ⟨h1, h2⟩
        obtain ⟨t, ht, rfl⟩ := List.getElem_of_mem h1
        have h3 := s2 t ht
        rw [hx, List.getElem?_eq_getElem (by omega : t < sel.length), Option.some.injEq] at h3
        rw [h3] at h2
        have h4 := (hlt t (by omega) (by omega) (by omega) (by omega)).mpr h2
        refine List.mem_map.mpr ⟨(nbs[t], true), List.mem_filter.mpr ⟨?_, rfl⟩, rfl⟩
        rw [List.mem_iff_getElem]
        refine ⟨t, by simp only [List.length_zip, List.length_zipWith]; omega, ?_⟩
        simp [h4]
    by_cases hc : i ∈ nbs ∧ StrictlyBetter g cv eps i off x
    · rw [if_pos (hmem.mpr hc)]
      exact ⟨off, rfl, fun _ => rfl, fun h => absurd hc h⟩
    · rw [if_neg fun h => hc (hmem.mp h)]
      exact ⟨x, rfl, fun h => absurd h hc, fun _ => rfl⟩

/-- The comparison is strict: nobody is better than themselves, and two individuals are not better than each
other. -/
theorem C49_strict (g : ℕ → I → K) (cv : I → K) (eps : Option K) (j : ℕ) (x y : I)
    (h : StrictlyBetter g cv eps j x y) : ¬ StrictlyBetter g cv eps j y x := by
  unfold StrictlyBetter at *
  cases eps with
  | none => exact not_lt.mpr (le_of_lt h)
  | some e =>
    dsimp only at *
    rcases h with ⟨h1, h2, h3⟩ | ⟨h1, h2⟩ | ⟨h1, h2, h3⟩ <;> rintro (⟨g1, g2, g3⟩ | ⟨g1, g2⟩ | ⟨g1, g2, g3⟩) <;>
      first
        | exact absurd h3 (not_lt.mpr (le_of_lt g3))
        | exact absurd h1 (not_le.mpr g1)
        | exact absurd h1 (not_le.mpr g2)
        | exact absurd h2 (not_le.mpr g1)
        | exact absurd g1 (not_le.mpr h1)
        | exact absurd g1 (not_le.mpr h2)

/-- C49: the relaxation starts at `max_cv`, does not increase with the progress, and is zero from the fraction
`perc_eps_until` (0.8) of the run on. -/
theorem C49_eps [IsStrictOrderedRing K] {m p : K} (hm : 0 ≤ m) (hp : 0 < p) :
    cvEps (some m) p (some 0) = m ∧ (∀ s t, s ≤ t → cvEps (some m) p (some t) ≤ cvEps (some m) p (some s)) ∧
      (∀ t, p ≤ t → cvEps (some m) p (some t) = 0) ∧ (∀ t, 0 ≤ cvEps (some m) p (some t)) ∧
      (∀ t, 0 < m → t < p → 0 < cvEps (some m) p (some t)) := by
  simp only [cvEps, Option.getD_some]
  refine ⟨by simp, fun s t h => ?_, fun t h => ?_, fun t => mul_nonneg (le_max_left _ _) hm, fun t hm h => ?_⟩
  · refine mul_le_mul_of_nonneg_right (max_le_max le_rfl ?_) hm
    have : 1 / p * s ≤ 1 / p * t := mul_le_mul_of_nonneg_left h (by positivity)
    linarith
  · have : 1 ≤ 1 / p * t := by
      rw [one_div, inv_mul_eq_div, le_div_iff₀ hp]
      linarith
    rw [max_eq_left (by linarith), zero_mul]
  · refine mul_pos (lt_max_of_lt_right ?_) hm
    have : 1 / p * t < 1 := by
      rw [one_div, inv_mul_eq_div, div_lt_iff₀ hp]
      linarith
    linarith

/-- Without a termination the relaxation is zero if `perc_eps_until ≤ 1`. -/
theorem C49_eps_none [IsStrictOrderedRing K] {m p : K} (hp : 0 < p) (hp1 : p ≤ 1) :
    cvEps (some m) p none = 0 ∧ ∀ t, cvEps (none : Option K) p t = 0 := by
  refine ⟨?_, fun _ => rfl⟩
  simp only [cvEps, Option.getD_none]
  have : 1 ≤ 1 / p * 1 := by
    rw [mul_one, le_div_iff₀ hp]
    linarith
  rw [max_eq_left (by linarith), zero_mul]

end

/-- Individuals `(value, violation)`; with relaxation 1, the offspring replaces the worse feasible and the
infeasible neighbour. -/
example : replace (fun _ (x : ℚ × ℚ) => x.1) (fun x => x.2) (some 1) [2, 0, 1] (5, 1)
    [(7, 0), (3, 0), (1, 2), (9, 9)] = some [(5, 1), (3, 0), (5, 1), (9, 9)] ∧
    replace (fun _ (x : ℚ × ℚ) => x.1) (fun x => x.2) none [2, 0, 1] (5, 1)
      [(7, 0), (3, 0), (1, 2), (9, 9)] = some [(5, 1), (3, 0), (1, 2), (9, 9)] := by
  decide +kernel

end Verif.Props
