import Verif.HVD.Symmetry
import Verif.HVD.Outside
import Verif.HVD.Witness
import Verif.Ind.RefSetLemmas
import Verif.Props.Hypervolume

/-!
# C12 - C14: gradient and Hessian of the hypervolume in the objective space

`Spec.hvol` (Verif.HV.Spec) is the Lebesgue measure of the dominated region, `setCoord Y i k t` moves
objective `k` of point `i` to `t`, `GeneralPosition` says that no two points share an objective value
and that all points are strictly inside the reference box (Verif.HVD.Spec). `fuel` is the recursion
limit, as in C07.
-/

namespace Verif.Props

open Verif.HV Verif.HVD

variable {argsort : List ℝ → List ℕ} {d fuel : ℕ} {Y : List (ℕ → ℝ)} {ref : ℕ → ℝ}

theorem InRange.bounded (h : InRange d Y ref) : Bounded d Y ref := h

/-! ## C12 -/

/-- C12: `HVdY` holds the partial derivatives of the hypervolume, for any number of points and
objectives; no entry is positive and the rows of dominated points are zero. -/
theorem C12_gradient (ha : IsArgsort argsort) (hd : 0 < d) (hY : Y ≠ [])
    (h : GeneralPosition d Y ref) (hr : InRange d Y ref) (hf : NDS.depthBound d Y.length ≤ fuel) :
    ∃ g, gradientY argsort fuel d Y ref = some g ∧ g.length = Y.length ∧
      ∀ i < Y.length, ∀ k < d,
        HasDerivAt (fun t => Spec.hvol d (setCoord Y i k t) ref) (ptOf g i k) (ptOf Y i k) ∧
        ptOf g i k ≤ 0 ∧
        ((∃ j < Y.length, Dom d (ptOf Y j) (ptOf Y i)) → ptOf g i k = 0) := by
  obtain ⟨n, rfl⟩ := Nat.exists_eq_succ_of_ne_zero hd.ne'
  obtain ⟨g, hg, hl, he⟩ := gradientY_spec ha hY h hr.bounded hf
  refine ⟨g, hg, hl, fun i hi k hk => ?_⟩
  rw [he i hi k hk]
  refine ⟨hvol_hasDerivAt (by omega) hi (fun j hj hji => h.ne hj hi hji hk) (h.lt_ref hi hk),
    neg_nonpos.mpr slope_nonneg, ?_⟩
  rintro ⟨j, hj, hdom⟩
  obtain ⟨-, hlt⟩ := h.dom_lt hi hj hdom
  rw [neg_eq_zero]
  apply hvi_eq_zero
  refine ⟨dropAt k (ptOf Y j), mem_below.mpr ⟨j, hj, hlt k hk, rfl⟩, fun q hq => ?_⟩
  obtain ⟨q', hq', he'⟩ := dropAt_lt (d := n + 1) hk (by omega : q < n + 1 - 1)
  rw [he', he']
  exact (hlt q' hq').le

theorem ten_le : (10 : ℝ) ≤ 10 ^ 308 := by
  calc (10 : ℝ) = 10 ^ 1 := by norm_num
    _ ≤ 10 ^ 308 := pow_le_pow_right₀ (by norm_num) (by norm_num)

/-- Three objectives, four points, the last one dominated. -/
def derivY : List (ℕ → ℝ) := [pt [1, 3, 2], pt [2, 1, 4], pt [3, 2, 1], pt [5, 4, 3]]

theorem derivY_generalPosition : GeneralPosition 3 derivY (pt [6, 6, 6]) where
  distinct := by
    unfold derivY
    simp only [List.pairwise_cons, List.mem_cons, List.not_mem_nil, or_false, forall_eq_or_imp, forall_eq,
      List.Pairwise.nil, and_true, IsEmpty.forall_iff, implies_true]
    refine ⟨⟨?_, ?_, ?_⟩, ⟨?_, ?_⟩, ?_⟩ <;> intro k hk <;> interval_cases k <;> norm_num [pt]
  inside := by
    intro p hp k hk
    simp only [derivY, List.mem_cons, List.not_mem_nil, or_false] at hp
    rcases hp with rfl | rfl | rfl | rfl <;> interval_cases k <;> norm_num [pt]

theorem derivY_inRange : InRange 3 derivY (pt [6, 6, 6]) := by
  intro p hp k hk
  refine le_trans ?_ ten_le
  simp only [derivY, List.mem_cons, List.not_mem_nil, or_false] at hp
  rcases hp with rfl | rfl | rfl | rfl <;> interval_cases k <;> norm_num [pt]

example : ∃ g, gradientY stableArgsort 100 3 derivY (pt [6, 6, 6]) = some g ∧ ptOf g 3 0 = 0 := by
  obtain ⟨g, hg, -, h⟩ := C12_gradient stableArgsort_isArgsort (by norm_num) (by simp [derivY])
    derivY_generalPosition derivY_inRange (fuel := 100) (by decide)
  refine ⟨g, hg, (h 3 (by simp [derivY]) 0 (by norm_num)).2.2 ⟨0, by simp [derivY], ?_⟩⟩
  refine ⟨fun k hk => ?_, 0, by norm_num, ?_⟩
  · interval_cases k <;> norm_num [derivY, ptOf, pt]
  · norm_num [derivY, ptOf, pt]

/-! ## C13 -/

/-- The property as stated: the row of a point outside the reference box is zero. -/
def C13Statement : Prop :=
  ∀ argsort : List ℝ → List ℕ, IsArgsort argsort → ∀ d fuel, 0 < d →
    ∀ (Y : List (ℕ → ℝ)) (ref : ℕ → ℝ), Y ≠ [] → InRange d Y ref → NDS.depthBound d Y.length ≤ fuel →
      ∃ g, gradientY argsort fuel d Y ref = some g ∧
        ∀ i < Y.length, (∃ m < d, ref m < ptOf Y i m) → ∀ k < d, ptOf g i k = 0

theorem front0_singleton {p : ℕ → ℝ} {nd : List ℕ} (hF : IsFront0 d [p] nd) : nd = [0] := by
  have h0 : 0 ∈ nd := by
    obtain ⟨i, hi, -⟩ := hF.covers 0 (by simp)
    have := hF.valid i hi
    have hi0 : i = 0 := by simpa using this
    rwa [hi0] at hi
  have hall : ∀ i ∈ nd, i = 0 := fun i hi => by simpa using hF.valid i hi
  match nd, h0, hF.nodup, hall with
  | [a], _, _, h => rw [h a (by simp)]
  | a :: b :: l, _, hn, h =>
    have ha := h a (by simp)
    have hb := h b (by simp)
    simp [ha, hb] at hn

/-- The only point `(3, 0)`, reference `(2, 2)`: the row is `(-2, 1)`. -/
theorem C13_witness (argsort : List ℝ → List ℕ) {fuel : ℕ} (hf : NDS.depthBound 2 1 ≤ fuel) :
    ∃ g, gradientY argsort fuel 2 [pt [3, 0]] (pt [2, 2]) = some g ∧ ptOf g 0 0 = -2 ∧ ptOf g 0 1 = 1 := by
  obtain ⟨nd, hnd, hF⟩ := front0_spec (d := 2) (fuel := fuel) (P := [pt [(3 : ℝ), 0]]) (by norm_num) (by simp)
    (by simpa using hf)
  have hnd0 : nd = [0] := front0_singleton hF
  unfold gradientY
  rw [hnd, hnd0]
  simp only [hypervolumeDY, show ¬ (2 : ℕ) = 1 by norm_num, if_false, if_true]
  refine ⟨_, rfl, ?_, ?_⟩
  · simp [ptOf, hypervolumeDY2, order2, sel, pt]
  · simp [ptOf, hypervolumeDY2, order2, sel, pt]
    norm_num

/-- The code violates C13: with two objectives a point outside the box gets a non-zero row. -/
theorem C13_violated : ¬ C13Statement := by
  intro h
  obtain ⟨g, hg, h1⟩ := h stableArgsort stableArgsort_isArgsort 2 100 (by norm_num) [pt [3, 0]] (pt [2, 2])
    (by simp) (by
      intro p hp k hk
      refine le_trans ?_ ten_le
      rw [List.mem_singleton] at hp
      subst hp
      interval_cases k <;> norm_num [pt]) (by decide)
  obtain ⟨g', hg', h2, -⟩ := C13_witness stableArgsort (fuel := 100) (by decide)
  rw [hg] at hg'
  cases hg'
  have := h1 0 (by simp) ⟨0, by norm_num, by norm_num [ptOf, pt]⟩ 0 (by norm_num)
  rw [h2] at this
  norm_num at this

theorem inRange_exactOn (ha : IsArgsort argsort) (hd : 2 ≤ d) (hd4 : d ≤ 4) (hr : InRange d Y ref) :
    ExactOn argsort d Y ref := by
  intro k hk ids hn hv
  exact C01_three_objectives ha (by omega) (by omega) (Bounded.drop hr hk hv)

theorem hvi_outside {d : ℕ} {x ref : ℕ → ℝ} {P : List (ℕ → ℝ)} (h : ∃ m < d, ref m < x m) :
    Spec.hvi d x P ref = 0 := by
  obtain ⟨m, hm, hlt⟩ := h
  have : Spec.exclusive d x P ref = ∅ := by
    ext z
    simp only [Spec.exclusive, Set.mem_ofPred_eq, Set.mem_empty_iff_false, iff_false]
    rintro ⟨h1, h2, -⟩
    have := h1 ⟨m, hm⟩
    have := h2 ⟨m, hm⟩
    simp only at *
    linarith
  unfold Spec.hvi
  simp [this]

/-- C13 with three or four objectives, for all point sets: the entry for objective `k` is zero if the
point is beyond the reference in another objective. The full statement `C13Statement` is false
(`C13_violated`). Missing: the entry of the objective in which the point is beyond the reference (if
it is the only one), one and two objectives, five and more objectives. -/
theorem C13_other_objectives_partial (ha : IsArgsort argsort) (hd : 3 ≤ d) (hd4 : d ≤ 4) (hY : Y ≠ [])
    (hr : InRange d Y ref) (hf : NDS.depthBound d Y.length ≤ fuel) :
    ∃ g, gradientY argsort fuel d Y ref = some g ∧ g.length = Y.length ∧
      ∀ i < Y.length, ∀ k < d, (∃ m < d, m ≠ k ∧ ref m < ptOf Y i m) → ptOf g i k = 0 := by
  obtain ⟨nd, hnd, hF⟩ := front0_spec (d := d) (by omega) hY hf
  have hsel : sel Y nd = nd.map (ptOf Y) := sel_eq_map hF.valid
  have hlen := nodup_length_le hF.nodup hF.valid
  obtain ⟨g, hg, -, he⟩ := hypervolumeDY_spec (argsort := argsort) (fuel := fuel) (P := nd.map (ptOf Y))
    (ref := ref) hd ((depthBound_mono le_rfl (by simpa using hlen)).trans hf) (inRange_exactOn ha (by omega) hd4 (Bounded.sub hr hF.valid))
  unfold gradientY
  rw [hnd]
  simp only
  rw [hsel, hg]
  refine ⟨_, rfl, by simp, fun i hi k hk hout => ?_⟩
  rw [ptOf_range_map hi]
  by_cases hin : i ∈ nd
  · rw [if_pos hin]
    have hs : nd.idxOf i < nd.length := List.idxOf_lt_length_iff.mpr hin
    change ptOf g (nd.idxOf i) k = 0
    rw [he _ (by simpa using hs) k hk, ptOf_map hs, List.getElem_idxOf, neg_eq_zero]
    obtain ⟨m, hm, hmk, hlt⟩ := hout
    apply hvi_outside
    refine ⟨sIdx k m, ?_, ?_⟩
    · unfold sIdx; split_ifs <;> omega
    · rw [dropAt_sIdx hmk, dropAt_sIdx hmk]; exact hlt
  · rw [if_neg hin]

/-- The point `(7, 1, 1)` is beyond the reference `(6, 6, 6)` in the first objective. -/
example : ∃ g, gradientY (K := ℝ) stableArgsort 100 3 [pt [7, 1, 1], pt [2, 3, 3]] (pt [6, 6, 6]) = some g ∧
    ptOf g 0 1 = 0 ∧ ptOf g 0 2 = 0 := by
  obtain ⟨g, hg, -, h⟩ := C13_other_objectives_partial (d := 3) (Y := [pt [7, 1, 1], pt [2, 3, 3]])
    (ref := pt [6, 6, 6]) stableArgsort_isArgsort (by norm_num) (by norm_num) (by simp) (by
      intro p hp k hk
      refine le_trans ?_ ten_le
      simp only [List.mem_cons, List.not_mem_nil, or_false] at hp
      rcases hp with rfl | rfl <;> interval_cases k <;> norm_num [pt]) (fuel := 100) (by decide)
  exact ⟨g, hg, h 0 (by simp) 1 (by norm_num) ⟨0, by norm_num, by norm_num, by norm_num [ptOf, pt]⟩,
    h 0 (by simp) 2 (by norm_num) ⟨0, by norm_num, by norm_num, by norm_num [ptOf, pt]⟩⟩

/-- C13, one entry, for any number of objectives from three on and all point sets: whenever the code returns, the
entry for objective `k` is zero if the point is beyond the reference in another objective. The full statement
`C13Statement` is false (`C13_violated`). Missing: the entry of the objective in which the point is beyond the
reference, if it is the only one (it is wrong, see `C13_entries_partial`), and one and two objectives (the entries
are wrong). -/
theorem C13_any_objectives_partial (hd : 3 ≤ d) (hY : Y ≠ [])
    (hf : NDS.depthBound d Y.length ≤ fuel) {g : List (ℕ → ℝ)} (hg : gradientY argsort fuel d Y ref = some g) :
    g.length = Y.length ∧
      ∀ i < Y.length, ∀ k < d, (∃ m < d, m ≠ k ∧ ref m < ptOf Y i m) → ptOf g i k = 0 := by
  unfold gradientY at hg
  split at hg
  · simp at hg
  rename_i nd hnd
  have hF : IsFront0 d Y nd := by
    obtain ⟨nd', hnd', hF⟩ := front0_spec (d := d) (by omega) hY hf
    rw [hnd] at hnd'
    simp only [Option.some.injEq] at hnd'
    rw [hnd']
    exact hF
  have hsel : sel Y nd = nd.map (ptOf Y) := sel_eq_map hF.valid
  rw [hsel] at hg
  split at hg
  · simp at hg
  rename_i g' hg'
  simp only [Option.some.injEq] at hg
  subst hg
  refine ⟨by simp, fun i hi k hk hout => ?_⟩
  rw [ptOf_range_map hi]
  by_cases hin : i ∈ nd
  swap
  · rw [if_neg hin]
  rw [if_pos hin, getD_map_idxOf]
  unfold hypervolumeDY at hg'
  rw [if_neg (by omega), if_neg (by omega)] at hg'
  obtain ⟨hlen, hrows⟩ := Ind.mapM_eq_some.mp hg'
  rw [List.length_range] at hlen
  rcases lt_or_ge (nd.idxOf i) g'.length with hs | hs
  swap
  · rw [ptOf, List.getD_eq_default _ _ hs]
  have hrow := hrows (nd.idxOf i) (by rw [List.length_range]; omega)
  rw [List.getElem_range, List.getElem?_eq_getElem hs, Option.map_eq_some_iff] at hrow
  obtain ⟨r, hr, hr2⟩ := hrow
  obtain ⟨hrl, hre⟩ := Ind.mapM_eq_some.mp hr
  rw [List.length_range] at hrl
  have hentry := hre k (by rw [List.length_range]; exact hk)
  rw [List.getElem_range, List.getElem?_eq_getElem (by omega)] at hentry
  rw [ptOf_eq hs, ← hr2, pt, List.getD_eq_getElem _ _ (by omega)]
  unfold dYEntry at hentry
  split at hentry
  · simp at hentry
  rename_i pr hpr
  have hp : pr.y = dropAt k (ptOf Y i) ∧ pr.ref = dropAt k ref := by
    unfold project at hpr
    split at hpr
    · simp at hpr
    rename_i y hy
    have hyi : y = ptOf Y i := by
      have hl : nd.idxOf i < nd.length := List.idxOf_lt_length_iff.mpr hin
      rw [List.getElem?_map, List.getElem?_eq_getElem hl, List.getElem_idxOf] at hy
      simpa using hy.symm
    dsimp only at hpr
    split at hpr
    · simp only [Option.some.injEq] at hpr
      rw [← hpr, hyi]
      exact ⟨rfl, rfl⟩
    · split at hpr
      · simp at hpr
      · simp only [Option.some.injEq] at hpr
        rw [← hpr, hyi]
        exact ⟨rfl, rfl⟩
  obtain ⟨m, hm, hmk, hlt⟩ := hout
  have hzero : hypervolume argsort (d - 1) (pr.y :: pr.front) pr.ref = hypervolume argsort (d - 1) pr.front pr.ref := by
    apply C03_outside
    rw [hp.1, hp.2]
    refine ⟨sIdx k m, ?_, ?_⟩
    · unfold sIdx; split_ifs <;> omega
    · rw [dropAt_sIdx hmk, dropAt_sIdx hmk]; exact hlt
  unfold hypervolumeImprovement at hentry
  rw [hzero] at hentry
  cases hv : hypervolume argsort (d - 1) pr.front pr.ref with
  | none => simp [hv] at hentry
  | some v => simpa [hv] using hentry.symm

/-- Moving a coordinate that is beyond the reference does not change the hypervolume. -/
theorem hvol_hasDerivAt_beyond {i k : ℕ} (hk : k < d) (hi : i < Y.length) (h : ref k < ptOf Y i k) :
    HasDerivAt (fun t => Spec.hvol d (setCoord Y i k t) ref) 0 (ptOf Y i k) := by
  refine HasDerivAt.congr_of_eventuallyEq (hasDerivAt_const _ (Spec.hvol d (Y.eraseIdx i) ref)) ?_
  filter_upwards [lt_mem_nhds h] with t ht
  have hs : Spec.hvol d (setCoord Y i k t) ref =
      Spec.hvol d (Function.update (ptOf Y i) k t :: Y.eraseIdx i) ref :=
    Spec.hvol_congr_mem fun p => by rw [mem_setCoord hi, List.mem_cons]
  rw [hs, Spec.hvol_cons, hvi_outside ⟨k, hk, by simpa using ht⟩, add_zero]

/-- What the gradient is with points outside the box, for any number of objectives from three on: where no two points
share a value and none has a value of the reference, an entry is the partial derivative of the hypervolume if the
point is below the reference in that objective, wherever the other points are and wherever the point is in the other
objectives. Beyond the reference the partial derivative is zero, but the entry is so only for a dominated point and
for a point beyond the reference in another objective as well. The full statement is `C13Statement`. Missing: the
entries that are wrong, and one and two objectives (`C13_violated_neighbours`). -/
theorem C13_entries_partial (ha : IsArgsort argsort) (hd : 3 ≤ d) (hY : Y ≠ []) (h : Generic d Y ref)
    (hr : InRange d Y ref) (hf : NDS.depthBound d Y.length ≤ fuel) :
    ∃ g, gradientY argsort fuel d Y ref = some g ∧ g.length = Y.length ∧
      ∀ i < Y.length, ∀ k < d,
        (ptOf Y i k < ref k →
          HasDerivAt (fun t => Spec.hvol d (setCoord Y i k t) ref) (ptOf g i k) (ptOf Y i k)) ∧
        (ref k < ptOf Y i k →
          HasDerivAt (fun t => Spec.hvol d (setCoord Y i k t) ref) 0 (ptOf Y i k) ∧
          (ptOf g i k = 0 ↔ (∃ m < d, m ≠ k ∧ ref m < ptOf Y i m) ∨
            ∃ j < Y.length, Dom d (ptOf Y j) (ptOf Y i))) := by
  obtain ⟨n, rfl⟩ : ∃ n, d = n + 1 := ⟨d - 1, by omega⟩
  obtain ⟨g, hg, hl, he⟩ := gradientY_generic ha (by omega) hY h hr hf
  refine ⟨g, hg, hl, fun i hi k hk => ⟨fun hlt => ?_, fun hlt => ⟨hvol_hasDerivAt_beyond hk hi hlt, ?_⟩⟩⟩
  · rw [he i hi k hk]
    exact hvol_hasDerivAt (by omega) hi (fun j hj hji => h.ne hj hi hji hk) hlt
  rw [he i hi k hk, neg_eq_zero]
  unfold HVD.slope
  rw [Spec.hvi_eq_zero_iff]
  constructor
  · rintro (⟨p, hp, hle⟩ | ⟨q, hq, hle⟩)
    · right
      obtain ⟨j, hj, hlt, rfl⟩ := mem_below.mp hp
      refine ⟨j, hj, fun m hm => ?_, k, hk, hlt⟩
      by_cases hmk : m = k
      · rw [hmk]; exact hlt.le
      · have := hle (sIdx k m) (by unfold sIdx; split_ifs <;> omega)
        rwa [dropAt_sIdx hmk, dropAt_sIdx hmk] at this
    · left
      by_cases hqk : q < k
      · simp only [dropAt, hqk, if_true] at hle
        exact ⟨q, by omega, by omega, lt_of_le_of_ne hle (h.ne_ref hi (by omega)).symm⟩
      · simp only [dropAt, hqk, if_false] at hle
        exact ⟨q + 1, by omega, by omega, lt_of_le_of_ne hle (h.ne_ref hi (by omega)).symm⟩
  · rintro (⟨m, hm, hmk, hlt'⟩ | ⟨j, hj, hd'⟩)
    · right
      refine ⟨sIdx k m, by unfold sIdx; split_ifs <;> omega, ?_⟩
      rw [dropAt_sIdx hmk, dropAt_sIdx hmk]
      exact hlt'.le
    · left
      have hne : j ≠ i := by
        rintro rfl
        obtain ⟨-, m, -, hm⟩ := hd'
        exact lt_irrefl _ hm
      refine ⟨dropAt k (ptOf Y j), mem_below.mpr ⟨j, hj, lt_of_le_of_ne (hd'.1 k hk) (h.ne hj hi hne hk), rfl⟩,
        fun q hq => ?_⟩
      obtain ⟨q', hq', e⟩ := dropAt_lt (d := n + 1) hk (by omega : q < n + 1 - 1)
      rw [e, e]
      exact hd'.1 q' hq'

/-- The points `(7, 1, 1)` and `(2, 3, 3)`, reference `(6, 6, 6)`: the row of the second is the gradient of the
hypervolume, the first entry of the first is not. -/
example : ∃ g, gradientY (K := ℝ) stableArgsort 100 3 [pt [7, 1, 1], pt [2, 3, 3]] (pt [6, 6, 6]) = some g ∧
    ptOf g 0 0 ≠ 0 ∧ ∀ k < 3, HasDerivAt
      (fun t => Spec.hvol 3 (setCoord [pt [7, 1, 1], pt [2, 3, 3]] 1 k t) (pt [6, 6, 6])) (ptOf g 1 k)
      (pt [2, 3, 3] k) := by
  obtain ⟨g, hg, -, h⟩ := C13_entries_partial (d := 3) (Y := [pt [7, 1, 1], pt [2, 3, 3]])
    (ref := pt [6, 6, 6]) stableArgsort_isArgsort (by norm_num) (by simp) ⟨by
      simp only [List.pairwise_cons, List.mem_singleton, forall_eq, List.not_mem_nil, false_imp_iff, implies_true,
        List.Pairwise.nil, and_true]
      intro k hk
      interval_cases k <;> norm_num [pt], by
      intro p hp k hk
      simp only [List.mem_cons, List.not_mem_nil, or_false] at hp
      rcases hp with rfl | rfl <;> interval_cases k <;> norm_num [pt]⟩ (by
      intro p hp k hk
      refine le_trans ?_ ten_le
      simp only [List.mem_cons, List.not_mem_nil, or_false] at hp
      rcases hp with rfl | rfl <;> interval_cases k <;> norm_num [pt]) (fuel := 100) (by decide)
  refine ⟨g, hg, ?_, fun k hk => (h 1 (by simp) k hk).1 ?_⟩
  · rw [Ne, ((h 0 (by simp) 0 (by norm_num)).2 (by norm_num [ptOf, pt])).2]
    rintro (⟨m, hm, hm0, hlt⟩ | ⟨j, hj, hle, k, hk, hlt⟩)
    · interval_cases m
      · exact hm0 rfl
      · norm_num [ptOf, pt] at hlt
      · norm_num [ptOf, pt] at hlt
    · simp only [List.length_cons, List.length_nil] at hj
      interval_cases j
      · exact lt_irrefl _ hlt
      · have := hle 1 (by norm_num)
        norm_num [ptOf, pt] at this
  · interval_cases k <;> norm_num [ptOf, pt]

/-- C13 fails with every number of objectives: the only point is beyond the reference in the first objective, and its
row is not zero. -/
theorem C13_violated_every_dimension (ha : IsArgsort argsort) (hd : 0 < d) (hf : NDS.depthBound d 1 ≤ fuel) :
    ∃ g, gradientY argsort fuel d [fun k => if k = 0 then 3 else 0] (fun _ => 2) = some g ∧ ptOf g 0 0 < 0 := by
  rcases Nat.lt_or_ge d 3 with h3 | h3
  · obtain ⟨nd, hnd, hF⟩ := front0_spec (d := d) (fuel := fuel)
      (P := [fun k => if k = 0 then (3 : ℝ) else 0]) hd (by simp) (by simpa using hf)
    have hnd0 : nd = [0] := front0_singleton hF
    unfold gradientY
    rw [hnd, hnd0]
    obtain rfl | rfl : d = 1 ∨ d = 2 := by omega
    · simp only [hypervolumeDY, if_true]
      exact ⟨_, rfl, by simp [ptOf, pt]⟩
    · simp only [hypervolumeDY, show ¬ (2 : ℕ) = 1 by norm_num, if_false, if_true]
      exact ⟨_, rfl, by simp [ptOf, hypervolumeDY2, order2, sel, pt]⟩
  · obtain ⟨n, rfl⟩ : ∃ n, d = n + 1 := ⟨d - 1, by omega⟩
    obtain ⟨g, hg, -, he⟩ := gradientY_generic (n := n) (fuel := fuel) (Y := [fun k => if k = 0 then (3 : ℝ) else 0])
      (ref := fun _ => 2) ha (by omega) (by simp) ⟨by simp, by
        intro p hp k hk
        rw [List.mem_singleton] at hp
        subst hp
        dsimp only
        split_ifs <;> norm_num⟩ (by
        intro p hp k hk
        refine le_trans ?_ ten_le
        rw [List.mem_singleton] at hp
        subst hp
        dsimp only
        split_ifs <;> norm_num) (by simpa using hf)
    refine ⟨g, hg, ?_⟩
    rw [he 0 (by simp) 0 (by omega), neg_lt_zero]
    unfold HVD.slope
    have hnil : ([fun k => if k = 0 then (3 : ℝ) else 0].filter fun a : ℕ → ℝ =>
        a 0 < ptOf [fun k => if k = 0 then (3 : ℝ) else 0] 0 0) = [] := by
      simp [ptOf]
    rw [hnil]
    apply Spec.hvi_pos
    · intro q hq
      simp [dropAt, ptOf]
    · simp

/-- With two objectives a point outside the box spoils the row of another that is inside: of the points `(3, 0)` and
`(1, 1)` with the reference `(2, 2)`, the second gets `(-1, -2)`; the gradient is `(-1, -1)`. -/
theorem C13_violated_neighbours (hf : NDS.depthBound 2 2 ≤ fuel) :
    ∃ g, gradientY argsort fuel 2 [pt [3, 0], pt [1, 1]] (pt [2, 2]) = some g ∧ ptOf g 1 0 = -1 ∧ ptOf g 1 1 = -2 ∧
      HasDerivAt (fun t => Spec.hvol 2 (setCoord [pt [3, 0], pt [1, 1]] 1 1 t) (pt [2, 2])) (-1)
        (pt [(1 : ℝ), 1] 1) := by
  obtain ⟨nd, hnd, hF⟩ := front0_spec (d := 2) (fuel := fuel) (P := [pt [(3 : ℝ), 0], pt [1, 1]]) (by norm_num)
    (by simp) (by simpa using hf)
  have h01 : 0 ∈ nd ∧ 1 ∈ nd := by
    constructor <;> refine hF.all le_rfl _ (by simp) fun j hj hd => ?_
    · have h1 := hd.1 0 (by norm_num)
      have h2 := hd.1 1 (by norm_num)
      simp only [List.length_cons, List.length_nil] at hj
      interval_cases j
      · obtain ⟨-, k, -, hk⟩ := hd
        exact lt_irrefl _ hk
      · norm_num [ptOf, pt] at h2
    · have h1 := hd.1 0 (by norm_num)
      simp only [List.length_cons, List.length_nil] at hj
      interval_cases j
      · norm_num [ptOf, pt] at h1
      · obtain ⟨-, k, -, hk⟩ := hd
        exact lt_irrefl _ hk
  have hcase : nd = [0, 1] ∨ nd = [1, 0] := by
    have hv : ∀ i ∈ nd, i < 2 := fun i hi => by simpa using hF.valid i hi
    have hl := nodup_length_le hF.nodup hv
    match nd, h01, hF.nodup, hv, hl with
    | [a], h, _, _, _ => simp at h; omega
    | [a, b], h, _, _, _ => simp at h ⊢; omega
    | a :: b :: c :: l, _, _, _, hl => simp at hl
  have hrow : ∃ g, gradientY argsort fuel 2 [pt [(3 : ℝ), 0], pt [1, 1]] (pt [2, 2]) = some g ∧ ptOf g 1 0 = -1 ∧
      ptOf g 1 1 = -2 := by
    unfold gradientY
    rw [hnd]
    simp only [hypervolumeDY, show ¬ (2 : ℕ) = 1 by norm_num, if_false, if_true]
    refine ⟨_, rfl, ?_⟩
    rcases hcase with rfl | rfl
    · have e1 : sel [pt [(3 : ℝ), 0], pt [1, 1]] [0, 1] = [pt [3, 0], pt [1, 1]] := rfl
      have e2 : order2 [pt [(3 : ℝ), 0], pt [1, 1]] = [1, 0] := by
        simp [order2, List.insertionSort, List.orderedInsert, pt]
      have e3 : sel [pt [(3 : ℝ), 0], pt [1, 1]] [1, 0] = [pt [1, 1], pt [3, 0]] := rfl
      rw [e1]
      unfold hypervolumeDY2
      rw [e2]
      simp only [e3]
      norm_num [ptOf, pt, List.range_succ, List.idxOf, List.findIdx, List.findIdx.go]
      exact ⟨rfl, rfl⟩
    · have e1 : sel [pt [(3 : ℝ), 0], pt [1, 1]] [1, 0] = [pt [1, 1], pt [3, 0]] := rfl
      have e2 : order2 [pt [(1 : ℝ), 1], pt [3, 0]] = [0, 1] := by
        simp [order2, List.insertionSort, List.orderedInsert, pt]
      have e3 : sel [pt [(1 : ℝ), 1], pt [3, 0]] [0, 1] = [pt [1, 1], pt [3, 0]] := rfl
      rw [e1]
      unfold hypervolumeDY2
      rw [e2]
      simp only [e3]
      norm_num [ptOf, pt, List.range_succ, List.idxOf, List.findIdx, List.findIdx.go]
  obtain ⟨g, hg, h0, h1⟩ := hrow
  refine ⟨g, hg, h0, h1, ?_⟩
  have hder := hvol_hasDerivAt (n := 1) (i := 1) (k := 1) (Y := [pt [(3 : ℝ), 0], pt [1, 1]]) (ref := pt [2, 2])
    le_rfl (by simp) (by
      intro j hj hj1
      simp only [List.length_cons, List.length_nil] at hj
      interval_cases j
      · norm_num [ptOf, pt]
      · exact absurd rfl hj1) (by norm_num [ptOf, pt])
  have hs : HVD.slope 1 [pt [(3 : ℝ), 0], pt [1, 1]] (pt [2, 2]) 1 1 = 1 := by
    unfold HVD.slope
    have hfil : ([pt [(3 : ℝ), 0], pt [1, 1]].filter fun a : ℕ → ℝ => a 1 < ptOf [pt [(3 : ℝ), 0], pt [1, 1]] 1 1) =
        [pt [3, 0]] := by
      simp [ptOf, pt]
    rw [hfil, List.map_singleton]
    have hc : ∀ x p r : ℕ → ℝ, r 0 < p 0 → Spec.hvi 1 x [p] r = Spec.hvi 1 x [] r := by
      intro x p r hpr
      have e1 := Spec.hvol_cons (d := 1) (P := [p]) (ref := r) x
      have e2 := Spec.hvol_cons (d := 1) (P := [x]) (ref := r) p
      have e3 := Spec.hvol_cons (d := 1) (P := []) (ref := r) x
      have e4 := Spec.hvol_cons (d := 1) (P := []) (ref := r) p
      have e5 : Spec.hvol 1 [x, p] r = Spec.hvol 1 [p, x] r := Spec.hvol_congr_mem fun q => by simp [or_comm]
      rw [hvi_outside ⟨0, by norm_num, hpr⟩] at e2 e4
      linarith
    rw [hc _ _ _ (by norm_num [dropAt, pt]), hvi_one_nil (by norm_num [dropAt, pt, ptOf])]
    norm_num [dropAt, pt, ptOf]
  rw [hs] at hder
  exact hder

/-! ## C14 -/

/-- The property as stated. -/
def C14Statement : Prop :=
  ∀ argsort : List ℝ → List ℕ, IsArgsort argsort → ∀ d fuel, 2 ≤ d →
    ∀ (Y : List (ℕ → ℝ)) (ref : ℕ → ℝ), Y ≠ [] → GeneralPosition d Y ref → InRange d Y ref →
      NDS.depthBound d Y.length ≤ fuel →
      ∃ H, hessianY argsort fuel d Y ref = some H ∧
        ∀ i < Y.length, ∀ k < d, ∀ j < Y.length, ∀ m < d,
          HasDerivAt (fun t => partialHV d (setCoord Y j m t) ref i k) (entryH H j m i k) (ptOf Y j m)

theorem partialHV_hasDerivAt {n i j k m : ℕ} (h : GeneralPosition (n + 2) Y ref) (hi : i < Y.length)
    (hj : j < Y.length) (hk : k < n + 2) (hm : m < n + 2) :
    HasDerivAt (fun t => partialHV (n + 2) (setCoord Y j m t) ref i k) (second n Y ref j m i k) (ptOf Y j m) := by
  refine (slope_hasDerivAt h hi hj hk hm).congr_of_eventuallyEq ?_
  obtain ⟨ε, hε, hw⟩ := h.eventually hj hm
  filter_upwards [Ioo_mem_nhds (show ptOf Y j m - ε < ptOf Y j m by linarith)
    (show ptOf Y j m < ptOf Y j m + ε by linarith)] with t ht
  exact partialHV_eq (hw t ht.1 ht.2).1 (by omega) (by rwa [length_setCoord])

/-- C14 for any number of objectives, if the hypervolume code is exact on the points clipped at
another point and projected along two objectives (`CrossExact`). The full statement is
`C14Statement`, which is false (`C14_violated`). Missing: six and more objectives without `CrossExact`. -/
theorem C14_any_objectives_partial {n : ℕ} (ha : IsArgsort argsort) (hY : Y ≠ [])
    (h : GeneralPosition (n + 2) Y ref) (hr : InRange (n + 2) Y ref)
    (hf : NDS.depthBound (n + 2) Y.length ≤ fuel) (hE : 2 ≤ n → CrossExact argsort n Y ref) :
    ∃ H, hessianY argsort fuel (n + 2) Y ref = some H ∧
      ∀ i < Y.length, ∀ k < n + 2, ∀ j < Y.length, ∀ m < n + 2,
        HasDerivAt (fun t => partialHV (n + 2) (setCoord Y j m t) ref i k) (entryH H j m i k) (ptOf Y j m) ∧
        entryH H j m i k = entryH H i k j m ∧ entryH H i k i k = 0 ∧
        ((∃ l < Y.length, Dom (n + 2) (ptOf Y l) (ptOf Y i)) →
          entryH H j m i k = 0 ∧ entryH H i k j m = 0) := by
  obtain ⟨H, hH, he⟩ := hessianY_spec ha hY h hr.bounded hf hE
  refine ⟨H, hH, fun i hi k hk j hj m hm => ⟨?_, ?_, ?_, ?_⟩⟩
  · rw [he i hi k hk j hj m hm]
    exact partialHV_hasDerivAt h hi hj hk hm
  · rw [he i hi k hk j hj m hm, he j hj m hm i hi k hk]
    exact second_symm h hi hj hk hm
  · rw [he i hi k hk i hi k hk, second, if_pos rfl]
  · rintro ⟨l, hl, hdom⟩
    rw [he i hi k hk j hj m hm, he j hj m hm i hi k hk]
    exact ⟨second_dominated_right h hi hl hk hm hdom, second_dominated_left h hj hi hl hm hk hdom⟩

/-- `CrossExact` holds for all point sets with at most five objectives. -/
theorem crossExact_five {n : ℕ} (ha : IsArgsort argsort) (h2 : 2 ≤ n) (h5 : n ≤ 3)
    (h : GeneralPosition (n + 2) Y ref) (hr : InRange (n + 2) Y ref) : CrossExact argsort n Y ref := by
  intro i hi k hk ids hn hv
  refine inRange_exactOn ha (by omega) (by omega) ?_
  intro p hp q hq
  obtain ⟨j, hj, rfl⟩ := List.mem_map.mp hp
  obtain ⟨q', hq', he'⟩ := dropAt_lt (d := n + 2) hk (by omega : q < n + 2 - 1)
  have h1 := hr _ (mem_iff_ptOf.mpr ⟨i, hi, rfl⟩) q' hq'
  have h2 := h.lt_ref hi hq'
  have h3 := h.lt_ref (hv j hj) hq'
  unfold clip
  rw [he', he', he', min_eq_left (max_le h3.le h2.le)]
  exact (sub_le_sub_left (le_max_right (ptOf Y j q') (ptOf Y i q')) _).trans h1

/-- Two points with four objectives. -/
example : ∃ H, hessianY (K := ℝ) stableArgsort 100 4 [pt [1, 3, 2, 5], pt [2, 1, 4, 3]] (pt [6, 6, 6, 6]) =
      some H ∧ entryH H 0 1 1 0 = entryH H 1 0 0 1 := by
  have h : GeneralPosition 4 [pt [1, 3, 2, 5], pt [2, 1, 4, 3]] (pt [6, 6, 6, 6]) := by
    constructor
    · simp only [List.pairwise_cons, List.mem_cons, List.not_mem_nil, or_false, forall_eq,
        List.Pairwise.nil, and_true, IsEmpty.forall_iff, implies_true]
      intro k hk
      interval_cases k <;> norm_num [pt]
    · intro p hp k hk
      simp only [List.mem_cons, List.not_mem_nil, or_false] at hp
      rcases hp with rfl | rfl <;> interval_cases k <;> norm_num [pt]
  have hr : InRange 4 [pt [1, 3, 2, 5], pt [2, 1, 4, 3]] (pt [6, 6, 6, 6]) := by
    intro p hp k hk
    refine le_trans ?_ ten_le
    simp only [List.mem_cons, List.not_mem_nil, or_false] at hp
    rcases hp with rfl | rfl <;> interval_cases k <;> norm_num [pt]
  obtain ⟨H, hH, he⟩ := C14_any_objectives_partial (n := 2) stableArgsort_isArgsort (by simp) h hr
    (fuel := 100) (by decide) (fun h2 => crossExact_five stableArgsort_isArgsort h2 (by norm_num) h hr)
  exact ⟨H, hH, (he 1 (by simp) 0 (by norm_num) 0 (by simp) 1 (by norm_num)).2.1⟩

/-- C14 for two to five objectives and any number of points: `HVdY2` holds the second partial
derivatives; it is symmetric with zero diagonal, and the rows and columns of dominated points are
zero. The full statement is `C14Statement`. Missing: six and more objectives, where the clipped
points tie and the hypervolume code is not exact with ties; see `C14_any_objectives_partial` for a
sufficient condition. -/
theorem C14_five_objectives_partial (ha : IsArgsort argsort) (hd : 2 ≤ d) (hd5 : d ≤ 5) (hY : Y ≠ [])
    (h : GeneralPosition d Y ref) (hr : InRange d Y ref) (hf : NDS.depthBound d Y.length ≤ fuel) :
    ∃ H, hessianY argsort fuel d Y ref = some H ∧
      ∀ i < Y.length, ∀ k < d, ∀ j < Y.length, ∀ m < d,
        HasDerivAt (fun t => partialHV d (setCoord Y j m t) ref i k) (entryH H j m i k) (ptOf Y j m) ∧
        entryH H j m i k = entryH H i k j m ∧ entryH H i k i k = 0 ∧
        ((∃ l < Y.length, Dom d (ptOf Y l) (ptOf Y i)) →
          entryH H j m i k = 0 ∧ entryH H i k j m = 0) := by
  obtain ⟨n, rfl⟩ : ∃ n, d = n + 2 := ⟨d - 2, by omega⟩
  exact C14_any_objectives_partial ha hY h hr hf fun h2 => crossExact_five ha h2 (by omega) h hr

example : ∃ H, hessianY stableArgsort 100 3 derivY (pt [6, 6, 6]) = some H ∧
    entryH H 0 1 2 0 = entryH H 2 0 0 1 := by
  obtain ⟨H, hH, h⟩ := C14_five_objectives_partial stableArgsort_isArgsort (by norm_num) (by norm_num)
    (by simp [derivY]) derivY_generalPosition derivY_inRange (fuel := 100) (by decide)
  exact ⟨H, hH, (h 2 (by simp [derivY]) 0 (by norm_num) 0 (by simp [derivY]) 1 (by norm_num)).2.1⟩

/-- Five points with eight objectives, no value occurs twice in an objective. -/
def hessY : List (List ℤ) :=
  [[-4, -4, -2, -5, -2, -5, -3, -2], [-5, -2, -5, -2, -5, -1, -5, -4], [-1, -5, -1, -3, -1, -4, -4, -3],
    [-3, -1, -4, -4, -4, -3, -2, -1], [-2, -3, -3, -1, -3, -2, -1, -5]]

/-- For `hessY` and the reference zero the code returns `2` for `∂²HV / ∂y_1^3 ∂y_4^2`. -/
theorem C14_witness {H : List (List (ℕ → ℕ → ℝ))} (hf : NDS.depthBound 8 5 ≤ fuel)
    (hH : hessianY stableArgsort fuel 8 (hessY.map fun l => pt (l.map fun v : ℤ => (v : ℝ))) (pt []) = some H) :
    entryH H 3 1 2 4 = 2 := by
  have e : (hessY.map pt).map castP = hessY.map fun l => pt (l.map fun v : ℤ => (v : ℝ)) := by
    rw [List.map_map]
    congr 1
    exact funext castP_pt
  have e0 : castP (pt []) = pt [] := by rw [castP_pt]; rfl
  rw [← e, ← e0] at hH
  have := hessianY_entry_cast stableArgsort_cast (i := 2) (k := 4) (j := 3) (m := 1) (v := 2) (by norm_num) (by decide) (by norm_num)
    (by norm_num) (by norm_num) hf hH (by decide +kernel) (by decide +kernel) (by decide +kernel) (by decide +kernel)
    (by decide +kernel) (by decide +kernel)
  simpa using this

theorem hessY_generalPosition :
    GeneralPosition 8 (hessY.map fun l => pt (l.map fun v : ℤ => (v : ℝ))) (pt []) := by
  constructor
  · have h : hessY.Pairwise fun p q => ∀ k < 8, pt p k ≠ pt q k := by decide +kernel
    rw [List.pairwise_map]
    refine h.imp fun {p q} h k hk => ?_
    rw [← castP_pt, ← castP_pt]
    simpa [castP] using h k hk
  · have h : ∀ p ∈ hessY, ∀ k < 8, pt p k < (0 : ℤ) := by decide +kernel
    intro p hp k hk
    obtain ⟨l, hl, rfl⟩ := List.mem_map.mp hp
    rw [← castP_pt]
    have := h l hl k hk
    simpa [castP, pt] using this

/-- The code violates C14: with eight objectives the Hessian has an entry `2` where the second derivative is not
positive. -/
theorem C14_violated : ¬ C14Statement := by
  intro h
  have hr : InRange 8 (hessY.map fun l => pt (l.map fun v : ℤ => (v : ℝ))) (pt []) := by
    have := inRange_of_small (d := 8) (l := hessY.map fun l => l.map fun v : ℤ => (v : ℝ)) (by
      have h : ∀ p ∈ hessY, ∀ x ∈ p, -10 ≤ x := by decide +kernel
      intro p hp x hx
      obtain ⟨l, hl, rfl⟩ := List.mem_map.mp hp
      obtain ⟨v, hv, rfl⟩ := List.mem_map.mp hx
      exact_mod_cast h l hl v hv)
    rwa [List.map_map] at this
  have hg := hessY_generalPosition
  obtain ⟨H, hH, hd⟩ := h stableArgsort stableArgsort_isArgsort 8 (NDS.depthBound 8 5) (by norm_num)
    (hessY.map fun l => pt (l.map fun v : ℤ => (v : ℝ))) (pt []) (by simp [hessY]) hg hr (by simp [hessY])
  have h1 := hd 2 (by simp [hessY]) 4 (by norm_num) 3 (by simp [hessY]) 1 (by norm_num)
  rw [C14_witness le_rfl hH] at h1
  have h2 := partialHV_hasDerivAt (n := 6) hg (i := 2) (j := 3) (k := 4) (m := 1) (by simp [hessY]) (by simp [hessY])
    (by norm_num) (by norm_num)
  have h3 := h1.unique h2
  have h4 : second 6 (hessY.map fun l => pt (l.map fun v : ℤ => (v : ℝ))) (pt []) 3 1 2 4 ≤ 0 := by
    unfold second
    rw [if_neg (by norm_num), if_neg (by norm_num)]
    split_ifs
    · exact neg_nonpos.mpr Spec.hvi_nonneg
    · exact le_rfl
  linarith

/-- The property for a number of objectives. -/
def C14For (d : ℕ) : Prop :=
  ∀ argsort : List ℝ → List ℕ, IsArgsort argsort → ∀ fuel,
    ∀ (Y : List (ℕ → ℝ)) (ref : ℕ → ℝ), Y ≠ [] → GeneralPosition d Y ref → InRange d Y ref →
      NDS.depthBound d Y.length ≤ fuel →
      ∃ H, hessianY argsort fuel d Y ref = some H ∧
        ∀ i < Y.length, ∀ k < d, ∀ j < Y.length, ∀ m < d,
          HasDerivAt (fun t => partialHV d (setCoord Y j m t) ref i k) (entryH H j m i k) (ptOf Y j m)

theorem C14Statement_iff : C14Statement ↔ ∀ d, 2 ≤ d → C14For d :=
  ⟨fun h d hd a ha fuel => h a ha d fuel hd, fun h a ha d fuel hd => h d hd a ha fuel⟩

/-- A positive entry at different points and objectives is wrong: reduction to a computation with integers. -/
theorem not_C14For {ar : List ℝ → List ℕ} {az : List ℤ → List ℕ} (hs : SortCast ar az) (ha : IsArgsort ar)
    {n i k j m : ℕ} (W : List (List ℤ)) {v : ℤ} (h2 : 2 ≤ n) (hi : i < W.length) (hk : k < n + 2) (hj : j < W.length)
    (hm : m < n + 2) (hij : j ≠ i) (hmk : m ≠ k)
    (hpw : W.Pairwise fun p q => ∀ k < n + 2, pt p k ≠ pt q k) (hlt : ∀ p ∈ W, ∀ k < n + 2, pt p k < (0 : ℤ))
    (hsm : ∀ p ∈ W, ∀ x ∈ p, -10 ≤ x) (hin : i ∈ front0Z (n + 2) (W.map pt))
    (hjp : j ∈ (projectZ (n + 2) k i (W.map pt) (pt [])).idx)
    (hsl : (projectZ (n + 2) k i (W.map pt) (pt [])).idx.idxOf j <
      (projectZ (n + 2) k i (W.map pt) (pt [])).front.length)
    (hle : (projectZ (n + 2) k i (W.map pt) (pt [])).front.length ≤ (W.map pt).length)
    (hge : (W.map pt).getD i (fun _ => 0) m ≤ ((projectZ (n + 2) k i (W.map pt) (pt [])).front.getD
      ((projectZ (n + 2) k i (W.map pt) (pt [])).idx.idxOf j) (fun _ => 0)) (sIdx k m))
    (hv : entryZ az (n + 2 - 1) (clippedZ (n + 2) k i (W.map pt) (pt [])) (dropAt k (pt []))
      ((projectZ (n + 2) k i (W.map pt) (pt [])).idx.idxOf j) (sIdx k m) = some v) (hpos : 0 < v) :
    ¬ C14For (n + 2) := by
  intro h
  have e : (W.map pt).map castP = W.map fun l => pt (l.map fun v : ℤ => (v : ℝ)) := by
    rw [List.map_map]
    congr 1
    exact funext castP_pt
  have e0 : castP (pt []) = pt [] := by rw [castP_pt]; rfl
  have hr : InRange (n + 2) (W.map fun l => pt (l.map fun v : ℤ => (v : ℝ))) (pt []) := by
    have := inRange_of_small (d := n + 2) (l := W.map fun l => l.map fun v : ℤ => (v : ℝ)) (by
      intro p hp x hx
      obtain ⟨l, hl, rfl⟩ := List.mem_map.mp hp
      obtain ⟨v, hv, rfl⟩ := List.mem_map.mp hx
      exact_mod_cast hsm l hl v hv)
    rwa [List.map_map] at this
  have hg : GeneralPosition (n + 2) (W.map fun l => pt (l.map fun v : ℤ => (v : ℝ))) (pt []) := by
    constructor
    · rw [List.pairwise_map]
      refine hpw.imp fun {p q} h k hk => ?_
      rw [← castP_pt, ← castP_pt]
      simpa [castP] using h k hk
    · intro p hp k hk
      obtain ⟨l, hl, rfl⟩ := List.mem_map.mp hp
      rw [← castP_pt]
      have := hlt l hl k hk
      simpa [castP, pt] using this
  obtain ⟨H, hH, hd⟩ := h ar ha (NDS.depthBound (n + 2) W.length)
    (W.map fun l => pt (l.map fun v : ℤ => (v : ℝ))) (pt []) (by rintro h0; simp at h0; simp [h0] at hi) hg hr
    (by simp)
  have h1 := hd i (by simpa using hi) k hk j (by simpa using hj) m hm
  rw [← e, ← e0] at hH
  have hen := hessianY_entry_cast hs (by omega) (by simpa using hi) hk hm hmk (by simp) hH hin hjp hsl hle hge hv
  rw [hen] at h1
  have h3 := h1.unique (partialHV_hasDerivAt hg (by simpa using hi) (by simpa using hj) hk hm)
  have h4 : second n (W.map fun l => pt (l.map fun v : ℤ => (v : ℝ))) (pt []) j m i k ≤ 0 := by
    unfold second
    rw [if_neg hij, if_neg hmk]
    split_ifs
    · exact neg_nonpos.mpr Spec.hvi_nonneg
    · exact le_rfl
  have : (0 : ℝ) < v := by exact_mod_cast hpos
  linarith

/-- Four points with six objectives, no value occurs twice in an objective. -/
def hessY₆ : List (List ℤ) :=
  [[-4, -3, -3, -4, -2, -2], [-3, -2, -4, -2, -3, -3], [-1, -4, -2, -1, -1, -1], [-2, -1, -1, -3, -4, -4]]

/-- Already with six objectives an `argsort` that is not stable leads to a wrong Hessian, so five objectives
(`C14_five_objectives_partial`) are the limit of what the contract of `np.argsort` gives. -/
theorem C14_violated_six : ¬ C14For 6 :=
  not_C14For (n := 4) (i := 2) (k := 3) (j := 3) (m := 1) (v := 1) lastArgsort_cast lastArgsort_isArgsort hessY₆
    (by norm_num) (by decide) (by norm_num) (by decide) (by norm_num) (by norm_num) (by norm_num) (by decide +kernel)
    (by decide +kernel) (by decide +kernel) (by decide +kernel) (by decide +kernel) (by decide +kernel)
    (by decide +kernel) (by decide +kernel) (by decide +kernel) (by norm_num)

/-- Four points with seven objectives. -/
def hessY₇ : List (List ℤ) :=
  [[-2, -2, -1, -2, -4, -2, -1], [-1, -1, -4, -1, -1, -1, -4], [-3, -4, -3, -4, -3, -4, -2],
    [-4, -3, -2, -3, -2, -3, -3]]

/-- The same with seven objectives. -/
theorem C14_violated_seven : ¬ C14For 7 :=
  not_C14For (n := 5) (i := 0) (k := 6) (j := 1) (m := 4) (v := 7) lastArgsort_cast lastArgsort_isArgsort hessY₇
    (by norm_num) (by decide) (by norm_num) (by decide) (by norm_num) (by norm_num) (by norm_num) (by decide +kernel)
    (by decide +kernel) (by decide +kernel) (by decide +kernel) (by decide +kernel) (by decide +kernel)
    (by decide +kernel) (by decide +kernel) (by decide +kernel) (by norm_num)

end Verif.Props
