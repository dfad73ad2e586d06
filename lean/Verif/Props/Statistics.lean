import Verif.Scripts.Statistics
import Mathlib.Algebra.Order.Field.Basic
import Mathlib.Data.Rat.Defs
import Mathlib.Algebra.Order.Ring.Unbundled.Rat
import Mathlib.Data.Finset.Card
import Mathlib.Data.Finset.Range
import Mathlib.Tactic.Linarith
import Mathlib.Tactic.NormNum
import Mathlib.Tactic.Ring

/-!
# C87: the tables of results
-/

namespace Verif.Props

open Verif.Scripts

variable {K : Type*} [Field K] [LinearOrder K]

/-! ## Specification -/

/-- `m` is the median of the sample `x`. -/
def MedianOf (x : List K) (m : K) : Prop :=
  ∃ s : List K, s.Perm x ∧ s.Pairwise (· ≤ ·) ∧ x ≠ [] ∧ m = (s.getD ((x.length - 1) / 2) 0 + s.getD (x.length / 2) 0) / 2

/-- The hypothesis with the p-value `p` is rejected at the rate `α` by the procedure of Benjamini and Hochberg: some p-value
`t ≥ p` is at most `α` times the share of the p-values that are at most `t`. -/
def BhRejected (α : K) (ps : List K) (p : K) : Prop :=
  ∃ t ∈ ps, p ≤ t ∧ t * ps.length ≤ α * (ps.countP fun q => decide (q ≤ t))

/-- The hypothesis with the p-value `p` is rejected at the level `α` by the step-down procedure of Holm with the bounds of
Šidák: every p-value `t ≤ p` meets its bound, where the exponent is the number of p-values that are not smaller. -/
def HolmSidakRejected (α : K) (ps : List K) (p : K) : Prop :=
  ∀ t ∈ ps, t ≤ p → 1 - (1 - t) ^ (ps.countP fun q => decide (t ≤ q)) ≤ α

/-- The column compares the pairs of samples: row `k` is marked if the test rejects, upwards if the first median is the
better one and downwards if the second one is; the counters count the marks. -/
structure Compares (better : K → K → Prop) (rejected : ℕ → Prop) (pairs : List (List K × List K)) (c : Column) : Prop where
  rows : c.marks.length = pairs.length
  up : ∀ k x y m n, pairs[k]? = some (x, y) → MedianOf x m → MedianOf y n →
    (c.marks[k]? = some .up ↔ rejected k ∧ better m n)
  down : ∀ k x y m n, pairs[k]? = some (x, y) → MedianOf x m → MedianOf y n →
    (c.marks[k]? = some .down ↔ rejected k ∧ better n m)
  win : c.win = c.marks.count .up
  tie : c.tie = c.marks.count .same
  loose : c.loose = c.marks.count .down

/-- The test of row `k` rejects, after the correction of Benjamini and Hochberg. -/
def TestRejects (mw : List K → List K → K) (α : K) (pairs : List (List K × List K)) (k : ℕ) : Prop :=
  ∃ x y, pairs[k]? = some (x, y) ∧ BhRejected α (pairs.map fun d => mw d.1 d.2) (mw x y)

/-- The pairs of samples of the files that can be read. -/
def pairsOf (files : List (Option (Runs K × Runs K))) : List (List K × List K) :=
  files.filterMap fun f => f.map fun r => (List.zipWith max r.1.gd r.1.igd, List.zipWith max r.2.gd r.2.igd)

/-! ## Lemmas -/

theorem medianOf_iff {x : List K} {m : K} : MedianOf x m ↔ ∃ d, statsFunc x = some (m, d) := by
  have hp : (x.insertionSort (· ≤ ·)).Perm x := List.perm_insertionSort _ _
  have hs : (x.insertionSort (· ≤ ·)).Pairwise (· ≤ ·) := List.pairwise_insertionSort _ _
  unfold statsFunc MedianOf
  dsimp only
  by_cases h0 : x = []
  · simp [h0]
  · rw [if_neg h0]
    simp only [Option.some.injEq, Prod.mk.injEq, exists_and_left, exists_eq', and_true, hp.length_eq]
    constructor
    · rintro ⟨s, s1, s2, -, rfl⟩
      rw [(hp.trans s1.symm).eq_of_pairwise' hs s2]
    · intro h
      exact ⟨_, hp, hs, h0, h.symm⟩

theorem bhReject_spec {α : K} {ps : List K} {r : List Bool} (h : bhReject α ps = some r) : r.length = ps.length ∧
    ∀ (k : ℕ) (p : K), ps[k]? = some p → (r[k]? = some true ↔ BhRejected α ps p) := by
  unfold bhReject at h
  by_cases h0 : ps = []
  · rw [if_pos h0] at h; exact absurd h (by simp)
  · rw [if_neg h0, Option.some.injEq] at h
    subst h
    refine ⟨by simp, fun k p hk => ?_⟩
    rw [List.getElem?_map, hk, Option.map_some, Option.some.injEq, List.any_eq_true]
    unfold BhRejected
    simp only [decide_eq_true_eq, List.countP_eq_length_filter]

/-- The mark of a row. -/
def markOf (gt : Bool) (r : (K × K) × Bool) : Mark :=
  if r.2 then if (if gt then r.1.2 < r.1.1 else r.1.1 < r.1.2) then .up else .down else .same

theorem countRows_spec (gt : Bool) (rows : List ((K × K) × Bool)) (c : Column) :
    (countRows gt rows c).marks = c.marks ++ rows.map (markOf gt) ∧
    (countRows gt rows c).win = c.win + (rows.map (markOf gt)).count .up ∧
    (countRows gt rows c).tie = c.tie + (rows.map (markOf gt)).count .same ∧
    (countRows gt rows c).loose = c.loose + (rows.map (markOf gt)).count .down := by
  induction rows generalizing c with
  | nil => simp [countRows]
  | cons r rows ih =>
    obtain ⟨⟨x, y⟩, b⟩ := r
    unfold countRows
    obtain ⟨h1, h2, h3, h4⟩ := ih (if b then
        if (if gt then y < x else x < y) then { c with marks := c.marks ++ [.up], win := c.win + 1 }
        else { c with marks := c.marks ++ [.down], loose := c.loose + 1 }
      else { c with marks := c.marks ++ [.same], tie := c.tie + 1 })
    rw [h1, h2, h3, h4]
    simp only [List.map_cons, markOf]
    cases b
    · simp [List.count_cons]; omega
    · by_cases hxy : (if gt = true then y < x else x < y)
      · simp [hxy, List.count_cons]; omega
      · simp [hxy, List.count_cons]; omega

theorem mapM_get {α β : Type*} {f : α → Option β} {l : List α} {l' : List β} (h : l.mapM f = some l') :
    l'.length = l.length ∧ ∀ (k : ℕ) (x : α), l[k]? = some x → ∃ y, f x = some y ∧ l'[k]? = some y := by
  induction l generalizing l' with
  | nil =>
    simp only [List.mapM_nil, Option.pure_def, Option.some.injEq] at h
    subst h
    simp
  | cons x l ih =>
    rw [List.mapM_cons] at h
    simp only [Option.pure_def, Option.bind_eq_bind, Option.bind_eq_some_iff, Option.some.injEq] at h
    obtain ⟨y, hy, ys, hys, rfl⟩ := h
    obtain ⟨h1, h2⟩ := ih hys
    refine ⟨by simp [h1], fun k z hz => ?_⟩
    cases k with
    | zero =>
      rw [List.getElem?_cons_zero, Option.some.injEq] at hz
      subst hz
      exact ⟨y, hy, rfl⟩
    | succ k => exact h2 k z (by simpa using hz)

/-- The marks of a column that compares medians. -/
theorem compares_of {gt : Bool} {rejected : ℕ → Prop} {pairs : List (List K × List K)} {stats : List (K × K)}
    {reject : List Bool} (hs : stats.length = pairs.length) (hr : reject.length = pairs.length)
    (hst : ∀ (k : ℕ) (x y : List K), pairs[k]? = some (x, y) → ∃ m n d e, statsFunc x = some (m, d) ∧ statsFunc y = some (n, e) ∧
      stats[k]? = some (m, n))
    (hrej : ∀ k < pairs.length, (reject[k]? = some true ↔ rejected k))
    (hne : ∀ (k : ℕ) (x y : List K) (m : K), pairs[k]? = some (x, y) → rejected k → MedianOf x m → ¬ MedianOf y m) :
    Compares (fun m n => if gt then n < m else m < n) rejected pairs (countRows gt (stats.zip reject) Column.empty) := by
  obtain ⟨h1, h2, h3, h4⟩ := countRows_spec gt (stats.zip reject) Column.empty
  have e : (countRows gt (stats.zip reject) Column.empty).marks = (stats.zip reject).map (markOf gt) := by
    rw [h1]; rfl
  have key : ∀ (k : ℕ) (x y : List K) (m n : K), pairs[k]? = some (x, y) → MedianOf x m → MedianOf y n → ∃ b,
      (b = true ↔ rejected k) ∧ (countRows gt (stats.zip reject) Column.empty).marks[k]? = some (markOf gt ((m, n), b)) := by
    intro k x y m n hk hm hn
    obtain ⟨m', n', d, e1, q1, q2, q3⟩ := hst k x y hk
    obtain ⟨d', hd'⟩ := medianOf_iff.mp hm
    obtain ⟨e', he'⟩ := medianOf_iff.mp hn
    obtain ⟨rfl, -⟩ := Prod.mk.inj (Option.some.inj (q1.symm.trans hd'))
    obtain ⟨rfl, -⟩ := Prod.mk.inj (Option.some.inj (q2.symm.trans he'))
    have hlt : k < pairs.length := (List.getElem?_eq_some_iff.mp hk).1
    have hb : reject[k]? = some reject[k] := List.getElem?_eq_getElem (by omega)
    refine ⟨reject[k], by rw [← hrej k hlt, hb, Option.some.injEq], ?_⟩
    rw [e, List.getElem?_map, (List.getElem?_zip_eq_some (z := ((_, _), _))).mpr ⟨q3, hb⟩, Option.map_some]
  refine ⟨by rw [e, List.length_map, List.length_zip, hs, hr, Nat.min_self], fun k x y m n hk hm hn => ?_,
    fun k x y m n hk hm hn => ?_, by rw [e, h2]; simp [Column.empty], by rw [e, h3]; simp [Column.empty],
    by rw [e, h4]; simp [Column.empty]⟩
  · obtain ⟨b, hb, hmark⟩ := key k x y m n hk hm hn
    rw [hmark, Option.some.injEq, ← hb]
    cases b
    · simp [markOf]
    · simp only [markOf, if_true, true_and]
      split <;> simp_all
  · obtain ⟨b, hb, hmark⟩ := key k x y m n hk hm hn
    rw [hmark, Option.some.injEq, ← hb]
    cases b
    · simp [markOf]
    · have hmn : m ≠ n := fun h => hne k x y m hk (hb.mp rfl) hm (h ▸ hn)
      simp only [markOf, if_true, true_and]
      cases gt
      · simp only [Bool.false_eq_true, if_false]
        rcases lt_or_gt_of_ne hmn with h | h
        · simp [h, h.not_gt]
        · simp [h, h.not_gt]
      · simp only [if_true]
        rcases lt_or_gt_of_ne hmn with h | h
        · simp [h, h.not_gt]
        · simp [h, h.not_gt]

theorem pairsOf_eq (files : List (Option (Runs K × Runs K))) :
    (files.filterMap id).map (fun r => (r.1.deltaP, r.2.deltaP)) = pairsOf files := by
  unfold pairsOf
  rw [List.map_filterMap]
  rfl

/-! ## C87 -/

/-- C87 in full, for the tables with two methods: every table is right. -/
def C87Statement (K : Type*) [Field K] [LinearOrder K] : Prop :=
  ∀ (mw : List K → List K → K) (α : K) (files : List (Option (Runs K × Runs K))) (c : Column),
    compareTable mw α files = some c → Compares (· < ·) (TestRejects mw α (pairsOf files)) (pairsOf files) c

/-- C87, the tables with two methods: right if the medians of the compared samples differ whenever the test rejects. What is
missing: equal medians. -/
theorem C87_table_partial {mw : List K → List K → K} {α : K} {files : List (Option (Runs K × Runs K))} {c : Column}
    (h : compareTable mw α files = some c)
    (hne : ∀ (k : ℕ) (x y : List K) (m : K), (pairsOf files)[k]? = some (x, y) → TestRejects mw α (pairsOf files) k → MedianOf x m → ¬ MedianOf y m) :
    Compares (· < ·) (TestRejects mw α (pairsOf files)) (pairsOf files) c := by
  unfold compareTable at h
  dsimp only at h
  rw [pairsOf_eq, Option.bind_eq_some_iff] at h
  obtain ⟨stats, hst, h⟩ := h
  rw [Option.map_eq_some_iff] at h
  obtain ⟨reject, hr, rfl⟩ := h
  obtain ⟨s1, s2⟩ := mapM_get hst
  obtain ⟨r1, r2⟩ := bhReject_spec hr
  rw [List.length_map] at r1
  refine compares_of (gt := false) s1 r1 (fun k x y hk => ?_) (fun k hk => ?_) hne
  · obtain ⟨p, hp, hp'⟩ := s2 k _ hk
    simp only [Option.bind_eq_some_iff, Option.map_eq_some_iff] at hp
    obtain ⟨n, hn, m, hm, rfl⟩ := hp
    exact ⟨n.1, m.1, n.2, m.2, hn, hm, hp'⟩
  · have e : (pairsOf files)[k]? = some ((pairsOf files)[k].1, (pairsOf files)[k].2) := List.getElem?_eq_getElem hk
    rw [r2 k (mw (pairsOf files)[k].1 (pairsOf files)[k].2) (by rw [List.getElem?_map, e]; rfl)]
    constructor
    · intro h
      exact ⟨_, _, e, h⟩
    · rintro ⟨x, y, hxy, h⟩
      obtain ⟨rfl, rfl⟩ := Prod.mk.inj (Option.some.inj (e.symm.trans hxy))
      exact h

theorem medianOf_unique {x : List K} {m n : K} (hm : MedianOf x m) (hn : MedianOf x n) : m = n := by
  obtain ⟨d, hd⟩ := medianOf_iff.mp hm
  obtain ⟨e, he⟩ := medianOf_iff.mp hn
  exact (Prod.mk.inj (Option.some.inj (hd.symm.trans he))).1

/-- The hypotheses of `C87_table_partial`: two rows, of which one is significant, and a missing file. -/
example : ∃ c, compareTable (K := ℚ) (fun x y => if x = y then 1 else 1 / 100) (1 / 20)
      [some (⟨[1, 2], [0, 3]⟩, ⟨[5, 4], [5, 5]⟩), none, some (⟨[1], [1]⟩, ⟨[1], [1]⟩)] = some c ∧
    c = ⟨[.up, .same], 1, 1, 0⟩ ∧ Compares (K := ℚ) (· < ·) (TestRejects (K := ℚ) (fun x y => if x = y then 1 else 1 / 100) (1 / 20)
      [([1, 3], [5, 5]), ([1], [1])]) [([1, 3], [5, 5]), ([1], [1])] c := by
  refine ⟨⟨[.up, .same], 1, 1, 0⟩, by decide +kernel, rfl, C87_table_partial (K := ℚ)
    (mw := fun x y => if x = y then 1 else 1 / 100) (α := 1 / 20) (files :=
    [some (⟨[1, 2], [0, 3]⟩, ⟨[5, 4], [5, 5]⟩), none, some (⟨[1], [1]⟩, ⟨[1], [1]⟩)]) (by decide +kernel) ?_⟩
  intro k x y m hk hr hx hy
  match k with
  | 0 =>
    obtain ⟨rfl, rfl⟩ := Prod.mk.inj (Option.some.inj hk)
    have h1 : MedianOf (List.zipWith max [1, 2] [0, 3] : List ℚ) 2 := medianOf_iff.mpr ⟨8 / 5, by decide +kernel⟩
    have h2 : MedianOf (List.zipWith max [5, 4] [5, 5] : List ℚ) 5 := medianOf_iff.mpr ⟨0, by decide +kernel⟩
    have := (medianOf_unique h1 hx).trans (medianOf_unique hy h2)
    norm_num at this
  | 1 =>
    obtain ⟨x', y', hxy, t, ht, h1, h2⟩ := hr
    obtain ⟨rfl, rfl⟩ := Prod.mk.inj (Option.some.inj hxy)
    have ht' : t ∈ ([1 / 100, 1] : List ℚ) := by
      have e : ((pairsOf [some (⟨[1, 2], [0, 3]⟩, ⟨[5, 4], [5, 5]⟩), none, some (⟨[1], [1]⟩, ⟨[1], [1]⟩)]).map
        fun d : List ℚ × List ℚ => (fun x y => if x = y then (1 : ℚ) else 1 / 100) d.1 d.2) = [1 / 100, 1] := by decide +kernel
      exact e ▸ ht
    simp only [List.mem_cons, List.not_mem_nil, or_false] at ht'
    rcases ht' with rfl | rfl
    · revert h1; decide +kernel
    · revert h2; decide +kernel
  | k + 2 => simp [pairsOf] at hk

/-- C87 does not hold: if the test rejects although the medians are equal, the row counts as lost. -/
theorem C87_violated_equal : ¬ C87Statement ℚ := by
  intro h
  have hc := h (fun _ _ => 1 / 100) (1 / 20) [some (⟨[0, 2, 2], [0, 2, 2]⟩, ⟨[2, 2, 3], [2, 2, 3]⟩)] ⟨[.down], 0, 0, 1⟩
    (by decide +kernel)
  have hm : MedianOf ([0, 2, 2] : List ℚ) 2 := medianOf_iff.mpr ⟨8 / 5, by decide +kernel⟩
  have hn : MedianOf ([2, 2, 3] : List ℚ) 2 := medianOf_iff.mpr ⟨4 / 5, by decide +kernel⟩
  exact lt_irrefl _ ((hc.down 0 _ _ 2 2 rfl hm hn).mp rfl).2

/-! ### Four methods -/

/-- The samples of MMDNewton and of another method. -/
def icmlPairs (other : FourRuns K → Runs K) (files : List (Option (FourRuns K))) : List (List K × List K) :=
  files.filterMap fun f => f.map fun r =>
    (List.zipWith max r.mmd.gd r.mmd.igd, List.zipWith max (other r).gd (other r).igd)

/-- Whenever the test rejects, the medians differ. -/
def DifferentMedians (rejected : ℕ → Prop) (pairs : List (List K × List K)) : Prop :=
  ∀ (k : ℕ) (x y : List K) (m : K), pairs[k]? = some (x, y) → rejected k → MedianOf x m → ¬ MedianOf y m

/-- C87 in full for the table with four methods: every column is right. Arrows point upwards if the other method is better
(a smaller value). -/
def C87StatementFour (K : Type*) [Field K] [LinearOrder K] : Prop :=
  ∀ (mw : List K → List K → K) (α : K) (files : List (Option (FourRuns K))) (c1 c2 c3 : Column),
    icmlTable mw α files = some (c1, c2, c3) →
    ∀ p ∈ [(FourRuns.dpn, c1), (FourRuns.lara, c2), (FourRuns.moea, c3)],
      DifferentMedians (TestRejects mw α (icmlPairs p.1 files)) (icmlPairs p.1 files) →
      Compares (fun m n => n < m) (TestRejects mw α (icmlPairs p.1 files)) (icmlPairs p.1 files) p.2

theorem icmlPairs_eq (other : FourRuns K → Runs K) (files : List (Option (FourRuns K))) :
    (files.filterMap id).map (fun d => (d.mmd.deltaP, (other d).deltaP)) = icmlPairs other files := by
  unfold icmlPairs
  rw [List.map_filterMap]
  rfl

/-- C87, the table with four methods: the columns of DpN and of the gradient method are right; the column of the MOEA marks
the rows in which MMDNewton and the *gradient method* differ. What is missing: the test of the MOEA. -/
theorem C87_four_partial {mw : List K → List K → K} {α : K} {files : List (Option (FourRuns K))} {c1 c2 c3 : Column}
    (h : icmlTable mw α files = some (c1, c2, c3)) :
    (DifferentMedians (TestRejects mw α (icmlPairs (·.dpn) files)) (icmlPairs (·.dpn) files) →
      Compares (fun m n => n < m) (TestRejects mw α (icmlPairs (·.dpn) files)) (icmlPairs (·.dpn) files) c1) ∧
    (DifferentMedians (TestRejects mw α (icmlPairs (·.lara) files)) (icmlPairs (·.lara) files) →
      Compares (fun m n => n < m) (TestRejects mw α (icmlPairs (·.lara) files)) (icmlPairs (·.lara) files) c2) ∧
    (DifferentMedians (TestRejects mw α (icmlPairs (·.lara) files)) (icmlPairs (·.moea) files) →
      Compares (fun m n => n < m) (TestRejects mw α (icmlPairs (·.lara) files)) (icmlPairs (·.moea) files) c3) := by
  unfold icmlTable at h
  dsimp only at h
  rw [Option.bind_eq_some_iff] at h
  obtain ⟨stats, hst, h⟩ := h
  rw [Option.bind_eq_some_iff] at h
  obtain ⟨reject1, hr1, h⟩ := h
  rw [Option.bind_eq_some_iff] at h
  obtain ⟨reject2, hr2, h⟩ := h
  rw [Option.map_eq_some_iff] at h
  obtain ⟨reject3, hr3, h⟩ := h
  simp only [Prod.mk.injEq] at h
  obtain ⟨rfl, rfl, rfl⟩ := h
  obtain ⟨s1, s2⟩ := mapM_get hst
  -- one column
  have key : ∀ (other test : FourRuns K → Runs K) (sel : K × K × K × K → K) (reject : List Bool),
      (∀ d n m q p, statsFunc d.mmd.deltaP = some n → statsFunc d.dpn.deltaP = some m → statsFunc d.lara.deltaP = some q →
        statsFunc d.moea.deltaP = some p → ∃ e, statsFunc (other d).deltaP = some (sel (n.1, m.1, q.1, p.1), e)) →
      bhReject α ((files.filterMap id).map fun d => mw d.mmd.deltaP (test d).deltaP) = some reject →
      DifferentMedians (TestRejects mw α (icmlPairs test files)) (icmlPairs other files) →
      Compares (fun m n => n < m) (TestRejects mw α (icmlPairs test files)) (icmlPairs other files)
        (countRows true ((stats.map fun s => (s.1, sel s)).zip reject) Column.empty) := by
    intro other test sel reject hsel hr hne
    obtain ⟨r1, r2⟩ := bhReject_spec hr
    have hl : ∀ o : FourRuns K → Runs K, (icmlPairs o files).length = (files.filterMap id).length := fun o => by
      rw [← icmlPairs_eq, List.length_map]
    rw [List.length_map] at r1
    refine compares_of (gt := true) (by rw [List.length_map, s1, hl]) (by rw [r1, hl]) (fun k x y hk => ?_)
      (fun k hk => ?_) hne
    · rw [← icmlPairs_eq, List.getElem?_map, Option.map_eq_some_iff] at hk
      obtain ⟨d, hd, hxy⟩ := hk
      obtain ⟨rfl, rfl⟩ := Prod.mk.inj hxy
      obtain ⟨t, ht, ht'⟩ := s2 k d hd
      simp only [Option.bind_eq_some_iff, Option.map_eq_some_iff] at ht
      obtain ⟨n, hn, m, hm, q, hq, p, hp, rfl⟩ := ht
      obtain ⟨e, he⟩ := hsel d n m q p hn hm hq hp
      exact ⟨n.1, _, n.2, e, hn, he, by rw [List.getElem?_map, ht']; rfl⟩
    · rw [hl] at hk
      have e := List.getElem?_eq_getElem hk
      rw [r2 k _ (by rw [List.getElem?_map, e]; rfl)]
      have e' : (icmlPairs test files)[k]? =
          some ((files.filterMap id)[k].mmd.deltaP, (test (files.filterMap id)[k]).deltaP) := by
        rw [← icmlPairs_eq, List.getElem?_map, e]; rfl
      have ep : ((icmlPairs test files).map fun d => mw d.1 d.2) =
          (files.filterMap id).map fun d => mw d.mmd.deltaP (test d).deltaP := by
        rw [← icmlPairs_eq, List.map_map]; rfl
      unfold TestRejects
      rw [ep]
      constructor
      · intro h
        exact ⟨_, _, e', h⟩
      · rintro ⟨x, y, hxy, h⟩
        obtain ⟨rfl, rfl⟩ := Prod.mk.inj (Option.some.inj (e'.symm.trans hxy))
        exact h
  exact ⟨key (·.dpn) (·.dpn) (fun s => s.2.1) reject1 (fun d n m q p _ hm _ _ => ⟨m.2, hm⟩) hr1,
    key (·.lara) (·.lara) (fun s => s.2.2.1) reject2 (fun d n m q p _ _ hq _ => ⟨q.2, hq⟩) hr2,
    key (·.moea) (·.lara) (fun s => s.2.2.2) reject3 (fun d n m q p _ _ _ hp => ⟨p.2, hp⟩) hr3⟩

/-- The hypotheses of `C87_four_partial`: DpN is better, the gradient method and the MOEA are not. -/
example : ∃ c1 c2 c3, icmlTable (K := ℚ) (fun x y => if x = y then 1 else 1 / 100) (1 / 20)
      [some ⟨⟨[2], [1]⟩, ⟨[1], [1]⟩, ⟨[2], [2]⟩, ⟨[2], [2]⟩⟩] = some (c1, c2, c3) ∧ c1.marks = [.up] ∧
    Compares (K := ℚ) (fun m n => n < m) (TestRejects (K := ℚ) (fun x y => if x = y then 1 else 1 / 100) (1 / 20) [([2], [1])]) [([2], [1])] c1 := by
  refine ⟨⟨[.up], 1, 0, 0⟩, ⟨[.same], 0, 1, 0⟩, ⟨[.same], 0, 1, 0⟩, by decide +kernel, rfl, (C87_four_partial (K := ℚ)
    (mw := fun x y => if x = y then 1 else 1 / 100) (α := 1 / 20) (files :=
    [some ⟨⟨[2], [1]⟩, ⟨[1], [1]⟩, ⟨[2], [2]⟩, ⟨[2], [2]⟩⟩]) (c2 := ⟨[.same], 0, 1, 0⟩) (c3 := ⟨[.same], 0, 1, 0⟩)
    (by decide +kernel)).1 ?_⟩
  intro k x y m hk hr hx hy
  match k with
  | 0 =>
    obtain ⟨rfl, rfl⟩ := Prod.mk.inj (Option.some.inj hk)
    have h1 : MedianOf (List.zipWith max [2] [1] : List ℚ) 2 := medianOf_iff.mpr ⟨0, by decide +kernel⟩
    have h2 : MedianOf (List.zipWith max [1] [1] : List ℚ) 1 := medianOf_iff.mpr ⟨0, by decide +kernel⟩
    have := (medianOf_unique h1 hx).trans (medianOf_unique hy h2)
    norm_num at this
  | k + 1 => simp [icmlPairs] at hk

/-- C87 does not hold for the column of the MOEA: `reject3` is computed from the p-values of the gradient method
(compute_statistics_ICML.py 63). Here the results of MMDNewton and of the MOEA differ significantly, and the table shows a
tie. -/
theorem C87_violated_four : ¬ C87StatementFour ℚ := by
  intro h
  have hc := h (fun x y => if x = y then 1 else 1 / 100) (1 / 20) [some ⟨⟨[1], [1]⟩, ⟨[1], [1]⟩, ⟨[1], [1]⟩, ⟨[2], [2]⟩⟩]
    ⟨[.same], 0, 1, 0⟩ ⟨[.same], 0, 1, 0⟩ ⟨[.same], 0, 1, 0⟩ (by decide +kernel) (FourRuns.moea, ⟨[.same], 0, 1, 0⟩) (by simp) (by
      intro k x y m hk _ hx hy
      match k with
      | 0 =>
        obtain ⟨rfl, rfl⟩ := Prod.mk.inj (Option.some.inj hk)
        have h1 : MedianOf (List.zipWith max [1] [1] : List ℚ) 1 := medianOf_iff.mpr ⟨0, by decide +kernel⟩
        have h2 : MedianOf (List.zipWith max [2] [2] : List ℚ) 2 := medianOf_iff.mpr ⟨0, by decide +kernel⟩
        have e1 := medianOf_unique hx h1
        have e2 := medianOf_unique hy h2
        rw [e1] at e2
        norm_num at e2
      | k + 1 => simp [icmlPairs] at hk)
  have h1 : MedianOf (List.zipWith max [1] [1] : List ℚ) 1 := medianOf_iff.mpr ⟨0, by decide +kernel⟩
  have h2 : MedianOf (List.zipWith max [2] [2] : List ℚ) 2 := medianOf_iff.mpr ⟨0, by decide +kernel⟩
  have hd := (hc.down 0 _ _ 1 2 rfl h1 h2).mpr ⟨⟨_, _, rfl, ?_⟩, by norm_num⟩
  · simp at hd
  · exact ⟨1 / 100, by decide +kernel, by decide +kernel, by decide +kernel⟩

/-! ### Subset selection -/

/-- C87 does not hold for the tables of the subset selection, whichever of the two medians is meant to be the better one:
the arrow depends on the median and the spread of *one* method, not on a comparison. -/
theorem C87_violated_subset :
    (∃ (data : List (List ℚ × List ℚ)) (c : Column), subsetTable (fun _ _ => 1 / 100) (1 / 20) data = some c ∧
      DifferentMedians (fun _ => True) data ∧
      ¬ Compares (fun m n => n < m) (TestRejects (fun _ _ => 1 / 100) (1 / 20) data) data c) ∧
    ∃ (data : List (List ℚ × List ℚ)) (c : Column), subsetTable (fun _ _ => 1 / 100) (1 / 20) data = some c ∧
      DifferentMedians (fun _ => True) data ∧
      ¬ Compares (fun m n => m < n) (TestRejects (fun _ _ => 1 / 100) (1 / 20) data) data c := by
  have m1 : MedianOf ([1] : List ℚ) 1 := medianOf_iff.mpr ⟨0, by decide +kernel⟩
  have m2 : MedianOf ([2] : List ℚ) 2 := medianOf_iff.mpr ⟨0, by decide +kernel⟩
  have hdiff : ∀ p q : ℚ, ∀ x y : List ℚ, MedianOf x p → MedianOf y q → p ≠ q → DifferentMedians (fun _ => True) [(x, y)] := by
    intro p q x y hp hq hne k x' y' m hk _ hx hy
    match k with
    | 0 =>
      obtain ⟨rfl, rfl⟩ := Prod.mk.inj (Option.some.inj hk)
      exact hne ((medianOf_unique hp hx).trans (medianOf_unique hy hq))
    | k + 1 => simp at hk
  have hrej : ∀ x y : List ℚ, TestRejects (fun _ _ => 1 / 100) (1 / 20) [(x, y)] 0 := fun x y =>
    ⟨x, y, rfl, 1 / 100, by simp, le_rfl, by simp; norm_num⟩
  refine ⟨⟨[([1], [2])], ⟨[.up], 1, 0, 0⟩, by decide +kernel, hdiff 1 2 _ _ m1 m2 (by norm_num), fun h => ?_⟩,
    ⟨[([2], [1])], ⟨[.up], 1, 0, 0⟩, by decide +kernel, hdiff 2 1 _ _ m2 m1 (by norm_num), fun h => ?_⟩⟩
  · have := ((h.up 0 _ _ 1 2 rfl m1 m2).mp rfl).2
    norm_num at this
  · have := ((h.up 0 _ _ 2 1 rfl m2 m1).mp rfl).2
    norm_num at this

/-- `v` is the quantile `q` of the sorted sample `s`, by linear interpolation. -/
def QuantileAt (s : List K) (q v : K) : Prop :=
  ∃ (i : ℕ) (f : K), 0 ≤ f ∧ f < 1 ∧ q * (s.length - 1 : ℕ) = i + f ∧ v = (1 - f) * s.getD i 0 + f * s.getD (i + 1) 0

/-- `e` is the distance of the quantiles 0.1 and 0.9 of the sample `x`. -/
def SpreadOf (x : List K) (e : K) : Prop :=
  ∃ (s : List K) (a b : K), s.Perm x ∧ s.Pairwise (· ≤ ·) ∧ QuantileAt s (9 / 10) a ∧ QuantileAt s (1 / 10) b ∧ e = a - b

theorem quantileTenth_eq [IsStrictOrderedRing K] {s : List K} {t : ℕ} {v : K} (h : QuantileAt s ((t : K) / 10) v) :
    quantileTenth t s = v := by
  obtain ⟨i, f, f0, f1, e, rfl⟩ := h
  unfold quantileTenth
  dsimp only
  set n := t * (s.length - 1) with hn
  have hn' : (n : K) = 10 * (n / 10 : ℕ) + (n % 10 : ℕ) := by exact_mod_cast (Nat.div_add_mod n 10).symm
  have hm : ((n % 10 : ℕ) : K) < 10 := by exact_mod_cast Nat.mod_lt n (by norm_num)
  have hm0 : (0 : K) ≤ (n % 10 : ℕ) := Nat.cast_nonneg _
  have e' : (n : K) = 10 * (i + f) := by
    rw [← e, hn, Nat.cast_mul]
    ring
  have hi : n / 10 = i := by
    apply le_antisymm
    · by_contra hc
      have : ((i + 1 : ℕ) : K) ≤ (n / 10 : ℕ) := by exact_mod_cast (not_le.mp hc)
      push_cast at this
      linarith
    · by_contra hc
      have : ((n / 10 + 1 : ℕ) : K) ≤ i := by exact_mod_cast (not_le.mp hc)
      rw [Nat.cast_add, Nat.cast_one] at this
      linarith
  have hf : ((n % 10 : ℕ) : K) / 10 = f := by
    rw [hi] at hn'
    rw [div_eq_iff (by norm_num)]
    linarith
  rw [hi, hf]
  ring

/-- C87, the tables of the subset selection: what the arrow tells. It points upwards if the test rejects and the median of the
other method is larger than its spread. What is missing: a comparison of the methods. -/
theorem C87_subset_partial [IsStrictOrderedRing K] {mw : List K → List K → K} {α : K} {data : List (List K × List K)} {c : Column}
    (h : subsetTable mw α data = some c) (k : ℕ) (x y : List K) (m e : K) (hk : data[k]? = some (x, y)) (hm : MedianOf y m)
    (he : SpreadOf y e) :
    (c.marks[k]? = some .up ↔ TestRejects mw α data k ∧ e < m) ∧ (c.marks[k]? = some .down ↔ TestRejects mw α data k ∧ m ≤ e) := by
  have hst : statsFunc y = some (m, e) := by
    obtain ⟨d, hd⟩ := medianOf_iff.mp hm
    obtain ⟨s, a, b, s1, s2, ha, hb, rfl⟩ := he
    have hs : y.insertionSort (· ≤ ·) = s :=
      ((List.perm_insertionSort _ _).trans s1.symm).eq_of_pairwise' (List.pairwise_insertionSort _ _) s2
    rw [hd]
    unfold statsFunc at hd
    dsimp only at hd
    split at hd
    · exact absurd hd (by simp)
    · have := (Prod.mk.inj (Option.some.inj hd)).2
      rw [hs, quantileTenth_eq (v := a) (by exact_mod_cast ha), quantileTenth_eq (v := b) (by exact_mod_cast hb)] at this
      rw [this]
  unfold subsetTable at h
  rw [Option.bind_eq_some_iff] at h
  obtain ⟨stats, hs, h⟩ := h
  rw [Option.map_eq_some_iff] at h
  obtain ⟨reject, hr, rfl⟩ := h
  obtain ⟨s1, s2⟩ := mapM_get hs
  obtain ⟨r1, r2⟩ := bhReject_spec hr
  rw [List.length_map] at r1
  obtain ⟨p, hp, hp'⟩ := s2 k _ hk
  simp only [Option.bind_eq_some_iff] at hp
  obtain ⟨-, -, hp⟩ := hp
  rw [hst, Option.some.injEq] at hp
  subst hp
  have hkr : k < reject.length := by
    rw [r1]
    exact (List.getElem?_eq_some_iff.mp hk).1
  have hrej : reject[k] = true ↔ TestRejects mw α data k := by
    have := r2 k (mw x y) (by rw [List.getElem?_map, hk]; rfl)
    rw [List.getElem?_eq_getElem hkr, Option.some.injEq] at this
    rw [this]
    constructor
    · intro h
      exact ⟨x, y, hk, h⟩
    · rintro ⟨x', y', hxy, h⟩
      obtain ⟨rfl, rfl⟩ := Prod.mk.inj (Option.some.inj (hk.symm.trans hxy))
      exact h
  have hmark : (countRows true (stats.zip reject) Column.empty).marks[k]? = some (markOf true ((m, e), reject[k])) := by
    rw [(countRows_spec true _ _).1]
    have hz : (stats.zip reject)[k]? = some ((m, e), reject[k]) :=
      List.getElem?_zip_eq_some.mpr ⟨hp', List.getElem?_eq_getElem hkr⟩
    simp only [Column.empty, List.nil_append, List.getElem?_map, hz, Option.map_some]
  rw [hmark, Option.some.injEq, Option.some.injEq, ← hrej]
  cases reject[k]
  · simp [markOf]
  · simp only [markOf, if_true, true_and]
    by_cases hlt : e < m
    · simp [hlt, hlt.not_ge]
    · simp [hlt, not_lt.mp hlt]

/-- The hypotheses of `C87_subset_partial`: a sample of three values with median 2 and spread 8/5. -/
example : subsetTable (K := ℚ) (fun _ _ => 1 / 100) (1 / 20) [([5, 6], [3, 1, 2])] = some ⟨[.up], 1, 0, 0⟩ ∧
    MedianOf ([3, 1, 2] : List ℚ) 2 ∧ SpreadOf ([3, 1, 2] : List ℚ) (8 / 5) := by
  refine ⟨by decide +kernel, medianOf_iff.mpr ⟨8 / 5, by decide +kernel⟩, [1, 2, 3], 14 / 5, 6 / 5, by decide, by decide +kernel,
    ⟨1, 4 / 5, ?_⟩, ⟨0, 1 / 5, ?_⟩, ?_⟩ <;> norm_num

/-! ### The correction for multiple tests -/

/-- The captions name the method of Holm and Šidák, the code uses the one of Benjamini and Hochberg. Neither rejects all that
the other one does. -/
theorem C87_violated_caption :
    (∃ ps : List ℚ, (∀ p ∈ ps, BhRejected (1 / 20) ps p) ∧ ∀ p ∈ ps, ¬ HolmSidakRejected (1 / 20) ps p) ∧
    ∃ (ps : List ℚ) (p : ℚ), p ∈ ps ∧ HolmSidakRejected (1 / 20) ps p ∧ ¬ BhRejected (1 / 20) ps p := by
  refine ⟨⟨[3 / 100, 4 / 100, 5 / 100], fun p hp => ⟨5 / 100, by simp, ?_, by decide +kernel⟩, fun p hp h => ?_⟩,
    [252 / 10000, 1], 252 / 10000, by simp, ?_, ?_⟩
  · simp only [List.mem_cons, List.not_mem_nil, or_false] at hp
    rcases hp with rfl | rfl | rfl <;> norm_num
  · have := h (3 / 100) (by simp) (by
      simp only [List.mem_cons, List.not_mem_nil, or_false] at hp
      rcases hp with rfl | rfl | rfl <;> norm_num)
    revert this
    decide +kernel
  · intro t ht htp
    simp only [List.mem_cons, List.not_mem_nil, or_false] at ht
    rcases ht with rfl | rfl
    · decide +kernel
    · norm_num at htp
  · rintro ⟨t, ht, -, h⟩
    simp only [List.mem_cons, List.not_mem_nil, or_false] at ht
    rcases ht with rfl | rfl <;> revert h <;> decide +kernel

end Verif.Props
