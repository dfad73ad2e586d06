import Verif.Ind.Brute
import Mathlib.Data.Rat.Defs
import Mathlib.Algebra.Order.Ring.Rat
import Mathlib.Algebra.Order.Group.Abs
import Mathlib.Algebra.Module.Prod
import Mathlib.Data.Set.Function

/-!
# C42 - C45: matching and shifting the reference set
-/

namespace Verif.Props

open Verif.Ind

variable {P K : Type*}

/-! ## Helper lemmas -/

section

variable [AddCommMonoid K] [LinearOrder K]

theorem gather_range {α : Type*} (Y : List α) : gather Y (List.range Y.length) = some Y :=
  gather_eq_some.mpr ⟨by simp, fun t ht => by simp⟩

theorem gather_iff_map {α : Type*} {A : List α} {idx : List ℕ} {B : List α} :
    gather A idx = some B ↔ idx.map (A[·]?) = B.map some := by
  rw [gather_eq_some]
  constructor
  · rintro ⟨h1, h2⟩
    refine List.ext_getElem (by simp [h1]) fun t ht1 ht2 => ?_
    simp only [List.getElem_map]
    rw [h2 t (by simpa using ht1), List.getElem?_eq_getElem (by simpa using ht2)]
  · intro h
    have hl : B.length = idx.length := by simpa using (congrArg List.length h).symm
    refine ⟨hl, fun t ht => ?_⟩
    have := congrArg (·[t]?) h
    simpa [ht, hl] using this

/-- The list of the points of class `i` for all classes. -/
theorem filter_labels_perm {N n : ℕ} {lab : ℕ → Option ℕ} (h : ∀ j < N, ∃ i < n, lab j = some i) :
    ((List.range n).map fun i => (List.range N).filter fun j => lab j = some i).flatten.Perm
      (List.range N) := by
  rw [List.perm_ext_iff_of_nodup]
  · intro j
    simp only [List.mem_flatten, List.mem_map, List.mem_range]
    constructor
    · rintro ⟨l, ⟨i, -, rfl⟩, hj⟩
      simpa using (List.mem_filter.mp hj).1
    · intro hj
      obtain ⟨i, hi, hl⟩ := h j hj
      exact ⟨_, ⟨i, hi, rfl⟩, by simp [hj, hl]⟩
  · rw [List.nodup_flatten]
    refine ⟨?_, ?_⟩
    · intro l hl
      obtain ⟨i, -, rfl⟩ := List.mem_map.mp hl
      exact List.nodup_range.filter _
    · rw [List.pairwise_map]
      refine List.nodup_range.imp ?_
      intro a b hab j hja hjb
      simp only [List.mem_filter, decide_eq_true_eq] at hja hjb
      rw [hja.2, Option.some.injEq] at hjb
      exact hab hjb.2
  · exact List.nodup_range

theorem label_spec {dist : P → P → K} {ref : List (List P)} {y : P} {k : ℕ}
    (h : label dist ref y = some k) : ∃ C, ref[k]? = some C ∧ ∃ r ∈ C, ∀ C' ∈ ref, ∀ r' ∈ C',
      dist r y ≤ dist r' y := by
  unfold label at h
  obtain ⟨D, h1, h⟩ := Option.bind_eq_some_iff.mp h
  obtain ⟨v, h2, h3⟩ := Option.map_eq_some_iff.mp h
  obtain ⟨hl, hD⟩ := mapM_eq_some.mp h1
  obtain ⟨hv, hmin⟩ := List.min?_eq_some_iff.mp h2
  have hk : k < D.length := h3 ▸ List.idxOf_lt_length_of_mem hv
  have hDk : D[k] = v := by
    subst h3
    exact List.getElem_idxOf hk
  have hk' : k < ref.length := by omega
  refine ⟨ref[k], List.getElem?_eq_getElem hk', ?_⟩
  have h4 := hD k hk'
  rw [List.getElem?_eq_getElem hk, hDk] at h4
  obtain ⟨h5, -⟩ := List.min?_eq_some_iff.mp h4
  obtain ⟨r, hr, hrv⟩ := List.mem_map.mp h5
  refine ⟨r, hr, fun C' hC' r' hr' => ?_⟩
  obtain ⟨j, hj, rfl⟩ := List.getElem_of_mem hC'
  have h6 := hD j hj
  rw [List.getElem?_eq_getElem (by omega : j < D.length)] at h6
  obtain ⟨-, h7⟩ := List.min?_eq_some_iff.mp h6
  rw [hrv]
  exact (hmin _ (List.getElem_mem (by omega : j < D.length))).trans
    (h7 _ (List.mem_map.mpr ⟨r', hr', rfl⟩))

/-- The parts after `_partition_Y`. -/
theorem partition_spec {env : MatchEnv P K} {S : RefSet P} {Y : List P} {classes : List (List ℕ)}
    {parts : List (List P)} (h : S.partition env Y = some (classes, parts)) :
    parts.length = classes.length ∧
      (∀ (v : ℕ) (c : List ℕ), classes[v]? = some c → ∃ Yc, parts[v]? = some Yc ∧ gather Y c = some Yc) ∧
      (S.ref.length = 1 → classes = [List.range Y.length]) ∧
      (S.ref.length ≠ 1 → ∀ c, S.yIdx = some c → classes = c) ∧
      (S.ref.length ≠ 1 → S.yIdx = none → classes.length = S.ref.length ∧
        classes.flatten.Perm (List.range Y.length) ∧ ∀ (k : ℕ) (c : List ℕ), classes[k]? = some c →
          ∀ (i : ℕ) (y : P), i ∈ c → Y[i]? = some y → label env.dist S.ref y = some k) := by
  unfold RefSet.partition at h
  split_ifs at h with h1
  · simp only [Option.some.injEq, Prod.mk.injEq] at h
    obtain ⟨rfl, rfl⟩ := h
    refine ⟨rfl, ?_, fun _ => rfl, fun h => absurd h1 h, fun h => absurd h1 h⟩
    intro v c hv
    cases v with
    | zero =>
      simp only [List.getElem?_cons_zero, Option.some.injEq] at hv
      subst hv
      exact ⟨Y, rfl, gather_range Y⟩
    | succ v => simp at hv
  · obtain ⟨c, h2, h3⟩ := Option.bind_eq_some_iff.mp h
    obtain ⟨parts', h4, h5⟩ := Option.map_eq_some_iff.mp h3
    simp only [Prod.mk.injEq] at h5
    obtain ⟨rfl, rfl⟩ := h5
    obtain ⟨h6, h7⟩ := mapM_eq_some.mp h4
    refine ⟨h6, ?_, fun h => absurd h h1, ?_, ?_⟩
    · intro v cv hv
      obtain ⟨hv1, rfl⟩ := List.getElem?_eq_some_iff.mp hv
      refine ⟨parts'[v], List.getElem?_eq_getElem _, ?_⟩
      rw [h7 v hv1, List.getElem?_eq_getElem]
    · intro _ c' hc'
      rw [hc'] at h2
      simpa using h2.symm
    · intro _ hn
      rw [hn] at h2
      obtain ⟨labels, h8, h9⟩ := Option.map_eq_some_iff.mp h2
      obtain ⟨h10, h11⟩ := mapM_eq_some.mp h8
      subst h9
      refine ⟨by simp, filter_labels_perm (lab := fun j => labels[j]?) fun j hj => ?_, ?_⟩
      · have hj' := h11 j hj
        rw [List.getElem?_eq_getElem (by omega : j < labels.length)] at hj' ⊢
        obtain ⟨C, hC, -⟩ := label_spec hj'
        exact ⟨_, (List.getElem?_eq_some_iff.mp hC).1, rfl⟩
      · intro k c hk i y hi hy
        obtain ⟨hk1, rfl⟩ := List.getElem?_eq_some_iff.mp hk
        simp only [List.getElem_map, List.getElem_range, List.mem_filter, List.mem_range,
          decide_eq_true_eq] at hi
        obtain ⟨hi1, rfl⟩ := List.getElem?_eq_some_iff.mp hy
        rw [h11 i hi.1, hi.2]

/-- The parts assigned to the components: each part once. -/
theorem matchComponents_spec {env : MatchEnv P K} (he : SolvesAssignment env.assign) {S : RefSet P}
    {parts : List (List P)} {idx : List ℕ} (h : S.matchComponents env parts = some idx) :
    parts.length ≤ S.ref.length ∧ (S.ref.length = 1 → parts.length = 1 → idx = [0]) ∧
      (¬ (S.ref.length = 1 ∧ parts.length = 1) → parts.any List.isEmpty = false ∧
        idx = (env.assign (S.ref.map fun C => parts.map fun Y => env.hausdorff C Y)).map Prod.snd) ∧
      idx.Perm (List.range parts.length) := by
  unfold RefSet.matchComponents at h
  split_ifs at h with h1 h2 h3
  · simp only [Option.some.injEq] at h
    subst h
    refine ⟨by omega, fun _ _ => rfl, fun h => absurd h2 h, by simp [h2.2]⟩
  · simp only [Option.some.injEq] at h
    refine ⟨by omega, fun a b => absurd ⟨a, b⟩ h2, fun _ => ⟨Bool.eq_false_iff.mpr h3, h.symm⟩, ?_⟩
    obtain ⟨⟨a1, a2, a3, a4⟩, -⟩ := he (S.ref.map fun C => parts.map fun Y => env.hausdorff C Y) parts.length
      (by
        intro row hr
        obtain ⟨C, -, rfl⟩ := List.mem_map.mp hr
        simp)
    subst h
    refine perm_range_of_nodup a3 ?_ fun a ha => ?_
    · rw [List.length_map, a1, List.length_map]; omega
    · obtain ⟨q, hq, rfl⟩ := List.mem_map.mp ha
      exact (a4 q hq).2

theorem match_eq_some [Zero P] {env : MatchEnv P K} {S S' : RefSet P} {Y : List P}
    (hr : S.reMatch = true ∨ S.matched = none) (h : S.match env Y = some S') :
    ∃ classes parts idx st, S.partition env Y = some (classes, parts) ∧
      S.matchComponents env parts = some idx ∧
      ((List.range idx.length).zip idx).foldlM (S.matchStep env classes parts)
        { out := List.replicate (parts.map List.length).sum 0,
          idx := List.replicate (parts.map List.length).sum none, medoids := S.medoids } = some st ∧
      S' = { S with yIdx := some classes, medoids := st.medoids, medoidsIdx := st.idx,
                    matched := some st.out } := by
  unfold RefSet.match at h
  rw [if_neg (by rcases hr with hr | hr <;> simp [hr])] at h
  obtain ⟨⟨classes, parts⟩, h1, h⟩ := Option.bind_eq_some_iff.mp h
  obtain ⟨idx, h2, h⟩ := Option.bind_eq_some_iff.mp h
  obtain ⟨st, h3, h4⟩ := Option.map_eq_some_iff.mp h
  exact ⟨classes, parts, idx, st, h1, h2, h3, h4.symm⟩

end

/-! ## C42 -/

section

variable [AddCommMonoid K] [LinearOrder K] [Zero P]

/-- C42: after `match(Y)` (from a state where it does not return at once) the reference set has one point for
every point of `Y`, in the order of `Y`. The points are divided into the classes `Y_idx`, and different
classes use different components. The reference points of a class are the medoids stored for its component:
a reordering of the previously stored ones (if there are as many) or distinct points of the component, and no
reordering of them
has a smaller total distance to the points of the class. -/
theorem C42_match {env : MatchEnv P K} (he : env.Sound) {S S' : RefSet P} {Y : List P}
    (hw : S.medoids.length = S.ref.length) (hr : S.reMatch = true ∨ S.matched = none)
    (hY : S.ref.length ≠ 1 → ∀ c, S.yIdx = some c → c.flatten.Perm (List.range Y.length))
    (h : S.match env Y = some S') :
    ∃ classes M comp, S'.yIdx = some classes ∧ classes.flatten.Perm (List.range Y.length) ∧
      S'.matched = some M ∧ S'.referenceSet = M ∧ M.length = Y.length ∧
      Set.InjOn comp {v | v < classes.length} ∧
      ∀ (v : ℕ) (c : List ℕ), classes[v]? = some c → ∃ C Yc Mc, S.ref[comp v]? = some C ∧
        c.map (Y[·]?) = Yc.map some ∧ c.map (M[·]?) = Mc.map some ∧
        S'.medoids[comp v]? = some (some Mc) ∧
        (∀ t i : ℕ, c[t]? = some i → S'.medoidsIdx[i]? = some (some (comp v, t))) ∧
        ((∃ old, S.medoids[comp v]? = some (some old) ∧ Mc.Perm old) ∨ Mc.Subperm C) ∧
        (∀ old, S.medoids[comp v]? = some (some old) → old.length = c.length → Mc.Perm old) ∧
        ∀ M', M'.Perm Mc → (List.zipWith env.dist Yc Mc).sum ≤ (List.zipWith env.dist Yc M').sum := by
  obtain ⟨classes, parts, idx, st, h1, h2, h3, rfl⟩ := match_eq_some hr h
  obtain ⟨p1, p2, p3, p4, p5⟩ := partition_spec h1
  obtain ⟨c1, c2, c3, c4⟩ := matchComponents_spec he.assign h2
  have hperm : classes.flatten.Perm (List.range Y.length) := by
    by_cases h1 : S.ref.length = 1
    · rw [p3 h1]
      simp
    · cases hn : S.yIdx with
      | none => exact (p5 h1 hn).2.1
      | some c => rw [p4 h1 c hn]; exact hY h1 c hn
  have hsep : Separate classes := separate_of_nodup (hperm.nodup_iff.mpr List.nodup_range)
  have hN : (parts.map List.length).sum = Y.length := by
    have e : parts.map List.length = classes.map List.length := by
      refine List.ext_getElem (by simp [p1]) fun v hv1 hv2 => ?_
      have hv : v < classes.length := by simpa using hv2
      obtain ⟨Yc, hp, hg⟩ := p2 v _ (List.getElem?_eq_getElem hv)
      obtain ⟨hv', rfl⟩ := List.getElem?_eq_some_iff.mp hp
      simpa using (gather_eq_some.mp hg).1
    rw [e, ← List.length_flatten, hperm.length_eq, List.length_range]
  have hl1 : ((List.range idx.length).zip idx).map Prod.fst = List.range idx.length :=
    List.map_fst_zip (by simp)
  have hl2 : ((List.range idx.length).zip idx).map Prod.snd = idx := List.map_snd_zip (by simp)
  have hidx : idx.Nodup := c4.nodup_iff.mpr List.nodup_range
  have hf := loop_frame hsep h3
  have hd := loop_done he hsep (by rw [hl1]; exact List.nodup_range) (by rw [hl2]; exact hidx) (by exact hw)
    (fun _ _ => rfl) h3
  refine ⟨classes, st.out, fun v => idx.idxOf v, rfl, hperm, rfl, rfl, ?_, ?_, ?_⟩
  · rw [hf.1, List.length_replicate, hN]
  · intro v hv v' hv' e
    have hm : v ∈ idx := c4.mem_iff.mpr (List.mem_range.mpr (by rw [p1]; exact hv))
    exact List.idxOf_inj hm |>.mp e
  · intro v c hv
    have hvl : v < classes.length := (List.getElem?_eq_some_iff.mp hv).1
    have hm : v ∈ idx := c4.mem_iff.mpr (List.mem_range.mpr (by rw [p1]; exact hvl))
    have hk : idx.idxOf v < idx.length := List.idxOf_lt_length_of_mem hm
    have hmem : (idx.idxOf v, v) ∈ (List.range idx.length).zip idx := by
      rw [List.mem_iff_getElem]
      refine ⟨idx.idxOf v, by simpa using hk, ?_⟩
      simp [List.getElem_zip]
    obtain ⟨rows, Yc, hrows, hYc, C, md, d1, d2, d3, d4, d5, d6, d7, d9, d8⟩ := hd _ hmem
    obtain rfl : c = rows := by
      dsimp only at hrows
      rw [hv, Option.some.injEq] at hrows
      exact hrows
    obtain ⟨Yc', hp, hg⟩ := p2 v c hv
    obtain rfl : Yc = Yc' := by
      dsimp only at hYc
      rw [hYc, Option.some.injEq] at hp
      exact hp
    refine ⟨C, Yc, md, d1, gather_iff_map.mp hg, gather_iff_map.mp (gather_eq_some.mpr ⟨d3, fun t ht => ?_⟩),
      d2, fun t i hi => ?_, d7, d9, d8⟩
    · exact (d6 t ht).1
    · obtain ⟨ht, rfl⟩ := List.getElem?_eq_some_iff.mp hi
      exact (d6 t ht).2

/-- C42 for one component, as a statement about the whole set: every other order of the reference points has
at least the same total distance. -/
theorem C42_one_component {env : MatchEnv P K} (he : env.Sound) {S S' : RefSet P} {Y C : List P}
    (hS : S.ref = [C]) (hw : S.medoids.length = 1) (hr : S.reMatch = true ∨ S.matched = none)
    (h : S.match env Y = some S') :
    S'.referenceSet.length = Y.length ∧
      ((∃ old, S.medoids = [some old] ∧ S'.referenceSet.Perm old) ∨ S'.referenceSet.Subperm C) ∧
      (∀ old, S.medoids = [some old] → old.length = Y.length → S'.referenceSet.Perm old) ∧
      ∀ M', M'.Perm S'.referenceSet →
        (List.zipWith env.dist Y S'.referenceSet).sum ≤ (List.zipWith env.dist Y M').sum := by
  obtain ⟨classes, parts, idx, st, h1, h2, h3, -⟩ := match_eq_some hr h
  have hl : S.ref.length = 1 := by simp [hS]
  obtain ⟨classes', M, comp, a1, a2, a3, a4, a5, -, a6⟩ := C42_match he (by rw [hw, hl]) hr
    (fun h => absurd hl h) h
  have hcl : classes' = [List.range Y.length] := by
    have hp := (partition_spec h1).2.2.1 hl
    obtain ⟨classes2, parts2, idx2, st2, g1, g2, g3, rfl⟩ := match_eq_some hr h
    rw [h1] at g1
    simp only [Option.some.injEq, Prod.mk.injEq] at g1 a1
    rw [← a1, ← g1.1, hp]
  subst hcl
  obtain ⟨C', Yc, Mc, b1, b2, b3, b4, b5, b6, b8, b7⟩ := a6 0 _ rfl
  have hYc : Yc = Y := by
    have := gather_iff_map.mpr b2
    rw [gather_range, Option.some.injEq] at this
    exact this.symm
  have hMc : Mc = M := by
    have := gather_iff_map.mpr b3
    rw [← a5, gather_range, Option.some.injEq] at this
    exact this.symm
  subst hYc hMc
  have hcomp : comp 0 = 0 := by
    have := (List.getElem?_eq_some_iff.mp b1).1
    omega
  rw [hcomp] at b1 b6 b8
  rw [a4]
  refine ⟨a5, ?_, fun old ho hl => b8 old (by simp [ho]) (by simpa using hl), b7⟩
  rcases b6 with ⟨old, o1, o2⟩ | b6
  · left
    refine ⟨old, ?_, o2⟩
    obtain ⟨x, hx⟩ := List.length_eq_one_iff.mp hw
    rw [hx] at o1
    simp only [List.getElem?_cons_zero, Option.some.injEq] at o1
    rw [hx, o1]
  · right
    rw [hS] at b1
    simp only [List.getElem?_cons_zero, Option.some.injEq] at b1
    rwa [b1]

/-- C42: if the clusters of `Y` are not given, every point is put into a class whose component has a closest
reference point. -/
theorem C42_partition {env : MatchEnv P K} {S S' : RefSet P} {Y : List P}
    (hr : S.reMatch = true ∨ S.matched = none) (hn : S.ref.length ≠ 1) (hY : S.yIdx = none)
    (h : S.match env Y = some S') : ∃ classes, S'.yIdx = some classes ∧ classes.length = S.ref.length ∧
      classes.flatten.Perm (List.range Y.length) ∧ ∀ (k : ℕ) (c : List ℕ), classes[k]? = some c →
        ∀ (i : ℕ) (y : P), i ∈ c → Y[i]? = some y → ∃ C, S.ref[k]? = some C ∧ ∃ r ∈ C, ∀ C' ∈ S.ref,
          ∀ r' ∈ C', env.dist r y ≤ env.dist r' y := by
  obtain ⟨classes, parts, idx, st, h1, h2, h3, rfl⟩ := match_eq_some hr h
  obtain ⟨-, -, -, -, p5⟩ := partition_spec h1
  obtain ⟨q1, q2, q3⟩ := p5 hn hY
  exact ⟨classes, rfl, q1, q2, fun k c hk i y hi hy => label_spec (q3 k c hk i y hi hy)⟩

/-- C42: with one component, `match` succeeds exactly if there are not more points than reference points
(and at least one point, unless there is nothing to choose). -/
theorem C42_defined {env : MatchEnv P K} (he : env.Sound) {S : RefSet P} {Y C : List P} (hS : S.ref = [C])
    (hw : S.medoids.length = 1) (hr : S.reMatch = true ∨ S.matched = none) :
    (S.match env Y).isSome ↔ Y.length ≤ C.length ∧ (0 < Y.length ∨ C.length = 0 ∨ S.medoids = [some []]) := by
  obtain ⟨md, hmd⟩ := List.length_eq_one_iff.mp hw
  have hstep : S.match env Y = ((S.matchStep env [List.range Y.length] [Y]
      { out := List.replicate Y.length 0, idx := List.replicate Y.length none, medoids := S.medoids }
      (0, 0)).map fun st => { S with yIdx := some [List.range Y.length], medoids := st.medoids,
                                     medoidsIdx := st.idx, matched := some st.out }) := by
    unfold RefSet.match RefSet.partition RefSet.matchComponents
    rw [if_neg (by rcases hr with hr | hr <;> simp [hr]), if_pos (by simp [hS])]
    simp [hS]
  rw [hstep, Option.isSome_map]
  unfold RefSet.matchStep
  simp only [List.getElem?_cons_zero, Option.bind_some, hS, hmd, List.getD_cons_zero]
  by_cases hl : C.length < Y.length
  · rw [if_pos hl]
    simp
    intro h
    omega
  rw [if_neg hl]
  have hfin : ∀ md0, md0.length = Y.length → ((matchPoints env md0 Y).bind fun md =>
      (scatter (List.replicate Y.length (0 : P)) (List.range Y.length) md).bind fun out =>
        (scatter (List.replicate Y.length none) (List.range Y.length)
          ((List.range (List.range Y.length).length).map fun i => some (0, i))).map fun idx =>
          ({ out := out, idx := idx, medoids := [some md] } : MatchState P)).isSome := by
    intro md0 hm
    obtain ⟨M, m1, m2, -⟩ := matchPoints_spec he.assign hm
    rw [m1, Option.bind_some]
    obtain ⟨out, ho⟩ := Option.isSome_iff_exists.mp (scatter_isSome (A := List.replicate Y.length (0 : P))
      (idx := List.range Y.length) (V := M) (by simp [m2.length_eq, hm]) (by simp))
    rw [ho, Option.bind_some, Option.isSome_map]
    exact scatter_isSome (by simp) (by simp)
  have hcl : (cluster env C Y.length).isSome ↔ (0 < Y.length ∨ C.length = 0) := by
    unfold cluster
    by_cases h1 : C.length = Y.length
    · rw [if_pos h1]
      simp only [Option.isSome_some, true_iff]
      omega
    · rw [if_neg h1]
      have hk := (he.kmedoids C Y.length).1
      constructor
      · intro h
        obtain ⟨idx, h2, h3⟩ := Option.bind_eq_some_iff.mp (Option.isSome_iff_exists.mp h).choose_spec
        rw [h2] at hk
        exact Or.inl (of_decide_eq_true hk.symm).1
      · rintro (h | h)
        · have : (env.kmedoids C Y.length).isSome := by
            rw [hk]; simp; omega
          obtain ⟨idx, hidx⟩ := Option.isSome_iff_exists.mp this
          obtain ⟨-, -, hb⟩ := (he.kmedoids C Y.length).2 idx hidx
          obtain ⟨M, hM⟩ := exists_gather (X := C) (idx := idx) hb
          rw [hidx, Option.bind_some, hM]
          rfl
        · omega
  have hch : (chooseMedoids env C md Y.length).isSome ↔ (0 < Y.length ∨ C.length = 0 ∨ md = some []) := by
    unfold chooseMedoids
    cases md with
    | none => simp [hcl]
    | some m =>
      dsimp only
      by_cases hm : m.length = Y.length
      · rw [if_pos hm]
        simp only [Option.isSome_some, true_iff, Option.some.injEq]
        by_cases hz : 0 < Y.length
        · exact Or.inl hz
        · exact Or.inr (Or.inr (List.length_eq_zero_iff.mp (by omega)))
      · rw [if_neg hm, hcl]
        constructor
        · rintro (h | h)
          · exact Or.inl h
          · exact Or.inr (Or.inl h)
        · rintro (h | h | h)
          · exact Or.inl h
          · exact Or.inr h
          · simp only [Option.some.injEq] at h
            subst h
            left
            simp at hm
            omega
  have hlen : ∀ md0, chooseMedoids env C md Y.length = some md0 → md0.length = Y.length :=
    fun md0 h => (chooseMedoids_spec he.kmedoids h).1
  constructor
  · intro h
    refine ⟨by omega, ?_⟩
    obtain ⟨st, hst⟩ := Option.isSome_iff_exists.mp h
    obtain ⟨md0, h1, -⟩ := Option.bind_eq_some_iff.mp hst
    have := hch.mp (by rw [h1]; rfl)
    simpa using this
  · rintro ⟨-, h⟩
    obtain ⟨md0, h1⟩ := Option.isSome_iff_exists.mp (hch.mpr (by simpa using h))
    rw [h1, Option.bind_some]
    simpa using hfin md0 (hlen md0 h1)

end

/-- A reference set of four points in the plane. -/
def refLine : RefSet (ℚ × ℚ) := RefSet.new [[(0, 0), (1, 0), (5, 0), (6, 0)]] [(-1, 0)] none

/-- The sum of the coordinate differences, the Euclidean distance of points on an axis. -/
def refLineDist (a b : ℚ × ℚ) : ℚ := |a.1 - b.1| + |a.2 - b.2|

/-- The library functions on a line (the Hausdorff distance is only compared between sets of one point). -/
def lineEnv : MatchEnv (ℚ × ℚ) ℚ :=
  bruteEnv refLineDist fun A B => refLineDist (A.headD 0) (B.headD 0)

/-- The hypotheses of `C42_match` and `C42_one_component` hold with a result that is not in the order of the
reference set. -/
example : lineEnv.Sound ∧ refLine.medoids.length = 1 ∧ refLine.reMatch = true ∧
    (refLine.match lineEnv [(4, 0), (0, 0), (7, 0), (1, 0)]).map RefSet.referenceSet =
      some [(5, 0), (0, 0), (6, 0), (1, 0)] := by
  refine ⟨bruteEnv_sound _ _, rfl, rfl, ?_⟩
  decide +kernel

/-- Two components whose clusters are not given. -/
example : ((RefSet.new [[(0, 0)], [(5, 0)]] [(-1, 0), (-1, 0)] none).match lineEnv
    [(4, 0), (1, 0)]).map (fun S => (S.referenceSet, S.yIdx)) =
      some ([(5, 0), (0, 0)], some [[1], [0]]) := by
  decide +kernel

/-! ## C43 -/

/-- The medoid store and the matched list agree: entry `i` of `_medoids_idx` says where the matched point `i`
is stored, and different points are stored at different places. -/
def Synced (S : RefSet P) : Prop :=
  ∃ M, S.matched = some M ∧ S.medoidsIdx.length = M.length ∧
    (∀ i < M.length, ∃ k t md, S.medoidsIdx[i]? = some (some (k, t)) ∧ k < S.ref.length ∧
      S.medoids[k]? = some (some md) ∧ t < md.length ∧ md[t]? = M[i]?) ∧
    ∀ i < M.length, ∀ j < M.length, S.medoidsIdx[i]? = S.medoidsIdx[j]? → i = j

/-- C43: the store and the list agree after `match`. -/
theorem C43_match_synced [AddCommMonoid K] [LinearOrder K] [Zero P] {env : MatchEnv P K} (he : env.Sound)
    {S S' : RefSet P} {Y : List P} (hw : S.medoids.length = S.ref.length)
    (hr : S.reMatch = true ∨ S.matched = none)
    (hY : S.ref.length ≠ 1 → ∀ c, S.yIdx = some c → c.flatten.Perm (List.range Y.length))
    (h : S.match env Y = some S') : Synced S' := by
  obtain ⟨classes, M, comp, a1, a2, a3, a4, a5, a6, a7⟩ := C42_match he hw hr hY h
  have hcls : ∀ i < M.length, ∃ (v : ℕ) (c : List ℕ) (t : ℕ), classes[v]? = some c ∧ c[t]? = some i := by
    intro i hi
    have : i ∈ classes.flatten := a2.mem_iff.mpr (List.mem_range.mpr (by omega))
    obtain ⟨c, hc, hic⟩ := List.mem_flatten.mp this
    obtain ⟨v, hv, rfl⟩ := List.getElem_of_mem hc
    obtain ⟨t, ht, rfl⟩ := List.getElem_of_mem hic
    exact ⟨v, _, t, List.getElem?_eq_getElem hv, List.getElem?_eq_getElem ht⟩
  have hlen : S'.medoidsIdx.length = M.length ∧ S'.ref = S.ref := by
    obtain ⟨classes', parts, idx, st, h1, h2, h3, rfl⟩ := match_eq_some hr h
    simp only [Option.some.injEq] at a1 a3
    subst a1 a3
    have hf := loop_frame (separate_of_nodup (a2.nodup_iff.mpr List.nodup_range)) h3
    refine ⟨?_, rfl⟩
    dsimp only
    rw [hf.2.1, hf.1, List.length_replicate, List.length_replicate]
  refine ⟨M, a3, hlen.1, ?_, ?_⟩
  · intro i hi
    obtain ⟨v, c, t, hv, ht⟩ := hcls i hi
    obtain ⟨C, Yc, Mc, b1, b2, b3, b4, b5, b6, b8, b7⟩ := a7 v c hv
    have hM := congrArg (·[t]?) b3
    simp only [List.getElem?_map, ht, Option.map_some] at hM
    have htl : t < Mc.length := by
      have := congrArg List.length b3
      simp only [List.length_map] at this
      have := (List.getElem?_eq_some_iff.mp ht).1
      omega
    refine ⟨comp v, t, Mc, b5 t i ht, ?_, b4, htl, ?_⟩
    · rw [hlen.2]
      exact (List.getElem?_eq_some_iff.mp b1).1
    · rw [List.getElem?_eq_getElem htl] at hM ⊢
      simpa using hM.symm
  · intro i hi j hj e
    obtain ⟨v, c, t, hv, ht⟩ := hcls i hi
    obtain ⟨v', c', t', hv', ht'⟩ := hcls j hj
    obtain ⟨-, -, -, -, -, -, -, b5, -⟩ := a7 v c hv
    obtain ⟨-, -, -, -, -, -, -, b5', -⟩ := a7 v' c' hv'
    rw [b5 t i ht, b5' t' j ht'] at e
    simp only [Option.some.injEq, Prod.mk.injEq] at e
    have hvv := a6 (List.getElem?_eq_some_iff.mp hv).1 (List.getElem?_eq_some_iff.mp hv').1 e.1
    subst hvv
    rw [hv, Option.some.injEq] at hv'
    subst hv'
    rw [e.2, ht', Option.some.injEq] at ht
    exact ht.symm

/-- The step for one index: it is possible, the point moves and the store follows. -/
theorem shiftOne_spec [AddCommMonoid P] [SMul K P] {c : K} {S : RefSet P} {M : List P} {k : ℕ}
    (hs : Synced S) (hM : S.matched = some M) (he : S.eta.length = S.ref.length) (hk : k < M.length) :
    ∃ S' a t dir, RefSet.shiftOne c S k = some S' ∧ S.medoidsIdx[k]? = some (some (a, t)) ∧
      S.eta[a]? = some dir ∧ S'.matched = some (M.set k (M[k] + c • dir)) ∧ Synced S' ∧ S'.ref = S.ref ∧
      S'.eta = S.eta ∧ S'.medoidsIdx = S.medoidsIdx ∧ S'.yIdx = S.yIdx ∧ S'.reMatch = S.reMatch := by
  obtain ⟨M', h1, h2, h3, h4⟩ := hs
  obtain rfl : M' = M := by rw [hM, Option.some.injEq] at h1; exact h1.symm
  obtain ⟨a, t, md, g1, g2, g3, g4, g5⟩ := h3 k hk
  have hdir : S.eta[a]? = some S.eta[a] := List.getElem?_eq_getElem (by omega)
  refine ⟨{ S with matched := some (M'.set k (M'[k] + c • S.eta[a])),
                   medoids := S.medoids.set a (some (md.set t (M'[k] + c • S.eta[a]))) }, a, t, S.eta[a], ?_, g1,
    hdir, rfl, ?_, rfl, rfl, rfl, rfl, rfl⟩
  · unfold RefSet.shiftOne RefSet.setMedoids
    simp only [hM, g1, hdir, Option.bind_some, List.getElem?_eq_getElem hk, List.getD_eq_getElem?_getD, g3,
      Option.getD_some, if_pos g4]
  · have hmdlen : a < S.medoids.length := (List.getElem?_eq_some_iff.mp g3).1
    refine ⟨_, rfl, by simpa using h2, ?_, ?_⟩
    · intro i hi
      rw [List.length_set] at hi
      obtain ⟨a', t', md', f1, f2, f3, f4, f5⟩ := h3 i hi
      by_cases ha : a' = a
      · subst ha
        rw [g3, Option.some.injEq, Option.some.injEq] at f3
        subst f3
        refine ⟨a', t', md.set t (M'[k] + c • S.eta[a']), f1, f2, List.getElem?_set_self hmdlen, by simpa using f4, ?_⟩
        by_cases ht : t' = t
        · subst ht
          obtain rfl : i = k := h4 i hi k hk (f1.trans g1.symm)
          rw [List.getElem?_set_self f4, List.getElem?_set_self hi]
        · have hne : i ≠ k := by
            rintro rfl
            rw [f1, Option.some.injEq, Option.some.injEq, Prod.mk.injEq] at g1
            exact ht g1.2
          rw [List.getElem?_set_ne (Ne.symm ht), List.getElem?_set_ne (Ne.symm hne), f5]
      · have hne : i ≠ k := by
          rintro rfl
          rw [f1, Option.some.injEq, Option.some.injEq, Prod.mk.injEq] at g1
          exact ha g1.1
        refine ⟨a', t', md', f1, f2, ?_, f4, ?_⟩
        · dsimp only
          rw [List.getElem?_set_ne (Ne.symm ha), f3]
        · rw [List.getElem?_set_ne (Ne.symm hne), f5]
    · intro i hi j hj e
      rw [List.length_set] at hi hj
      exact h4 i hi j hj e

/-- C43: in a synchronised state, `shift(c, indices)` with indices of points succeeds; the reference point `i`
moves by `c` times the direction of its component as often as `i` is listed; everything else is unchanged, and
the medoid store and the matched list still agree. -/
theorem C43_shift [AddCommMonoid P] [SMul K P] {c : K} {S : RefSet P} {M : List P} {indices : List ℕ}
    (hs : Synced S) (hM : S.matched = some M) (he : S.eta.length = S.ref.length)
    (hi : ∀ i ∈ indices, i < M.length) :
    ∃ S' M', S.shift c (some indices) = some S' ∧ S'.matched = some M' ∧ S'.referenceSet = M' ∧
      M'.length = M.length ∧
      (∀ i a t p dir, S.medoidsIdx[i]? = some (some (a, t)) → M[i]? = some p → S.eta[a]? = some dir →
        M'[i]? = some (p + indices.count i • c • dir)) ∧
      Synced S' ∧ S'.ref = S.ref ∧ S'.eta = S.eta ∧ S'.medoidsIdx = S.medoidsIdx ∧ S'.yIdx = S.yIdx ∧
      S'.reMatch = S.reMatch := by
  unfold RefSet.shift
  rw [hM]
  dsimp only [Option.getD_some]
  induction indices generalizing S M with
  | nil => exact ⟨S, M, rfl, hM, by simp [RefSet.referenceSet, hM], rfl, by simp +contextual, hs, rfl, rfl, rfl,
      rfl, rfl⟩
  | cons k l ih =>
    obtain ⟨S1, a, t, dir, h1, h2, h3, h4, h5, h6, h7, h8, h9, h10⟩ :=
      shiftOne_spec (c := c) hs hM he (hi k (by simp))
    obtain ⟨S', M', g1, g2, g3, g4, g5, g6, g7, g8, g9, g10, g11⟩ := ih h5 h4 (by rw [h6, h7, he])
      fun i hil => by simpa using hi i (by simp [hil])
    refine ⟨S', M', ?_, g2, g3, by simpa using g4, ?_, g6, g7.trans h6, g8.trans h7, g9.trans h8,
      g10.trans h9, g11.trans h10⟩
    · rw [List.foldlM_cons, h1]
      exact g1
    · intro i a' t' p dir' e1 e2 e3
      have hk := hi k (by simp)
      by_cases hik : i = k
      · subst hik
        rw [h2, Option.some.injEq, Option.some.injEq, Prod.mk.injEq] at e1
        obtain ⟨rfl, rfl⟩ := e1
        rw [h3, Option.some.injEq] at e3
        subst e3
        have := g5 i a t (M[i] + c • dir) dir (by rw [h8, h2]) (List.getElem?_set_self hk) (by rw [h7, h3])
        rw [this, List.count_cons_self, succ_nsmul']
        rw [List.getElem?_eq_getElem hk, Option.some.injEq] at e2
        rw [e2, add_assoc]
      · have := g5 i a' t' p dir' (by rw [h8, e1]) (by rw [List.getElem?_set_ne (Ne.symm hik), e2])
          (by rw [h7, e3])
        rw [this, List.count_cons_of_ne (Ne.symm hik)]

/-- C43 for indices without repetition: exactly the listed points move, by `c` times the direction. -/
theorem C43_shift_nodup [AddCommMonoid P] [SMul K P] {c : K} {S : RefSet P} {M : List P} {indices : List ℕ}
    (hs : Synced S) (hM : S.matched = some M) (he : S.eta.length = S.ref.length)
    (hi : ∀ i ∈ indices, i < M.length) (hn : indices.Nodup) :
    ∃ S' M', S.shift c (some indices) = some S' ∧ S'.matched = some M' ∧ Synced S' ∧
      M'.length = M.length ∧
      ∀ i < M.length, ∃ a t dir, S.medoidsIdx[i]? = some (some (a, t)) ∧ S.eta[a]? = some dir ∧
        ∃ p, M[i]? = some p ∧ M'[i]? = some (if i ∈ indices then p + c • dir else p) := by
  obtain ⟨S', M', g1, g2, g3, g4, g5, g6, -⟩ := C43_shift (c := c) hs hM he hi
  refine ⟨S', M', g1, g2, g6, g4, fun i hil => ?_⟩
  obtain ⟨M1, h1, h2, h3, h4⟩ := hs
  obtain rfl : M1 = M := by rw [hM, Option.some.injEq] at h1; exact h1.symm
  obtain ⟨a, t, md, f1, f2, -⟩ := h3 i hil
  have hdir : S.eta[a]? = some S.eta[a] := List.getElem?_eq_getElem (by omega)
  refine ⟨a, t, S.eta[a], f1, hdir, M1[i], List.getElem?_eq_getElem hil, ?_⟩
  rw [g5 i a t M1[i] _ f1 (List.getElem?_eq_getElem hil) hdir]
  by_cases hm : i ∈ indices
  · rw [if_pos hm, List.count_eq_one_of_mem hn hm, one_nsmul]
  · rw [if_neg hm, List.count_eq_zero_of_not_mem hm, zero_nsmul, add_zero]

/-- C43: without indices, every matched point moves. -/
theorem C43_shift_all [Add P] [SMul K P] (c : K) {S : RefSet P} {M : List P} (hM : S.matched = some M) :
    S.shift c none = S.shift c (some (List.range M.length)) := by
  unfold RefSet.shift
  rw [hM]
  rfl

/-- C43: an index that is too large is an error. -/
theorem C43_shift_error [AddCommMonoid P] [SMul K P] {c : K} {S : RefSet P} {M : List P} {indices : List ℕ}
    (hs : Synced S) (hM : S.matched = some M) (he : S.eta.length = S.ref.length)
    (hi : ∃ i ∈ indices, M.length ≤ i) : S.shift c (some indices) = none := by
  unfold RefSet.shift
  rw [hM]
  dsimp only [Option.getD_some]
  induction indices generalizing S M with
  | nil => simp at hi
  | cons k l ih =>
    by_cases hk : k < M.length
    · obtain ⟨S1, a, t, dir, h1, h2, h3, h4, h5, h6, h7, h8, h9, h10⟩ := shiftOne_spec (c := c) hs hM he hk
      rw [List.foldlM_cons, h1]
      obtain ⟨i, h, hlt⟩ := hi
      rcases List.mem_cons.mp h with rfl | h
      · omega
      · exact ih h5 h4 (by rw [h6, h7, he]) ⟨i, h, by simpa using hlt⟩
    · have : RefSet.shiftOne c S k = none := by
        obtain ⟨M1, h1, h2, -⟩ := hs
        rw [hM, Option.some.injEq] at h1
        unfold RefSet.shiftOne
        rw [hM, Option.bind_some, List.getElem?_eq_none (by rw [h2, ← h1]; omega)]
        rfl
      rw [List.foldlM_cons, this]
      rfl

/-- C43: before `match`, every reference point moves by `c` times the direction of its component, whatever
the indices are. -/
theorem C43_shift_unmatched [Add P] [SMul K P] (c : K) (indices : Option (List ℕ)) {S : RefSet P}
    (hM : S.matched = none) (he : S.eta.length = S.ref.length) :
    ∃ S', S.shift c indices = some S' ∧ S'.matched = none ∧ S'.ref.length = S.ref.length ∧
      S'.referenceSet = S'.ref.flatten ∧ ∀ (k : ℕ) (C : List P) (dir : P), S.ref[k]? = some C → S.eta[k]? = some dir →
        S'.ref[k]? = some (C.map fun r => r + c • dir) := by
  unfold RefSet.shift
  rw [hM]
  dsimp only
  rw [if_neg (by omega)]
  refine ⟨_, rfl, rfl, by simp [he], by simp [RefSet.referenceSet], ?_⟩
  intro k C dir h1 h2
  dsimp only
  rw [List.getElem?_zipWith, h1, h2]

/-- A matched set and a shift of two of its points; the hypothesis `Synced` follows from
`C43_match_synced`. -/
example : ((refLine.match lineEnv [(4, 0), (0, 0), (7, 0), (1, 0)]).bind
    (RefSet.shift (1 / 2 : ℚ) (some [2, 1]))).map (fun S => (S.referenceSet, S.medoids)) =
      some ([(5, 0), (-1 / 2, 0), (11 / 2, 0), (1, 0)],
        [some [(5, 0), (-1 / 2, 0), (11 / 2, 0), (1, 0)]]) := by
  decide +kernel

/-! ## C44 -/

section

variable [AddCommMonoid K] [LinearOrder K] [Zero P]

/-- The full statement of C44: a class `v` uses the component `k` only if the assignment of the components to
the parts contains the pair `(k, v)`. -/
def ComponentsMatched (env : MatchEnv P K) (S : RefSet P) (Y : List P) : Prop :=
  ∀ (S' : RefSet P) (classes : List (List ℕ)) (parts : List (List P)), S.match env Y = some S' → S'.yIdx = some classes →
    parts.map (List.map some) = classes.map (List.map (Y[·]?)) → S.ref.length ≠ 1 →
    ∀ (v i k t : ℕ) (c : List ℕ), classes[v]? = some c → i ∈ c →
      S'.medoidsIdx[i]? = some (some (k, t)) →
      (k, v) ∈ env.assign (S.ref.map fun C => parts.map fun Yv => env.hausdorff C Yv)

/-- C44, the case of as many parts as components (which is always the case if the clusters are not
given). -/
theorem C44_partial {env : MatchEnv P K} (he : env.Sound) {S : RefSet P} {Y : List P}
    (hw : S.medoids.length = S.ref.length) (hr : S.reMatch = true ∨ S.matched = none)
    (hY : ∀ c, S.yIdx = some c → c.flatten.Perm (List.range Y.length) ∧ c.length = S.ref.length) :
    ComponentsMatched env S Y := by
  intro S' classes parts h hcl hparts hn v i k t c hv hi hk
  obtain ⟨classes', parts', idx, st, h1, h2, h3, rfl⟩ := match_eq_some hr h
  simp only [Option.some.injEq] at hcl
  subst hcl
  obtain ⟨p1, p2, p3, p4, p5⟩ := partition_spec h1
  obtain ⟨c1, c2, c3, c4⟩ := matchComponents_spec he.assign h2
  have hlen : classes'.length = S.ref.length ∧ classes'.flatten.Perm (List.range Y.length) := by
    cases hyi : S.yIdx with
    | none => exact ⟨(p5 hn hyi).1, (p5 hn hyi).2.1⟩
    | some c => rw [p4 hn c hyi]; exact ⟨(hY c hyi).2, (hY c hyi).1⟩
  obtain rfl : parts' = parts := by
    refine List.ext_getElem ?_ fun v h1 h2 => ?_
    · have := congrArg List.length hparts
      simp only [List.length_map] at this
      omega
    · obtain ⟨Yc, q1, q2⟩ := p2 v _ (List.getElem?_eq_getElem (by omega : v < classes'.length))
      obtain ⟨_, rfl⟩ := List.getElem?_eq_some_iff.mp q1
      have := congrArg (·[v]?) hparts
      simp only [List.getElem?_map, List.getElem?_eq_getElem h2,
        List.getElem?_eq_getElem (by omega : v < classes'.length), Option.map_some, Option.some.injEq] at this
      rw [gather_iff_map.mp q2] at this
      exact (List.map_injective_iff.mpr (Option.some_injective _) this).symm
  obtain ⟨-, hidx⟩ := c3 fun h => hn h.1
  obtain ⟨⟨a1, a2, a3, a4⟩, -⟩ := he.assign
    (S.ref.map fun C => parts'.map fun Yv => env.hausdorff C Yv) parts'.length (by
      intro row hr
      obtain ⟨C, -, rfl⟩ := List.mem_map.mp hr
      simp)
  rw [List.length_map, p1, hlen.1, min_self] at a1
  have hrows : (env.assign (S.ref.map fun C => parts'.map fun Yv => env.hausdorff C Yv)).map Prod.fst =
      List.range S.ref.length :=
    eq_range_of_sorted a2 (by rw [List.length_map, a1]) fun a ha => by
      obtain ⟨q, hq, rfl⟩ := List.mem_map.mp ha
      simpa using (a4 q hq).1
  have hzip : (List.range idx.length).zip idx =
      env.assign (S.ref.map fun C => parts'.map fun Yv => env.hausdorff C Yv) := by
    have hl : idx.length = S.ref.length := by rw [hidx, List.length_map, a1]
    rw [hl, ← hrows, hidx, List.zip_map', List.map_id'']
    exact fun _ => rfl
  rw [← hzip]
  have hl1 : ((List.range idx.length).zip idx).map Prod.fst = List.range idx.length :=
    List.map_fst_zip (by simp)
  have hl2 : ((List.range idx.length).zip idx).map Prod.snd = idx := List.map_snd_zip (by simp)
  have hd := loop_done he (separate_of_nodup (hlen.2.nodup_iff.mpr List.nodup_range))
    (by rw [hl1]; exact List.nodup_range) (by rw [hl2]; exact c4.nodup_iff.mpr List.nodup_range) (by exact hw)
    (fun _ _ => rfl) h3
  have hm : v ∈ idx := c4.mem_iff.mpr (List.mem_range.mpr (by
    rw [p1]
    exact (List.getElem?_eq_some_iff.mp hv).1))
  have hmem : (idx.idxOf v, v) ∈ (List.range idx.length).zip idx := by
    rw [List.mem_iff_getElem]
    refine ⟨idx.idxOf v, by simpa using List.idxOf_lt_length_of_mem hm, ?_⟩
    simp [List.getElem_zip]
  obtain ⟨rows, Yc, hrows', hYc, C, md, d1, d2, d3, d4, d5, d6, d7, d9, d8⟩ := hd _ hmem
  dsimp only at hrows'
  rw [hv, Option.some.injEq] at hrows'
  subst hrows'
  obtain ⟨t', ht', rfl⟩ := List.getElem_of_mem hi
  have := (d6 t' ht').2
  rw [hk, Option.some.injEq, Option.some.injEq, Prod.mk.injEq] at this
  rw [this.1]
  exact hmem

end

/-- Three components and two given clusters of one point. -/
def refThree : RefSet (ℚ × ℚ) :=
  RefSet.new [[(0, 0)], [(10, 0)], [(20, 0)]] [(-1, 0), (-1, 0), (-1, 0)] (some [[0], [1]])

/-- C44 is violated with fewer parts than components: the row numbers of the assignment are dropped, so that
the points 10 and 20, whose parts are assigned to the second and third component, are paired with the
reference points 0 and 10. -/
theorem C44_violated : ¬ ComponentsMatched lineEnv refThree [(10, 0), (20, 0)] := by
  intro h
  have h1 : ∃ S', refThree.match lineEnv [(10, 0), (20, 0)] = some S' ∧ S'.yIdx = some [[0], [1]] ∧
      S'.referenceSet = [(0, 0), (10, 0)] ∧ S'.medoidsIdx[0]? = some (some (0, 0)) := by
    refine ⟨(refThree.match lineEnv [(10, 0), (20, 0)]).get (by decide +kernel), ?_, ?_, ?_, ?_⟩
    · simp
    all_goals decide +kernel
  obtain ⟨S', a1, a2, -, a3⟩ := h1
  have := h S' _ [[(10, 0)], [(20, 0)]] a1 a2 rfl (by decide) 0 0 0 0 [0] rfl (by simp) a3
  revert this
  decide +kernel

/-- More parts than components are an error. -/
theorem C44_too_many {env : MatchEnv P K} {S : RefSet P} {parts : List (List P)}
    (h : S.ref.length < parts.length) : S.matchComponents env parts = none := by
  unfold RefSet.matchComponents
  rw [if_pos h]

/-- The hypotheses of `C44_partial` for two components with two given clusters. -/
example : ∀ c, (RefSet.new [[(0, 0)], [(5, 0)]] [((-1 : ℚ), (0 : ℚ)), (-1, 0)] (some [[1], [0]])).yIdx = some c →
    c.flatten.Perm (List.range 2) ∧ c.length = 2 := by
  intro c h
  simp only [RefSet.new, Option.some.injEq] at h
  subst h
  exact ⟨by decide, rfl⟩

/-! ## C45 -/

section

variable [AddCommMonoid K] [LinearOrder K] [Zero P]

/-- The full statement of C45: trial evaluations do not change the matched reference points. -/
def TrialsFrozen (env : MatchEnv P K) (I : MatchingIndicator P) (Y : List P) : Prop :=
  ∀ I', I.trial env Y = some I' → I'.ref.referenceSet = I.ref.referenceSet

/-- C45, if the flag of the reference set itself (not of the indicator) is off: no evaluation changes
anything. -/
theorem C45_ref_partial (env : MatchEnv P K) {I : MatchingIndicator P} (hr : I.ref.reMatch = false)
    (hm : I.ref.matched.isSome) (Y : List P) :
    (∃ I', I.trial env Y = some I' ∧ I'.ref = I.ref) ∧ TrialsFrozen env I Y := by
  have : I.ref.match env Y = some I.ref := by
    unfold RefSet.match
    rw [if_pos (by simp [hr, hm])]
  have h : I.trial env Y = some { I with reMatch := true } := by
    unfold MatchingIndicator.trial MatchingIndicator.evaluate
    dsimp only
    rw [this]
    rfl
  refine ⟨⟨_, h, rfl⟩, fun I' hI' => ?_⟩
  rw [h, Option.some.injEq] at hI'
  subst hI'
  rfl

/-- C45, what holds for every trial evaluation from a matched state: the flag on the indicator has no effect,
so the points are paired anew; the reference points are only reordered, within the classes. -/
theorem C45_partial {env : MatchEnv P K} (he : env.Sound) {I I' : MatchingIndicator P} {Y : List P}
    {M : List P} (hw : I.ref.medoids.length = I.ref.ref.length) (hr : I.ref.reMatch = true)
    (hone : I.ref.ref.length = 1) (hmd : I.ref.medoids = [some M]) (hM : M.length = Y.length)
    (h : I.trial env Y = some I') :
    I'.ref.referenceSet.Perm M ∧ I'.reMatch = true ∧
      (∀ M', M'.Perm I'.ref.referenceSet →
        (List.zipWith env.dist Y I'.ref.referenceSet).sum ≤ (List.zipWith env.dist Y M').sum) := by
  unfold MatchingIndicator.trial MatchingIndicator.evaluate at h
  obtain ⟨I1, h1, rfl⟩ := Option.map_eq_some_iff.mp h
  obtain ⟨S', h2, rfl⟩ := Option.map_eq_some_iff.mp h1
  dsimp only at h2 ⊢
  obtain ⟨C, hC⟩ := List.length_eq_one_iff.mp hone
  obtain ⟨-, -, a2, a3⟩ := C42_one_component he hC (by rw [hw, hone]) (Or.inl hr) h2
  exact ⟨a2 M hmd hM, rfl, a3⟩

end

/-- The indicator whose reference set is matched with the points 0 and 4. -/
def matchedLine : MatchingIndicator (ℚ × ℚ) :=
  { ref := ((RefSet.new [[(0, 0), (5, 0)]] [(-1, 0)] none).match lineEnv [(0, 0), (4, 0)]).getD
      (RefSet.new [] [] none), reMatch := true }

/-- C45 is violated: the flag is set on the indicator, but `match` reads the flag of the reference set. In a
trial evaluation where only the first point has moved, from 0 to 7, the reference points are paired the other way
round. -/
theorem C45_violated : matchedLine.ref.referenceSet = [(0, 0), (5, 0)] ∧
    ¬ TrialsFrozen lineEnv matchedLine [(7, 0), (4, 0)] := by
  refine ⟨by decide +kernel, fun h => ?_⟩
  have h1 := h ((matchedLine.trial lineEnv [(7, 0), (4, 0)]).get (by decide +kernel)) (by simp)
  revert h1
  decide +kernel

/-- The hypotheses of `C45_partial` for this indicator. -/
example : matchedLine.ref.ref.length = 1 ∧ matchedLine.ref.reMatch = true ∧
    matchedLine.ref.medoids = [some [(0, 0), (5, 0)]] ∧
    (matchedLine.trial lineEnv [(7, 0), (4, 0)]).map (fun I => I.ref.referenceSet) =
      some [(5, 0), (0, 0)] := by
  decide +kernel

end Verif.Props
