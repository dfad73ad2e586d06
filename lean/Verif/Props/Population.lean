import Verif.Opt.Partition
import Mathlib.Data.List.GetD
import Verif.Props.NonDomSort

/-!
# The population of HVN: partition and duplicates (C29, C30)
-/

namespace Verif.Props

open Verif.Opt Verif.NDS

set_option linter.unusedSectionVars false

section Partition

variable {K : Type*} [LinearOrder K] [Inhabited K]

theorem fronts_flatten_perm {fronts : List (ℕ × List ℕ)} {M : ℕ}
    (hk : fronts.map Prod.fst = List.range fronts.length)
    (hg : ∀ g ∈ fronts, g.2.Nodup ∧ ∀ i ∈ g.2, i < M) (hu : ∀ i < M, ∃! k, InFront fronts k i) :
    (fronts.map Prod.snd).flatten.Perm (List.range M) := by
  have hkey : ∀ a (ha : a < fronts.length), fronts[a].1 = a := by
    intro a ha
    have := congrArg (fun l => l[a]?) hk
    simp only [List.getElem?_map, List.getElem?_range ha, List.getElem?_eq_getElem ha, Option.map_some] at this
    exact Option.some.inj this
  rw [List.perm_ext_iff_of_nodup ?_ List.nodup_range]
  · intro i
    rw [List.mem_range, List.mem_flatten]
    constructor
    · rintro ⟨l, hl, hi⟩
      obtain ⟨g, hgm, rfl⟩ := List.mem_map.mp hl
      exact (hg g hgm).2 i hi
    · intro hi
      obtain ⟨k, ⟨ids, h1, h2⟩, -⟩ := hu i hi
      exact ⟨ids, List.mem_map.mpr ⟨_, h1, rfl⟩, h2⟩
  · rw [List.nodup_flatten]
    refine ⟨fun l hl => ?_, ?_⟩
    · obtain ⟨g, hgm, rfl⟩ := List.mem_map.mp hl
      exact (hg g hgm).1
    · rw [List.pairwise_iff_getElem]
      intro a b ha hb hab
      rw [List.length_map] at ha hb
      rw [List.getElem_map, List.getElem_map, List.disjoint_left]
      intro i hia hib
      obtain ⟨k, -, huniq⟩ := hu i ((hg _ (List.getElem_mem ha)).2 i hia)
      have e1 := huniq fronts[a].1 ⟨fronts[a].2, List.getElem_mem ha, hia⟩
      have e2 := huniq fronts[b].1 ⟨fronts[b].2, List.getElem_mem hb, hib⟩
      rw [hkey a ha] at e1
      rw [hkey b hb] at e2
      omega

/-- C29: the index sets of an `HVN` iteration cover every index exactly once; no set is empty; all infeasible
points are in the first set, and no feasible point of a set dominates another feasible point of the same set.
The hypothesis says that non-dominated sorting of the feasible points is possible (at least two objectives, and a
sufficient recursion limit). -/
theorem C29_partition (D fuel : ℕ) (feas : List Bool) (Y : List (List K)) (hN : Y ≠ []) (hD : 2 ≤ D)
    (hY : ∀ y ∈ Y, y.length = D) (hdepth : ∀ n ≤ Y.length, depthBound D n ≤ fuel) :
    ∃ parts, hvnPartitions fuel feas Y = some parts ∧ parts.flatten.Perm (List.range Y.length) ∧
      (∀ p ∈ parts, p ≠ []) ∧
      (∀ i < Y.length, feas.getD i false = false → i ∈ parts.headD []) ∧
      ∀ p ∈ parts, ∀ i ∈ p, ∀ j ∈ p, feas.getD i false = true → feas.getD j false = true →
        ∀ (hi : i < Y.length) (hj : j < Y.length), ¬ Dominates Y[i] Y[j] := by
  have hpos : 0 < Y.length := List.length_pos_iff.mpr hN
  unfold hvnPartitions
  dsimp only
  set F := (List.range Y.length).filter fun i => feas.getD i false with hF
  set I := (List.range Y.length).filter fun i => !feas.getD i false with hI
  have hFI : (F ++ I).Perm (List.range Y.length) := List.filter_append_perm _ _
  have hFmem : ∀ i ∈ F, i < Y.length ∧ feas.getD i false = true := by
    intro i hi
    rw [hF, List.mem_filter, List.mem_range] at hi
    exact hi
  split
  · rename_i hlen
    set Z := F.map fun i => Y.getD i [] with hZ
    have hZl : Z.length = F.length := List.length_map _
    have hFl : F.length ≤ Y.length := by
      rw [hF]; exact (List.length_filter_le _ _).trans (by simp)
    have hv : ValidInput D fuel Z := by
      refine ⟨?_, hD, ?_, by rw [hZl]; exact hdepth _ hFl⟩
      · intro h; rw [h] at hZl; simp at hZl; omega
      · intro y hy
        obtain ⟨i, hi, rfl⟩ := List.mem_map.mp hy
        have := (hFmem i hi).1
        rw [List.getD_eq_getElem _ _ this]
        exact hY _ (List.getElem_mem this)
    obtain ⟨fronts, hs, hk, hg, hu, hd⟩ := C07_partition hv
    rw [hZl] at hg hu
    have hperm := fronts_flatten_perm hk (fun g h => ⟨(hg g h).2.1, (hg g h).2.2⟩) hu
    have hmapF : (List.range F.length).map (fun j => F.getD j 0) = F := by
      apply List.ext_getElem (by simp)
      intro i h1 h2
      rw [List.getElem_map, List.getElem_range, List.getD_eq_getElem _ _ h2]
    -- the first front
    rcases hfr : fronts with _ | ⟨⟨k0, ids0⟩, rest⟩
    · rw [hfr] at hu
      obtain ⟨k, ⟨ids, h, -⟩, -⟩ := hu 0 hlen
      simp at h
    · rw [hfr, List.map_cons, List.length_cons, List.range_succ_eq_map] at hk
      injection hk with hk0 hkr
      have hk0 : k0 = 0 := hk0
      subst hk0
      have hrest : ∀ kv ∈ rest, kv.1 ≠ 0 := by
        intro kv hkv h0
        have : kv.1 ∈ (List.range rest.length).map Nat.succ := by
          rw [← hkr]; exact List.mem_map.mpr ⟨kv, hkv, rfl⟩
        rw [h0] at this
        obtain ⟨a, -, ha⟩ := List.mem_map.mp this
        exact Nat.succ_ne_zero a ha
      have hmap : ((((0, ids0) :: rest).map fun kv => (kv.1, kv.2.map fun j => F.getD j 0)).map fun kv =>
          if kv.1 = 0 then (kv.2 ++ I).insertionSort (· ≤ ·) else kv.2) =
          ((ids0.map fun j => F.getD j 0) ++ I).insertionSort (· ≤ ·) ::
            rest.map fun kv => kv.2.map fun j => F.getD j 0 := by
        rw [List.map_cons, List.map_cons, if_pos rfl, List.map_map]
        refine congrArg₂ _ rfl (List.map_congr_left fun kv hkv => ?_)
        simp only [Function.comp]
        rw [if_neg (hrest kv hkv)]
      refine ⟨_, by rw [hs, Option.map_some, hfr, hmap], ?_, ?_, ?_, ?_⟩
      · rw [List.flatten_cons]
        refine ((List.perm_insertionSort _ _).append_right _).trans ?_
        have h1 : ((ids0.map fun j => F.getD j 0) ++ (rest.map fun kv => kv.2.map fun j => F.getD j 0).flatten).Perm
            F := by
          have h2 := hperm.map (fun j => F.getD j 0)
          rw [hmapF, hfr, List.map_cons, List.flatten_cons, List.map_append, List.map_flatten, List.map_map] at h2
          exact h2
        refine List.Perm.trans ?_ (((h1.append_right I)).trans hFI)
        rw [List.append_assoc, List.append_assoc]
        exact List.perm_append_comm.append_left _
      · intro p hp
        rcases List.mem_cons.mp hp with rfl | hp
        · intro h
          have := congrArg List.length h
          rw [List.length_insertionSort, List.length_append, List.length_map, List.length_nil] at this
          have h0 : ids0 ≠ [] := (hg (0, ids0) (by rw [hfr]; simp)).1
          exact h0 (List.length_eq_zero_iff.mp (by omega))
        · obtain ⟨kv, hkv, rfl⟩ := List.mem_map.mp hp
          rw [ne_eq, List.map_eq_nil_iff]
          exact (hg kv (by rw [hfr]; simp [hkv])).1
      · intro i hi hif
        rw [List.headD_cons, List.mem_insertionSort]
        refine List.mem_append_right _ ?_
        rw [hI, List.mem_filter, List.mem_range]
        exact ⟨hi, by rw [hif]; rfl⟩
      · have key : ∀ kv ∈ fronts, ∀ a ∈ kv.2, ∀ b ∈ kv.2, ∀ (ha : F.getD a 0 < Y.length)
            (hb : F.getD b 0 < Y.length), ¬ Dominates Y[F.getD a 0] Y[F.getD b 0] := by
          intro kv hkv a ha b hb ha' hb'
          have hla := (hg kv hkv).2.2 a ha
          have hlb := (hg kv hkv).2.2 b hb
          have := hd kv.1 a b ⟨kv.2, hkv, ha⟩ ⟨kv.2, hkv, hb⟩ (by omega) (by omega)
          simp only [hZ, List.getElem_map] at this
          rw [List.getD_eq_getElem _ _ (hFmem _ (List.getElem_mem hla)).1,
            List.getD_eq_getElem _ _ (hFmem _ (List.getElem_mem hlb)).1] at this
          simpa only [List.getD_eq_getElem _ _ hla, List.getD_eq_getElem _ _ hlb] using this
        intro p hp i hi j hj hfi hfj hi' hj'
        rcases List.mem_cons.mp hp with rfl | hp
        · rw [List.mem_insertionSort, List.mem_append] at hi hj
          have hnI : ∀ i, feas.getD i false = true → i ∉ I := by
            intro i h hi
            rw [hI, List.mem_filter, h] at hi
            simp at hi
          have hi := hi.resolve_right (hnI i hfi)
          have hj := hj.resolve_right (hnI j hfj)
          obtain ⟨a, ha, rfl⟩ := List.mem_map.mp hi
          obtain ⟨b, hb, rfl⟩ := List.mem_map.mp hj
          exact key (0, ids0) (by rw [hfr]; simp) a ha b hb hi' hj'
        · obtain ⟨kv, hkv, rfl⟩ := List.mem_map.mp hp
          obtain ⟨a, ha, rfl⟩ := List.mem_map.mp hi
          obtain ⟨b, hb, rfl⟩ := List.mem_map.mp hj
          exact key kv (by rw [hfr]; simp [hkv]) a ha b hb hi' hj'
  · rename_i hlen
    have hF0 : F = [] := List.length_eq_zero_iff.mp (by omega)
    refine ⟨_, rfl, by simp, ?_, ?_, ?_⟩
    · intro p hp
      rw [List.mem_singleton] at hp
      subst hp
      rw [ne_eq, List.range_eq_nil]
      omega
    · intro i hi _
      simpa using hi
    · intro p hp i hi j hj hfi _ hi' _
      have : i ∈ F := by rw [hF, List.mem_filter, List.mem_range]; exact ⟨hi', hfi⟩
      rw [hF0] at this
      simp at this

/-- The example of C07 with three infeasible points. -/
example : ∃ parts, hvnPartitions 1000 [true, false, true, true, false, true, true, false] exampleY = some parts ∧
    parts.flatten.Perm (List.range 8) ∧ 7 ∈ parts.headD [] := by
  obtain ⟨parts, h1, h2, -, h3, -⟩ := C29_partition 3 1000 [true, false, true, true, false, true, true, false]
    exampleY (by simp [exampleY]) (by norm_num) (by decide)
    (fun n hn => le_trans (depth_ok (by norm_num) (lt_of_le_of_lt hn (by simp [exampleY]))) (by norm_num))
  exact ⟨parts, h1, h2, h3 7 (by simp [exampleY]) (by decide)⟩

end Partition

section Duplicates

variable {K : Type*} [Field K] [LinearOrder K] [IsStrictOrderedRing K]

/-- C30: for a symmetric distance matrix the kept indices are pairwise farther apart than `10⁻⁸`, every removed
index is within `10⁻⁸` of a kept one, and nothing is removed if all pairs are farther apart. -/
theorem C30_duplicates (N : ℕ) (eps : K) (D : ℕ → ℕ → K) (hD : ∀ i j, 0 ≤ D i j) (hsymm : ∀ i j, D i j = D j i)
    (kept : List ℕ) (hkept : kept = keptIdx N eps D) :
    kept.Nodup ∧ (∀ i ∈ kept, i < N) ∧ (∀ i ∈ kept, ∀ j ∈ kept, i ≠ j → 1 / 10 ^ 8 < D i j) ∧
      (∀ j < N, j ∉ kept → ∃ i ∈ kept, D i j ≤ 1 / 10 ^ 8) ∧
      ((∀ i < N, ∀ j < N, i ≠ j → 1 / 10 ^ 8 < D i j) → kept = List.range N) := by
  subst hkept
  unfold keptIdx
  dsimp only
  set drop := (List.range N).foldl (dropStep N eps D) [] with hdrop
  obtain ⟨h1, h2, h3⟩ := drop_invariant (N := N) (eps := eps) (D := D) N le_rfl drop hdrop
  have hmem : ∀ i, i ∈ ((List.range N).filter fun i => decide (i ∉ drop)) ↔ i < N ∧ i ∉ drop := by
    intro i
    rw [List.mem_filter, List.mem_range, decide_eq_true_eq]
  have hclose : ∀ i j, closeToZero eps (D i j) = true ↔ D i j ≤ 1 / 10 ^ 8 := by
    intro i j
    rw [closeToZero_iff, abs_of_nonneg (hD i j)]
  refine ⟨List.nodup_range.filter _, fun i hi => ((hmem i).mp hi).1, ?_, ?_, ?_⟩
  · intro i hi j hj hne
    obtain ⟨hi1, hi2⟩ := (hmem i).mp hi
    obtain ⟨hj1, hj2⟩ := (hmem j).mp hj
    by_contra hc
    exact hj2 (h2 i hi1 (fun h => hi2 (h3 i hi1.le i h)) j hj1 (fun h => hne h.symm)
      ((hclose i j).mpr (not_lt.mp hc)))
  · intro j hj hnk
    have hjd : j ∈ drop := by
      by_contra hc
      exact hnk ((hmem j).mpr ⟨hj, hc⟩)
    obtain ⟨-, i, hi, hne, hcl, hi2⟩ := h1 j hjd
    exact ⟨i, (hmem i).mpr ⟨hi, fun h => hi2 (dropped_early hsymm hi h)⟩, (hclose i j).mp hcl⟩
  · intro hsep
    rw [List.filter_eq_self]
    intro j hj
    rw [decide_eq_true_eq]
    intro hjd
    obtain ⟨hjN, i, hi, hne, hcl, -⟩ := h1 j hjd
    exact absurd ((hclose i j).mp hcl) (not_le.mpr (hsep i hi j hjN hne))

/-- The parameter `eps` of the optimizers has no influence on the removal. -/
theorem C30_eps_irrelevant (N : ℕ) (eps eps' : K) (D : ℕ → ℕ → K) : keptIdx N eps D = keptIdx N eps' D := by
  have : dropStep N eps D = dropStep N eps' D := by
    funext drop i
    unfold dropStep closeToZero
    simp
  unfold keptIdx
  rw [this]

/-- Five points on a line at `0, 6·10⁻⁹, 12·10⁻⁹, 1, 1`: the second and the last one are removed. -/
def lineDist (i j : ℕ) : ℚ :=
  |([0, 6 / 10 ^ 9, 12 / 10 ^ 9, 1, 1] : List ℚ).getD i 0 - ([0, 6 / 10 ^ 9, 12 / 10 ^ 9, 1, 1] : List ℚ).getD j 0|

example : keptIdx 5 (1 / 1000) lineDist = [0, 2, 3] := by decide +kernel

example : ∀ i ∈ keptIdx 5 (1 / 1000) lineDist, ∀ j ∈ keptIdx 5 (1 / 1000) lineDist, i ≠ j →
    1 / 10 ^ 8 < lineDist i j :=
  (C30_duplicates 5 (1 / 1000) lineDist (fun _ _ => abs_nonneg _) (fun _ _ => abs_sub_comm _ _) _ rfl).2.2.1

end Duplicates

end Verif.Props
