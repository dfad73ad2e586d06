import Verif.HVD.Hessian

/-!
# The gradient with points outside the reference box
-/

namespace Verif.HVD

open Verif.HV Verif.HV.Spec Verif.NDS

/-- No two points share a value in an objective, and no value equals that of the reference. -/
structure Generic (d : ℕ) (Y : List (ℕ → ℝ)) (ref : ℕ → ℝ) : Prop where
  distinct : Y.Pairwise (fun p q => ∀ k < d, p k ≠ q k)
  off : ∀ p ∈ Y, ∀ k < d, p k ≠ ref k

theorem Generic.ne {d : ℕ} {Y : List (ℕ → ℝ)} {ref : ℕ → ℝ} (h : Generic d Y ref) {i j k : ℕ}
    (hi : i < Y.length) (hj : j < Y.length) (hij : i ≠ j) (hk : k < d) : ptOf Y i k ≠ ptOf Y j k := by
  rw [ptOf_eq hi, ptOf_eq hj]
  rcases lt_or_gt_of_ne hij with hlt | hlt
  · exact List.pairwise_iff_getElem.mp h.distinct i j hi hj hlt k hk
  · exact (List.pairwise_iff_getElem.mp h.distinct j i hj hi hlt k hk).symm

theorem Generic.ne_ref {d : ℕ} {Y : List (ℕ → ℝ)} {ref : ℕ → ℝ} (h : Generic d Y ref) {i k : ℕ}
    (hi : i < Y.length) (hk : k < d) : ptOf Y i k ≠ ref k := by
  rw [ptOf_eq hi]
  exact h.off _ (List.getElem_mem hi) k hk

theorem Generic.sub {d : ℕ} {Y : List (ℕ → ℝ)} {ref : ℕ → ℝ} (h : Generic d Y ref)
    {ids : List ℕ} (hn : ids.Nodup) (hv : ∀ i ∈ ids, i < Y.length) : Generic d (ids.map (ptOf Y)) ref := by
  refine ⟨?_, ?_⟩
  · rw [List.pairwise_map]
    refine List.Pairwise.imp_of_mem ?_ hn
    intro i j hi hj hij k hk
    exact h.ne (hv i hi) (hv j hj) hij hk
  · intro p hp k hk
    obtain ⟨i, hi, rfl⟩ := List.mem_map.mp hp
    exact h.ne_ref (hv i hi) hk

theorem Generic.drop {d : ℕ} {Y : List (ℕ → ℝ)} {ref : ℕ → ℝ} (h : Generic d Y ref)
    {k : ℕ} (hk : k < d) {ids : List ℕ} (hn : ids.Nodup) (hv : ∀ i ∈ ids, i < Y.length) :
    Generic (d - 1) (ids.map (fun j => dropAt k (ptOf Y j))) (dropAt k ref) := by
  refine ⟨?_, ?_⟩
  · rw [List.pairwise_map]
    refine List.Pairwise.imp_of_mem ?_ hn
    intro i j hi hj hij q hq
    obtain ⟨q', hq', he⟩ := dropAt_lt hk hq
    rw [he, he]
    exact h.ne (hv i hi) (hv j hj) hij hq'
  · intro p hp q hq
    obtain ⟨i, hi, rfl⟩ := List.mem_map.mp hp
    obtain ⟨q', hq', he⟩ := dropAt_lt hk hq
    rw [he, he]
    exact h.ne_ref (hv i hi) hq'

theorem Generic.admissible {d : ℕ} {Y : List (ℕ → ℝ)} {ref : ℕ → ℝ} (h : Generic d Y ref)
    (hb : Bounded d Y ref) : Admissible d Y ref where
  range := fun p hp _ i _ hi => hb p hp i hi
  triple := fun h4 => (h.distinct.imp fun h h0 => absurd h0 (h 0 (by omega))).filter _
  tie := fun j _ h2 => (h.distinct.imp fun h => h j (by omega)).filter _
  below := fun _ p hp hle i hi => lt_of_le_of_ne (hle i (by omega)) (h.off p hp i (by omega))

theorem Generic.exactOn {argsort : List ℝ → List ℕ} (ha : IsArgsort argsort) {d : ℕ}
    (hd : 2 ≤ d) {Y : List (ℕ → ℝ)} {ref : ℕ → ℝ} (h : Generic d Y ref) (hb : Bounded d Y ref) :
    ExactOn argsort d Y ref := by
  intro k hk ids hn hv
  exact compute_correct ha (by omega) ((h.drop hk hn hv).admissible (hb.drop hk hv))

/-- `HVdY` holds minus the slopes, also of the points outside the box, with three or more objectives. -/
theorem gradientY_generic {argsort : List ℝ → List ℕ} (ha : IsArgsort argsort) {n fuel : ℕ} (hn : 2 ≤ n)
    {Y : List (ℕ → ℝ)} {ref : ℕ → ℝ} (hY : Y ≠ []) (h : Generic (n + 1) Y ref)
    (hb : Bounded (n + 1) Y ref) (hf : depthBound (n + 1) Y.length ≤ fuel) :
    ∃ g, gradientY argsort fuel (n + 1) Y ref = some g ∧ g.length = Y.length ∧
      ∀ i < Y.length, ∀ k < n + 1, ptOf g i k = -slope n Y ref i k := by
  obtain ⟨nd, hnd, hF⟩ := front0_spec (d := n + 1) (by omega) hY hf
  unfold gradientY
  rw [hnd]
  simp only
  have hsel : sel Y nd = nd.map (ptOf Y) := sel_eq_map hF.valid
  rw [hsel]
  have hdom0 : ∀ i < Y.length, (∃ j < Y.length, Dom (n + 1) (ptOf Y j) (ptOf Y i)) →
      ∀ k < n + 1, slope n Y ref i k = 0 := by
    rintro i hi ⟨j, hj, hd⟩ k hk
    have hne : j ≠ i := by
      rintro rfl
      obtain ⟨-, k, -, hlt⟩ := hd
      exact lt_irrefl _ hlt
    apply hvi_eq_zero
    refine ⟨dropAt k (ptOf Y j), mem_below.mpr ⟨j, hj, lt_of_le_of_ne (hd.1 k hk) (h.ne hj hi hne hk), rfl⟩,
      fun q hq => ?_⟩
    obtain ⟨q', hq', he⟩ := dropAt_lt (d := n + 1) hk (by omega : q < n + 1 - 1)
    rw [he, he]
    exact hd.1 q' hq'
  have hlen : (nd.map (ptOf Y)).length ≤ Y.length := by
    rw [List.length_map]
    exact nodup_length_le hF.nodup hF.valid
  obtain ⟨g, hg, hgl, hge⟩ := hypervolumeDY_spec (argsort := argsort) (d := n + 1) (fuel := fuel) (by omega)
    ((depthBound_mono le_rfl hlen).trans hf)
    ((h.sub hF.nodup hF.valid).exactOn ha (by omega) (hb.sub hF.valid))
  rw [hg]
  refine ⟨_, rfl, by simp, fun i hi k hk => ?_⟩
  rw [ptOf_range_map hi]
  by_cases hin : i ∈ nd
  · rw [if_pos hin, getD_map_idxOf]
    have hs : nd.idxOf i < nd.length := List.idxOf_lt_length_iff.mpr hin
    have hpi : ptOf (nd.map (ptOf Y)) (nd.idxOf i) = ptOf Y i := by
      rw [ptOf_map hs, List.getElem_idxOf]
    rw [hge _ (by simpa using hs) k hk, hpi]
    congr 1
    apply hvi_congr (fun _ _ => rfl) (fun _ _ => rfl)
    · intro p hp
      obtain ⟨s, hs', hlt, rfl⟩ := mem_below.mp hp
      rw [List.length_map] at hs'
      rw [hpi, ptOf_map hs'] at hlt
      rw [ptOf_map hs']
      exact ⟨_, mem_below.mpr ⟨nd[s], hF.valid _ (List.getElem_mem hs'), hlt, rfl⟩, fun _ _ => le_rfl⟩
    · intro p hp
      obtain ⟨j, hj, hlt, rfl⟩ := mem_below.mp hp
      obtain ⟨l, hl, hle⟩ := hF.covers j hj
      obtain ⟨s, hs', rfl⟩ := List.getElem_of_mem hl
      refine ⟨dropAt k (ptOf Y nd[s]), mem_below.mpr ⟨s, by simpa using hs', ?_, ?_⟩, ?_⟩
      · rw [ptOf_map hs', hpi]; exact lt_of_le_of_lt (hle k hk) hlt
      · rw [ptOf_map hs']
      · intro q hq
        obtain ⟨q', hq', he⟩ := dropAt_lt (d := n + 1) hk (by omega : q < n + 1 - 1)
        rw [he, he]
        exact hle q' hq'
  · rw [if_neg hin]
    rw [hdom0 i hi _ k hk]
    · simp
    · by_contra hc
      push Not at hc
      exact hin (hF.all (by omega) i hi hc)

end Verif.HVD
