import Verif.HVD.TwoD

/-!
# Correctness of the gradient in the objective space
-/

namespace Verif.HVD

open Verif.HV Verif.HV.Spec Verif.NDS

/-- The distances to the reference point stay in the range of `bounds` (hypervolume.py 58). -/
def Bounded (d : ℕ) (Y : List (ℕ → ℝ)) (ref : ℕ → ℝ) : Prop :=
  ∀ p ∈ Y, ∀ i < d, ref i - p i ≤ 10 ^ 308

theorem GeneralPosition.sub {d : ℕ} {Y : List (ℕ → ℝ)} {ref : ℕ → ℝ} (h : GeneralPosition d Y ref)
    {ids : List ℕ} (hn : ids.Nodup) (hv : ∀ i ∈ ids, i < Y.length) :
    GeneralPosition d (ids.map (ptOf Y)) ref := by
  refine ⟨?_, ?_⟩
  · rw [List.pairwise_map]
    refine List.Pairwise.imp_of_mem ?_ hn
    intro i j hi hj hij k hk
    exact h.ne (hv i hi) (hv j hj) hij hk
  · intro p hp k hk
    obtain ⟨i, hi, rfl⟩ := List.mem_map.mp hp
    exact h.lt_ref (hv i hi) hk

theorem dropAt_lt {d k q : ℕ} (hk : k < d) (hq : q < d - 1) :
    ∃ q' < d, ∀ p : ℕ → ℝ, dropAt k p q = p q' := by
  by_cases h : q < k
  · exact ⟨q, by omega, fun p => by simp [dropAt, h]⟩
  · exact ⟨q + 1, by omega, fun p => by simp [dropAt, h]⟩

theorem GeneralPosition.drop {d : ℕ} {Y : List (ℕ → ℝ)} {ref : ℕ → ℝ} (h : GeneralPosition d Y ref)
    {k : ℕ} (hk : k < d) {ids : List ℕ} (hn : ids.Nodup) (hv : ∀ i ∈ ids, i < Y.length) :
    GeneralPosition (d - 1) (ids.map (fun j => dropAt k (ptOf Y j))) (dropAt k ref) := by
  refine ⟨?_, ?_⟩
  · rw [List.pairwise_map]
    refine List.Pairwise.imp_of_mem ?_ hn
    intro i j hi hj hij q hq
    obtain ⟨q', hq', he⟩ := dropAt_lt hk hq
    rw [he, he]
    exact h.ne (hv i hi) (hv j hj) hij hq'
  · intro p hp q hq
    obtain ⟨i, hi, rfl⟩ := List.mem_map.mp hp
    obtain ⟨q', hq', he⟩ := dropAt_lt hk hq
    rw [he, he]
    exact h.lt_ref (hv i hi) hq'

theorem Bounded.sub {d : ℕ} {Y : List (ℕ → ℝ)} {ref : ℕ → ℝ} (h : Bounded d Y ref)
    {ids : List ℕ} (hv : ∀ i ∈ ids, i < Y.length) : Bounded d (ids.map (ptOf Y)) ref := by
  intro p hp
  obtain ⟨i, hi, rfl⟩ := List.mem_map.mp hp
  exact h _ (mem_iff_ptOf.mpr ⟨i, hv i hi, rfl⟩)

theorem Bounded.drop {d : ℕ} {Y : List (ℕ → ℝ)} {ref : ℕ → ℝ} (h : Bounded d Y ref) {k : ℕ} (hk : k < d)
    {ids : List ℕ} (hv : ∀ i ∈ ids, i < Y.length) :
    Bounded (d - 1) (ids.map (fun j => dropAt k (ptOf Y j))) (dropAt k ref) := by
  intro p hp q hq
  obtain ⟨i, hi, rfl⟩ := List.mem_map.mp hp
  obtain ⟨q', hq', he⟩ := dropAt_lt hk hq
  rw [he, he]
  exact h _ (mem_iff_ptOf.mpr ⟨i, hv i hi, rfl⟩) q' hq'

theorem GeneralPosition.admissible {d : ℕ} {Y : List (ℕ → ℝ)} {ref : ℕ → ℝ} (h : GeneralPosition d Y ref)
    (hb : Bounded d Y ref) : Admissible d Y ref where
  range := fun p hp _ i _ hi => hb p hp i hi
  triple := fun h4 => (h.distinct.imp fun h h0 => absurd h0 (h 0 (by omega))).filter _
  tie := fun j _ h2 => (h.distinct.imp fun h => h j (by omega)).filter _
  below := fun _ p hp _ i hi => h.inside p hp i (by omega)

theorem GeneralPosition.exactOn {argsort : List ℝ → List ℕ} (ha : IsArgsort argsort) {d : ℕ}
    (hd : 2 ≤ d) {Y : List (ℕ → ℝ)} {ref : ℕ → ℝ} (h : GeneralPosition d Y ref) (hb : Bounded d Y ref) :
    ExactOn argsort d Y ref := by
  intro k hk ids hn hv
  exact compute_correct ha (by omega) ((h.drop hk hn hv).admissible (hb.drop hk hv))

/-- In general position dominance is strict in all objectives. -/
theorem GeneralPosition.dom_lt {d : ℕ} {Y : List (ℕ → ℝ)} {ref : ℕ → ℝ} (h : GeneralPosition d Y ref)
    {i j : ℕ} (hi : i < Y.length) (hj : j < Y.length) (hd : Dom d (ptOf Y j) (ptOf Y i)) :
    j ≠ i ∧ ∀ k < d, ptOf Y j k < ptOf Y i k := by
  have hne : j ≠ i := by
    rintro rfl
    obtain ⟨-, k, -, hlt⟩ := hd
    exact lt_irrefl _ hlt
  exact ⟨hne, fun k hk => lt_of_le_of_ne (hd.1 k hk) (h.ne hj hi hne hk)⟩

/-- The gradient of a front in general position without dominated points. -/
theorem hypervolumeDY_gp {argsort : List ℝ → List ℕ} (ha : IsArgsort argsort) {d fuel : ℕ} (hd : 2 ≤ d)
    {P : List (ℕ → ℝ)} {ref : ℕ → ℝ} (h : GeneralPosition d P ref) (hb : Bounded d P ref)
    (hf : depthBound d P.length ≤ fuel)
    (hnd : ∀ i < P.length, ∀ j < P.length, ¬ Dom d (ptOf P j) (ptOf P i)) :
    ∃ g, hypervolumeDY argsort fuel d P ref = some g ∧ g.length = P.length ∧
      ∀ i < P.length, ∀ k < d,
        ptOf g i k = -hvi (d - 1) (dropAt k (ptOf P i)) (below P i k) (dropAt k ref) := by
  by_cases h2 : d = 2
  · subst h2
    refine ⟨hypervolumeDY2 P ref, by simp [hypervolumeDY], length_hypervolumeDY2 P ref, fun i hi k hk => ?_⟩
    refine hypervolumeDY2_spec ?_ (fun i hi k hk => (h.lt_ref hi hk).le) hi hk
      (fun j hj hji => h.ne hj hi hji hk)
    rintro i hi j hj ⟨h0, h1⟩
    refine hnd j hj i hi ⟨fun k hk => ?_, 0, by norm_num, h0⟩
    interval_cases k
    · exact h0.le
    · exact h1.le
  · exact hypervolumeDY_spec (by omega) hf (h.exactOn ha hd hb)

theorem getD_map_idxOf {g : List (ℕ → ℝ)} {nd : List ℕ} {i : ℕ} :
    g.getD (nd.idxOf i) (fun _ => 0) = ptOf g (nd.idxOf i) := rfl

theorem ptOf_range_map {K : Type*} [Zero K] {n i : ℕ} {g : ℕ → ℕ → K} (hi : i < n) : ptOf ((List.range n).map g) i = g i := by
  rw [ptOf_map (by simpa using hi), List.getElem_range]

/-- `HVdY` holds minus the slopes. -/
theorem gradientY_spec {argsort : List ℝ → List ℕ} (ha : IsArgsort argsort) {n fuel : ℕ}
    {Y : List (ℕ → ℝ)} {ref : ℕ → ℝ} (hY : Y ≠ []) (h : GeneralPosition (n + 1) Y ref)
    (hb : Bounded (n + 1) Y ref) (hf : depthBound (n + 1) Y.length ≤ fuel) :
    ∃ g, gradientY argsort fuel (n + 1) Y ref = some g ∧ g.length = Y.length ∧
      ∀ i < Y.length, ∀ k < n + 1, ptOf g i k = -slope n Y ref i k := by
  obtain ⟨nd, hnd, hF⟩ := front0_spec (d := n + 1) (by omega) hY hf
  unfold gradientY
  rw [hnd]
  simp only
  have hsel : sel Y nd = nd.map (ptOf Y) := sel_eq_map hF.valid
  rw [hsel]
  -- dominated points
  have hdom0 : ∀ i < Y.length, (∃ j < Y.length, Dom (n + 1) (ptOf Y j) (ptOf Y i)) →
      ∀ k < n + 1, slope n Y ref i k = 0 := by
    rintro i hi ⟨j, hj, hd⟩ k hk
    obtain ⟨hne, hlt⟩ := h.dom_lt hi hj hd
    apply hvi_eq_zero
    refine ⟨dropAt k (ptOf Y j), mem_below.mpr ⟨j, hj, hlt k hk, rfl⟩, fun q hq => ?_⟩
    obtain ⟨q', hq', he⟩ := dropAt_lt (d := n + 1) hk (by omega : q < n + 1 - 1)
    rw [he, he]
    exact (hlt q' hq').le
  by_cases h1 : n = 0
  · subst h1
    simp only [hypervolumeDY, zero_add, if_true]
    refine ⟨_, rfl, by simp, fun i hi k hk => ?_⟩
    have hk0 : k = 0 := by omega
    subst hk0
    rw [ptOf_range_map hi]
    obtain ⟨l, hl, -⟩ := hF.covers i hi
    have hnd1 : nd.length = 1 := by
      unfold front0 at hnd
      rw [if_pos rfl] at hnd
      simp only at hnd
      split at hnd
      · simp at hnd
      · simp only [Option.some_inj] at hnd; rw [← hnd]; rfl
    obtain ⟨x, rfl⟩ := List.length_eq_one_iff.mp hnd1
    by_cases hix : i = x
    · subst hix
      rw [if_pos (List.mem_singleton_self _)]
      have hnil : below Y i 0 = [] := by
        rw [List.eq_nil_iff_forall_not_mem]
        intro p hp
        obtain ⟨j, hj, hlt, -⟩ := mem_below.mp hp
        refine hF.minimal i (List.mem_singleton_self _) j hj ⟨fun k hk => ?_, 0, by norm_num, hlt⟩
        have hk0 : k = 0 := by omega
        subst hk0
        exact hlt.le
      have : slope 0 Y ref i 0 = 1 := by
        change hvi 0 _ (below Y i 0) _ = 1
        rw [hnil, hvi_zero_nil]
      rw [this]
      simp [pt]
    · rw [if_neg (by simpa using hix)]
      rw [hdom0 i hi _ 0 (by norm_num)]
      · simp
      · refine ⟨x, hF.valid x (List.mem_singleton_self _), ?_⟩
        obtain ⟨l, hl, hle⟩ := hF.covers i hi
        rw [List.mem_singleton] at hl
        subst hl
        exact ⟨hle, 0, by norm_num, lt_of_le_of_ne (hle 0 (by norm_num))
          (h.ne (hF.valid l (List.mem_singleton_self _)) hi (Ne.symm hix) (by norm_num))⟩
  · have hlen : (nd.map (ptOf Y)).length ≤ Y.length := by
      rw [List.length_map]
      have := List.Nodup.length_le_card (α := Fin Y.length) (l := nd.attach.map fun i => ⟨i.1, hF.valid i.1 i.2⟩)
        ((List.nodup_map_iff_inj_on (List.nodup_attach.mpr hF.nodup)).mpr (by
          intro a _ b _ hab
          exact Subtype.ext (Fin.mk.inj_iff.mp hab)))
      simpa using this
    obtain ⟨g, hg, hgl, hge⟩ := hypervolumeDY_gp ha (d := n + 1) (fuel := fuel) (by omega)
      (h.sub hF.nodup hF.valid) (hb.sub hF.valid) ((depthBound_mono le_rfl hlen).trans hf) (by
        intro i hi j hj
        rw [List.length_map] at hi hj
        rw [ptOf_map hi, ptOf_map hj]
        exact hF.minimal _ (List.getElem_mem hi) _ (hF.valid _ (List.getElem_mem hj)))
    rw [hg]
    refine ⟨_, rfl, by simp, fun i hi k hk => ?_⟩
    rw [ptOf_range_map hi]
    by_cases hin : i ∈ nd
    · rw [if_pos hin, getD_map_idxOf]
      have hs : nd.idxOf i < nd.length := List.idxOf_lt_length_iff.mpr hin
      have hpi : ptOf (nd.map (ptOf Y)) (nd.idxOf i) = ptOf Y i := by
        rw [ptOf_map hs, List.getElem_idxOf]
      rw [hge _ (by simpa using hs) k hk, hpi]
      congr 1
      apply hvi_congr (fun _ _ => rfl) (fun _ _ => rfl)
      · intro p hp
        obtain ⟨s, hs', hlt, rfl⟩ := mem_below.mp hp
        rw [List.length_map] at hs'
        rw [hpi, ptOf_map hs'] at hlt
        rw [ptOf_map hs']
        exact ⟨_, mem_below.mpr ⟨nd[s], hF.valid _ (List.getElem_mem hs'), hlt, rfl⟩, fun _ _ => le_rfl⟩
      · intro p hp
        obtain ⟨j, hj, hlt, rfl⟩ := mem_below.mp hp
        obtain ⟨l, hl, hle⟩ := hF.covers j hj
        obtain ⟨s, hs', rfl⟩ := List.getElem_of_mem hl
        refine ⟨dropAt k (ptOf Y nd[s]), mem_below.mpr ⟨s, by simpa using hs', ?_, ?_⟩, ?_⟩
        · rw [ptOf_map hs', hpi]; exact lt_of_le_of_lt (hle k hk) hlt
        · rw [ptOf_map hs']
        · intro q hq
          obtain ⟨q', hq', he⟩ := dropAt_lt (d := n + 1) hk (by omega : q < n + 1 - 1)
          rw [he, he]
          exact hle q' hq'
    · rw [if_neg hin]
      rw [hdom0 i hi _ k hk]
      · simp
      · by_contra hc
        push Not at hc
        exact hin (hF.all (by omega) i hi hc)

end Verif.HVD
