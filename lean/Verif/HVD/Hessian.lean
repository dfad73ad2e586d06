import Verif.HVD.Gradient

/-!
# Correctness of the Hessian in the objective space
-/

namespace Verif.HVD

open Verif.HV Verif.HV.Spec Verif.NDS

/-- Entry `[(j, m), (i, k)]` of the Hessian matrix. -/
def entryH {K : Type*} [Zero K] (H : List (List (ℕ → ℕ → K))) (j m i k : ℕ) : K :=
  ((H.getD i []).getD k (fun _ _ => 0)) j m

/-- Exactness of the hypervolume on the projections of the clipped points. -/
def CrossExact (argsort : List ℝ → List ℕ) (n : ℕ) (Y : List (ℕ → ℝ)) (ref : ℕ → ℝ) : Prop :=
  ∀ i < Y.length, ∀ k < n + 2, ∀ ids : List ℕ, ids.Nodup → (∀ j ∈ ids, j < Y.length) →
    ExactOn argsort (n + 1)
      (ids.map (fun j => clip (dropAt k (ptOf Y i)) (dropAt k ref) (dropAt k (ptOf Y j)))) (dropAt k ref)

theorem insertAt_zero {K : Type*} [Zero K] (k : ℕ) : insertAt k (fun _ => (0 : K)) = fun _ => 0 := by
  ext j
  simp [insertAt]

theorem insertAt_self {K : Type*} [Zero K] (k : ℕ) (p : ℕ → K) : insertAt k p k = 0 := by
  simp [insertAt]

theorem ownBlock_eq {K : Type*} [Field K] [LinearOrder K] (argsort : List K → List ℕ) (fuel d k : ℕ)
    (pr : Projection K) (h0 : ∀ pi, front0 fuel (d - 1) (pr.y :: pr.front) = some pi → 0 ∈ pi) :
    ownBlock argsort fuel d k pr =
      (gradientY argsort fuel (d - 1) (pr.y :: pr.front) pr.ref).map
        (fun G => insertAt k (fun j => -1 * ptOf G 0 j)) := by
  unfold ownBlock gradientY
  simp only
  cases hc : front0 fuel (d - 1) (pr.y :: pr.front) with
  | none => rfl
  | some pi =>
    simp only
    cases hypervolumeDY argsort fuel (d - 1) (sel (pr.y :: pr.front) pi) pr.ref with
    | none => rfl
    | some g =>
      simp only [Option.map_some]
      rw [ptOf_range_map (by simp), if_pos (h0 pi hc), if_pos (h0 pi hc)]

/-- The projection of a point that nobody dominates is in front 0 of the projected front. -/
theorem own_mem_front0 {K : Type*} [Field K] [LinearOrder K] {d fuel i k : ℕ} {Y : List (ℕ → K)} {ref : ℕ → K}
    {pr : Projection K} (hp : IsProjection d k i Y ref pr) (hd : 2 ≤ d) (hk : k < d)
    (hmin : ∀ j < Y.length, ¬ Dom d (ptOf Y j) (ptOf Y i))
    (hf : depthBound (d - 1) (pr.y :: pr.front).length ≤ fuel) {pi : List ℕ}
    (h : front0 fuel (d - 1) (pr.y :: pr.front) = some pi) : 0 ∈ pi := by
  obtain ⟨pi', e, hF⟩ := front0_spec (by omega : 1 ≤ d - 1) (by simp) hf
  rw [h, Option.some_inj] at e
  subst e
  refine hF.first fun j hj hdom => ?_
  have h0 : ptOf (pr.y :: pr.front) 0 = dropAt k (ptOf Y i) := by rw [← hp.y]; rfl
  rcases j with _ | s
  · obtain ⟨-, q, -, hlt⟩ := hdom
    exact lt_irrefl _ hlt
  · have hs : s < pr.idx.length := by
      rw [List.length_cons, hp.front, List.length_map] at hj
      omega
    have hj' : ptOf (pr.y :: pr.front) (s + 1) = dropAt k (ptOf Y pr.idx[s]) := by
      rw [hp.front]
      exact ptOf_map hs
    obtain ⟨hv, hlt⟩ := hp.valid _ (List.getElem_mem hs)
    rw [h0, hj'] at hdom
    refine hmin _ hv ⟨fun q hq => ?_, k, hk, hlt⟩
    rcases lt_trichotomy q k with hqk | rfl | hqk
    · have := hdom.1 q (by omega)
      simpa [dropAt, hqk] using this
    · exact hlt.le
    · have := hdom.1 (q - 1) (by omega)
      have h1 : ¬ q - 1 < k := by omega
      have h2 : q - 1 + 1 = q := by omega
      simpa [dropAt, h1, h2] using this

/-- `second` vanishes for a dominated point `i`. -/
theorem second_dominated_right {n : ℕ} {Y : List (ℕ → ℝ)} {ref : ℕ → ℝ} (h : GeneralPosition (n + 2) Y ref)
    {i j k m l : ℕ} (hi : i < Y.length) (hl : l < Y.length) (hk : k < n + 2) (hm : m < n + 2)
    (hd : Dom (n + 2) (ptOf Y l) (ptOf Y i)) : second n Y ref j m i k = 0 := by
  obtain ⟨hne, hlt⟩ := h.dom_lt hi hl hd
  unfold second
  split_ifs with h1 h2 h3
  · rfl
  · apply hvi_eq_zero
    refine ⟨_, List.mem_map.mpr ⟨dropAt k (ptOf Y l), List.mem_filter.mpr
      ⟨mem_below.mpr ⟨l, hl, hlt k hk, rfl⟩, ?_⟩, rfl⟩, ?_⟩
    · rw [dropAt_sIdx h1, decide_eq_true_eq]
      exact hlt m hm
    · intro q hq
      obtain ⟨q', hq', he⟩ := dropAt_lt (d := n + 1) (k := sIdx k m)
        (by have := sIdx_le (n := n) (by omega : k ≤ n + 1) (by omega : m ≤ n + 1) h1; omega)
        (by omega : q < n + 1 - 1)
      obtain ⟨q'', hq'', he'⟩ := dropAt_lt (d := n + 2) hk (by omega : q' < n + 2 - 1)
      rw [he, he, he', he']
      exact (hlt q'' hq'').le
  · rw [neg_eq_zero]
    apply hvi_eq_zero
    refine ⟨_, List.mem_map.mpr ⟨_, List.mem_filter.mpr ⟨List.mem_map.mpr
      ⟨dropAt k (ptOf Y l), mem_below.mpr ⟨l, hl, hlt k hk, rfl⟩, rfl⟩, ?_⟩, rfl⟩, ?_⟩
    · rw [decide_eq_true_eq]
      unfold clip
      rw [dropAt_sIdx h1, dropAt_sIdx h1, max_eq_right (hlt m hm).le]
      exact lt_of_le_of_lt (min_le_left _ _) h3.2
    · intro q hq
      obtain ⟨q', hq', he⟩ := dropAt_lt (d := n + 1) (k := sIdx k m)
        (by have := sIdx_le (n := n) (by omega : k ≤ n + 1) (by omega : m ≤ n + 1) h1; omega)
        (by omega : q < n + 1 - 1)
      obtain ⟨q'', hq'', he'⟩ := dropAt_lt (d := n + 2) hk (by omega : q' < n + 2 - 1)
      rw [he, he]
      unfold clip
      rw [he', he', he', max_eq_right (hlt q'' hq'').le]
      exact min_le_min_right _ (le_max_right _ _)
  · rfl

/-- `second` vanishes if `j` is dominated in the projection along `k`, by a point below `i`. -/
theorem second_proj_dominated {n : ℕ} {Y : List (ℕ → ℝ)} {ref : ℕ → ℝ} (h : GeneralPosition (n + 2) Y ref)
    {i j k m l : ℕ} (hj : j < Y.length) (hl : l < Y.length) (hk : k < n + 2) (hm : m < n + 2)
    (hji : j ≠ i) (hlj : l ≠ j) (hlk : ptOf Y l k < ptOf Y i k)
    (hle : ∀ q < n + 1, dropAt k (ptOf Y l) q ≤ dropAt k (ptOf Y j) q) : second n Y ref j m i k = 0 := by
  unfold second
  rw [if_neg hji]
  split_ifs with h1 h3
  · rfl
  · rw [neg_eq_zero]
    have hsn := sIdx_le (n := n) (by omega : k ≤ n + 1) (by omega : m ≤ n + 1) h1
    apply hvi_eq_zero
    refine ⟨_, List.mem_map.mpr ⟨_, List.mem_filter.mpr ⟨List.mem_map.mpr
      ⟨dropAt k (ptOf Y l), mem_below.mpr ⟨l, hl, hlk, rfl⟩, rfl⟩, ?_⟩, rfl⟩, ?_⟩
    · rw [decide_eq_true_eq]
      unfold clip
      rw [dropAt_sIdx h1, dropAt_sIdx h1]
      refine lt_of_le_of_lt (min_le_left _ _) (max_lt ?_ h3.2)
      have := hle (sIdx k m) (by omega)
      rw [dropAt_sIdx h1, dropAt_sIdx h1] at this
      exact lt_of_le_of_ne this (h.ne hl hj hlj hm)
    · intro q hq
      obtain ⟨q', hq', he⟩ := dropAt_lt (d := n + 1) (k := sIdx k m) (by omega) (by omega : q < n + 1 - 1)
      rw [he, he]
      unfold clip
      exact min_le_min_right _ (max_le_max_right _ (hle q' hq'))
  · rfl

/-- `second` vanishes for a dominated point `j`. -/
theorem second_dominated_left {n : ℕ} {Y : List (ℕ → ℝ)} {ref : ℕ → ℝ} (h : GeneralPosition (n + 2) Y ref)
    {i j k m l : ℕ} (hi : i < Y.length) (hj : j < Y.length) (hl : l < Y.length) (hk : k < n + 2)
    (hm : m < n + 2) (hd : Dom (n + 2) (ptOf Y l) (ptOf Y j)) : second n Y ref j m i k = 0 := by
  by_cases hji : j = i
  · subst hji; exact second_dominated_right h hi hl hk hm hd
  · obtain ⟨hne, hlt⟩ := h.dom_lt hj hl hd
    by_cases hjk : ptOf Y j k < ptOf Y i k
    · refine second_proj_dominated h hj hl hk hm hji hne ((hlt k hk).trans hjk) fun q hq => ?_
      obtain ⟨q', hq', he⟩ := dropAt_lt (d := n + 2) hk (by omega : q < n + 2 - 1)
      rw [he, he]
      exact (hlt q' hq').le
    · unfold second
      rw [if_neg hji, if_neg (c := _ ∧ _) (fun c => hjk c.1), ite_self]

theorem IsProjection.notMem {d k i : ℕ} {P : List (ℕ → ℝ)} {ref : ℕ → ℝ} {pr : Projection ℝ}
    (h : IsProjection d k i P ref pr) : i ∉ pr.idx := fun hi => lt_irrefl _ (h.valid i hi).2

theorem nodup_length_le {l : List ℕ} {N : ℕ} (hn : l.Nodup) (hv : ∀ i ∈ l, i < N) : l.length ≤ N := by
  have := List.Nodup.length_le_card (α := Fin N) (l := l.attach.map fun i => ⟨i.1, hv i.1 i.2⟩)
    ((List.nodup_map_iff_inj_on (List.nodup_attach.mpr hn)).mpr (by
      intro a _ b _ hab
      exact Subtype.ext (Fin.mk.inj_iff.mp hab)))
  simpa using this

/-- The own block. -/
theorem ownBlock_spec {argsort : List ℝ → List ℕ} (ha : IsArgsort argsort) {n fuel i k : ℕ}
    {Y : List (ℕ → ℝ)} {ref : ℕ → ℝ} (h : GeneralPosition (n + 2) Y ref) (hb : Bounded (n + 2) Y ref)
    (hf : depthBound (n + 2) Y.length ≤ fuel) (hi : i < Y.length) (hk : k < n + 2) {pr : Projection ℝ}
    (hmin : ∀ j < Y.length, ¬ Dom (n + 2) (ptOf Y j) (ptOf Y i)) (hp : IsProjection (n + 2) k i Y ref pr) :
    ∃ own, ownBlock argsort fuel (n + 2) k pr = some own ∧
      ∀ m < n + 2, own m = second n Y ref i m i k := by
  have hQ : pr.y :: pr.front = (i :: pr.idx).map (fun j => dropAt k (ptOf Y j)) := by
    rw [hp.y, hp.front]; rfl
  have hnd : (i :: pr.idx).Nodup := List.nodup_cons.mpr ⟨hp.notMem, hp.nodup⟩
  have hv : ∀ j ∈ i :: pr.idx, j < Y.length := by
    intro j hj
    rcases List.mem_cons.mp hj with rfl | hj
    · exact hi
    · exact (hp.valid j hj).1
  obtain ⟨g, hg, hgl, hge⟩ := gradientY_spec ha (n := n) (fuel := fuel) (Y := pr.y :: pr.front) (ref := pr.ref)
    (by simp) (by rw [hQ, hp.ref]; exact h.drop hk hnd hv) (by rw [hQ, hp.ref]; exact hb.drop hk hv)
    ((depthBound_mono (by omega) (by
      rw [hQ, List.length_map]; exact nodup_length_le hnd hv)).trans hf)
  rw [ownBlock_eq _ _ _ _ _ fun pi => own_mem_front0 hp (by omega) hk hmin ((depthBound_mono (by omega) (by
      rw [hQ, List.length_map]; exact nodup_length_le hnd hv)).trans hf)]
  refine ⟨insertAt k (fun j => -1 * ptOf g 0 j), by rw [show n + 2 - 1 = n + 1 from rfl, hg]; rfl, fun m hm => ?_⟩
  by_cases hmk : m = k
  · subst hmk
    rw [insertAt_self, second, if_pos rfl]
  · have hsn := sIdx_le (n := n) (by omega : k ≤ n + 1) (by omega : m ≤ n + 1) hmk
    rw [insertAt_sIdx hmk, hge 0 (by simp) _ (by omega), second, if_neg hmk, if_pos rfl, neg_one_mul, neg_neg]
    have h0 : ptOf (pr.y :: pr.front) 0 = dropAt k (ptOf Y i) := by rw [← hp.y]; rfl
    unfold slope
    rw [h0, dropAt_sIdx hmk, hp.ref]
    apply hvi_congr (fun _ _ => rfl) (fun _ _ => rfl)
    · intro p hp'
      obtain ⟨q, hq, rfl⟩ := List.mem_map.mp hp'
      rw [List.mem_filter, hQ] at hq
      obtain ⟨j, hj, rfl⟩ := List.mem_map.mp hq.1
      have hlt := hq.2
      rw [decide_eq_true_eq, dropAt_sIdx hmk] at hlt
      rcases List.mem_cons.mp hj with rfl | hj
      · exact absurd hlt (lt_irrefl _)
      · refine ⟨_, List.mem_map.mpr ⟨_, List.mem_filter.mpr ⟨mem_below.mpr ⟨j, (hp.valid j hj).1,
          (hp.valid j hj).2, rfl⟩, ?_⟩, rfl⟩, fun _ _ => le_rfl⟩
        rw [decide_eq_true_eq, dropAt_sIdx hmk]
        exact hlt
    · intro p hp'
      obtain ⟨q, hq, rfl⟩ := List.mem_map.mp hp'
      rw [List.mem_filter] at hq
      obtain ⟨j, hj, hjk, rfl⟩ := mem_below.mp hq.1
      have hlt := hq.2
      rw [decide_eq_true_eq, dropAt_sIdx hmk] at hlt
      obtain ⟨l, hl, hle⟩ := hp.covers j hj hjk
      refine ⟨_, List.mem_map.mpr ⟨dropAt k (ptOf Y l), List.mem_filter.mpr ⟨?_, ?_⟩, rfl⟩, ?_⟩
      · rw [hQ]
        exact List.mem_map.mpr ⟨l, List.mem_cons_of_mem _ hl, rfl⟩
      · rw [decide_eq_true_eq]
        refine lt_of_le_of_lt (hle (sIdx k m) (by omega)) ?_
        rw [dropAt_sIdx hmk]
        exact hlt
      · intro q hq
        obtain ⟨q', hq', he⟩ := dropAt_lt (d := n + 1) (k := sIdx k m) (by omega) (by omega : q < n + 1 - 1)
        rw [he, he]
        exact hle q' hq'

/-- The gradient of the clipped front, at the coordinates which are not clipped. -/
theorem cross_out {argsort : List ℝ → List ℕ} {n fuel i k : ℕ}
    {Y : List (ℕ → ℝ)} {ref : ℕ → ℝ} (h : GeneralPosition (n + 2) Y ref)
    (hf : depthBound (n + 2) Y.length ≤ fuel) (hE : 2 ≤ n → CrossExact argsort n Y ref)
    (hi : i < Y.length) (hk : k < n + 2) (hni : ∀ j < Y.length, ¬ Dom (n + 2) (ptOf Y j) (ptOf Y i))
    {pr : Projection ℝ} (hp : IsProjection (n + 2) k i Y ref pr) :
    ∃ out, hypervolumeDY argsort fuel (n + 1) (pr.front.map (clip pr.y pr.ref)) pr.ref = some out ∧
      ∀ s < pr.idx.length, ∀ m < n + 1, pr.y m < ptOf pr.front s m →
        ptOf out s m = -hvi n (dropAt m (clip pr.y pr.ref (ptOf pr.front s)))
          (below (pr.front.map (clip pr.y pr.ref)) s m) (dropAt m pr.ref) := by
  have hP : pr.front.map (clip pr.y pr.ref) =
      pr.idx.map (fun j => clip (dropAt k (ptOf Y i)) (dropAt k ref) (dropAt k (ptOf Y j))) := by
    rw [hp.front, List.map_map, hp.y, hp.ref]; rfl
  have hpt : ∀ s (hs : s < pr.idx.length), ptOf pr.front s = dropAt k (ptOf Y pr.idx[s]) := by
    intro s hs
    rw [hp.front, ptOf_map hs]
  have hclip : ∀ s < pr.idx.length, ptOf (pr.front.map (clip pr.y pr.ref)) s =
      clip pr.y pr.ref (ptOf pr.front s) := by
    intro s hs
    rw [hP, ptOf_map hs, hpt s hs, hp.y, hp.ref]
  have hlen : (pr.front.map (clip pr.y pr.ref)).length = pr.idx.length := by rw [hP, List.length_map]
  have hlenY : pr.idx.length ≤ Y.length := nodup_length_le hp.nodup fun j hj => (hp.valid j hj).1
  have hltr : ∀ j < Y.length, ∀ q < n + 1, dropAt k (ptOf Y j) q < dropAt k ref q := by
    intro j hj q hq
    obtain ⟨q', hq', he⟩ := dropAt_lt (d := n + 2) hk (by omega : q < n + 2 - 1)
    rw [he, he]
    exact h.lt_ref hj hq'
  have hne : ∀ j < Y.length, ∀ l < Y.length, j ≠ l → ∀ q < n + 1, dropAt k (ptOf Y j) q ≠ dropAt k (ptOf Y l) q := by
    intro j hj l hl hjl q hq
    obtain ⟨q', hq', he⟩ := dropAt_lt (d := n + 2) hk (by omega : q < n + 2 - 1)
    rw [he, he]
    exact h.ne hj hl hjl hq'
  have hval : ∀ s (hs : s < pr.idx.length), pr.idx[s] < Y.length := fun s hs =>
    (hp.valid _ (List.getElem_mem hs)).1
  have hinj : ∀ s t (hs : s < pr.idx.length) (ht : t < pr.idx.length), s ≠ t → pr.idx[s] ≠ pr.idx[t] :=
    fun s t hs ht hst e => hst ((List.Nodup.getElem_inj_iff hp.nodup).mp e)
  by_cases h0 : n = 0
  · subst h0
    refine ⟨[pt [-1]], by simp [hypervolumeDY], fun s hs m hm _ => ?_⟩
    have hm0 : m = 0 := by omega
    subst hm0
    have huniq : ∀ t < pr.idx.length, t = s := by
      intro t ht
      by_contra hts
      have hv := hne _ (hval t ht) _ (hval s hs) (hinj t s ht hs hts) 0 (by norm_num)
      rcases lt_or_gt_of_ne hv with hlt | hlt
      · refine hp.minimal _ (List.getElem_mem hs) _ (hval t ht) (hp.valid _ (List.getElem_mem ht)).2
          ⟨fun q hq => ?_, 0, by norm_num, hlt⟩
        have : q = 0 := by omega
        subst this; exact hlt.le
      · refine hp.minimal _ (List.getElem_mem ht) _ (hval s hs) (hp.valid _ (List.getElem_mem hs)).2
          ⟨fun q hq => ?_, 0, by norm_num, hlt⟩
        have : q = 0 := by omega
        subst this; exact hlt.le
    have hs0 : s = 0 := (huniq 0 (by omega)).symm
    have hnil : below (pr.front.map (clip pr.y pr.ref)) s 0 = [] := by
      rw [List.eq_nil_iff_forall_not_mem]
      intro p hp'
      obtain ⟨t, ht, hlt, -⟩ := mem_below.mp hp'
      rw [huniq t (by omega)] at hlt
      exact lt_irrefl _ hlt
    rw [hnil, hvi_zero_nil, hs0]
    simp [ptOf, pt]
  by_cases h1 : n = 1
  · subst h1
    refine ⟨hypervolumeDY2 (pr.front.map (clip pr.y pr.ref)) pr.ref, by simp [hypervolumeDY],
      fun s hs m hm hym => ?_⟩
    rw [← hclip s hs]
    have hcl : ∀ t (ht : t < pr.idx.length), ∀ q < 2, ptOf (pr.front.map (clip pr.y pr.ref)) t q =
        max (dropAt k (ptOf Y pr.idx[t]) q) (dropAt k (ptOf Y i) q) := by
      intro t ht q hq
      rw [hclip t ht, hpt t ht, hp.y, hp.ref]
      unfold clip
      exact min_eq_left (max_le (hltr _ (hval t ht) q hq).le (hltr i hi q hq).le)
    refine hypervolumeDY2_spec ?_ ?_ (by omega) hm ?_
    · intro a ha b hb' hab
      rw [hlen] at ha hb'
      obtain ⟨hab0, hab1⟩ := hab
      rw [hcl a ha 0 (by norm_num), hcl b hb' 0 (by norm_num)] at hab0
      rw [hcl a ha 1 (by norm_num), hcl b hb' 1 (by norm_num)] at hab1
      have g0 : dropAt k (ptOf Y pr.idx[a]) 0 < dropAt k (ptOf Y pr.idx[b]) 0 := by
        by_contra hc
        exact absurd hab0 (not_lt.mpr (max_le_max_right _ (not_lt.mp hc)))
      have g1 : dropAt k (ptOf Y pr.idx[a]) 1 < dropAt k (ptOf Y pr.idx[b]) 1 := by
        by_contra hc
        exact absurd hab1 (not_lt.mpr (max_le_max_right _ (not_lt.mp hc)))
      refine hp.minimal _ (List.getElem_mem hb') _ (hval a ha) (hp.valid _ (List.getElem_mem ha)).2
        ⟨fun q hq => ?_, 0, by norm_num, g0⟩
      have hq2 : q < 2 := by omega
      interval_cases q
      · exact g0.le
      · exact g1.le
    · intro a ha q hq
      rw [hlen] at ha
      rw [hcl a ha q hq, hp.ref]
      exact max_le (hltr _ (hval a ha) q hq).le (hltr i hi q hq).le
    · intro t ht hts
      rw [hlen] at ht
      rw [hcl t ht m hm, hcl s hs m hm]
      rw [hp.y, hpt s hs] at hym
      rw [max_eq_left hym.le]
      rcases le_total (dropAt k (ptOf Y pr.idx[t]) m) (dropAt k (ptOf Y i) m) with hle | hle
      · rw [max_eq_right hle]; exact hym.ne
      · rw [max_eq_left hle]; exact hne _ (hval t ht) _ (hval s hs) (hinj t s ht hs hts) m hm
  · have hex := hE (by omega) i hi k hk pr.idx hp.nodup fun j hj => (hp.valid j hj).1
    rw [← hP, ← hp.ref] at hex
    obtain ⟨out, ho, hol, hoe⟩ := hypervolumeDY_spec (fuel := fuel) (by omega : 3 ≤ n + 1)
      ((depthBound_mono (by omega) (by omega)).trans hf) hex
    refine ⟨out, ho, fun s hs m hm _ => ?_⟩
    rw [hoe s (by omega) m hm, hclip s hs]
    rfl

/-- `HVdY2` holds the second derivatives. -/
theorem hessianY_spec {argsort : List ℝ → List ℕ} (ha : IsArgsort argsort) {n fuel : ℕ}
    {Y : List (ℕ → ℝ)} {ref : ℕ → ℝ} (hY : Y ≠ []) (h : GeneralPosition (n + 2) Y ref)
    (hb : Bounded (n + 2) Y ref) (hf : depthBound (n + 2) Y.length ≤ fuel)
    (hE : 2 ≤ n → CrossExact argsort n Y ref) :
    ∃ H, hessianY argsort fuel (n + 2) Y ref = some H ∧
      ∀ i < Y.length, ∀ k < n + 2, ∀ j < Y.length, ∀ m < n + 2,
        entryH H j m i k = second n Y ref j m i k := by
  obtain ⟨nd, hnd, hF⟩ := front0_spec (d := n + 2) (by omega) hY hf
  unfold hessianY
  rw [hnd]
  simp only
  have hcol : ∀ i < Y.length, ∀ k < n + 2, ∃ c, hessianColumn argsort fuel (n + 2) Y ref nd i k = some c ∧
      ∀ j < Y.length, ∀ m < n + 2, c j m = second n Y ref j m i k := by
    intro i hi k hk
    unfold hessianColumn
    by_cases hin : i ∈ nd
    swap
    · rw [if_pos hin]
      refine ⟨_, rfl, fun j hj m hm => ?_⟩
      have : ∃ l < Y.length, Dom (n + 2) (ptOf Y l) (ptOf Y i) := by
        by_contra hc
        push Not at hc
        exact hin (hF.all (by omega) i hi hc)
      obtain ⟨l, hl, hd⟩ := this
      exact (second_dominated_right h hi hl hk hm hd).symm
    · rw [if_neg (not_not.mpr hin)]
      obtain ⟨pr, hpr, hp⟩ := project_spec (fuel := fuel) (k := k) (ref := ref) (by omega : 2 ≤ n + 2) hi hf
      obtain ⟨own, hown, howne⟩ := ownBlock_spec ha h hb hf hi hk (hF.minimal i hin) hp
      obtain ⟨out, hout, houte⟩ := cross_out (argsort := argsort) (fuel := fuel) h hf hE hi hk
        (hF.minimal i hin) hp
      rw [hpr]
      simp only
      rw [hown]
      simp only [crossBlock]
      rw [show n + 2 - 1 = n + 1 from rfl, hout]
      simp only
      refine ⟨_, rfl, fun j hj m hm => ?_⟩
      by_cases hjp : j ∈ pr.idx
      · rw [if_pos hjp]
        have hs : pr.idx.idxOf j < pr.idx.length := List.idxOf_lt_length_iff.mpr hjp
        set s := pr.idx.idxOf j with hsdef
        have hsj : pr.idx[s] = j := List.getElem_idxOf hs
        have hfl : pr.front.length = pr.idx.length := by rw [hp.front, List.length_map]
        have hjk := (hp.valid j hjp).2
        have hji : j ≠ i := by rintro rfl; exact lt_irrefl _ hjk
        have hfs : ptOf pr.front s = dropAt k (ptOf Y j) := by
          rw [hp.front, ptOf_map hs, hsj]
        change ptOf (List.map _ (List.range pr.front.length)) s m = _
        rw [ptOf_range_map (by omega)]
        by_cases hmk : m = k
        · subst hmk
          rw [insertAt_self, second, if_pos rfl]
        · have hsn := sIdx_le (n := n) (by omega : k ≤ n + 1) (by omega : m ≤ n + 1) hmk
          rw [insertAt_sIdx hmk]
          have e1 : pr.front.getD s (fun _ => 0) (sIdx k m) = ptOf Y j m := by
            change ptOf pr.front s (sIdx k m) = _
            rw [hfs, dropAt_sIdx hmk]
          have e2 : pr.y (sIdx k m) = ptOf Y i m := by rw [hp.y, dropAt_sIdx hmk]
          rw [e1, e2, second, if_neg hmk, if_neg hji]
          by_cases hlt : ptOf Y j m < ptOf Y i m
          · rw [if_pos hlt, if_neg (fun c => absurd c.2 (not_lt.mpr hlt.le))]
          · have him : ptOf Y i m < ptOf Y j m := lt_of_le_of_ne (not_lt.mp hlt) (h.ne hi hj (Ne.symm hji) hm)
            rw [if_neg hlt, if_pos ⟨hjk, him⟩]
            change ptOf out s (sIdx k m) = _
            rw [houte s hs _ (by omega) (by rw [e2, hfs, dropAt_sIdx hmk]; exact him), hfs, hp.y, hp.ref]
            congr 1
            have hcm : ∀ l < Y.length, clip (dropAt k (ptOf Y i)) (dropAt k ref) (dropAt k (ptOf Y l)) (sIdx k m) =
                max (ptOf Y l m) (ptOf Y i m) := by
              intro l hl
              unfold clip
              rw [dropAt_sIdx hmk, dropAt_sIdx hmk, dropAt_sIdx hmk]
              exact min_eq_left (max_le (h.lt_ref hl hm).le (h.lt_ref hi hm).le)
            have hfc : ∀ t (ht : t < pr.idx.length),
                ptOf (pr.front.map (clip (dropAt k (ptOf Y i)) (dropAt k ref))) t =
                  clip (dropAt k (ptOf Y i)) (dropAt k ref) (dropAt k (ptOf Y pr.idx[t])) := by
              intro t ht
              rw [hp.front, List.map_map, ptOf_map ht]
              rfl
            have hvl : ∀ t (ht : t < pr.idx.length), pr.idx[t] < Y.length := fun t ht =>
              (hp.valid _ (List.getElem_mem ht)).1
            apply hvi_congr (fun _ _ => rfl) (fun _ _ => rfl)
            · intro p hp'
              obtain ⟨t, ht, hltt, rfl⟩ := mem_below.mp hp'
              rw [List.length_map, hfl] at ht
              rw [hfc t ht, hfc s hs, hsj, hcm j hj, hcm _ (hvl t ht), max_eq_left him.le] at hltt
              rw [hfc t ht]
              refine ⟨_, List.mem_map.mpr ⟨_, List.mem_filter.mpr ⟨List.mem_map.mpr ⟨_, mem_below.mpr
                ⟨_, hvl t ht, (hp.valid _ (List.getElem_mem ht)).2, rfl⟩, rfl⟩, ?_⟩, rfl⟩, fun _ _ => le_rfl⟩
              rw [hcm _ (hvl t ht), decide_eq_true_eq]
              exact hltt
            · intro p hp'
              obtain ⟨c, hc, rfl⟩ := List.mem_map.mp hp'
              rw [List.mem_filter, decide_eq_true_eq] at hc
              obtain ⟨hc1, hc2⟩ := hc
              obtain ⟨q, hq, rfl⟩ := List.mem_map.mp hc1
              obtain ⟨l, hl, hlk, rfl⟩ := mem_below.mp hq
              obtain ⟨l', hl', hle⟩ := hp.covers l hl hlk
              obtain ⟨t, ht, rfl⟩ := List.getElem_of_mem hl'
              have hcle : ∀ q < n + 1, clip (dropAt k (ptOf Y i)) (dropAt k ref) (dropAt k (ptOf Y pr.idx[t])) q ≤
                  clip (dropAt k (ptOf Y i)) (dropAt k ref) (dropAt k (ptOf Y l)) q := fun q hq =>
                min_le_min_right _ (max_le_max_right _ (hle q hq))
              refine ⟨_, mem_below.mpr ⟨t, by rw [List.length_map, hfl]; exact ht, ?_, rfl⟩, ?_⟩
              · rw [hfc t ht, hfc s hs, hsj, hcm j hj, max_eq_left him.le]
                exact lt_of_le_of_lt (hcle _ (by omega)) hc2
              · intro q hq
                obtain ⟨q', hq', he⟩ := dropAt_lt (d := n + 1) (k := sIdx k m) (by omega) (by omega : q < n + 1 - 1)
                rw [he, he, hfc t ht]
                exact hcle q' hq'
      · rw [if_neg hjp]
        by_cases hji : j = i
        · rw [if_pos hji, hji]
          exact howne m hm
        · rw [if_neg hji]
          symm
          by_cases hjk : ptOf Y j k < ptOf Y i k
          · obtain ⟨l, hl, hle⟩ := hp.covers j hj hjk
            have hlj : l ≠ j := by rintro rfl; exact hjp hl
            exact second_proj_dominated h hj (hp.valid l hl).1 hk hm hji hlj (hp.valid l hl).2 hle
          · unfold second
            rw [if_neg hji, if_neg (c := _ ∧ _) (fun c => hjk c.1), ite_self]
  choose! c hc hce using hcol
  refine ⟨(List.range Y.length).map fun i => (List.range (n + 2)).map fun k => c i k, ?_, ?_⟩
  · apply mapM_some_map
    intro i hi
    apply mapM_some_map
    intro k hk
    exact hc i (List.mem_range.mp hi) k (List.mem_range.mp hk)
  · intro i hi k hk j hj m hm
    unfold entryH
    have : ((((List.range Y.length).map fun i => (List.range (n + 2)).map fun k => c i k).getD i []).getD k
        (fun _ _ => 0)) = c i k := by
      simp [List.getD_eq_getElem?_getD, hi, hk]
    rw [this]
    exact hce i hi k hk j hj m hm

end Verif.HVD
