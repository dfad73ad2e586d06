import Verif.HVD.Second
import Verif.NDS.Fronts
import Verif.HV.Correct

/-!
# Correctness of the projection, the recursive gradient and the 2-D gradient
-/

namespace Verif.HVD

open Verif.HV Verif.HV.Spec Verif.NDS

/-! ### Selections -/

theorem sel_eq_map {K : Type*} [Zero K] {P : List (ℕ → K)} {idx : List ℕ} (h : ∀ i ∈ idx, i < P.length) :
    sel P idx = idx.map (ptOf P) := by
  induction idx with
  | nil => rfl
  | cons i idx ih =>
    have hi := h i List.mem_cons_self
    have e := ih fun j hj => h j (List.mem_cons_of_mem _ hj)
    unfold sel at e ⊢
    rw [List.filterMap_cons, List.getElem?_eq_getElem hi, e, List.map_cons, ptOf_eq hi]

theorem sel_nat_eq_map {a idx : List ℕ} (h : ∀ i ∈ idx, i < a.length) :
    sel a idx = idx.map (fun i => a.getD i 0) := by
  induction idx with
  | nil => rfl
  | cons i idx ih =>
    have hi := h i List.mem_cons_self
    have e := ih fun j hj => h j (List.mem_cons_of_mem _ hj)
    unfold sel at e ⊢
    rw [List.filterMap_cons, List.getElem?_eq_getElem hi, e, List.map_cons,
      List.getD_eq_getElem?_getD, List.getElem?_eq_getElem hi]
    rfl

theorem ptOf_map {K : Type*} [Zero K] {ids : List ℕ} {g : ℕ → ℕ → K} {s : ℕ} (hs : s < ids.length) :
    ptOf (ids.map g) s = g ids[s] := by
  rw [ptOf_eq (by simpa using hs), List.getElem_map]

/-! ### Front 0 -/

section front

variable {K : Type*} [Field K] [LinearOrder K]

theorem dominates_row {d : ℕ} {p q : ℕ → K} : Dominates (row d p) (row d q) ↔ Dom d p q := by
  unfold Dominates Dom row
  simp only [List.length_map, List.length_range, List.getElem_map, List.getElem_range, true_and]
  constructor
  · rintro ⟨h1, m, hm, -, h⟩
    exact ⟨fun k hk => h1 k hk hk, m, hm, h⟩
  · rintro ⟨h1, m, hm, h⟩
    exact ⟨fun k hk _ => h1 k hk, m, hm, hm, h⟩

theorem depthBound_mono {D D' n n' : ℕ} (hD : D ≤ D') (hn : n ≤ n') : depthBound D n ≤ depthBound D' n' := by
  unfold depthBound
  have h : Nat.log 2 n ≤ Nat.log 2 n' := Nat.log_mono_right hn
  have : (D - 1) * (Nat.log 2 n + 2) ≤ (D' - 1) * (Nat.log 2 n' + 2) :=
    Nat.mul_le_mul (by omega) (by omega)
  omega

/-- What front 0 is: a set of positions of points that nobody dominates, such that every point is
weakly dominated by one of them; with two or more objectives, all such positions. -/
structure IsFront0 (d : ℕ) (P : List (ℕ → K)) (pi : List ℕ) : Prop where
  nodup : pi.Nodup
  valid : ∀ i ∈ pi, i < P.length
  minimal : ∀ i ∈ pi, ∀ j < P.length, ¬ Dom d (ptOf P j) (ptOf P i)
  covers : ∀ j < P.length, ∃ i ∈ pi, ∀ k < d, ptOf P i k ≤ ptOf P j k
  all : 2 ≤ d → ∀ i < P.length, (∀ j < P.length, ¬ Dom d (ptOf P j) (ptOf P i)) → i ∈ pi
  first : (∀ j < P.length, ¬ Dom d (ptOf P j) (ptOf P 0)) → 0 ∈ pi

theorem IsFront0.mem_iff {d : ℕ} {P : List (ℕ → K)} {pi : List ℕ} (h : IsFront0 d P pi) (hd : 2 ≤ d)
    {i : ℕ} (hi : i < P.length) : i ∈ pi ↔ ∀ j < P.length, ¬ Dom d (ptOf P j) (ptOf P i) :=
  ⟨h.minimal i, h.all hd i hi⟩

theorem find_frontsOf {lab : List ℕ} (h : 0 ∈ lab) :
    ((frontsOf lab).find? (fun g => g.1 = 0)).map Prod.snd =
      some ((List.range lab.length).filter (fun i => lab[i]? = some 0)) := by
  have hex : ∃ x ∈ frontsOf lab, (decide (x.1 = 0)) = true :=
    ⟨_, mem_frontsOf.mpr ⟨h, rfl⟩, by simp⟩
  cases hf : (frontsOf lab).find? (fun g => g.1 = 0) with
  | none =>
    rw [List.find?_eq_none] at hf
    obtain ⟨x, hx, hx0⟩ := hex
    exact absurd hx0 (hf x hx)
  | some g =>
    have h1 := List.mem_of_find?_eq_some hf
    have h2 := List.find?_some hf
    obtain ⟨k, ids⟩ := g
    have hk : k = 0 := by simpa using h2
    subst hk
    rw [(mem_frontsOf.mp h1).2]
    rfl

theorem front0_spec {d fuel : ℕ} {P : List (ℕ → K)} (hd : 1 ≤ d) (hP : P ≠ [])
    (hf : depthBound d P.length ≤ fuel) : ∃ pi, front0 fuel d P = some pi ∧ IsFront0 d P pi := by
  unfold front0
  by_cases h1 : d = 1
  · subst h1
    rw [if_pos rfl]
    obtain ⟨m, hm⟩ : ∃ m, (P.map (fun p => p 0)).min? = some m := by
      cases hc : (P.map (fun p => p 0)).min? with
      | none => rw [List.min?_eq_none_iff] at hc; simp at hc; exact absurd hc hP
      | some m => exact ⟨m, rfl⟩
    have hm2 := List.min?_eq_some_iff.mp hm
    simp only [hm]
    refine ⟨_, rfl, ?_⟩
    have hlt : (P.map (fun p => p 0)).idxOf m < P.length := by
      have := List.idxOf_lt_length_iff.mpr hm2.1
      simpa using this
    have hval : ptOf P ((P.map (fun p => p 0)).idxOf m) 0 = m := by
      rw [ptOf_eq hlt]
      have := List.getElem_idxOf (List.idxOf_lt_length_iff.mpr hm2.1)
      rw [List.getElem_map] at this
      exact this
    have hmin : ∀ j < P.length, m ≤ ptOf P j 0 := fun j hj =>
      hm2.2 _ (List.mem_map.mpr ⟨_, mem_iff_ptOf.mpr ⟨j, hj, rfl⟩, rfl⟩)
    refine ⟨by simp, by simpa using hlt, ?_, ?_, fun h => absurd h (by norm_num), ?_⟩
    · intro i hi j hj hdom
      rw [List.mem_singleton] at hi
      subst hi
      obtain ⟨-, k, hk, hlt'⟩ := hdom
      have : k = 0 := by omega
      subst this
      rw [hval] at hlt'
      exact absurd (hmin j hj) (not_le.mpr hlt')
    · intro j hj
      refine ⟨_, List.mem_singleton_self _, fun k hk => ?_⟩
      have : k = 0 := by omega
      subst this
      rw [hval]
      exact hmin j hj
    · intro h
      have hpos : 0 < P.length := List.length_pos_iff.mpr hP
      have h0 : ptOf P 0 0 = m := by
        refine le_antisymm (not_lt.mp fun hc => h _ hlt ⟨fun k hk => ?_, 0, by omega, by rw [hval]; exact hc⟩)
          (hmin 0 hpos)
        obtain rfl : k = 0 := by omega
        rw [hval]
        exact hc.le
      rw [List.mem_singleton]
      obtain ⟨p, P', rfl⟩ := List.exists_cons_of_ne_nil hP
      rw [← h0]
      simp [ptOf]
  · rw [if_neg h1]
    obtain ⟨lab, hr, hs⟩ := @nonDominSort_spec K _ ⟨0⟩ d fuel (P.map (row d)) (by simpa using hP)
      (by omega) (by
        intro y hy
        obtain ⟨p, -, rfl⟩ := List.mem_map.mp hy
        simp [row]) (by simpa using hf)
    have hlen : lab.length = P.length := by simpa using hr.1
    have hdom : ∀ {i j : ℕ} (hi : i < P.length) (hj : j < P.length),
        Dominates ((P.map (row d))[j]'(by simpa using hj)) ((P.map (row d))[i]'(by simpa using hi)) ↔
          Dom d (ptOf P j) (ptOf P i) := by
      intro i j hi hj
      rw [List.getElem_map, List.getElem_map, dominates_row, ptOf_eq hi, ptOf_eq hj]
    have hzero : ∀ i (hi : i < P.length), lab[i]? = some 0 ↔ ∀ j < P.length, ¬ Dom d (ptOf P j) (ptOf P i) := by
      intro i hi
      have hi' : i < lab.length := by omega
      rw [List.getElem?_eq_getElem hi', Option.some_inj]
      constructor
      · intro h0 j hj hd'
        have := hr.lt_of_dominates hi' (by omega : j < lab.length) (by simpa using hi) (by simpa using hj)
          ((hdom hi hj).mpr hd')
        omega
      · intro h
        by_contra h0
        obtain ⟨k, hk⟩ := Nat.exists_eq_succ_of_ne_zero h0
        obtain ⟨j, hj, hj', hd', -⟩ := hr.exists_dominator hi' (by simpa using hi) hk
        exact h j (by simpa using hj') ((hdom hi (by simpa using hj')).mp hd')
    -- descending to a minimal point
    have hcov : ∀ n, ∀ j (hj : j < lab.length), lab[j] = n →
        ∃ i < P.length, lab[i]? = some 0 ∧ ∀ k < d, ptOf P i k ≤ ptOf P j k := by
      intro n
      induction n with
      | zero =>
        intro j hj h0
        exact ⟨j, by omega, by rw [List.getElem?_eq_getElem hj, h0], fun _ _ => le_rfl⟩
      | succ n ih =>
        intro j hj hn
        obtain ⟨l, hl, hl', hd', hln⟩ := hr.exists_dominator hj (by simpa using (by omega : j < P.length)) hn
        obtain ⟨i, hi, hi0, hle⟩ := ih l hl hln
        have hd2 := (hdom (by omega) (by omega)).mp hd'
        exact ⟨i, hi, hi0, fun k hk => (hle k hk).trans (hd2.1 k hk)⟩
    have h0mem : 0 ∈ lab := by
      have hpos : 0 < P.length := List.length_pos_iff.mpr hP
      obtain ⟨i, hi, hi0, -⟩ := hcov _ 0 (by omega) rfl
      exact List.mem_of_getElem? hi0
    dsimp only
    rw [hs]
    refine ⟨_, find_frontsOf h0mem, ?_⟩
    have hmem : ∀ i, i ∈ (List.range lab.length).filter (fun i => lab[i]? = some 0) ↔
        i < P.length ∧ lab[i]? = some 0 := by
      intro i
      rw [List.mem_filter, List.mem_range, hlen, decide_eq_true_eq]
    refine ⟨(List.nodup_range).filter _, fun i hi => ((hmem i).mp hi).1, ?_, ?_, ?_,
      fun h => (hmem 0).mpr ⟨List.length_pos_iff.mpr hP, (hzero 0 (List.length_pos_iff.mpr hP)).mpr h⟩⟩
    · intro i hi j hj
      obtain ⟨hi1, hi2⟩ := (hmem i).mp hi
      exact (hzero i hi1).mp hi2 j hj
    · intro j hj
      obtain ⟨i, hi, hi0, hle⟩ := hcov _ j (by omega) rfl
      exact ⟨i, (hmem i).mpr ⟨hi, hi0⟩, hle⟩
    · intro _ i hi h
      exact (hmem i).mpr ⟨hi, (hzero i hi).mpr h⟩

/-! ### The projection -/

/-- What `_project` returns. -/
structure IsProjection (d k i : ℕ) (P : List (ℕ → K)) (ref : ℕ → K) (pr : Projection K) : Prop where
  y : pr.y = dropAt k (ptOf P i)
  ref : pr.ref = dropAt k ref
  front : pr.front = pr.idx.map (fun j => dropAt k (ptOf P j))
  nodup : pr.idx.Nodup
  valid : ∀ j ∈ pr.idx, j < P.length ∧ ptOf P j k < ptOf P i k
  minimal : ∀ j ∈ pr.idx, ∀ l < P.length, ptOf P l k < ptOf P i k →
    ¬ Dom (d - 1) (dropAt k (ptOf P l)) (dropAt k (ptOf P j))
  covers : ∀ j < P.length, ptOf P j k < ptOf P i k →
    ∃ l ∈ pr.idx, ∀ q < d - 1, dropAt k (ptOf P l) q ≤ dropAt k (ptOf P j) q
  all : 3 ≤ d → ∀ j < P.length, ptOf P j k < ptOf P i k → (∀ l < P.length, ptOf P l k < ptOf P i k →
    ¬ Dom (d - 1) (dropAt k (ptOf P l)) (dropAt k (ptOf P j))) → j ∈ pr.idx

theorem project_spec {d fuel k i : ℕ} {P : List (ℕ → K)} {ref : ℕ → K} (hd : 2 ≤ d) (hi : i < P.length)
    (hf : depthBound d P.length ≤ fuel) :
    ∃ pr, project fuel d k i P ref = some pr ∧ IsProjection d k i P ref pr := by
  unfold project
  rw [List.getElem?_eq_getElem hi]
  simp only
  set idx := (List.range P.length).filter (fun j => P[j]?.any (fun p => p k < P[i] k)) with hidx
  have hmem : ∀ j, j ∈ idx ↔ j < P.length ∧ ptOf P j k < ptOf P i k := by
    intro j
    rw [hidx, List.mem_filter, List.mem_range]
    refine and_congr_right fun hj => ?_
    rw [List.getElem?_eq_getElem hj, ptOf_eq hj, ptOf_eq hi]
    simp
  have hvalid : ∀ j ∈ idx, j < P.length := fun j hj => ((hmem j).mp hj).1
  have hfr : (sel P idx).map (dropAt k) = idx.map (fun j => dropAt k (ptOf P j)) := by
    rw [sel_eq_map hvalid, List.map_map]; rfl
  have hnd : idx.Nodup := (List.nodup_range).filter _
  rw [hfr]
  by_cases hnil : idx = []
  · rw [if_pos (by rw [hnil]; rfl)]
    have hno : ∀ j < P.length, ptOf P j k < ptOf P i k → False := by
      intro j hj hlt
      have := (hmem j).mpr ⟨hj, hlt⟩
      rw [hnil] at this
      simp at this
    exact ⟨_, rfl, ⟨by simp [ptOf_eq hi], rfl, rfl, by simp, by simp, by simp,
      fun j hj hlt => (hno j hj hlt).elim, fun _ j hj hlt => (hno j hj hlt).elim⟩⟩
  · rw [if_neg (by simpa using hnil)]
    set front := idx.map (fun j => dropAt k (ptOf P j)) with hfront
    have hlen : front.length = idx.length := by simp [hfront]
    have hle : idx.length ≤ P.length := by
      have := List.length_filter_le (fun j => P[j]?.any (fun p => p k < P[i] k)) (List.range P.length)
      rwa [List.length_range] at this
    obtain ⟨pi, hpi, hF⟩ := front0_spec (d := d - 1) (fuel := fuel) (P := front) (by omega)
      (by simpa [hfront] using hnil)
      ((depthBound_mono (by omega) (by omega)).trans hf)
    simp only [hpi]
    refine ⟨_, rfl, ?_⟩
    have hpi_valid : ∀ s ∈ pi, s < idx.length := fun s hs => hlen ▸ hF.valid s hs
    have hselidx : sel idx pi = pi.map (fun s => idx.getD s 0) := sel_nat_eq_map hpi_valid
    have hpt : ∀ s < idx.length, ptOf front s = dropAt k (ptOf P (idx.getD s 0)) := by
      intro s hs
      rw [hfront, ptOf_map hs, List.getD_eq_getElem?_getD, List.getElem?_eq_getElem hs]
      rfl
    have hget : ∀ s < idx.length, idx.getD s 0 ∈ idx := by
      intro s hs
      rw [List.getD_eq_getElem?_getD, List.getElem?_eq_getElem hs]
      exact List.getElem_mem hs
    have hex : ∀ j ∈ idx, ∃ s < idx.length, idx.getD s 0 = j := by
      intro j hj
      obtain ⟨s, hs, rfl⟩ := List.getElem_of_mem hj
      exact ⟨s, hs, by rw [List.getD_eq_getElem?_getD, List.getElem?_eq_getElem hs]; rfl⟩
    refine ⟨by simp [ptOf_eq hi], rfl, ?_, ?_, ?_, ?_, ?_, ?_⟩
    · simp only
      rw [sel_eq_map hF.valid, hselidx, List.map_map]
      apply List.map_congr_left
      intro s hs
      exact hpt s (hpi_valid s hs)
    · simp only
      rw [hselidx]
      apply List.Nodup.map_on _ hF.nodup
      intro s hs t ht hst
      rw [List.getD_eq_getElem?_getD, List.getD_eq_getElem?_getD,
        List.getElem?_eq_getElem (hpi_valid s hs), List.getElem?_eq_getElem (hpi_valid t ht)] at hst
      exact (List.Nodup.getElem_inj_iff hnd).mp hst
    · intro j hj
      simp only [hselidx, List.mem_map] at hj
      obtain ⟨s, hs, rfl⟩ := hj
      exact (hmem _).mp (hget s (hpi_valid s hs))
    · intro j hj l hl hlt
      simp only [hselidx, List.mem_map] at hj
      obtain ⟨s, hs, rfl⟩ := hj
      obtain ⟨t, ht, rfl⟩ := hex l ((hmem l).mpr ⟨hl, hlt⟩)
      rw [← hpt s (hpi_valid s hs), ← hpt t ht]
      exact hF.minimal s hs t (by omega)
    · intro j hj hlt
      obtain ⟨t, ht, rfl⟩ := hex j ((hmem j).mpr ⟨hj, hlt⟩)
      obtain ⟨s, hs, hle'⟩ := hF.covers t (by omega)
      refine ⟨idx.getD s 0, ?_, ?_⟩
      · simp only [hselidx, List.mem_map]; exact ⟨s, hs, rfl⟩
      · rw [← hpt s (hpi_valid s hs), ← hpt t ht]; exact hle'
    · intro h3 j hj hlt hmin
      obtain ⟨t, ht, rfl⟩ := hex j ((hmem j).mpr ⟨hj, hlt⟩)
      simp only [hselidx, List.mem_map]
      refine ⟨t, hF.all (by omega) t (by omega) fun s hs => ?_, rfl⟩
      rw [hpt t ht, hpt s (by omega)]
      obtain ⟨a, b⟩ := (hmem _).mp (hget s (by omega))
      exact hmin _ a b

end front

/-! ### The recursive case -/

/-- The hypervolume is exact on all subsets of the projections of `P` (positions `ids`) along `k`. -/
def ExactOn (argsort : List ℝ → List ℕ) (d : ℕ) (P : List (ℕ → ℝ)) (ref : ℕ → ℝ) : Prop :=
  ∀ k < d, ∀ ids : List ℕ, ids.Nodup → (∀ i ∈ ids, i < P.length) →
    hypervolume argsort (d - 1) (ids.map (fun j => dropAt k (ptOf P j))) (dropAt k ref) =
      some (hvol (d - 1) (ids.map (fun j => dropAt k (ptOf P j))) (dropAt k ref))

theorem dYEntry_spec {argsort : List ℝ → List ℕ} {d fuel k i : ℕ} {P : List (ℕ → ℝ)} {ref : ℕ → ℝ}
    (hd : 2 ≤ d) (hi : i < P.length) (hk : k < d) (hf : depthBound d P.length ≤ fuel)
    (hE : ExactOn argsort d P ref) :
    dYEntry argsort fuel d P ref i k =
      some (-hvi (d - 1) (dropAt k (ptOf P i)) (below P i k) (dropAt k ref)) := by
  obtain ⟨pr, h1, h2⟩ := project_spec (fuel := fuel) (k := k) (ref := ref) hd hi hf
  unfold dYEntry
  rw [h1]
  simp only
  have hni : i ∉ pr.idx := fun h => lt_irrefl _ (h2.valid i h).2
  have e1 := hE k hk pr.idx h2.nodup fun j hj => (h2.valid j hj).1
  have e2 := hE k hk (i :: pr.idx) (List.nodup_cons.mpr ⟨hni, h2.nodup⟩) (by
    intro j hj
    rcases List.mem_cons.mp hj with rfl | hj
    · exact hi
    · exact (h2.valid j hj).1)
  rw [List.map_cons] at e2
  unfold hypervolumeImprovement
  rw [h2.y, h2.front, h2.ref, e2]
  simp only
  rw [e1, hvol_cons]
  simp only [Option.map_some, Option.some_inj, neg_one_mul, neg_inj, add_sub_cancel_left]
  apply hvi_congr (fun _ _ => rfl) (fun _ _ => rfl)
  · intro p hp
    obtain ⟨j, hj, rfl⟩ := List.mem_map.mp hp
    exact ⟨_, mem_below.mpr ⟨j, (h2.valid j hj).1, (h2.valid j hj).2, rfl⟩, fun _ _ => le_rfl⟩
  · intro p hp
    obtain ⟨j, hj, hlt, rfl⟩ := mem_below.mp hp
    obtain ⟨l, hl, hle⟩ := h2.covers j hj hlt
    exact ⟨_, List.mem_map.mpr ⟨l, hl, rfl⟩, hle⟩

theorem mapM_some_map {α β : Type*} {f : α → Option β} {g : α → β} {l : List α} (h : ∀ a ∈ l, f a = some (g a)) :
    l.mapM f = some (l.map g) := by
  induction l with
  | nil => rfl
  | cons a l ih =>
    rw [List.mapM_cons, h a List.mem_cons_self, ih fun b hb => h b (List.mem_cons_of_mem _ hb)]
    rfl

theorem pt_map_range {d k : ℕ} {g : ℕ → ℝ} (hk : k < d) : pt ((List.range d).map g) k = g k := by
  simp [pt, List.getD_eq_getElem?_getD, hk]

theorem hypervolumeDY_spec {argsort : List ℝ → List ℕ} {d fuel : ℕ} {P : List (ℕ → ℝ)} {ref : ℕ → ℝ}
    (hd : 3 ≤ d) (hf : depthBound d P.length ≤ fuel) (hE : ExactOn argsort d P ref) :
    ∃ g, hypervolumeDY argsort fuel d P ref = some g ∧ g.length = P.length ∧
      ∀ i < P.length, ∀ k < d,
        ptOf g i k = -hvi (d - 1) (dropAt k (ptOf P i)) (below P i k) (dropAt k ref) := by
  unfold hypervolumeDY
  rw [if_neg (by omega), if_neg (by omega)]
  have h1 : (List.range P.length).mapM (fun i =>
      ((List.range d).mapM fun k => dYEntry argsort fuel d P ref i k).map pt) =
      some ((List.range P.length).map fun i => pt ((List.range d).map fun k =>
        -hvi (d - 1) (dropAt k (ptOf P i)) (below P i k) (dropAt k ref))) := by
    apply mapM_some_map
    intro i hi
    rw [mapM_some_map (g := fun k => -hvi (d - 1) (dropAt k (ptOf P i)) (below P i k) (dropAt k ref))]
    · rfl
    · intro k hk
      exact dYEntry_spec (by omega) (List.mem_range.mp hi) (List.mem_range.mp hk) hf hE
  refine ⟨_, h1, by simp, fun i hi k hk => ?_⟩
  rw [ptOf_map (by simpa using hi)]
  simp only [List.getElem_range]
  rw [pt_map_range hk]

end Verif.HVD
