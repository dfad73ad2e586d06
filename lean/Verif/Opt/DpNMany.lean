import Verif.Opt.DpNSearch
import Verif.Props.RefSetDefined

/-!
# Reference sets of several components during the iterations of `DpN`
-/

set_option linter.unusedSectionVars false

namespace Verif.Props

open Verif.Opt Verif.Ind Verif.HV

variable {K : Type*} [Field K] [LinearOrder K] [IsStrictOrderedRing K]

/-- The entries of `L` with the indices `c`. -/
def atIdx (L : List (ℕ → K)) (c : List ℕ) : List (ℕ → K) := c.map fun i => L.getD i 0

/-- `T` are the targets `M` of the points `Y`, those of each cluster distributed within the cluster, with the smallest
total distance. -/
def WithinClusters (dist : (ℕ → K) → (ℕ → K) → K) (cls : List (List ℕ)) (Y M T : List (ℕ → K)) : Prop :=
  T.length = Y.length ∧ ∀ c ∈ cls, (atIdx T c).Perm (atIdx M c) ∧ ∀ T', T'.Perm (atIdx M c) →
    (List.zipWith dist (atIdx Y c) (atIdx T c)).sum ≤ (List.zipWith dist (atIdx Y c) T').sum

/-- Each point has a closest target of `M`. -/
def ClosestOf (dist : (ℕ → K) → (ℕ → K) → K) (Y M T : List (ℕ → K)) : Prop :=
  T.length = Y.length ∧ ∀ i < Y.length, T.getD i 0 ∈ M ∧ ∀ r ∈ M, dist (Y.getD i 0) (T.getD i 0) ≤ dist (Y.getD i 0) r

/-- The targets `T` of the points `Y` among `M`, if the points are divided into clusters: closest ones with the
generational distance, those of the own cluster with the inverted one. -/
def ClusterTargets (dist : (ℕ → K) → (ℕ → K) → K) (useGd : Bool) (cls : List (List ℕ)) (Y M T : List (ℕ → K)) : Prop :=
  if useGd then ClosestOf dist Y M T else WithinClusters dist cls Y M T

/-- The points `L` are different points of component `k`, each moved some way in the direction of the component. -/
def MovedAlong (ref : List (List (ℕ → K))) (eta : List (ℕ → K)) (k : ℕ) (L : List (ℕ → K)) : Prop :=
  ∃ C dir base, ref[k]? = some C ∧ eta[k]? = some dir ∧ base.Subperm C ∧
    List.Forall₂ (fun p r : ℕ → K => ∃ c : K, 0 ≤ c ∧ p = r + c • dir) L base

/-- The targets `T` of each cluster come from a component of its own and are distributed with the smallest total
distance. -/
def OwnComponents (dist : (ℕ → K) → (ℕ → K) → K) (cls : List (List ℕ)) (ref : List (List (ℕ → K)))
    (eta : List (ℕ → K)) (Y T : List (ℕ → K)) : Prop :=
  T.length = Y.length ∧ ∃ comp : ℕ → ℕ, Set.InjOn comp {v | v < cls.length} ∧ ∀ v c, cls[v]? = some c →
    MovedAlong ref eta (comp v) (atIdx T c) ∧ ∀ T', T'.Perm (atIdx T c) →
      (List.zipWith dist (atIdx Y c) (atIdx T c)).sum ≤ (List.zipWith dist (atIdx Y c) T').sum

/-- The targets `T` in a trial of the line search: closest ones of `M` with the generational distance, with the inverted
one those of each cluster come from some component. -/
def TrialTargets (dist : (ℕ → K) → (ℕ → K) → K) (useGd : Bool) (cls : List (List ℕ)) (ref : List (List (ℕ → K)))
    (eta : List (ℕ → K)) (M Y T : List (ℕ → K)) : Prop :=
  if useGd then ClosestOf dist Y M T else OwnComponents dist cls ref eta Y T

end Verif.Props

namespace Verif.Opt

open Verif.Ind Verif.Util Verif.HV Verif.Props

variable {K : Type*} [Field K] [LinearOrder K] [IsStrictOrderedRing K]

/-- A reference set of several components and clusters of `N` points that can be matched to it. -/
structure ManyRef (S : RefSet (ℕ → K)) (cls : List (List ℕ)) (N : ℕ) : Prop where
  several : S.ref.length ≠ 1
  eta : S.eta.length = S.ref.length
  medoids : S.medoids.length = S.ref.length
  reMatch : S.reMatch = true
  perm : cls.flatten.Perm (List.range N)
  ne : ∀ c ∈ cls, c ≠ []
  few : cls.length ≤ S.ref.length
  size : ∀ c ∈ cls, ∀ C ∈ S.ref, c.length ≤ C.length
  rays : ∀ (k : ℕ) (md : List (ℕ → K)), S.medoids[k]? = some (some md) → MovedAlong S.ref S.eta k md

/-- The targets are stored, those of the cluster `v` in the component `comp v`. -/
structure Placed (S : RefSet (ℕ → K)) (cls : List (List ℕ)) (comp : ℕ → ℕ) (M : List (ℕ → K)) : Prop where
  synced : Synced S
  matched : S.matched = some M
  clusters : S.yIdx = some cls
  inj : Set.InjOn comp {v | v < cls.length}
  idx : ∀ (v : ℕ) (c : List ℕ) (t i : ℕ), cls[v]? = some c → c[t]? = some i → S.medoidsIdx[i]? = some (some (comp v, t))
  len : ∀ (v : ℕ) (c : List ℕ), cls[v]? = some c → ∃ md, S.medoids[comp v]? = some (some md) ∧ md.length = c.length

theorem map_getElem?_eq {L Lc : List (ℕ → K)} {c : List ℕ} (h : c.map (L[·]?) = Lc.map some) : Lc = atIdx L c := by
  have hl : Lc.length = c.length := by simpa using (congrArg List.length h).symm
  refine List.ext_getElem (by simp [atIdx, hl]) fun t h1 h2 => ?_
  have := congrArg (·[t]?) h
  simp only [List.getElem?_map, List.getElem?_eq_getElem h1, List.getElem?_eq_getElem (by omega : t < c.length),
    Option.map_some, Option.some.injEq] at this
  simp [atIdx, List.getD_eq_getElem?_getD, this]

/-- What is stored for a cluster. -/
theorem Placed.stored {S : RefSet (ℕ → K)} {cls : List (List ℕ)} {comp : ℕ → ℕ} {M : List (ℕ → K)} {N : ℕ}
    (h : Placed S cls comp M) (hp : cls.flatten.Perm (List.range N)) (hM : M.length = N) {v : ℕ} {c : List ℕ}
    (hv : cls[v]? = some c) : S.medoids[comp v]? = some (some (atIdx M c)) := by
  obtain ⟨md, h1, h2⟩ := h.len v c hv
  obtain ⟨M', g1, g2, g3, -⟩ := h.synced
  obtain rfl : M = M' := Option.some.inj (h.matched.symm.trans g1)
  rw [h1]
  congr 2
  refine List.ext_getElem (by simp [atIdx, h2]) fun t h3 h4 => ?_
  have ht : t < c.length := by omega
  have hc : c ∈ cls := List.mem_of_getElem? hv
  have hi : c[t] < M.length := by
    rw [hM]
    exact List.mem_range.mp (hp.mem_iff.mp (List.mem_flatten.mpr ⟨c, hc, List.getElem_mem ht⟩))
  obtain ⟨k, t', md', e1, e2, e3, e4, e5⟩ := g3 _ hi
  have := h.idx v c t c[t] hv (List.getElem?_eq_getElem ht)
  rw [e1] at this
  obtain ⟨rfl, rfl⟩ : k = comp v ∧ t' = t := by simpa using this
  rw [h1] at e3
  obtain rfl : md = md' := by simpa using e3
  rw [List.getElem?_eq_getElem h3, List.getElem?_eq_getElem hi] at e5
  simp only [atIdx, List.getElem_map, List.getD_eq_getElem M _ hi]
  exact Option.some.inj e5

theorem MovedAlong.perm {ref : List (List (ℕ → K))} {eta : List (ℕ → K)} {k : ℕ} {L L' : List (ℕ → K)}
    (h : MovedAlong ref eta k L) (hp : L'.Perm L) : MovedAlong ref eta k L' := by
  obtain ⟨C, dir, base, h1, h2, h3, h4⟩ := h
  obtain ⟨base', g1, g2⟩ := List.perm_comp_forall₂ hp h4
  exact ⟨C, dir, base', h1, h2, g2.subperm.trans h3, g1⟩

theorem MovedAlong.fresh {ref : List (List (ℕ → K))} {eta : List (ℕ → K)} {k : ℕ} {L C : List (ℕ → K)}
    (hl : eta.length = ref.length) (hC : ref[k]? = some C) (h : L.Subperm C) : MovedAlong ref eta k L := by
  have hk := (List.getElem?_eq_some_iff.mp hC).1
  exact ⟨C, eta[k]'(by omega), L, hC, List.getElem?_eq_getElem _, h,
    List.forall₂_same.mpr fun r _ => ⟨0, le_rfl, by simp⟩⟩

/-- Matching with a given partition. -/
theorem match_many {env : MatchEnv (ℕ → K) K} (he : env.Sound) {S : RefSet (ℕ → K)} {cls : List (List ℕ)}
    {Y : List (ℕ → K)} {parts : List (List (ℕ → K))} (hS : ManyRef S cls Y.length)
    (hp : S.partition env Y = some (cls, parts))
    (hY : ∀ c, S.yIdx = some c → c = cls) :
    ∃ S' M comp, S.match env Y = some S' ∧ ManyRef S' cls Y.length ∧ Placed S' cls comp M ∧ S'.ref = S.ref ∧
      S'.eta = S.eta ∧ M.length = Y.length ∧ ∀ v c, cls[v]? = some c →
        MovedAlong S.ref S.eta (comp v) (atIdx M c) ∧
        (∀ old, S.medoids[comp v]? = some (some old) → old.length = c.length → (atIdx M c).Perm old) ∧
        ((∀ old, S.medoids[comp v]? = some (some old) → old.length ≠ c.length) →
          ∃ C, S.ref[comp v]? = some C ∧ (atIdx M c).Subperm C) ∧
        ∀ T', T'.Perm (atIdx M c) →
          (List.zipWith env.dist (atIdx Y c) (atIdx M c)).sum ≤ (List.zipWith env.dist (atIdx Y c) T').sum := by
  obtain ⟨S', h1, h2, h3, h4, h5⟩ := match_of_partition he (.inl hS.reMatch) hp hS.perm hS.ne hS.few hS.size
  have hYp : S.ref.length ≠ 1 → ∀ c, S.yIdx = some c → c.flatten.Perm (List.range Y.length) := fun _ c hc => by
    rw [hY c hc]; exact hS.perm
  obtain ⟨cls', M, comp, a1, a2, a3, a4, a5, a6, a7⟩ := C42_match he hS.medoids (.inl hS.reMatch) hYp h1
  obtain rfl : cls = cls' := by rw [h2] at a1; exact Option.some.inj a1
  have hsyn := C43_match_synced he hS.medoids (.inl hS.reMatch) hYp h1
  -- the store
  have hstore : S'.medoids.length = S.medoids.length ∧ ∀ (k : ℕ) (md : List (ℕ → K)), S'.medoids[k]? = some (some md) →
      S.medoids[k]? = some (some md) ∨ (∃ old, S.medoids[k]? = some (some old) ∧ md.Perm old) ∨
      ∃ C, S.ref[k]? = some C ∧ md.Subperm C := by
    obtain ⟨cls', parts', idx, st, g1, g2, g3, rfl⟩ := match_eq_some (.inl hS.reMatch) h1
    rw [hp] at g1
    obtain ⟨rfl, rfl⟩ : cls = cls' ∧ parts = parts' := by simpa using g1
    have hsep : Separate cls := separate_of_nodup (hS.perm.nodup_iff.mpr List.nodup_range)
    obtain ⟨-, -, -, c4⟩ := matchComponents_spec he.assign g2
    have hl1 : ((List.range idx.length).zip idx).map Prod.fst = List.range idx.length := List.map_fst_zip (by simp)
    have hl2 : ((List.range idx.length).zip idx).map Prod.snd = idx := List.map_snd_zip (by simp)
    have hf := loop_frame hsep g3
    have hd := loop_done he hsep (by rw [hl1]; exact List.nodup_range)
      (by rw [hl2]; exact c4.nodup_iff.mpr List.nodup_range) hS.medoids (fun _ _ => rfl) g3
    refine ⟨hf.2.2.1, fun k md hk => ?_⟩
    by_cases hkl : k < idx.length
    · right
      obtain ⟨rows, Yc, -, -, C, md', d1, d2, -, -, -, -, d7, -⟩ := hd (k, idx[k]) (by
        rw [List.mem_iff_getElem]
        exact ⟨k, by simpa using hkl, by simp⟩)
      dsimp only at d1 d2 d7 hk
      rw [d2] at hk
      obtain rfl : md' = md := by simpa using hk
      exact d7.imp_right fun h => ⟨C, d1, h⟩
    · left
      rw [← hk]
      exact (hf.2.2.2.1 k (by rw [hl1, List.mem_range]; exact hkl)).symm
  have hrays : ∀ (k : ℕ) (md : List (ℕ → K)), S'.medoids[k]? = some (some md) → MovedAlong S.ref S.eta k md := by
    intro k md hk
    rcases hstore.2 k md hk with h | ⟨old, h, hpm⟩ | ⟨C, h, hsub⟩
    · exact hS.rays k md h
    · exact MovedAlong.perm (hS.rays k old h) hpm
    · exact MovedAlong.fresh hS.eta h hsub
  refine ⟨S', M, comp, h1, ?_, ⟨hsyn, a3, h2, a6, fun v c t i hv ht => ?_, fun v c hv => ?_⟩, h3, h4, a5, fun v c hv => ?_⟩
  · exact ⟨by rw [h3]; exact hS.several, by rw [h3, h4]; exact hS.eta, by rw [hstore.1, h3]; exact hS.medoids,
      by rw [h5]; exact hS.reMatch, hS.perm, hS.ne, by rw [h3]; exact hS.few, by rw [h3]; exact hS.size,
      by rw [h3, h4]; exact hrays⟩
  · obtain ⟨-, -, -, -, -, -, -, b5, -⟩ := a7 v c hv
    exact b5 t i ht
  · obtain ⟨-, -, Mc, -, -, b3, b4, -⟩ := a7 v c hv
    exact ⟨Mc, b4, by simpa using (congrArg List.length b3).symm⟩
  · obtain ⟨C, Yc, Mc, b1, b2, b3, b4, b5, b6, b7, b8⟩ := a7 v c hv
    have eM := map_getElem?_eq b3
    have eY := map_getElem?_eq b2
    subst eM eY
    refine ⟨hrays _ _ b4, b7, fun hno => ⟨C, b1, ?_⟩, b8⟩
    rcases b6 with ⟨old, o1, o2⟩ | b6
    · refine absurd ?_ (hno old o1)
      rw [← o2.length_eq]
      simp [atIdx]
    · exact b6

/-- The places of the targets do not depend on the stored ones. -/
theorem loop_idx {env : MatchEnv (ℕ → K) K} {S S2 : RefSet (ℕ → K)} {cls : List (List ℕ)} {parts : List (List (ℕ → K))}
    {l : List (ℕ × ℕ)} {st st2 st' st2' : MatchState (ℕ → K)} (hi : st.idx = st2.idx)
    (h1 : l.foldlM (S.matchStep env cls parts) st = some st') (h2 : l.foldlM (S2.matchStep env cls parts) st2 = some st2') :
    st'.idx = st2'.idx := by
  induction l generalizing st st2 with
  | nil =>
    obtain rfl : st = st' := by simpa using h1
    obtain rfl : st2 = st2' := by simpa using h2
    exact hi
  | cons kv l ih =>
    rw [List.foldlM_cons, Option.bind_eq_bind] at h1 h2
    obtain ⟨sa, a1, a2⟩ := Option.bind_eq_some_iff.mp h1
    obtain ⟨sb, b1, b2⟩ := Option.bind_eq_some_iff.mp h2
    obtain ⟨-, -, -, -, rows, -, -, -, -, -, c1, -, c2, -⟩ := matchStep_eq_some a1
    obtain ⟨-, -, -, -, rows', -, -, -, -, -, d1, -, d2, -⟩ := matchStep_eq_some b1
    obtain rfl : rows = rows' := Option.some.inj (c1.symm.trans d1)
    refine ih ?_ a2 b2
    rw [hi] at c2
    exact Option.some.inj (c2.symm.trans d2)

theorem match_idx {env : MatchEnv (ℕ → K) K} {S S1 S2 S3 : RefSet (ℕ → K)} {Y : List (ℕ → K)}
    (hr : S.reMatch = true) (h1 : S.match env Y = some S1) (hr2 : S2.reMatch = true) (href : S2.ref = S1.ref)
    (hy : S2.yIdx = S1.yIdx) (h3 : S2.match env Y = some S3) : S3.medoidsIdx = S1.medoidsIdx := by
  obtain ⟨cls, parts, idx, st, g1, g2, g3, rfl⟩ := match_eq_some (.inl hr) h1
  obtain ⟨cls', parts', idx', st', k1, k2, k3, rfl⟩ := match_eq_some (.inl hr2) h3
  dsimp only at href hy ⊢
  have hpart : S2.partition env Y = some (cls, parts) := by
    obtain ⟨p1, p2, p3, -, -⟩ := partition_spec g1
    unfold RefSet.partition at g1 ⊢
    rw [href, hy]
    by_cases h : S.ref.length = 1
    · rw [if_pos h] at g1 ⊢
      exact g1
    · rw [if_neg h] at g1 ⊢
      obtain ⟨c, e1, e2⟩ := Option.bind_eq_some_iff.mp g1
      obtain ⟨ps, e3, e4⟩ := Option.map_eq_some_iff.mp e2
      obtain ⟨rfl, rfl⟩ : c = cls ∧ ps = parts := by simpa using e4
      simp [e3]
  rw [hpart] at k1
  obtain ⟨rfl, rfl⟩ : cls = cls' ∧ parts = parts' := by simpa using k1
  have hc : S2.matchComponents env parts = S.matchComponents env parts := by
    unfold RefSet.matchComponents
    rw [href]
  rw [hc, g2] at k2
  obtain rfl : idx = idx' := Option.some.inj k2
  exact (loop_idx (st := ⟨_, _, S.medoids⟩) (st2 := ⟨_, _, S2.medoids⟩) rfl g3 k3).symm

/-- One turn of the shift. -/
theorem shiftOne_store {c : K} (hc : 0 ≤ c) {S S' : RefSet (ℕ → K)} {cls : List (List ℕ)} {N k : ℕ}
    (hS : ManyRef S cls N) (hs : Synced S) (h : RefSet.shiftOne c S k = some S') :
    ManyRef S' cls N ∧ Synced S' ∧ S'.ref = S.ref ∧ S'.eta = S.eta ∧ S'.yIdx = S.yIdx ∧
      ∀ j : ℕ, (S'.medoids[j]?).map (Option.map List.length) = (S.medoids[j]?).map (Option.map List.length) := by
  have hs' := hs
  obtain ⟨M, m1, m2, m3, m4⟩ := hs'
  by_cases hk : k < M.length
  · obtain ⟨S1, a, t, dir, e1, e2, e3, e4, e5, e6, e7, e8, e9, e10⟩ := shiftOne_spec (c := c) hs m1 hS.eta hk
    obtain rfl : S' = S1 := Option.some.inj (h.symm.trans e1)
    obtain ⟨a', t', md, f1, f2, f3, f4, f5⟩ := m3 k hk
    obtain ⟨rfl, rfl⟩ : a' = a ∧ t' = t := by rw [e2] at f1; simpa [eq_comm] using f1
    have hmd : S'.medoids = S.medoids.set a' (some (md.set t' (M[k] + c • dir))) := by
      unfold RefSet.shiftOne RefSet.setMedoids at h
      simp only [m1, e2, e3, Option.bind_some, List.getElem?_eq_getElem hk, List.getD_eq_getElem?_getD, f3,
        Option.getD_some, if_pos f4, Option.some.injEq] at h
      rw [← h]
    have ha : a' < S.medoids.length := (List.getElem?_eq_some_iff.mp f3).1
    refine ⟨⟨by rw [e6]; exact hS.several, by rw [e6, e7]; exact hS.eta, by rw [e6, hmd, List.length_set]; exact hS.medoids,
      e10.trans hS.reMatch, hS.perm, hS.ne, by rw [e6]; exact hS.few, by rw [e6]; exact hS.size, ?_⟩, e5, e6, e7, e9, ?_⟩
    · intro j md' hj
      rw [e6, e7]
      rw [hmd] at hj
      by_cases hja : a' = j
      · subst hja
        rw [List.getElem?_set_self ha] at hj
        obtain rfl : md.set t' (M[k] + c • dir) = md' := by simpa using hj
        obtain ⟨C, dir', base, r1, r2, r3, r4⟩ := hS.rays a' md f3
        obtain rfl : dir = dir' := Option.some.inj (e3.symm.trans r2)
        refine ⟨C, dir, base, r1, r2, r3, List.forall₂_iff_get.mpr ⟨by rw [List.length_set]; exact r4.length_eq,
          fun i hi hi' => ?_⟩⟩
        rw [List.length_set] at hi
        have hr := (List.forall₂_iff_get.mp r4).2 i hi hi'
        simp only [List.get_eq_getElem] at hr ⊢
        rw [List.getElem_set]
        by_cases hit : t' = i
        · subst hit
          rw [if_pos rfl]
          rw [List.getElem?_eq_getElem f4, List.getElem?_eq_getElem hk] at f5
          obtain ⟨c', hc', e⟩ := hr
          refine ⟨c' + c, add_nonneg hc' hc, ?_⟩
          rw [← Option.some.inj f5, e, add_smul, add_assoc]
        · rw [if_neg hit]
          exact hr
      · rw [List.getElem?_set_ne hja] at hj
        exact hS.rays j md' hj
    · intro j
      rw [hmd]
      by_cases hja : a' = j
      · subst hja
        rw [List.getElem?_set_self ha, f3]
        simp
      · rw [List.getElem?_set_ne hja]
  · exfalso
    unfold RefSet.shiftOne at h
    have : S.medoidsIdx[k]? = none := List.getElem?_eq_none (by omega)
    simp [m1, this] at h

theorem shift_store {c : K} (hc : 0 ≤ c) {S S' : RefSet (ℕ → K)} {cls : List (List ℕ)} {N : ℕ} {idx : List ℕ}
    (hS : ManyRef S cls N) (hs : Synced S) (h : S.shift c (some idx) = some S') :
    ManyRef S' cls N ∧ S'.yIdx = S.yIdx ∧
      ∀ j : ℕ, (S'.medoids[j]?).map (Option.map List.length) = (S.medoids[j]?).map (Option.map List.length) := by
  have key : ∀ (idx : List ℕ) (S : RefSet (ℕ → K)), ManyRef S cls N → Synced S →
      ∀ S', idx.foldlM (RefSet.shiftOne c) S = some S' → ManyRef S' cls N ∧ S'.yIdx = S.yIdx ∧
      ∀ j : ℕ, (S'.medoids[j]?).map (Option.map List.length) = (S.medoids[j]?).map (Option.map List.length) := by
    intro idx
    induction idx with
    | nil =>
      intro S hS hs S' h
      obtain rfl : S = S' := by simpa using h
      exact ⟨hS, rfl, fun _ => rfl⟩
    | cons k idx ih =>
      intro S hS hs S' h
      rw [List.foldlM_cons, Option.bind_eq_bind] at h
      obtain ⟨S1, h1, h2⟩ := Option.bind_eq_some_iff.mp h
      obtain ⟨a1, a2, a3, a4, a5, a6⟩ := shiftOne_store hc hS hs h1
      obtain ⟨b1, b2, b3⟩ := ih S1 a1 a2 S' h2
      exact ⟨b1, b2.trans a5, fun j => (b3 j).trans (a6 j)⟩
  obtain ⟨M, m1, -⟩ := id hs
  unfold RefSet.shift at h
  rw [m1] at h
  exact key idx S hS hs S' (by simpa using h)

/-- The cluster of a point. -/
noncomputable def clusterOf (cls : List (List ℕ)) (i : ℕ) : ℕ := cls.findIdx fun c => decide (i ∈ c)

theorem clusterOf_spec {cls : List (List ℕ)} {N i : ℕ} (hp : cls.flatten.Perm (List.range N)) (hi : i < N) :
    ∃ (c : List ℕ) (t : ℕ), cls[clusterOf cls i]? = some c ∧ c[t]? = some i := by
  have hm : i ∈ cls.flatten := hp.mem_iff.mpr (List.mem_range.mpr hi)
  obtain ⟨c, hc, hic⟩ := List.mem_flatten.mp hm
  have hlt : clusterOf cls i < cls.length := List.findIdx_lt_length_of_exists ⟨c, hc, by simpa using hic⟩
  have := List.findIdx_getElem (w := hlt)
  obtain ⟨t, ht, e⟩ := List.getElem_of_mem (of_decide_eq_true this)
  exact ⟨_, t, List.getElem?_eq_getElem hlt, List.getElem?_eq_some_iff.mpr ⟨ht, e⟩⟩

/-- What the shift keeps. -/
theorem shift_placed {x : K} (hx : 0 ≤ x) {S S' : RefSet (ℕ → K)} {cls : List (List ℕ)} {comp : ℕ → ℕ} {M M' : List (ℕ → K)}
    {N : ℕ} {idx : List ℕ} (hS : ManyRef S cls N) (h : Placed S cls comp M) (h2 : S'.matched = some M')
    (h4 : Synced S') (h8 : S'.medoidsIdx = S.medoidsIdx) (hsh : S.shift x (some idx) = some S') :
    ManyRef S' cls N ∧ Placed S' cls comp M' := by
  obtain ⟨p1, p2, p3⟩ := shift_store hx hS h.synced hsh
  refine ⟨p1, h4, h2, p2.trans h.clusters, h.inj, fun v c t i hv ht => by rw [h8]; exact h.idx v c t i hv ht,
    fun v c hv => ?_⟩
  obtain ⟨md, e1, e2⟩ := h.len v c hv
  have := p3 (comp v)
  rw [e1] at this
  cases hq : S'.medoids[comp v]? with
  | none => rw [hq] at this; simp at this
  | some q =>
    cases q with
    | none => rw [hq] at this; simp at this
    | some md' =>
      rw [hq] at this
      exact ⟨md', rfl, by rw [← e2]; simpa using this⟩

/-- The shift of the matched targets. -/
theorem dpnShift_placed (dist : (ℕ → K) → (ℕ → K) → K) {S : RefSet (ℕ → K)} {cls : List (List ℕ)} {comp : ℕ → ℕ}
    {M Y : List (ℕ → K)} (hS : ManyRef S cls Y.length) (h : Placed S cls comp M) (hM : M.length = Y.length) (iter : ℕ)
    {stepNorm : List K} (hst : iter ≠ 0 → stepNorm.length = Y.length) (hist : ℕ → List (ℕ → K)) :
    ∃ S' M' hist', dpnShift dist iter Y.length Y stepNorm S hist = some (S', hist') ∧ ManyRef S' cls Y.length ∧
      Placed S' cls comp M' ∧ S'.ref = S.ref ∧ S'.eta = S.eta ∧ M'.length = Y.length ∧
      ShiftedBy (if iter = 0 then 8 / 100 else 5 / 100 : K) (fun i => iter = 0 ∨ AtRest dist Y M stepNorm i) S.eta
        (fun i => comp (clusterOf cls i)) M M' hist hist' := by
  have hR : S.referenceSet = M := by rw [RefSet.referenceSet, h.matched]; rfl
  obtain ⟨m, a1, a2, a3⟩ : ∃ m, dpnShiftMask dist iter M.length Y M stepNorm = some m ∧ m.length = M.length ∧
      ∀ i < M.length, (m[i]? = some true ↔ (iter = 0 ∨ AtRest dist Y M stepNorm i)) := by
    by_cases hi : iter = 0
    · exact ⟨List.replicate M.length true, by rw [dpnShiftMask, if_pos hi], by simp, fun i hi' => by simp [hi', hi]⟩
    · obtain ⟨m, a1, a2, a3⟩ := dpnShiftMask_spec (dist := dist) hi hM.symm (by rw [hM]; exact hst hi)
      exact ⟨m, a1, a2, fun i hi' => by rw [a3 i hi']; simp [hi]⟩
  obtain ⟨S', M', hist', h1, h2, h3, h4, h6, h7, h8, h5⟩ := shiftMasked_spec
    (c := (if iter = 0 then 8 / 100 else 5 / 100 : K)) (hist := hist) (comp := fun i => comp (clusterOf cls i))
    h.synced h.matched hS.eta a2 (fun i hi => by
      obtain ⟨c, t, e1, e2⟩ := clusterOf_spec hS.perm (by rw [← hM]; exact hi)
      exact ⟨t, h.idx _ c t i e1 e2⟩) a3
  have hsh : S.shift (if iter = 0 then 8 / 100 else 5 / 100 : K) (some (nonzero m)) = some S' := by
    unfold shiftMasked at h1
    obtain ⟨S1, e1, e2⟩ := Option.bind_eq_some_iff.mp h1
    obtain ⟨hh, -, e3⟩ := Option.map_eq_some_iff.mp e2
    rw [e1, (Prod.mk.inj e3).1]
  obtain ⟨p1, p2⟩ := shift_placed (by split <;> positivity) hS h h2 h4 h8 hsh
  exact ⟨S', M', hist', by unfold dpnShift; rw [hR, ← hM, a1, Option.bind_some, h1], p1, p2, h6, h7, h5.1.trans hM, h5⟩

theorem partition_given (env : MatchEnv (ℕ → K) K) {S : RefSet (ℕ → K)} {cls : List (List ℕ)} {Y : List (ℕ → K)}
    (hS : ManyRef S cls Y.length) (hc : S.yIdx = some cls) : ∃ parts, S.partition env Y = some (cls, parts) := by
  obtain ⟨parts, hparts⟩ : ∃ parts, cls.mapM (gather Y) = some parts := by
    obtain ⟨p, h, -⟩ := mapM_exists (f := gather Y) (l := cls) (P := fun _ _ => True) fun c hc => by
      obtain ⟨Yc, h⟩ := exists_gather (X := Y) (idx := c) fun i hi =>
        List.mem_range.mp (hS.perm.mem_iff.mp (List.mem_flatten.mpr ⟨_, hc, hi⟩))
      exact ⟨Yc, h, trivial⟩
    exact ⟨p, h⟩
  refine ⟨parts, ?_⟩
  unfold RefSet.partition
  rw [if_neg hS.several, hc]
  simp [hparts]

/-- Matching again after the shift: the targets stay in their clusters. -/
theorem rematch_many {env : MatchEnv (ℕ → K) K} (he : env.Sound) {S S1 S2 : RefSet (ℕ → K)} {cls : List (List ℕ)}
    {comp : ℕ → ℕ} {M1 Y : List (ℕ → K)} (hr : S.reMatch = true) (h1 : S.match env Y = some S1)
    (hidx : ∀ (v : ℕ) (c : List ℕ) (t i : ℕ), cls[v]? = some c → c[t]? = some i → S1.medoidsIdx[i]? = some (some (comp v, t)))
    (hS : ManyRef S2 cls Y.length) (h : Placed S2 cls comp M1)
    (href : S2.ref = S1.ref) (hy : S2.yIdx = S1.yIdx) (hM : M1.length = Y.length) :
    ∃ S3 T, S2.match env Y = some S3 ∧ ManyRef S3 cls Y.length ∧ S3.ref = S2.ref ∧ S3.eta = S2.eta ∧
      Placed S3 cls comp T ∧ WithinClusters env.dist cls Y M1 T := by
  obtain ⟨parts, hp⟩ := partition_given env hS h.clusters
  obtain ⟨S3, M, comp', m1, m2, m3, m4, m5, m6, m7⟩ := match_many he hS hp
    (fun c hc => Option.some.inj (hc.symm.trans h.clusters))
  have hii := match_idx hr h1 hS.reMatch href hy m1
  have hcomp : ∀ v c, cls[v]? = some c → comp' v = comp v := by
    intro v c hv
    have hne := hS.ne c (List.mem_of_getElem? hv)
    have h0 : 0 < c.length := List.length_pos_iff.mpr hne
    have e1 := m3.idx v c 0 c[0] hv (List.getElem?_eq_getElem h0)
    rw [hii, hidx v c 0 c[0] hv (List.getElem?_eq_getElem h0)] at e1
    simpa [eq_comm] using e1
  refine ⟨S3, M, m1, m2, m4, m5, ⟨m3.synced, m3.matched, m3.clusters, h.inj, fun v c t i hv ht => ?_,
    fun v c hv => ?_⟩, m6, fun c hc => ?_⟩
  · rw [← hcomp v c hv]; exact m3.idx v c t i hv ht
  · rw [← hcomp v c hv]; exact m3.len v c hv
  · obtain ⟨v, hv, rfl⟩ := List.getElem_of_mem hc
    have hv' : cls[v]? = some cls[v] := List.getElem?_eq_getElem hv
    obtain ⟨-, q2, -, q4⟩ := m7 v _ hv'
    have hpm := q2 (atIdx M1 cls[v]) (by rw [hcomp v _ hv']; exact h.stored hS.perm hM hv') (by simp [atIdx])
    exact ⟨hpm, fun T' hT' => q4 T' (hT'.trans hpm.symm)⟩

/-- Matching other points: the clusters may change their components. -/
theorem trial_many {env : MatchEnv (ℕ → K) K} (he : env.Sound) {S : RefSet (ℕ → K)} {cls : List (List ℕ)}
    {comp : ℕ → ℕ} {M Y : List (ℕ → K)} (hS : ManyRef S cls Y.length) (h : Placed S cls comp M) :
    ∃ S' T comp', S.match env Y = some S' ∧ ManyRef S' cls Y.length ∧ S'.ref = S.ref ∧ S'.eta = S.eta ∧
      Placed S' cls comp' T ∧ OwnComponents env.dist cls S.ref S.eta Y T := by
  obtain ⟨parts, hp⟩ := partition_given env hS h.clusters
  obtain ⟨S3, M3, comp', m1, m2, m3, m4, m5, m6, m7⟩ := match_many he hS hp
    (fun c hc => Option.some.inj (hc.symm.trans h.clusters))
  exact ⟨S3, M3, comp', m1, m2, m4, m5, m3, m6, comp', m3.inj, fun v c hv => ⟨(m7 v c hv).1, (m7 v c hv).2.2.2⟩⟩

namespace Dpn

variable {a : Dpn K}

/-- The closest targets. -/
theorem closest_all {S : RefSet (ℕ → K)} (hR : S.referenceSet ≠ []) (Y : List (ℕ → K)) :
    ∃ T, a.diffs true S Y = some (S, List.zipWith (fun y r k => y k - r k) Y T) ∧ T.length = Y.length ∧
      ∀ i < Y.length, T.getD i 0 ∈ S.referenceSet ∧
        ∀ r ∈ S.referenceSet, a.env.dist (Y.getD i 0) (T.getD i 0) ≤ a.env.dist (Y.getD i 0) r := by
  obtain ⟨T, h1, h2⟩ := mapM_exists (f := a.closest S) (l := Y)
    (P := fun y r => r ∈ S.referenceSet ∧ ∀ r' ∈ S.referenceSet, a.env.dist y r ≤ a.env.dist y r')
    (fun y _ => closest_spec hR y)
  refine ⟨T, by rw [diffs, if_pos rfl, h1, Option.map_some], h2.length_eq.symm, fun i hi => ?_⟩
  have hi' : i < T.length := by rw [← h2.length_eq]; exact hi
  have := (List.forall₂_iff_get.mp h2).2 i hi hi'
  rw [List.getD_eq_getElem _ _ hi', List.getD_eq_getElem _ _ hi]
  exact this

/-- The differences in the Newton step: the targets stay in their clusters. -/
theorem diffs_many (ha : a.Ok) (useGd : Bool) {S S1 S2 : RefSet (ℕ → K)} {cls : List (List ℕ)} {comp : ℕ → ℕ}
    {M1 Y : List (ℕ → K)} (hr : S.reMatch = true) (h1 : S.match a.env Y = some S1)
    (hidx : ∀ (v : ℕ) (c : List ℕ) (t i : ℕ), cls[v]? = some c → c[t]? = some i → S1.medoidsIdx[i]? = some (some (comp v, t)))
    (hS : ManyRef S2 cls Y.length) (h : Placed S2 cls comp M1)
    (href : S2.ref = S1.ref) (hy : S2.yIdx = S1.yIdx) (hM : M1.length = Y.length) (hY : 0 < Y.length) :
    ∃ S3 T, a.diffs useGd S2 Y = some (S3, List.zipWith (fun y r k => y k - r k) Y T) ∧
      ManyRef S3 cls Y.length ∧ S3.ref = S2.ref ∧ S3.eta = S2.eta ∧
      (∃ M, Placed S3 cls comp M ∧ M.length = Y.length ∧ (useGd = true → M = M1)) ∧
      T.length = Y.length ∧ ClusterTargets a.env.dist useGd cls Y M1 T := by
  have hR : S2.referenceSet = M1 := by rw [RefSet.referenceSet, h.matched]; rfl
  cases useGd with
  | true =>
    obtain ⟨T, t1, t2, t3⟩ := closest_all (a := a) (S := S2) (by
      rw [hR]; exact List.ne_nil_of_length_pos (by omega)) Y
    rw [hR] at t3
    exact ⟨S2, T, t1, hS, rfl, rfl, ⟨M1, h, hM, fun _ => rfl⟩, t2, by rw [ClusterTargets, if_pos rfl]; exact ⟨t2, t3⟩⟩
  | false =>
    obtain ⟨S3, T, m1, m2, m4, m5, m6, m7⟩ := rematch_many ha.env hr h1 hidx hS h href hy hM
    have hR3 : S3.referenceSet = T := by rw [RefSet.referenceSet, m6.matched]; rfl
    refine ⟨S3, T, ?_, m2, m4, m5, ⟨T, m6, m7.1, by simp⟩, m7.1, by rw [ClusterTargets, if_neg (by simp)]; exact m7⟩
    rw [diffs, if_neg (by simp), m1, Option.bind_some, minusRef, hR3, if_pos m7.1, Option.map_some]

/-- The invariant of the line search. -/
theorem flow_many (ha : a.Ok) (useGd : Bool) {S0 : RefSet (ℕ → K)} {cls : List (List ℕ)} {M1 : List (ℕ → K)} {N : ℕ}
    (hN : 0 < N) :
    a.Flow useGd N (fun S => ManyRef S cls N ∧ S.ref = S0.ref ∧ S.eta = S0.eta ∧
        ∃ M comp, Placed S cls comp M ∧ M.length = N ∧ (useGd = true → M = M1))
      (fun Y T => TrialTargets a.env.dist useGd cls S0.ref S0.eta M1 Y T) := by
  rintro S Y ⟨hS, href, heta, M, comp, hP, hM, hMe⟩ rfl
  have hR : S.referenceSet = M := by rw [RefSet.referenceSet, hP.matched]; rfl
  cases useGd with
  | true =>
    obtain rfl := hMe rfl
    obtain ⟨T, t1, t2, t3⟩ := closest_all (a := a) (S := S) (by
      rw [hR]; exact List.ne_nil_of_length_pos (by omega)) Y
    rw [hR] at t3
    exact ⟨S, T, t1, ⟨hS, href, heta, M, comp, hP, hM, fun _ => rfl⟩, t2,
      by beta_reduce; rw [TrialTargets, if_pos rfl]; exact ⟨t2, t3⟩⟩
  | false =>
    obtain ⟨S3, T, comp', m1, m2, m4, m5, m6, m7⟩ := trial_many ha.env hS hP
    have hR3 : S3.referenceSet = T := by rw [RefSet.referenceSet, m6.matched]; rfl
    refine ⟨S3, T, ?_, ⟨m2, m4.trans href, m5.trans heta, T, comp', m6, m7.1, by simp⟩, m7.1, ?_⟩
    · rw [diffs, if_neg (by simp), m1, Option.bind_some, minusRef, hR3, if_pos m7.1, Option.map_some]
    · beta_reduce
      rw [TrialTargets, if_neg (by simp), ← href, ← heta]
      exact m7

end Dpn

end Verif.Opt
