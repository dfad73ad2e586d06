import Verif.Ind.RefSetDefined
import Verif.Props.RefSet

/-!
# C42: several components, when matching succeeds
-/

namespace Verif.Props

open Verif.Ind

variable {P K : Type*} [AddCommMonoid K] [LinearOrder K] [Zero P]

theorem match_of_partition {env : MatchEnv P K} (he : env.Sound) {S : RefSet P} {Y : List P}
    (hr : S.reMatch = true ∨ S.matched = none) {classes : List (List ℕ)} {parts : List (List P)}
    (hp : S.partition env Y = some (classes, parts)) (hperm : classes.flatten.Perm (List.range Y.length))
    (hne : ∀ c ∈ classes, c ≠ []) (hle : classes.length ≤ S.ref.length)
    (hsz : ∀ c ∈ classes, ∀ C ∈ S.ref, c.length ≤ C.length) :
    ∃ S', S.match env Y = some S' ∧ S'.yIdx = some classes ∧ S'.ref = S.ref ∧ S'.eta = S.eta ∧
      S'.reMatch = S.reMatch := by
  obtain ⟨p1, p2, -, -, -⟩ := partition_spec hp
  have hlen : ∀ v (hv : v < classes.length), (parts[v]'(by omega)).length = classes[v].length := by
    intro v hv
    obtain ⟨Yc, q1, q2⟩ := p2 v _ (List.getElem?_eq_getElem hv)
    obtain ⟨_, rfl⟩ := List.getElem?_eq_some_iff.mp q1
    exact (gather_eq_some.mp q2).1
  have hcomp : ∃ idx, S.matchComponents env parts = some idx := by
    unfold RefSet.matchComponents
    rw [if_neg (by omega)]
    by_cases h1 : S.ref.length = 1 ∧ parts.length = 1
    · rw [if_pos h1]; exact ⟨_, rfl⟩
    · rw [if_neg h1, if_neg]
      · exact ⟨_, rfl⟩
      · rw [List.any_eq_true]
        rintro ⟨Yc, hY, hem⟩
        obtain ⟨v, hv, rfl⟩ := List.getElem_of_mem hY
        have := hlen v (by omega)
        rw [List.isEmpty_iff.mp hem] at this
        exact hne _ (List.getElem_mem (by omega : v < classes.length)) (List.length_eq_zero_iff.mp this.symm)
  obtain ⟨idx, hidx⟩ := hcomp
  obtain ⟨c1, -, -, c4⟩ := matchComponents_spec he.assign hidx
  have hN : (parts.map List.length).sum = Y.length := by
    have e : parts.map List.length = classes.map List.length := by
      refine List.ext_getElem (by simp [p1]) fun v hv1 hv2 => ?_
      simpa using hlen v (by simpa using hv2)
    rw [e, ← List.length_flatten, hperm.length_eq, List.length_range]
  have hl : ∀ kv ∈ (List.range idx.length).zip idx, ∃ Yv C rows, parts[kv.2]? = some Yv ∧ S.ref[kv.1]? = some C ∧
      classes[kv.2]? = some rows ∧ 0 < Yv.length ∧ Yv.length ≤ C.length ∧ rows.length = Yv.length ∧
      ∀ i ∈ rows, i < Y.length := by
    intro kv hkv
    obtain ⟨k1, k2⟩ := List.of_mem_zip (show (kv.1, kv.2) ∈ _ from hkv)
    have hv : kv.2 < classes.length := by
      have := List.mem_range.mp (c4.mem_iff.mp k2)
      omega
    have hk : kv.1 < S.ref.length := by
      have := List.mem_range.mp k1
      have := c4.length_eq
      rw [List.length_range] at this
      omega
    refine ⟨_, _, _, List.getElem?_eq_getElem (by omega), List.getElem?_eq_getElem hk, List.getElem?_eq_getElem hv, ?_,
      ?_, (hlen _ hv).symm, fun i hi => ?_⟩
    · rw [hlen _ hv]
      exact List.length_pos_iff.mpr (hne _ (List.getElem_mem hv))
    · rw [hlen _ hv]
      exact hsz _ (List.getElem_mem hv) _ (List.getElem_mem hk)
    · exact List.mem_range.mp (hperm.mem_iff.mp (List.mem_flatten.mpr ⟨_, List.getElem_mem hv, hi⟩))
  obtain ⟨st, hst⟩ := loop_isSome he (S := S) (classes := classes) (parts := parts)
    (separate_of_nodup (hperm.nodup_iff.mpr List.nodup_range)) (N := Y.length)
    (l := (List.range idx.length).zip idx) hl
    (st := { out := List.replicate (parts.map List.length).sum 0,
             idx := List.replicate (parts.map List.length).sum none, medoids := S.medoids })
    (by simp [hN]) (by simp [hN])
  refine ⟨{ S with yIdx := some classes, medoids := st.medoids, medoidsIdx := st.idx, matched := some st.out }, ?_,
    rfl, rfl, rfl, rfl⟩
  unfold RefSet.match
  rw [if_neg (by rcases hr with hr | hr <;> simp [hr]), hp, Option.bind_some]
  dsimp only
  rw [hidx, Option.bind_some, hst, Option.map_some]

/-- C42 with several components and given clusters of `Y`: `match` succeeds if there are not more clusters than
components, no cluster is empty and none is larger than a component. -/
theorem C42_given {env : MatchEnv P K} (he : env.Sound) {S : RefSet P} {Y : List P}
    (hr : S.reMatch = true ∨ S.matched = none) (hn : S.ref.length ≠ 1) {classes : List (List ℕ)}
    (hc : S.yIdx = some classes) (hperm : classes.flatten.Perm (List.range Y.length))
    (hne : ∀ c ∈ classes, c ≠ []) (hle : classes.length ≤ S.ref.length)
    (hsz : ∀ c ∈ classes, ∀ C ∈ S.ref, c.length ≤ C.length) :
    ∃ S', S.match env Y = some S' ∧ S'.yIdx = some classes ∧ S'.ref = S.ref ∧ S'.eta = S.eta ∧
      S'.reMatch = S.reMatch := by
  have hg : ∃ parts, classes.mapM (gather Y) = some parts := by
    have : ∀ c ∈ classes, ∃ Yc, gather Y c = some Yc := fun c h => exists_gather fun i hi =>
      List.mem_range.mp (hperm.mem_iff.mp (List.mem_flatten.mpr ⟨_, h, hi⟩))
    clear hperm hne hle hsz hc
    induction classes with
    | nil => exact ⟨[], rfl⟩
    | cons c cs ih =>
      obtain ⟨Yc, h1⟩ := this c List.mem_cons_self
      obtain ⟨ps, h2⟩ := ih fun c' h => this c' (List.mem_cons_of_mem _ h)
      exact ⟨Yc :: ps, by rw [List.mapM_cons, h1, h2]; rfl⟩
  obtain ⟨parts, hparts⟩ := hg
  refine match_of_partition he hr (parts := parts) ?_ hperm hne hle hsz
  unfold RefSet.partition
  rw [if_neg hn, hc]
  simp [hparts]

/-- C42 with several components and no given clusters: `match` succeeds if every component is closest to a point (the
first one, if several are) and there are not more points closest to a component than points in any component. -/
theorem C42_closest {env : MatchEnv P K} (he : env.Sound) {S : RefSet P} {Y : List P}
    (hr : S.reMatch = true ∨ S.matched = none) (hn : S.ref.length ≠ 1) (hc : S.yIdx = none)
    {near : P → ℕ} (hnear : ∀ y ∈ Y, label env.dist S.ref y = some (near y))
    (hne : ∀ k < S.ref.length, ∃ y ∈ Y, near y = k)
    (hsz : ∀ k < S.ref.length, ∀ C ∈ S.ref, (Y.filter fun y => near y = k).length ≤ C.length) :
    ∃ S', S.match env Y = some S' ∧
      S'.yIdx = some ((List.range S.ref.length).map fun k =>
        (List.range Y.length).filter fun j => Y[j]?.map near = some k) ∧
      S'.ref = S.ref ∧ S'.eta = S.eta ∧ S'.reMatch = S.reMatch := by
  have hl : Y.mapM (label env.dist S.ref) = some (Y.map near) :=
    mapM_eq_some.mpr ⟨by simp, fun i hi => by simp [hnear _ (List.getElem_mem hi), hi]⟩
  set classes := (List.range S.ref.length).map fun k =>
    (List.range Y.length).filter fun j => Y[j]?.map near = some k with hcl
  have hg : ∃ parts, S.partition env Y = some (classes, parts) := by
    have : ∀ c ∈ classes, ∃ Yc, gather Y c = some Yc := by
      intro c h
      rw [hcl] at h
      obtain ⟨k, -, rfl⟩ := List.mem_map.mp h
      exact exists_gather fun i hi => List.mem_range.mp (List.mem_filter.mp hi).1
    have hm : ∃ parts, classes.mapM (gather Y) = some parts := by
      clear_value classes
      clear hcl
      induction classes with
      | nil => exact ⟨[], rfl⟩
      | cons c cs ih =>
        obtain ⟨Yc, h1⟩ := this c List.mem_cons_self
        obtain ⟨ps, h2⟩ := ih fun c' h => this c' (List.mem_cons_of_mem _ h)
        exact ⟨Yc :: ps, by rw [List.mapM_cons, h1, h2]; rfl⟩
    obtain ⟨parts, hparts⟩ := hm
    refine ⟨parts, ?_⟩
    unfold RefSet.partition
    rw [if_neg hn, hc]
    simp only [hl, Option.map_some, Option.bind_some, List.getElem?_map]
    rw [← hcl, hparts]
    rfl
  obtain ⟨parts, hparts⟩ := hg
  have hp5 := (partition_spec hparts).2.2.2.2 hn hc
  refine match_of_partition he hr hparts hp5.2.1 ?_ (by simp [hcl]) ?_
  · intro c h
    rw [hcl] at h
    obtain ⟨k, hk, rfl⟩ := List.mem_map.mp h
    obtain ⟨y, hy, hyk⟩ := hne k (List.mem_range.mp hk)
    obtain ⟨j, hj, rfl⟩ := List.getElem_of_mem hy
    refine List.ne_nil_of_mem (List.mem_filter.mpr ⟨List.mem_range.mpr hj, ?_⟩)
    simp [hj, hyk]
  · intro c h C hC
    rw [hcl] at h
    obtain ⟨k, hk, rfl⟩ := List.mem_map.mp h
    refine le_trans (le_of_eq ?_) (hsz k (List.mem_range.mp hk) C hC)
    have : Y = (List.range Y.length).map fun j => Y.getD j 0 := by
      refine List.ext_getElem (by simp) fun i h1 h2 => ?_
      simp [h1]
    conv_rhs => rw [this]
    rw [List.filter_map, List.length_map]
    congr 1
    refine List.filter_congr fun j hj => ?_
    have hj := List.mem_range.mp hj
    simp [hj]

/-- Two components, two clusters, and more reference points than points. -/
example : ∃ S', (RefSet.new [[(0, 0), (1, 0)], [(5, 0), (6, 0), (7, 0)]] [((-1 : ℚ), (0 : ℚ)), (-1, 0)]
    (some [[1], [0, 2]])).match lineEnv [(4, 0), (0, 0), (7, 0)] = some S' ∧ S'.yIdx = some [[1], [0, 2]] := by
  obtain ⟨S', h1, h2, -⟩ := C42_given (env := lineEnv) (bruteEnv_sound _ _) (S := RefSet.new [[(0, 0), (1, 0)], [(5, 0), (6, 0), (7, 0)]]
    [((-1 : ℚ), (0 : ℚ)), (-1, 0)] (some [[1], [0, 2]])) (Y := [(4, 0), (0, 0), (7, 0)]) (Or.inl rfl) (by decide) rfl
    (by decide) (by decide) (by decide) (by decide)
  exact ⟨S', h1, h2⟩

end Verif.Props
