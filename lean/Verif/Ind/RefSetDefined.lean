import Verif.Ind.RefSetLemmas

/-!
# When matching succeeds
-/

namespace Verif.Ind

variable {P K : Type*} [AddCommMonoid K] [LE K]

theorem cluster_isSome {env : MatchEnv P K} (he : SolvesMedoids env.kmedoids) {C : List P} {k : ℕ} (hk : 0 < k)
    (hC : k ≤ C.length) : ∃ md, cluster env C k = some md := by
  unfold cluster
  split
  · exact ⟨_, rfl⟩
  · have h1 := (he C k).1
    rw [decide_eq_true ⟨hk, hC⟩] at h1
    obtain ⟨idx, hidx⟩ := Option.isSome_iff_exists.mp h1
    obtain ⟨md, hmd⟩ := exists_gather (X := C) ((he C k).2 idx hidx).2.2
    exact ⟨md, by rw [hidx, Option.bind_some, hmd]⟩

theorem chooseMedoids_isSome {env : MatchEnv P K} (he : SolvesMedoids env.kmedoids) {C : List P} {k : ℕ} (hk : 0 < k)
    (hC : k ≤ C.length) (stored : Option (List P)) : ∃ md, chooseMedoids env C stored k = some md := by
  unfold chooseMedoids
  cases stored with
  | none => exact cluster_isSome he hk hC
  | some md =>
    dsimp only
    split
    · exact ⟨_, rfl⟩
    · exact cluster_isSome he hk hC

/-- One pass of the loop succeeds if the part is not empty and not larger than the component. -/
theorem matchStep_isSome {env : MatchEnv P K} (he : env.Sound) {S : RefSet P} {classes : List (List ℕ)}
    {parts : List (List P)} {st : MatchState P} {k v : ℕ} {Y C : List P} {rows : List ℕ} (hY : parts[v]? = some Y)
    (hC : S.ref[k]? = some C) (hr : classes[v]? = some rows) (h0 : 0 < Y.length) (hle : Y.length ≤ C.length)
    (hl : rows.length = Y.length) (ho : ∀ i ∈ rows, i < st.out.length) (hi : ∀ i ∈ rows, i < st.idx.length) :
    ∃ st', S.matchStep env classes parts st (k, v) = some st' := by
  obtain ⟨md0, h1⟩ := chooseMedoids_isSome he.kmedoids h0 hle (st.medoids.getD k none)
  obtain ⟨c1, -, -⟩ := chooseMedoids_spec he.kmedoids h1
  obtain ⟨md, m1, m2, -⟩ := matchPoints_spec he.assign c1
  obtain ⟨out, h2⟩ := Option.isSome_iff_exists.mp (scatter_isSome (A := st.out) (idx := rows) (V := md)
    (by rw [m2.length_eq, c1, hl]) ho)
  obtain ⟨idx, h3⟩ := Option.isSome_iff_exists.mp (scatter_isSome (A := st.idx) (idx := rows)
    (V := (List.range rows.length).map fun i => some (k, i)) (by simp) hi)
  refine ⟨{ out := out, idx := idx, medoids := st.medoids.set k (some md) }, ?_⟩
  unfold RefSet.matchStep
  dsimp only
  rw [hY, Option.bind_some, hC, Option.bind_some, if_neg (by omega), h1, Option.bind_some, m1, Option.bind_some, hr,
    Option.bind_some, h2, Option.bind_some, h3, Option.map_some]

theorem loop_isSome {env : MatchEnv P K} (he : env.Sound) {S : RefSet P} {classes : List (List ℕ)}
    {parts : List (List P)} (hc : Separate classes) {N : ℕ} {l : List (ℕ × ℕ)}
    (hl : ∀ kv ∈ l, ∃ Y C rows, parts[kv.2]? = some Y ∧ S.ref[kv.1]? = some C ∧ classes[kv.2]? = some rows ∧
      0 < Y.length ∧ Y.length ≤ C.length ∧ rows.length = Y.length ∧ ∀ i ∈ rows, i < N) {st : MatchState P}
    (ho : st.out.length = N) (hi : st.idx.length = N) :
    ∃ st', l.foldlM (S.matchStep env classes parts) st = some st' := by
  induction l generalizing st with
  | nil => exact ⟨st, rfl⟩
  | cons kv l ih =>
    obtain ⟨Y, C, rows, h1, h2, h3, h4, h5, h6, h7⟩ := hl kv List.mem_cons_self
    obtain ⟨st1, hst⟩ := matchStep_isSome he h1 h2 h3 h4 h5 h6 (by rw [ho]; exact h7) (by rw [hi]; exact h7)
      (st := st)
    obtain ⟨b1, b2, -, -, -⟩ := matchStep_frame h3 (hc _ _ h3).1 hst
    obtain ⟨st', hst'⟩ := ih (fun kv' h => hl kv' (List.mem_cons_of_mem _ h)) (st := st1) (by rw [b1, ho])
      (by rw [b2, hi])
    refine ⟨st', ?_⟩
    rw [List.foldlM_cons, show S.matchStep env classes parts st kv = some st1 from hst]
    exact hst'

end Verif.Ind
