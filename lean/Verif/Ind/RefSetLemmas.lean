import Verif.Ind.RefSet
import Mathlib.Data.List.Perm.Subperm
import Mathlib.Data.List.Perm.Lattice
import Mathlib.Data.List.Nodup
import Mathlib.Data.List.Range
import Mathlib.Data.List.Sort
import Mathlib.Data.List.Forall2
import Mathlib.Data.List.Perm.Basic
import Mathlib.Algebra.Order.Group.Defs
import Mathlib.Tactic.Ring

/-!
# Lemmas about matching
-/

namespace Verif.Ind

variable {P K α β : Type*}

/-! ### Lists -/

theorem mapM_eq_some {f : α → Option β} {l : List α} {r : List β} :
    l.mapM f = some r ↔ r.length = l.length ∧ ∀ i (h : i < l.length), f l[i] = r[i]? := by
  induction l generalizing r with
  | nil =>
    cases r <;> simp
  | cons a l ih =>
    rw [List.mapM_cons]
    constructor
    · intro h
      cases hb : f a with
      | none => simp [hb] at h
      | some b =>
        cases hr : l.mapM f with
        | none => simp [hb, hr] at h
        | some r' =>
          simp only [hb, hr, Option.pure_def, Option.bind_eq_bind, Option.bind_some, Option.some.injEq] at h
          subst h
          obtain ⟨h1, h2⟩ := ih.mp hr
          refine ⟨by simp [h1], fun i hi => ?_⟩
          cases i with
          | zero => simpa using hb
          | succ i => simpa using h2 i (by simpa using hi)
    · rintro ⟨h1, h2⟩
      cases r with
      | nil => simp at h1
      | cons b r =>
        have h0 := h2 0 (by simp)
        simp only [List.getElem_cons_zero, List.getElem?_cons_zero] at h0
        have := ih (r := r)|>.mpr ⟨by simpa using h1, fun i hi => by
          have := h2 (i + 1) (by simpa using hi)
          rwa [List.getElem_cons_succ, List.getElem?_cons_succ] at this⟩
        simp [h0, this]

theorem gather_eq_some {A : List α} {idx : List ℕ} {B : List α} :
    gather A idx = some B ↔ B.length = idx.length ∧ ∀ t (h : t < idx.length), A[idx[t]]? = B[t]? :=
  mapM_eq_some

theorem scatter_eq_some {A : List α} {idx : List ℕ} {V B : List α} (hn : idx.Nodup)
    (h : scatter A idx V = some B) : B.length = A.length ∧ V.length = idx.length ∧
      (∀ t (_ : t < idx.length), B[idx[t]]? = V[t]?) ∧ ∀ i, i ∉ idx → B[i]? = A[i]? := by
  induction idx generalizing A V with
  | nil =>
    cases V with
    | nil => simp only [scatter, Option.some.injEq] at h; subst h; simp
    | cons v V => simp [scatter] at h
  | cons i idx ih =>
    cases V with
    | nil => simp [scatter] at h
    | cons v V =>
      simp only [scatter] at h
      split_ifs at h with hi
      obtain ⟨h1, h2, h3, h4⟩ := ih (List.nodup_cons.mp hn).2 h
      refine ⟨by simpa using h1, by simp [h2], ?_, ?_⟩
      · intro t ht
        cases t with
        | zero =>
          simp only [List.getElem_cons_zero, List.getElem?_cons_zero]
          rw [h4 i (List.nodup_cons.mp hn).1, List.getElem?_set_self hi]
        | succ t => simpa using h3 t (by simpa using ht)
      · intro j hj
        simp only [List.mem_cons, not_or] at hj
        rw [h4 j hj.2, List.getElem?_set_ne (Ne.symm hj.1)]

theorem scatter_isSome {A : List α} {idx : List ℕ} {V : List α} (hV : V.length = idx.length)
    (h : ∀ i ∈ idx, i < A.length) : (scatter A idx V).isSome := by
  induction idx generalizing A V with
  | nil =>
    cases V with
    | nil => simp [scatter]
    | cons v V => simp at hV
  | cons i idx ih =>
    cases V with
    | nil => simp at hV
    | cons v V =>
      simp only [scatter]
      rw [if_pos (h i (by simp))]
      exact ih (by simpa using hV) fun j hj => by simpa using h j (by simp [hj])

theorem foldlM_append_some {σ : Type*} {f : σ → α → Option σ} {l l' : List α} {s s' : σ} :
    (l ++ l').foldlM f s = some s' ↔ ∃ t, l.foldlM f s = some t ∧ l'.foldlM f t = some s' := by
  rw [List.foldlM_append, Option.bind_eq_bind, Option.bind_eq_some_iff]

/-- A strictly increasing list of `n` numbers below `n` is `0, ..., n - 1`. -/
theorem eq_range_of_sorted {l : List ℕ} {n : ℕ} (hs : l.Pairwise (· < ·)) (hl : l.length = n)
    (hb : ∀ a ∈ l, a < n) : l = List.range n := by
  have hp : l.Perm (List.range n) := by
    refine (List.subperm_of_subset (hs.imp fun h => h.ne) fun a ha => List.mem_range.mpr (hb a ha)).perm_of_length_le ?_
    simp [hl]
  exact hp.eq_of_pairwise (fun _ _ _ _ h1 h2 => absurd h1 (by omega)) hs List.pairwise_lt_range

theorem perm_range_of_nodup {l : List ℕ} {n : ℕ} (hs : l.Nodup) (hl : l.length = n)
    (hb : ∀ a ∈ l, a < n) : l.Perm (List.range n) := by
  refine (List.subperm_of_subset hs fun a ha => List.mem_range.mpr (hb a ha)).perm_of_length_le ?_
  simp [hl]

/-! ### The contracts of the library functions -/

/-- An assignment of an `r × c` cost matrix: `min r c` pairs of a row and a column, in the order of the rows,
no row and no column twice. -/
def IsAssignment (r c : ℕ) (p : List (ℕ × ℕ)) : Prop :=
  p.length = min r c ∧ (p.map Prod.fst).Pairwise (· < ·) ∧ (p.map Prod.snd).Nodup ∧
    ∀ q ∈ p, q.1 < r ∧ q.2 < c

/-- The total cost of an assignment. -/
def assignCost [AddMonoid K] (C : List (List K)) (p : List (ℕ × ℕ)) : K :=
  (p.map fun q => (C.getD q.1 []).getD q.2 0).sum

/-- The contract of `linear_sum_assignment`. -/
def SolvesAssignment [AddMonoid K] [LE K] (assign : List (List K) → List (ℕ × ℕ)) : Prop :=
  ∀ (C : List (List K)) (c : ℕ), (∀ row ∈ C, row.length = c) → IsAssignment C.length c (assign C) ∧
    ∀ q, IsAssignment C.length c q → assignCost C (assign C) ≤ assignCost C q

/-- The contract of `KMedoids`: as many distinct indices as asked for. -/
def SolvesMedoids (kmedoids : List P → ℕ → Option (List ℕ)) : Prop :=
  ∀ C k, (kmedoids C k).isSome = decide (0 < k ∧ k ≤ C.length) ∧
    ∀ idx, kmedoids C k = some idx → idx.length = k ∧ idx.Nodup ∧ ∀ i ∈ idx, i < C.length

/-- The contracts together. -/
structure MatchEnv.Sound [AddMonoid K] [LE K] (env : MatchEnv P K) : Prop where
  assign : SolvesAssignment env.assign
  kmedoids : SolvesMedoids env.kmedoids

/-! ### Pairing -/

theorem gather_perm {X : List α} {idx : List ℕ} (h : idx.Perm (List.range X.length)) {M : List α}
    (hM : gather X idx = some M) : M.Perm X := by
  obtain ⟨h1, h2⟩ := gather_eq_some.mp hM
  have hM' : M.map some = idx.map (X[·]?) := by
    refine List.ext_getElem (by simp [h1]) fun t ht1 ht2 => ?_
    simp only [List.getElem_map]
    rw [h2 t (by simpa using ht2), List.getElem?_eq_getElem (by simpa using ht1)]
  have hX : X.map some = (List.range X.length).map (X[·]?) := by
    refine List.ext_getElem (by simp) fun t ht1 ht2 => ?_
    simp
  have := (h.map (X[·]?))
  rw [← hM', ← hX] at this
  exact (List.map_perm_map_iff (Option.some_injective _)).mp this

theorem gather_subperm {X : List α} {idx : List ℕ} (hn : idx.Nodup) {M : List α}
    (hM : gather X idx = some M) : M.Subperm X := by
  obtain ⟨h1, h2⟩ := gather_eq_some.mp hM
  have hM' : M.map some = idx.map (X[·]?) := by
    refine List.ext_getElem (by simp [h1]) fun t ht1 ht2 => ?_
    simp only [List.getElem_map]
    rw [h2 t (by simpa using ht2), List.getElem?_eq_getElem (by simpa using ht1)]
  have hX : X.map some = (List.range X.length).map (X[·]?) := by
    refine List.ext_getElem (by simp) fun t ht1 ht2 => ?_
    simp
  have hs : idx.Subperm (List.range X.length) := by
    refine List.subperm_of_subset hn fun a ha => ?_
    obtain ⟨t, ht, rfl⟩ := List.getElem_of_mem ha
    have := h2 t ht
    rw [List.getElem?_eq_getElem (by omega : t < M.length)] at this
    exact List.mem_range.mpr (List.getElem?_eq_some_iff.mp this).1
  have this : (idx.map (X[·]?)).Subperm ((List.range X.length).map (X[·]?)) := by
    obtain ⟨l, hl1, hl2⟩ := hs
    exact ⟨l.map (X[·]?), hl1.map _, hl2.map _⟩
  rw [← hM', ← hX] at this
  obtain ⟨l, hl1, hl2⟩ := this
  obtain ⟨l', hl3, rfl⟩ := List.sublist_map_iff.mp hl2
  exact ⟨l', (List.map_perm_map_iff (Option.some_injective _)).mp hl1, hl3⟩

theorem exists_gather {X : List α} {idx : List ℕ} (h : ∀ a ∈ idx, a < X.length) :
    ∃ M, gather X idx = some M :=
  ⟨idx.pmap (fun a h => X[a]) h, gather_eq_some.mpr ⟨by simp, fun t ht => by
    rw [List.getElem?_eq_getElem (h _ (List.getElem_mem ht)),
      List.getElem?_eq_getElem (l := List.pmap _ idx h) (by simpa using ht), List.getElem_pmap]⟩⟩

theorem exists_gather_of_perm {X M : List α} (h : M.Perm X) :
    ∃ idx, idx.Perm (List.range X.length) ∧ gather X idx = some M := by
  have hf : List.Forall₂ (fun x i => X[i]? = some x) X (List.range X.length) := by
    rw [List.forall₂_iff_get]
    refine ⟨by simp, fun i h1 h2 => by simp⟩
  obtain ⟨idx, h1, h2⟩ := List.perm_comp_forall₂ h hf
  refine ⟨idx, h2, gather_eq_some.mpr ⟨h1.length_eq, fun t ht => ?_⟩⟩
  rw [List.forall₂_iff_get] at h1
  have := h1.2 t (by omega) ht
  rw [List.getElem?_eq_getElem (by omega : t < M.length)]
  simpa using this

variable [AddCommMonoid K] [LE K]

/-- The pairing of as many medoids as points: always possible; the result is a reordering of the medoids, and
no other reordering has a smaller total distance. -/
theorem matchPoints_spec {env : MatchEnv P K} (he : SolvesAssignment env.assign) {X Y : List P}
    (hl : X.length = Y.length) : ∃ M, matchPoints env X Y = some M ∧ M.Perm X ∧
      ∀ M', M'.Perm M → (List.zipWith env.dist Y M).sum ≤ (List.zipWith env.dist Y M').sum := by
  set C := Y.map fun y => X.map fun x => env.dist y x with hC
  obtain ⟨⟨h1, h2, h3, h4⟩, h5⟩ := he C X.length (by
    intro row hr
    rw [hC, List.mem_map] at hr
    obtain ⟨y, -, rfl⟩ := hr
    simp)
  have hCl : C.length = X.length := by simp [hC, hl]
  rw [hCl, min_self] at h1
  rw [hCl] at h4 h5
  have hrows : (env.assign C).map Prod.fst = List.range X.length :=
    eq_range_of_sorted h2 (by simpa using h1) fun a ha => by
      obtain ⟨q, hq, rfl⟩ := List.mem_map.mp ha
      exact (h4 q hq).1
  have hcols : ((env.assign C).map Prod.snd).Perm (List.range X.length) :=
    perm_range_of_nodup h3 (by simpa using h1) fun a ha => by
      obtain ⟨q, hq, rfl⟩ := List.mem_map.mp ha
      exact (h4 q hq).2
  -- the cost of a list of columns
  have hcost : ∀ (cols : List ℕ) (M : List P), gather X cols = some M → cols.length = X.length →
      assignCost C ((List.range X.length).zip cols) = (List.zipWith env.dist Y M).sum := by
    intro cols M hM hc
    obtain ⟨g1, g2⟩ := gather_eq_some.mp hM
    unfold assignCost
    congr 1
    refine List.ext_getElem (by simp [hc, g1, hl]) fun t ht1 ht2 => ?_
    have ht : t < X.length := by simpa [hc] using ht1
    have hM' := g2 t (by omega)
    rw [List.getElem?_eq_getElem (by omega : t < M.length)] at hM'
    obtain ⟨hb, hM'⟩ := List.getElem?_eq_some_iff.mp hM'
    have hrow : C.getD t [] = X.map fun x => env.dist (Y[t]'(by omega)) x := by
      rw [hC, List.getD_eq_getElem _ _ (by simp; omega), List.getElem_map]
    simp only [List.getElem_map, List.getElem_zip, List.getElem_range, List.getElem_zipWith, hrow]
    rw [List.getD_eq_getElem _ _ (by simpa using hb), List.getElem_map, hM']
  obtain ⟨M, hM⟩ := exists_gather (X := X) (idx := (env.assign C).map Prod.snd) fun a ha =>
    List.mem_range.mp (hcols.mem_iff.mp ha)
  refine ⟨M, hM, gather_perm hcols hM, fun M' hM' => ?_⟩
  obtain ⟨cols, hc1, hc2⟩ := exists_gather_of_perm (hM'.trans (gather_perm hcols hM))
  have hlen : cols.length = X.length := by simpa using hc1.length_eq
  rw [← hcost _ M' hc2 hlen, ← hcost _ M hM (by simpa using h1)]
  have hz : (List.range X.length).zip ((env.assign C).map Prod.snd) = env.assign C := by
    rw [← hrows, List.zip_map', List.map_id'']
    exact fun _ => rfl
  rw [hz]
  refine h5 _ ⟨by simp [hlen], ?_, ?_, ?_⟩
  · rw [List.map_fst_zip (by simp [hlen])]
    exact List.pairwise_lt_range
  · rw [List.map_snd_zip (by simp [hlen])]
    exact hc1.nodup_iff.mpr List.nodup_range
  · intro q hq
    obtain ⟨q1, q2⟩ := List.of_mem_zip hq
    exact ⟨List.mem_range.mp q1, List.mem_range.mp (hc1.mem_iff.mp q2)⟩

/-! ### The loop -/

theorem chooseMedoids_spec {env : MatchEnv P K} (he : SolvesMedoids env.kmedoids) {C : List P}
    {stored : Option (List P)} {k : ℕ} {md : List P} (h : chooseMedoids env C stored k = some md) :
    md.length = k ∧ (stored = some md ∨ md.Subperm C) ∧
      ∀ old, stored = some old → old.length = k → md = old := by
  have hc : cluster env C k = some md → md.length = k ∧ md.Subperm C := by
    intro h
    unfold cluster at h
    split_ifs at h with h1
    · simp only [Option.some.injEq] at h
      exact ⟨h ▸ h1, h ▸ List.Subperm.refl _⟩
    · obtain ⟨idx, h2, h3⟩ := Option.bind_eq_some_iff.mp h
      obtain ⟨h4, h5, -⟩ := (he C k).2 idx h2
      exact ⟨by rw [(gather_eq_some.mp h3).1, h4], gather_subperm h5 h3⟩
  unfold chooseMedoids at h
  cases stored with
  | none => exact ⟨(hc h).1, Or.inr (hc h).2, by simp⟩
  | some md' =>
    dsimp only at h
    split_ifs at h with h1
    · simp only [Option.some.injEq] at h
      exact ⟨h ▸ h1, Or.inl (by rw [h]), by simp [h]⟩
    · refine ⟨(hc h).1, Or.inr (hc h).2, fun old ho hl => ?_⟩
      simp only [Option.some.injEq] at ho
      exact absurd (ho ▸ hl) h1

theorem matchStep_eq_some {env : MatchEnv P K} {S : RefSet P} {classes : List (List ℕ)}
    {parts : List (List P)} {st st' : MatchState P} {k v : ℕ}
    (h : S.matchStep env classes parts st (k, v) = some st') :
    ∃ Y C md0 md rows, parts[v]? = some Y ∧ S.ref[k]? = some C ∧ Y.length ≤ C.length ∧
      chooseMedoids env C (st.medoids.getD k none) Y.length = some md0 ∧ matchPoints env md0 Y = some md ∧
      classes[v]? = some rows ∧ scatter st.out rows md = some st'.out ∧
      scatter st.idx rows ((List.range rows.length).map fun i => some (k, i)) = some st'.idx ∧
      st'.medoids = st.medoids.set k (some md) := by
  unfold RefSet.matchStep at h
  obtain ⟨Y, h1, h⟩ := Option.bind_eq_some_iff.mp h
  obtain ⟨C, h2, h⟩ := Option.bind_eq_some_iff.mp h
  split_ifs at h with h3
  obtain ⟨md0, h4, h⟩ := Option.bind_eq_some_iff.mp h
  obtain ⟨md, h5, h⟩ := Option.bind_eq_some_iff.mp h
  obtain ⟨rows, h6, h⟩ := Option.bind_eq_some_iff.mp h
  obtain ⟨out, h7, h⟩ := Option.bind_eq_some_iff.mp h
  obtain ⟨idx, h8, h⟩ := Option.map_eq_some_iff.mp h
  subst h
  exact ⟨Y, C, md0, md, rows, h1, h2, by omega, h4, h5, h6, h7, h8, rfl⟩

/-- What the loop has done for the component `k` and the part with the indices `rows` and points `Y`. -/
def PartDone (env : MatchEnv P K) (S : RefSet P) (rows : List ℕ) (Y : List P) (k : ℕ) (out : List P)
    (idx : List (Option (ℕ × ℕ))) (medoids : List (Option (List P))) : Prop :=
  ∃ C md, S.ref[k]? = some C ∧ medoids[k]? = some (some md) ∧ md.length = rows.length ∧
    Y.length = rows.length ∧ rows.length ≤ C.length ∧
    (∀ t (h : t < rows.length), out[rows[t]]? = md[t]? ∧ idx[rows[t]]? = some (some (k, t))) ∧
    ((∃ old, S.medoids[k]? = some (some old) ∧ md.Perm old) ∨ md.Subperm C) ∧
    (∀ old, S.medoids[k]? = some (some old) → old.length = rows.length → md.Perm old) ∧
    ∀ M', M'.Perm md → (List.zipWith env.dist Y md).sum ≤ (List.zipWith env.dist Y M').sum

theorem getD_none_eq_some {l : List (Option α)} {k : ℕ} {a : α} (h : l.getD k none = some a) :
    l[k]? = some (some a) := by
  rw [List.getD_eq_getElem?_getD] at h
  cases hk : l[k]? with
  | none => simp [hk] at h
  | some b => rw [hk, Option.getD_some] at h; rw [h]

theorem matchStep_done {env : MatchEnv P K} (he : env.Sound) {S : RefSet P} {classes : List (List ℕ)}
    {parts : List (List P)} {st st' : MatchState P} {k v : ℕ} {rows : List ℕ} (hr : classes[v]? = some rows)
    (hn : rows.Nodup) (hm : st.medoids.length = S.ref.length)
    (hs : st.medoids.getD k none = S.medoids.getD k none)
    (h : S.matchStep env classes parts st (k, v) = some st') :
    ∃ Y, parts[v]? = some Y ∧ PartDone env S rows Y k st'.out st'.idx st'.medoids := by
  obtain ⟨Y, C, md0, md, rows', h1, h2, h3, h4, h5, h6, h7, h8, h9⟩ := matchStep_eq_some h
  obtain rfl : rows = rows' := by rw [hr, Option.some.injEq] at h6; exact h6
  obtain ⟨c1, c2, c3⟩ := chooseMedoids_spec he.kmedoids h4
  obtain ⟨md', m1, m2, m3⟩ := matchPoints_spec he.assign c1
  obtain rfl : md = md' := by rw [h5, Option.some.injEq] at m1; exact m1
  obtain ⟨o1, o2, o3, -⟩ := scatter_eq_some hn h7
  obtain ⟨i1, i2, i3, -⟩ := scatter_eq_some hn h8
  have hk : k < S.ref.length := (List.getElem?_eq_some_iff.mp h2).1
  have hYl : Y.length = rows.length := by rw [← c1, ← m2.length_eq, o2]
  refine ⟨Y, h1, C, md, h2, ?_, o2, hYl, by omega, fun t ht => ⟨o3 t ht, ?_⟩, ?_, fun old ho hl => ?_, m3⟩
  · rw [h9, List.getElem?_set_self (by omega)]
  · rw [i3 t ht]
    simp [ht]
  · rcases c2 with c2 | c2
    · rw [hs] at c2
      exact Or.inl ⟨md0, getD_none_eq_some c2, m2⟩
    · exact Or.inr (m2.subperm.trans c2)
  · have := c3 old (by rw [hs, List.getD_eq_getElem?_getD, ho, Option.getD_some]) (by rw [hl, hYl])
    rwa [this] at m2

theorem matchStep_frame {env : MatchEnv P K} {S : RefSet P} {classes : List (List ℕ)}
    {parts : List (List P)} {st st' : MatchState P} {k v : ℕ} {rows : List ℕ} (hr : classes[v]? = some rows)
    (hn : rows.Nodup) (h : S.matchStep env classes parts st (k, v) = some st') :
    st'.out.length = st.out.length ∧ st'.idx.length = st.idx.length ∧
      st'.medoids.length = st.medoids.length ∧ (∀ k', k' ≠ k → st'.medoids[k']? = st.medoids[k']?) ∧
      ∀ i, i ∉ rows → st'.out[i]? = st.out[i]? ∧ st'.idx[i]? = st.idx[i]? := by
  obtain ⟨Y, C, md0, md, rows', h1, h2, h3, h4, h5, h6, h7, h8, h9⟩ := matchStep_eq_some h
  obtain rfl : rows = rows' := by rw [hr, Option.some.injEq] at h6; exact h6
  obtain ⟨o1, o2, o3, o4⟩ := scatter_eq_some hn h7
  obtain ⟨i1, i2, i3, i4⟩ := scatter_eq_some hn h8
  refine ⟨o1, i1, by rw [h9, List.length_set], fun k' hk => ?_, fun i hi => ⟨o4 i hi, i4 i hi⟩⟩
  rw [h9, List.getElem?_set_ne (Ne.symm hk)]

/-- The classes do not overlap. -/
def Separate (classes : List (List ℕ)) : Prop :=
  ∀ (v : ℕ) (rows : List ℕ), classes[v]? = some rows → rows.Nodup ∧
    ∀ (v' : ℕ) (rows' : List ℕ), classes[v']? = some rows' → v' ≠ v → ∀ i ∈ rows, i ∉ rows'

theorem separate_of_nodup {classes : List (List ℕ)} (h : classes.flatten.Nodup) : Separate classes := by
  rw [List.nodup_flatten] at h
  intro v rows hv
  obtain ⟨hv1, rfl⟩ := List.getElem?_eq_some_iff.mp hv
  refine ⟨h.1 _ (List.getElem_mem hv1), fun v' rows' hv' hne i hi hi' => ?_⟩
  obtain ⟨hv1', rfl⟩ := List.getElem?_eq_some_iff.mp hv'
  have hp := List.pairwise_iff_getElem.mp h.2
  rcases lt_or_gt_of_ne hne with hlt | hlt
  · exact hp v' v hv1' hv1 hlt hi' hi
  · exact hp v v' hv1 hv1' hlt hi hi'

theorem loop_frame {env : MatchEnv P K} {S : RefSet P} {classes : List (List ℕ)} {parts : List (List P)}
    (hc : Separate classes) {l : List (ℕ × ℕ)} {st st' : MatchState P}
    (h : l.foldlM (S.matchStep env classes parts) st = some st') :
    st'.out.length = st.out.length ∧ st'.idx.length = st.idx.length ∧
      st'.medoids.length = st.medoids.length ∧
      (∀ k', k' ∉ l.map Prod.fst → st'.medoids[k']? = st.medoids[k']?) ∧
      ∀ v rows, v ∉ l.map Prod.snd → classes[v]? = some rows → ∀ i ∈ rows,
        st'.out[i]? = st.out[i]? ∧ st'.idx[i]? = st.idx[i]? := by
  induction l generalizing st with
  | nil =>
    simp only [List.foldlM_nil, Option.pure_def, Option.some.injEq] at h
    subst h
    simp
  | cons kv l ih =>
    rw [List.foldlM_cons, Option.bind_eq_bind] at h
    obtain ⟨st1, h1, h2⟩ := Option.bind_eq_some_iff.mp h
    obtain ⟨a1, a2, a3, a4, a5⟩ := ih h2
    obtain ⟨-, -, -, -, rows, -, -, -, -, -, hrows, -⟩ := matchStep_eq_some h1
    obtain ⟨b1, b2, b3, b4, b5⟩ := matchStep_frame hrows (hc _ _ hrows).1 h1
    refine ⟨a1.trans b1, a2.trans b2, a3.trans b3, fun k' hk => ?_, fun v rows' hv hr i hi => ?_⟩
    · simp only [List.map_cons, List.mem_cons, not_or] at hk
      rw [a4 k' hk.2, b4 k' hk.1]
    · simp only [List.map_cons, List.mem_cons, not_or] at hv
      have := (hc _ _ hr).2 _ _ hrows (Ne.symm hv.1) i hi
      rw [(a5 v rows' hv.2 hr i hi).1, (a5 v rows' hv.2 hr i hi).2, (b5 i this).1, (b5 i this).2]
      exact ⟨rfl, rfl⟩

theorem loop_done {env : MatchEnv P K} (he : env.Sound) {S : RefSet P} {classes : List (List ℕ)}
    {parts : List (List P)} (hc : Separate classes) {l : List (ℕ × ℕ)} {st st' : MatchState P}
    (hk : (l.map Prod.fst).Nodup) (hv : (l.map Prod.snd).Nodup) (hm : st.medoids.length = S.ref.length)
    (hs : ∀ k ∈ l.map Prod.fst, st.medoids.getD k none = S.medoids.getD k none)
    (h : l.foldlM (S.matchStep env classes parts) st = some st') :
    ∀ kv ∈ l, ∃ rows Y, classes[kv.2]? = some rows ∧ parts[kv.2]? = some Y ∧
      PartDone env S rows Y kv.1 st'.out st'.idx st'.medoids := by
  induction l generalizing st with
  | nil => simp
  | cons kv l ih =>
    rw [List.foldlM_cons, Option.bind_eq_bind] at h
    obtain ⟨st1, h1, h2⟩ := Option.bind_eq_some_iff.mp h
    rw [List.map_cons, List.nodup_cons] at hk hv
    obtain ⟨-, -, -, -, rows, -, -, -, -, -, hrows, -⟩ := matchStep_eq_some h1
    obtain ⟨b1, b2, b3, b4, b5⟩ := matchStep_frame hrows (hc _ _ hrows).1 h1
    obtain ⟨a1, a2, a3, a4, a5⟩ := loop_frame hc h2
    intro kv' hkv
    rcases List.mem_cons.mp hkv with rfl | hkv
    · obtain ⟨Y, hY, C, md, d1, d2, d3, d4, d5, d6, d7, d9, d8⟩ :=
        matchStep_done he hrows (hc _ _ hrows).1 hm (hs _ (by simp)) h1
      refine ⟨rows, Y, hrows, hY, C, md, d1, ?_, d3, d4, d5, fun t ht => ?_, d7, d9, d8⟩
      · rw [a4 _ hk.1, d2]
      · obtain ⟨e1, e2⟩ := a5 _ _ hv.1 hrows _ (List.getElem_mem ht)
        rw [e1, e2]
        exact d6 t ht
    · refine ih hk.2 hv.2 (by rw [b3, hm]) (fun k hkl => ?_) h2 kv' hkv
      have hne : k ≠ kv.1 := fun e => hk.1 (e ▸ hkl)
      have := hs k (by rw [List.map_cons]; exact List.mem_cons_of_mem _ hkl)
      rw [List.getD_eq_getElem?_getD, b4 k hne, ← List.getD_eq_getElem?_getD, this]

end Verif.Ind
