import Mathlib.Tactic.IntervalCases
import Verif.Scripts.RefData
import Verif.Props.RefSetDefined
import Mathlib.Algebra.Order.BigOperators.Group.List

/-!
# C78: the data read for a reference set method fit together
-/

namespace Verif.Props

open Verif.Scripts Verif.Ind

variable {K : Type*}

/-! ## What is wanted -/

/-- The rows of the population that are not marked as outliers (labels -1 and 0 in the file). -/
def wantedRows (f : RunFiles K) : List ℕ :=
  (List.range f.label.length).filter fun j => f.label.getD j 0 ≠ -1 ∧ f.label.getD j 0 ≠ 0

/-- The number of reference points. -/
def refCount (d : RefData K) : ℕ := (d.ref.map fun c => c.2.length).sum

/-- What `ReferenceSet` needs: every point is in one cluster, clusters are not empty, there are not more of them than
components, and none is larger than a component. -/
structure FitsTogether (d : RefData K) : Prop where
  rows : d.x.length = d.y.length
  some_row : 0 < d.y.length
  clusters : d.yIndex.flatten.Perm (List.range d.y.length)
  nonempty : ∀ c ∈ d.yIndex, c ≠ []
  few : d.yIndex.length ≤ d.ref.length
  small : ∀ c ∈ d.yIndex, ∀ C ∈ d.ref, c.length ≤ C.2.length

/-- Decision and objective vectors are those of the wanted rows of the files, as many as there are reference points. -/
def RowsKept (f : RunFiles K) (d : RefData K) : Prop :=
  d.x.map some = ((wantedRows f).take (refCount d)).map (f.x[·]?) ∧
    d.y.map some = ((wantedRows f).take (refCount d)).map (f.y[·]?)

/-- Readable input: the population has as many decision vectors, objective vectors and labels, some row is not an
outlier, and the file of every component can be read, is not empty and has the same number of columns. -/
structure Readable (f : RunFiles K) : Prop where
  comps : f.refLabel ≠ []
  x : f.x.length = f.label.length
  y : f.y.length = f.label.length
  wanted : wantedRows f ≠ []
  ref : ∃ w, ∀ i < f.refLabel.dedup.length, ∃ r, f.ref i = some r ∧ r ≠ [] ∧ ∀ v ∈ r, v.length = w

/-- The full statement of C78: readable input gives data that fit together, without loss of points as far as there are
reference points, and with directions for all components or none. -/
def ReadsRight (sample : List (List K) → List (List K)) (f : RunFiles K) : Prop :=
  Readable f → ∃ d, readReferenceSet sample f = some d ∧ FitsTogether d ∧ RowsKept f d ∧
    ∀ e, d.eta = some e → e.map Prod.fst = d.ref.map Prod.fst

/-- The contract of `random.sample(r, 3000)`. -/
def SampleOk (sample : List (List K) → List (List K)) : Prop :=
  ∀ r, 3000 ≤ r.length → (sample r).length = 3000 ∧ (sample r).Subperm r

/-! ## Clusters -/

theorem mem_uniqueLabels {l : List ℤ} {a : ℤ} : a ∈ uniqueLabels l ↔ a ∈ l := by
  rw [uniqueLabels, List.mem_insertionSort, List.mem_dedup]

theorem nodup_uniqueLabels (l : List ℤ) : (uniqueLabels l).Nodup :=
  (List.perm_insertionSort _ _).nodup_iff.mpr (List.nodup_dedup l)

theorem length_uniqueLabels (l : List ℤ) : (uniqueLabels l).length = l.dedup.length := by
  rw [uniqueLabels, List.length_insertionSort]

theorem indexOfLabels_perm (l : List ℤ) : (indexOfLabels l).flatten.Perm (List.range l.length) := by
  refine (List.perm_ext_iff_of_nodup ?_ List.nodup_range).mpr fun j => ?_
  · rw [List.nodup_flatten]
    constructor
    · intro c hc
      obtain ⟨u, -, rfl⟩ := List.mem_map.mp hc
      exact List.nodup_range.filter _
    · rw [indexOfLabels, List.pairwise_map]
      refine (nodup_uniqueLabels l).imp fun hne j h1 h2 => hne ?_
      simp only [List.mem_filter, decide_eq_true_eq] at h1 h2
      exact Option.some.inj (h1.2.symm.trans h2.2)
  · simp only [List.mem_flatten, indexOfLabels, List.mem_map, exists_exists_and_eq_and, List.mem_filter, List.mem_range,
      decide_eq_true_eq, mem_uniqueLabels]
    constructor
    · rintro ⟨u, -, h, -⟩
      exact h
    · intro h
      exact ⟨l[j], List.getElem_mem h, h, List.getElem?_eq_getElem h⟩

theorem indexOfLabels_ne_nil {l : List ℤ} {c : List ℕ} (hc : c ∈ indexOfLabels l) : c ≠ [] := by
  obtain ⟨u, hu, rfl⟩ := List.mem_map.mp hc
  obtain ⟨j, hj, rfl⟩ := List.getElem_of_mem (mem_uniqueLabels.mp hu)
  refine List.ne_nil_of_mem (a := j) (List.mem_filter.mpr ⟨List.mem_range.mpr hj, ?_⟩)
  simp [hj]

theorem length_filter_range {l : List ℤ} (u : ℤ) :
    ((List.range l.length).filter fun j => l[j]? = some u).length = l.count u := by
  have : l = (List.range l.length).map fun j => l.getD j 0 := by
    refine List.ext_getElem (by simp) fun i h1 h2 => ?_
    simp [h1]
  conv_rhs => rw [this]
  rw [List.count_eq_countP, List.countP_map, List.countP_eq_length_filter]
  congr 1
  refine List.filter_congr fun j hj => ?_
  have hj := List.mem_range.mp hj
  rw [Bool.eq_iff_iff]
  simp [hj]

theorem indexOfLabels_zero {n : ℕ} (hn : 0 < n) : indexOfLabels (List.replicate n (0 : ℤ)) = [List.range n] := by
  have h : uniqueLabels (List.replicate n (0 : ℤ)) = [0] := by
    rw [uniqueLabels, List.replicate_dedup (by omega)]
    rfl
  rw [indexOfLabels, h, List.map_singleton, List.length_replicate]
  congr 1
  refine List.filter_eq_self.mpr fun j hj => ?_
  have := List.mem_range.mp hj
  simp [this]

/-! ## Rows -/

theorem keepRows_spec {α : Type*} {label : List ℤ} {rows : List α} (h : rows.length = label.length) :
    (keepRows label rows).map some =
      ((List.range label.length).filter fun j => label.getD j 0 ≠ -1 ∧ label.getD j 0 ≠ 0).map (rows[·]?) := by
  have e : label.zip rows = (List.range label.length).pmap
      (fun j (hj : j < label.length) => (label[j], rows[j]'(by omega))) (fun j hj => List.mem_range.mp hj) := by
    refine List.ext_getElem (by simp [h]) fun i h1 h2 => ?_
    simp
  have key : ∀ (js : List ℕ) (H : ∀ j ∈ js, j < label.length),
      (((js.pmap (fun j (hj : j < label.length) => (label[j], rows[j]'(by omega))) H).filter
        fun p => p.1 - 1 ≠ -2 ∧ p.1 - 1 ≠ -1).map Prod.snd).map some =
      (js.filter fun j => label.getD j 0 ≠ -1 ∧ label.getD j 0 ≠ 0).map (rows[·]?) := by
    intro js
    induction js with
    | nil => simp
    | cons j js ih =>
      intro H
      have hj := H j List.mem_cons_self
      have hi := ih fun j' h' => H j' (List.mem_cons_of_mem _ h')
      rw [List.pmap_cons, List.filter_cons, List.filter_cons, List.getD_eq_getElem label _ hj]
      by_cases hc : label[j] ≠ -1 ∧ label[j] ≠ 0
      · rw [if_pos (by simp only [decide_eq_true_eq]; omega), if_pos (by simpa using hc), List.map_cons, List.map_cons,
          List.map_cons, hi, List.getElem?_eq_getElem (by omega)]
      · rw [if_neg (by simp only [decide_eq_true_eq]; omega), if_neg (by simpa using hc), hi]
  rw [keepRows, e]
  exact key _ _

theorem keepLabels_length {label : List ℤ} :
    (keepLabels label).length = ((List.range label.length).filter fun j => label.getD j 0 ≠ -1 ∧ label.getD j 0 ≠ 0).length := by
  have : label = (List.range label.length).map fun j => label.getD j 0 := by
    refine List.ext_getElem (by simp) fun i h1 h2 => ?_
    simp [h1]
  conv_lhs => rw [keepLabels, this, List.map_map, List.filter_map, List.length_map]
  congr 1
  refine List.filter_congr fun j _ => ?_
  simp only [Function.comp, decide_eq_decide]
  omega

/-! ## The end of the function -/

theorem finish_spec {ref : List (ℕ × List (List K))} {x y : List (List K)} {lab : List ℤ}
    {eta : Option (List (ℕ × List (Option K)))} {d : RefData K} (hx : x.length = y.length) (hl : lab.length = y.length)
    (hne : ∀ c ∈ ref, c.2 ≠ []) (h : finish ref x y lab eta = some d) :
    FitsTogether d ∧ refCount d = (ref.map fun c => c.2.length).sum ∧
      (d.eta = none ∨ d.ref = ref ∧ d.eta = eta) ∧
      (y.length ≤ refCount d → d.x = x ∧ d.y = y) ∧ (refCount d < y.length → d.x = x.take 1 ∧ d.y = y.take 1) := by
  unfold finish at h
  obtain ⟨minRef, h1, h⟩ := Option.bind_eq_some_iff.mp h
  obtain ⟨maxPart, h2, h⟩ := Option.bind_eq_some_iff.mp h
  obtain ⟨h11, h12⟩ := List.min?_eq_some_iff.mp h1
  obtain ⟨h21, h22⟩ := List.max?_eq_some_iff.mp h2
  obtain ⟨c0, hc0, -⟩ := List.mem_map.mp h11
  have hy : 0 < y.length := by
    obtain ⟨u, hu, -⟩ := List.mem_map.mp h21
    rw [← hl]
    exact List.length_pos_of_mem (mem_uniqueLabels.mp hu)
  have hall : (ref.map Prod.snd).flatten.length = (ref.map fun c => c.2.length).sum := by
    rw [List.length_flatten, List.map_map]; rfl
  have hpos : 0 < (ref.map Prod.snd).flatten.length :=
    List.length_pos_of_mem (List.mem_flatten.mpr ⟨c0.2, List.mem_map.mpr ⟨c0, hc0, rfl⟩,
      List.head_mem (hne c0 hc0)⟩)
  by_cases hm : ref.length < (uniqueLabels lab).length ∨ minRef < maxPart
  · rw [if_pos hm] at h
    dsimp only at h
    split_ifs at h with h3 h4
    · obtain rfl := Option.some.inj h
      have e : (List.replicate y.length (0 : ℤ)).take 1 = List.replicate 1 0 := by
        rw [List.take_replicate, min_eq_left (by omega)]
      have e1 : (y.take 1).length = 1 := by rw [List.length_take]; omega
      have e2 : (x.take 1).length = 1 := by rw [List.length_take]; omega
      have hi := indexOfLabels_zero (n := 1) one_pos
      rw [← e] at hi
      refine ⟨⟨?_, ?_, ?_, ?_, ?_, ?_⟩, ?_, Or.inl rfl, fun hle => ?_, fun _ => ⟨rfl, rfl⟩⟩
      · exact e2.trans e1.symm
      · exact e1.symm ▸ one_pos
      · change (indexOfLabels _).flatten.Perm (List.range (y.take 1).length)
        rw [e1]
        simp only [List.length_cons, List.length_nil, Nat.zero_add, hi]
        simp
      · intro c hc
        exact indexOfLabels_ne_nil hc
      · simp only [List.length_cons, List.length_nil, Nat.zero_add, hi]
        simp
      · intro c hc C hC
        simp only [List.length_cons, List.length_nil, Nat.zero_add, hi, List.mem_singleton] at hc hC
        subst hc hC
        simp only [List.length_range]
        exact hpos
      · simp [refCount, hall]
      · simp only [refCount, List.map_cons, List.map_nil, List.sum_cons, List.sum_nil, Nat.add_zero] at hle
        omega
    · obtain rfl := Option.some.inj h
      have hi := indexOfLabels_zero hy
      refine ⟨⟨hx, hy, ?_, fun c hc => indexOfLabels_ne_nil hc, ?_, ?_⟩, ?_, Or.inl rfl, fun _ => ⟨rfl, rfl⟩, fun hlt => ?_⟩
      · simp [hi]
      · simp [hi]
      · intro c hc C hC
        simp only [hi, List.mem_singleton] at hc hC
        subst hc hC
        simpa using Nat.le_of_not_lt h4
      · simp [refCount, hall]
      · simp only [refCount, List.map_cons, List.map_nil, List.sum_cons, List.sum_nil, Nat.add_zero] at hlt
        omega
  · rw [if_neg hm] at h
    push Not at hm
    obtain rfl := Option.some.inj h
    have hsm : ∀ c ∈ indexOfLabels lab, ∀ C ∈ ref, c.length ≤ C.2.length := by
      intro c hc C hC
      obtain ⟨u, hu, rfl⟩ := List.mem_map.mp hc
      rw [length_filter_range]
      exact (h22 _ (List.mem_map.mpr ⟨u, hu, rfl⟩)).trans (hm.2.trans (h12 _ (List.mem_map.mpr ⟨C, hC, rfl⟩)))
    have hlen : (indexOfLabels lab).length ≤ ref.length := by
      rw [indexOfLabels, List.length_map]; exact hm.1
    refine ⟨⟨hx, hy, ?_, fun c hc => indexOfLabels_ne_nil hc, hlen, hsm⟩, rfl, Or.inr ⟨rfl, rfl⟩, fun _ => ⟨rfl, rfl⟩,
      fun hlt => ?_⟩
    · rw [← hl]; exact indexOfLabels_perm lab
    · exfalso
      have a1 : y.length ≤ (indexOfLabels lab).length * minRef := by
        have := (indexOfLabels_perm lab).length_eq
        rw [List.length_range, List.length_flatten, hl] at this
        rw [← this]
        refine (List.sum_le_card_nsmul _ minRef ?_).trans (by simp)
        intro m hmem
        obtain ⟨c, hc, rfl⟩ := List.mem_map.mp hmem
        obtain ⟨u, hu, rfl⟩ := List.mem_map.mp hc
        rw [length_filter_range]
        exact (h22 _ (List.mem_map.mpr ⟨u, hu, rfl⟩)).trans hm.2
      have a2 : ref.length * minRef ≤ (ref.map fun c => c.2.length).sum := by
        have := List.card_nsmul_le_sum (ref.map fun c => c.2.length) minRef h12
        simpa using this
      have a3 := Nat.mul_le_mul_right minRef hlen
      simp only [refCount] at hlt
      omega

/-! ## The loop over the components -/

theorem lookup_of_mem {V : Type*} {e : List (ℕ × V)} {k : ℕ} (h : k ∈ e.map Prod.fst) : ∃ v, e.lookup k = some v := by
  induction e with
  | nil => simp at h
  | cons p e ih =>
    by_cases hk : k = p.1
    · exact ⟨p.2, by rw [hk, show (p : ℕ × V) = (p.1, p.2) from rfl, List.lookup_cons_self]⟩
    · obtain ⟨v, hv⟩ := ih (by simpa [hk] using h)
      refine ⟨v, ?_⟩
      rw [List.lookup_cons, show (k == p.1) = false by simpa using hk]
      exact hv

/-- What holds after each pass. -/
theorem loadStep_inv {sample : List (List K) → List (List K)} (hs : SampleOk sample) {f : RunFiles K}
    (hne : ∀ i r, f.ref i = some r → r ≠ []) {is : List ℕ} {st st' : Loading K}
    (h1 : ∀ c ∈ st.ref, c.2 ≠ []) (h2 : ∀ e, st.eta = some e → e.map Prod.fst = st.ref.map Prod.fst)
    (h : is.foldlM (loadStep sample f) st = some st') :
    (∀ c ∈ st'.ref, c.2 ≠ []) ∧ ∀ e, st'.eta = some e → e.map Prod.fst = st'.ref.map Prod.fst := by
  induction is generalizing st with
  | nil =>
    obtain rfl : st = st' := by simpa using h
    exact ⟨h1, h2⟩
  | cons i is ih =>
    rw [List.foldlM_cons, Option.bind_eq_bind] at h
    obtain ⟨st1, g, h⟩ := Option.bind_eq_some_iff.mp h
    suffices hstep : (∀ c ∈ st1.ref, c.2 ≠ []) ∧ ∀ e, st1.eta = some e → e.map Prod.fst = st1.ref.map Prod.fst from
      ih hstep.1 hstep.2 h
    clear h ih
    unfold loadStep at g
    cases hr : f.ref i with
    | none =>
      rw [hr] at g
      obtain rfl := Option.some.inj g
      exact ⟨h1, h2⟩
    | some r =>
      rw [hr] at g
      dsimp only at g
      have hnew : (if 3000 ≤ r.length then sample r else r) ≠ [] := by
        split
        · rename_i h3
          intro e
          have := (hs r h3).1
          rw [e] at this
          simp at this
        · exact hne i r hr
      have key : ∀ c ∈ st.ref ++ [(i, if 3000 ≤ r.length then sample r else r)], c.2 ≠ [] := by
        intro c hc
        rcases List.mem_append.mp hc with hc | hc
        · exact h1 c hc
        · rw [List.mem_singleton.mp hc]
          exact hnew
      clear hnew
      generalize (if 3000 ≤ r.length then sample r else r) = q at g key
      cases he : st.eta with
      | none =>
        rw [he] at g
        dsimp only at g
        split_ifs at g
        obtain rfl := Option.some.inj g
        exact ⟨key, by simp⟩
      | some e =>
        have h2 := h2 e he
        rw [he] at g
        dsimp only at g
        cases hv : f.eta i with
        | some v =>
          rw [hv] at g
          obtain rfl := Option.some.inj g
          refine ⟨key, ?_⟩
          rintro _ ⟨⟩
          simp [h2]
        | none =>
          rw [hv] at g
          dsimp only at g
          split_ifs at g
          · obtain ⟨v, -, rfl⟩ := Option.map_eq_some_iff.mp g
            refine ⟨key, ?_⟩
            rintro _ ⟨⟩
            simp [h2]
          · obtain rfl := Option.some.inj g
            exact ⟨key, by simp⟩

/-- The number of reference points in the files, after the selection of 3000 from larger components. -/
def availableRefs (f : RunFiles K) : ℕ :=
  ((List.range f.refLabel.dedup.length).map fun i => min 3000 ((f.ref i).getD []).length).sum

/-- The loop reads everything if all components and the first direction can be read. -/
theorem load_all {sample : List (List K) → List (List K)} (hs : SampleOk sample) {f : RunFiles K} {n : ℕ} {w : ℕ}
    (href : ∀ i < n, ∃ r, f.ref i = some r ∧ r ≠ [] ∧ ∀ v ∈ r, v.length = w) (heta : (f.eta 0).isSome) :
    ∃ st e, (List.range n).foldlM (loadStep sample f) { ref := [], eta := some [] } = some st ∧ st.eta = some e ∧
      e.map Prod.fst = List.range n ∧ st.ref.map Prod.fst = List.range n ∧
      (st.ref.map fun c => c.2.length) = (List.range n).map (fun i => min 3000 ((f.ref i).getD []).length) ∧
      ∀ c ∈ st.ref, ∀ v ∈ c.2, v.length = w := by
  induction n with
  | zero => exact ⟨_, [], rfl, rfl, rfl, rfl, rfl, by simp⟩
  | succ n ih =>
    obtain ⟨st, e, h1, h2, h3, h4, h5, h6⟩ := ih fun i hi => href i (by omega)
    obtain ⟨r, hr, hr0, hrw⟩ := href n (by omega)
    have hv : ∃ v, loadStep sample f st n = some
        { ref := st.ref ++ [(n, if 3000 ≤ r.length then sample r else r)], eta := some (e ++ [(n, v)]) } := by
      unfold loadStep
      rw [hr, h2]
      dsimp only
      cases he : f.eta n with
      | some v => exact ⟨v, rfl⟩
      | none =>
        have hn : 0 < n := by
          rcases Nat.eq_zero_or_pos n with rfl | h
          · rw [he] at heta; simp at heta
          · exact h
        obtain ⟨v, hv⟩ := lookup_of_mem (e := e) (k := n - 1) (by rw [h3, List.mem_range]; omega)
        exact ⟨v, by dsimp only; rw [if_pos hn, hv, Option.map_some]⟩
    obtain ⟨v, hv⟩ := hv
    have hlen : (if 3000 ≤ r.length then sample r else r).length = min 3000 r.length := by
      split
      · rw [(hs r ‹_›).1]; omega
      · omega
    refine ⟨{ ref := st.ref ++ [(n, if 3000 ≤ r.length then sample r else r)], eta := some (e ++ [(n, v)]) },
      e ++ [(n, v)], ?_, rfl, ?_, ?_, ?_, ?_⟩
    · rw [List.range_succ, List.foldlM_append, h1]
      change ([n].foldlM (loadStep sample f) st) = _
      rw [List.foldlM_cons, hv]
      rfl
    · rw [List.map_append, h3, List.range_succ]; rfl
    · rw [List.map_append, h4, List.range_succ]; rfl
    · rw [List.map_append, h5, List.range_succ, List.map_append, List.map_singleton, List.map_singleton, hlen, hr]; rfl
    · intro c hc
      rcases List.mem_append.mp hc with hc | hc
      · exact h6 c hc
      · rw [List.mem_singleton.mp hc]
        intro v' hv'
        dsimp only at hv'
        split at hv'
        · exact hrw v' ((hs r ‹_›).2.subset hv')
        · exact hrw v' hv'

/-! ## C78 -/

theorem read_eq_some {sample : List (List K) → List (List K)} {f : RunFiles K} {d : RefData K}
    (h : readReferenceSet sample f = some d) : ∃ st eta,
      (List.range (uniqueLabels f.refLabel).length).foldlM (loadStep sample f) { ref := [], eta := some [] } = some st ∧
      f.label.length = f.x.length ∧ f.label.length = f.y.length ∧ (eta = none ∨ eta = st.eta) ∧
      finish st.ref (keepRows f.label f.x) (keepRows f.label f.y) (keepLabels f.label) eta = some d := by
  unfold readReferenceSet at h
  obtain ⟨st, h1, h⟩ := Option.bind_eq_some_iff.mp h
  dsimp only at h
  split_ifs at h with h2
  refine ⟨st, _, h1, h2.1, h2.2, ?_, h⟩
  cases st.eta with
  | none => exact Or.inl rfl
  | some e =>
    rw [Option.bind_some]
    split
    · exact Or.inl rfl
    · exact Or.inr rfl

theorem keepRows_length {α : Type*} {f : RunFiles K} {rows : List α} (h : f.label.length = rows.length) :
    (keepRows f.label rows).length = (wantedRows f).length := by
  have := congrArg List.length (keepRows_spec h.symm)
  rwa [List.length_map, List.length_map] at this

/-- C78, what holds whenever the function returns: the data fit together, directions are given for all components or
none, and no wanted row is lost if there are enough reference points. Otherwise a single row is left. -/
theorem C78_fits {sample : List (List K) → List (List K)} (hs : SampleOk sample) {f : RunFiles K}
    (hne : ∀ i r, f.ref i = some r → r ≠ []) {d : RefData K} (h : readReferenceSet sample f = some d) :
    FitsTogether d ∧ (∀ e, d.eta = some e → e.map Prod.fst = d.ref.map Prod.fst) ∧
      ((wantedRows f).length ≤ refCount d → RowsKept f d) ∧
      (refCount d < (wantedRows f).length → d.x.length = 1 ∧ d.y.length = 1) := by
  obtain ⟨st, eta, h1, h2, h3, h4, h5⟩ := read_eq_some h
  obtain ⟨i1, i2⟩ := loadStep_inv hs hne (by simp) (by simp) h1
  have lx := keepRows_length h2
  have ly := keepRows_length h3
  obtain ⟨g1, g2, g3, g4, g5⟩ := finish_spec (lx.trans ly.symm) (by rw [keepLabels_length, ly]; rfl) i1 h5
  refine ⟨g1, fun e he => ?_, fun hle => ?_, fun hlt => ?_⟩
  · rcases g3 with g3 | ⟨g3, g6⟩
    · rw [g3] at he; simp at he
    · rcases h4 with rfl | rfl
      · rw [g6] at he; simp at he
      · rw [g3]
        exact i2 e (g6 ▸ he)
  · obtain ⟨e1, e2⟩ := g4 (by rw [ly]; exact hle)
    rw [RowsKept, List.take_of_length_le hle, e1, e2, keepRows_spec h2.symm, keepRows_spec h3.symm]
    exact ⟨rfl, rfl⟩
  · obtain ⟨e1, e2⟩ := g5 (by rw [ly]; exact hlt)
    rw [e1, e2, List.length_take, List.length_take, lx, ly]
    omega

theorem finish_isSome {ref : List (ℕ × List (List K))} {x y : List (List K)} {lab : List ℤ}
    {eta : Option (List (ℕ × List (Option K)))} (hr : ref ≠ []) (hl : lab ≠ []) {w : ℕ}
    (hw : ∀ c ∈ ref, ∀ v ∈ c.2, v.length = w) : ∃ d, finish ref x y lab eta = some d := by
  unfold finish
  obtain ⟨m, h1⟩ : ∃ m, (ref.map fun c => c.2.length).min? = some m :=
    Option.ne_none_iff_exists'.mp (by simpa [List.min?_eq_none_iff] using hr)
  obtain ⟨M, h2⟩ : ∃ M, ((uniqueLabels lab).map fun u => lab.count u).max? = some M := by
    refine Option.ne_none_iff_exists'.mp ?_
    rw [Ne, List.max?_eq_none_iff, List.map_eq_nil_iff]
    obtain ⟨a, ha⟩ := List.exists_mem_of_ne_nil lab hl
    exact List.ne_nil_of_mem (mem_uniqueLabels.mpr ha)
  rw [h1, Option.bind_some, h2, Option.bind_some]
  have hall : ∀ r ∈ (ref.map Prod.snd).flatten, r.length = (((ref.map Prod.snd).flatten).headD []).length := by
    have key : ∀ r ∈ (ref.map Prod.snd).flatten, r.length = w := by
      intro r h
      obtain ⟨l, hl, hr⟩ := List.mem_flatten.mp h
      obtain ⟨c, hc, rfl⟩ := List.mem_map.mp hl
      exact hw c hc r hr
    intro r h
    rw [key r h]
    cases e : (ref.map Prod.snd).flatten with
    | nil => rw [e] at h; simp at h
    | cons a l => exact (key a (by rw [e]; exact List.mem_cons_self)).symm
  dsimp only
  by_cases hm : ref.length < (uniqueLabels lab).length ∨ m < M
  · rw [if_pos hm, if_pos hall]
    split <;> exact ⟨_, rfl⟩
  · rw [if_neg hm]
    exact ⟨_, rfl⟩

/-- C78 where the code is right: the direction of the first component can be read and there are at least as many
reference points as wanted rows. -/
theorem C78_partial {sample : List (List K) → List (List K)} (hs : SampleOk sample) {f : RunFiles K}
    (hne : ∀ i r, f.ref i = some r → r ≠ []) (heta : (f.eta 0).isSome)
    (hen : (wantedRows f).length ≤ availableRefs f) : ReadsRight sample f := by
  intro hf
  obtain ⟨w, href⟩ := hf.ref
  obtain ⟨st, e, h1, h2, h3, h4, h5, h6⟩ := load_all hs href heta
  rw [← length_uniqueLabels] at h1
  have hc : st.ref ≠ [] := by
    intro e
    rw [e] at h4
    have h7 := congrArg List.length h4
    simp only [List.map_nil, List.length_nil, List.length_range] at h7
    obtain ⟨a, ha⟩ := List.exists_mem_of_ne_nil _ hf.comps
    have := List.length_pos_of_mem (List.mem_dedup.mpr ha)
    omega
  have hlab : keepLabels f.label ≠ [] := by
    intro e
    have h7 := keepLabels_length (label := f.label)
    rw [e] at h7
    exact hf.wanted (List.length_eq_zero_iff.mp h7.symm)
  obtain ⟨d, hd⟩ : ∃ d, readReferenceSet sample f = some d := by
    unfold readReferenceSet
    rw [h1, Option.bind_some]
    dsimp only
    rw [if_pos ⟨hf.x.symm, hf.y.symm⟩]
    exact finish_isSome hc hlab h6
  obtain ⟨g1, g2, g3, -⟩ := C78_fits hs hne hd
  refine ⟨d, hd, g1, g3 ?_, g2⟩
  obtain ⟨st', eta, k1, k2, k3, -, k5⟩ := read_eq_some hd
  obtain rfl : st = st' := Option.some.inj (h1.symm.trans k1)
  obtain ⟨i1, -⟩ := loadStep_inv hs hne (by simp) (by simp) h1
  obtain ⟨-, g, -, -, -⟩ := finish_spec ((keepRows_length k2).trans (keepRows_length k3).symm)
    (by rw [keepLabels_length, keepRows_length k3]; rfl) i1 k5
  rw [g, h5]
  exact hen

/-- With the data that are read, the first matching of `ReferenceSet(ref, eta, Y_index)` succeeds. -/
theorem C78_match {P A : Type*} [AddCommMonoid A] [LinearOrder A] [Zero P] {env : MatchEnv P A} (he : env.Sound)
    (toP : List K → P) (eta : List P) {d : RefData K} (h : FitsTogether d) :
    ((RefSet.new (d.ref.map fun c => c.2.map toP) eta (some d.yIndex)).match env (d.y.map toP)).isSome := by
  by_cases h1 : d.ref.length = 1
  · obtain ⟨c, hc⟩ := List.length_eq_one_iff.mp h1
    rw [C42_defined he (S := RefSet.new (d.ref.map fun c => c.2.map toP) eta (some d.yIndex)) (C := c.2.map toP)
      (by rw [RefSet.new, hc]; rfl) (by simp [RefSet.new, h1]) (Or.inl rfl)]
    have hy := h.some_row
    refine ⟨?_, Or.inl (by simpa using hy)⟩
    have hl := h.few
    rw [h1] at hl
    have hp := h.clusters.length_eq
    rw [List.length_range] at hp
    have hs := h.small
    rw [hc] at hs
    match hi : d.yIndex with
    | [] => rw [hi] at hp; simp at hp; omega
    | [a] =>
      rw [hi] at hp hs
      have := hs a List.mem_cons_self c List.mem_cons_self
      simp at hp ⊢
      omega
    | a :: b :: l => rw [hi] at hl; simp at hl
  · obtain ⟨S', hS, -⟩ := C42_given he (S := RefSet.new (d.ref.map fun c => c.2.map toP) eta (some d.yIndex))
      (Y := d.y.map toP) (Or.inl rfl) (by simpa [RefSet.new] using h1) rfl (by simpa using h.clusters) h.nonempty
      (by simpa [RefSet.new] using h.few) (by
        intro c hc C hC
        obtain ⟨C', hC', rfl⟩ := List.mem_map.mp hC
        simpa using h.small c hc C' hC')
    rw [hS]
    rfl

/-- C78 is violated if the direction of the first component cannot be read and there is a second component: `eta` is set
to `None` in the first pass, and the next one raises even if its own direction is there. -/
theorem C78_violated_eta (sample : List (List K) → List (List K)) {f : RunFiles K} (h0 : (f.ref 0).isSome)
    (he : f.eta 0 = none) {i : ℕ} (hi : 0 < i) (hn : i < f.refLabel.dedup.length) (hr : (f.ref i).isSome) :
    readReferenceSet sample f = none := by
  have key : ∀ (is : List ℕ) (ref : List (ℕ × List (List K))), (∀ j ∈ is, 0 < j) → (∃ j ∈ is, (f.ref j).isSome) →
      is.foldlM (loadStep sample f) { ref := ref, eta := none } = none := by
    intro is
    induction is with
    | nil => simp
    | cons j is ih =>
      intro ref h1 h2
      rw [List.foldlM_cons]
      cases hj : f.ref j with
      | none =>
        have : loadStep sample f { ref := ref, eta := none } j = some { ref := ref, eta := none } := by
          unfold loadStep; rw [hj]
        rw [this]
        refine ih ref (fun j' h => h1 j' (List.mem_cons_of_mem _ h)) ?_
        obtain ⟨j', h3, h4⟩ := h2
        rcases List.mem_cons.mp h3 with rfl | h3
        · rw [hj] at h4; simp at h4
        · exact ⟨j', h3, h4⟩
      | some r =>
        have : loadStep sample f { ref := ref, eta := none } j = none := by
          unfold loadStep
          rw [hj]
          dsimp only
          rw [if_pos (h1 j List.mem_cons_self)]
        rw [this]
        rfl
  obtain ⟨r0, hr0⟩ := Option.isSome_iff_exists.mp h0
  have hfirst : loadStep sample f { ref := [], eta := some [] } 0 =
      some { ref := [(0, if 3000 ≤ r0.length then sample r0 else r0)], eta := none } := by
    unfold loadStep
    rw [hr0]
    dsimp only
    rw [he]
    rfl
  obtain ⟨n, hn'⟩ : ∃ n, f.refLabel.dedup.length = n + 1 := ⟨f.refLabel.dedup.length - 1, by omega⟩
  unfold readReferenceSet
  rw [length_uniqueLabels, hn', List.range_succ_eq_map, List.foldlM_cons, hfirst]
  change (((List.range n).map Nat.succ).foldlM (loadStep sample f) _).bind _ = none
  rw [key _ _ (by simp) ⟨i, by rw [List.mem_map]; exact ⟨i - 1, by rw [List.mem_range]; omega, by omega⟩, hr⟩]
  rfl

/-! ## Examples -/

/-- One component of two reference points and a population of three rows. -/
def fewRefs : RunFiles ℚ where
  refLabel := [1, 1]
  ref := fun _ => some [[0, 1], [1, 0]]
  eta := fun _ => some [some (-1), some (-1)]
  x := [[0], [1 / 2], [1]]
  y := [[0, 2], [1, 1], [2, 0]]
  label := [1, 1, 1]

/-- C78 is violated if there are fewer reference points than rows: `len(ref)` is the number of components after merging,
one, so that a single row is left where two would fit. -/
theorem C78_violated_rows (sample : List (List ℚ) → List (List ℚ)) : ¬ ReadsRight sample fewRefs := by
  intro h
  have hf : Readable fewRefs := ⟨by decide, rfl, rfl, by decide, 2, fun i _ => ⟨_, rfl, by decide, by decide⟩⟩
  obtain ⟨d, h1, -, ⟨h2, -⟩, -⟩ := h hf
  have e : readReferenceSet sample fewRefs =
      some { ref := [(0, [[0, 1], [1, 0]])], x := [[0]], y := [[0, 2]], yIndex := [[0]], eta := none } := by
    rfl
  obtain rfl := Option.some.inj (e.symm.trans h1)
  revert h2
  decide

/-- Three components of one point, a population of two rows in two clusters and one outlier. -/
def threeComps : RunFiles ℚ where
  refLabel := [3, 1, 2]
  ref := fun i => [[[(0 : ℚ), 0]], [[10, 0]], [[20, 0]]][i]?
  eta := fun _ => some [some (-1), some 0]
  x := [[1], [7], [2]]
  y := [[10, 0], [9, 9], [20, 0]]
  label := [1, -1, 2]

/-- The hypotheses of `C78_partial` and `C78_fits`. -/
example : ReadsRight (fun r => r.take 3000) threeComps ∧ Readable threeComps := by
  have hs : SampleOk fun r : List (List ℚ) => r.take 3000 :=
    fun r h => ⟨by rw [List.length_take]; omega, (List.take_sublist _ _).subperm⟩
  refine ⟨C78_partial hs ?_ rfl (by decide), ⟨by decide, rfl, rfl, by decide, 2, ?_⟩⟩
  · intro i r h
    have hi : i < 3 := by
      by_contra hc
      rw [show threeComps.ref i = none from List.getElem?_eq_none (by simpa using hc)] at h
      simp at h
    interval_cases i <;> (obtain rfl := Option.some.inj h; decide)
  · intro i hi
    have hi : i < 3 := hi
    interval_cases i <;> exact ⟨_, rfl, by decide, by decide⟩

/-- With fewer clusters than components the data fit together, but the clusters are paired with the wrong components
(C44): the rows of the points 10 and 20 get the reference points 0 and 10. -/
theorem C78_wrong_components (sample : List (List ℚ) → List (List ℚ)) :
    ∃ d, readReferenceSet sample threeComps = some d ∧
      ((RefSet.new (d.ref.map fun c => c.2.map fun r => (r.getD 0 0, r.getD 1 0))
        [((-1 : ℚ), (0 : ℚ)), (-1, 0), (-1, 0)] (some d.yIndex)).match lineEnv
          (d.y.map fun r => (r.getD 0 0, r.getD 1 0))).map RefSet.referenceSet = some [(0, 0), (10, 0)] := by
  refine ⟨{ ref := [(0, [[0, 0]]), (1, [[10, 0]]), (2, [[20, 0]])], x := [[1], [2]], y := [[10, 0], [20, 0]],
            yIndex := [[0], [1]], eta := some [(0, [some (-1), some 0]), (1, [some (-1), some 0]), (2, [some (-1), some 0])] },
    by rfl, ?_⟩
  decide +kernel

end Verif.Props
