import Verif.Moea.SmsEmoa
import Verif.Props.Moea
import Verif.HV.SpecLemmas
import Verif.HV.Improvement

/-!
# C75: a generation of SMS-EMOA
-/

namespace Verif.Props

open Verif.Moea Verif.HV

/-- Pareto dominance of the rows `i` and `j`. -/
def RowDominates (F : List (List ℝ)) (i j : ℕ) : Prop := Dominates (F.getD i []) (F.getD j [])

/-- The contract of `NonDominatedSorting().do(F, n_stop_if_ranked=n)`, as far as it is used: fronts of different members,
at least `n` or all are ranked, no member of the first front dominates another one of it, and everyone else is dominated by
a member of the first front. -/
structure SortOk (F : List (List ℝ)) (n : ℕ) (fronts : List (List ℕ)) : Prop where
  nodup : fronts.flatten.Nodup
  lt : ∀ i ∈ fronts.flatten, i < F.length
  ranked : min n F.length ≤ fronts.flatten.length
  first : ∀ i < F.length, i ∉ fronts.getD 0 [] → ∃ j ∈ fronts.getD 0 [], RowDominates F j i
  nondom : ∀ i ∈ fronts.getD 0 [], ∀ j ∈ fronts.getD 0 [], ¬ RowDominates F i j

/-- The contribution of member `k`: what the hypervolume loses without it. -/
noncomputable def contribution (d : ℕ) (ref : List ℝ) (F : List (List ℝ)) (k : ℕ) : ℝ :=
  Spec.hvol d (F.map pt) (pt ref) - Spec.hvol d ((F.eraseIdx k).map pt) (pt ref)

/-- The contract of `ExactHypervolume2D`: a number for every point, and these are the contributions for points that do not
dominate each other and do not exceed the reference. -/
structure HvcExact (hvc : List ℝ → List (List ℝ) → List ℝ) : Prop where
  size : ∀ ref F, (hvc ref F).length = F.length
  exact : ∀ ref F, ref.length = 2 → (∀ x ∈ F, x.length = 2 ∧ ∀ j < 2, x.getD j 0 ≤ ref.getD j 0) →
    (∀ x ∈ F, ∀ y ∈ F, ¬ Dominates x y) → hvc ref F = (List.range F.length).map (contribution 2 ref F)

/-- The reference point of a generation in the original units: from the least value of the population `1 + eps` times the
range upwards. -/
def GenerationRef (a : Sms ℝ) (B : List (List ℝ)) (ref : ℕ → ℝ) : Prop := ∀ j < 2, ∃ lo hi,
  IsLeast {v | ∃ x ∈ B, v = x.getD j 0} lo ∧ IsGreatest {v | ∃ x ∈ B, v = x.getD j 0} hi ∧
  ref j = lo + (1 + a.eps) * if a.normalize then hi + 1 / 10 ^ 32 - lo else if hi = lo then 1 else hi - lo

/-- The population from which the range is taken. -/
def rangePop (a : Sms ℝ) (pop off : List (List ℝ)) : List (List ℝ) := if a.normalize then pop else pop ++ off

/-- A generation with two objectives does not lower the hypervolume with respect to the reference point of the
generation, if there are `l` offspring for a population of `popSize`. -/
def C75Statement (l : ℕ) : Prop := ∀ a : Sms ℝ, a.nObj = 2 → 0 ≤ a.eps → HvcExact a.hvc → ∀ pop off : List (List ℝ),
  (∀ x ∈ pop ++ off, x.length = 2) → 0 < a.popSize → pop.length = a.popSize → off.length = l →
  SortOk (pop ++ off) a.popSize (a.sort (pop ++ off) a.popSize) →
  ∃ ref, GenerationRef a (rangePop a pop off) ref ∧ ((∀ x ∈ off, ∀ j < 2, x.getD j 0 ≤ ref j) →
    ∃ pop', a.advance pop (some off) = some pop' ∧ pop'.length = a.popSize ∧ (∀ x ∈ pop', x ∈ pop ++ off) ∧
      Spec.hvol 2 (pop.map pt) ref ≤ Spec.hvol 2 (pop'.map pt) ref)

/-! ### Columns and normalisation -/

theorem min?_isLeast {l : List ℝ} (h : l ≠ []) : ∃ v, l.min? = some v ∧ IsLeast {x | x ∈ l} v := by
  cases hm : l.min? with
  | none => exact absurd (List.min?_eq_none_iff.mp hm) h
  | some v =>
    obtain ⟨h1, h2⟩ := List.min?_eq_some_iff.mp hm
    exact ⟨v, rfl, h1, fun x hx => h2 x hx⟩

theorem max?_isGreatest {l : List ℝ} (h : l ≠ []) : ∃ v, l.max? = some v ∧ IsGreatest {x | x ∈ l} v := by
  cases hm : l.max? with
  | none => exact absurd (List.max?_eq_none_iff.mp hm) h
  | some v =>
    obtain ⟨h1, h2⟩ := List.max?_eq_some_iff.mp hm
    exact ⟨v, rfl, h1, fun x hx => h2 x hx⟩

theorem column_set (B : List (List ℝ)) (j : ℕ) :
    {x | x ∈ B.map fun x => x.getD j 0} = {v | ∃ x ∈ B, v = x.getD j 0} := by
  ext v
  simp [eq_comm]

theorem colMin_two {B : List (List ℝ)} (h : B ≠ []) : ∃ l0 l1, colMin 2 B = some [l0, l1] ∧
    IsLeast {v | ∃ x ∈ B, v = x.getD 0 0} l0 ∧ IsLeast {v | ∃ x ∈ B, v = x.getD 1 0} l1 := by
  obtain ⟨l0, a1, a2⟩ := min?_isLeast (l := B.map fun x => x.getD 0 0) (by simpa using h)
  obtain ⟨l1, b1, b2⟩ := min?_isLeast (l := B.map fun x => x.getD 1 0) (by simpa using h)
  rw [column_set] at a2 b2
  refine ⟨l0, l1, ?_, a2, b2⟩
  show List.mapM _ [0, 1] = _
  rw [List.mapM_cons, a1, List.mapM_cons, b1]
  rfl

theorem colMax_two {B : List (List ℝ)} (h : B ≠ []) : ∃ l0 l1, colMax 2 B = some [l0, l1] ∧
    IsGreatest {v | ∃ x ∈ B, v = x.getD 0 0} l0 ∧ IsGreatest {v | ∃ x ∈ B, v = x.getD 1 0} l1 := by
  obtain ⟨l0, a1, a2⟩ := max?_isGreatest (l := B.map fun x => x.getD 0 0) (by simpa using h)
  obtain ⟨l1, b1, b2⟩ := max?_isGreatest (l := B.map fun x => x.getD 1 0) (by simpa using h)
  rw [column_set] at a2 b2
  refine ⟨l0, l1, ?_, a2, b2⟩
  show List.mapM _ [0, 1] = _
  rw [List.mapM_cons, a1, List.mapM_cons, b1]
  rfl

/-- The divisor of the normalisation. -/
noncomputable def spread (ideal nadir : List ℝ) (j : ℕ) : ℝ :=
  if nadir.getD j 0 = ideal.getD j 0 then 1 else nadir.getD j 0 - ideal.getD j 0

theorem normalizeRow_length {ideal nadir x : List ℝ} (hi : ideal.length = 2) (hn : nadir.length = 2)
    (hx : x.length = 2) : (normalizeRow ideal nadir x).length = 2 := by
  simp [normalizeRow, hi, hn, hx]

theorem normalizeRow_getD {ideal nadir x : List ℝ} (hi : ideal.length = 2) (hn : nadir.length = 2)
    (hx : x.length = 2) {j : ℕ} (hj : j < 2) :
    (normalizeRow ideal nadir x).getD j 0 = (x.getD j 0 - ideal.getD j 0) / spread ideal nadir j := by
  obtain ⟨i0, i1, rfl⟩ := List.length_eq_two.mp hi
  obtain ⟨n0, n1, rfl⟩ := List.length_eq_two.mp hn
  obtain ⟨x0, x1, rfl⟩ := List.length_eq_two.mp hx
  interval_cases j <;> simp [normalizeRow, spread] <;> split_ifs <;> simp

theorem spread_pos {ideal nadir : List ℝ} {j : ℕ} (h : ideal.getD j 0 ≤ nadir.getD j 0) : 0 < spread ideal nadir j := by
  unfold spread
  split_ifs with he
  · exact one_pos
  · exact sub_pos.mpr (lt_of_le_of_ne h (Ne.symm he))

theorem dominates_two {x y : List ℝ} (hx : x.length = 2) (hy : y.length = 2) :
    Dominates x y ↔ (∀ j < 2, x.getD j 0 ≤ y.getD j 0) ∧ ∃ j < 2, x.getD j 0 < y.getD j 0 := by
  obtain ⟨x0, x1, rfl⟩ := List.length_eq_two.mp hx
  obtain ⟨y0, y1, rfl⟩ := List.length_eq_two.mp hy
  constructor
  · rintro ⟨-, h1, j, hj, hj', h2⟩
    have hj2 : j < 2 := hj
    refine ⟨fun j hj => ?_, j, hj2, ?_⟩
    · have := h1 j hj hj
      rwa [List.getD_eq_getElem _ _ hj, List.getD_eq_getElem _ _ hj]
    · rwa [List.getD_eq_getElem _ _ hj, List.getD_eq_getElem _ _ hj']
  · rintro ⟨h1, j, hj, h2⟩
    refine ⟨rfl, fun j hj hj' => ?_, j, hj, hj, ?_⟩
    · have := h1 j hj
      rwa [List.getD_eq_getElem _ _ hj, List.getD_eq_getElem _ _ hj'] at this
    · rwa [List.getD_eq_getElem _ _ hj, List.getD_eq_getElem _ _ hj] at h2

theorem dominates_normalizeRow {ideal nadir x y : List ℝ} (hi : ideal.length = 2) (hn : nadir.length = 2)
    (hs : ∀ j < 2, ideal.getD j 0 ≤ nadir.getD j 0) (hx : x.length = 2) (hy : y.length = 2)
    (h : Dominates (normalizeRow ideal nadir x) (normalizeRow ideal nadir y)) : Dominates x y := by
  rw [dominates_two (normalizeRow_length hi hn hx) (normalizeRow_length hi hn hy)] at h
  rw [dominates_two hx hy]
  obtain ⟨h1, j, hj, h2⟩ := h
  refine ⟨fun j hj => ?_, j, hj, ?_⟩
  · have := h1 j hj
    rw [normalizeRow_getD hi hn hx hj, normalizeRow_getD hi hn hy hj,
      div_le_div_iff_of_pos_right (spread_pos (hs j hj))] at this
    linarith
  · rw [normalizeRow_getD hi hn hx hj, normalizeRow_getD hi hn hy hj,
      div_lt_div_iff_of_pos_right (spread_pos (hs j hj))] at h2
    linarith

theorem hvol_congr_coords {d : ℕ} {P : List (List ℝ)} {f g : List ℝ → ℕ → ℝ} {r r' : ℕ → ℝ}
    (h : ∀ x ∈ P, ∀ j < d, f x j = g x j) (hr : ∀ j < d, r j = r' j) :
    Spec.hvol d (P.map f) r = Spec.hvol d (P.map g) r' := by
  unfold Spec.hvol
  congr 2
  ext z
  simp only [Spec.region, Set.mem_ofPred_eq, List.mem_map, exists_exists_and_eq_and]
  constructor
  · rintro ⟨⟨x, hx, h1⟩, h2⟩
    exact ⟨⟨x, hx, fun i => by rw [← h x hx i i.2]; exact h1 i⟩, fun i => by rw [← hr i i.2]; exact h2 i⟩
  · rintro ⟨⟨x, hx, h1⟩, h2⟩
    exact ⟨⟨x, hx, fun i => by rw [h x hx i i.2]; exact h1 i⟩, fun i => by rw [hr i i.2]; exact h2 i⟩

/-- Hypervolumes before and after normalisation. -/
theorem hvol_normalize {ideal nadir : List ℝ} (hi : ideal.length = 2) (hn : nadir.length = 2)
    (hs : ∀ j < 2, ideal.getD j 0 ≤ nadir.getD j 0) {P : List (List ℝ)} (hP : ∀ x ∈ P, x.length = 2) (c : ℝ) :
    Spec.hvol 2 (P.map pt) (fun j => ideal.getD j 0 + c * spread ideal nadir j) =
      (∏ j ∈ Finset.range 2, spread ideal nadir j) *
        Spec.hvol 2 ((P.map (normalizeRow ideal nadir)).map pt) (pt (List.replicate 2 c)) := by
  rw [← Spec.hvol_scale _ fun j hj => spread_pos (hs j hj), ← Spec.hvol_translate fun j => -ideal.getD j 0, List.map_map,
    List.map_map, List.map_map]
  refine hvol_congr_coords (fun x hx j hj => ?_) fun j hj => ?_
  · simp only [Function.comp_apply, pt]
    rw [normalizeRow_getD hi hn (hP x hx) hj, mul_div_cancel₀ _ (spread_pos (hs j hj)).ne']
    ring
  · have : pt (List.replicate 2 c) j = c := by
      interval_cases j <;> rfl
    rw [this]
    ring

/-! ### One generation -/

theorem hvObject_sound {a : Sms ℝ} (h2 : a.nObj = 2) (hh : HvcExact a.hvc) (ideal nadir : List ℝ) (M : List (List ℝ)) :
    HvObject.Sound (a.hvObject ideal nadir M) where
  new := fun front => by simp [Sms.hvObject, h2, hh.size]
  delete := fun h k hk => by
    simp only [Sms.hvObject, h2, if_true, hh.size] at hk ⊢
    rw [List.length_eraseIdx_of_lt hk]
    omega

/-- The ideal and the nadir point that `_advance` uses. -/
theorem range_exists (a : Sms ℝ) (h2 : a.nObj = 2) {pop off : List (List ℝ)} (hne : pop ≠ []) :
    ∃ ideal nadir, ideal.length = 2 ∧ nadir.length = 2 ∧ (∀ j < 2, ideal.getD j 0 ≤ nadir.getD j 0) ∧
      (∀ x ∈ rangePop a pop off, ∀ j < 2, x.getD j 0 ≤ nadir.getD j 0) ∧
      GenerationRef a (rangePop a pop off) (fun j => ideal.getD j 0 + (1 + a.eps) * spread ideal nadir j) ∧
      a.advance pop (some off) = (survive (a.hvObject ideal nadir (pop ++ off)) (some a.popSize)
        (a.sort (pop ++ off) a.popSize)).map fun idx => idx.map fun i => (pop ++ off).getD i [] := by
  have hB : rangePop a pop off ≠ [] := by
    unfold rangePop
    split_ifs <;> simp [hne]
  obtain ⟨l0, l1, m1, m2, m3⟩ := colMin_two hB
  obtain ⟨u0, u1, n1, n2, n3⟩ := colMax_two hB
  have o0 : l0 ≤ u0 := by
    obtain ⟨x, hx, e⟩ := m2.1
    exact n2.2 ⟨x, hx, e⟩
  have o1 : l1 ≤ u1 := by
    obtain ⟨x, hx, e⟩ := m3.1
    exact n3.2 ⟨x, hx, e⟩
  have pos : (0 : ℝ) < 1 / 10 ^ 32 := by norm_num
  cases hnz : a.normalize with
  | true =>
    have eB : rangePop a pop off = pop := by simp [rangePop, hnz]
    rw [eB] at m1 m2 m3 n1 n2 n3
    refine ⟨[l0, l1], [u0 + 1 / 10 ^ 32, u1 + 1 / 10 ^ 32], rfl, rfl, ?_, ?_, ?_, ?_⟩
    · intro j hj
      interval_cases j <;> simp only [List.getD_cons_zero, List.getD_cons_succ] <;> linarith
    · rw [eB]
      intro x hx j hj
      interval_cases j
      · have := n2.2 ⟨x, hx, rfl⟩
        simp only [List.getD_cons_zero]
        linarith
      · have := n3.2 ⟨x, hx, rfl⟩
        simp only [List.getD_cons_zero, List.getD_cons_succ]
        linarith
    · rw [eB]
      intro j hj
      interval_cases j
      · exact ⟨l0, u0, m2, n2, by
          simp only [spread, List.getD_cons_zero, hnz, if_true]
          rw [if_neg (by intro h; linarith)]⟩
      · exact ⟨l1, u1, m3, n3, by
          simp only [spread, List.getD_cons_zero, List.getD_cons_succ, hnz, if_true]
          rw [if_neg (by intro h; linarith)]⟩
    · simp only [Sms.advance, Option.bind_some, hnz, if_true, h2, m1, n1, Option.map_some, List.map_cons, List.map_nil]
  | false =>
    have eB : rangePop a pop off = pop ++ off := by simp [rangePop, hnz]
    rw [eB] at m1 m2 m3 n1 n2 n3
    refine ⟨[l0, l1], [u0, u1], rfl, rfl, ?_, ?_, ?_, ?_⟩
    · intro j hj
      interval_cases j <;> simpa
    · rw [eB]
      intro x hx j hj
      interval_cases j
      · exact n2.2 ⟨x, hx, rfl⟩
      · exact n3.2 ⟨x, hx, rfl⟩
    · rw [eB]
      intro j hj
      interval_cases j
      · exact ⟨l0, u0, m2, n2, by simp [spread, hnz]⟩
      · exact ⟨l1, u1, m3, n3, by simp [spread, hnz]⟩
    · simp [Sms.advance, hnz, h2, m1, n1]

theorem getD_mem_of_lt {M : List (List ℝ)} {i : ℕ} (h : i < M.length) : M.getD i [] ∈ M := by
  rw [List.getD_eq_getElem _ _ h]
  exact List.getElem_mem h

/-- The volume of the members `S`. -/
noncomputable def indexVol (M : List (List ℝ)) (ref : ℕ → ℝ) (S : List ℕ) : ℝ :=
  Spec.hvol 2 ((S.map fun i => M.getD i []).map pt) ref

theorem indexVol_congr {M : List (List ℝ)} {ref : ℕ → ℝ} {S T : List ℕ} (h : ∀ i, i ∈ S ↔ i ∈ T) :
    indexVol M ref S = indexVol M ref T := by
  refine Spec.hvol_congr_mem fun p => ?_
  simp only [List.mem_map, h]

/-- Members that are dominated do not count. -/
theorem indexVol_le {M : List (List ℝ)} {ref : ℕ → ℝ} {S T : List ℕ} (hM : ∀ x ∈ M, x.length = 2)
    (hS : ∀ i ∈ S, i < M.length) (hT : ∀ i ∈ T, i < M.length) (h : ∀ i ∈ S, i ∈ T ∨ ∃ j ∈ T, RowDominates M j i) :
    indexVol M ref S ≤ indexVol M ref T := by
  refine Spec.hvol_mono fun p hp _ => ?_
  simp only [List.mem_map, exists_exists_and_eq_and] at hp ⊢
  obtain ⟨i, hi, rfl⟩ := hp
  rcases h i hi with h | ⟨j, hj, hd⟩
  · exact ⟨i, h, fun _ _ => le_rfl⟩
  · refine ⟨j, hj, ?_⟩
    exact ((dominates_two (hM _ (getD_mem_of_lt (hT j hj))) (hM _ (getD_mem_of_lt (hS i hi)))).mp hd).1

theorem pop_eq_range (pop off : List (List ℝ)) : pop = (List.range pop.length).map fun i => (pop ++ off).getD i [] := by
  apply List.ext_getElem (by simp)
  intro i h1 h2
  rw [List.getElem_map, List.getElem_range, List.getD_eq_getElem _ _ (by simp; omega), List.getElem_append_left h1]

/-- C75: with one offspring per generation and two objectives, the generation returns a population of the same size whose
hypervolume is not smaller. -/
theorem C75_steady_partial : C75Statement 1 := by
  intro a h2 he hh pop off hM hμ hp ho hs
  have hne : pop ≠ [] := by
    rw [← List.length_pos_iff]; omega
  obtain ⟨ideal, nadir, li, ln, hle, hnad, href, hadv⟩ := range_exists a h2 (off := off) hne
  refine ⟨_, href, fun hoff => ?_⟩
  set M := pop ++ off with hMdef
  have hlM : M.length = a.popSize + 1 := by rw [hMdef, List.length_append]; omega
  set fronts := a.sort M a.popSize with hfr
  set ref : ℕ → ℝ := fun j => ideal.getD j 0 + (1 + a.eps) * spread ideal nadir j with hrefdef
  have hsound := hvObject_sound h2 hh ideal nadir M
  obtain ⟨out, o1, o2, o3, o4, o5⟩ := C47_survival hsound hs.nodup hs.lt hs.ranked
  rw [hlM, min_eq_left (by omega)] at o2
  have hlt : ∀ i ∈ out, i < M.length := fun i hi => (o4 i hi).2
  refine ⟨_, by rw [hadv, o1, Option.map_some], by rw [List.length_map, o2], ?_, ?_⟩
  · intro x hx
    obtain ⟨i, hi, rfl⟩ := List.mem_map.mp hx
    exact getD_mem_of_lt (hlt i hi)
  have epop : Spec.hvol 2 (pop.map pt) ref = indexVol M ref (List.range pop.length) := by
    rw [indexVol, hMdef, ← pop_eq_range]
  rw [epop]
  show _ ≤ indexVol M ref out
  set f0 := fronts.getD 0 [] with hf0
  have hf0lt : ∀ i ∈ f0, i < M.length := by
    intro i hi
    apply hs.lt
    rcases hcases : fronts with _ | ⟨f, fs⟩
    · rw [hf0, hcases] at hi; simp at hi
    · rw [hf0, hcases] at hi
      simp only [List.getD_cons_zero] at hi
      simp [hi]
  have hmono : indexVol M ref (List.range pop.length) ≤ indexVol M ref (List.range M.length) :=
    indexVol_le hM (fun i hi => by rw [hMdef, List.length_append]; have := List.mem_range.mp hi; omega)
      (fun i hi => List.mem_range.mp hi) fun i hi => .inl (by
        rw [List.mem_range] at hi ⊢
        rw [hMdef, List.length_append]
        omega)
  by_cases hall : ∀ i ∈ f0, i ∈ out
  · refine hmono.trans (indexVol_le hM (fun i hi => List.mem_range.mp hi) hlt fun i hi => ?_)
    by_cases hif : i ∈ f0
    · exact .inl (hall i hif)
    · obtain ⟨j, hj, hd⟩ := hs.first i (List.mem_range.mp hi) hif
      exact .inr ⟨j, hall j hj, hd⟩
  -- somebody of the first front is removed: then there is nobody else
  obtain ⟨f, fs, hcons⟩ : ∃ f fs, fronts = f :: fs := by
    rcases h : fronts with _ | ⟨f, fs⟩
    · exact absurd (fun i hi => by rw [hf0, h] at hi; simp at hi) hall
    · exact ⟨f, fs, rfl⟩
  have hff : f0 = f := by rw [hf0, hcons]; rfl
  have hsub : ∀ i ∈ out, i ∈ f0 := by
    intro i hi
    by_contra hne
    obtain ⟨g, hg, hig⟩ := List.mem_flatten.mp (o4 i hi).1
    obtain ⟨b, hb, rfl⟩ := List.mem_iff_getElem.mp hg
    have hb0 : 0 < b := by
      rcases Nat.eq_zero_or_pos b with rfl | h
      · exact absurd (by rw [hff]; simpa [hcons] using hig) hne
      · exact h
    exact hall (o5 0 b f _ (by rw [hcons]; rfl) (List.getElem?_eq_getElem hb) hb0 ⟨i, hig, hi⟩ |> fun h i hi =>
      h i (hff ▸ hi))
  have hf0nd : f0.Nodup := by
    have := hs.nodup
    rw [hcons, List.flatten_cons, List.nodup_append] at this
    rw [hff]
    exact this.1
  have hf0len : f0.length = a.popSize + 1 := by
    have h1 : out.length < f0.length := by
      push Not at hall
      obtain ⟨i, hi, hio⟩ := hall
      have := (List.subperm_of_subset (l₁ := i :: out) (List.nodup_cons.mpr ⟨hio, o3⟩) (l₂ := f0) (by
        intro k hk
        rcases List.mem_cons.mp hk with rfl | hk
        exacts [hi, hsub k hk])).length_le
      simpa using this
    have h3 := (List.subperm_of_subset hf0nd (l₂ := List.range M.length) fun i hi =>
      List.mem_range.mpr (hf0lt i hi)).length_le
    rw [List.length_range] at h3
    omega
  have hf0all : ∀ i < M.length, i ∈ f0 := by
    intro i hi
    have hperm := (List.subperm_of_subset hf0nd (l₂ := List.range M.length) fun i hi =>
      List.mem_range.mpr (hf0lt i hi)).perm_of_length_le (by rw [List.length_range]; omega)
    exact hperm.mem_iff.mpr (List.mem_range.mpr hi)
  obtain ⟨k, hk, hsf, hk', hmin⟩ := C47_least hsound (n := a.popSize) (L := []) (front := f0) (by simp) (by
    rw [List.length_nil, hf0len]; omega)
  rw [List.nil_append] at hsf
  have hout : out = f0.eraseIdx k := by
    have hfull : (f0.eraseIdx k).length = a.popSize := by rw [List.length_eraseIdx_of_lt hk]; omega
    have : survive (a.hvObject ideal nadir M) (some a.popSize) fronts = some (f0.eraseIdx k) := by
      show fronts.foldlM _ [] = _
      rw [hcons, List.foldlM_cons, ← hff, hsf]
      exact survive_full hsound hfull fs
    exact Option.some.inj (o1.symm.trans this)
  -- the contributions of the front
  set F := f0.map fun i => normalizeRow ideal nadir (M.getD i []) with hF
  have hFl : F.length = f0.length := by rw [hF, List.length_map]
  have hrow : ∀ i ∈ f0, (M.getD i []).length = 2 := fun i hi => hM _ (getD_mem_of_lt (hf0lt i hi))
  have hbelow : ∀ x ∈ M, ∀ j < 2, x.getD j 0 ≤ ref j := by
    intro x hx j hj
    have h1 : ∀ x ∈ rangePop a pop off, x.getD j 0 ≤ ref j := by
      intro x hx
      have h3 := hnad x hx j hj
      have h4 : nadir.getD j 0 ≤ ideal.getD j 0 + spread ideal nadir j := by
        unfold spread
        split_ifs with h
        · linarith
        · linarith
      have h5 := mul_nonneg he (spread_pos (hle j hj)).le
      rw [hrefdef]
      beta_reduce
      linarith
    rcases List.mem_append.mp hx with h | h
    · refine h1 x ?_
      unfold rangePop
      split_ifs
      exacts [h, hx]
    · exact hoff x h j hj
  have hex := hh.exact (List.replicate 2 (1 + a.eps)) F (by simp)
    (by
      intro x hx
      obtain ⟨i, hi, rfl⟩ := List.mem_map.mp hx
      refine ⟨normalizeRow_length li ln (hrow i hi), fun j hj => ?_⟩
      rw [normalizeRow_getD li ln (hrow i hi) hj, div_le_iff₀ (spread_pos (hle j hj))]
      have := hbelow _ (getD_mem_of_lt (hf0lt i hi)) j hj
      have e : (List.replicate 2 (1 + a.eps)).getD j 0 = 1 + a.eps := by interval_cases j <;> rfl
      rw [e]
      rw [hrefdef] at this
      beta_reduce at this
      linarith)
    (by
      intro x hx y hy hd
      obtain ⟨i, hi, rfl⟩ := List.mem_map.mp hx
      obtain ⟨j, hj, rfl⟩ := List.mem_map.mp hy
      exact hs.nondom i hi j hj (dominates_normalizeRow li ln hle (hrow i hi) (hrow j hj) hd))
  have hhvc : (a.hvObject ideal nadir M).hvc ((a.hvObject ideal nadir M).new f0) =
      (List.range F.length).map (contribution 2 (List.replicate 2 (1 + a.eps)) F) := by
    rw [← hex]
    simp only [Sms.hvObject, h2, if_true]
    rfl
  set k0 := f0.idxOf pop.length with hk0
  have hμ0 : pop.length ∈ f0 := hf0all _ (by rw [hlM]; omega)
  have hk0l : k0 < f0.length := List.idxOf_lt_length_of_mem hμ0
  have hcmp : contribution 2 (List.replicate 2 (1 + a.eps)) F k ≤ contribution 2 (List.replicate 2 (1 + a.eps)) F k0 := by
    have := hmin (contribution 2 (List.replicate 2 (1 + a.eps)) F k0) (by
      rw [hhvc]
      exact List.mem_map.mpr ⟨k0, List.mem_range.mpr (by omega), rfl⟩)
    simpa only [hhvc, List.getElem_map, List.getElem_range] using this
  have vol : ∀ S : List ℕ, (∀ i ∈ S, i ∈ f0) → indexVol M ref S = (∏ j ∈ Finset.range 2, spread ideal nadir j) *
      Spec.hvol 2 ((S.map fun i => normalizeRow ideal nadir (M.getD i [])).map pt) (pt (List.replicate 2 (1 + a.eps))) := by
    intro S hS
    rw [indexVol, hrefdef, hvol_normalize li ln hle (by
      intro x hx
      obtain ⟨i, hi, rfl⟩ := List.mem_map.mp hx
      exact hrow i (hS i hi)), List.map_map (l := S)]
    rfl
  have herase : ∀ t, F.eraseIdx t = (f0.eraseIdx t).map fun i => normalizeRow ideal nadir (M.getD i []) := fun t => by
    rw [hF, List.eraseIdx_map]
  have hpop : indexVol M ref (List.range pop.length) = indexVol M ref (f0.eraseIdx k0) := by
    refine indexVol_congr fun i => ?_
    rw [List.mem_range, hk0, ← List.erase_eq_eraseIdx_of_idxOf (by rfl), hf0nd.mem_erase_iff]
    constructor
    · intro h
      exact ⟨by omega, hf0all i (by omega)⟩
    · rintro ⟨h1, h3⟩
      have := hf0lt i h3
      omega
  rw [hpop, hout, vol _ fun i hi => (List.eraseIdx_sublist _ _).subset hi,
    vol _ fun i hi => (List.eraseIdx_sublist _ _).subset hi]
  unfold contribution at hcmp
  rw [herase, herase] at hcmp
  refine mul_le_mul_of_nonneg_left (by linarith) (Finset.prod_nonneg fun j hj => ?_)
  exact (spread_pos (hle j (Finset.mem_range.mp hj))).le

/-! ### Several offspring -/

/-- The area of a staircase: the leftmost point adds a rectangle. -/
theorem hvol_stair {p q r : ℕ → ℝ} {P : List (ℕ → ℝ)} (h0 : p 0 ≤ q 0) (h1 : q 1 ≤ p 1) (hP : ∀ z ∈ P, q 0 ≤ z 0)
    (hr0 : q 0 ≤ r 0) (hr1 : p 1 ≤ r 1) :
    Spec.hvol 2 (p :: q :: P) r = Spec.hvol 2 (q :: P) r + (q 0 - p 0) * (r 1 - p 1) := by
  rw [Spec.hvol_cons]
  congr 1
  have hset : Spec.exclusive 2 p (q :: P) r =
      Set.pi Set.univ fun i : Fin 2 => if i = 0 then Set.Ico (p 0) (q 0) else Set.Icc (p 1) (r 1) := by
    ext z
    simp only [Spec.exclusive, Set.mem_ofPred_eq, Set.mem_pi, Set.mem_univ, true_implies, Fin.forall_fin_two,
      List.mem_cons, exists_eq_or_imp, if_true, one_ne_zero, if_false, Set.mem_Ico, Set.mem_Icc, Fin.val_zero, Fin.val_one]
    constructor
    · rintro ⟨⟨a1, a2⟩, ⟨a3, a4⟩, a5⟩
      refine ⟨⟨a1, ?_⟩, a2, a4⟩
      by_contra h
      exact a5 (.inl ⟨not_lt.mp h, h1.trans a2⟩)
    · rintro ⟨⟨a1, a2⟩, a3, a4⟩
      refine ⟨⟨a1, a3⟩, ⟨a2.le.trans hr0, a4⟩, ?_⟩
      rintro (⟨b1, -⟩ | ⟨w, hw, b1, -⟩)
      · exact absurd a2 (not_lt.mpr b1)
      · exact absurd a2 (not_lt.mpr ((hP w hw).trans b1))
  rw [Spec.hvi, hset, MeasureTheory.volume_pi_pi]
  simp only [Fin.prod_univ_two, if_true, one_ne_zero, if_false, Real.volume_Ico, Real.volume_Icc]
  rw [ENNReal.toReal_mul, ENNReal.toReal_ofReal (by linarith), ENNReal.toReal_ofReal (by linarith)]

theorem argmin_eq {l : List ℝ} {k : ℕ} (hk : k < l.length) (h1 : ∀ i (hi : i < l.length), l[k] ≤ l[i])
    (h2 : ∀ i (hi : i < k), l[k] < l[i]) : argmin l = some k := by
  obtain ⟨m, e, hm, hle⟩ := moea_argmin_spec (l := l) (by rw [← List.length_pos_iff]; omega)
  have hv : l[m] = l[k] := le_antisymm (hle _ (List.getElem_mem hk)) (h1 m hm)
  unfold argmin at e ⊢
  rcases hmin : l.min? with _ | v
  · rw [hmin] at e; simp at e
  · obtain ⟨g1, g2⟩ := List.min?_eq_some_iff.mp hmin
    have hvk : v = l[k] := le_antisymm (g2 _ (List.getElem_mem hk)) (by
      obtain ⟨i, hi, rfl⟩ := List.mem_iff_getElem.mp g1
      exact h1 i hi)
    rw [Option.map_some, hvk]
    congr 1
    apply le_antisymm
    · by_contra hlt
      have := List.not_of_lt_findIdx (p := (· == l[k])) (xs := l) (i := k) (not_le.mp hlt)
      simp at this
    · by_contra hlt
      have hx : l.idxOf l[k] < l.length := List.idxOf_lt_length_of_mem (List.getElem_mem hk)
      have := h2 (l.idxOf l[k]) (by omega)
      rw [List.getElem_idxOf hx] at this
      exact lt_irrefl _ this

/-- Population `0, 1, 2` and offspring `3, 4, 5`. -/
def crowd : List (List ℝ) := [[0, 10], [10, 0], [3, 3], [2, 4], [4, 2], [9, 9]]

noncomputable def crowdSms : Sms ℝ where
  nObj := 2
  popSize := 3
  normalize := true
  eps := 10
  sort := fun _ _ => [[0, 1, 2, 3, 4]]
  hvc := fun ref F => (List.range F.length).map (contribution 2 ref F)

theorem crowdSms_exact : HvcExact crowdSms.hvc :=
  ⟨fun _ _ => by simp [crowdSms], fun _ _ _ _ _ => rfl⟩

theorem crowd_vol {r : ℕ → ℝ} (h0 : 100 < r 0) (h1 : 100 < r 1) :
    indexVol crowd r [0, 3, 2, 4, 1] = 2 * (r 1 - 10) + (r 1 - 4) + (r 1 - 3) + 6 * (r 1 - 2) + (r 0 - 10) * r 1 ∧
    indexVol crowd r [3, 2, 4, 1] = (r 1 - 4) + (r 1 - 3) + 6 * (r 1 - 2) + (r 0 - 10) * r 1 ∧
    indexVol crowd r [0, 3, 2, 4] = 2 * (r 1 - 10) + (r 1 - 4) + (r 1 - 3) + (r 0 - 4) * (r 1 - 2) ∧
    indexVol crowd r [0, 3, 4, 1] = 2 * (r 1 - 10) + 2 * (r 1 - 4) + 6 * (r 1 - 2) + (r 0 - 10) * r 1 ∧
    indexVol crowd r [0, 2, 4, 1] = 3 * (r 1 - 10) + (r 1 - 3) + 6 * (r 1 - 2) + (r 0 - 10) * r 1 ∧
    indexVol crowd r [0, 3, 2, 1] = 2 * (r 1 - 10) + (r 1 - 4) + 7 * (r 1 - 3) + (r 0 - 10) * r 1 ∧
    indexVol crowd r [3, 4, 1] = 2 * (r 1 - 4) + 6 * (r 1 - 2) + (r 0 - 10) * r 1 ∧
    indexVol crowd r [0, 3, 4] = 2 * (r 1 - 10) + 2 * (r 1 - 4) + (r 0 - 4) * (r 1 - 2) ∧
    indexVol crowd r [0, 4, 1] = 4 * (r 1 - 10) + 6 * (r 1 - 2) + (r 0 - 10) * r 1 ∧
    indexVol crowd r [0, 3, 1] = 2 * (r 1 - 10) + 8 * (r 1 - 4) + (r 0 - 10) * r 1 ∧
    indexVol crowd r [0, 2, 1] = 3 * (r 1 - 10) + 7 * (r 1 - 3) + (r 0 - 10) * r 1 := by
  have single : ∀ x y : ℝ, x ≤ 10 → y ≤ 10 → Spec.hvol 2 [pt [x, y]] r = (r 0 - x) * (r 1 - y) := by
    intro x y hx hy
    rw [Spec.hvol_single]
    · simp [Finset.prod_range_succ, pt]
    · intro i hi
      interval_cases i <;> simp [pt] <;> linarith
  simp only [indexVol, crowd, List.map_cons, List.map_nil, List.getD_cons_zero, List.getD_cons_succ]
  refine ⟨?_, ?_, ?_, ?_, ?_, ?_, ?_, ?_, ?_, ?_, ?_⟩ <;>
  · repeat rw [hvol_stair (by norm_num [pt]) (by norm_num [pt]) (by norm_num [pt]) (by norm_num [pt]; linarith)
      (by norm_num [pt]; linarith)]
    rw [single _ _ (by norm_num) (by norm_num)]
    simp only [pt, List.getD_cons_zero, List.getD_cons_succ]
    ring

theorem crowd_sort : SortOk crowd 3 [[0, 1, 2, 3, 4]] where
  nodup := by decide
  lt := by
    intro i hi
    simp only [List.flatten_cons, List.flatten_nil, List.append_nil, List.mem_cons, List.not_mem_nil, or_false] at hi
    simp only [crowd, List.length_cons, List.length_nil]
    omega
  ranked := by simp [crowd]
  first := by
    intro i hi hn
    obtain rfl : i = 5 := by
      simp only [crowd, List.length_cons, List.length_nil] at hi
      simp only [List.getD_cons_zero, List.mem_cons, List.not_mem_nil, or_false] at hn
      omega
    refine ⟨2, by simp, ?_⟩
    rw [RowDominates, dominates_two (by simp [crowd]) (by simp [crowd])]
    refine ⟨fun j hj => ?_, 0, by norm_num, by norm_num [crowd]⟩
    interval_cases j <;> norm_num [crowd]
  nondom := by
    intro i hi j hj hd
    simp only [List.getD_cons_zero, List.mem_cons, List.not_mem_nil, or_false] at hi hj
    rcases hi with rfl | rfl | rfl | rfl | rfl <;> rcases hj with rfl | rfl | rfl | rfl | rfl <;>
    · rw [RowDominates, dominates_two (by simp [crowd]) (by simp [crowd])] at hd
      obtain ⟨h1, k, hk, h2⟩ := hd
      have a0 := h1 0 (by norm_num)
      have a1 := h1 1 (by norm_num)
      interval_cases k <;> first
        | (norm_num [crowd] at a0; done)
        | (norm_num [crowd] at a1; done)
        | (norm_num [crowd] at h2; done)

theorem contribution_normalize {ideal nadir : List ℝ} (hi : ideal.length = 2) (hn : nadir.length = 2)
    (hs : ∀ j < 2, ideal.getD j 0 ≤ nadir.getD j 0) {M : List (List ℝ)} {S : List ℕ}
    (hM : ∀ i ∈ S, (M.getD i []).length = 2) (c : ℝ) (k : ℕ) :
    (∏ j ∈ Finset.range 2, spread ideal nadir j) *
      contribution 2 (List.replicate 2 c) (S.map fun i => normalizeRow ideal nadir (M.getD i [])) k =
    indexVol M (fun j => ideal.getD j 0 + c * spread ideal nadir j) S -
      indexVol M (fun j => ideal.getD j 0 + c * spread ideal nadir j) (S.eraseIdx k) := by
  have vol : ∀ T : List ℕ, (∀ i ∈ T, i ∈ S) → indexVol M (fun j => ideal.getD j 0 + c * spread ideal nadir j) T =
      (∏ j ∈ Finset.range 2, spread ideal nadir j) *
      Spec.hvol 2 ((T.map fun i => normalizeRow ideal nadir (M.getD i [])).map pt) (pt (List.replicate 2 c)) := by
    intro T hT
    rw [indexVol, hvol_normalize hi hn hs (by
      intro x hx
      obtain ⟨i, hi, rfl⟩ := List.mem_map.mp hx
      exact hM i (hT i hi)), List.map_map (l := T)]
    rfl
  rw [vol S fun _ h => h, vol (S.eraseIdx k) fun _ h => (List.eraseIdx_sublist _ _).subset h, contribution,
    List.eraseIdx_map, mul_sub]

/-- C75 is violated with as many offspring as members of the population, which is the default of pymoo: the members with the
least contribution are removed one after the other. Of the population `(0, 10)`, `(10, 0)`, `(3, 3)` and the offspring `(2, 4)`,
`(4, 2)`, `(9, 9)` first `(3, 3)` is removed because its neighbours are close, and then one of these. The hypervolume
decreases by one. -/
theorem C75_violated : ¬ C75Statement 3 := by
  intro h
  have hM : ∀ x ∈ crowd, x.length = 2 := by simp [crowd]
  obtain ⟨ref', href', hh⟩ := h crowdSms rfl (by norm_num [crowdSms]) crowdSms_exact [[0, 10], [10, 0], [3, 3]]
    [[2, 4], [4, 2], [9, 9]] hM (by norm_num [crowdSms]) rfl rfl crowd_sort
  obtain ⟨ideal, nadir, li, ln, hle, -, href, hadv⟩ := range_exists crowdSms rfl (pop := [[0, 10], [10, 0], [3, 3]])
    (off := [[2, 4], [4, 2], [9, 9]]) (by simp)
  have val : ∀ ref : ℕ → ℝ, GenerationRef crowdSms (rangePop crowdSms [[0, 10], [10, 0], [3, 3]] [[2, 4], [4, 2], [9, 9]])
      ref → ∀ j < 2, ref j = 11 * (10 + 1 / 10 ^ 32) := by
    intro ref hr j hj
    obtain ⟨lo, hi, h1, h2, h3⟩ := hr j hj
    have e1 : lo = 0 := h1.unique ⟨by interval_cases j <;> simp [rangePop, crowdSms], by
      rintro v ⟨x, hx, rfl⟩
      simp only [rangePop, crowdSms, if_true, List.mem_cons, List.not_mem_nil, or_false] at hx
      interval_cases j <;> rcases hx with rfl | rfl | rfl <;> norm_num⟩
    have e2 : hi = 10 := h2.unique ⟨by interval_cases j <;> simp [rangePop, crowdSms], by
      rintro v ⟨x, hx, rfl⟩
      simp only [rangePop, crowdSms, if_true, List.mem_cons, List.not_mem_nil, or_false] at hx
      interval_cases j <;> rcases hx with rfl | rfl | rfl <;> norm_num⟩
    rw [h3, e1, e2]
    norm_num [crowdSms]
  have v' := val ref' href'
  obtain ⟨pop', g1, -, -, g4⟩ := hh (by
    intro x hx j hj
    rw [v' j hj]
    simp only [List.mem_cons, List.not_mem_nil, or_false] at hx
    interval_cases j <;> rcases hx with rfl | rfl | rfl <;> norm_num)
  set ref : ℕ → ℝ := fun j => ideal.getD j 0 + (1 + crowdSms.eps) * spread ideal nadir j with hrefdef
  have v : ∀ j < 2, ref j = 11 * (10 + 1 / 10 ^ 32) := val _ href
  obtain ⟨w1, w2, w3, w4, w5, w6, w7, w8, w9, w10, w11⟩ := crowd_vol (r := ref) (by rw [v 0 (by norm_num)]; norm_num)
    (by rw [v 1 (by norm_num)]; norm_num)
  have hr0 := v 0 (by norm_num)
  have hr1 := v 1 (by norm_num)
  have hr : ref 0 = ref 1 := by rw [hr0, hr1]
  have hr100 : 100 < ref 1 := by rw [hr1]; norm_num
  rw [hr] at w1 w2 w3 w4 w5 w6 w7 w8 w9 w10 w11
  set R := ref 1
  have hpos : 0 < ∏ j ∈ Finset.range 2, spread ideal nadir j := Finset.prod_pos fun j hj =>
    spread_pos (hle j (Finset.mem_range.mp hj))
  have perm : ∀ S T : List ℕ, S.Perm T → indexVol crowd ref S = indexVol crowd ref T := fun S T h =>
    indexVol_congr fun i => h.mem_iff
  have lt_iff : ∀ (S : List ℕ), (∀ i ∈ S, i < 6) → ∀ k l,
      (indexVol crowd ref (S.eraseIdx l) ≤ indexVol crowd ref (S.eraseIdx k) →
        contribution 2 (List.replicate 2 (1 + crowdSms.eps)) (S.map fun i => normalizeRow ideal nadir (crowd.getD i [])) k ≤
        contribution 2 (List.replicate 2 (1 + crowdSms.eps)) (S.map fun i => normalizeRow ideal nadir (crowd.getD i [])) l) ∧
      (indexVol crowd ref (S.eraseIdx l) < indexVol crowd ref (S.eraseIdx k) →
        contribution 2 (List.replicate 2 (1 + crowdSms.eps)) (S.map fun i => normalizeRow ideal nadir (crowd.getD i [])) k <
        contribution 2 (List.replicate 2 (1 + crowdSms.eps)) (S.map fun i => normalizeRow ideal nadir (crowd.getD i [])) l) := by
    intro S hS k l
    have hrow : ∀ i ∈ S, (crowd.getD i []).length = 2 := fun i hi => hM _ (getD_mem_of_lt (hS i hi))
    have e1 := contribution_normalize li ln hle hrow (1 + crowdSms.eps) k
    have e2 := contribution_normalize li ln hle hrow (1 + crowdSms.eps) l
    rw [← hrefdef] at e1 e2
    constructor <;> intro hlt
    · refine le_of_mul_le_mul_left ?_ hpos
      rw [e1, e2]
      linarith
    · refine lt_of_mul_lt_mul_left ?_ hpos.le
      rw [e1, e2]
      linarith
  -- the first removal
  have step : ∀ (S : List ℕ) (k : ℕ), (∀ i ∈ S, i < 6) → k < S.length →
      (∀ i < S.length, indexVol crowd ref (S.eraseIdx i) ≤ indexVol crowd ref (S.eraseIdx k)) →
      (∀ i < k, indexVol crowd ref (S.eraseIdx i) < indexVol crowd ref (S.eraseIdx k)) →
      argmin ((crowdSms.hvObject ideal nadir crowd).hvc (S.map fun i => normalizeRow ideal nadir (crowd.getD i []))) =
        some k := by
    intro S k hS hk h1 h2
    have e : (crowdSms.hvObject ideal nadir crowd).hvc (S.map fun i => normalizeRow ideal nadir (crowd.getD i [])) =
        (List.range S.length).map (contribution 2 (List.replicate 2 (1 + crowdSms.eps))
          (S.map fun i => normalizeRow ideal nadir (crowd.getD i []))) := by
      simp [Sms.hvObject, crowdSms]
    rw [e]
    refine argmin_eq (by simpa using hk) ?_ ?_
    · intro i hi
      simp only [List.getElem_map, List.getElem_range]
      exact (lt_iff S hS k i).1 (h1 i (by simpa using hi))
    · intro i hi
      simp only [List.getElem_map, List.getElem_range]
      exact (lt_iff S hS k i).2 (h2 i hi)
  have s1 := step [0, 1, 2, 3, 4] 2 (by decide) (by decide)
    (by
      intro i hi
      simp only [List.length_cons, List.length_nil] at hi
      interval_cases i <;> simp only [List.eraseIdx_cons_zero, List.eraseIdx_cons_succ]
      · rw [perm [1, 2, 3, 4] [3, 2, 4, 1] (by decide), perm [0, 1, 3, 4] [0, 3, 4, 1] (by decide), w2, w4]; linarith
      · rw [perm [0, 2, 3, 4] [0, 3, 2, 4] (by decide), perm [0, 1, 3, 4] [0, 3, 4, 1] (by decide), w3, w4]; linarith
      · rfl
      · rw [perm [0, 1, 2, 4] [0, 2, 4, 1] (by decide), perm [0, 1, 3, 4] [0, 3, 4, 1] (by decide), w5, w4]; linarith
      · rw [perm [0, 1, 2, 3] [0, 3, 2, 1] (by decide), perm [0, 1, 3, 4] [0, 3, 4, 1] (by decide), w6, w4]; linarith)
    (by
      intro i hi
      interval_cases i <;> simp only [List.eraseIdx_cons_zero, List.eraseIdx_cons_succ]
      · rw [perm [1, 2, 3, 4] [3, 2, 4, 1] (by decide), perm [0, 1, 3, 4] [0, 3, 4, 1] (by decide), w2, w4]; linarith
      · rw [perm [0, 2, 3, 4] [0, 3, 2, 4] (by decide), perm [0, 1, 3, 4] [0, 3, 4, 1] (by decide), w3, w4]; linarith)
  have s2 := step [0, 1, 3, 4] 2 (by decide) (by decide)
    (by
      intro i hi
      simp only [List.length_cons, List.length_nil] at hi
      interval_cases i <;> simp only [List.eraseIdx_cons_zero, List.eraseIdx_cons_succ]
      · rw [perm [1, 3, 4] [3, 4, 1] (by decide), perm [0, 1, 4] [0, 4, 1] (by decide), w7, w9]; linarith
      · rw [w8, perm [0, 1, 4] [0, 4, 1] (by decide), w9]; linarith
      · rfl
      · rw [perm [0, 1, 3] [0, 3, 1] (by decide), perm [0, 1, 4] [0, 4, 1] (by decide), w10, w9]; linarith)
    (by
      intro i hi
      interval_cases i <;> simp only [List.eraseIdx_cons_zero, List.eraseIdx_cons_succ]
      · rw [perm [1, 3, 4] [3, 4, 1] (by decide), perm [0, 1, 4] [0, 4, 1] (by decide), w7, w9]; linarith
      · rw [w8, perm [0, 1, 4] [0, 4, 1] (by decide), w9]; linarith)
  have hsurv : survive (crowdSms.hvObject ideal nadir crowd) (some 3) [[0, 1, 2, 3, 4]] = some [0, 1, 4] := by
    have n1 : (crowdSms.hvObject ideal nadir crowd).new [0, 1, 2, 3, 4] =
        [0, 1, 2, 3, 4].map fun i => normalizeRow ideal nadir (crowd.getD i []) := rfl
    have n2 : (crowdSms.hvObject ideal nadir crowd).delete
        ([0, 1, 2, 3, 4].map fun i => normalizeRow ideal nadir (crowd.getD i [])) 2 =
        [0, 1, 3, 4].map fun i => normalizeRow ideal nadir (crowd.getD i []) := rfl
    simp only [survive, List.foldlM_cons, List.foldlM_nil, surviveFront, List.length_nil, List.length_cons]
    rw [if_pos (by norm_num), n1]
    rw [shrink, if_pos (by simp), s1, Option.bind_some, n2]
    simp only [List.eraseIdx_cons_zero, List.eraseIdx_cons_succ]
    rw [shrink, if_pos (by simp), s2, Option.bind_some]
    simp only [List.eraseIdx_cons_zero, List.eraseIdx_cons_succ]
    rw [shrink, if_neg (by simp)]
    rfl
  have hp' : pop' = [0, 1, 4].map fun i => crowd.getD i [] := by
    have : crowdSms.advance [[0, 10], [10, 0], [3, 3]] (some [[2, 4], [4, 2], [9, 9]]) =
        some ([0, 1, 4].map fun i => crowd.getD i []) := by
      rw [hadv]
      show (survive (crowdSms.hvObject ideal nadir crowd) (some 3) [[0, 1, 2, 3, 4]]).map _ = _
      rw [hsurv]
      rfl
    exact Option.some.inj (g1.symm.trans this)
  have hold : Spec.hvol 2 (([[0, 10], [10, 0], [3, 3]] : List (List ℝ)).map pt) ref' = indexVol crowd ref [0, 1, 2] :=
    hvol_congr_coords (fun _ _ _ _ => rfl) fun j hj => by rw [v' j hj, ← v j hj]
  have hnew : Spec.hvol 2 (pop'.map pt) ref' = indexVol crowd ref [0, 1, 4] := by
    rw [hp']
    exact hvol_congr_coords (fun _ _ _ _ => rfl) fun j hj => by rw [v' j hj, ← v j hj]
  rw [hold, hnew, perm [0, 1, 2] [0, 2, 1] (by decide), perm [0, 1, 4] [0, 4, 1] (by decide), w9, w11] at g4
  linarith

/-- C75, violation: unless there are two objectives, a generation raises whenever the first front does not fit. -/
theorem C75_violated_dimension {a : Sms ℝ} (h2 : a.nObj ≠ 2) {pop off : List (List ℝ)} {f : List ℕ} {fs : List (List ℕ)}
    (hs : a.sort (pop ++ off) a.popSize = f :: fs) (hf : a.popSize < f.length) : a.advance pop (some off) = none := by
  have hshrink : ∀ (ideal nadir : List ℝ) h, shrink (a.hvObject ideal nadir (pop ++ off)) a.popSize 0 f.length h f = none := by
    intro ideal nadir h
    obtain ⟨t, ht⟩ : ∃ t, f.length = t + 1 := ⟨f.length - 1, by omega⟩
    rw [ht, shrink, if_pos (by omega)]
    simp [Sms.hvObject, h2, argmin]
  have : ∀ ideal nadir : List ℝ, survive (a.hvObject ideal nadir (pop ++ off)) (some a.popSize)
      (a.sort (pop ++ off) a.popSize) = none := by
    intro ideal nadir
    rw [hs]
    simp only [survive, List.foldlM_cons, surviveFront, List.length_nil]
    rw [if_pos (by omega), hshrink]
    rfl
  simp only [Sms.advance, Option.bind_some, this, Option.map_none]
  rcases colMin a.nObj (if a.normalize = true then pop else pop ++ off) with _ | i
  · rfl
  · rw [Option.bind_some]
    split_ifs
    · rcases colMax a.nObj pop with _ | m <;> rfl
    · rcases colMax a.nObj (pop ++ off) with _ | m <;> rfl

/-- The hypotheses of `C75_steady_partial`: the same population with one offspring. -/
example : ∃ ref, GenerationRef { crowdSms with sort := fun _ _ => [[0, 1, 2, 3]] } [[0, 10], [10, 0], [3, 3]] ref ∧
    ((∀ x ∈ [[(2 : ℝ), 4]], ∀ j < 2, x.getD j 0 ≤ ref j) → ∃ pop',
      ({ crowdSms with sort := fun _ _ => [[0, 1, 2, 3]] } : Sms ℝ).advance [[0, 10], [10, 0], [3, 3]] (some [[2, 4]]) = some pop' ∧
      pop'.length = 3 ∧ (∀ x ∈ pop', x ∈ [[(0 : ℝ), 10], [10, 0], [3, 3], [2, 4]]) ∧
      Spec.hvol 2 ([[(0 : ℝ), 10], [10, 0], [3, 3]].map pt) ref ≤ Spec.hvol 2 (pop'.map pt) ref) := by
  refine C75_steady_partial { crowdSms with sort := fun _ _ => [[0, 1, 2, 3]] } rfl (by norm_num [crowdSms]) crowdSms_exact
    [[0, 10], [10, 0], [3, 3]] [[2, 4]] (by simp) (by norm_num [crowdSms]) rfl rfl ?_
  refine ⟨by decide, by simp, by simp [crowdSms], ?_, ?_⟩
  · intro i hi hn
    simp only [List.cons_append, List.nil_append, List.length_cons, List.length_nil] at hi
    simp only [List.getD_cons_zero, List.mem_cons, List.not_mem_nil, or_false] at hn
    omega
  · intro i hi j hj
    have e : ∀ k ∈ [0, 1, 2, 3], ([[0, 10], [10, 0], [3, 3]] ++ [[(2 : ℝ), 4]]).getD k [] = crowd.getD k [] := by
      simp [crowd]
    have hi' : i ∈ [0, 1, 2, 3] := hi
    have hj' : j ∈ [0, 1, 2, 3] := hj
    have hsub : ∀ k ∈ [0, 1, 2, 3], k ∈ [0, 1, 2, 3, 4] := by decide
    rw [RowDominates, e i hi', e j hj']
    exact crowd_sort.nondom i (hsub i hi') j (hsub j hj')

end Verif.Props
