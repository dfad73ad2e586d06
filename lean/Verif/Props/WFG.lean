import Verif.Prob.WFGOptimal

/-!
# C59: the WFG problems

`C59_shifts`, `C59_biases`, `C59_reductions` and `C59_shapes`: every transformation maps the unit interval to itself, and
`0.35` is the only zero of the linear shift and a zero of the others. `C59_range`: the objectives of a point of the box are
between `0` and `1 + 2 m`. `C59_optimal`: the points of `get_pareto_set` are Pareto optimal, except for WFG2, where
`C59_violated_wfg2` shows one that is dominated by another one of the set. `C59_front`: the front of WFG4 to WFG9 is a part
of the ellipsoid with half axes `2 m`.
-/

namespace Verif.Props

open Verif.Prob.WFG

/-- A value of the unit interval. -/
def Unit01 (v : ℝ) : Prop := 0 ≤ v ∧ v ≤ 1

/-- The shifts map the unit interval to itself. The linear one vanishes at `0.35` only, the deceptive one (inside of its
aperture) at its parameter only, and the multi-modal one at its parameter. -/
theorem C59_shifts (v : ℝ) (hv : Unit01 v) :
    (Unit01 (shiftLinear v) ∧ (shiftLinear v = 0 ↔ v = 0.35)) ∧
      (∀ A B C : ℝ, 0 < B → B < A → A + B < 1 → 0 < C → C ≤ 1 →
        Unit01 (shiftDeceptive A B C v) ∧ (shiftDeceptive A B C v = 0 ↔ v = A)) ∧
      ∀ (A : ℕ) (B C : ℝ), 0 ≤ B → 0 < C → C < 1 → Unit01 (shiftMultiModal A B C v) ∧ shiftMultiModal A B C C = 0 := by
  refine ⟨⟨shiftLinear_mem hv.1 hv.2, shiftLinear_eq_zero hv.1 hv.2⟩, ?_, fun A B C hB hC0 hC1 =>
    ⟨shiftMultiModal_mem hB hC0 hC1 hv.1 hv.2, shiftMultiModal_zero A⟩⟩
  intro A B C hB hBA hAB hC0 hC1
  obtain ⟨h1, h2, h3, h4⟩ := shiftDeceptive_eq hB hBA hAB hC0.le hC1 hv.1 hv.2
  refine ⟨⟨h1, h2⟩, ?_⟩
  rcases le_or_gt |v - A| B with h | h
  · rw [h3 h, div_eq_zero_iff, abs_eq_zero, sub_eq_zero]
    constructor
    · rintro (h | h)
      exacts [h, absurd h hB.ne']
    · exact Or.inl
  · constructor
    · intro h0
      have := h4 h
      linarith
    · rintro rfl
      rw [sub_self, abs_zero] at h
      exact absurd hB (not_lt.mpr h.le)

example : Unit01 0.35 ∧ (0 : ℝ) < 0.001 ∧ (0.001 : ℝ) < 0.35 ∧ (0.35 : ℝ) + 0.001 < 1 := by
  unfold Unit01
  norm_num

/-- The biases map the unit interval to itself. -/
theorem C59_biases (v : ℝ) (hv : Unit01 v) :
    (∀ a b c : ℝ, Unit01 a → 0 < b → b < c → c < 1 → Unit01 (biasFlat a b c v)) ∧
      (∀ alpha : ℝ, 0 ≤ alpha → Unit01 (biasPoly alpha v)) ∧ ∀ u, Unit01 u → Unit01 (paramDependent v u) :=
  ⟨fun _ _ _ ha hb hbc hc => ⟨(biasFlat_eq hb hbc hc ha.1 ha.2 hv.1 hv.2).1, (biasFlat_eq hb hbc hc ha.1 ha.2 hv.1 hv.2).2.1⟩,
    fun _ ha => biasPoly_mem ha hv.1 hv.2, fun _ hu => paramDependent_mem hv.1 hv.2 hu.1 hu.2⟩

/-- The reductions map vectors of the unit interval to the unit interval. -/
theorem C59_reductions (l : List ℝ) (hl : l ≠ []) (h : ∀ v ∈ l, Unit01 v) :
    (∃ v, uniformSum l = some v ∧ Unit01 v) ∧ (∃ v, nonSeparable l l.length = some v ∧ Unit01 v) ∧
      ∀ w : List ℝ, w.length = l.length → (∀ u ∈ w, 0 < u) → ∃ v, weightedSum (l.zip w) = some v ∧ Unit01 v := by
  refine ⟨uniformSum_mem hl h, nonSeparable_mem l hl h, fun w hw hpos => weightedSum_mem ?_ fun q hq => ?_⟩
  · have hp := List.length_pos_of_ne_nil hl
    exact ne_nil_of_length (List.length_zip ..) (by omega)
  · have := List.of_mem_zip (show (q.1, q.2) ∈ l.zip w from hq)
    exact ⟨h _ this.1, hpos _ this.2⟩

/-- The shapes map vectors of the unit interval to the unit interval, for each objective. -/
theorem C59_shapes (number nObj : ℕ) (h1 : 1 ≤ number) (hn : 2 ≤ nObj) (y : List ℝ) (hy : y.length = nObj)
    (h : ∀ v ∈ y, Unit01 v) : (shapes number nObj y).length = nObj ∧ ∀ s ∈ shapes number nObj y, Unit01 s := by
  refine ⟨shapes_length number nObj hn y, fun s hs => ?_⟩
  have hne : y ≠ [] := ne_nil_of_length hy (by omega)
  have e : y = y.dropLast ++ [y.getLast hne] := (List.dropLast_append_getLast hne).symm
  have hin : In01 y.dropLast := fun v hv => h v (List.dropLast_subset y hv)
  obtain ⟨m, hm, rfl⟩ := List.getElem_of_mem hs
  have hm' : m < nObj := by rwa [shapes_length number nObj hn] at hm
  have := shapes_getElem number nObj h1 hn y.dropLast (y.getLast hne) (by rw [List.length_dropLast, hy]) hin m hm'
  simp only [← e] at this
  rw [this]
  exact H_mem number _ _ hin

example : ∀ v ∈ ([0.2, 0, 1] : List ℝ), Unit01 v := by
  intro v hv
  simp only [List.mem_cons, List.not_mem_nil, or_false] at hv
  unfold Unit01
  rcases hv with rfl | rfl | rfl <;> norm_num

/-- A point of the box, with positive upper bounds and zero lower bounds. -/
def InWfgBox (xu x : List ℝ) : Prop := List.Forall₂ (fun v u => 0 < u ∧ 0 ≤ v ∧ v ≤ u) x xu

theorem InWfgBox.scaled {xu x : List ℝ} (h : InWfgBox xu x) :
    (List.zipWith (· / ·) x xu).length = xu.length ∧ In01 (List.zipWith (· / ·) x xu) := by
  induction h with
  | nil => exact ⟨rfl, fun _ h => absurd h List.not_mem_nil⟩
  | cons h _ ih =>
    refine ⟨by rw [List.zipWith_cons_cons, List.length_cons, List.length_cons, ih.1], fun v hv => ?_⟩
    rw [List.zipWith_cons_cons] at hv
    rcases List.mem_cons.mp hv with rfl | hv
    · exact ⟨div_nonneg h.2.1 h.1.le, (div_le_one h.1).mpr h.2.2⟩
    · exact ih.2 v hv

/-- The range of the objectives, for all parameters accepted by the constructor and all points of the box. -/
theorem C59_range (number nVar nObj k l : ℕ) (hv : valid number nVar nObj k l = true) (h1 : 1 ≤ number) (h9 : number ≤ 9)
    (xu x : List ℝ) (hu : xu.length = nVar) (hx : InWfgBox xu x) :
    ∃ fs, objective number nVar nObj k xu x = some fs ∧ fs.length = nObj ∧
      ∀ m (hm : m < fs.length), 0 ≤ fs[m] ∧ fs[m] ≤ 1 + 2 * (m + 1) := by
  obtain ⟨hl, hin⟩ := hx.scaled
  obtain ⟨cols, last, fs, ho, hlen, _, hc, hlast, _, hf⟩ := objective_eq hv h1 h9 xu x (by rw [hl, hu]) hin
  refine ⟨fs, ho, hlen, fun m hm => ?_⟩
  rw [hf m hm]
  have hH := H_mem number cols (nObj - 1 - m) hc
  have hm0 : (0 : ℝ) ≤ 2 * ((m : ℝ) + 1) := by positivity
  have a := mul_nonneg hm0 hH.1
  have b := mul_le_of_le_one_right hm0 hH.2
  constructor
  · linarith [hlast.1]
  · linarith [hlast.2]

example : valid 1 24 3 4 20 = true := by decide
example : valid 2 6 2 4 2 = true := by decide
example : InWfgBox [2, 4, 6, 8, 10, 12] [1, 0, 6, 3, 10, 5] := by
  unfold InWfgBox
  refine .cons ?_ (.cons ?_ (.cons ?_ (.cons ?_ (.cons ?_ (.cons ?_ .nil))))) <;> norm_num

/-- `_optimal_positions` of each of the classes. -/
noncomputable def wfgOptimal (number l : ℕ) (xu positions : List ℝ) : List ℝ :=
  if number = 8 then optimalPositions8 l xu positions
  else if number = 9 then optimalPositions9 l xu positions else optimalPositions l xu positions

theorem scale_back : ∀ (y xu : List ℝ), y.length = xu.length → In01 y → (∀ u ∈ xu, 0 < u) →
    InWfgBox xu (List.zipWith (· * ·) y xu) ∧ List.zipWith (· / ·) (List.zipWith (· * ·) y xu) xu = y
  | [], [], _, _, _ => ⟨.nil, rfl⟩
  | [], _ :: _, h, _, _ => by simp at h
  | _ :: _, [], h, _, _ => by simp at h
  | v :: y, u :: xu, h, hy, hu => by
    have hu0 := hu u List.mem_cons_self
    have hv := hy v List.mem_cons_self
    obtain ⟨h1, h2⟩ := scale_back y xu (by simpa using h) (fun w hw => hy w (List.mem_cons_of_mem _ hw))
      fun w hw => hu w (List.mem_cons_of_mem _ hw)
    refine ⟨.cons ⟨hu0, mul_nonneg hv.1 hu0.le, mul_le_of_le_one_left hu0.le hv.2⟩ h1, ?_⟩
    rw [List.zipWith_cons_cons, List.zipWith_cons_cons, h2, mul_div_cancel_right₀ _ hu0.ne']

theorem wfgOptimal_spec (number nVar nObj k l : ℕ) (hv : valid number nVar nObj k l = true)
    (xu pos : List ℝ) (hu : xu.length = nVar) (hu0 : ∀ u ∈ xu, 0 < u)
    (hp : pos.length = k) (h : ∀ v ∈ pos, Unit01 v) :
    InWfgBox xu (wfgOptimal number l xu pos) ∧
      OptDistance number nVar k (List.zipWith (· / ·) (wfgOptimal number l xu pos) xu) := by
  obtain ⟨v1, v2, v3, v4, v5, v6, _⟩ := valid_spec hv
  unfold wfgOptimal
  by_cases e8 : number = 8
  · subst e8
    rw [if_pos rfl]
    obtain ⟨a1, a2, _, _⟩ := optimal8_spec l pos (ne_nil_of_length hp (by omega)) h
    obtain ⟨b1, b2⟩ := scale_back (optimal8 l pos) xu (by omega) a2 hu0
    refine ⟨b1, ?_⟩
    unfold optimalPositions8
    rw [b2]
    exact opt8 v4 (by omega) pos hp h
  · rw [if_neg e8]
    by_cases e9 : number = 9
    · subst e9
      rw [if_pos rfl]
      obtain ⟨a1, a2, a3⟩ := opt9 v4 v5 pos hp h
      obtain ⟨b1, b2⟩ := scale_back _ xu (by omega) a2 hu0
      refine ⟨b1, ?_⟩
      unfold optimalPositions9
      rw [b2]
      exact a1
    · rw [if_neg e9]
      have hin : In01 (pos ++ List.replicate l 0.35) := append_mem h fun v hv => by
        rw [List.eq_of_mem_replicate hv]
        norm_num
      obtain ⟨b1, b2⟩ := scale_back (pos ++ List.replicate l 0.35) xu
        (by rw [List.length_append, List.length_replicate]; omega) hin hu0
      refine ⟨b1, ?_⟩
      unfold optimalPositions
      rw [b2]
      have hd : ∀ v ∈ (pos ++ List.replicate l (0.35 : ℝ)).drop k, v = 0.35 := by
        intro v hv
        rw [List.drop_append, hp, Nat.sub_self, List.drop_eq_nil_of_le (by omega)] at hv
        exact List.eq_of_mem_replicate hv
      unfold OptDistance
      split
      · exact absurd rfl e8
      · exact absurd rfl e9
      · exact hd

/-- The points of `get_pareto_set` are in the box and Pareto optimal, for each problem but WFG2: a point of the box that is
at least as good in every objective has the same objectives. -/
theorem C59_optimal (number nVar nObj k l : ℕ) (hv : valid number nVar nObj k l = true) (h1 : 1 ≤ number) (h9 : number ≤ 9)
    (h2 : number ≠ 2) (xu pos : List ℝ) (hu : xu.length = nVar) (hu0 : ∀ u ∈ xu, 0 < u) (hp : pos.length = k)
    (h : ∀ v ∈ pos, Unit01 v) :
    InWfgBox xu (wfgOptimal number l xu pos) ∧ ∃ fs, objective number nVar nObj k xu (wfgOptimal number l xu pos) = some fs ∧
      ∀ x gs, InWfgBox xu x → objective number nVar nObj k xu x = some gs → List.Forall₂ (· ≤ ·) gs fs → gs = fs := by
  obtain ⟨hbox, hopt⟩ := wfgOptimal_spec number nVar nObj k l hv xu pos hu hu0 hp h
  have v1 := (valid_spec hv).1
  refine ⟨hbox, ?_⟩
  obtain ⟨hl, hin⟩ := hbox.scaled
  obtain ⟨cols, last, fs, ho, hlen, hcl, hc, _, hz, hf⟩ := objective_eq hv h1 h9 xu _ (by rw [hl, hu]) hin
  have hlast := hz hopt
  subst hlast
  refine ⟨fs, ho, fun x gs hx hg hle => ?_⟩
  obtain ⟨hl', hin'⟩ := hx.scaled
  obtain ⟨cols', last', gs', ho', hlen', hcl', hc', hlast', _, hf'⟩ := objective_eq hv h1 h9 xu x (by rw [hl', hu]) hin'
  rw [hg] at ho'
  obtain rfl := Option.some.inj ho'
  have hle' : ∀ m (hm : m < gs.length) (hm' : m < fs.length), gs[m] ≤ fs[m] := fun m hm hm' => hle.get hm hm'
  have hH : ∀ j, j ≤ cols'.length → H number cols' j ≤ H number cols j := by
    intro j hj
    have hm : nObj - 1 - j < gs.length := by omega
    have hm' : nObj - 1 - j < fs.length := by omega
    have := hle' _ hm hm'
    rw [hf' _ hm, hf _ hm', show nObj - 1 - (nObj - 1 - j) = j by omega, zero_add] at this
    have hs : (0 : ℝ) < 2 * (((nObj - 1 - j : ℕ) : ℝ) + 1) := by positivity
    exact le_of_mul_le_mul_left (by linarith [hlast'.1]) hs
  have hE := H_antichain number h2 cols' cols (ne_nil_of_length hcl' (by omega)) (by omega) hc' hc hH
  have hl0 : last' = 0 := by
    have hm : 0 < gs.length := by omega
    have hm' : 0 < fs.length := by omega
    have := hle' 0 hm hm'
    rw [hf' 0 hm, hf 0 hm', hE (nObj - 1 - 0) (by omega), zero_add] at this
    linarith [hlast'.1]
  refine List.ext_getElem (by omega) fun m hm hm' => ?_
  rw [hf' m hm, hf m hm', hl0, hE (nObj - 1 - m) (by omega)]

example : (∀ u ∈ ([2, 4, 6, 8, 10, 12] : List ℝ), 0 < u) ∧ ∀ v ∈ ([1, 0.5, 0, 0.25] : List ℝ), Unit01 v := by
  refine ⟨fun u hu => ?_, fun v hv => ?_⟩
  · simp only [List.mem_cons, List.not_mem_nil, or_false] at hu
    rcases hu with rfl | rfl | rfl | rfl | rfl | rfl <;> norm_num
  · simp only [List.mem_cons, List.not_mem_nil, or_false] at hv
    unfold Unit01
    rcases hv with rfl | rfl | rfl | rfl <;> norm_num

/-- WFG4 to WFG9: `sum_m (f_m / (2 m))^2` is at least one in the box, and one at the points of `get_pareto_set`. -/
theorem C59_front (number nVar nObj k l : ℕ) (hv : valid number nVar nObj k l = true) (h4 : 4 ≤ number) (h9 : number ≤ 9)
    (xu : List ℝ) (hu : xu.length = nVar) :
    (∀ x fs, InWfgBox xu x → objective number nVar nObj k xu x = some fs →
      1 ≤ ∑ m ∈ Finset.range nObj, (fs.getD m 0 / (2 * (m + 1))) ^ 2) ∧
    ∀ pos fs, (∀ u ∈ xu, 0 < u) → pos.length = k → (∀ v ∈ pos, Unit01 v) →
      objective number nVar nObj k xu (wfgOptimal number l xu pos) = some fs →
        ∑ m ∈ Finset.range nObj, (fs.getD m 0 / (2 * (m + 1))) ^ 2 = 1 := by
  have v1 := (valid_spec hv).1
  have sphere : ∀ cols : List ℝ, cols.length = nObj - 1 → ∑ m ∈ Finset.range nObj, H number cols (nObj - 1 - m) ^ 2 = 1 := by
    intro cols hcl
    rw [Finset.sum_range_reflect (fun j => H number cols j ^ 2) nObj]
    have := H_sphere number h4 cols (ne_nil_of_length hcl (by omega))
    rwa [hcl, show nObj - 1 + 1 = nObj by omega] at this
  constructor
  · intro x fs hx hx'
    obtain ⟨hl, hin⟩ := hx.scaled
    obtain ⟨cols, last, fs', ho, hlen, hcl, hc, hlast, _, hf⟩ := objective_eq hv (by omega) h9 xu x (by rw [hl, hu]) hin
    rw [hx'] at ho
    obtain rfl := Option.some.inj ho
    refine (sphere cols hcl).symm.le.trans (Finset.sum_le_sum fun m hm => ?_)
    have hm' := Finset.mem_range.mp hm
    have hs : (0 : ℝ) < 2 * ((m : ℝ) + 1) := by positivity
    have hH := (H_mem number cols (nObj - 1 - m) hc).1
    rw [List.getD_eq_getElem _ _ (by omega), hf m (by omega), add_div, mul_div_cancel_left₀ _ hs.ne']
    have hd : 0 ≤ last / (2 * ((m : ℝ) + 1)) := div_nonneg hlast.1 hs.le
    exact pow_le_pow_left₀ hH (by linarith) 2
  · intro pos fs hu0 hp h hx'
    obtain ⟨hbox, hopt⟩ := wfgOptimal_spec number nVar nObj k l hv xu pos hu hu0 hp h
    obtain ⟨hl, hin⟩ := hbox.scaled
    obtain ⟨cols, last, fs', ho, hlen, hcl, hc, hlast, hz, hf⟩ := objective_eq hv (by omega) h9 xu _ (by rw [hl, hu]) hin
    rw [hx'] at ho
    obtain rfl := Option.some.inj ho
    refine (Finset.sum_congr rfl fun m hm => ?_).trans (sphere cols hcl)
    have hm' := Finset.mem_range.mp hm
    have hs : (0 : ℝ) < 2 * ((m : ℝ) + 1) := by positivity
    rw [List.getD_eq_getElem _ _ (by omega), hf m (by omega), hz hopt, zero_add, mul_div_cancel_left₀ _ hs.ne']

/-- WFG2 with two objectives, four position variables of the same value and two distance variables. -/
theorem wfg2_value (p : ℝ) (hp : Unit01 p) : objective 2 6 2 4 [2, 4, 6, 8, 10, 12] (wfgOptimal 2 2 [2, 4, 6, 8, 10, 12] [p, p, p, p]) =
    some [2 * (1 - Real.cos (0.5 * p * Real.pi)), 4 * disconnected p] := by
  have hy : List.zipWith (· / ·) (wfgOptimal 2 2 [2, 4, 6, 8, 10, 12] [p, p, p, p]) [2, 4, 6, 8, 10, 12] =
      [p, p, p, p, 0.35, 0.35] := by
    refine (scale_back [p, p, p, p, 0.35, 0.35] [2, 4, 6, 8, 10, 12] rfl ?_ ?_).2
    · intro v hv
      simp only [List.mem_cons, List.not_mem_nil, or_false] at hv
      rcases hv with rfl | rfl | rfl | rfl | rfl | rfl
      iterate 4 exact hp
      iterate 2 norm_num
    · intro u hu
      simp only [List.mem_cons, List.not_mem_nil, or_false] at hu
      rcases hu with rfl | rfl | rfl | rfl | rfl | rfl <;> norm_num
  have h4 : uniformSum [p, p, p, p] = some p := by
    rw [uniformSum_eq (by simp) (by
      intro v hv
      simp only [List.mem_cons, List.not_mem_nil, or_false] at hv
      rcases hv with rfl | rfl | rfl | rfl <;> exact hp)]
    congr 1
    simp only [List.sum_cons, List.sum_nil, List.length_cons, List.length_nil]
    push_cast
    ring
  have h0 : uniformSum [0] = some 0 := uniformSum_zero (by simp) (by simp)
  have hns : nonSeparable [0, 0] 2 = some 0 := nonSeparable_zero 2 (by norm_num)
  have ht1 : t1 4 [p, p, p, p, 0.35, 0.35] = [p, p, p, p, 0, 0] := by
    unfold t1
    simp only [List.take_succ_cons, List.take_zero, List.drop_succ_cons, List.drop_zero, List.map_cons, List.map_nil, linear_zero,
      List.cons_append, List.nil_append]
  have hpairs : pairs [0, 0] = some [0] := by
    rw [pairs, hns]
    rfl
  have hred : reduceGroups uniformSum uniformSum 2 4 [p, p, p, p, 0] = some [p, 0] := by
    have e1 : (List.range (2 - 1)).mapM (fun i => uniformSum (([p, p, p, p, 0].drop (i * (4 / (2 - 1)))).take (4 / (2 - 1)))) =
        some [p] := by
      have e2 : List.range (2 - 1) = [0] := rfl
      have e3 : ([p, p, p, p, 0].drop (0 * (4 / (2 - 1)))).take (4 / (2 - 1)) = [p, p, p, p] := by simp
      rw [e2, List.mapM_cons, e3, h4]
      rfl
    unfold reduceGroups
    dsimp only
    rw [e1, Option.bind_some, show [p, p, p, p, 0].drop 4 = [0] from rfl, h0]
    rfl
  have hpost : post [1] [p, 0] = [p, 0] := by
    unfold post
    have e : max ((0 : ℝ)) 1 * (p - 0.5) + 0.5 = p := by
      rw [max_eq_right zero_le_one]
      ring
    show [max (0 : ℝ) 1 * (p - 0.5) + 0.5] ++ [0] = [p, 0]
    rw [e]
    rfl
  have htr : transform 2 6 2 4 (degenerate 2 2) [p, p, p, p, 0.35, 0.35] = some [p, 0] := by
    unfold transform
    dsimp only
    rw [ht1]
    show (pairs [0, 0]).bind _ = _
    rw [hpairs]
    show (reduceGroups uniformSum uniformSum 2 4 [p, p, p, p, 0]).map (post [1]) = _
    rw [hred, Option.map_some, hpost]
  have hcv : convex [p] 1 = 1 - Real.cos (0.5 * p * Real.pi) := by
    have hm := p_mem 1 p hp.1 hp.2
    have e : convex [p] 1 = correct01 ((([p] : List ℝ).map fun v => 1 - Real.cos (0.5 * v * Real.pi)).prod) := rfl
    rw [e, List.map_cons, List.map_nil, List.prod_cons, List.prod_nil, mul_one]
    exact correct01_of_mem hm.1 hm.2
  unfold objective
  rw [hy, htr, Option.map_some]
  show some [0 + 2 * (((0 : ℕ) : ℝ) + 1) * convex [p] 1, 0 + 2 * (((1 : ℕ) : ℝ) + 1) * disconnected p] = _
  rw [hcv]
  norm_num

/-- WFG2: the position `0.1` is dominated by the position `0`, and both are points of the shape `get_pareto_set` returns. -/
theorem C59_violated_wfg2 : ∃ f g : List ℝ,
    objective 2 6 2 4 [2, 4, 6, 8, 10, 12] (wfgOptimal 2 2 [2, 4, 6, 8, 10, 12] [0.1, 0.1, 0.1, 0.1]) = some f ∧
    objective 2 6 2 4 [2, 4, 6, 8, 10, 12] (wfgOptimal 2 2 [2, 4, 6, 8, 10, 12] [0, 0, 0, 0]) = some g ∧
      List.Forall₂ (· ≤ ·) g f ∧ g ≠ f := by
  refine ⟨_, _, wfg2_value 0.1 (by unfold Unit01; norm_num), wfg2_value 0 (by unfold Unit01; norm_num), ?_, ?_⟩
  · refine .cons ?_ (.cons ?_ .nil)
    · have := Real.cos_le_one (0.5 * 0.1 * Real.pi)
      rw [mul_zero, zero_mul, Real.cos_zero]
      linarith
    · have e1 : disconnected 0.1 = 1 := by
        unfold disconnected
        have : 5 * Real.pi * 0.1 = Real.pi / 2 := by ring
        rw [this, Real.cos_pi_div_two]
        norm_num [correct01]
      have := (disconnected_mem (x := 0) le_rfl zero_le_one).2
      rw [e1]
      linarith
  · intro h
    have h' := (List.cons.inj h).1
    rw [mul_zero, zero_mul, Real.cos_zero] at h'
    have hlt : Real.cos (0.5 * 0.1 * Real.pi) < Real.cos 0 := by
      have := Real.pi_pos
      exact Real.cos_lt_cos_of_nonneg_of_le_pi_div_two le_rfl (by linarith) (by positivity)
    rw [Real.cos_zero] at hlt
    linarith

end Verif.Props
