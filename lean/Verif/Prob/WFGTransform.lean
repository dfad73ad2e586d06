import Verif.Prob.WFGReduce

/-!
# The vector the WFG shapes are made of
-/

namespace Verif.Prob.WFG

theorem valid_spec {number nVar nObj k l : ℕ} (h : valid number nVar nObj k l = true) :
    2 ≤ nObj ∧ 4 ≤ k ∧ k = k / (nObj - 1) * (nObj - 1) ∧ k + l = nVar ∧ 1 ≤ l ∧ 0 < k / (nObj - 1) ∧
      (number = 2 ∨ number = 3 → l % 2 = 0) := by
  unfold valid at h
  simp only [Bool.not_eq_true', Bool.or_eq_false_iff, decide_eq_false_iff_not, not_lt, not_not, Bool.and_eq_false_iff,
    beq_eq_false_iff_ne] at h
  obtain ⟨⟨⟨⟨h1, h2⟩, h3⟩, ⟨h4, h5⟩, h6⟩, h7⟩ := h
  have n1 : 2 ≤ nObj := by exact_mod_cast h1
  have n2 : 4 ≤ k := by exact_mod_cast h2
  have n3 : k % (nObj - 1) = 0 := by
    have e : ((nObj - 1 : ℕ) : ℤ) = (nObj : ℤ) - 1 := by
      rw [Nat.cast_sub (by omega)]
      rfl
    rw [← e] at h3
    exact_mod_cast h3
  have n3' : k = k / (nObj - 1) * (nObj - 1) := (Nat.div_mul_cancel (Nat.dvd_of_mod_eq_zero n3)).symm
  refine ⟨n1, n2, n3', by exact_mod_cast h4, by exact_mod_cast h5, ?_, fun hn => ?_⟩
  · rcases Nat.eq_zero_or_pos (k / (nObj - 1)) with h0 | h0
    · rw [h0, Nat.zero_mul] at n3'
      omega
    · exact h0
  · rcases h7 with h7 | h7
    · rcases hn with rfl | rfl
      · exact absurd rfl h7.1
      · exact absurd rfl h7.2
    · exact_mod_cast h7

theorem degenerate_spec (number nObj : ℕ) (h : 2 ≤ nObj) :
    (∀ a ∈ degenerate number nObj, a = 0 ∨ a = 1) ∧ (degenerate number nObj).length = nObj - 1 := by
  unfold degenerate
  by_cases hn : number = 3
  · rw [if_pos hn]
    refine ⟨fun a ha => ?_, by rw [List.length_cons, List.length_replicate]; omega⟩
    rcases List.mem_cons.mp ha with rfl | ha
    · exact Or.inr rfl
    · exact Or.inl (List.eq_of_mem_replicate ha)
  · rw [if_neg hn]
    exact ⟨fun a ha => Or.inr (List.eq_of_mem_replicate ha), List.length_replicate⟩

/-- The distance variables have the values for which the distance vanishes. -/
def OptDistance (number nVar k : ℕ) (y : List ℝ) : Prop :=
  match number with
  | 8 => ∀ out, dependent (fun i => k ≤ i) (fun i y => y.take i) y = some out → ∀ v ∈ out.drop k, v = 0.35
  | 9 => ∀ out, dependent (fun i => i < nVar - 1) (fun i y => y.drop (i + 1)) y = some out → ∀ v ∈ out.drop k, v = 0.35
  | _ => ∀ v ∈ y.drop k, v = 0.35

/-- What is shown of each of the transformations. -/
def Good (nObj : ℕ) (opt : Prop) (r : Option (List ℝ)) : Prop :=
  ∃ cols last, r = some (cols ++ [last]) ∧ cols.length = nObj - 1 ∧ In01 (cols ++ [last]) ∧ (opt → last = 0)

theorem good_post {nObj : ℕ} {opt : Prop} {r : Option (List ℝ)} {A : List ℝ} (hA : ∀ a ∈ A, a = 0 ∨ a = 1)
    (hl : A.length = nObj - 1) (h : Good nObj opt r) : Good nObj opt (r.map (post A)) := by
  obtain ⟨cols, last, hr, hc, hin, ho⟩ := h
  obtain ⟨c, h1, h2, h3⟩ := post_mem A cols last hA (by rw [hl, hc]) hin
  exact ⟨c, last, by rw [hr, Option.map_some, h1], by rw [h2, hc], h3, ho⟩

theorem good_reduce {α : Type} (P : α → Prop) (f g : List α → Option ℝ) (nObj k : ℕ) (x : List α) (opt : Prop)
    (hdvd : k = k / (nObj - 1) * (nObj - 1)) (hk : k ≤ x.length) (hx : ∀ a ∈ x, P a)
    (hf : ∀ l : List α, l.length = k / (nObj - 1) → (∀ a ∈ l, P a) → ∃ v, f l = some v ∧ 0 ≤ v ∧ v ≤ 1)
    (hg : ∀ l : List α, l.length = x.length - k → (∀ a ∈ l, P a) → ∃ v, g l = some v ∧ 0 ≤ v ∧ v ≤ 1)
    (hz : opt → g (x.drop k) = some 0) : Good nObj opt (reduceGroups f g nObj k x) := by
  obtain ⟨cols, last, h1, h2, h3, h4⟩ := reduceGroups_mem P f g nObj k x hdvd hk hx hf hg
  refine ⟨cols, last, h1, h2, h3, fun ho => ?_⟩
  rw [hz ho] at h4
  exact (Option.some.inj h4).symm

theorem ne_nil_of_length {α : Type} {l : List α} {n : ℕ} (h : l.length = n) (hn : 0 < n) : l ≠ [] := by
  rintro rfl
  rw [List.length_nil] at h
  omega

/-- The reduction by means. -/
theorem good_uniform (nObj k : ℕ) (x : List ℝ) (opt : Prop) (hdvd : k = k / (nObj - 1) * (nObj - 1))
    (hgap : 0 < k / (nObj - 1)) (hk : k < x.length) (hx : In01 x) (hz : opt → ∀ v ∈ x.drop k, v = 0) :
    Good nObj opt (reduceGroups uniformSum uniformSum nObj k x) :=
  good_reduce (fun v => 0 ≤ v ∧ v ≤ 1) _ _ nObj k x opt hdvd hk.le hx
    (fun _ hl h => uniformSum_mem (ne_nil_of_length hl hgap) h)
    (fun _ hl h => uniformSum_mem (ne_nil_of_length hl (by omega)) h)
    (fun ho => uniformSum_zero (ne_nil_of_length (List.length_drop ..) (by omega)) (hz ho))

theorem eq_replicate_zero {l : List ℝ} (h : ∀ v ∈ l, v = 0) : l = List.replicate l.length 0 :=
  List.eq_replicate_iff.mpr ⟨rfl, h⟩

/-- The non-separable reduction. -/
theorem good_nonsep (nVar nObj k : ℕ) (x : List ℝ) (opt : Prop) (hdvd : k = k / (nObj - 1) * (nObj - 1))
    (hgap : 0 < k / (nObj - 1)) (hk : k < nVar) (hn : x.length = nVar) (hx : In01 x) (hz : opt → ∀ v ∈ x.drop k, v = 0) :
    Good nObj opt (reduceGroups (nonSeparable · (k / (nObj - 1))) (nonSeparable · (nVar - k)) nObj k x) := by
  refine good_reduce (fun v => 0 ≤ v ∧ v ≤ 1) _ _ nObj k x opt hdvd (by omega) hx ?_ ?_ ?_
  · intro l hl h
    rw [← hl]
    exact nonSeparable_mem l (ne_nil_of_length hl hgap) h
  · intro l hl h
    rw [hn] at hl
    rw [← hl]
    exact nonSeparable_mem l (ne_nil_of_length hl (by omega)) h
  · intro ho
    have hl : (x.drop k).length = nVar - k := by rw [List.length_drop, hn]
    have := eq_replicate_zero (hz ho)
    rw [hl] at this
    rw [this]
    exact nonSeparable_zero _ (by omega)

theorem biasFlat_mem {v : ℝ} (h0 : 0 ≤ v) (h1 : v ≤ 1) : 0 ≤ biasFlat 0.8 0.75 0.85 v ∧ biasFlat 0.8 0.75 0.85 v ≤ 1 := by
  have := biasFlat_eq (a := 0.8) (b := 0.75) (c := 0.85) (by norm_num) (by norm_num) (by norm_num) (by norm_num) (by norm_num) h0 h1
  exact ⟨this.1, this.2.1⟩

theorem deceptive_mem {v : ℝ} (h0 : 0 ≤ v) (h1 : v ≤ 1) :
    0 ≤ shiftDeceptive 0.35 0.001 0.05 v ∧ shiftDeceptive 0.35 0.001 0.05 v ≤ 1 := by
  have := shiftDeceptive_eq (A := 0.35) (B := 0.001) (C := 0.05) (by norm_num) (by norm_num) (by norm_num) (by norm_num) (by norm_num) h0 h1
  exact ⟨this.1, this.2.1⟩

theorem deceptive_zero : shiftDeceptive 0.35 0.001 0.05 0.35 = 0 := by
  have := (shiftDeceptive_eq (A := 0.35) (B := 0.001) (C := 0.05) (y := 0.35) (by norm_num) (by norm_num) (by norm_num)
    (by norm_num) (by norm_num) (by norm_num) (by norm_num)).2.2.1 (by norm_num)
  rw [this, sub_self, abs_zero, zero_div]

theorem linear_zero : shiftLinear 0.35 = 0 := (shiftLinear_eq_zero (by norm_num) (by norm_num)).mpr rfl

theorem flat_zero : biasFlat 0.8 0.75 0.85 0 = 0 := by
  have := (biasFlat_eq (a := 0.8) (b := 0.75) (c := 0.85) (y := 0) (by norm_num) (by norm_num) (by norm_num) (by norm_num) (by norm_num)
    le_rfl (by norm_num)).2.2.1 (by norm_num)
  rw [this, zero_div, mul_zero]

theorem poly_zero : biasPoly 0.02 0 = 0 := by
  unfold biasPoly
  rw [Real.zero_rpow (by norm_num)]
  norm_num [correct01]

theorem multi30_zero (B : ℝ) : shiftMultiModal 30 B 0.35 0.35 = 0 := by
  have := shiftMultiModal_zero 30 (B := B) (C := 0.35)
  norm_num at this ⊢
  exact this

theorem t1_mem {y : List ℝ} (h : In01 y) (k : ℕ) : In01 (t1 k y) :=
  append_mem (take_mem h k) (map_mem (fun _ => shiftLinear_mem) (drop_mem h k))

theorem t1_zero {y : List ℝ} (k : ℕ) (hk : k ≤ y.length) (h : ∀ v ∈ y.drop k, v = 0.35) : ∀ v ∈ (t1 k y).drop k, v = 0 := by
  intro v hv
  unfold t1 at hv
  rw [mapTail_drop k _ y hk] at hv
  obtain ⟨w, hw, rfl⟩ := List.mem_map.mp hv
  rw [h w hw, linear_zero]

/-- The variables on which nothing depends are kept. -/
theorem mapM_getElem? {α : Type} (f : α → Option ℝ) : ∀ (l : List α) (out : List ℝ), l.mapM f = some out →
    ∀ (i : ℕ) (hi : i < l.length), ∃ hi' : i < out.length, f l[i] = some out[i]
  | [], _, _, i, hi => absurd hi (Nat.not_lt_zero i)
  | a :: l, out, h, i, hi => by
    rw [List.mapM_cons] at h
    rcases ha : f a with _ | v
    · rw [ha] at h
      exact absurd h (by simp)
    · rcases hl : l.mapM f with _ | vs
      · rw [ha, hl] at h
        exact absurd h (by simp)
      · rw [ha, hl] at h
        have e : v :: vs = out := Option.some.inj h
        subst e
        cases i with
        | zero => exact ⟨by simp, ha⟩
        | succ i =>
          obtain ⟨h1, h2⟩ := mapM_getElem? f l vs hl i (by simpa using hi)
          exact ⟨by simpa using h1, h2⟩

theorem dependent_getElem {cond : ℕ → Bool} {others : ℕ → List ℝ → List ℝ} {y out : List ℝ}
    (h : dependent cond others y = some out) (i : ℕ) (hi : i < y.length) : ∃ hi' : i < out.length,
      (if cond i then (uniformSum (others i y)).map fun u => paramDependent (y.getD i 0) u else some (y.getD i 0)) = some out[i] := by
  obtain ⟨h1, h2⟩ := mapM_getElem? _ _ out h i (by rw [List.length_range]; exact hi)
  refine ⟨h1, ?_⟩
  rw [List.getElem_range] at h2
  exact h2

theorem transform_good {number nVar nObj k l : ℕ} (hv : valid number nVar nObj k l = true) (h1 : 1 ≤ number)
    (h9 : number ≤ 9) (y : List ℝ) (hy : y.length = nVar) (h : In01 y) :
    Good nObj (OptDistance number nVar k y) (transform number nVar nObj k (degenerate number nObj) y) := by
  obtain ⟨v1, v2, v3, v4, v5, v6, v7⟩ := valid_spec hv
  obtain ⟨hA, hAl⟩ := degenerate_spec number nObj v1
  have hk : k < nVar := by omega
  have hky : k ≤ y.length := by omega
  have t1l : ∀ y : List ℝ, (t1 k y).length = y.length := fun y => mapTail_length k _ y
  have two : ∀ A : List ℝ, (∀ a ∈ A, a = 0 ∨ a = 1) → A.length = nObj - 1 → l % 2 = 0 →
      Good nObj (∀ v ∈ y.drop k, v = 0.35) ((pairs ((t1 k y).drop k)).bind fun z =>
        (reduceGroups uniformSum uniformSum nObj k ((t1 k y).take k ++ z)).map (post A)) := by
    intro A hA hAl hev
    obtain ⟨z, hz, hzl, hz01⟩ := pairs_mem _ (drop_mem (t1_mem h k) k)
    rw [hz]
    rw [List.length_drop, t1l, hy] at hzl
    have hlen : ((t1 k y).take k).length = k := by rw [List.length_take, t1l]; omega
    refine good_post hA hAl (good_uniform nObj k _ _ v3 v6 (by rw [List.length_append, hlen]; omega)
      (append_mem (take_mem (t1_mem h k) k) hz01) fun ho => ?_)
    obtain ⟨z', hz', hz0⟩ := pairs_zero _ (t1_zero k hky ho)
    rw [hz] at hz'
    rw [List.drop_append, hlen, Nat.sub_self, List.drop_eq_nil_of_le (by omega)]
    rw [Option.some.inj hz']
    exact hz0
  interval_cases number
  · refine good_post hA hAl ?_
    have hlen : ((t2 k (t1 k y)).map (biasPoly 0.02)).length = nVar := by
      rw [List.length_map]
      unfold t2
      rw [mapTail_length, t1l, hy]
    have hin : In01 ((t2 k (t1 k y)).map (biasPoly 0.02)) :=
      map_mem (fun _ => biasPoly_mem (by norm_num)) (append_mem (take_mem (t1_mem h k) k)
        (map_mem (fun _ => biasFlat_mem) (drop_mem (t1_mem h k) k)))
    have hzl : (((t2 k (t1 k y)).map (biasPoly 0.02)).zip ((List.range nVar).map fun i : ℕ => 2 * ((i : ℝ) + 1))).length = nVar := by
      rw [List.length_zip, hlen, List.length_map, List.length_range, Nat.min_self]
    refine good_reduce (fun q => (0 ≤ q.1 ∧ q.1 ≤ 1) ∧ 0 < q.2) _ _ nObj k _ _ v3 (by omega) ?_
      (fun _ hl h => weightedSum_mem (ne_nil_of_length hl v6) h)
      (fun _ hl h => weightedSum_mem (ne_nil_of_length hl (by omega)) h) ?_
    · intro q hq
      have hq' := List.of_mem_zip (show (q.1, q.2) ∈ _ from hq)
      refine ⟨hin _ hq'.1, ?_⟩
      obtain ⟨i, _, hi⟩ := List.mem_map.mp hq'.2
      rw [← hi]
      positivity
    · intro ho
      refine weightedSum_zero (ne_nil_of_length (List.length_drop ..) (by omega)) fun q hq => ?_
      rw [List.zip, List.drop_zipWith] at hq
      have hq' := List.of_mem_zip (show (q.1, q.2) ∈ List.zip _ _ from hq)
      rw [← List.map_drop] at hq'
      obtain ⟨w, hw, e⟩ := List.mem_map.mp hq'.1
      unfold t2 at hw
      rw [mapTail_drop k _ _ (by rw [t1l]; omega)] at hw
      obtain ⟨u, hu, rfl⟩ := List.mem_map.mp hw
      rw [← e, t1_zero k hky ho u hu, flat_zero, poly_zero]
  · exact two _ hA hAl (v7 (Or.inl rfl))
  · exact two _ hA hAl (v7 (Or.inr rfl))
  · refine good_post hA hAl (good_uniform nObj k _ _ v3 v6 (by rw [List.length_map]; omega)
      (map_mem (fun _ => shiftMultiModal_mem (by norm_num) (by norm_num) (by norm_num)) h) fun ho v hv => ?_)
    rw [← List.map_drop] at hv
    obtain ⟨w, hw, rfl⟩ := List.mem_map.mp hv
    rw [show w = 0.35 from ho w hw]
    exact multi30_zero 10
  · refine good_post hA hAl (good_uniform nObj k _ _ v3 v6 (by rw [List.length_map]; omega)
      (map_mem (fun _ => deceptive_mem) h) fun ho v hv => ?_)
    rw [← List.map_drop] at hv
    obtain ⟨w, hw, rfl⟩ := List.mem_map.mp hv
    rw [show w = 0.35 from ho w hw]
    exact deceptive_zero
  · exact good_post hA hAl (good_nonsep nVar nObj k _ _ v3 v6 hk (by rw [t1l, hy]) (t1_mem h k) fun ho => t1_zero k hky ho)
  · obtain ⟨out, ho, hol, ho01⟩ := dependent_mem (fun i => i < k) (fun i y => y.drop (i + 1)) y h fun i hi hc => by
      have hc' : i < k := of_decide_eq_true hc
      exact ⟨ne_nil_of_length (List.length_drop ..) (by omega), drop_mem h _⟩
    unfold transform
    dsimp only
    rw [ho]
    refine good_post hA hAl (good_uniform nObj k _ _ v3 v6 (by rw [t1l]; omega) (t1_mem ho01 k) fun hopt =>
      t1_zero k (by omega) ?_)
    intro v hv
    obtain ⟨j, hj, rfl⟩ := List.getElem_of_mem hv
    rw [List.length_drop] at hj
    rw [List.getElem_drop]
    obtain ⟨hi', e⟩ := dependent_getElem ho (k + j) (by omega)
    rw [if_neg (by simp), List.getD_eq_getElem _ _ (by omega)] at e
    rw [← Option.some.inj e]
    refine hopt _ ?_
    have : (y.drop k)[j]'(by rw [List.length_drop]; omega) = y[k + j]'(by omega) := List.getElem_drop ..
    rw [← this]
    exact List.getElem_mem _
  · obtain ⟨out, ho, hol, ho01⟩ := dependent_mem (fun i => k ≤ i) (fun i y => y.take i) y h fun i hi hc => by
      have hc' : k ≤ i := of_decide_eq_true hc
      exact ⟨ne_nil_of_length (List.length_take ..) (by omega), take_mem h _⟩
    unfold transform
    dsimp only
    rw [ho]
    exact good_post hA hAl (good_uniform nObj k _ _ v3 v6 (by rw [t1l]; omega) (t1_mem ho01 k) fun hopt =>
      t1_zero k (by omega) (hopt out ho))
  · obtain ⟨out, ho, hol, ho01⟩ := dependent_mem (fun i => i < nVar - 1) (fun i y => y.drop (i + 1)) y h fun i hi hc => by
      have hc' : i < nVar - 1 := of_decide_eq_true hc
      exact ⟨ne_nil_of_length (List.length_drop ..) (by omega), drop_mem h _⟩
    unfold transform
    dsimp only
    rw [ho]
    have hlen : ((out.take k).map (shiftDeceptive 0.35 0.001 0.05)).length = k := by
      rw [List.length_map, List.length_take]
      omega
    refine good_nonsep nVar nObj k _ _ v3 v6 hk ?_ (append_mem (map_mem (fun _ => deceptive_mem) (take_mem ho01 k))
      (map_mem (fun _ => shiftMultiModal_mem (by norm_num) (by norm_num) (by norm_num)) (drop_mem ho01 k))) fun hopt v hv => ?_
    · rw [List.length_append, hlen, List.length_map, List.length_drop]
      omega
    · rw [List.drop_append, hlen, Nat.sub_self, List.drop_eq_nil_of_le (by omega)] at hv
      obtain ⟨w, hw, rfl⟩ := List.mem_map.mp (show v ∈ List.map _ _ from hv)
      rw [hopt out ho w hw]
      exact multi30_zero 95

end Verif.Prob.WFG
