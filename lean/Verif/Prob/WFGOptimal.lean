import Verif.Prob.WFGShape

/-!
# The objectives and the optimal positions of WFG
-/

namespace Verif.Prob.WFG

theorem correct_035 : correct01 0.35 = 0.35 := correct01_of_mem (by norm_num) (by norm_num)

theorem pow_mem {e : ℝ} (he : 0 ≤ e) : 0 ≤ (0.35 : ℝ) ^ e ∧ (0.35 : ℝ) ^ e ≤ 1 :=
  ⟨Real.rpow_nonneg (by norm_num) _, Real.rpow_le_one (by norm_num) (by norm_num) he⟩

theorem dependent_inv {u : ℝ} (h0 : 0 ≤ u) (h1 : u ≤ 1) :
    paramDependent ((0.35 : ℝ) ^ (paramExponent u)⁻¹) u = 0.35 := by
  unfold paramDependent
  rw [Real.rpow_inv_rpow (by norm_num) (paramExponent_pos h0 h1).ne', correct_035]

theorem mean_mem {V : List ℝ} (hV : V ≠ []) (h : In01 V) : 0 ≤ V.sum / V.length ∧ V.sum / V.length ≤ 1 := by
  have hp : (0 : ℝ) < V.length := by exact_mod_cast List.length_pos_of_ne_nil hV
  have hs := sum_mem h
  exact ⟨div_nonneg hs.1 hp.le, (div_le_one hp).mpr hs.2⟩

/-- The values of WFG8. -/
theorem optimal8_spec : ∀ (n : ℕ) (V : List ℝ), V ≠ [] → In01 V →
    (optimal8 n V).length = V.length + n ∧ In01 (optimal8 n V) ∧ (optimal8 n V).take V.length = V ∧
      ∀ i, V.length ≤ i → i < V.length + n →
        (optimal8 n V).getD i 0 = (0.35 : ℝ) ^ (paramExponent (((optimal8 n V).take i).sum / ((optimal8 n V).take i).length))⁻¹
  | 0, V, _, h => ⟨by rw [optimal8, Nat.add_zero], by rw [optimal8]; exact h, by rw [optimal8, List.take_length], fun i h1 h2 => by omega⟩
  | n + 1, V, hV, h => by
    have hm := mean_mem hV h
    have hv := pow_mem (inv_nonneg.mpr (paramExponent_pos hm.1 hm.2).le)
    obtain ⟨h1, h2, h3, h4⟩ := optimal8_spec n (V ++ [(0.35 : ℝ) ^ (paramExponent (V.sum / V.length))⁻¹]) (by simp)
      (append_mem h fun w hw => by rw [List.mem_singleton.mp hw]; exact hv)
    rw [optimal8]
    obtain ⟨W, hW⟩ : ∃ W, W = optimal8 n (V ++ [(0.35 : ℝ) ^ (paramExponent (V.sum / V.length))⁻¹]) := ⟨_, rfl⟩
    rw [← hW] at h1 h2 h3 h4 ⊢
    rw [List.length_append, List.length_singleton] at h1 h3 h4
    have ht : W.take V.length = V := by
      have := congrArg (List.take V.length) h3
      rwa [List.take_take, Nat.min_eq_left (by omega), List.take_left] at this
    refine ⟨by rw [h1]; omega, h2, ht, fun i hi hi' => ?_⟩
    rcases Nat.eq_or_lt_of_le hi with e | e
    · subst e
      rw [ht]
      have h5 : (W.take (V.length + 1)).getD V.length 0 = W.getD V.length 0 := by
        rw [List.getD_eq_getElem?_getD, List.getD_eq_getElem?_getD, List.getElem?_take_of_lt (by omega)]
      rw [← h5, h3, List.getD_append_right _ _ _ _ le_rfl, Nat.sub_self, List.getD_cons_zero]
    · exact h4 i (by omega) (by omega)

theorem opt_035 {e : ℝ} (he0 : 0 < e) (he1 : e ≤ 1) : 0 ≤ (0.35 : ℝ) ^ e⁻¹ ∧ (0.35 : ℝ) ^ e⁻¹ ≤ 0.35 := by
  refine ⟨Real.rpow_nonneg (by norm_num) _, ?_⟩
  have h := Real.rpow_le_rpow_of_exponent_ge (x := 0.35) (by norm_num) (by norm_num) ((one_le_inv₀ he0).mpr he1)
  rwa [Real.rpow_one] at h

theorem mean_le {V : List ℝ} (hV : V ≠ []) (h : ∀ v ∈ V, 0 ≤ v ∧ v ≤ 0.35) : 0 ≤ V.sum / V.length ∧ V.sum / V.length ≤ 0.35 := by
  have hp : (0 : ℝ) < V.length := by exact_mod_cast List.length_pos_of_ne_nil hV
  have key : ∀ V : List ℝ, (∀ v ∈ V, 0 ≤ v ∧ v ≤ 0.35) → 0 ≤ V.sum ∧ V.sum ≤ 0.35 * V.length := by
    intro V
    induction V with
    | nil => norm_num
    | cons a V ih =>
      intro h
      have h1 := ih fun v hv => h v (List.mem_cons_of_mem _ hv)
      have h2 := h a List.mem_cons_self
      rw [List.sum_cons, List.length_cons]
      push_cast
      constructor <;> linarith
  have := key V h
  exact ⟨div_nonneg this.1 hp.le, (div_le_iff₀ hp).mpr this.2⟩

/-- The distance values of WFG9. -/
theorem optimal9_spec : ∀ (n : ℕ) (V : List ℝ), V ≠ [] → (∀ v ∈ V, 0 ≤ v ∧ v ≤ 0.35) →
    (optimal9 n V).length = n + V.length ∧ (∀ v ∈ optimal9 n V, 0 ≤ v ∧ v ≤ 0.35) ∧ (optimal9 n V).drop n = V ∧
      ∀ i, i < n → (optimal9 n V).getD i 0 =
        (0.35 : ℝ) ^ (0.02 + 1.96 * (((optimal9 n V).drop (i + 1)).sum / ((optimal9 n V).drop (i + 1)).length))⁻¹
  | 0, V, _, h => ⟨by rw [optimal9, Nat.zero_add], by rw [optimal9]; exact h, by rw [optimal9, List.drop_zero], fun i h => absurd h (Nat.not_lt_zero i)⟩
  | n + 1, V, hV, h => by
    have hm := mean_le hV h
    have hv := opt_035 (e := 0.02 + 1.96 * (V.sum / V.length)) (by linarith) (by linarith)
    obtain ⟨h1, h2, h3, h4⟩ := optimal9_spec n ((0.35 : ℝ) ^ (0.02 + 1.96 * (V.sum / V.length))⁻¹ :: V) (by simp) (fun w hw => by
      rcases List.mem_cons.mp hw with rfl | hw
      exacts [hv, h w hw])
    rw [optimal9]
    obtain ⟨W, hW⟩ : ∃ W, W = optimal9 n ((0.35 : ℝ) ^ (0.02 + 1.96 * (V.sum / V.length))⁻¹ :: V) := ⟨_, rfl⟩
    rw [← hW] at h1 h2 h3 h4 ⊢
    rw [List.length_cons] at h1
    have ht : W.drop (n + 1) = V := by
      rw [← List.drop_drop, h3]
      rfl
    refine ⟨by rw [h1]; omega, h2, ht, fun i hi => ?_⟩
    rcases Nat.eq_or_lt_of_le (Nat.lt_succ_iff.mp hi) with e | e
    · subst e
      rw [ht]
      have h5 : (W.drop i).getD 0 0 = W.getD i 0 := by
        rw [List.getD_eq_getElem?_getD, List.getD_eq_getElem?_getD, List.getElem?_drop, Nat.add_zero]
      rw [← h5, h3, List.getD_cons_zero]
    · exact h4 i e

/-- `OptDistance` of the values of WFG8. -/
theorem opt8 {nVar k l : ℕ} (hkl : k + l = nVar) (hk : 0 < k) (pos : List ℝ) (hp : pos.length = k) (h : In01 pos) :
    OptDistance 8 nVar k (optimal8 l pos) := by
  obtain ⟨h1, h2, h3, h4⟩ := optimal8_spec l pos (ne_nil_of_length hp hk) h
  intro out ho v hv
  have hol : out.length = (optimal8 l pos).length := by
    obtain ⟨out', h5, h6, _⟩ := dependent_mem (fun i => k ≤ i) (fun i y => y.take i) (optimal8 l pos) h2 fun i hi hc => by
      have hc' : k ≤ i := of_decide_eq_true hc
      exact ⟨ne_nil_of_length (List.length_take ..) (by omega), take_mem h2 _⟩
    rw [ho] at h5
    rw [Option.some.inj h5, h6]
  obtain ⟨j, hj, rfl⟩ := List.getElem_of_mem hv
  rw [List.length_drop] at hj
  rw [List.getElem_drop]
  obtain ⟨hi', e⟩ := dependent_getElem ho (k + j) (by omega)
  have hne : (optimal8 l pos).take (k + j) ≠ [] := ne_nil_of_length (List.length_take ..) (by omega)
  have hm := mean_mem hne (take_mem h2 (k + j))
  rw [if_pos (by simp), uniformSum_eq hne (take_mem h2 _), Option.map_some, h4 (k + j) (by omega) (by omega),
    dependent_inv hm.1 hm.2] at e
  exact (Option.some.inj e).symm

/-- `OptDistance` of the values of WFG9. -/
theorem opt9 {nVar k l : ℕ} (hkl : k + l = nVar) (hl : 1 ≤ l) (pos : List ℝ) (hp : pos.length = k) (h : In01 pos) :
    OptDistance 9 nVar k (pos ++ optimal9 (l - 1) [0.35]) ∧ In01 (pos ++ optimal9 (l - 1) [0.35]) ∧
      (pos ++ optimal9 (l - 1) [0.35]).length = nVar := by
  obtain ⟨h1, h2, h3, h4⟩ := optimal9_spec (l - 1) [0.35] (by simp) (fun v hv => by
    rw [List.mem_singleton.mp hv]
    norm_num)
  obtain ⟨W, hW⟩ : ∃ W, W = optimal9 (l - 1) [0.35] := ⟨_, rfl⟩
  rw [← hW] at h1 h2 h3 h4 ⊢
  rw [List.length_singleton] at h1
  have hW01 : In01 W := fun v hv => ⟨(h2 v hv).1, (h2 v hv).2.trans (by norm_num)⟩
  have h01 : In01 (pos ++ W) := append_mem h hW01
  have hlen : (pos ++ W).length = nVar := by
    rw [List.length_append]
    omega
  refine ⟨?_, h01, hlen⟩
  intro out ho v hv
  have hol : out.length = (pos ++ W).length := by
    obtain ⟨out', h5, h6, _⟩ := dependent_mem (fun i => i < nVar - 1) (fun i y => y.drop (i + 1)) (pos ++ W) h01 fun i hi hc => by
      have hc' : i < nVar - 1 := of_decide_eq_true hc
      exact ⟨ne_nil_of_length (List.length_drop ..) (by omega), drop_mem h01 _⟩
    rw [ho] at h5
    rw [Option.some.inj h5, h6]
  obtain ⟨j, hj, rfl⟩ := List.getElem_of_mem hv
  rw [List.length_drop] at hj
  rw [List.getElem_drop]
  obtain ⟨hi', e⟩ := dependent_getElem ho (k + j) (by omega)
  have hgd : (pos ++ W).getD (k + j) 0 = W.getD j 0 := by
    rw [List.getD_append_right _ _ _ _ (by omega), hp, Nat.add_sub_cancel_left]
  have hdr : (pos ++ W).drop (k + j + 1) = W.drop (j + 1) := by
    rw [List.drop_append, List.drop_eq_nil_of_le (by omega), List.nil_append, hp]
    congr 1
    omega
  by_cases hc : k + j < nVar - 1
  · have hne : W.drop (j + 1) ≠ [] := ne_nil_of_length (List.length_drop ..) (by omega)
    have hd1 := drop_mem hW01 (j + 1)
    have hm := mean_le hne fun v hv => h2 v (List.mem_of_mem_drop hv)
    rw [if_pos (by simpa using hc), hgd, hdr, uniformSum_eq hne hd1, Option.map_some, h4 j (by omega)] at e
    rw [← Option.some.inj e]
    have hu := mean_mem hne hd1
    have hexp : paramExponent ((W.drop (j + 1)).sum / (W.drop (j + 1)).length) =
        0.02 + 1.96 * ((W.drop (j + 1)).sum / (W.drop (j + 1)).length) := by
      rw [paramExponent_eq hu.1 hu.2, if_pos (hm.2.trans (by norm_num))]
    rw [← hexp]
    exact dependent_inv hu.1 hu.2
  · rw [if_neg (by simpa using hc), hgd] at e
    rw [← Option.some.inj e]
    have hj' : j = l - 1 := by omega
    have h5 : (W.drop (l - 1)).getD 0 0 = W.getD (l - 1) 0 := by
      rw [List.getD_eq_getElem?_getD, List.getD_eq_getElem?_getD, List.getElem?_drop, Nat.add_zero]
    rw [hj', ← h5, h3, List.getD_cons_zero]

theorem calculate_getElem (x s h : List ℝ) (m : ℕ) (hm : m < (calculate x s h).length) (h1 : m < s.length) (h2 : m < h.length) :
    (calculate x s h)[m] = x.getLastD 0 + s[m] * h[m] := by
  unfold calculate at hm
  exact List.getElem_zipWith

theorem scales_getElem (nObj m : ℕ) (hm : m < (scales nObj).length) : (scales nObj)[m] = 2 * ((m : ℝ) + 1) := by
  unfold scales at hm
  have : (scales nObj)[m] = 2 * (((List.range nObj)[m]'(by simpa using hm) : ℕ) + 1 : ℝ) := List.getElem_map ..
  rw [this, List.getElem_range]

/-- The objectives by the transformed vector. -/
theorem objective_eq {number nVar nObj k l : ℕ} (hv : valid number nVar nObj k l = true) (h1 : 1 ≤ number)
    (h9 : number ≤ 9) (xu x : List ℝ) (hy : (List.zipWith (· / ·) x xu).length = nVar) (h : In01 (List.zipWith (· / ·) x xu)) :
    ∃ cols last fs, objective number nVar nObj k xu x = some fs ∧ fs.length = nObj ∧ cols.length = nObj - 1 ∧ In01 cols ∧
      (0 ≤ last ∧ last ≤ 1) ∧ (OptDistance number nVar k (List.zipWith (· / ·) x xu) → last = 0) ∧
      ∀ m (hm : m < fs.length), fs[m] = last + 2 * ((m : ℝ) + 1) * H number cols (nObj - 1 - m) := by
  have v1 := (valid_spec hv).1
  obtain ⟨cols, last, ht, hc, hin, ho⟩ := transform_good hv h1 h9 _ hy h
  have hin' : In01 cols := fun v hv => hin v (List.mem_append_left _ hv)
  have hll : (cols ++ [last]).getLastD 0 = last := by
    rw [List.getLastD_eq_getLast?, List.getLast?_append]
    rfl
  have hlen : (calculate (cols ++ [last]) (scales nObj) (shapes number nObj (cols ++ [last]))).length = nObj := by
    unfold calculate scales
    rw [List.length_zipWith, List.length_map, List.length_range, shapes_length _ _ v1, Nat.min_self]
  refine ⟨cols, last, _, by unfold objective; rw [ht, Option.map_some], hlen, hc, hin',
    hin last (List.mem_append_right _ List.mem_cons_self), ho, fun m hm => ?_⟩
  have hm' : m < nObj := by rw [← hlen]; exact hm
  have hs : m < (scales nObj).length := by
    unfold scales
    rwa [List.length_map, List.length_range]
  rw [calculate_getElem _ _ _ m hm hs (by rwa [shapes_length number nObj v1]), hll, scales_getElem, shapes_getElem number nObj h1 v1 cols last hc hin' m hm']

end Verif.Prob.WFG
