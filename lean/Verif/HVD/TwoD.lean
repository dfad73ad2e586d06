import Verif.HVD.Code

/-!
# The 2-D gradient formula
-/

namespace Verif.HVD

open Verif.HV Verif.HV.Spec MeasureTheory

/-! ### Exclusive volumes in dimension 0 and 1 -/

theorem hvi_zero_nil (x ref : ℕ → ℝ) : hvi 0 x [] ref = 1 := by
  unfold hvi
  have : exclusive 0 x [] ref = Set.univ := by
    ext z
    simp only [exclusive, Set.mem_ofPred_eq, Set.mem_univ, iff_true]
    exact ⟨fun i => i.elim0, fun i => i.elim0, by simp⟩
  rw [this, volume_pi, Measure.pi_of_empty]
  simp

theorem hvi_one_nil {x ref : ℕ → ℝ} (h : x 0 ≤ ref 0) : hvi 1 x [] ref = ref 0 - x 0 := by
  unfold hvi
  have : exclusive 1 x [] ref = Set.Icc (fun _ => x 0) (fun _ => ref 0) := by
    ext z
    simp only [exclusive, Set.mem_ofPred_eq, Set.mem_Icc, Pi.le_def, Fin.forall_fin_one]
    simp
  rw [this, Real.volume_Icc_pi_toReal (fun _ => h)]
  simp

theorem hvi_one_of_min {x ref a : ℕ → ℝ} {A : List (ℕ → ℝ)} (ha : a ∈ A) (hmin : ∀ c ∈ A, a 0 ≤ c 0)
    (h1 : x 0 ≤ a 0) (h2 : a 0 ≤ ref 0) : hvi 1 x A ref = a 0 - x 0 := by
  have hx : Function.update x 0 (x 0) = x := by simp
  have h := hvi_affine (n := 0) (k := 0) le_rfl (A := A) (y := x) (ref := ref) (lo := x 0) (hi := a 0)
    (t := x 0) (t' := a 0) (fun c hc => Or.inr (hmin c hc)) le_rfl h1 (h1.trans h2) h1 le_rfl h2
  have hz : hvi (0 + 1) (Function.update x 0 (a 0)) A ref = 0 := by
    apply hvi_eq_zero
    refine ⟨a, ha, fun i hi => ?_⟩
    have : i = 0 := by omega
    subst this
    simp
  rw [hx, hz, zero_add] at h
  change hvi 1 x A ref = _ at h
  rw [h]
  rcases h1.eq_or_lt with he | hlt
  · rw [he]; simp
  · have : A.filter (fun c => c 0 ≤ x 0) = [] := by
      rw [List.filter_eq_nil_iff]
      intro c hc
      have := hmin c hc
      simp only [decide_eq_true_eq, not_le]
      linarith
    rw [this, List.map_nil, hvi_zero_nil, mul_one, zero_add]

/-! ### The sort -/

/-- Insertion sort is stable: pairs that are not separated by the key keep their order. -/
theorem insertionSort_stable {α : Type*} {r : α → α → Prop} [DecidableRel r]
    (htot : ∀ a b, r a b ∨ r b a) (htr : ∀ a b c, r a b → r b c → r a c) {S : α → α → Prop} {l : List α}
    (h : l.Pairwise S) : (l.insertionSort r).Pairwise (fun a b => r a b ∧ (r b a → S a b)) := by
  induction l with
  | nil => exact List.Pairwise.nil
  | cons a l ih =>
    rw [List.pairwise_cons] at h
    rw [List.insertionSort_cons]
    have hS : ∀ b ∈ l.insertionSort r, S a b := fun b hb =>
      h.1 b ((List.perm_insertionSort r l).mem_iff.mp hb)
    have ih := ih h.2
    generalize l.insertionSort r = t at hS ih
    clear h
    induction t with
    | nil => simp
    | cons b t iht =>
      rw [List.orderedInsert_cons]
      rw [List.pairwise_cons] at ih
      split_ifs with hab
      · rw [List.pairwise_cons, List.pairwise_cons]
        refine ⟨?_, ih⟩
        intro c hc
        refine ⟨?_, fun _ => hS c hc⟩
        rcases List.mem_cons.mp hc with rfl | hc
        · exact hab
        · exact htr _ _ _ hab (ih.1 c hc).1
      · rw [List.pairwise_cons]
        refine ⟨?_, iht (fun c hc => hS c (List.mem_cons_of_mem _ hc)) ih.2⟩
        intro c hc
        rcases (List.mem_orderedInsert r).mp hc with rfl | hc
        · exact ⟨(htot _ _).resolve_left hab, fun hcb => absurd hcb hab⟩
        · exact ih.1 c hc

/-- The order of the sorted front: second objective decreasing, then first one increasing. -/
def Before (p q : ℕ → ℝ) : Prop := q 1 ≤ p 1 ∧ (p 1 ≤ q 1 → p 0 ≤ q 0)

theorem order2_spec (P : List (ℕ → ℝ)) :
    (order2 P).Perm (List.range P.length) ∧
      (order2 P).Pairwise (fun i j => Before (ptOf P i) (ptOf P j)) := by
  unfold order2
  simp only
  set le0 : (ℕ → ℝ) × ℕ → (ℕ → ℝ) × ℕ → Prop := fun a b => b.1 0 ≤ a.1 0 with hle0
  set le1 : (ℕ → ℝ) × ℕ → (ℕ → ℝ) × ℕ → Prop := fun a b => b.1 1 ≤ a.1 1 with hle1
  have hp : (((P.zipIdx.insertionSort le0).reverse).insertionSort le1).Perm P.zipIdx :=
    ((List.perm_insertionSort _ _).trans (List.reverse_perm _)).trans (List.perm_insertionSort _ _)
  constructor
  · refine (hp.map Prod.snd).trans ?_
    rw [List.zipIdx_map_snd, List.range_eq_range']
  · have h0 : (P.zipIdx.insertionSort le0).Pairwise (fun a b => le0 a b ∧ (le0 b a → True)) :=
      insertionSort_stable (r := le0) (fun a b => le_total (b.1 0) (a.1 0))
        (fun a b c (h1 : b.1 0 ≤ a.1 0) (h2 : c.1 0 ≤ b.1 0) => h2.trans h1)
        (List.pairwise_of_forall fun _ _ => trivial)
    have h1 : ((P.zipIdx.insertionSort le0).reverse).Pairwise (fun a b => a.1 0 ≤ b.1 0) := by
      rw [List.pairwise_reverse]
      exact h0.imp fun h => h.1
    have h2 := insertionSort_stable (r := le1) (fun a b => le_total (b.1 1) (a.1 1))
      (fun a b c (h1 : b.1 1 ≤ a.1 1) (h2 : c.1 1 ≤ b.1 1) => h2.trans h1) h1
    rw [List.pairwise_map]
    refine List.Pairwise.imp_of_mem ?_ h2
    intro a b ha hb hab
    have hval : ∀ c ∈ ((P.zipIdx.insertionSort le0).reverse).insertionSort le1, ptOf P c.2 = c.1 := by
      intro c hc
      have hc' := hp.mem_iff.mp hc
      obtain ⟨p, i⟩ := c
      have hc2 := List.mk_mem_zipIdx_iff_getElem?.mp hc'
      obtain ⟨hi, he⟩ := List.getElem?_eq_some_iff.mp hc2
      rw [ptOf_eq hi, he]
    rw [hval a ha, hval b hb]
    exact hab

/-- The 2-D formula, for a front in which no point is better than another one in both objectives, at
the coordinates which no other point shares. -/
theorem hypervolumeDY2_spec {P : List (ℕ → ℝ)} {ref : ℕ → ℝ}
    (hnd : ∀ i < P.length, ∀ j < P.length, ¬ (ptOf P i 0 < ptOf P j 0 ∧ ptOf P i 1 < ptOf P j 1))
    (hle : ∀ i < P.length, ∀ k < 2, ptOf P i k ≤ ref k) {i k : ℕ} (hi : i < P.length) (hk : k < 2)
    (hne : ∀ j < P.length, j ≠ i → ptOf P j k ≠ ptOf P i k) :
    ptOf (hypervolumeDY2 P ref) i k = -hvi 1 (dropAt k (ptOf P i)) (below P i k) (dropAt k ref) := by
  obtain ⟨hperm, hsort⟩ := order2_spec P
  set idx := order2 P with hidx
  have hmem : ∀ j, j ∈ idx ↔ j < P.length := fun j => by rw [hperm.mem_iff, List.mem_range]
  have hlen : idx.length = P.length := by simpa using hperm.length_eq
  have hnodup : idx.Nodup := hperm.nodup_iff.mpr List.nodup_range
  have hs : sel P idx = idx.map (ptOf P) := sel_eq_map fun j hj => (hmem j).mp hj
  set a := idx.idxOf i with ha
  have hia : i ∈ idx := (hmem i).mpr hi
  have hal : a < idx.length := List.idxOf_lt_length_iff.mpr hia
  have hga : idx[a] = i := List.getElem_idxOf hal
  have hpw := List.pairwise_iff_getElem.mp hsort
  have hexa : ∀ j < P.length, ∃ (b : ℕ) (hb : b < idx.length), idx[b] = j := fun j hj =>
    List.getElem_of_mem ((hmem j).mpr hj)
  have hlt : ∀ (b : ℕ) (hb : b < idx.length), idx[b] < P.length := fun b hb =>
    (hmem _).mp (List.getElem_mem hb)
  have hb_ne : ∀ (b : ℕ) (hb : b < idx.length), b ≠ a → idx[b] ≠ i := by
    intro b hb hba e
    exact hba ((List.Nodup.getElem_inj_iff hnodup).mp (e.trans hga.symm))
  unfold hypervolumeDY2
  simp only
  rw [← hidx, ptOf_map (by simpa using hi)]
  simp only [List.getElem_range]
  rw [← ha, hs, List.map_map, List.map_map]
  interval_cases k
  · -- derivative in the first objective
    have hval : pt [List.getD (List.zipWith (fun a b => a - b) (idx.map ((fun p => p 1) ∘ ptOf P))
        (ref 1 :: idx.map ((fun p => p 1) ∘ ptOf P))) a 0,
        List.getD (List.zipWith (fun a b => a - b) (idx.map ((fun p => p 0) ∘ ptOf P))
          ((idx.map ((fun p => p 0) ∘ ptOf P)).tail ++ [ref 0])) a 0] 0 =
        ptOf P i 1 - (ref 1 :: idx.map ((fun p => p 1) ∘ ptOf P)).getD a 0 := by
      simp only [pt, List.getD_cons_zero]
      rw [List.getD_eq_getElem?_getD, List.getElem?_zipWith, List.getElem?_map,
        List.getElem?_eq_getElem hal, hga]
      have : a < (ref 1 :: idx.map ((fun p => p 1) ∘ ptOf P)).length := by simp; omega
      rw [List.getElem?_eq_getElem this, List.getD_eq_getElem?_getD, List.getElem?_eq_getElem this]
      rfl
    rw [hval]
    have hAup : ∀ j < P.length, ptOf P j 0 < ptOf P i 0 → ptOf P i 1 ≤ ptOf P j 1 := by
      intro j hj hlt'
      by_contra hc
      exact hnd j hj i hi ⟨hlt', not_le.mp hc⟩
    have hbefore : ∀ j < P.length, ptOf P j 0 < ptOf P i 0 → ∃ (b : ℕ) (hb : b < idx.length), b < a ∧ idx[b] = j := by
      intro j hj hlt'
      obtain ⟨b, hb, rfl⟩ := hexa j hj
      refine ⟨b, hb, ?_, rfl⟩
      by_contra hc
      rcases (not_lt.mp hc).eq_or_lt with he | hlt2
      · subst he; rw [hga] at hlt'; exact lt_irrefl _ hlt'
      · have := hpw a b hal hb hlt2
        rw [hga] at this
        have h2 := this.2 (hAup _ hj hlt')
        linarith
    have hin : ∀ (b : ℕ) (hb : b < idx.length), b < a → ptOf P idx[b] 0 < ptOf P i 0 := by
      intro b hb hba
      have h1 := hpw b a hb hal hba
      rw [hga] at h1
      have h2 := hne _ (hlt b hb) (hb_ne b hb hba.ne)
      refine lt_of_le_of_ne ?_ h2
      rcases h1.1.eq_or_lt with he | hlt'
      · exact h1.2 he.ge
      · by_contra hc
        exact hnd i hi _ (hlt b hb) ⟨not_le.mp hc, hlt'⟩
    rcases Nat.eq_zero_or_pos a with h0 | hpos
    · rw [h0, List.getD_cons_zero]
      have hnil : below P i 0 = [] := by
        rw [List.eq_nil_iff_forall_not_mem]
        intro p hp
        obtain ⟨j, hj, hlt', -⟩ := mem_below.mp hp
        obtain ⟨b, hb, hba, -⟩ := hbefore j hj hlt'
        omega
      rw [hnil, hvi_one_nil]
      · simp [dropAt]
      · simpa [dropAt] using hle i hi 1 (by norm_num)
    · obtain ⟨a', ha'⟩ := Nat.exists_eq_succ_of_ne_zero hpos.ne'
      have hal' : a' < idx.length := by omega
      rw [ha', List.getD_cons_succ, List.getD_eq_getElem?_getD, List.getElem?_map,
        List.getElem?_eq_getElem hal']
      have hA : dropAt 0 (ptOf P idx[a']) ∈ below P i 0 :=
        mem_below.mpr ⟨_, hlt a' hal', hin a' hal' (by omega), rfl⟩
      rw [hvi_one_of_min hA]
      · simp [dropAt]
      · intro c hc
        obtain ⟨j, hj, hlt', rfl⟩ := mem_below.mp hc
        obtain ⟨b, hb, hba, rfl⟩ := hbefore j hj hlt'
        simp only [dropAt, lt_irrefl, if_false]
        rcases Nat.lt_or_ge b a' with h' | h'
        · exact (hpw b a' hb hal' h').1
        · have : b = a' := by omega
          subst this; exact le_rfl
      · simpa [dropAt] using hAup _ (hlt a' hal') (hin a' hal' (by omega))
      · simpa [dropAt] using hle _ (hlt a' hal') 1 (by norm_num)
  · -- derivative in the second objective
    have hval : pt [List.getD (List.zipWith (fun a b => a - b) (idx.map ((fun p => p 1) ∘ ptOf P))
        (ref 1 :: idx.map ((fun p => p 1) ∘ ptOf P))) a 0,
        List.getD (List.zipWith (fun a b => a - b) (idx.map ((fun p => p 0) ∘ ptOf P))
          ((idx.map ((fun p => p 0) ∘ ptOf P)).tail ++ [ref 0])) a 0] 1 =
        ptOf P i 0 - ((idx.map ((fun p => p 0) ∘ ptOf P)).tail ++ [ref 0]).getD a 0 := by
      simp only [pt, List.getD_cons_succ, List.getD_cons_zero]
      rw [List.getD_eq_getElem?_getD, List.getElem?_zipWith, List.getElem?_map,
        List.getElem?_eq_getElem hal, hga]
      have : a < ((idx.map ((fun p => p 0) ∘ ptOf P)).tail ++ [ref 0]).length := by simp; omega
      rw [List.getElem?_eq_getElem this, List.getD_eq_getElem?_getD, List.getElem?_eq_getElem this]
      rfl
    rw [hval]
    have hAup : ∀ j < P.length, ptOf P j 1 < ptOf P i 1 → ptOf P i 0 ≤ ptOf P j 0 := by
      intro j hj hlt'
      by_contra hc
      exact hnd j hj i hi ⟨not_le.mp hc, hlt'⟩
    have hafter : ∀ j < P.length, ptOf P j 1 < ptOf P i 1 → ∃ (b : ℕ) (hb : b < idx.length), a < b ∧ idx[b] = j := by
      intro j hj hlt'
      obtain ⟨b, hb, rfl⟩ := hexa j hj
      refine ⟨b, hb, ?_, rfl⟩
      by_contra hc
      rcases (not_lt.mp hc).eq_or_lt with he | hlt2
      · subst he; rw [hga] at hlt'; exact lt_irrefl _ hlt'
      · have := hpw b a hb hal hlt2
        rw [hga] at this
        have h2 := this.1
        linarith
    have hin : ∀ (b : ℕ) (hb : b < idx.length), a < b → ptOf P idx[b] 1 < ptOf P i 1 := by
      intro b hb hab
      have h1 := hpw a b hal hb hab
      rw [hga] at h1
      exact lt_of_le_of_ne h1.1 (hne _ (hlt b hb) (hb_ne b hb hab.ne'))
    rcases Nat.lt_or_ge (a + 1) idx.length with hlast | hlast
    · have e : ((idx.map ((fun p => p 0) ∘ ptOf P)).tail ++ [ref 0]).getD a 0 = ptOf P idx[a + 1] 0 := by
        rw [List.getD_eq_getElem?_getD, List.getElem?_append_left (by simp; omega), List.getElem?_tail,
          List.getElem?_map, List.getElem?_eq_getElem hlast]
        rfl
      rw [e]
      have hA : dropAt 1 (ptOf P idx[a + 1]) ∈ below P i 1 :=
        mem_below.mpr ⟨_, hlt _ hlast, hin _ hlast (by omega), rfl⟩
      rw [hvi_one_of_min hA]
      · simp [dropAt]
      · intro c hc
        obtain ⟨j, hj, hlt', rfl⟩ := mem_below.mp hc
        obtain ⟨b, hb, hba, rfl⟩ := hafter j hj hlt'
        simp only [dropAt, zero_lt_one, if_true]
        rcases Nat.lt_or_ge (a + 1) b with h' | h'
        · have h3 := hpw (a + 1) b hlast hb h'
          rcases h3.1.eq_or_lt with he | hlt3
          · exact h3.2 he.ge
          · by_contra hc
            exact hnd _ (hlt b hb) _ (hlt _ hlast) ⟨not_le.mp hc, hlt3⟩
        · have : b = a + 1 := by omega
          subst this; exact le_rfl
      · simpa [dropAt] using hAup _ (hlt _ hlast) (hin _ hlast (by omega))
      · simpa [dropAt] using hle _ (hlt _ hlast) 0 (by norm_num)
    · have e : ((idx.map ((fun p => p 0) ∘ ptOf P)).tail ++ [ref 0]).getD a 0 = ref 0 := by
        rw [List.getD_eq_getElem?_getD, List.getElem?_append_right (by simp; omega)]
        have : a - (idx.map ((fun p => p 0) ∘ ptOf P)).tail.length = 0 := by simp; omega
        rw [this]
        rfl
      rw [e]
      have hnil : below P i 1 = [] := by
        rw [List.eq_nil_iff_forall_not_mem]
        intro p hp
        obtain ⟨j, hj, hlt', -⟩ := mem_below.mp hp
        obtain ⟨b, hb, hba, -⟩ := hafter j hj hlt'
        omega
      rw [hnil, hvi_one_nil]
      · simp [dropAt]
      · simpa [dropAt] using hle i hi 0 (by norm_num)

theorem length_hypervolumeDY2 (P : List (ℕ → ℝ)) (ref : ℕ → ℝ) :
    (hypervolumeDY2 P ref).length = P.length := by simp [hypervolumeDY2]

end Verif.HVD
