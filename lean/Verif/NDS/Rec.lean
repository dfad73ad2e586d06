import Verif.NDS.Lemmas

/-!
# The recursive procedures `_nd_helper_a` and `_nd_helper_b`
-/

namespace Verif.NDS

variable {K : Type*} [LinearOrder K] {o : ℕ → ℕ → K}

/-- Nested calls needed for `k` objectives: `s` bounds the logarithm of the number of indices, `t`
that of the number of different values of the objective split at present. -/
def need (k s t : ℕ) : ℕ := (k - 1) * (s + 1) + t

theorem need_pred {k s t : ℕ} (hk : 3 ≤ k) : need (k - 1) s s + 1 ≤ need k s t := by
  obtain ⟨m, rfl⟩ := Nat.exists_eq_add_of_le hk
  have e1 : 3 + m - 1 - 1 = m + 1 := by omega
  have e2 : 3 + m - 1 = m + 2 := by omega
  unfold need
  rw [e1, e2]
  have : (m + 2) * (s + 1) = (m + 1) * (s + 1) + (s + 1) := by ring
  omega

theorem need_pos {k s t : ℕ} (hk : 2 ≤ k) : 0 < need k s t := by
  unfold need
  have : 0 < (k - 1) * (s + 1) := Nat.mul_pos (by omega) (by omega)
  omega

theorem le_pred {k j i : ℕ} (hk : 1 ≤ k) : le o k j i ↔ le o (k - 1) j i ∧ o j (k - 1) ≤ o i (k - 1) := by
  constructor
  · exact fun h => ⟨fun m hm => h m (by omega), h (k - 1) (by omega)⟩
  · rintro ⟨h1, h2⟩ m hm
    rcases Nat.lt_or_ge m (k - 1) with h | h
    · exact h1 m h
    · have : m = k - 1 := by omega
      rw [this]; exact h2

theorem half_lt {u u' t : ℕ} (h2 : 2 ≤ u) (ht : u < 2 ^ t) (h : u' ≤ u / 2) :
    ∃ t', t = t' + 1 ∧ u' < 2 ^ t' := by
  cases t with
  | zero => simp at ht; omega
  | succ t =>
    refine ⟨t, rfl, ?_⟩
    rw [pow_succ] at ht
    omega

theorem dedup_length_le {l l' : List K} (h : ∀ x ∈ l, x ∈ l') : l.dedup.length ≤ l'.length := by
  have h1 : l.dedup ⊆ l' := fun x hx => h x (List.mem_dedup.mp hx)
  exact ((List.nodup_dedup l).subperm h1).length_le

omit [LinearOrder K] in
theorem mem_vals {S : List ℕ} {m : ℕ} {v : K} : v ∈ S.map (fun i => o i m) ↔ ∃ i ∈ S, o i m = v := by
  simp

theorem helperB_spec {N : ℕ} (hlex : ∀ i j, i < j → j < N → lex2 o i j) (s : ℕ) :
    ∀ (fuel k t : ℕ) (comp assign : List ℕ) (f : ℕ → ℕ), 2 ≤ k →
      comp.Pairwise (· < ·) → assign.Pairwise (· < ·) → (∀ x ∈ comp, x < N) → (∀ x ∈ assign, x < N) →
      (∀ x ∈ assign, x ∉ comp) → comp.length + assign.length < 2 ^ s →
      (comp.map (fun i => o i (k - 1)) ++ assign.map (fun i => o i (k - 1))).dedup.length < 2 ^ t →
      need k s t ≤ fuel →
      ∃ f', helperB o fuel k comp assign f = some f' ∧ SpecB o k comp assign f f' := by
  intro fuel
  induction fuel with
  | zero =>
    intro k t comp assign f hk _ _ _ _ _ _ _ hf
    have := need_pos (s := s) (t := t) hk
    omega
  | succ fuel ih =>
    intro k t comp assign f hk hC hA hCN hAN hd hs ht hf
    unfold helperB
    split_ifs with h1 h2 h3
    · refine ⟨f, rfl, fun _ _ => rfl, fun i hi n => ?_⟩
      rcases h1 with rfl | rfl
      · simp
      · simp at hi
    · exact ⟨_, rfl, pairs_spec k comp assign f (hA.imp (fun h => h.ne)) hd⟩
    · subst h3
      refine ⟨_, rfl, ?_⟩
      have := sweepB_spec hlex assign [] [] comp f (by simpa using hC) (by simpa using hCN) hA hAN
        (by simpa using hd) ⟨by simp, by simp⟩ (by simp)
      simpa using this
    · have hk3 : 3 ≤ k := by omega
      push Not at h1
      simp only
      set vc := comp.map (fun i => o i (k - 1)) with hvc
      set va := assign.map (fun i => o i (k - 1)) with hva
      have hvcne : vc ≠ [] := by simpa [hvc] using h1.1
      have hvane : va ≠ [] := by simpa [hva] using h1.2
      obtain ⟨minC, hminC⟩ := Option.isSome_iff_exists.mp (List.isSome_min?_of_ne_nil hvcne)
      obtain ⟨maxC, hmaxC⟩ := Option.isSome_iff_exists.mp (List.isSome_max?_of_ne_nil hvcne)
      obtain ⟨minA, hminA⟩ := Option.isSome_iff_exists.mp (List.isSome_min?_of_ne_nil hvane)
      obtain ⟨maxA, hmaxA⟩ := Option.isSome_iff_exists.mp (List.isSome_max?_of_ne_nil hvane)
      rw [hminC, hmaxC, hminA, hmaxA]
      simp only
      rw [List.min?_eq_some_iff] at hminC hminA
      rw [List.max?_eq_some_iff] at hmaxC hmaxA
      have hpred := need_pred (s := s) (t := t) hk3
      -- the call with one objective less needs enough fuel
      have hcount : ∀ (c a : List ℕ), c.length + a.length < 2 ^ s →
          (c.map (fun i => o i (k - 1 - 1)) ++ a.map (fun i => o i (k - 1 - 1))).dedup.length < 2 ^ s := by
        intro c a h
        refine lt_of_le_of_lt (dedup_length_le (l' := c.map (fun i => o i (k - 1 - 1)) ++
          a.map (fun i => o i (k - 1 - 1))) (fun x hx => hx)) ?_
        simpa using h
      split_ifs with h4 h5
      · obtain ⟨f', e1, e2⟩ := ih (k - 1) s comp assign f (by omega) hC hA hCN hAN hd hs
          (hcount comp assign hs) (by omega)
        refine ⟨f', e1, e2.1, fun i hi n => ?_⟩
        rw [e2.2 i hi n]
        refine and_congr_right fun _ => forall_congr' fun j => forall_congr' fun hj => ?_
        have hji : o j (k - 1) ≤ o i (k - 1) := by
          have h6 := hmaxC.2 (o j (k - 1)) (mem_vals.mpr ⟨j, hj, rfl⟩)
          have h7 := hminA.2 (o i (k - 1)) (mem_vals.mpr ⟨i, hi, rfl⟩)
          exact h6.trans (h4.trans h7)
        rw [le_pred (k := k) (by omega)]
        simp [hji]
      · -- split at the median
        have hne : (vc ++ va).dedup ≠ [] := by
          intro h
          rw [List.dedup_eq_nil] at h
          exact hvcne (List.append_eq_nil_iff.mp h).1
        obtain ⟨med, hmed⟩ := medianLow_ne_none hne
        rw [hmed]
        obtain ⟨-, hless, hgr⟩ := medianLow_spec hmed
        set u := (vc ++ va).dedup.length with hu
        have hu2 : 2 ≤ u := by
          have hne2 : maxC ≠ minA := fun e => h4 (e ▸ le_rfl)
          have hsub : [maxC, minA] ⊆ (vc ++ va).dedup := by
            intro x hx
            rw [List.mem_dedup, List.mem_append]
            simp only [List.mem_cons, List.not_mem_nil, or_false] at hx
            rcases hx with rfl | rfl
            · exact Or.inl hmaxC.1
            · exact Or.inr hminA.1
          have hnd : [maxC, minA].Nodup := by simp [hne2]
          exact (hnd.subperm hsub).length_le
        simp only
        set s1 := splitBy o comp med (k - 1) with hs1
        set s2 := splitBy o assign med (k - 1) with hs2
        obtain ⟨c1, c2, c3⟩ := sorted_split (o := o) hC med (k - 1)
        obtain ⟨a1, a2, a3⟩ := sorted_split (o := o) hA med (k - 1)
        have hlc := length_split (o := o) (S := comp) med (k - 1)
        have hla := length_split (o := o) (S := assign) med (k - 1)
        rw [← hs1] at c1 c2 c3 hlc
        rw [← hs2] at a1 a2 a3 hla
        have mL1 : ∀ x, x ∈ s1.1 ↔ x ∈ comp ∧ o x (k - 1) < med := fun x => mem_split_less
        have mE1 : ∀ x, x ∈ s1.2.1 ↔ x ∈ comp ∧ o x (k - 1) = med := fun x => mem_split_eq
        have mG1 : ∀ x, x ∈ s1.2.2 ↔ x ∈ comp ∧ med < o x (k - 1) := fun x => mem_split_greater
        have mL2 : ∀ x, x ∈ s2.1 ↔ x ∈ assign ∧ o x (k - 1) < med := fun x => mem_split_less
        have mE2 : ∀ x, x ∈ s2.2.1 ↔ x ∈ assign ∧ o x (k - 1) = med := fun x => mem_split_eq
        have mG2 : ∀ x, x ∈ s2.2.2 ↔ x ∈ assign ∧ med < o x (k - 1) := fun x => mem_split_greater
        -- number of different values in the recursive calls with the same `k`
        have hLu : (s1.1.map (fun i => o i (k - 1)) ++ s2.1.map (fun i => o i (k - 1))).dedup.length ≤ u / 2 := by
          refine le_trans (dedup_length_le (l' := (vc ++ va).dedup.filter (fun v => v < med)) ?_)
            (hless.trans (by omega))
          intro x hx
          rw [List.mem_filter, List.mem_dedup, List.mem_append, mem_vals, mem_vals]
          rw [List.mem_append, mem_vals, mem_vals] at hx
          rcases hx with ⟨i, hi, rfl⟩ | ⟨i, hi, rfl⟩
          · exact ⟨Or.inl ⟨i, ((mL1 i).mp hi).1, rfl⟩, by simpa using ((mL1 i).mp hi).2⟩
          · exact ⟨Or.inr ⟨i, ((mL2 i).mp hi).1, rfl⟩, by simpa using ((mL2 i).mp hi).2⟩
        have hGu : (s1.2.2.map (fun i => o i (k - 1)) ++ s2.2.2.map (fun i => o i (k - 1))).dedup.length ≤ u / 2 := by
          refine le_trans (dedup_length_le (l' := (vc ++ va).dedup.filter (fun v => med < v)) ?_)
            (hgr.trans (by omega))
          intro x hx
          rw [List.mem_filter, List.mem_dedup, List.mem_append, mem_vals, mem_vals]
          rw [List.mem_append, mem_vals, mem_vals] at hx
          rcases hx with ⟨i, hi, rfl⟩ | ⟨i, hi, rfl⟩
          · exact ⟨Or.inl ⟨i, ((mG1 i).mp hi).1, rfl⟩, by simpa using ((mG1 i).mp hi).2⟩
          · exact ⟨Or.inr ⟨i, ((mG2 i).mp hi).1, rfl⟩, by simpa using ((mG2 i).mp hi).2⟩
        obtain ⟨t', rfl, hLt⟩ := half_lt hu2 ht hLu
        have hGt : (s1.2.2.map (fun i => o i (k - 1)) ++ s2.2.2.map (fun i => o i (k - 1))).dedup.length < 2 ^ t' := by
          rw [pow_succ] at ht; omega
        have hfuel : need k s t' ≤ fuel := by unfold need at hf ⊢; omega
        have hfuel' : need (k - 1) s s ≤ fuel := by omega
        -- the five calls
        obtain ⟨f1, r1, b1⟩ := ih k t' s1.1 s2.1 f hk c1 a1 (fun x hx => hCN x ((mL1 x).mp hx).1)
          (fun x hx => hAN x ((mL2 x).mp hx).1)
          (fun x hx hx' => hd x ((mL2 x).mp hx).1 ((mL1 x).mp hx').1) (by omega) hLt hfuel
        obtain ⟨f2, r2, b2⟩ := ih (k - 1) s s1.1 s2.2.1 f1 (by omega) c1 a2
          (fun x hx => hCN x ((mL1 x).mp hx).1) (fun x hx => hAN x ((mE2 x).mp hx).1)
          (fun x hx hx' => hd x ((mE2 x).mp hx).1 ((mL1 x).mp hx').1) (by omega)
          (hcount _ _ (by omega)) hfuel'
        obtain ⟨f3, r3, b3⟩ := ih (k - 1) s s1.2.1 s2.2.1 f2 (by omega) c2 a2
          (fun x hx => hCN x ((mE1 x).mp hx).1) (fun x hx => hAN x ((mE2 x).mp hx).1)
          (fun x hx hx' => hd x ((mE2 x).mp hx).1 ((mE1 x).mp hx').1) (by omega)
          (hcount _ _ (by omega)) hfuel'
        have hm : ∀ x, x ∈ mergeIdx s1.1 s1.2.1 ↔ x ∈ comp ∧ o x (k - 1) ≤ med := by
          intro x
          rw [mem_mergeIdx, mL1, mE1, le_iff_lt_or_eq]
          tauto
        have hml : (mergeIdx s1.1 s1.2.1).length + s2.2.2.length < 2 ^ s := by
          rw [length_mergeIdx]; omega
        obtain ⟨f4, r4, b4⟩ := ih (k - 1) s (mergeIdx s1.1 s1.2.1) s2.2.2 f3 (by omega)
          (sorted_mergeIdx _ _ c1 c2 (fun x hx hx' => by
            have h8 := ((mL1 x).mp hx).2
            have h9 := ((mE1 x).mp hx').2
            exact absurd h8 (by rw [h9]; exact lt_irrefl _))) a3
          (fun x hx => hCN x ((hm x).mp hx).1) (fun x hx => hAN x ((mG2 x).mp hx).1)
          (fun x hx hx' => hd x ((mG2 x).mp hx).1 ((hm x).mp hx').1) hml (hcount _ _ hml) hfuel'
        obtain ⟨f5, r5, b5⟩ := ih k t' s1.2.2 s2.2.2 f4 hk c3 a3
          (fun x hx => hCN x ((mG1 x).mp hx).1) (fun x hx => hAN x ((mG2 x).mp hx).1)
          (fun x hx hx' => hd x ((mG2 x).mp hx).1 ((mG1 x).mp hx').1) (by omega) hGt hfuel
        refine ⟨f5, by simp [r1, r2, r3, r4, r5], ?_, ?_⟩
        · intro i hi
          rw [b5.1 i (fun h => hi ((mG2 i).mp h).1), b4.1 i (fun h => hi ((mG2 i).mp h).1),
            b3.1 i (fun h => hi ((mE2 i).mp h).1), b2.1 i (fun h => hi ((mE2 i).mp h).1),
            b1.1 i (fun h => hi ((mL2 i).mp h).1)]
        · intro i hi n
          -- labels of `comp` never change
          have g1 : ∀ j ∈ comp, f1 j = f j := fun j hj => b1.1 j (fun h => hd j ((mL2 j).mp h).1 hj)
          have g2 : ∀ j ∈ comp, f2 j = f j := fun j hj =>
            (b2.1 j (fun h => hd j ((mE2 j).mp h).1 hj)).trans (g1 j hj)
          have g3 : ∀ j ∈ comp, f3 j = f j := fun j hj =>
            (b3.1 j (fun h => hd j ((mE2 j).mp h).1 hj)).trans (g2 j hj)
          have g4 : ∀ j ∈ comp, f4 j = f j := fun j hj =>
            (b4.1 j (fun h => hd j ((mG2 j).mp h).1 hj)).trans (g3 j hj)
          rcases lt_trichotomy (o i (k - 1)) med with hlt | heq | hgt
          · have iL : i ∈ s2.1 := (mL2 i).mpr ⟨hi, hlt⟩
            have nE : i ∉ s2.2.1 := fun h => absurd ((mE2 i).mp h).2 hlt.ne
            have nG : i ∉ s2.2.2 := fun h => absurd ((mG2 i).mp h).2 hlt.not_gt
            rw [b5.1 i nG, b4.1 i nG, b3.1 i nE, b2.1 i nE, b1.2 i iL n]
            refine and_congr_right fun _ => ⟨fun h j hj hle => ?_, fun h j hj hle => ?_⟩
            · exact h j ((mL1 j).mpr ⟨hj, lt_of_le_of_lt (hle (k - 1) (by omega)) hlt⟩) hle
            · exact h j ((mL1 j).mp hj).1 hle
          · have iE : i ∈ s2.2.1 := (mE2 i).mpr ⟨hi, heq⟩
            have nL : i ∉ s2.1 := fun h => absurd ((mL2 i).mp h).2 heq.not_lt
            have nG : i ∉ s2.2.2 := fun h => absurd ((mG2 i).mp h).2 heq.not_gt
            rw [b5.1 i nG, b4.1 i nG, b3.2 i iE n, b2.2 i iE n, b1.1 i nL]
            constructor
            · rintro ⟨⟨h6, h7⟩, h8⟩
              refine ⟨h6, fun j hj hle => ?_⟩
              have hle' := (le_pred (k := k) (by omega)).mp hle
              rcases (heq ▸ hle'.2 : o j (k - 1) ≤ med).lt_or_eq with h9 | h9
              · rw [← g1 j hj]; exact h7 j ((mL1 j).mpr ⟨hj, h9⟩) hle'.1
              · rw [← g2 j hj]; exact h8 j ((mE1 j).mpr ⟨hj, h9⟩) hle'.1
            · rintro ⟨h6, h7⟩
              refine ⟨⟨h6, fun j hj hle => ?_⟩, fun j hj hle => ?_⟩
              · obtain ⟨hj1, hj2⟩ := (mL1 j).mp hj
                rw [g1 j hj1]
                exact h7 j hj1 ((le_pred (k := k) (by omega)).mpr ⟨hle, by rw [heq]; exact hj2.le⟩)
              · obtain ⟨hj1, hj2⟩ := (mE1 j).mp hj
                rw [g2 j hj1]
                exact h7 j hj1 ((le_pred (k := k) (by omega)).mpr ⟨hle, by rw [heq]; exact hj2.le⟩)
          · have iG : i ∈ s2.2.2 := (mG2 i).mpr ⟨hi, hgt⟩
            have nL : i ∉ s2.1 := fun h => absurd ((mL2 i).mp h).2 hgt.not_gt
            have nE : i ∉ s2.2.1 := fun h => absurd ((mE2 i).mp h).2 hgt.ne'
            rw [b5.2 i iG n, b4.2 i iG n, b3.1 i nE, b2.1 i nE, b1.1 i nL]
            constructor
            · rintro ⟨⟨h6, h7⟩, h8⟩
              refine ⟨h6, fun j hj hle => ?_⟩
              rcases le_or_gt (o j (k - 1)) med with h9 | h9
              · rw [← g3 j hj]
                exact h7 j ((hm j).mpr ⟨hj, h9⟩) ((le_pred (k := k) (by omega)).mp hle).1
              · rw [← g4 j hj]
                exact h8 j ((mG1 j).mpr ⟨hj, h9⟩) hle
            · rintro ⟨h6, h7⟩
              refine ⟨⟨h6, fun j hj hle => ?_⟩, fun j hj hle => ?_⟩
              · obtain ⟨hj1, hj2⟩ := (hm j).mp hj
                rw [g3 j hj1]
                exact h7 j hj1 ((le_pred (k := k) (by omega)).mpr ⟨hle, hj2.trans hgt.le⟩)
              · obtain ⟨hj1, hj2⟩ := (mG1 j).mp hj
                rw [g4 j hj1]
                exact h7 j hj1 hle
      · -- nothing in `comp` can dominate anything in `assign`
        refine ⟨f, rfl, fun _ _ => rfl, fun i hi n => ?_⟩
        refine ⟨fun h => ⟨h, fun j hj hle => ?_⟩, fun h => h.1⟩
        exfalso
        have h6 := hle (k - 1) (by omega)
        have h7 := hminC.2 (o j (k - 1)) (mem_vals.mpr ⟨j, hj, rfl⟩)
        have h8 := hmaxA.2 (o i (k - 1)) (mem_vals.mpr ⟨i, hi, rfl⟩)
        exact h5 (h7.trans (h6.trans h8))

theorem helperA_spec {N : ℕ} (hlex : ∀ i j, i < j → j < N → lex2 o i j) (s : ℕ) :
    ∀ (fuel k t : ℕ) (S : List ℕ) (f : ℕ → ℕ), 2 ≤ k → S.Pairwise (· < ·) → (∀ x ∈ S, x < N) →
      (∀ i ∈ S, ∀ j ∈ S, i < j → ¬ le o k j i) → S.length < 2 ^ s → S.length < 2 ^ t →
      need k s t ≤ fuel → ∃ f', helperA o fuel k S f = some f' ∧ SpecA o k S f f' := by
  intro fuel
  induction fuel with
  | zero =>
    intro k t S f hk _ _ _ _ _ hf
    have := need_pos (s := s) (t := t) hk
    omega
  | succ fuel ih =>
    intro k t S f hk hS hN hstrict hs ht hf
    match S with
    | [] => exact ⟨f, by simp [helperA], by simp [SpecA]⟩
    | [a] =>
      refine ⟨f, by simp [helperA], fun _ _ => rfl, fun i hi n => ?_⟩
      rw [List.mem_singleton] at hi
      subst hi
      refine ⟨fun h => ⟨h, fun j hj hne => ?_⟩, fun h => h.1⟩
      rw [List.mem_singleton] at hj
      exact absurd hj hne
    | [l, r] =>
      have hlr : l < r := by simpa using hS
      have hnot : ¬ le o k r l := hstrict l (by simp) r (by simp) hlr
      have hsl : slice o k l ≠ slice o k r := by
        intro h
        rw [slice_eq_iff] at h
        exact hnot (fun m hm => (h m hm).ge)
      have hdom : isDominate (slice o k l) (slice o k r) = some true ↔ le o k l r := by
        rw [isDominate_slice]; simp [hsl]
      have key : ∀ f' : ℕ → ℕ, (∀ x, x ≠ r → f' x = f x) →
          (∀ n, f' r ≤ n ↔ f r ≤ n ∧ (le o k l r → f l < n)) → SpecA o k [l, r] f f' := by
        intro f' h1 h2
        refine ⟨fun x hx => h1 x (fun e => hx (by simp [e])), fun x hx n => ?_⟩
        simp only [List.mem_cons, List.not_mem_nil, or_false] at hx
        rcases hx with rfl | rfl
        · rw [h1 x hlr.ne]
          refine ⟨fun h => ⟨h, fun j hj hne hle => ?_⟩, fun h => h.1⟩
          simp only [List.mem_cons, List.not_mem_nil, or_false] at hj
          rcases hj with rfl | rfl
          · exact absurd rfl hne
          · exact absurd hle hnot
        · rw [h2 n]
          refine and_congr_right fun _ => ⟨fun h j hj hne hle => ?_, fun h hle => ?_⟩
          · simp only [List.mem_cons, List.not_mem_nil, or_false] at hj
            rcases hj with rfl | rfl
            · rw [h1 j hlr.ne]; exact h hle
            · exact absurd rfl hne
          · have := h l (by simp) hlr.ne hle
            rwa [h1 l hlr.ne] at this
      have hsome : (isDominate (slice o k l) (slice o k r)).isSome := by
        simp [isDominate, slice]
      obtain ⟨b, hb⟩ := Option.isSome_iff_exists.mp hsome
      unfold helperA
      simp only [hb]
      rw [hb] at hdom
      cases b with
      | true =>
        refine ⟨_, rfl, key _ (fun x hx => raise_ne f _ hx) (fun n => ?_)⟩
        have hle : le o k l r := hdom.mp rfl
        rw [raise_self, max_le_iff]
        simp [hle, Nat.lt_iff_add_one_le]
      | false =>
        refine ⟨f, rfl, key f (fun _ _ => rfl) (fun n => ?_)⟩
        have hle : ¬ le o k l r := fun h => by simpa using hdom.mpr h
        simp [hle]
    | a :: b :: c :: S' =>
      set S := a :: b :: c :: S' with hSdef
      have hlen : 3 ≤ S.length := by simp [hSdef]
      have hunf : helperA o (fuel + 1) k S f =
          if k = 2 then sweepA o S f
          else
            match oneUniqValue (S.map (fun i => o i (k - 1))) with
            | none => none
            | some true => helperA o fuel (k - 1) S f
            | some false =>
              match medianLow (S.map (fun i => o i (k - 1))) with
              | none => none
              | some med =>
                let s := splitBy o S med (k - 1)
                (helperA o fuel k s.1 f).bind fun f =>
                (helperB o fuel (k - 1) s.1 s.2.1 f).bind fun f =>
                (helperA o fuel (k - 1) s.2.1 f).bind fun f =>
                (helperB o fuel (k - 1) (mergeIdx s.2.1 s.1) s.2.2 f).bind fun f =>
                helperA o fuel k s.2.2 f := rfl
      rw [hunf]
      split_ifs with h2
      · subst h2
        exact sweepA_spec hlex S f (by simp [hSdef]) hS hN hstrict
      · have hk3 : 3 ≤ k := by omega
        have hpred := need_pred (s := s) (t := t) hk3
        have hne : S.map (fun i => o i (k - 1)) ≠ [] := by simp [hSdef]
        have huniq : ∃ b, oneUniqValue (S.map (fun i => o i (k - 1))) = some b ∧
            (b = true → ∀ i ∈ S, ∀ j ∈ S, o i (k - 1) = o j (k - 1)) := by
          refine ⟨_, rfl, fun hb => ?_⟩
          rw [List.all_eq_true] at hb
          have h0 : ∀ x ∈ S, o x (k - 1) = o a (k - 1) := by
            intro x hx
            rcases List.mem_cons.mp hx with rfl | hx
            · rfl
            · have := hb (o x (k - 1)) (List.mem_map_of_mem (f := fun i => o i (k - 1)) hx)
              simpa using this
          exact fun i hi j hj => (h0 i hi).trans (h0 j hj).symm
        obtain ⟨b, hb, hbt⟩ := huniq
        rw [hb]
        cases b with
        | true =>
          have hall := hbt rfl
          have hiff : ∀ i ∈ S, ∀ j ∈ S, (le o (k - 1) j i ↔ le o k j i) := by
            intro i hi j hj
            rw [le_pred (k := k) (by omega)]
            simp [hall j hj i hi]
          obtain ⟨f', e1, e2⟩ := ih (k - 1) s S f (by omega) hS hN
            (fun i hi j hj hij h => hstrict i hi j hj hij ((hiff i hi j hj).mp h)) hs hs (by omega)
          refine ⟨f', e1, e2.1, fun i hi n => ?_⟩
          rw [e2.2 i hi n]
          refine and_congr_right fun _ => forall_congr' fun j => forall_congr' fun hj =>
            forall_congr' fun _ => ?_
          rw [hiff i hi j hj]
        | false =>
          obtain ⟨med, hmed⟩ := medianLow_ne_none hne
          simp only
          rw [hmed]
          obtain ⟨-, hless, hgr⟩ := medianLow_spec hmed
          simp only
          set s2 := splitBy o S med (k - 1) with hs2
          obtain ⟨a1, a2, a3⟩ := sorted_split (o := o) hS med (k - 1)
          have hla := length_split (o := o) (S := S) med (k - 1)
          rw [← hs2] at a1 a2 a3 hla
          have mL : ∀ x, x ∈ s2.1 ↔ x ∈ S ∧ o x (k - 1) < med := fun x => mem_split_less
          have mE : ∀ x, x ∈ s2.2.1 ↔ x ∈ S ∧ o x (k - 1) = med := fun x => mem_split_eq
          have mG : ∀ x, x ∈ s2.2.2 ↔ x ∈ S ∧ med < o x (k - 1) := fun x => mem_split_greater
          have hLlen : s2.1.length ≤ S.length / 2 := by
            rw [List.filter_map, List.length_map, List.length_map] at hless
            refine le_trans (le_of_eq ?_) (hless.trans (by omega))
            rfl
          have hGlen : s2.2.2.length ≤ S.length / 2 := by
            rw [List.filter_map, List.length_map, List.length_map] at hgr
            exact hgr
          have hEGlen : s2.1.length + s2.2.1.length + s2.2.2.length ≤ S.length := by
            have : ∀ l : List ℕ, (splitBy o l med (k - 1)).1.length + (splitBy o l med (k - 1)).2.1.length +
                (splitBy o l med (k - 1)).2.2.length ≤ l.length := by
              intro l
              simp only [splitBy]
              induction l with
              | nil => simp
              | cons x l ihl =>
                simp only [List.filter_cons, List.length_cons]
                rcases lt_trichotomy (o x (k - 1)) med with h | h | h
                · simp [h, h.not_gt]; simp at ihl; omega
                · simp [h]; simp at ihl; omega
                · simp [h, h.not_gt]; simp at ihl; omega
            exact this S
          obtain ⟨t', rfl, hLt⟩ := half_lt (by omega) ht hLlen
          have hGt : s2.2.2.length < 2 ^ t' := by
            rw [pow_succ] at ht; omega
          have hfuel : need k s t' ≤ fuel := by unfold need at hf ⊢; omega
          have hfuel' : need (k - 1) s s ≤ fuel := by omega
          have hcount : ∀ (c a : List ℕ), c.length + a.length < 2 ^ s →
              (c.map (fun i => o i (k - 1 - 1)) ++ a.map (fun i => o i (k - 1 - 1))).dedup.length < 2 ^ s := by
            intro c a h
            refine lt_of_le_of_lt (dedup_length_le (l' := c.map (fun i => o i (k - 1 - 1)) ++
              a.map (fun i => o i (k - 1 - 1))) (fun x hx => hx)) ?_
            simpa using h
          have dLE : ∀ x ∈ s2.2.1, x ∉ s2.1 := fun x hx hx' =>
            absurd ((mL x).mp hx').2 ((mE x).mp hx).2.not_lt
          have hm : ∀ x, x ∈ mergeIdx s2.2.1 s2.1 ↔ x ∈ S ∧ o x (k - 1) ≤ med := by
            intro x
            rw [mem_mergeIdx, mL, mE, le_iff_lt_or_eq]
            tauto
          have hml : (mergeIdx s2.2.1 s2.1).length + s2.2.2.length < 2 ^ s := by
            rw [length_mergeIdx]; omega
          -- the five calls
          obtain ⟨f1, r1, b1⟩ := ih k t' s2.1 f hk a1 (fun x hx => hN x ((mL x).mp hx).1)
            (fun i hi j hj => hstrict i ((mL i).mp hi).1 j ((mL j).mp hj).1) (by omega) hLt hfuel
          obtain ⟨f2, r2, b2⟩ := helperB_spec hlex s fuel (k - 1) s s2.1 s2.2.1 f1 (by omega) a1 a2
            (fun x hx => hN x ((mL x).mp hx).1) (fun x hx => hN x ((mE x).mp hx).1) dLE (by omega)
            (hcount _ _ (by omega)) hfuel'
          obtain ⟨f3, r3, b3⟩ := ih (k - 1) s s2.2.1 f2 (by omega) a2
            (fun x hx => hN x ((mE x).mp hx).1)
            (fun i hi j hj hij h => hstrict i ((mE i).mp hi).1 j ((mE j).mp hj).1 hij
              ((le_pred (k := k) (by omega)).mpr ⟨h, by rw [((mE i).mp hi).2, ((mE j).mp hj).2]⟩))
            (by omega) (by omega) hfuel'
          obtain ⟨f4, r4, b4⟩ := helperB_spec hlex s fuel (k - 1) s (mergeIdx s2.2.1 s2.1) s2.2.2 f3
            (by omega) (sorted_mergeIdx _ _ a2 a1 dLE) a3 (fun x hx => hN x ((hm x).mp hx).1)
            (fun x hx => hN x ((mG x).mp hx).1)
            (fun x hx hx' => absurd ((mG x).mp hx).2 ((hm x).mp hx').2.not_gt) hml
            (hcount _ _ hml) hfuel'
          obtain ⟨f5, r5, b5⟩ := ih k t' s2.2.2 f4 hk a3 (fun x hx => hN x ((mG x).mp hx).1)
            (fun i hi j hj => hstrict i ((mG i).mp hi).1 j ((mG j).mp hj).1) (by omega) hGt hfuel
          refine ⟨f5, by simp [r1, r2, r3, r4, r5], ?_, ?_⟩
          · intro i hi
            rw [b5.1 i (fun h => hi ((mG i).mp h).1), b4.1 i (fun h => hi ((mG i).mp h).1),
              b3.1 i (fun h => hi ((mE i).mp h).1), b2.1 i (fun h => hi ((mE i).mp h).1),
              b1.1 i (fun h => hi ((mL i).mp h).1)]
          · -- final labels by class
            have nE_of_lt : ∀ i, o i (k - 1) < med → i ∉ s2.2.1 := fun i h h' =>
              absurd ((mE i).mp h').2 h.ne
            have nG_of_le : ∀ i, o i (k - 1) ≤ med → i ∉ s2.2.2 := fun i h h' =>
              absurd ((mG i).mp h').2 h.not_gt
            have gL : ∀ i, o i (k - 1) < med → f5 i = f1 i := fun i h => by
              rw [b5.1 i (nG_of_le i h.le), b4.1 i (nG_of_le i h.le), b3.1 i (nE_of_lt i h),
                b2.1 i (nE_of_lt i h)]
            have gLE : ∀ i, o i (k - 1) ≤ med → f5 i = f3 i := fun i h => by
              rw [b5.1 i (nG_of_le i h), b4.1 i (nG_of_le i h)]
            have nE_of_gt : ∀ i, med < o i (k - 1) → i ∉ s2.2.1 := fun i h h' =>
              absurd ((mE i).mp h').2 h.ne'
            have nL_of_ge : ∀ i, med ≤ o i (k - 1) → i ∉ s2.1 := fun i h h' =>
              absurd ((mL i).mp h').2 h.not_gt
            intro i hi n
            rcases lt_trichotomy (o i (k - 1)) med with hlt | heq | hgt
            · rw [gL i hlt, b1.2 i ((mL i).mpr ⟨hi, hlt⟩) n]
              refine and_congr_right fun _ => ⟨fun h j hj hne hle => ?_, fun h j hj hne hle => ?_⟩
              · have hjlt := lt_of_le_of_lt (hle (k - 1) (by omega)) hlt
                rw [gL j hjlt]
                exact h j ((mL j).mpr ⟨hj, hjlt⟩) hne hle
              · obtain ⟨hj1, hj2⟩ := (mL j).mp hj
                rw [← gL j hj2]
                exact h j hj1 hne hle
            · have iE : i ∈ s2.2.1 := (mE i).mpr ⟨hi, heq⟩
              rw [gLE i heq.le, b3.2 i iE n, b2.2 i iE n, b1.1 i (nL_of_ge i heq.ge)]
              constructor
              · rintro ⟨⟨h6, h7⟩, h8⟩
                refine ⟨h6, fun j hj hne hle => ?_⟩
                have hle' := (le_pred (k := k) (by omega)).mp hle
                rcases (heq ▸ hle'.2 : o j (k - 1) ≤ med).lt_or_eq with h9 | h9
                · rw [gL j h9]; exact h7 j ((mL j).mpr ⟨hj, h9⟩) hle'.1
                · rw [gLE j h9.le]; exact h8 j ((mE j).mpr ⟨hj, h9⟩) hne hle'.1
              · rintro ⟨h6, h7⟩
                refine ⟨⟨h6, fun j hj hle => ?_⟩, fun j hj hne hle => ?_⟩
                · obtain ⟨hj1, hj2⟩ := (mL j).mp hj
                  rw [← gL j hj2]
                  exact h7 j hj1 (fun e => absurd hj2 (by rw [e, heq]; exact lt_irrefl _))
                    ((le_pred (k := k) (by omega)).mpr ⟨hle, by rw [heq]; exact hj2.le⟩)
                · obtain ⟨hj1, hj2⟩ := (mE j).mp hj
                  rw [← gLE j hj2.le]
                  exact h7 j hj1 hne
                    ((le_pred (k := k) (by omega)).mpr ⟨hle, by rw [heq]; exact hj2.le⟩)
            · have iG : i ∈ s2.2.2 := (mG i).mpr ⟨hi, hgt⟩
              rw [b5.2 i iG n, b4.2 i iG n, b3.1 i (nE_of_gt i hgt), b2.1 i (nE_of_gt i hgt),
                b1.1 i (nL_of_ge i hgt.le)]
              constructor
              · rintro ⟨⟨h6, h7⟩, h8⟩
                refine ⟨h6, fun j hj hne hle => ?_⟩
                rcases le_or_gt (o j (k - 1)) med with h9 | h9
                · rw [gLE j h9]
                  exact h7 j ((hm j).mpr ⟨hj, h9⟩) ((le_pred (k := k) (by omega)).mp hle).1
                · exact h8 j ((mG j).mpr ⟨hj, h9⟩) hne hle
              · rintro ⟨h6, h7⟩
                refine ⟨⟨h6, fun j hj hle => ?_⟩, fun j hj hne hle => ?_⟩
                · obtain ⟨hj1, hj2⟩ := (hm j).mp hj
                  rw [← gLE j hj2]
                  exact h7 j hj1 (fun e => absurd hj2 (by rw [e]; exact hgt.not_ge))
                    ((le_pred (k := k) (by omega)).mpr ⟨hle, hj2.trans hgt.le⟩)
                · obtain ⟨hj1, hj2⟩ := (mG j).mp hj
                  exact h7 j hj1 hne hle

end Verif.NDS
