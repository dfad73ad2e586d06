import Verif.NDS.Rec
import Mathlib.Data.Nat.Log

/-!
# Correctness of `non_domin_sort`

`frontLabels_spec`: with enough recursion depth the labels satisfy the recursive description of the
dominance rank.
-/

namespace Verif.NDS

set_option linter.unusedSectionVars false

variable {K : Type*} [LinearOrder K]

/-- Pareto dominance between vectors (specification, minimisation). -/
def Dominates (a b : List K) : Prop :=
  a.length = b.length ∧ (∀ m (ha : m < a.length) (hb : m < b.length), a[m] ≤ b[m]) ∧
    ∃ (m : ℕ) (ha : m < a.length) (hb : m < b.length), a[m] < b[m]

theorem dominates_iff {a b : List K} :
    Dominates a b ↔ a.length = b.length ∧
      (∀ m (ha : m < a.length) (hb : m < b.length), a[m] ≤ b[m]) ∧ a ≠ b := by
  unfold Dominates
  refine and_congr_right fun hl => and_congr_right fun hle => ⟨?_, ?_⟩
  · rintro ⟨m, ha, hb, h⟩ rfl
    exact lt_irrefl _ h
  · intro hne
    by_contra hcon
    push Not at hcon
    exact hne (List.ext_getElem hl fun m ha hb => le_antisymm (hle m ha hb) (hcon m ha hb))

theorem Dominates.irrefl (a : List K) : ¬ Dominates a a := fun h => (dominates_iff.mp h).2.2 rfl

theorem Dominates.trans {a b c : List K} (h1 : Dominates a b) (h2 : Dominates b c) :
    Dominates a c := by
  obtain ⟨l1, e1, m, p, q, h⟩ := h1
  obtain ⟨l2, e2, -⟩ := h2
  exact ⟨l1.trans l2, fun m ha hb => (e1 m ha (by omega)).trans (e2 m (by omega) hb),
    m, p, by omega, lt_of_lt_of_le h (e2 m q (by omega))⟩

/-! ### Lexicographic order -/

theorem lexLe_total (a b : List K) : lexLe a b = true ∨ lexLe b a = true := by
  induction a generalizing b with
  | nil => simp [lexLe]
  | cons x a ih =>
    cases b with
    | nil => simp [lexLe]
    | cons y b =>
      simp only [lexLe]
      rcases lt_trichotomy x y with h | h | h
      · simp [h]
      · subst h; simpa using ih b
      · simp [h]

theorem lexLe_trans (a b c : List K) (h1 : lexLe a b = true) (h2 : lexLe b c = true) :
    lexLe a c = true := by
  induction a generalizing b c with
  | nil => simp [lexLe]
  | cons x a ih =>
    cases b with
    | nil => simp [lexLe] at h1
    | cons y b =>
      cases c with
      | nil => simp [lexLe] at h2
      | cons z c =>
        simp only [lexLe] at h1 h2 ⊢
        rcases lt_trichotomy x y with h | h | h
        · rcases lt_trichotomy y z with h' | h' | h'
          · simp [h.trans h']
          · subst h'; simp [h]
          · simp [h', h'.not_gt] at h2
        · subst h
          rcases lt_trichotomy x z with h' | h' | h'
          · simp [h']
          · subst h'
            simp only [lt_irrefl, if_false] at h1 h2 ⊢
            exact ih b c h1 h2
          · simp [h', h'.not_gt] at h2
        · simp [h, h.not_gt] at h1

theorem lexLe_antisymm (a b : List K) (h1 : lexLe a b = true) (h2 : lexLe b a = true) : a = b := by
  induction a generalizing b with
  | nil => cases b with
    | nil => rfl
    | cons y b => simp [lexLe] at h2
  | cons x a ih =>
    cases b with
    | nil => simp [lexLe] at h1
    | cons y b =>
      simp only [lexLe] at h1 h2
      rcases lt_trichotomy x y with h | h | h
      · simp [h, h.not_gt] at h2
      · subst h
        simp only [lt_irrefl, if_false] at h1 h2
        rw [ih b h1 h2]
      · simp [h, h.not_gt] at h1

theorem lexLe_of_le (a b : List K) (hl : a.length = b.length)
    (h : ∀ m (ha : m < a.length) (hb : m < b.length), a[m] ≤ b[m]) : lexLe a b = true := by
  induction a generalizing b with
  | nil => simp [lexLe]
  | cons x a ih =>
    cases b with
    | nil => simp at hl
    | cons y b =>
      have h0 : x ≤ y := h 0 (by simp) (by simp)
      simp only [lexLe]
      rcases h0.lt_or_eq with h1 | h1
      · simp [h1]
      · subst h1
        simp only [lt_irrefl, if_false]
        exact ih b (by simpa using hl) fun m ha hb =>
          h (m + 1) (Nat.succ_lt_succ ha) (Nat.succ_lt_succ hb)

theorem lexLe_two (a b : List K) (h : lexLe a b = true) (h1 : 1 < a.length) (h2 : 1 < b.length) :
    a[0] < b[0] ∨ a[0] = b[0] ∧ a[1] ≤ b[1] := by
  match a, b, h1, h2 with
  | a0 :: a1 :: a, b0 :: b1 :: b, _, _ =>
    change a0 < b0 ∨ a0 = b0 ∧ a1 ≤ b1
    simp only [lexLe] at h
    rcases lt_trichotomy a0 b0 with h' | h' | h'
    · exact Or.inl h'
    · subst h'
      simp only [lt_irrefl, if_false] at h
      refine Or.inr ⟨rfl, ?_⟩
      by_contra hc
      push Not at hc
      simp [hc, hc.not_gt] at h
    · simp [h', h'.not_gt] at h

theorem uniqueObjs_sorted (Y : List (List K)) :
    (uniqueObjs Y).Pairwise (fun a b => lexLe a b = true) := by
  have : Std.Total (fun a b : List K => (lexLe a b = true)) := ⟨fun a b => lexLe_total a b⟩
  have : IsTrans (List K) (fun a b : List K => (lexLe a b = true)) := ⟨fun a b c => lexLe_trans a b c⟩
  exact List.pairwise_insertionSort _ _

theorem mem_uniqueObjs {Y : List (List K)} {y : List K} : y ∈ uniqueObjs Y ↔ y ∈ Y := by
  rw [uniqueObjs, (List.perm_insertionSort _ _).mem_iff, List.mem_dedup]

theorem nodup_uniqueObjs (Y : List (List K)) : (uniqueObjs Y).Nodup := by
  rw [uniqueObjs, (List.perm_insertionSort _ _).nodup_iff]
  exact List.nodup_dedup _

theorem length_uniqueObjs_le (Y : List (List K)) : (uniqueObjs Y).length ≤ Y.length := by
  rw [uniqueObjs, (List.perm_insertionSort _ _).length_eq]
  exact (List.dedup_sublist _).length_le

/-! ### The labels -/

/-- Recursion depth that suffices for `n` rows with `D` objectives. -/
def depthBound (D n : ℕ) : ℕ := (D - 1) * (Nat.log 2 n + 2) + Nat.log 2 n + 1

/-- The recursive description of the dominance rank: the label of `i` is the least number above the
labels of the rows that dominate row `i`. -/
def IsRank (Y : List (List K)) (lab : List ℕ) : Prop :=
  ∃ hlen : lab.length = Y.length, ∀ i (hi : i < Y.length), ∀ n,
    (lab[i] ≤ n ↔ ∀ j (hj : j < Y.length), Dominates Y[j] Y[i] → lab[j] < n)

theorem frontLabels_spec [Inhabited K] {D fuel : ℕ} {Y : List (List K)} (hne : Y ≠ []) (hD : 2 ≤ D)
    (hY : ∀ y ∈ Y, y.length = D) (hfuel : depthBound D Y.length ≤ fuel) :
    ∃ lab, frontLabels fuel Y = some lab ∧ IsRank Y lab := by
  match Y, hne with
  | y :: Y', _ =>
    set Y := y :: Y' with hYdef
    have hyD : y.length = D := hY y (by simp [hYdef])
    set u := uniqueObjs Y with hu
    set o : ℕ → ℕ → K := fun i m => (u.getD i []).getD m default with ho
    have hul : ∀ i (hi : i < u.length), u[i].length = D := fun i hi =>
      hY _ (mem_uniqueObjs.mp (List.getElem_mem hi))
    have hov : ∀ i (hi : i < u.length) m (hm : m < u[i].length), o i m = (u[i])[m] := by
      intro i hi m hm
      simp [ho, List.getD_eq_getElem?_getD, hi, hm]
    have hsorted : ∀ i j (hij : i < j) (hj : j < u.length),
        lexLe (u[i]'(hij.trans hj)) u[j] = true := fun i j hij hj =>
      (List.pairwise_iff_getElem.mp (uniqueObjs_sorted Y)) i j (hij.trans hj) hj hij
    have hle : ∀ i j (hi : i < u.length) (hj : j < u.length), le o D j i ↔
        ∀ m (ha : m < u[j].length) (hb : m < u[i].length), (u[j])[m] ≤ (u[i])[m] := by
      intro i j hi hj
      refine ⟨fun h m ha hb => ?_, fun h m hm => ?_⟩
      · have := h m (by rw [hul j hj] at ha; exact ha)
        rwa [hov i hi m hb, hov j hj m ha] at this
      · rw [hov i hi m (by rw [hul i hi]; exact hm), hov j hj m (by rw [hul j hj]; exact hm)]
        exact h m _ _
    have hstrict : ∀ i ∈ List.range u.length, ∀ j ∈ List.range u.length, i < j → ¬ le o D j i := by
      intro i hi j hj hij h
      rw [List.mem_range] at hi hj
      have h1 := lexLe_of_le u[j] u[i] (by rw [hul i hi, hul j hj]) ((hle i j hi hj).mp h)
      have h2 := lexLe_antisymm _ _ (hsorted i j hij hj) h1
      have := (List.Nodup.getElem_inj_iff (nodup_uniqueObjs Y)).mp h2
      omega
    have hlex : ∀ i j, i < j → j < u.length → lex2 o i j := by
      intro i j hij hj
      have hi := hij.trans hj
      have h := hsorted i j hij hj
      have l1 := hul i hi
      have l2 := hul j hj
      have e10 := hov i hi 0 (by omega)
      have e11 := hov i hi 1 (by omega)
      have e20 := hov j hj 0 (by omega)
      have e21 := hov j hj 1 (by omega)
      unfold lex2
      rw [e10, e11, e20, e21]
      exact lexLe_two _ _ h (by omega) (by omega)
    set s := Nat.log 2 Y.length + 1 with hs
    have hus : u.length < 2 ^ s :=
      lt_of_le_of_lt (length_uniqueObjs_le Y) (Nat.lt_pow_succ_log_self (by norm_num) _)
    obtain ⟨f, hf, hspec⟩ := helperA_spec (o := o) (N := u.length) hlex s fuel D s
      (List.range u.length) (fun _ => 0) hD (List.pairwise_lt_range) (fun x hx => List.mem_range.mp hx)
      hstrict (by simpa using hus) (by simpa using hus) (by unfold need; unfold depthBound at hfuel; omega)
    refine ⟨Y.map (fun y => f (u.idxOf y)), ?_, by simp, ?_⟩
    · unfold frontLabels
      have h1 : ¬ y.length ≤ 1 := by omega
      have h2 : (Y.any fun z => decide (z.length ≠ y.length)) = false := by
        rw [List.any_eq_false]
        intro z hz
        simp [hY z hz, hyD]
      change (if y.length ≤ 1 then none
        else if (Y.any fun z => decide (z.length ≠ y.length)) = true then none
        else Option.map (fun f => List.map (fun y => f (List.idxOf y u)) Y)
            (helperA o fuel y.length (List.range u.length) fun _ => 0)) = _
      rw [if_neg h1, if_neg (by rw [h2]; simp), hyD]
      change Option.map _ (helperA o fuel D (List.range u.length) fun _ => 0) = _
      rw [hf]; rfl
    · intro i hi n
      have hidx : ∀ z ∈ Y, u.idxOf z < u.length := fun z hz =>
        List.idxOf_lt_length_iff.mpr (mem_uniqueObjs.mpr hz)
      have hget : ∀ z (hz : z ∈ Y), u[u.idxOf z]'(hidx z hz) = z := fun z hz => List.getElem_idxOf _
      have hYi : Y[i] ∈ Y := List.getElem_mem hi
      rw [List.getElem_map, hspec.2 _ (List.mem_range.mpr (hidx _ hYi)) n]
      simp only [Nat.zero_le, true_and]
      constructor
      · intro h j hj hdom
        have hYj : Y[j] ∈ Y := List.getElem_mem hj
        rw [List.getElem_map]
        rw [dominates_iff] at hdom
        refine h _ (List.mem_range.mpr (hidx _ hYj)) (fun e => hdom.2.2 ?_) ?_
        · have e1 := hget _ hYj
          have e2 := hget _ hYi
          rw [← e1, ← e2]
          congr 1
        · rw [hle _ _ (hidx _ hYi) (hidx _ hYj)]
          intro m ha hb
          have e1 := hget _ hYj
          have e2 := hget _ hYi
          have := hdom.2.1 m (by rw [hY _ hYj, ← hul _ (hidx _ hYj)]; exact ha)
            (by rw [hY _ hYi, ← hul _ (hidx _ hYi)]; exact hb)
          simpa [e1, e2] using this
      · intro h q hq hne hleq
        rw [List.mem_range] at hq
        obtain ⟨j, hj, hYj⟩ := List.getElem_of_mem (mem_uniqueObjs.mp (List.getElem_mem hq))
        have := h j hj ?_
        · rw [List.getElem_map, hYj, List.Nodup.idxOf_getElem (nodup_uniqueObjs Y)] at this
          exact this
        · rw [dominates_iff]
          have hii := hidx _ hYi
          have e2 := hget _ hYi
          refine ⟨by rw [hY _ (List.getElem_mem hj), hY _ hYi], fun m ha hb => ?_, fun e => hne ?_⟩
          · have := (hle _ _ hii hq).mp hleq m (by rw [hul _ hq, ← hY _ (List.getElem_mem hj)]; exact ha)
              (by rw [hul _ hii, ← hY _ hYi]; exact hb)
            simpa [hYj, e2] using this
          · rw [← e, hYj, List.Nodup.idxOf_getElem (nodup_uniqueObjs Y)]

/-! ### Consequences of `IsRank` -/

theorem IsRank.lt_of_dominates {Y : List (List K)} {lab : List ℕ} (h : IsRank Y lab) {i j : ℕ}
    (hi : i < lab.length) (hj : j < lab.length) (hi' : i < Y.length) (hj' : j < Y.length)
    (hd : Dominates Y[j] Y[i]) : lab[j] < lab[i] := by
  obtain ⟨hl, h⟩ := h
  exact (h i hi' (lab[i])).mp le_rfl j hj' hd

theorem IsRank.exists_dominator {Y : List (List K)} {lab : List ℕ} (h : IsRank Y lab) {i k : ℕ}
    (hi : i < lab.length) (hi' : i < Y.length) (hk : lab[i] = k + 1) :
    ∃ (j : ℕ) (hj : j < lab.length) (hj' : j < Y.length), Dominates Y[j] Y[i] ∧ lab[j] = k := by
  obtain ⟨hl, h⟩ := h
  by_contra hcon
  push Not at hcon
  have h1 : lab[i] ≤ k := (h i hi' k).mpr fun j hj hd => by
    have h2 := (h i hi' (lab[i])).mp le_rfl j hj hd
    have h3 := hcon j (by omega) hj hd
    omega
  omega

theorem IsRank.unique {Y : List (List K)} {lab lab' : List ℕ} (h : IsRank Y lab)
    (h' : IsRank Y lab') : lab = lab' := by
  obtain ⟨hl, h⟩ := h
  obtain ⟨hl', h'⟩ := h'
  have key : ∀ n i (hi : i < Y.length), (lab[i] ≤ n ↔ lab'[i] ≤ n) := by
    intro n
    induction n with
    | zero =>
      intro i hi
      rw [h i hi, h' i hi]
      simp
    | succ n ih =>
      intro i hi
      rw [h i hi, h' i hi]
      simp only [Nat.lt_succ_iff]
      exact forall_congr' fun j => forall_congr' fun hj => forall_congr' fun _ => ih j hj
  refine List.ext_getElem (by omega) fun i hi hi' => ?_
  exact le_antisymm ((key _ i (by omega)).mpr le_rfl) ((key _ i (by omega)).mp le_rfl)

end Verif.NDS
