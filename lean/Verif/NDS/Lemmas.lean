import Verif.NDS.Model
import Mathlib.Data.List.MinMax
import Mathlib.Data.List.Perm.Subperm
import Mathlib.Tactic.Ring
import Mathlib.Tactic.Linarith

/-!
# Correctness of the sweeps and of the recursive procedures

Results are stated through their upper bounds: `x = max a (max over j of g j + 1)` is written as
`∀ n, x ≤ n ↔ a ≤ n ∧ ∀ j, g j < n`.
-/

set_option linter.unusedSectionVars false

namespace Verif.NDS

variable {K : Type*} [LinearOrder K] {o : ℕ → ℕ → K}

/-- Weak dominance on the first `k` objectives. -/
def le (o : ℕ → ℕ → K) (k j i : ℕ) : Prop := ∀ m < k, o j m ≤ o i m

/-- What `_nd_helper_b` achieves. -/
def SpecB (o : ℕ → ℕ → K) (k : ℕ) (comp assign : List ℕ) (f f' : ℕ → ℕ) : Prop :=
  (∀ i, i ∉ assign → f' i = f i) ∧
    ∀ i ∈ assign, ∀ n, f' i ≤ n ↔ f i ≤ n ∧ ∀ j ∈ comp, le o k j i → f j < n

/-- What `_nd_helper_a` achieves. -/
def SpecA (o : ℕ → ℕ → K) (k : ℕ) (S : List ℕ) (f f' : ℕ → ℕ) : Prop :=
  (∀ i, i ∉ S → f' i = f i) ∧
    ∀ i ∈ S, ∀ n, f' i ≤ n ↔ f i ≤ n ∧ ∀ j ∈ S, j ≠ i → le o k j i → f' j < n

/-! ### Dominance -/

theorem domLoop_iff : ∀ (l r : List K) (less : Bool), l.length = r.length →
    (domLoop l r less = true ↔ List.Forall₂ (· ≤ ·) l r ∧ (less = true ∨ l ≠ r))
  | [], [], less, _ => by simp [domLoop]
  | a :: l, b :: r, less, h => by
    have h' : l.length = r.length := by simpa using h
    unfold domLoop
    split_ifs with h1 h2
    · rw [domLoop_iff l r true h']
      simp [h1.le, h1.ne]
    · simp [h2]
    · have : a = b := le_antisymm (not_lt.mp h2) (not_lt.mp h1)
      subst this
      rw [domLoop_iff l r less h']
      simp
  | [], _ :: _, _, h => by simp at h
  | _ :: _, [], _, h => by simp at h

theorem forall₂_slice (k j i : ℕ) : List.Forall₂ (· ≤ ·) (slice o k j) (slice o k i) ↔ le o k j i := by
  unfold slice
  rw [List.forall₂_map_left_iff, List.forall₂_map_right_iff, List.forall₂_same]
  simp [le]

theorem slice_eq_iff (k j i : ℕ) : slice o k j = slice o k i ↔ ∀ m < k, o j m = o i m := by
  unfold slice
  rw [List.map_inj_left]
  simp

theorem isDominate_slice (k j i : ℕ) :
    isDominate (slice o k j) (slice o k i) = some true ↔ le o k j i ∧ slice o k j ≠ slice o k i := by
  have hl : (slice o k j).length = (slice o k i).length := by simp [slice]
  simp only [isDominate, hl, if_true, Option.some.injEq]
  rw [domLoop_iff _ _ _ hl, forall₂_slice]
  simp

theorem isDominate_or_eq (k j i : ℕ) :
    (isDominate (slice o k j) (slice o k i) = some true ∨ slice o k j = slice o k i) ↔ le o k j i := by
  rw [isDominate_slice]
  constructor
  · rintro (h | h)
    · exact h.1
    · rw [slice_eq_iff] at h
      exact fun m hm => (h m hm).le
  · intro h
    by_cases he : slice o k j = slice o k i
    · exact Or.inr he
    · exact Or.inl ⟨h, he⟩

/-! ### Updates -/

theorem raise_ne (f : ℕ → ℕ) {i x : ℕ} (v : ℕ) (h : x ≠ i) : raise f i v x = f x := by
  simp [raise, h]

theorem raise_self (f : ℕ → ℕ) (i v : ℕ) : raise f i v i = max (f i) v := by
  simp [raise]

theorem raiseOver_ne (f : ℕ → ℕ) {i x : ℕ} (cand : List ℕ) (h : x ≠ i) :
    raiseOver f i cand x = f x := by
  unfold raiseOver
  rcases (cand.map f).max? with _ | m
  · rfl
  · exact raise_ne f _ h

theorem raiseOver_le (f : ℕ → ℕ) (i : ℕ) (cand : List ℕ) (n : ℕ) :
    raiseOver f i cand i ≤ n ↔ f i ≤ n ∧ ∀ x ∈ cand, f x < n := by
  unfold raiseOver
  rcases h : (cand.map f).max? with _ | m
  · rw [List.max?_eq_none_iff, List.map_eq_nil_iff] at h
    simp [h]
  · rw [List.max?_eq_some_iff] at h
    change raise f i (m + 1) i ≤ n ↔ _
    rw [raise_self, max_le_iff]
    refine and_congr_right fun _ => ⟨fun hm x hx => ?_, fun hx => ?_⟩
    · have := h.2 (f x) (List.mem_map_of_mem hx)
      omega
    · obtain ⟨x, hxm, rfl⟩ := List.mem_map.mp h.1
      exact hx x hxm

theorem eq_of_le_iff {a b : ℕ} (h : ∀ n, a ≤ n ↔ b ≤ n) : a = b :=
  le_antisymm ((h b).mpr le_rfl) ((h a).mp le_rfl)

/-! ### The pairwise branch -/

theorem pairStep_ne (k i : ℕ) (f : ℕ → ℕ) (j : ℕ) {x : ℕ} (h : x ≠ i) : pairStep o k i f j x = f x := by
  unfold pairStep
  split
  · exact raise_ne f _ h
  · rfl

theorem pairStep_le (k i : ℕ) (f : ℕ → ℕ) (j n : ℕ) :
    pairStep o k i f j i ≤ n ↔ f i ≤ n ∧ (le o k j i → f j < n) := by
  unfold pairStep
  split_ifs with h
  · rw [isDominate_or_eq] at h
    rw [raise_self, max_le_iff]; simp [h, Nat.lt_iff_add_one_le]
  · rw [isDominate_or_eq] at h
    simp [h]

theorem pairFold (k i : ℕ) : ∀ (comp : List ℕ) (f : ℕ → ℕ), i ∉ comp →
    (∀ x, x ≠ i → comp.foldl (pairStep o k i) f x = f x) ∧
      ∀ n, comp.foldl (pairStep o k i) f i ≤ n ↔ f i ≤ n ∧ ∀ j ∈ comp, le o k j i → f j < n
  | [], f, _ => by simp
  | j :: comp, f, h => by
    have hj : j ≠ i := fun e => h (by simp [e])
    obtain ⟨h1, h2⟩ := pairFold k i comp (pairStep o k i f j) (fun e => h (by simp [e]))
    simp only [List.foldl_cons]
    refine ⟨fun x hx => (h1 x hx).trans (pairStep_ne k i f j hx), fun n => ?_⟩
    rw [h2 n, pairStep_le]
    simp only [List.mem_cons, forall_eq_or_imp]
    have : (∀ x ∈ comp, le o k x i → pairStep o k i f j x < n) ↔ ∀ x ∈ comp, le o k x i → f x < n := by
      refine forall_congr' fun x => forall_congr' fun hx => ?_
      rw [pairStep_ne k i f j (fun e => h (by simp [← e, hx]))]
    rw [this]
    tauto

theorem pairs_spec (k : ℕ) (comp : List ℕ) : ∀ (assign : List ℕ) (f : ℕ → ℕ), assign.Nodup →
    (∀ i ∈ assign, i ∉ comp) → SpecB o k comp assign f (pairs o k comp assign f)
  | [], f, _, _ => by simp [SpecB, pairs]
  | i :: assign, f, hn, hd => by
    rw [List.nodup_cons] at hn
    obtain ⟨h1, h2⟩ := pairFold (o := o) k i comp f (hd i (by simp))
    obtain ⟨h3, h4⟩ := pairs_spec k comp assign (comp.foldl (pairStep o k i) f) hn.2
      (fun x hx => hd x (by simp [hx]))
    have hf : pairs o k comp (i :: assign) f = pairs o k comp assign (comp.foldl (pairStep o k i) f) := rfl
    rw [hf]
    refine ⟨fun x hx => ?_, fun x hx n => ?_⟩
    · simp only [List.mem_cons, not_or] at hx
      rw [h3 x hx.2, h1 x hx.1]
    · rcases List.mem_cons.mp hx with rfl | hx
      · rw [h3 x hn.1, h2]
      · rw [h4 x hx n, h1 x (fun e => hn.1 (e ▸ hx))]
        refine and_congr_right fun _ => forall_congr' fun j => forall_congr' fun hj => ?_
        rw [h1 j (fun e => hd i (by simp) (e ▸ hj))]

/-! ### `_sweep_b` -/

theorem lex2_trans {i j l : ℕ} (h1 : lex2 o i j) (h2 : lex2 o j l) : lex2 o i l := by
  rcases h1 with h1 | ⟨h1, h1'⟩ <;> rcases h2 with h2 | ⟨h2, h2'⟩
  · exact Or.inl (h1.trans h2)
  · exact Or.inl (h2 ▸ h1)
  · exact Or.inl (h1 ▸ h2)
  · exact Or.inr ⟨h1.trans h2, h1'.trans h2'⟩

theorem lex2.fst {i j : ℕ} (h : lex2 o i j) : o i 0 ≤ o j 0 := by
  rcases h with h | ⟨h, _⟩
  · exact h.le
  · exact h.le

theorem le.lex2 {i j : ℕ} (h : le o 2 i j) : lex2 o i j := by
  rcases (h 0 (by omega)).lt_or_eq with h0 | h0
  · exact Or.inl h0
  · exact Or.inr ⟨h0, h 1 (by omega)⟩

theorem le2 {i j : ℕ} (h0 : o i 0 ≤ o j 0) (h1 : o i 1 ≤ o j 1) : le o 2 i j := by
  intro m hm
  have : m = 0 ∨ m = 1 := by omega
  rcases this with rfl | rfl <;> assumption

/-- `init` represents the processed indices `P`. -/
def Rep (o : ℕ → ℕ → K) (f : ℕ → ℕ) (P init : List ℕ) : Prop :=
  (∀ x ∈ init, x ∈ P) ∧ ∀ p ∈ P, ∃ x ∈ init, f x = f p ∧ o x 1 ≤ o p 1

theorem absorb_spec (f : ℕ → ℕ) (j : ℕ) : ∀ (comp init P : List ℕ), Rep o f P init →
    ∃ mid, comp = mid ++ (absorb o f j init comp).2 ∧ (∀ x ∈ mid, lex2 o x j) ∧
      Rep o f (P ++ mid) (absorb o f j init comp).1 ∧
      ∀ h, (absorb o f j init comp).2.head? = some h → ¬ lex2 o h j
  | [], init, P, hr => ⟨[], by simp [absorb], by simp, by simpa [absorb] using hr, by simp [absorb]⟩
  | i :: comp, init, P, hr => by
    unfold absorb
    split_ifs with h1 h2
    · obtain ⟨mid, e1, e2, e3, e4⟩ := absorb_spec f j comp init (P ++ [i]) (by
        refine ⟨fun x hx => by simp [hr.1 x hx], fun p hp => ?_⟩
        rcases List.mem_append.mp hp with hp | hp
        · exact hr.2 p hp
        · rw [List.mem_singleton] at hp
          subst hp
          simp only [List.any_eq_true, decide_eq_true_eq] at h2
          obtain ⟨x, hx, hfx, hox⟩ := h2
          exact ⟨x, hx, hfx, hox.le⟩)
      refine ⟨i :: mid, by simpa using e1, ?_, by simpa using e3, e4⟩
      intro x hx
      rcases List.mem_cons.mp hx with rfl | hx
      · exact h1
      · exact e2 x hx
    · obtain ⟨mid, e1, e2, e3, e4⟩ := absorb_spec f j comp (i :: init.filter (fun x => f x ≠ f i))
        (P ++ [i]) (by
        refine ⟨fun x hx => ?_, fun p hp => ?_⟩
        · rcases List.mem_cons.mp hx with rfl | hx
          · simp
          · simp [hr.1 x (List.mem_filter.mp hx).1]
        · rcases List.mem_append.mp hp with hp | hp
          · obtain ⟨x, hx, hfx, hox⟩ := hr.2 p hp
            by_cases hxi : f x = f i
            · refine ⟨i, by simp, by rw [← hxi, hfx], ?_⟩
              have hni : ¬ o x 1 < o i 1 := by
                intro hlt
                apply h2
                simp only [List.any_eq_true, decide_eq_true_eq]
                exact ⟨x, hx, hxi, hlt⟩
              exact (not_lt.mp hni).trans hox
            · exact ⟨x, by simp [hx, hxi], hfx, hox⟩
          · rw [List.mem_singleton] at hp
            subst hp
            exact ⟨p, by simp, rfl, le_rfl⟩)
      refine ⟨i :: mid, by simpa using e1, ?_, by simpa using e3, e4⟩
      intro x hx
      rcases List.mem_cons.mp hx with rfl | hx
      · exact h1
      · exact e2 x hx
    · exact ⟨[], by simp, by simp, by simpa using hr, by simpa using h1⟩

theorem Rep.congr {f f' : ℕ → ℕ} {P init : List ℕ} (h : Rep o f P init) (hf : ∀ x ∈ P, f' x = f x) :
    Rep o f' P init := by
  refine ⟨h.1, fun p hp => ?_⟩
  obtain ⟨x, hx, hfx, hox⟩ := h.2 p hp
  exact ⟨x, hx, by rw [hf x (h.1 x hx), hf p hp, hfx], hox⟩

theorem sweepB_spec {N : ℕ} (hlex : ∀ i j, i < j → j < N → lex2 o i j) :
    ∀ (assign init P comp : List ℕ) (f : ℕ → ℕ),
      (P ++ comp).Pairwise (· < ·) → (∀ x ∈ P ++ comp, x < N) → assign.Pairwise (· < ·) →
      (∀ x ∈ assign, x < N) → (∀ x ∈ assign, x ∉ P ++ comp) → Rep o f P init →
      (∀ p ∈ P, ∀ j ∈ assign, lex2 o p j) →
      SpecB o 2 (P ++ comp) assign f (sweepB o init comp assign f)
  | [], init, P, comp, f, _, _, _, _, _, _, _ => by simp [SpecB, sweepB]
  | j :: assign, init, P, comp, f, hC, hCN, hA, hAN, hd, hr, hl => by
    obtain ⟨mid, e1, e2, e3, e4⟩ := absorb_spec (o := o) f j comp init P hr
    rw [List.pairwise_cons] at hA
    unfold sweepB
    simp only
    set r := absorb o f j init comp with hrdef
    set f1 := raiseOver f j (r.1.filter (fun x => o x 1 ≤ o j 1)) with hf1
    have hset : P ++ comp = (P ++ mid) ++ r.2 := by rw [List.append_assoc, ← e1]
    have hjC : j ∉ P ++ comp := hd j (by simp)
    have hfC : ∀ x ∈ P ++ comp, f1 x = f x := fun x hx =>
      raiseOver_ne f _ (fun e => hjC (e ▸ hx))
    have hPj : ∀ p ∈ P ++ mid, lex2 o p j := by
      intro p hp
      rcases List.mem_append.mp hp with hp | hp
      · exact hl p hp j (by simp)
      · exact e2 p hp
    have hjrest : ∀ i ∈ assign, lex2 o j i := fun i hi => hlex j i (hA.1 i hi) (hAN i (by simp [hi]))
    have ih := sweepB_spec hlex assign r.1 (P ++ mid) r.2 f1 (hset ▸ hC)
      (fun x hx => hCN x (hset ▸ hx)) hA.2 (fun x hx => hAN x (by simp [hx]))
      (fun x hx => hset ▸ hd x (by simp [hx]))
      (e3.congr (fun x hx => hfC x (hset ▸ List.mem_append_left _ hx)))
      (fun p hp i hi => lex2_trans (hPj p hp) (hjrest i hi))
    rw [← hset] at ih
    have hjnot : j ∉ assign := fun h => absurd (hA.1 j h) (lt_irrefl j)
    -- the value given to `j`
    have hval : ∀ n, f1 j ≤ n ↔ f j ≤ n ∧ ∀ c ∈ P ++ comp, le o 2 c j → f c < n := by
      intro n
      rw [hf1, raiseOver_le]
      refine and_congr_right fun _ => ⟨fun h c hc hcj => ?_, fun h x hx => ?_⟩
      · have hcP : c ∈ P ++ mid := by
          rw [hset] at hc
          rcases List.mem_append.mp hc with hc | hc
          · exact hc
          · exfalso
            have hne : r.2 ≠ [] := List.ne_nil_of_mem hc
            obtain ⟨h0, t, ht⟩ := List.exists_cons_of_ne_nil hne
            apply e4 h0 (by rw [ht]; rfl)
            rw [ht] at hc
            rcases List.mem_cons.mp hc with rfl | hct
            · exact hcj.lex2
            · have hlt : h0 < c := by
                have := (List.pairwise_append.mp (hset ▸ hC)).2.1
                rw [ht, List.pairwise_cons] at this
                exact this.1 c hct
              exact lex2_trans (hlex h0 c hlt (hCN c (by rw [hset, ht]; simp [hct]))) hcj.lex2
        obtain ⟨x, hx, hfx, hox⟩ := e3.2 c hcP
        rw [← hfx]
        exact h x (List.mem_filter.mpr ⟨hx, by
          simpa using hox.trans (hcj 1 (by omega))⟩)
      · obtain ⟨hx1, hx2⟩ := List.mem_filter.mp hx
        have hxP := e3.1 x hx1
        exact h x (hset ▸ List.mem_append_left _ hxP) (le2 (hPj x hxP).fst (by simpa using hx2))
    refine ⟨fun x hx => ?_, fun x hx n => ?_⟩
    · simp only [List.mem_cons, not_or] at hx
      rw [ih.1 x hx.2]
      exact raiseOver_ne f _ hx.1
    · rcases List.mem_cons.mp hx with rfl | hx
      · rw [ih.1 x hjnot, hval]
      · have hxj : x ≠ j := fun e => hjnot (e ▸ hx)
        rw [ih.2 x hx n, hf1, raiseOver_ne f _ hxj, ← hf1]
        refine and_congr_right fun _ => forall_congr' fun c => forall_congr' fun hc => ?_
        rw [hfC c hc]

/-! ### `_sweep_a` -/

theorem sweepALoop_spec {N : ℕ} (hlex : ∀ i j, i < j → j < N → lex2 o i j) :
    ∀ (rest init P : List ℕ) (f : ℕ → ℕ),
      (P ++ rest).Pairwise (· < ·) → (∀ x ∈ P ++ rest, x < N) → Rep o f P init →
      (∀ i, i ∉ rest → sweepALoop o init rest f i = f i) ∧
      ∀ i ∈ rest, ∀ n, sweepALoop o init rest f i ≤ n ↔
        f i ≤ n ∧ ∀ j ∈ P ++ rest, j < i → le o 2 j i → sweepALoop o init rest f j < n
  | [], init, P, f, _, _, _ => by simp [sweepALoop]
  | i :: rest, init, P, f, hC, hN, hr => by
    unfold sweepALoop
    simp only
    set f1 := raiseOver f i (init.filter (fun x => o x 1 ≤ o i 1)) with hf1
    have hiP : i ∉ P := fun h =>
      absurd ((List.pairwise_append.mp hC).2.2 i h i (by simp)) (lt_irrefl i)
    have hirest : i ∉ rest := fun h =>
      absurd ((List.pairwise_cons.mp (List.pairwise_append.mp hC).2.1).1 i h) (lt_irrefl i)
    have hfP : ∀ x ∈ P, f1 x = f x := fun x hx => raiseOver_ne f _ (fun e => hiP (e ▸ hx))
    have hPi : ∀ p ∈ P, lex2 o p i := fun p hp =>
      hlex p i ((List.pairwise_append.mp hC).2.2 p hp i (by simp)) (hN i (by simp))
    have hval : ∀ n, f1 i ≤ n ↔ f i ≤ n ∧ ∀ c ∈ P, le o 2 c i → f c < n := by
      intro n
      rw [hf1, raiseOver_le]
      refine and_congr_right fun _ => ⟨fun h c hc hci => ?_, fun h x hx => ?_⟩
      · obtain ⟨x, hx, hfx, hox⟩ := hr.2 c hc
        rw [← hfx]
        exact h x (List.mem_filter.mpr ⟨hx, by simpa using hox.trans (hci 1 (by omega))⟩)
      · obtain ⟨hx1, hx2⟩ := List.mem_filter.mp hx
        have hxP := hr.1 x hx1
        exact h x hxP (le2 (hPi x hxP).fst (by simpa using hx2))
    have hrep : Rep o f1 (P ++ [i]) (i :: init.filter (fun x => f1 x ≠ f1 i)) := by
      refine ⟨fun x hx => ?_, fun p hp => ?_⟩
      · rcases List.mem_cons.mp hx with rfl | hx
        · simp
        · simp [hr.1 x (List.mem_filter.mp hx).1]
      · rcases List.mem_append.mp hp with hp | hp
        · obtain ⟨x, hx, hfx, hox⟩ := hr.2 p hp
          have hxP := hr.1 x hx
          by_cases hxi : f1 x = f1 i
          · refine ⟨i, by simp, by rw [← hxi, hfP x hxP, hfP p hp, hfx], ?_⟩
            by_contra hc
            have hlt : o x 1 ≤ o i 1 := hox.trans (not_le.mp hc).le
            have := ((hval (f1 i)).mp le_rfl).2 x hxP (le2 (hPi x hxP).fst hlt)
            rw [← hxi, hfP x hxP] at this
            exact lt_irrefl _ this
          · exact ⟨x, by simp [hx, hxi], by rw [hfP x hxP, hfP p hp, hfx], hox⟩
        · rw [List.mem_singleton] at hp
          subst hp
          exact ⟨p, by simp, rfl, le_rfl⟩
    obtain ⟨ih1, ih2⟩ := sweepALoop_spec hlex rest (i :: init.filter (fun x => f1 x ≠ f1 i)) (P ++ [i]) f1
      (by simpa using hC) (fun x hx => hN x (by simpa using hx)) hrep
    set g := sweepALoop o (i :: init.filter (fun x => f1 x ≠ f1 i)) rest f1
    refine ⟨fun x hx => ?_, fun x hx n => ?_⟩
    · simp only [List.mem_cons, not_or] at hx
      rw [ih1 x hx.2]
      exact raiseOver_ne f _ hx.1
    · rcases List.mem_cons.mp hx with rfl | hx
      · rw [ih1 x hirest, hval]
        have hgP : ∀ c ∈ P, g c = f c := by
          intro c hc
          rw [ih1 c (fun h => ?_), hfP c hc]
          exact absurd ((List.pairwise_append.mp hC).2.2 c hc c (by simp [h])) (lt_irrefl c)
        refine and_congr_right fun _ => ⟨fun h c hc hlt hci => ?_, fun h c hc hci => ?_⟩
        · rcases List.mem_append.mp hc with hc | hc
          · rw [hgP c hc]; exact h c hc hci
          · exfalso
            rcases List.mem_cons.mp hc with rfl | hc
            · exact lt_irrefl _ hlt
            · have := (List.pairwise_cons.mp (List.pairwise_append.mp hC).2.1).1 c hc
              omega
        · rw [← hgP c hc]
          exact h c (by simp [hc]) ((List.pairwise_append.mp hC).2.2 c hc x (by simp)) hci
      · have hxi : x ≠ i := fun e => hirest (e ▸ hx)
        rw [ih2 x hx n, hf1, raiseOver_ne f _ hxi]
        simp only [List.append_assoc, List.cons_append, List.nil_append]

theorem sweepA_spec {N : ℕ} (hlex : ∀ i j, i < j → j < N → lex2 o i j) (S : List ℕ) (f : ℕ → ℕ)
    (hne : S ≠ []) (hS : S.Pairwise (· < ·)) (hN : ∀ x ∈ S, x < N)
    (hstrict : ∀ i ∈ S, ∀ j ∈ S, i < j → ¬ le o 2 j i) :
    ∃ f', sweepA o S f = some f' ∧ SpecA o 2 S f f' := by
  obtain ⟨i, rest, rfl⟩ := List.exists_cons_of_ne_nil hne
  refine ⟨_, rfl, ?_⟩
  obtain ⟨h1, h2⟩ := sweepALoop_spec hlex rest [i] [i] f (by simpa using hS) (by simpa using hN)
    ⟨by simp, by simp⟩
  have hirest : i ∉ rest := fun h => absurd ((List.pairwise_cons.mp hS).1 i h) (lt_irrefl i)
  refine ⟨fun x hx => h1 x (fun h => hx (by simp [h])), fun x hx n => ?_⟩
  have key : ∀ y ∈ i :: rest, (y ≠ x ∧ le o 2 y x) → y < x := by
    rintro y hy ⟨hne, hle⟩
    rcases lt_trichotomy y x with h | h | h
    · exact h
    · exact absurd h hne
    · exact absurd hle (hstrict x hx y hy h)
  rcases List.mem_cons.mp hx with rfl | hx'
  · rw [h1 x hirest]
    refine ⟨fun h => ⟨h, fun j hj hne hle => ?_⟩, fun h => h.1⟩
    have := key j hj ⟨hne, hle⟩
    rcases List.mem_cons.mp hj with rfl | hj
    · exact absurd rfl hne
    · have := (List.pairwise_cons.mp hS).1 j hj
      omega
  · rw [h2 x hx' n]
    simp only [List.cons_append, List.nil_append]
    refine and_congr_right fun _ => ⟨fun h j hj hne hle => h j hj (key j hj ⟨hne, hle⟩) hle,
      fun h j hj hlt hle => h j hj hlt.ne hle⟩

/-! ### Medians -/

theorem medianLow_spec {l : List K} {med : K} (h : medianLow l = some med) :
    med ∈ l ∧ (l.filter (fun v => v < med)).length ≤ (l.length - 1) / 2 ∧
      (l.filter (fun v => med < v)).length ≤ l.length / 2 := by
  unfold medianLow at h
  set s := l.insertionSort (· ≤ ·) with hs
  have hperm : s.Perm l := List.perm_insertionSort _ _
  have hsort : s.Pairwise (· ≤ ·) := List.pairwise_insertionSort _ _
  have hlen : s.length = l.length := hperm.length_eq
  set p := (l.length - 1) / 2 with hp
  obtain ⟨hlt, hget⟩ := List.getElem?_eq_some_iff.mp h
  have hmem : med ∈ l := hperm.mem_iff.mp (hget ▸ List.getElem_mem hlt)
  have hsplit : s = s.take p ++ med :: s.drop (p + 1) := by
    rw [← hget, List.getElem_cons_drop]
    exact (List.take_append_drop p s).symm
  rw [hsplit, List.pairwise_append, List.pairwise_cons] at hsort
  refine ⟨hmem, ?_, ?_⟩
  · rw [← (hperm.filter _).length_eq, hsplit, List.filter_append]
    have : (med :: s.drop (p + 1)).filter (fun v => v < med) = [] := by
      rw [List.filter_eq_nil_iff]
      intro a ha
      rcases List.mem_cons.mp ha with rfl | ha
      · simp
      · simpa using hsort.2.1.1 a ha
    rw [this, List.append_nil]
    refine (List.length_filter_le _ _).trans ?_
    simp
  · rw [← (hperm.filter _).length_eq, hsplit, List.filter_append]
    have : (s.take p).filter (fun v => med < v) = [] := by
      rw [List.filter_eq_nil_iff]
      intro a ha
      simpa using hsort.2.2 a ha med (by simp)
    rw [this, List.nil_append, List.filter_cons]
    simp only [lt_irrefl, decide_false, Bool.false_eq_true, if_false]
    refine (List.length_filter_le _ _).trans ?_
    rw [List.length_drop]
    omega

theorem medianLow_ne_none {l : List K} (h : l ≠ []) : ∃ med, medianLow l = some med := by
  have hpos : 0 < l.length := List.length_pos_iff.mpr h
  unfold medianLow
  rw [List.getElem?_eq_getElem]
  · exact ⟨_, rfl⟩
  · rw [List.length_insertionSort]; omega

/-! ### Merging and splitting -/

theorem mem_mergeIdx (l1 l2 : List ℕ) : ∀ x, x ∈ mergeIdx l1 l2 ↔ x ∈ l1 ∨ x ∈ l2 := by
  induction l1, l2 using mergeIdx.induct with
  | case1 l2 => intro x; simp [mergeIdx]
  | case2 l1 h => intro x; cases l1 <;> simp [mergeIdx]
  | case3 a l1 b l2 h ih =>
    intro x; unfold mergeIdx; rw [if_pos h]; simp only [List.mem_cons, ih]; tauto
  | case4 a l1 b l2 h ih =>
    intro x; unfold mergeIdx; rw [if_neg h]; simp only [List.mem_cons, ih]; tauto

theorem length_mergeIdx (l1 l2 : List ℕ) : (mergeIdx l1 l2).length = l1.length + l2.length := by
  induction l1, l2 using mergeIdx.induct with
  | case1 l2 => simp [mergeIdx]
  | case2 l1 h => cases l1 <;> simp [mergeIdx]
  | case3 a l1 b l2 h ih => unfold mergeIdx; rw [if_pos h]; simp only [List.length_cons, ih]; omega
  | case4 a l1 b l2 h ih => unfold mergeIdx; rw [if_neg h]; simp only [List.length_cons, ih]; omega

theorem sorted_mergeIdx (l1 l2 : List ℕ) (h1 : l1.Pairwise (· < ·)) (h2 : l2.Pairwise (· < ·))
    (hd : ∀ x ∈ l1, x ∉ l2) : (mergeIdx l1 l2).Pairwise (· < ·) := by
  induction l1, l2 using mergeIdx.induct with
  | case1 l2 => simpa [mergeIdx] using h2
  | case2 l1 h =>
    cases l1 with
    | nil => simp [mergeIdx]
    | cons a l => simpa [mergeIdx] using h1
  | case3 a l1 b l2 h ih =>
    unfold mergeIdx
    rw [if_pos h, List.pairwise_cons]
    rw [List.pairwise_cons] at h1
    refine ⟨fun x hx => ?_, ih h1.2 h2 (fun x hx => hd x (by simp [hx]))⟩
    rcases (mem_mergeIdx _ _ _).mp hx with hx | hx
    · exact h1.1 x hx
    · rcases List.mem_cons.mp hx with rfl | hx
      · exact h
      · exact h.trans ((List.pairwise_cons.mp h2).1 x hx)
  | case4 a l1 b l2 h ih =>
    unfold mergeIdx
    rw [if_neg h, List.pairwise_cons]
    rw [List.pairwise_cons] at h2
    have hba : b < a := by
      have : a ≠ b := fun e => hd a (by simp) (by simp [e])
      omega
    refine ⟨fun x hx => ?_, ih h1 h2.2 (fun x hx => fun h => hd x hx (by simp [h]))⟩
    rcases (mem_mergeIdx _ _ _).mp hx with hx | hx
    · rcases List.mem_cons.mp hx with rfl | hx
      · exact hba
      · exact hba.trans ((List.pairwise_cons.mp h1).1 x hx)
    · exact h2.1 x hx

theorem mem_split_less {S : List ℕ} {v : K} {m x : ℕ} :
    x ∈ (splitBy o S v m).1 ↔ x ∈ S ∧ o x m < v := by
  simp [splitBy]

theorem mem_split_eq {S : List ℕ} {v : K} {m x : ℕ} :
    x ∈ (splitBy o S v m).2.1 ↔ x ∈ S ∧ o x m = v := by
  simp only [splitBy, List.mem_filter, decide_eq_true_eq, not_lt]
  exact and_congr_right fun _ => ⟨fun h => le_antisymm h.2 h.1, fun h => ⟨h.ge, h.le⟩⟩

theorem mem_split_greater {S : List ℕ} {v : K} {m x : ℕ} :
    x ∈ (splitBy o S v m).2.2 ↔ x ∈ S ∧ v < o x m := by
  simp [splitBy]

theorem sorted_split {S : List ℕ} (h : S.Pairwise (· < ·)) (v : K) (m : ℕ) :
    (splitBy o S v m).1.Pairwise (· < ·) ∧ (splitBy o S v m).2.1.Pairwise (· < ·) ∧
      (splitBy o S v m).2.2.Pairwise (· < ·) :=
  ⟨h.filter _, h.filter _, h.filter _⟩

theorem length_split {S : List ℕ} (v : K) (m : ℕ) :
    (splitBy o S v m).1.length + (splitBy o S v m).2.1.length ≤ S.length ∧
      (splitBy o S v m).2.2.length ≤ S.length := by
  refine ⟨?_, List.length_filter_le _ _⟩
  simp only [splitBy]
  induction S with
  | nil => simp
  | cons a S ih =>
    simp only [List.filter_cons, List.length_cons]
    rcases lt_trichotomy (o a m) v with h | h | h
    · simp [h]; simp at ih; omega
    · simp [h]; simp at ih; omega
    · simp [h, h.not_gt]; simp at ih; omega

end Verif.NDS
