import Verif.HV.Model
import Mathlib.Data.List.Chain
import Mathlib.Data.Finset.Basic
import Mathlib.Data.List.Nodup
import Mathlib.Data.Finset.Dedup
import Mathlib.Tactic.Tauto

/-!
# Linked-list lemmas for the hypervolume model

Closed forms of `remove` and `reinsert`, and the predicate that the pointers of list `i` form a ring
through the sentinel and the nodes of a set, in the order of a fixed global list.
-/

set_option linter.unusedSectionVars false

namespace Verif.HV

variable {K : Type*}

section closed
variable [Zero K] [One K] [Add K] [Sub K] [Neg K] [Mul K] [NatCast K] [LinearOrder K] (c : ℕ → ℕ → K) (x d : ℕ) (s : ML K)

theorem lowerBound_apply (i : ℕ) (b : ℕ → K) (j : ℕ) :
    lowerBound c x i b j = if j = i then min (b j) (c x j) else b j := by
  unfold lowerBound set1
  by_cases hj : j = i
  · subst hj
    by_cases h : b j > c x j
    · simp [h, min_eq_right h.le]
    · simp [h, min_eq_left (not_lt.mp h)]
  · by_cases h : b i > c x i <;> simp [h, hj]

theorem remove_succ : remove c x (d + 1) s = removeAt c x d (remove c x d s) := by
  simp [remove, List.range_succ]

theorem reinsert_succ : reinsert c x (d + 1) s = reinsertAt c x d (reinsert c x d s) := by
  simp [reinsert, List.range_succ]

/-- Pointers after `remove`. -/
def remNext (nx pv : ℕ → ℕ → ℕ) : ℕ → ℕ → ℕ :=
  fun a b => if b < d ∧ a = pv x b then nx x b else nx a b

/-- Pointers after `remove`. -/
def remPrev (nx pv : ℕ → ℕ → ℕ) : ℕ → ℕ → ℕ :=
  fun a b => if b < d ∧ a = nx x b then pv x b else pv a b

theorem remove_ptr : (remove c x d s).next = remNext x d s.next s.prev ∧
    (remove c x d s).prev = remPrev x d s.next s.prev := by
  induction d with
  | zero => constructor <;> funext a b <;> simp [remove, remNext, remPrev]
  | succ d ih =>
    obtain ⟨h1, h2⟩ := ih
    rw [remove_succ]
    constructor
    · funext a b
      simp only [removeAt, h1, h2, set2, remNext, remPrev]
      by_cases hb : b = d
      · subst hb; simp
      · have : b < d + 1 ↔ b < d := by omega
        simp [hb, this]
    · funext a b
      simp only [removeAt, h1, h2, set2, remNext, remPrev]
      by_cases hb : b = d
      · subst hb; simp
      · have : b < d + 1 ↔ b < d := by omega
        simp [hb, this]

@[simp] theorem remove_ignore : (remove c x d s).ignore = s.ignore := by
  induction d with
  | zero => simp [remove]
  | succ d ih => rw [remove_succ]; simpa [removeAt] using ih
@[simp] theorem remove_area : (remove c x d s).area = s.area := by
  induction d with
  | zero => simp [remove]
  | succ d ih => rw [remove_succ]; simpa [removeAt] using ih
@[simp] theorem remove_volume : (remove c x d s).volume = s.volume := by
  induction d with
  | zero => simp [remove]
  | succ d ih => rw [remove_succ]; simpa [removeAt] using ih
theorem remove_bounds (j : ℕ) : (remove c x d s).bounds j =
    if j < d then min (s.bounds j) (c x j) else s.bounds j := by
  induction d with
  | zero => simp [remove]
  | succ d ih =>
    rw [remove_succ]
    simp only [removeAt, lowerBound_apply, ih]
    by_cases hb : j = d
    · subst hb; simp
    · have : j < d + 1 ↔ j < d := by omega
      simp [hb, this]

@[simp] theorem reinsert_ignore : (reinsert c x d s).ignore = s.ignore := by
  induction d with
  | zero => simp [reinsert]
  | succ d ih => rw [reinsert_succ]; simpa [reinsertAt] using ih
@[simp] theorem reinsert_area : (reinsert c x d s).area = s.area := by
  induction d with
  | zero => simp [reinsert]
  | succ d ih => rw [reinsert_succ]; simpa [reinsertAt] using ih
@[simp] theorem reinsert_volume : (reinsert c x d s).volume = s.volume := by
  induction d with
  | zero => simp [reinsert]
  | succ d ih => rw [reinsert_succ]; simpa [reinsertAt] using ih
theorem reinsert_bounds (j : ℕ) : (reinsert c x d s).bounds j =
    if j < d then min (s.bounds j) (c x j) else s.bounds j := by
  induction d with
  | zero => simp [reinsert]
  | succ d ih =>
    rw [reinsert_succ]
    simp only [reinsertAt, lowerBound_apply, ih]
    by_cases hb : j = d
    · subst hb; simp
    · have : j < d + 1 ↔ j < d := by omega
      simp [hb, this]

/-- Re-inserting a node right after removing it restores every pointer. -/
theorem reinsert_remove (nx pv : ℕ → ℕ → ℕ)
    (hn : s.next = remNext x d nx pv) (hp : s.prev = remPrev x d nx pv)
    (h1 : ∀ i < d, nx x i ≠ x) (h2 : ∀ i < d, pv x i ≠ x)
    (h3 : ∀ i < d, nx (pv x i) i = x) (h4 : ∀ i < d, pv (nx x i) i = x) :
    (reinsert c x d s).next = nx ∧ (reinsert c x d s).prev = pv := by
  have key : ∀ e ≤ d, (∀ a b, (reinsert c x e s).next a b = if b < e then nx a b else s.next a b) ∧
      (∀ a b, (reinsert c x e s).prev a b = if b < e then pv a b else s.prev a b) := by
    intro e
    induction e with
    | zero => intro _; simp [reinsert]
    | succ e ih =>
      intro he
      obtain ⟨i1, i2⟩ := ih (by omega)
      have he' : e < d := by omega
      rw [reinsert_succ]
      have hpx : (reinsert c x e s).prev x e = pv x e := by
        rw [i2]; simp [hp, remPrev, he', (h1 e he').symm]
      have hnx : (reinsert c x e s).next x e = nx x e := by
        rw [i1]; simp [hn, remNext, he', (h2 e he').symm]
      have hnx' : set2 (reinsert c x e s).next ((reinsert c x e s).prev x e) e x x e = nx x e := by
        rw [hpx]; simp [set2, (h2 e he').symm, hnx]
      constructor
      · intro a b
        show set2 (reinsert c x e s).next ((reinsert c x e s).prev x e) e x a b = _
        rw [hpx]
        by_cases hb : b = e
        · subst hb
          by_cases ha : a = pv x b
          · subst ha; simp [set2, h3 b he']
          · simp [set2, ha, i1, hn, remNext]
        · have : b < e + 1 ↔ b < e := by omega
          simp [set2, hb, this, i1]
      · intro a b
        show set2 (reinsert c x e s).prev
          (set2 (reinsert c x e s).next ((reinsert c x e s).prev x e) e x x e) e x a b = _
        rw [hnx']
        by_cases hb : b = e
        · subst hb
          by_cases ha : a = nx x b
          · subst ha; simp [set2, h4 b he']
          · simp [set2, ha, i2, hp, remPrev]
        · have : b < e + 1 ↔ b < e := by omega
          simp [set2, hb, this, i2]
  obtain ⟨k1, k2⟩ := key d le_rfl
  constructor
  · funext a b
    rw [k1]
    by_cases hb : b < d
    · simp [hb]
    · simp [hb, hn, remNext]
  · funext a b
    rw [k2]
    by_cases hb : b < d
    · simp [hb]
    · simp [hb, hp, remPrev]

end closed

/-- `l` is the ring of the pointers `nx`, `pv`: from the sentinel through `l` back to it. -/
def IsRing (nx pv : ℕ → ℕ) (l : List ℕ) : Prop :=
  List.IsChain (fun a b => nx a = b ∧ pv b = a) (0 :: (l ++ [0]))

theorem isChain_congr_of_notMem {R R' : ℕ → ℕ → Prop} {x : ℕ}
    (h : ∀ a b, a ≠ x → b ≠ x → R a b → R' a b) :
    ∀ {l : List ℕ}, x ∉ l → l.IsChain R → l.IsChain R'
  | [], _, _ => List.IsChain.nil
  | [_], _, _ => List.IsChain.singleton _
  | a :: b :: l, hx, hl => by
    simp only [List.isChain_cons_cons] at hl ⊢
    simp only [List.mem_cons, not_or] at hx
    exact ⟨h a b (Ne.symm hx.1) (Ne.symm hx.2.1) hl.1,
      isChain_congr_of_notMem h (by simp [hx.2.1, hx.2.2]) hl.2⟩

theorem IsRing.mid {nx pv : ℕ → ℕ} {l₁ l₂ : List ℕ} {a b : ℕ}
    (h : IsRing nx pv (l₁ ++ a :: b :: l₂)) : nx a = b ∧ pv b = a := by
  unfold IsRing at h
  have : 0 :: (l₁ ++ a :: b :: l₂ ++ [0]) = (0 :: l₁) ++ a :: b :: (l₂ ++ [0]) := by simp
  rw [this, List.isChain_append] at h
  exact (List.isChain_cons_cons.mp h.2.1).1

theorem IsRing.first {nx pv : ℕ → ℕ} {l : List ℕ} {a : ℕ}
    (h : IsRing nx pv (a :: l)) : nx 0 = a ∧ pv a = 0 := by
  unfold IsRing at h
  rw [List.cons_append, List.isChain_cons_cons] at h
  exact h.1

theorem IsRing.last {nx pv : ℕ → ℕ} {l : List ℕ} {a : ℕ}
    (h : IsRing nx pv (l ++ [a])) : nx a = 0 ∧ pv 0 = a := by
  unfold IsRing at h
  have : 0 :: (l ++ [a] ++ [0]) = (0 :: l) ++ [a, 0] := by simp
  rw [this, List.isChain_append] at h
  exact (List.isChain_cons_cons.mp h.2.1).1

/-- The neighbours of a node in the middle of a ring. -/
theorem IsRing.nbr {nx pv : ℕ → ℕ} {l₁ l₂ : List ℕ} {x : ℕ}
    (h : IsRing nx pv (l₁ ++ x :: l₂)) :
    nx (pv x) = x ∧ pv (nx x) = x ∧ pv x = (0 :: l₁).getLast (by simp) ∧
      nx x = (l₂ ++ [0]).head (by simp) := by
  rcases List.eq_nil_or_concat' l₁ with rfl | ⟨l₁, a, rfl⟩ <;>
    rcases l₂ with _ | ⟨b, l₂⟩
  · have := h.first; have h2 := h.last (l := []); simp_all
  · have := h.first; have h2 := h.mid (l₁ := []); simp_all
  · have h1 := h.last (l := l₁ ++ [a])
    have h2 : IsRing nx pv (l₁ ++ a :: x :: []) := by simpa using h
    have := h2.mid; simp_all
  · have h2 : IsRing nx pv (l₁ ++ a :: x :: (b :: l₂)) := by simpa using h
    have h3 : IsRing nx pv ((l₁ ++ [a]) ++ x :: b :: l₂) := by simpa using h
    have := h2.mid; have := h3.mid; simp_all

theorem IsRing.erase {nx pv : ℕ → ℕ} {l₁ l₂ : List ℕ} {x : ℕ}
    (h : IsRing nx pv (l₁ ++ x :: l₂)) (hx0 : x ≠ 0) (h1 : x ∉ l₁) (h2 : x ∉ l₂) :
    IsRing (fun a => if a = pv x then nx x else nx a) (fun b => if b = nx x then pv x else pv b)
      (l₁ ++ l₂) := by
  obtain ⟨n1, n2, n3, n4⟩ := h.nbr
  unfold IsRing at h ⊢
  have e1 : 0 :: (l₁ ++ x :: l₂ ++ [0]) = (0 :: l₁) ++ x :: (l₂ ++ [0]) := by simp
  have e2 : 0 :: (l₁ ++ l₂ ++ [0]) = (0 :: l₁) ++ (l₂ ++ [0]) := by simp
  rw [e1, List.isChain_append] at h
  rw [e2, List.isChain_append]
  obtain ⟨ha, hb, -⟩ := h
  have hb' : (l₂ ++ [0]).IsChain (fun a b => nx a = b ∧ pv b = a) := hb.tail
  have key : ∀ a b, a ≠ x → b ≠ x → (nx a = b ∧ pv b = a) →
      ((if a = pv x then nx x else nx a) = b ∧ (if b = nx x then pv x else pv b) = a) := by
    rintro a b hax hbx ⟨r1, r2⟩
    have hp : a ≠ pv x := by rintro rfl; rw [n1] at r1; exact hbx r1.symm
    have hn : b ≠ nx x := by rintro rfl; rw [n2] at r2; exact hax r2.symm
    simp [hp, hn, r1, r2]
  refine ⟨isChain_congr_of_notMem key (by simp [hx0, h1]) ha,
    isChain_congr_of_notMem key (by simp [hx0, h2]) hb', ?_⟩
  intro a hla b hlb
  have ea : a = pv x := by
    rw [n3]; rw [List.getLast?_eq_some_getLast (by simp)] at hla; simpa using hla.symm
  have eb : b = nx x := by
    rw [n4]; rw [List.head?_eq_some_head (by simp)] at hlb; simpa using hlb.symm
  subst ea; subst eb
  simp

end Verif.HV
