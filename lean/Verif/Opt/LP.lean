import Mathlib.Algebra.BigOperators.Fin
import Mathlib.Algebra.Order.Field.Basic
import Mathlib.Data.Fin.Tuple.Basic
import Mathlib.Algebra.BigOperators.Field
import Mathlib.Tactic.FieldSimp
import Mathlib.Tactic.Linarith
import Mathlib.Tactic.Ring

/-!
# Linear programs

The interface of `scipy.optimize.linprog` as far as it is used in `hvd/base.py`, and the theorem that a
feasible linear program with bounded objective has an optimal solution (by Fourier-Motzkin elimination).
-/

namespace Verif.Opt

variable {K : Type*} [Field K] [LinearOrder K]

def dot (a x : List K) : K := (List.zipWith (· * ·) a x).sum

/-- The arguments `c`, `A_ub`, `b_ub`, `A_eq`, `b_eq`, `bounds` of `linprog`. A bound `(l, u)` may have
`None` on either side. -/
structure LP (K : Type*) where
  c : List K
  Aub : List (List K)
  bub : List K
  Aeq : List (List K)
  beq : List K
  bounds : List (Option K × Option K)

/-- The documented meaning of the constraints. -/
structure LP.Feasible (lp : LP K) (x : List K) : Prop where
  length : x.length = lp.c.length
  ub : ∀ rb ∈ lp.Aub.zip lp.bub, dot rb.1 x ≤ rb.2
  eq : ∀ rb ∈ lp.Aeq.zip lp.beq, dot rb.1 x = rb.2
  bounds : ∀ bx ∈ lp.bounds.zip x, (∀ l ∈ bx.1.1, l ≤ bx.2) ∧ (∀ u ∈ bx.1.2, bx.2 ≤ u)

/-- An optimal solution. -/
def LP.Optimal (lp : LP K) (x : List K) : Prop := lp.Feasible x ∧ ∀ y, lp.Feasible y → dot lp.c x ≤ dot lp.c y

/-! ### Fourier-Motzkin elimination -/

section FM

variable [IsStrictOrderedRing K]

/-- A set given by finitely many inequalities. -/
def IsPoly {n : ℕ} (S : (Fin n → K) → Prop) : Prop :=
  ∃ cs : List ((Fin n → K) × K), ∀ x, S x ↔ ∀ c ∈ cs, ∑ i, c.1 i * x i ≤ c.2

theorem IsPoly.and {n : ℕ} {S T : (Fin n → K) → Prop} (hS : IsPoly S) (hT : IsPoly T) :
    IsPoly fun x => S x ∧ T x := by
  obtain ⟨cs, hS⟩ := hS
  obtain ⟨ct, hT⟩ := hT
  refine ⟨cs ++ ct, fun x => ?_⟩
  show S x ∧ T x ↔ _
  rw [hS, hT]
  simp only [List.mem_append]
  constructor
  · rintro ⟨h1, h2⟩ c (hc | hc)
    · exact h1 c hc
    · exact h2 c hc
  · intro h
    exact ⟨fun c hc => h c (.inl hc), fun c hc => h c (.inr hc)⟩

theorem IsPoly.forall_mem {n : ℕ} {ι : Type*} {S : ι → (Fin n → K) → Prop} {l : List ι}
    (h : ∀ i ∈ l, IsPoly (S i)) : IsPoly fun x => ∀ i ∈ l, S i x := by
  induction l with
  | nil => exact ⟨[], fun x => by simp⟩
  | cons a l ih =>
    obtain ⟨cs, hcs⟩ := (h a (by simp)).and (ih fun i hi => h i (List.mem_cons_of_mem _ hi))
    refine ⟨cs, fun x => ?_⟩
    rw [← hcs x]
    simp

/-- A number between finitely many lower and upper bounds. -/
theorem exists_between_lists (L U : List K) (h : ∀ l ∈ L, ∀ u ∈ U, l ≤ u) :
    ∃ x, (∀ l ∈ L, l ≤ x) ∧ (∀ u ∈ U, x ≤ u) := by
  induction L with
  | nil =>
    induction U with
    | nil => exact ⟨0, by simp, by simp⟩
    | cons u U ih =>
      obtain ⟨x, _, hx⟩ := ih (by simp)
      refine ⟨min x u, by simp, fun v hv => ?_⟩
      rcases List.mem_cons.mp hv with rfl | hv
      · exact min_le_right _ _
      · exact (min_le_left _ _).trans (hx v hv)
  | cons a L ih =>
    obtain ⟨x, h1, h2⟩ := ih fun l hl => h l (List.mem_cons_of_mem _ hl)
    refine ⟨max a x, fun l hl => ?_, fun u hu => max_le (h a (by simp) u hu) (h2 u hu)⟩
    rcases List.mem_cons.mp hl with rfl | hl
    · exact le_max_left _ _
    · exact (h1 l hl).trans (le_max_right _ _)

/-- Elimination of the first variable. -/
theorem IsPoly.exists_cons {n : ℕ} {S : (Fin (n + 1) → K) → Prop} (hS : IsPoly S) :
    IsPoly fun x : Fin n → K => ∃ y, S (Fin.cons y x) := by
  obtain ⟨cs, hS⟩ := hS
  -- the tail of a row applied to `x`
  set tl : ((Fin (n + 1) → K) × K) → (Fin n → K) → K := fun c x => ∑ i, c.1 (Fin.succ i) * x i with htl
  have hsum : ∀ c : (Fin (n + 1) → K) × K, ∀ y x,
      ∑ i, c.1 i * (Fin.cons y x : Fin (n + 1) → K) i = c.1 0 * y + tl c x := by
    intro c y x
    rw [Fin.sum_univ_succ]
    simp [htl]
  set Z := cs.filter fun c => decide (c.1 0 = 0)
  set P := cs.filter fun c => decide (0 < c.1 0)
  set N := cs.filter fun c => decide (c.1 0 < 0)
  refine ⟨(Z.map fun c => (fun i => c.1 (Fin.succ i), c.2)) ++
    (N.flatMap fun q => P.map fun p =>
      (fun i => p.1 (Fin.succ i) / p.1 0 - q.1 (Fin.succ i) / q.1 0, p.2 / p.1 0 - q.2 / q.1 0)), fun x => ?_⟩
  have hpq : ∀ p q : (Fin (n + 1) → K) × K,
      ∑ i, (p.1 (Fin.succ i) / p.1 0 - q.1 (Fin.succ i) / q.1 0) * x i = tl p x / p.1 0 - tl q x / q.1 0 := by
    intro p q
    simp only [htl, sub_mul, Finset.sum_sub_distrib, Finset.sum_div]
    congr 1 <;> exact Finset.sum_congr rfl fun i _ => by ring
  constructor
  · rintro ⟨y, hy⟩ c hc
    rw [hS] at hy
    rcases List.mem_append.mp hc with hc | hc
    · obtain ⟨c0, hc0, rfl⟩ := List.mem_map.mp hc
      obtain ⟨h1, h2⟩ := List.mem_filter.mp hc0
      have := hy c0 h1
      rw [hsum, of_decide_eq_true h2, zero_mul, zero_add] at this
      exact this
    · obtain ⟨q, hq, hc⟩ := List.mem_flatMap.mp hc
      obtain ⟨p, hp, rfl⟩ := List.mem_map.mp hc
      obtain ⟨q1, q2⟩ := List.mem_filter.mp hq
      obtain ⟨p1, p2⟩ := List.mem_filter.mp hp
      have p3 := of_decide_eq_true p2
      have q3 := of_decide_eq_true q2
      have hp' := hy p p1
      have hq' := hy q q1
      rw [hsum] at hp' hq'
      rw [hpq]
      have e1 : y ≤ p.2 / p.1 0 - tl p x / p.1 0 := by
        rw [← sub_div, le_div_iff₀ p3]; linarith
      have e2 : q.2 / q.1 0 - tl q x / q.1 0 ≤ y := by
        rw [← sub_div, div_le_iff_of_neg q3]; linarith
      simp only
      linarith
  · intro h
    obtain ⟨y, hL, hU⟩ := exists_between_lists (N.map fun q => q.2 / q.1 0 - tl q x / q.1 0)
      (P.map fun p => p.2 / p.1 0 - tl p x / p.1 0) (by
        intro l hl u hu
        obtain ⟨q, hq, rfl⟩ := List.mem_map.mp hl
        obtain ⟨p, hp, rfl⟩ := List.mem_map.mp hu
        have := h _ (List.mem_append_right _ (List.mem_flatMap.mpr ⟨q, hq, List.mem_map.mpr ⟨p, hp, rfl⟩⟩))
        rw [hpq] at this
        simp only at this
        linarith)
    refine ⟨y, (hS _).mpr fun c hc => ?_⟩
    rw [hsum]
    rcases lt_trichotomy (c.1 0) 0 with h0 | h0 | h0
    · have := hL _ (List.mem_map.mpr ⟨c, List.mem_filter.mpr ⟨hc, decide_eq_true h0⟩, rfl⟩)
      rw [← sub_div, div_le_iff_of_neg h0] at this
      linarith
    · have := h _ (List.mem_append_left _ (List.mem_map.mpr ⟨c, List.mem_filter.mpr ⟨hc, decide_eq_true h0⟩, rfl⟩))
      rw [h0, zero_mul, zero_add]
      exact this
    · have := hU _ (List.mem_map.mpr ⟨c, List.mem_filter.mpr ⟨hc, decide_eq_true h0⟩, rfl⟩)
      rw [← sub_div, le_div_iff₀ h0] at this
      linarith

/-- Elimination of all variables but the last one. -/
theorem IsPoly.exists_snoc {n : ℕ} {S : (Fin (n + 1) → K) → Prop} (hS : IsPoly S) :
    IsPoly fun t : Fin 1 → K => ∃ x : Fin n → K, S (Fin.snoc x (t 0)) := by
  induction n with
  | zero =>
    obtain ⟨cs, hS⟩ := hS
    refine ⟨cs, fun t => ?_⟩
    rw [← hS]
    have : ∀ x : Fin 0 → K, (Fin.snoc x (t 0) : Fin 1 → K) = t := by
      intro x
      funext i
      have : i = Fin.last 0 := Subsingleton.elim (α := Fin 1) _ _
      rw [this, Fin.snoc_last]
      rfl
    constructor
    · rintro ⟨x, hx⟩; rwa [this] at hx
    · intro h; exact ⟨fun i => i.elim0, by rwa [this]⟩
  | succ n ih =>
    obtain ⟨cs, h⟩ := ih hS.exists_cons
    refine ⟨cs, fun t => ?_⟩
    rw [← h t]
    constructor
    · rintro ⟨x, hx⟩
      refine ⟨Fin.tail x, x 0, ?_⟩
      rwa [Fin.cons_snoc_eq_snoc_cons, Fin.cons_self_tail]
    · rintro ⟨x, y, hx⟩
      refine ⟨Fin.cons y x, ?_⟩
      rwa [Fin.cons_snoc_eq_snoc_cons] at hx

/-- A nonempty polyhedral set of numbers that is bounded below has a least element. -/
theorem IsPoly.exists_least {T : K → Prop} (hT : IsPoly fun t : Fin 1 → K => T (t 0)) {t0 m : K} (h0 : T t0)
    (hm : ∀ t, T t → m ≤ t) : ∃ t, T t ∧ ∀ t', T t' → t ≤ t' := by
  obtain ⟨cs, h⟩ := hT
  have h : ∀ t, T t ↔ ∀ c ∈ cs, c.1 0 * t ≤ c.2 := by
    intro t
    have : T t ↔ _ := h fun _ => t
    rw [this]
    simp
  set N := cs.filter fun c => decide (c.1 0 < 0)
  set L := N.map fun c => c.2 / c.1 0
  have hlow : ∀ t, T t → ∀ l ∈ L, l ≤ t := by
    intro t ht l hl
    obtain ⟨c, hc, rfl⟩ := List.mem_map.mp hl
    obtain ⟨c1, c2⟩ := List.mem_filter.mp hc
    rw [div_le_iff_of_neg (of_decide_eq_true c2), mul_comm]
    exact (h t).mp ht c c1
  have hmem : ∀ t ≤ t0, (∀ l ∈ L, l ≤ t) → T t := by
    intro t ht hl
    rw [h]
    intro c hc
    rcases lt_or_ge (c.1 0) 0 with hneg | hpos
    · have := hl _ (List.mem_map.mpr ⟨c, List.mem_filter.mpr ⟨hc, decide_eq_true hneg⟩, rfl⟩)
      rw [div_le_iff_of_neg hneg, mul_comm] at this
      exact this
    · exact (mul_le_mul_of_nonneg_left ht hpos).trans ((h t0).mp h0 c hc)
  rcases hL : L with _ | ⟨a, L'⟩
  · have := hm (min t0 (m - 1)) (hmem _ (min_le_left _ _) (by rw [hL]; simp))
    have := min_le_right t0 (m - 1)
    linarith
  · obtain ⟨b, hb, hmax⟩ : ∃ b ∈ L, ∀ l ∈ L, l ≤ b := by
      have : L ≠ [] := by rw [hL]; simp
      clear hL hlow hmem
      generalize L = M at this
      induction M with
      | nil => exact absurd rfl this
      | cons a M ih =>
        rcases eq_or_ne M [] with rfl | hM
        · exact ⟨a, by simp, by simp⟩
        · obtain ⟨b, hb, hmax⟩ := ih hM
          rcases le_total a b with hab | hab
          · refine ⟨b, List.mem_cons_of_mem _ hb, fun l hl => ?_⟩
            rcases List.mem_cons.mp hl with rfl | hl
            · exact hab
            · exact hmax l hl
          · refine ⟨a, by simp, fun l hl => ?_⟩
            rcases List.mem_cons.mp hl with rfl | hl
            · exact le_rfl
            · exact (hmax l hl).trans hab
    exact ⟨b, hmem b (hlow t0 h0 b hb) hmax, fun t ht => hlow t ht b hb⟩

/-! ### Attainment -/

theorem isPoly_le {n : ℕ} (a : Fin n → K) (b : K) : IsPoly fun x : Fin n → K => ∑ i, a i * x i ≤ b :=
  ⟨[(a, b)], fun x => by simp⟩

theorem isPoly_congr {n : ℕ} {S T : (Fin n → K) → Prop} (h : ∀ x, S x ↔ T x) (hS : IsPoly S) : IsPoly T := by
  obtain ⟨cs, hS⟩ := hS
  exact ⟨cs, fun x => by rw [← h, hS]⟩

theorem isPoly_eq {n : ℕ} (a : Fin n → K) (b : K) : IsPoly fun x : Fin n → K => ∑ i, a i * x i = b := by
  refine isPoly_congr (fun x => ?_) ((isPoly_le a b).and (isPoly_le (fun i => -a i) (-b)))
  simp only [neg_mul, Finset.sum_neg_distrib, neg_le_neg_iff]
  exact le_antisymm_iff.symm

omit [LinearOrder K] [IsStrictOrderedRing K] in
theorem dot_ofFn (a : List K) {n : ℕ} (x : Fin n → K) : dot a (List.ofFn x) = ∑ i : Fin n, a.getD i 0 * x i := by
  unfold dot
  induction n generalizing a with
  | zero => simp
  | succ n ih =>
    rw [List.ofFn_succ, Fin.sum_univ_succ]
    rcases a with _ | ⟨b, a⟩
    · simp
    · rw [List.zipWith_cons_cons, List.sum_cons, ih]
      simp

omit [IsStrictOrderedRing K] in
theorem LP.feasible_ofFn (lp : LP K) (x : Fin lp.c.length → K) : lp.Feasible (List.ofFn x) ↔
    (∀ rb ∈ lp.Aub.zip lp.bub, ∑ i : Fin lp.c.length, rb.1.getD i 0 * x i ≤ rb.2) ∧
    (∀ rb ∈ lp.Aeq.zip lp.beq, ∑ i : Fin lp.c.length, rb.1.getD i 0 * x i = rb.2) ∧
    (∀ i : Fin lp.c.length, ∀ lu, lp.bounds[(i : ℕ)]? = some lu →
      (∀ l ∈ lu.1, l ≤ x i) ∧ (∀ u ∈ lu.2, x i ≤ u)) := by
  simp only [← dot_ofFn]
  have hb : (∀ bx ∈ lp.bounds.zip (List.ofFn x), (∀ l ∈ bx.1.1, l ≤ bx.2) ∧ (∀ u ∈ bx.1.2, bx.2 ≤ u)) ↔
      (∀ i : Fin lp.c.length, ∀ lu, lp.bounds[(i : ℕ)]? = some lu →
      (∀ l ∈ lu.1, l ≤ x i) ∧ (∀ u ∈ lu.2, x i ≤ u)) := by
    constructor
    · intro h i lu hlu
      refine h (lu, x i) ?_
      obtain ⟨h1, h2⟩ := List.getElem?_eq_some_iff.mp hlu
      rw [List.mem_iff_getElem]
      refine ⟨i, by simp; omega, ?_⟩
      rw [List.getElem_zip, h2]
      simp
    · intro h bx hbx
      obtain ⟨i, hi, rfl⟩ := List.mem_iff_getElem.mp hbx
      simp only [List.length_zip, List.length_ofFn, lt_min_iff] at hi
      have := h ⟨i, hi.2⟩ _ (List.getElem?_eq_getElem hi.1)
      rw [List.getElem_zip]
      simpa using this
  constructor
  · intro h
    exact ⟨h.ub, h.eq, hb.mp h.bounds⟩
  · rintro ⟨h1, h2, h3⟩
    exact ⟨by simp, h1, h2, hb.mpr h3⟩

omit [Field K] [LinearOrder K] [IsStrictOrderedRing K] in
theorem exists_ofFn {n : ℕ} {x : List K} (h : x.length = n) : ∃ f : Fin n → K, x = List.ofFn f := by
  subst h
  exact ⟨fun i => x[i], List.ofFn_getElem.symm⟩

/-- A feasible linear program whose objective is bounded below has an optimal solution. -/
theorem LP.exists_optimal (lp : LP K) {x0 : List K} (h0 : lp.Feasible x0) {m : K}
    (hm : ∀ x, lp.Feasible x → m ≤ dot lp.c x) : ∃ x, lp.Optimal x := by
  set n := lp.c.length with hn
  set T : K → Prop := fun t => ∃ x : Fin n → K, lp.Feasible (List.ofFn x) ∧ dot lp.c (List.ofFn x) ≤ t with hT
  -- in all variables and `t` the constraints are linear
  have hpoly : IsPoly fun z : Fin (n + 1) → K =>
      lp.Feasible (List.ofFn (Fin.init z)) ∧ dot lp.c (List.ofFn (Fin.init z)) ≤ z (Fin.last n) := by
    have hs : ∀ (a : ℕ → K) (z : Fin (n + 1) → K), ∑ i : Fin n, a i * Fin.init z i =
        ∑ i : Fin (n + 1), (Fin.snoc (fun i : Fin n => a i) 0 : Fin (n + 1) → K) i * z i := by
      intro a z
      rw [Fin.sum_univ_castSucc]
      simp [Fin.init]
    refine IsPoly.and ?_ ?_
    · refine isPoly_congr (fun z => (lp.feasible_ofFn _).symm) ?_
      refine IsPoly.and ?_ (IsPoly.and ?_ ?_)
      · refine IsPoly.forall_mem fun rb _ => ?_
        refine isPoly_congr (fun z => ?_) (isPoly_le (Fin.snoc (fun i : Fin n => rb.1.getD i 0) 0) rb.2)
        rw [← hs fun i => rb.1.getD i 0]
      · refine IsPoly.forall_mem fun rb _ => ?_
        refine isPoly_congr (fun z => ?_) (isPoly_eq (Fin.snoc (fun i : Fin n => rb.1.getD i 0) 0) rb.2)
        rw [← hs fun i => rb.1.getD i 0]
      · refine isPoly_congr (S := fun z => ∀ i ∈ List.finRange n, ∀ lu, lp.bounds[(i : ℕ)]? = some lu →
          (∀ l ∈ lu.1, l ≤ Fin.init z i) ∧ (∀ u ∈ lu.2, Fin.init z i ≤ u)) (fun z => by simp only [List.mem_finRange, true_imp_iff]; rfl) ?_
        refine IsPoly.forall_mem fun i _ => ?_
        have hi : ∀ z : Fin (n + 1) → K, ∑ j, (Pi.single (Fin.castSucc i) 1 : Fin (n + 1) → K) j * z j = Fin.init z i := by
          intro z
          rw [Finset.sum_eq_single (Fin.castSucc i)]
          · simp [Fin.init]
          · intro j _ hj; simp [hj]
          · simp
        have hi' : ∀ z : Fin (n + 1) → K, ∑ j, (Pi.single (Fin.castSucc i) (-1) : Fin (n + 1) → K) j * z j = -Fin.init z i := by
          intro z
          rw [Finset.sum_eq_single (Fin.castSucc i)]
          · simp [Fin.init]
          · intro j _ hj; simp [hj]
          · simp
        have htrue : IsPoly fun _ : Fin (n + 1) → K => True := ⟨[], by simp⟩
        rcases hb : lp.bounds[(i : ℕ)]? with _ | ⟨l, u⟩
        · exact isPoly_congr (fun z => by simp) htrue
        · refine isPoly_congr (S := fun z => (∀ l' ∈ l, l' ≤ Fin.init z i) ∧ (∀ u' ∈ u, Fin.init z i ≤ u'))
            (fun z => by simp) ?_
          refine IsPoly.and ?_ ?_
          · rcases l with _ | l
            · exact isPoly_congr (fun z => by simp) htrue
            · refine isPoly_congr (fun z => ?_) (isPoly_le (Pi.single (Fin.castSucc i) (-1)) (-l))
              rw [hi' z]; simp
          · rcases u with _ | u
            · exact isPoly_congr (fun z => by simp) htrue
            · refine isPoly_congr (fun z => ?_) (isPoly_le (Pi.single (Fin.castSucc i) 1) u)
              rw [hi z]; simp
    · refine isPoly_congr (fun z => ?_) (isPoly_le (Fin.snoc (fun i : Fin n => lp.c.getD i 0) (-1)) 0)
      rw [dot_ofFn, Fin.sum_univ_castSucc]
      simp only [Fin.snoc_castSucc, Fin.snoc_last, neg_mul, one_mul, ← sub_eq_add_neg, sub_nonpos]
      rfl
  have hpT : IsPoly fun t : Fin 1 → K => T (t 0) := by
    refine isPoly_congr (fun t => ?_) hpoly.exists_snoc
    simp only [hT, Fin.init_snoc, Fin.snoc_last]
  obtain ⟨f0, rfl⟩ := exists_ofFn h0.length
  obtain ⟨t, ⟨x, hx, hxt⟩, hmin⟩ := hpT.exists_least (t0 := dot lp.c (List.ofFn f0)) ⟨f0, h0, le_rfl⟩ (m := m)
    (by rintro t ⟨x, hx, ht⟩; exact (hm _ hx).trans ht)
  refine ⟨List.ofFn x, hx, fun y hy => ?_⟩
  obtain ⟨g, rfl⟩ := exists_ofFn hy.length
  exact hxt.trans (hmin _ ⟨g, hy, le_rfl⟩)

end FM

end Verif.Opt
