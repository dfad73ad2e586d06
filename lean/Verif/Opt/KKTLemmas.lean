import Verif.Opt.KKT
import Mathlib.Data.List.Nodup

/-!
# The linear program of `check_KKT` in terms of multipliers
-/

namespace Verif.Opt

variable {K : Type*} [Field K] [LinearOrder K]

omit [LinearOrder K] in
theorem dot_append {a b x y : List K} (h : a.length = x.length) : dot (a ++ b) (x ++ y) = dot a x + dot b y := by
  unfold dot
  rw [List.zipWith_append h, List.sum_append]

omit [LinearOrder K] in
theorem dot_map {ι : Type*} (l : List ι) (f g : ι → K) : dot (l.map f) (l.map g) = (l.map fun i => f i * g i).sum := by
  unfold dot
  congr 1
  induction l with
  | nil => rfl
  | cons a l ih => simp

omit [LinearOrder K] in
theorem sum_map_range (n : ℕ) (f : ℕ → K) : ((List.range n).map f).sum = ∑ j ∈ Finset.range n, f j := by
  induction n with
  | zero => rfl
  | succ n ih => rw [List.range_succ, List.map_append, List.sum_append, ih, Finset.sum_range_succ]; simp

omit [LinearOrder K] in
theorem sum_map_filter_range (n : ℕ) (P : ℕ → Bool) (f : ℕ → K) :
    (((List.range n).filter P).map f).sum = ∑ j ∈ Finset.range n, if P j then f j else 0 := by
  induction n with
  | zero => rfl
  | succ n ih =>
    rw [List.range_succ, List.filter_append, List.map_append, List.sum_append, ih, Finset.sum_range_succ]
    congr 1
    by_cases h : P n <;> simp [h]

omit [LinearOrder K] in
theorem exists_range_map {n : ℕ} {y : List K} (h : y.length = n) : ∃ w : ℕ → K, y = (List.range n).map w := by
  refine ⟨fun i => y.getD i 0, List.ext_getElem (by simp [h]) fun i h1 h2 => ?_⟩
  simp [h1]

omit [LinearOrder K] in
theorem exists_map_nodup {l : List ℕ} (hl : l.Nodup) {y : List K} (h : y.length = l.length) :
    ∃ w : ℕ → K, y = l.map w ∧ ∀ k, k ∉ l → w k = 0 := by
  induction l generalizing y with
  | nil =>
    refine ⟨fun _ => 0, ?_, by simp⟩
    simpa using h
  | cons a l ih =>
    rcases y with _ | ⟨b, y⟩
    · simp at h
    · obtain ⟨h1, h2⟩ := List.nodup_cons.mp hl
      obtain ⟨w, hw, hz⟩ := ih h2 (by simpa using h)
      refine ⟨Function.update w a b, ?_, fun k hk => ?_⟩
      · rw [List.map_cons, Function.update_self, hw]
        congr 1
        refine List.map_congr_left fun i hi => ?_
        rw [Function.update_of_ne]
        rintro rfl
        exact h1 hi
      · rw [List.mem_cons, not_or] at hk
        rw [Function.update_of_ne hk.1, hz k hk.2]

theorem forall_zip_replicate {α β : Type*} {c : α} {l : List β} {P : α × β → Prop} {n : ℕ} (h : l.length = n) :
    (∀ bx ∈ (List.replicate n c).zip l, P bx) ↔ ∀ y ∈ l, P (c, y) := by
  subst h
  induction l with
  | nil => simp
  | cons a l ih =>
    rw [List.length_cons, List.replicate_succ, List.zip_cons_cons]
    simp only [List.mem_cons, forall_eq_or_imp, ih]

theorem forall_zip_replicate_right {α β : Type*} {c : β} {l : List α} {P : α × β → Prop} {n : ℕ} (h : l.length = n) :
    (∀ bx ∈ l.zip (List.replicate n c), P bx) ↔ ∀ y ∈ l, P (y, c) := by
  subst h
  induction l with
  | nil => simp
  | cons a l ih =>
    rw [List.length_cons, List.replicate_succ, List.zip_cons_cons]
    simp only [List.mem_cons, forall_eq_or_imp, ih]

namespace Funcs

variable (p : Funcs K)

/-- The vector of multipliers and the residual bound. -/
def multipliers (nObj : ℕ) (act : List ℕ) (w mu nu : ℕ → K) (t : K) : List K :=
  (List.range nObj).map w ++ (List.range p.nEq).map mu ++ act.map nu ++ [t]

/-- The stationarity residual. -/
def residual (J D : List K) (nObj : ℕ) (act : List ℕ) (w mu nu : ℕ → K) (v : ℕ) : K :=
  ∑ j ∈ Finset.range nObj, J.getD (j * p.nVar + v) 0 * w j +
    ∑ k ∈ Finset.range p.nEq, D.getD (k * p.nVar + v) 0 * mu k +
    (act.map fun k => D.getD ((p.nEq + k) * p.nVar + v) 0 * nu k).sum

variable {p}

omit [LinearOrder K] in
theorem dot_stationarityRow (J D : List K) (nObj : ℕ) (act : List ℕ) (w mu nu : ℕ → K) (v : ℕ) :
    dot (p.stationarityRow J D nObj act v)
      ((List.range nObj).map w ++ (List.range p.nEq).map mu ++ act.map nu) = p.residual J D nObj act w mu nu v := by
  unfold stationarityRow residual
  rw [dot_append (by simp), dot_append (by simp), dot_map, dot_map, dot_map, sum_map_range, sum_map_range]

omit [LinearOrder K] in
theorem dot_neg (a x : List K) : dot (a.map (- ·)) x = -dot a x := by
  unfold dot
  induction a generalizing x with
  | nil => simp
  | cons b a ih =>
    rcases x with _ | ⟨y, x⟩
    · simp
    · rw [List.map_cons, List.zipWith_cons_cons, List.zipWith_cons_cons, List.sum_cons, List.sum_cons, ih]
      ring

omit [LinearOrder K] in
theorem dot_replicate_zero (n : ℕ) (x : List K) : dot (List.replicate n 0) x = 0 := by
  unfold dot
  induction n generalizing x with
  | zero => simp
  | succ n ih =>
    rcases x with _ | ⟨y, x⟩
    · simp
    · rw [List.replicate_succ, List.zipWith_cons_cons, List.sum_cons, ih]; simp

omit [LinearOrder K] in
theorem dot_replicate_one (x : List K) : dot (List.replicate x.length 1) x = x.sum := by
  unfold dot
  induction x with
  | nil => simp
  | cons y x ih => rw [List.length_cons, List.replicate_succ, List.zipWith_cons_cons, List.sum_cons, ih]; simp

theorem objective_multipliers (J D : List K) (act : List ℕ) (w mu nu : ℕ → K) (t : K) :
    dot (p.kktLP J D act).c (p.multipliers (J.length / p.nVar) act w mu nu t) = t := by
  unfold kktLP multipliers
  simp only
  rw [dot_append (by simp [add_assoc]), dot_replicate_zero]
  simp [dot]

theorem feasible_multipliers [IsStrictOrderedRing K] (J D : List K) (act : List ℕ) (w mu nu : ℕ → K) (t : K) :
    (p.kktLP J D act).Feasible (p.multipliers (J.length / p.nVar) act w mu nu t) ↔
      (∀ v < p.nVar, p.residual J D (J.length / p.nVar) act w mu nu v ≤ t ∧
        -p.residual J D (J.length / p.nVar) act w mu nu v ≤ t) ∧
      ∑ j ∈ Finset.range (J.length / p.nVar), w j = 1 ∧ (∀ j < J.length / p.nVar, 0 ≤ w j) ∧
      (∀ k ∈ act, 0 ≤ nu k) ∧ 0 ≤ t := by
  set nObj := J.length / p.nVar with hnObj
  set y := (List.range nObj).map w ++ (List.range p.nEq).map mu ++ act.map nu with hy
  have hyl : y.length = nObj + p.nEq + act.length := by simp [hy, add_assoc]
  have hm : p.multipliers nObj act w mu nu t = y ++ [t] := rfl
  have hrl : ∀ v, (p.stationarityRow J D nObj act v).length = y.length := by
    intro v; rw [hyl]; simp [stationarityRow, add_assoc]
  -- the inequalities
  have hub : (∀ rb ∈ (p.kktLP J D act).Aub.zip (p.kktLP J D act).bub, dot rb.1 (y ++ [t]) ≤ rb.2) ↔
      ∀ v < p.nVar, p.residual J D nObj act w mu nu v - t ≤ 0 ∧ -p.residual J D nObj act w mu nu v - t ≤ 0 := by
    unfold kktLP
    simp only
    rw [forall_zip_replicate_right (by simp; omega)]
    simp only [List.mem_append, List.mem_map, List.mem_range]
    have e1 : ∀ v, dot (p.stationarityRow J D nObj act v ++ [-1]) (y ++ [t]) = p.residual J D nObj act w mu nu v - t := by
      intro v
      rw [dot_append (hrl v), hy, dot_stationarityRow]
      simp [dot, sub_eq_add_neg]
    have e2 : ∀ v, dot ((p.stationarityRow J D nObj act v).map (- ·) ++ [-1]) (y ++ [t]) =
        -p.residual J D nObj act w mu nu v - t := by
      intro v
      rw [dot_append (by rw [List.length_map, hrl v]), dot_neg, hy, dot_stationarityRow]
      simp [dot, sub_eq_add_neg]
    constructor
    · intro h v hv
      refine ⟨?_, ?_⟩
      · rw [← e1]; exact h _ (.inl ⟨_, ⟨v, hv, rfl⟩, rfl⟩)
      · rw [← e2]; exact h _ (.inr ⟨_, ⟨v, hv, rfl⟩, rfl⟩)
    · rintro h r (⟨_, ⟨v, hv, rfl⟩, rfl⟩ | ⟨_, ⟨v, hv, rfl⟩, rfl⟩)
      · rw [e1]; exact (h v hv).1
      · rw [e2]; exact (h v hv).2
  -- the normalisation
  have heq : (∀ rb ∈ (p.kktLP J D act).Aeq.zip (p.kktLP J D act).beq, dot rb.1 (y ++ [t]) = rb.2) ↔
      ∑ j ∈ Finset.range nObj, w j = 1 := by
    unfold kktLP
    simp only [List.zip_cons_cons, List.zip_nil_right, List.mem_singleton, forall_eq]
    rw [hy, List.append_assoc, List.append_assoc, dot_append (by simp [hnObj]), dot_replicate_zero, add_zero,
      ← hnObj]
    have := dot_replicate_one ((List.range nObj).map w)
    rw [List.length_map, List.length_range] at this
    rw [this, sum_map_range]
  -- the bounds
  have hbd : (∀ bx ∈ (p.kktLP J D act).bounds.zip (y ++ [t]), (∀ l ∈ bx.1.1, l ≤ bx.2) ∧ (∀ u ∈ bx.1.2, bx.2 ≤ u)) ↔
      (∀ j < nObj, 0 ≤ w j) ∧ (∀ k ∈ act, 0 ≤ nu k) ∧ 0 ≤ t := by
    unfold kktLP
    simp only
    rw [hy, List.zip_append (by simp [hnObj]), List.zip_append (by simp [hnObj]), List.zip_append (by simp [hnObj])]
    have e : ∀ (l1 l2 l3 l4 : List ((Option K × Option K) × K)) (Q : (Option K × Option K) × K → Prop),
        (∀ bx ∈ l1 ++ l2 ++ l3 ++ l4, Q bx) ↔ (∀ bx ∈ l1, Q bx) ∧ (∀ bx ∈ l2, Q bx) ∧ (∀ bx ∈ l3, Q bx) ∧ ∀ bx ∈ l4, Q bx := by
      intro l1 l2 l3 l4 Q
      simp only [List.mem_append]
      grind
    rw [e, forall_zip_replicate (by simp [hnObj]), forall_zip_replicate (by simp), forall_zip_replicate (by simp)]
    simp [← hnObj]
  constructor
  · rintro ⟨_, h1, h2, h3⟩
    rw [hm] at h1 h2 h3
    rw [hub] at h1
    rw [heq] at h2
    rw [hbd] at h3
    refine ⟨fun v hv => ?_, h2, h3⟩
    obtain ⟨a, b⟩ := h1 v hv
    exact ⟨sub_nonpos.mp a, sub_nonpos.mp b⟩
  · rintro ⟨h1, h2, h3⟩
    rw [hm]
    refine ⟨?_, hub.mpr fun v hv => ?_, heq.mpr h2, hbd.mpr h3⟩
    · simp [hyl, kktLP, ← hnObj]
    · obtain ⟨a, b⟩ := h1 v hv
      exact ⟨sub_nonpos.mpr a, sub_nonpos.mpr b⟩

theorem exists_multipliers {nObj : ℕ} {act : List ℕ} (hact : act.Nodup) {x : List K}
    (hx : x.length = nObj + p.nEq + act.length + 1) : ∃ w mu nu t, x = p.multipliers nObj act w mu nu t ∧
      ∀ k, k ∉ act → nu k = 0 := by
  obtain ⟨w, hw⟩ := exists_range_map (y := x.take nObj) (n := nObj) (by simp; omega)
  obtain ⟨mu, hmu⟩ := exists_range_map (y := (x.drop nObj).take p.nEq) (n := p.nEq) (by simp; omega)
  obtain ⟨nu, hnu, hz⟩ := exists_map_nodup hact (y := (x.drop (nObj + p.nEq)).take act.length) (by simp; omega)
  obtain ⟨t, ht⟩ : ∃ t, x.drop (nObj + p.nEq + act.length) = [t] := by
    rw [← List.length_eq_one_iff]; simp; omega
  refine ⟨w, mu, nu, t, ?_, hz⟩
  unfold multipliers
  rw [← hw, ← hmu, ← hnu, ← ht, ← List.take_add, ← List.take_add, List.take_append_drop]

end Funcs

end Verif.Opt
