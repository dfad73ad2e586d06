import Verif.Prob.RSGLemmas
import Mathlib.Data.List.Sort
import Mathlib.Data.Fin.VecNotation
import Mathlib.Tactic.NormNum
import Mathlib.Tactic.IntervalCases
import Mathlib.Algebra.BigOperators.Fin

/-!
# C54: the reference set generator

Specification: `AtArc P t y` says that `y` is the point of the polyline `P` at arc length `t` from its start.
-/

namespace Verif.Props

open Verif.Prob

variable {d : ℕ}

/-- The point at an arc length on a polyline. -/
inductive AtArc : List (Fin (d + 1) → ℝ) → ℝ → (Fin (d + 1) → ℝ) → Prop
  | start (a : Fin (d + 1) → ℝ) (l : List (Fin (d + 1) → ℝ)) : AtArc (a :: l) 0 a
  | here {a b : Fin (d + 1) → ℝ} {l : List (Fin (d + 1) → ℝ)} {θ : ℝ} {y : Fin (d + 1) → ℝ} (h0 : 0 ≤ θ) (h1 : θ ≤ 1)
      (hy : ∀ j, y j = (1 - θ) * a j + θ * b j) : AtArc (a :: b :: l) (θ * Real.sqrt (∑ j, (b j - a j) ^ 2)) y
  | there {a b : Fin (d + 1) → ℝ} {l : List (Fin (d + 1) → ℝ)} {t : ℝ} {y : Fin (d + 1) → ℝ} (h : AtArc (b :: l) t y) :
      AtArc (a :: b :: l) (Real.sqrt (∑ j, (b j - a j) ^ 2) + t) y

/-- The length of a polyline. -/
noncomputable def polyLen (P : List (Fin (d + 1) → ℝ)) : ℝ :=
  (List.zipWith (fun a b => Real.sqrt (∑ j, (b j - a j) ^ 2)) P P.tail).sum

/-- The polyline through some points: their points in the order of the first coordinate, neighbours different. -/
structure IsPolyline (P X : List (Fin (d + 1) → ℝ)) : Prop where
  mem : ∀ x, x ∈ P ↔ x ∈ X
  sorted : P.Pairwise fun a b => a 0 ≤ b 0
  chain : List.IsChain (· ≠ ·) P

/-- The contract of sorting rows by their first column. -/
def SortsFirst (sort : List (Fin (d + 1) → ℝ) → List (Fin (d + 1) → ℝ)) : Prop :=
  ∀ X, (sort X).Perm X ∧ (sort X).Pairwise fun a b => a 0 ≤ b 0

theorem polyLen_eq : ∀ P : List (Fin (d + 1) → ℝ), polyLen P = pathLen P
  | [] => by simp [polyLen, pathLen]
  | [_] => by simp [polyLen, pathLen]
  | a :: b :: l => by
    have := polyLen_eq (b :: l)
    unfold polyLen at this ⊢
    rw [pathLen, ← this]
    simp [segLen]

theorem isPolyline_keepRows {sort : List (Fin (d + 1) → ℝ) → List (Fin (d + 1) → ℝ)} (hs : SortsFirst sort)
    (X : List (Fin (d + 1) → ℝ)) : IsPolyline (keepRows (sort X)) X :=
  ⟨fun x => (keepRows_mem _ x).trans ((hs X).1.mem_iff), (hs X).2.sublist (keepRows_sublist _), keepRows_chain _⟩

theorem atArc_last (a : Fin (d + 1) → ℝ) (l : List (Fin (d + 1) → ℝ)) (z : Fin (d + 1) → ℝ) :
    AtArc (a :: l) (pathLen (a :: l)) ((a :: l).getLastD z) := by
  induction l generalizing a z with
  | nil => exact AtArc.start a []
  | cons b l ih =>
    rw [pathLen, List.getLastD_cons]
    exact AtArc.there (ih b a)

theorem atArc_interp (a : Fin (d + 1) → ℝ) (l : List (Fin (d + 1) → ℝ)) (hc : List.IsChain (· ≠ ·) (a :: l)) {acc t : ℝ}
    (h0 : acc ≤ t) (h1 : t ≤ acc + pathLen (a :: l)) :
    AtArc (a :: l) (t - acc) fun j => interp t ((cumLen acc (a :: l)).zip ((a :: l).map fun q => q j)) := by
  induction l generalizing a acc with
  | nil =>
    have : t = acc := le_antisymm (by simpa [pathLen] using h1) h0
    subst this
    simp only [sub_self, cumLen, List.map_cons, List.map_nil, List.zip_cons_cons, List.zip_nil_right, interp]
    exact AtArc.start a []
  | cons b l ih =>
    obtain ⟨hab, hc⟩ := List.isChain_cons_cons.mp hc
    have hd := segLen_pos hab
    obtain ⟨r, hr⟩ := cumLen_ne_nil (acc + segLen a b) b l
    by_cases ht : t < acc + segLen a b
    · have e : t - acc = ((t - acc) / segLen a b) * segLen a b := by field_simp
      rw [e]
      refine AtArc.here (div_nonneg (by linarith) hd.le) ((div_le_one hd).mpr (by linarith)) fun j => ?_
      rw [cumLen, hr]
      simp only [List.map_cons, List.zip_cons_cons, interp]
      rw [if_neg (by linarith), if_pos ht]
      have : acc + segLen a b - acc = segLen a b := by ring
      rw [this]
      field_simp
      ring
    · have h2 := ih b hc (acc := acc + segLen a b) (by linarith) (by rw [pathLen] at h1; linarith)
      have e : t - acc = segLen a b + (t - (acc + segLen a b)) := by ring
      rw [e]
      have e2 : (fun j => interp t ((cumLen acc (a :: b :: l)).zip ((a :: b :: l).map fun q => q j))) =
          fun j => interp t ((cumLen (acc + segLen a b) (b :: l)).zip ((b :: l).map fun q => q j)) := by
        funext j
        rw [cumLen, hr]
        simp only [List.map_cons, List.zip_cons_cons, interp]
        rw [if_neg (by linarith), if_neg ht]
      rw [e2]
      exact AtArc.there h2

/-- C54, interpolation: for a component with two different points and at least two wanted points, that many points are
returned; they are on the polyline through the component, at arc lengths `i L / (Nf - 1)`, that is, evenly spaced;
the first and the last one are the ends of the polyline. -/
theorem C54_interpolate {sort : List (Fin (d + 1) → ℝ) → List (Fin (d + 1) → ℝ)} (hs : SortsFirst sort)
    {X : List (Fin (d + 1) → ℝ)} (hX : ∃ a ∈ X, ∃ b ∈ X, a ≠ b) {Nf : ℕ} (hN : 2 ≤ Nf) :
    ∃ P I, interpolateTst sort X Nf = some I ∧ IsPolyline P X ∧ I.length = Nf ∧
      (∀ (i : ℕ) (hi : i < I.length), AtArc P ((i : ℝ) * polyLen P / ((Nf : ℝ) - 1)) I[i]) ∧
      I.head? = P.head? ∧ I.getLast? = P.getLast? := by
  have hP := isPolyline_keepRows hs X
  unfold interpolateTst
  obtain ⟨a, b, l, hl⟩ : ∃ a b l, keepRows (sort X) = a :: b :: l := by
    obtain ⟨x, hx, y, hy, hxy⟩ := hX
    rw [← hP.mem] at hx hy
    match h : keepRows (sort X) with
    | [] => simp [h] at hx
    | [c] =>
      rw [h, List.mem_singleton] at hx hy
      exact absurd (hx.trans hy.symm) hxy
    | a :: b :: l => exact ⟨a, b, l, rfl⟩
  rw [hl] at hP ⊢
  dsimp only
  have hL : (cumLen 0 (a :: b :: l)).getLastD 0 = pathLen (a :: b :: l) := by rw [cumLen_last, zero_add]
  have hpos : 0 < pathLen (a :: b :: l) := by
    have h1 := segLen_pos (List.isChain_cons_cons.mp hP.chain).1
    have h2 := pathLen_nonneg (b :: l)
    rw [pathLen]
    linarith
  rw [hL, if_neg hpos.ne', if_neg (by omega)]
  have hN1 : (0 : ℝ) < (Nf : ℝ) - 1 := by
    have : (2 : ℝ) ≤ (Nf : ℝ) := by exact_mod_cast hN
    linarith
  have hlen : (((linspace 0 (pathLen (a :: b :: l)) Nf).map fun (t : ℝ) => fun j =>
      interp t ((cumLen 0 (a :: b :: l)).zip ((a :: b :: l).map fun q => q j))).set 0 a |>.set (Nf - 1)
        ((a :: b :: l).getLastD a)).length = Nf := by
    simp [linspace]
  refine ⟨a :: b :: l, _, rfl, hP, hlen, ?_, ?_, ?_⟩
  · intro i hi
    rw [polyLen_eq]
    rw [hlen] at hi
    rw [List.getElem_set]
    by_cases h1 : Nf - 1 = i
    · rw [if_pos h1]
      have : (i : ℝ) = (Nf : ℝ) - 1 := by
        rw [← h1, Nat.cast_sub (by omega), Nat.cast_one]
      rw [this, mul_div_assoc, mul_div_cancel₀ _ hN1.ne']
      exact atArc_last a (b :: l) a
    · rw [if_neg h1, List.getElem_set]
      by_cases h2 : 0 = i
      · rw [if_pos h2, ← h2, Nat.cast_zero, zero_mul, zero_div]
        exact AtArc.start a _
      · rw [if_neg h2]
        have hil : (i : ℝ) ≤ (Nf : ℝ) - 1 := by
          have : ((i + 1 : ℕ) : ℝ) ≤ (Nf : ℝ) := by exact_mod_cast hi
          push_cast at this
          linarith
        have e : (i : ℝ) * pathLen (a :: b :: l) / ((Nf : ℝ) - 1) =
            0 + (i : ℝ) * ((pathLen (a :: b :: l) - 0) / ((Nf : ℝ) - 1)) := by ring
        have := atArc_interp a (b :: l) hP.chain (acc := 0)
          (t := (i : ℝ) * pathLen (a :: b :: l) / ((Nf : ℝ) - 1)) (by positivity) (by
            rw [zero_add, div_le_iff₀ hN1, mul_comm]
            exact mul_le_mul_of_nonneg_left hil hpos.le)
        rw [sub_zero] at this
        simp only [linspace, List.getElem_map, List.getElem_range, ← e]
        exact this
  · obtain ⟨n, rfl⟩ : ∃ n, Nf = n + 2 := ⟨Nf - 2, by omega⟩
    simp [linspace, List.range_succ_eq_map]
  · rw [List.getLast?_eq_getElem?, hlen, List.getElem?_set_self (by simp [linspace]; omega)]
    simp [List.getLastD, List.getLast?_eq_getLast_of_ne_nil]

/-- A component of equal points: copies. -/
theorem C54_constant {sort : List (Fin (d + 1) → ℝ) → List (Fin (d + 1) → ℝ)} (hs : SortsFirst sort)
    {X : List (Fin (d + 1) → ℝ)} {a : Fin (d + 1) → ℝ} (ha : ∀ x, x ∈ X ↔ x = a) (Nf : ℕ) :
    interpolateTst sort X Nf = some (List.replicate Nf a) := by
  have hP := isPolyline_keepRows hs X
  have : keepRows (sort X) = [a] := by
    match h : keepRows (sort X), hP with
    | [], hP =>
      have := (hP.mem a).mpr ((ha a).mpr rfl)
      simp at this
    | [c], hP =>
      have := (ha c).mp ((hP.mem c).mp (List.mem_singleton_self c))
      rw [this]
    | b :: c :: l, hP =>
      have h1 := (ha b).mp ((hP.mem b).mp (by simp))
      have h2 := (ha c).mp ((hP.mem c).mp (by simp))
      exact absurd (h1.trans h2.symm) (List.isChain_cons_cons.mp hP.chain).1
  unfold interpolateTst
  rw [this]

/-- One wanted point is the last one of the polyline; none is an error. -/
theorem C54_few {sort : List (Fin (d + 1) → ℝ) → List (Fin (d + 1) → ℝ)} (hs : SortsFirst sort)
    {X : List (Fin (d + 1) → ℝ)} (hX : ∃ a ∈ X, ∃ b ∈ X, a ≠ b) :
    interpolateTst sort X 0 = none ∧
      ∃ P y, interpolateTst sort X 1 = some [y] ∧ IsPolyline P X ∧ P.getLast? = some y := by
  have hP := isPolyline_keepRows hs X
  unfold interpolateTst
  obtain ⟨a, b, l, hl⟩ : ∃ a b l, keepRows (sort X) = a :: b :: l := by
    obtain ⟨x, hx, y, hy, hxy⟩ := hX
    rw [← hP.mem] at hx hy
    match h : keepRows (sort X) with
    | [] => simp [h] at hx
    | [c] =>
      rw [h, List.mem_singleton] at hx hy
      exact absurd (hx.trans hy.symm) hxy
    | a :: b :: l => exact ⟨a, b, l, rfl⟩
  rw [hl] at hP ⊢
  dsimp only
  have hL : (cumLen 0 (a :: b :: l)).getLastD 0 = pathLen (a :: b :: l) := by rw [cumLen_last, zero_add]
  have hpos : 0 < pathLen (a :: b :: l) := by
    have h1 := segLen_pos (List.isChain_cons_cons.mp hP.chain).1
    have h2 := pathLen_nonneg (b :: l)
    rw [pathLen]
    linarith
  rw [hL, if_neg hpos.ne', if_pos rfl, if_neg hpos.ne', if_neg one_ne_zero]
  refine ⟨rfl, a :: b :: l, (a :: b :: l).getLastD a, ?_, hP, ?_⟩
  · simp [linspace]
  · simp [List.getLastD, List.getLast?_eq_getLast_of_ne_nil]

/-- The points with a label. -/
def Labelled (labels : List ℤ) (Py : List (Fin (d + 1) → ℝ)) (k : ℤ) (X : List (Fin (d + 1) → ℝ)) : Prop :=
  ∀ x, x ∈ X ↔ (x, k) ∈ Py.zip labels

theorem mem_components {labels : List ℤ} {Py X : List (Fin (d + 1) → ℝ)} (h : X ∈ components labels Py) :
    ∃ k ∈ labels, k ≠ -1 ∧ Labelled labels Py k X := by
  unfold components at h
  obtain ⟨k, hk, rfl⟩ := List.mem_map.mp h
  rw [List.mem_insertionSort, List.mem_dedup, List.mem_filter] at hk
  refine ⟨k, hk.1, by simpa using hk.2, fun x => ?_⟩
  simp only [List.mem_map, List.mem_filter, decide_eq_true_eq]
  constructor
  · rintro ⟨⟨y, k'⟩, ⟨h1, rfl⟩, rfl⟩
    exact h1
  · intro h
    exact ⟨(x, k), ⟨h, rfl⟩, rfl⟩

theorem component_ne_nil {labels : List ℤ} {Py X : List (Fin (d + 1) → ℝ)} (hl : labels.length = Py.length)
    (h : X ∈ components labels Py) : X ≠ [] := by
  obtain ⟨k, hk, -, hX⟩ := mem_components h
  obtain ⟨i, hi, rfl⟩ := List.mem_iff_getElem.mp hk
  refine List.ne_nil_of_mem ((hX Py[i]).mpr ?_)
  rw [List.mem_iff_getElem]
  exact ⟨i, by simp; omega, by simp⟩

theorem components_length (labels : List ℤ) (Py : List (Fin (d + 1) → ℝ)) :
    (components labels Py).length = (labels.toFinset.erase (-1)).card := by
  unfold components
  rw [List.length_map, List.length_insertionSort, ← List.card_toFinset]
  congr 1
  ext k
  simp [and_comm]

theorem interpolateTst_spec {sort : List (Fin (d + 1) → ℝ) → List (Fin (d + 1) → ℝ)} (hs : SortsFirst sort)
    {X : List (Fin (d + 1) → ℝ)} {Nf : ℕ} {I : List (Fin (d + 1) → ℝ)} (h : interpolateTst sort X Nf = some I) :
    (X ≠ [] → I.length = Nf) ∧ ∃ P, IsPolyline P X ∧ ∀ y ∈ I, ∃ t, 0 ≤ t ∧ t ≤ polyLen P ∧ AtArc P t y := by
  by_cases hX : ∃ a ∈ X, ∃ b ∈ X, a ≠ b
  · rcases Nat.lt_or_ge Nf 2 with hN | hN
    · obtain ⟨h0, P, y, h1, hP, hy⟩ := C54_few hs hX
      interval_cases Nf
      · rw [h0] at h
        exact absurd h (by simp)
      · rw [h1, Option.some.injEq] at h
        subst h
        refine ⟨fun _ => rfl, P, hP, fun z hz => ⟨polyLen P, ?_, le_rfl, ?_⟩⟩
        · rw [polyLen_eq]
          exact pathLen_nonneg P
        · rw [List.mem_singleton] at hz
          subst hz
          cases P with
          | nil => simp at hy
          | cons a l =>
            rw [polyLen_eq]
            have := atArc_last a l a
            rw [List.getLastD_eq_getLast?, hy] at this
            exact this
    · obtain ⟨P, I', h1, hP, hlen, hat, -, -⟩ := C54_interpolate hs hX hN
      rw [h1, Option.some.injEq] at h
      subst h
      have hN1 : (0 : ℝ) < (Nf : ℝ) - 1 := by
        have : (2 : ℝ) ≤ (Nf : ℝ) := by exact_mod_cast hN
        linarith
      have hL : 0 ≤ polyLen P := by
        rw [polyLen_eq]
        exact pathLen_nonneg P
      refine ⟨fun _ => hlen, P, hP, fun y hy => ?_⟩
      obtain ⟨i, hi, rfl⟩ := List.mem_iff_getElem.mp hy
      refine ⟨_, by positivity, ?_, hat i hi⟩
      rw [hlen] at hi
      rw [div_le_iff₀ hN1, mul_comm]
      refine mul_le_mul_of_nonneg_left ?_ hL
      have : ((i + 1 : ℕ) : ℝ) ≤ (Nf : ℝ) := by exact_mod_cast hi
      push_cast at this
      linarith
  · push Not at hX
    cases X with
    | nil =>
      have hP := isPolyline_keepRows hs ([] : List (Fin (d + 1) → ℝ))
      have hk : keepRows (sort ([] : List (Fin (d + 1) → ℝ))) = [] :=
        List.eq_nil_iff_forall_not_mem.mpr fun x hx => by simpa using (hP.mem x).mp hx
      unfold interpolateTst at h
      rw [hk] at h hP
      simp only [Option.some.injEq] at h
      subst h
      exact ⟨fun h => absurd rfl h, [], hP, fun y hy => by simp at hy⟩
    | cons a X =>
      rw [C54_constant hs (a := a) (fun x => ⟨fun hx => hX x hx a (by simp), fun hx => hx ▸ by simp⟩) Nf,
        Option.some.injEq] at h
      subst h
      refine ⟨fun _ => List.length_replicate, [a], ⟨fun x => ?_, by simp, by simp⟩, fun y hy => ⟨0, le_rfl, ?_, ?_⟩⟩
      · rw [List.mem_singleton]
        exact ⟨fun hx => hx ▸ by simp, fun hx => hX x hx a (by simp)⟩
      · simp [polyLen]
      · rw [List.eq_of_mem_replicate hy]
        exact AtArc.start a []

theorem fillAll_spec {sort : List (Fin (d + 1) → ℝ) → List (Fin (d + 1) → ℝ)} (hs : SortsFirst sort) {Nf : ℕ}
    {total : ℝ} (ht : 0 < total) {C : List (List (Fin (d + 1) → ℝ) × ℝ)} {Is : List (List (Fin (d + 1) → ℝ))}
    (h : fillAll sort Nf total C = some Is) (hC : ∀ q ∈ C, q.1 ≠ [] ∧ 0 ≤ q.2) :
    |(Is.flatten.length : ℝ) - Nf * (C.map Prod.snd).sum / total| ≤ C.length / 2 ∧
      ∀ y ∈ Is.flatten, ∃ q ∈ C, ∃ P, IsPolyline P q.1 ∧ ∃ t, 0 ≤ t ∧ t ≤ polyLen P ∧ AtArc P t y := by
  induction C generalizing Is with
  | nil =>
    rw [fillAll, Option.some.injEq] at h
    subst h
    simp
  | cons q C ih =>
    obtain ⟨X, len⟩ := q
    rw [fillAll] at h
    obtain ⟨I, hI, h⟩ := Option.bind_eq_some_iff.mp h
    obtain ⟨Is', hIs, rfl⟩ := Option.map_eq_some_iff.mp h
    obtain ⟨h1, h2⟩ := ih hIs fun q hq => hC q (List.mem_cons_of_mem _ hq)
    obtain ⟨h3, P, hP, h4⟩ := interpolateTst_spec hs hI
    obtain ⟨h5, h6⟩ := hC (X, len) (by simp)
    constructor
    · have h7 := matlabRound_close (x := Nf * len / total) (by dsimp only at h6; positivity)
      rw [← h3 h5] at h7
      rw [List.flatten_cons, List.length_append, List.map_cons, List.sum_cons, List.length_cons]
      push_cast
      have e : (I.length : ℝ) + Is'.flatten.length - Nf * (len + (C.map Prod.snd).sum) / total =
          (I.length - Nf * len / total) + (Is'.flatten.length - Nf * (C.map Prod.snd).sum / total) := by ring
      rw [e]
      refine (abs_add_le _ _).trans ?_
      linarith
    · intro y hy
      rw [List.flatten_cons, List.mem_append] at hy
      rcases hy with hy | hy
      · exact ⟨(X, len), by simp, P, hP, h4 y hy⟩
      · obtain ⟨q, hq, h⟩ := h2 y hy
        exact ⟨q, List.mem_cons_of_mem _ hq, h⟩

/-- C54, what holds if no exception is raised: every point is on the polyline through the points of one label, and the
number of points differs from `Nf` by at most half the number of labels. The full property asks for `Nf` points. -/
theorem C54_rsg_partial {labels : List (Fin (d + 1) → ℝ) → List ℤ}
    {mergesort sort : List (Fin (d + 1) → ℝ) → List (Fin (d + 1) → ℝ)} (hs : SortsFirst sort)
    {Py : List (Fin (d + 1) → ℝ)} (hl : (labels Py).length = Py.length) {Nf : ℕ} {F : List (Fin (d + 1) → ℝ)}
    (h : rsg labels mergesort sort Py Nf = some F) :
    ((∃ k ∈ labels Py, k ≠ -1) →
      |(F.length : ℝ) - Nf| ≤ (((labels Py).toFinset.erase (-1)).card : ℝ) / 2) ∧
    ∀ y ∈ F, ∃ k X P, k ≠ -1 ∧ Labelled (labels Py) Py k X ∧ IsPolyline P X ∧
      ∃ t, 0 ≤ t ∧ t ≤ polyLen P ∧ AtArc P t y := by
  unfold rsg at h
  by_cases hd : d + 1 ≠ 2
  · rw [if_pos hd] at h
    exact absurd h (by simp)
  rw [if_neg hd] at h
  dsimp only at h
  obtain ⟨C, hC⟩ : ∃ C, C = components (labels Py) Py := ⟨_, rfl⟩
  have hCl : C.length = ((labels Py).toFinset.erase (-1)).card := by rw [hC, components_length]
  rw [← hC] at h
  obtain ⟨len, hlen⟩ : ∃ len, len = C.map fun X => pathLen (mergesort X) := ⟨_, rfl⟩
  rw [← hlen] at h
  have hll : len.length = C.length := by rw [hlen, List.length_map]
  by_cases h0 : C ≠ [] ∧ len.sum = 0
  · rw [if_pos h0] at h
    exact absurd h (by simp)
  rw [if_neg h0] at h
  obtain ⟨Is, hIs, rfl⟩ := Option.map_eq_some_iff.mp h
  by_cases hne : C = []
  · rw [hne] at hIs
    rw [List.zip_nil_left, fillAll, Option.some.injEq] at hIs
    subst hIs
    refine ⟨?_, by simp⟩
    rintro ⟨k, hk, hk'⟩
    exfalso
    rw [hne, List.length_nil] at hCl
    have := Finset.card_eq_zero.mp hCl.symm
    have : k ∈ (labels Py).toFinset.erase (-1) := Finset.mem_erase.mpr ⟨hk', List.mem_toFinset.mpr hk⟩
    simp_all
  have hnn : ∀ v ∈ len, 0 ≤ v := by
    intro v hv
    rw [hlen] at hv
    obtain ⟨X, -, rfl⟩ := List.mem_map.mp hv
    exact pathLen_nonneg _
  have hpos : 0 < len.sum := lt_of_le_of_ne (List.sum_nonneg hnn) fun h => h0 ⟨hne, h.symm⟩
  obtain ⟨h1, h2⟩ := fillAll_spec hs hpos hIs fun q hq =>
    ⟨component_ne_nil hl (hC ▸ (List.of_mem_zip hq).1), hnn _ (List.of_mem_zip hq).2⟩
  constructor
  · intro _
    have e : ((C.zip len).map Prod.snd) = len := List.map_snd_zip hll.le
    rw [e, mul_div_assoc, div_self hpos.ne', mul_one, List.length_zip, hll, min_self, hCl] at h1
    exact h1
  · intro y hy
    obtain ⟨q, hq, P, hP, ht⟩ := h2 y hy
    obtain ⟨k, -, hk, hX⟩ := mem_components (hC ▸ (List.of_mem_zip hq).1)
    exact ⟨k, q.1, P, hk, hX, hP, ht⟩

/-- C54 with one component: exactly `Nf` points. -/
theorem C54_one {labels : List (Fin (d + 1) → ℝ) → List ℤ}
    {mergesort sort : List (Fin (d + 1) → ℝ) → List (Fin (d + 1) → ℝ)} (hs : SortsFirst sort)
    {Py : List (Fin (d + 1) → ℝ)} (hl : (labels Py).length = Py.length) {Nf : ℕ} {F : List (Fin (d + 1) → ℝ)} {k : ℤ}
    (hk : (labels Py).toFinset.erase (-1) = {k}) (h : rsg labels mergesort sort Py Nf = some F) : F.length = Nf := by
  have hmem : k ∈ (labels Py).toFinset.erase (-1) := by simp [hk]
  rw [Finset.mem_erase, List.mem_toFinset] at hmem
  have h1 := (C54_rsg_partial hs hl h).1 ⟨k, hmem.2, hmem.1⟩
  rw [hk, Finset.card_singleton] at h1
  have h2 : |((F.length : ℤ) - (Nf : ℤ) : ℤ)| < 1 := by
    have h3 : ((|((F.length : ℤ) - (Nf : ℤ) : ℤ)| : ℤ) : ℝ) < 1 := by
      push_cast
      norm_num at h1
      linarith
    exact_mod_cast h3
  have := Int.abs_lt_one_iff.mp h2
  omega

/-! ### Violations -/

/-- Only two objectives are supported; otherwise an exception (an unassigned variable) is raised. -/
theorem C54_violated_objectives (hd : d ≠ 1) (labels : List (Fin (d + 1) → ℝ) → List ℤ)
    (mergesort sort : List (Fin (d + 1) → ℝ) → List (Fin (d + 1) → ℝ)) (Py : List (Fin (d + 1) → ℝ)) (Nf : ℕ) :
    rsg labels mergesort sort Py Nf = none := by
  unfold rsg
  rw [if_pos (by omega)]

/-- If everything is noise, no points are returned. -/
theorem C54_violated_noise (labels : List (Fin 2 → ℝ) → List ℤ)
    (mergesort sort : List (Fin 2 → ℝ) → List (Fin 2 → ℝ)) (Py : List (Fin 2 → ℝ))
    (h : ∀ k ∈ labels Py, k = -1) (Nf : ℕ) : rsg labels mergesort sort Py Nf = some [] := by
  have : components (labels Py) Py = [] := by
    rw [← List.length_eq_zero_iff, components_length, Finset.card_eq_zero]
    ext k
    simp only [Finset.mem_erase, List.mem_toFinset, Finset.notMem_empty, iff_false]
    exact fun hk => hk.1 (h k hk.2)
  unfold rsg
  dsimp only
  rw [if_neg (by simp), this]
  simp [fillAll]

theorem sort_pair {sort : List (Fin 2 → ℝ) → List (Fin 2 → ℝ)} (hs : SortsFirst sort) {a b : Fin 2 → ℝ}
    (h : a 0 < b 0) : sort [a, b] = [a, b] := by
  obtain ⟨h1, h2⟩ := hs [a, b]
  refine h1.eq_of_pairwise (fun x y hx hy h3 h4 => ?_) h2 (by simpa using h.le)
  have hx' := (h1.mem_iff).mp hx
  simp only [List.mem_cons, List.not_mem_nil, or_false] at hx' hy
  rcases hx' with rfl | rfl <;> rcases hy with rfl | rfl
  · rfl
  · exact absurd h4 (not_le.mpr h)
  · exact absurd h3 (not_le.mpr h)
  · rfl

/-- Some clusters of two points. -/
def pairLabels (_ : List (Fin 2 → ℝ)) : List ℤ := [0, 0, 1, 1, 2, 2]

/-- Three components of the same length. -/
def threePairs : List (Fin 2 → ℝ) := [![0, 50], ![3, 46], ![10, 30], ![13, 26], ![20, 10], ![23, 6]]

theorem segLen_345 (x y k : ℝ) (hk : 0 ≤ k) : segLen ![x, y] ![x + 3 * k, y - 4 * k] = 5 * k := by
  unfold segLen
  rw [Fin.sum_univ_two]
  have : (![x + 3 * k, y - 4 * k] 0 - ![x, y] 0) ^ 2 + (![x + 3 * k, y - 4 * k] 1 - ![x, y] 1) ^ 2 = (5 * k) ^ 2 := by
    simp
    ring
  rw [this, Real.sqrt_sq (by linarith)]

/-- C54 is violated: for three components of the same length and ten wanted points, nine are returned (or an exception
is raised), whatever the details of the sorting. -/
theorem C54_violated_count {mergesort sort : List (Fin 2 → ℝ) → List (Fin 2 → ℝ)} (hm : SortsFirst mergesort)
    (hs : SortsFirst sort) : ∃ F, rsg pairLabels mergesort sort threePairs 10 = some F ∧ F.length = 9 := by
  have hC : components (pairLabels threePairs) threePairs =
      [[![0, 50], ![3, 46]], [![10, 30], ![13, 26]], [![20, 10], ![23, 6]]] := by
    have : ((pairLabels threePairs).filter (· ≠ -1)).dedup.insertionSort (· ≤ ·) = [0, 1, 2] := by decide +kernel
    unfold components
    rw [this]
    simp [threePairs, pairLabels]
  have l1 : pathLen (mergesort [![0, 50], ![3, 46]]) = 5 := by
    rw [sort_pair hm (by simp)]
    have := segLen_345 0 50 1 zero_le_one
    norm_num at this
    simp [pathLen, this]
  have l2 : pathLen (mergesort [![10, 30], ![13, 26]]) = 5 := by
    rw [sort_pair hm (by norm_num)]
    have := segLen_345 10 30 1 zero_le_one
    norm_num at this
    simp [pathLen, this]
  have l3 : pathLen (mergesort [![20, 10], ![23, 6]]) = 5 := by
    rw [sort_pair hm (by norm_num)]
    have := segLen_345 20 10 1 zero_le_one
    norm_num at this
    simp [pathLen, this]
  have hr : (matlabRound (((10 : ℕ) : ℝ) * 5 / 15)).toNat = 3 := by
    have e : ((10 : ℕ) : ℝ) * 5 / 15 = 10 / 3 := by norm_num
    have : ⌊(10 / 3 : ℝ) + 0.5⌋ = 3 := by
      rw [Int.floor_eq_iff]
      norm_num
    rw [e, matlabRound, sign_pos (by norm_num), abs_of_pos (by norm_num), this]
    rfl
  have hi : ∀ a b : Fin 2 → ℝ, a ≠ b → ∃ I, interpolateTst sort [a, b] 3 = some I ∧ I.length = 3 := by
    intro a b hab
    obtain ⟨P, I, h1, -, h2, -⟩ := C54_interpolate hs (X := [a, b]) ⟨a, by simp, b, by simp, hab⟩ (show 2 ≤ 3 by omega)
    exact ⟨I, h1, h2⟩
  obtain ⟨I1, h1, h1'⟩ := hi ![0, 50] ![3, 46] fun h => by have := congrFun h 0; norm_num at this
  obtain ⟨I2, h2, h2'⟩ := hi ![10, 30] ![13, 26] fun h => by have := congrFun h 0; norm_num at this
  obtain ⟨I3, h3, h3'⟩ := hi ![20, 10] ![23, 6] fun h => by have := congrFun h 0; norm_num at this
  refine ⟨[I1, I2, I3].flatten, ?_, by simp [h1', h2', h3']⟩
  unfold rsg
  dsimp only
  have e : (5 + (5 + (5 + 0)) : ℝ) = 15 := by norm_num
  rw [if_neg (by simp), hC]
  simp only [List.map_cons, List.map_nil, l1, l2, l3, List.sum_cons, List.sum_nil, List.zip_cons_cons,
    List.zip_nil_right, e]
  rw [if_neg (by norm_num)]
  simp only [fillAll, hr, h1, h2, h3, Option.bind_some, Option.map_some]

/-- Two components of very different lengths. -/
def unevenPairs : List (Fin 2 → ℝ) := [![0, 1000], ![3, 996], ![100, 900], ![400, 500]]

/-- C54 is violated: a component short enough to get no points makes the whole call raise. -/
theorem C54_violated_short {mergesort sort : List (Fin 2 → ℝ) → List (Fin 2 → ℝ)} (hm : SortsFirst mergesort)
    (hs : SortsFirst sort) : rsg (fun _ => [0, 0, 1, 1]) mergesort sort unevenPairs 10 = none := by
  have hC : components [0, 0, 1, 1] unevenPairs = [[![0, 1000], ![3, 996]], [![100, 900], ![400, 500]]] := by
    have : (([0, 0, 1, 1] : List ℤ).filter (· ≠ -1)).dedup.insertionSort (· ≤ ·) = [0, 1] := by decide +kernel
    unfold components
    rw [this]
    simp [unevenPairs]
  have l1 : pathLen (mergesort [![0, 1000], ![3, 996]]) = 5 := by
    rw [sort_pair hm (by simp)]
    have := segLen_345 0 1000 1 zero_le_one
    norm_num at this
    simp [pathLen, this]
  have l2 : pathLen (mergesort [![100, 900], ![400, 500]]) = 500 := by
    rw [sort_pair hm (by norm_num)]
    have := segLen_345 100 900 100 (by norm_num)
    norm_num at this
    simp [pathLen, this]
  have hr : (matlabRound (((10 : ℕ) : ℝ) * 5 / 505)).toNat = 0 := by
    have e : ((10 : ℕ) : ℝ) * 5 / 505 = 10 / 101 := by norm_num
    have : ⌊(10 / 101 : ℝ) + 0.5⌋ = 0 := by
      rw [Int.floor_eq_iff]
      norm_num
    rw [e, matlabRound, sign_pos (by norm_num), abs_of_pos (by norm_num), this]
    rfl
  have h1 : interpolateTst sort [![0, 1000], ![3, 996]] 0 = none :=
    (C54_few hs ⟨![0, 1000], by simp, ![3, 996], by simp, fun h => by have := congrFun h 0; norm_num at this⟩).1
  unfold rsg
  dsimp only
  have e : (5 + (500 + 0) : ℝ) = 505 := by norm_num
  rw [if_neg (by simp), hC]
  simp only [List.map_cons, List.map_nil, l1, l2, List.sum_cons, List.sum_nil, List.zip_cons_cons,
    List.zip_nil_right, e]
  rw [if_neg (by norm_num)]
  simp only [fillAll, hr, h1, Option.bind_none, Option.map_none]

/-- C54 is violated: if every component consists of copies of a point, the call raises. -/
theorem C54_violated_copies {mergesort sort : List (Fin 2 → ℝ) → List (Fin 2 → ℝ)} (hm : SortsFirst mergesort)
    (a : Fin 2 → ℝ) (Nf : ℕ) : rsg (fun _ => [0, 0]) mergesort sort [a, a] Nf = none := by
  have hC : components [0, 0] [a, a] = [[a, a]] := by
    have : (([0, 0] : List ℤ).filter (· ≠ -1)).dedup.insertionSort (· ≤ ·) = [0] := by decide +kernel
    unfold components
    rw [this]
    simp
  have h1 : mergesort [a, a] = [a, a] := by
    have h := (hm [a, a]).1
    exact List.perm_replicate.mp (show (mergesort [a, a]).Perm (List.replicate 2 a) from h)
  have h2 : segLen a a = 0 := by simp [segLen]
  unfold rsg
  dsimp only
  rw [if_neg (by simp), hC, if_pos]
  simp [h1, pathLen, h2]

/-- Sorts meeting the contract exist, and the interpolation theorem applies to the three points of a front. -/
example : ∃ sort : List (Fin 2 → ℝ) → List (Fin 2 → ℝ), SortsFirst sort ∧
    ∃ P I, interpolateTst sort [![0, 4], ![1, 1], ![4, 0]] 7 = some I ∧
      IsPolyline P [![0, 4], ![1, 1], ![4, 0]] ∧ I.length = 7 := by
  classical
  have hsort : SortsFirst fun X : List (Fin 2 → ℝ) => X.insertionSort fun a b => a 0 ≤ b 0 := by
    intro X
    have : Std.Total fun a b : Fin 2 → ℝ => a 0 ≤ b 0 := ⟨fun a b => le_total _ _⟩
    have : IsTrans (Fin 2 → ℝ) fun a b => a 0 ≤ b 0 := ⟨fun a b c => le_trans⟩
    exact ⟨List.perm_insertionSort _ X, List.pairwise_insertionSort _ X⟩
  obtain ⟨P, I, h1, h2, h3, -⟩ := C54_interpolate hsort (X := [![0, 4], ![1, 1], ![4, 0]])
    ⟨![0, 4], by simp, ![1, 1], by simp, fun h => by have := congrFun h 0; norm_num at this⟩ (show 2 ≤ 7 by omega)
  exact ⟨_, hsort, P, I, h1, h2, h3⟩

end Verif.Props
