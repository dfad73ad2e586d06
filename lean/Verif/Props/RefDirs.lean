import Verif.Prob.RefDirs
import Verif.Ind.RefSetLemmas
import Mathlib.Tactic.Ring
import Mathlib.Tactic.Linarith
import Mathlib.Tactic.FieldSimp
import Mathlib.Tactic.Positivity
import Mathlib.Algebra.Order.Field.Basic
import Mathlib.Algebra.Order.BigOperators.Group.List
import Mathlib.Data.Nat.Choose.Sum
import Mathlib.Algebra.Order.Ring.Rat

/-!
# C50: reference directions
-/

namespace Verif.Props

open Verif.Prob

/-! ### The compositions -/

/-- The compositions, without prefix. -/
def comps : ℕ → ℕ → List (List ℕ)
  | _, 0 => []
  | total, 1 => [[total]]
  | total, parts + 2 => (List.range (total + 1)).flatMap fun v => (comps (total - v) (parts + 1)).map (v :: ·)

theorem compositions_eq (parts total : ℕ) (pre : List ℕ) :
    compositions total (parts + 1) pre = some ((comps total (parts + 1)).map (pre ++ ·)) := by
  induction parts generalizing total pre with
  | zero => simp [compositions, comps]
  | succ parts ih =>
    unfold compositions
    have : (fun v => compositions (total - v) (parts + 1) (pre ++ [v])) =
        fun v => some ((comps (total - v) (parts + 1)).map ((pre ++ [v]) ++ ·)) := by
      funext v
      exact ih _ _
    rw [this]
    have hm : ∀ (l : List ℕ) (f : ℕ → List (List ℕ)), l.mapM (fun v => some (f v)) = some (l.map f) := by
      intro l f
      induction l with
      | nil => rfl
      | cons a l ih => simp [List.mapM_cons, ih]
    rw [hm, Option.map_some, comps]
    congr 1
    rw [List.map_flatMap, List.flatMap_def]
    congr 2
    funext v
    rw [List.map_map]
    congr 1
    funext c
    simp

theorem mem_comps {parts total : ℕ} {c : List ℕ} :
    c ∈ comps total (parts + 1) ↔ c.length = parts + 1 ∧ c.sum = total := by
  induction parts generalizing total c with
  | zero =>
    simp only [comps, List.mem_singleton]
    constructor
    · rintro rfl
      simp
    · rintro ⟨h1, h2⟩
      obtain ⟨a, rfl⟩ := List.length_eq_one_iff.mp h1
      simpa using h2
  | succ parts ih =>
    simp only [comps, List.mem_flatMap, List.mem_map, List.mem_range, ih]
    constructor
    · rintro ⟨v, hv, c', ⟨h1, h2⟩, rfl⟩
      simp only [List.length_cons, List.sum_cons]
      omega
    · rintro ⟨h1, h2⟩
      cases c with
      | nil => simp at h1
      | cons v c =>
        simp only [List.length_cons, List.sum_cons] at h1 h2
        exact ⟨v, by omega, c, ⟨by omega, by omega⟩, rfl⟩

theorem comps_nodup (parts total : ℕ) : (comps total (parts + 1)).Nodup := by
  induction parts generalizing total with
  | zero => simp [comps]
  | succ parts ih =>
    rw [comps, List.nodup_flatMap]
    refine ⟨fun v _ => (ih _).map fun a b h => by simpa using h, ?_⟩
    refine List.nodup_range.imp ?_
    intro a b hab
    rw [Function.onFun, List.disjoint_left]
    intro c h1 h2
    obtain ⟨c1, -, rfl⟩ := List.mem_map.mp h1
    obtain ⟨c2, -, h⟩ := List.mem_map.mp h2
    exact hab (by simpa using (List.cons.inj h).1.symm)

theorem comps_length (parts total : ℕ) :
    (comps total (parts + 1)).length = (total + parts).choose parts := by
  induction parts generalizing total with
  | zero => simp [comps]
  | succ parts ih =>
    simp only [comps, List.length_flatMap, List.length_map, ih]
    have hsum : ∀ t : ℕ, ((List.range (t + 1)).map fun v => (t - v + parts).choose parts).sum =
        (t + (parts + 1)).choose (parts + 1) := by
      intro t
      induction t with
      | zero => simp
      | succ t iht =>
        rw [List.range_succ_eq_map, List.map_cons, List.sum_cons, List.map_map]
        have : ((fun v => (t + 1 - v + parts).choose parts) ∘ Nat.succ) =
            fun v => (t - v + parts).choose parts := by
          funext v
          simp
        rw [this, iht, show t + 1 + (parts + 1) = (t + 1 + parts) + 1 by omega, Nat.choose_succ_succ,
          show t + (parts + 1) = t + 1 + parts by omega]
        simp
    exact hsum total

/-! ### The number of partitions -/

/-- The size of the lattice with `p` partitions. -/
def latticeSize (m p : ℕ) : ℕ := (p + m - 1).choose (m - 1)

theorem lt_latticeSize {m p : ℕ} (hm : 2 ≤ m) : p < latticeSize m p := by
  unfold latticeSize
  obtain ⟨k, rfl⟩ : ∃ k, m = k + 2 := ⟨m - 2, by omega⟩
  rw [show p + (k + 2) - 1 = p + (k + 1) by omega, show k + 2 - 1 = k + 1 by omega]
  clear hm
  induction k with
  | zero => simp
  | succ k ih =>
    rw [show p + (k + 1 + 1) = (p + (k + 1)) + 1 by omega, Nat.choose_succ_succ]
    omega

theorem partitionLoop_spec {m : ℕ} (hm : 2 ≤ m) {t : Int} {fuel p : ℕ} (hf : t ≤ p + fuel - 1 ∨ t ≤ p + fuel)
    (hf0 : 0 < fuel) : ∃ q, partitionLoop m t fuel p = some q ∧ p ≤ q ∧ t ≤ latticeSize m q ∧
      ∀ r, p ≤ r → r < q → (latticeSize m r : Int) < t := by
  induction fuel generalizing p with
  | zero => omega
  | succ fuel ih =>
    unfold partitionLoop
    rw [if_neg (by omega)]
    by_cases hc : (((p + m - 1).choose (m - 1) : ℕ) : Int) < t
    · rw [if_pos hc]
      have hlt : (p : Int) < latticeSize m p := by exact_mod_cast lt_latticeSize hm
      have hc' : (latticeSize m p : Int) < t := hc
      obtain ⟨q, h1, h2, h3, h4⟩ := ih (p := p + 1) (by push_cast; push_cast at hf; omega)
        (by push_cast at hf; omega)
      refine ⟨q, h1, by omega, h3, fun r hr hrq => ?_⟩
      by_cases hrp : r = p
      · rw [hrp]
        exact hc'
      · exact h4 r (by omega) hrq
    · rw [if_neg hc]
      exact ⟨p, rfl, le_rfl, not_lt.mp hc, fun r h1 h2 => by omega⟩

/-! ### C50 -/

/-- C50: for at least two objectives and any number of points, the loop ends; with the smallest number of
partitions `p` whose lattice has at least as many points as asked for, every vector `c / p` with a composition `c`
of `p` is returned, exactly once, and nothing else. -/
theorem C50_enumerates {K : Type*} [Field K] [CharZero K] {m : ℕ} (hm : 2 ≤ m) (nPoints : Option Int) {fuel : ℕ}
    (hf : (target m nPoints).toNat < fuel) : ∃ p, ∃ dirs : List (List K),
      getRefDirs fuel m nPoints none = some dirs ∧
      1 ≤ p ∧ target m nPoints ≤ latticeSize m p ∧
      (∀ r, 1 ≤ r → r < p → (latticeSize m r : Int) < target m nPoints) ∧
      dirs.length = latticeSize m p ∧ dirs.Nodup ∧
      ∀ d, d ∈ dirs ↔ ∃ c : List ℕ, c.length = m ∧ c.sum = p ∧ d = c.map fun x : ℕ => (x : K) / p := by
  obtain ⟨p, h1, h2, h3, h4⟩ := partitionLoop_spec hm (t := target m nPoints) (fuel := fuel) (p := 1)
    (by omega) (by omega)
  obtain ⟨k, rfl⟩ : ∃ k, m = k + 1 := ⟨m - 1, by omega⟩
  have hp : (p : K) ≠ 0 := by exact_mod_cast (by omega : p ≠ 0)
  have he : getRefDirs fuel (k + 1) nPoints none =
      some ((comps p (k + 1)).map fun c => c.map fun x : ℕ => (x : K) / p) := by
    unfold getRefDirs
    dsimp only
    rw [h1, Option.bind_some, if_neg (by omega), compositions_eq, Option.map_some]
    simp
  refine ⟨p, _, he, h2, h3, h4, ?_, ?_, fun d => ?_⟩
  · rw [List.length_map, comps_length]
    rfl
  · refine (comps_nodup k p).map fun a b h => ?_
    refine List.map_injective_iff.mpr (fun x y hxy => ?_) h
    have : (x : K) = y := by
      have hxy : (x : K) / p = y / p := hxy
      field_simp at hxy
      exact hxy
    exact_mod_cast this
  · simp only [List.mem_map, mem_comps]
    constructor
    · rintro ⟨c, ⟨h5, h6⟩, rfl⟩
      exact ⟨c, h5, h6, rfl⟩
    · rintro ⟨c, h5, h6, rfl⟩
      exact ⟨c, ⟨h5, h6⟩, rfl⟩

/-- `t` is the number of points asked for: the given one, or 100 for two objectives and 496 for others if none (or zero) is
given. -/
def Wanted (m : ℕ) (nPoints : Option Int) (t : Int) : Prop :=
  (nPoints = some t ∧ t ≠ 0) ∨ ((nPoints = none ∨ nPoints = some 0) ∧ ((m = 2 ∧ t = 100) ∨ (m ≠ 2 ∧ t = 496)))

/-- C50, the number of directions: as many as the smallest lattice with at least the number of points asked for has. -/
theorem C50_number {K : Type*} [Field K] [CharZero K] {m : ℕ} (hm : 2 ≤ m) {nPoints : Option Int} {t : Int}
    (ht : Wanted m nPoints t) {fuel : ℕ} (hf : t.toNat < fuel) : ∃ p, ∃ dirs : List (List K),
      getRefDirs fuel m nPoints none = some dirs ∧ 1 ≤ p ∧ dirs.length = latticeSize m p ∧ t ≤ latticeSize m p ∧
      ∀ r, 1 ≤ r → r < p → (latticeSize m r : Int) < t := by
  have e : target m nPoints = t := by
    rcases ht with ⟨rfl, h⟩ | ⟨rfl | rfl, ⟨rfl, rfl⟩ | ⟨h, rfl⟩⟩ <;> simp [target, *]
  obtain ⟨p, dirs, h1, h2, h3, h4, h5, -⟩ := C50_enumerates (K := K) hm nPoints (fuel := fuel) (by rw [e]; exact hf)
  rw [e] at h3 h4
  exact ⟨p, dirs, h1, h2, h5, h3, h4⟩

/-- Five objectives: the lattice with 8 partitions has 495 points, so by default there are 9 partitions, and 715 directions. -/
example : ∃ dirs : List (List ℚ), getRefDirs 497 5 none none = some dirs ∧ dirs.length = 715 := by
  obtain ⟨p, dirs, h1, h2, h3, h4, h5⟩ := C50_number (K := ℚ) (m := 5) (by norm_num) (nPoints := none) (t := 496)
    (.inr ⟨.inl rfl, .inr ⟨by norm_num, rfl⟩⟩) (fuel := 497) (by norm_num)
  refine ⟨dirs, h1, ?_⟩
  have hp : p = 9 := by
    by_contra hne
    rcases Nat.lt_or_gt_of_ne hne with h | h
    · have h8 : ∀ q < 9, latticeSize 5 q ≤ 495 := by decide
      have := h8 p h
      omega
    · have := h5 9 (by norm_num) h
      have h9 : latticeSize 5 9 = 715 := by decide
      omega
  rw [h3, hp]
  decide

theorem sum_map_div {K : Type*} [Field K] (c : List ℕ) (p : K) :
    (c.map fun x : ℕ => (x : K) / p).sum = (c.sum : K) / p := by
  induction c with
  | nil => simp
  | cons a c ih =>
    simp only [List.map_cons, List.sum_cons, ih]
    push_cast
    ring

/-- C50: every direction has one entry per objective, no negative entry, and sum 1 (for any given or found number of
partitions). -/
theorem C50_simplex {K : Type*} [Field K] [LinearOrder K] [IsStrictOrderedRing K] {m fuel : ℕ}
    {nPoints : Option Int} {nPartitions : Option ℕ} {dirs : List (List K)}
    (h : getRefDirs fuel m nPoints nPartitions = some dirs) :
    ∀ d ∈ dirs, d.length = m ∧ (∀ x ∈ d, 0 ≤ x) ∧ d.sum = 1 := by
  intro d hd
  unfold getRefDirs at h
  obtain ⟨p, -, h⟩ := Option.bind_eq_some_iff.mp h
  by_cases hp : p = 0
  · simp [hp] at h
  rw [if_neg hp] at h
  obtain ⟨L, hL, rfl⟩ := Option.map_eq_some_iff.mp h
  obtain ⟨c, hc, rfl⟩ := List.mem_map.mp hd
  cases m with
  | zero => simp [compositions] at hL
  | succ m =>
    rw [compositions_eq, Option.some.injEq] at hL
    subst hL
    simp only [List.nil_append, List.map_id'] at hc
    obtain ⟨h1, h2⟩ := mem_comps.mp hc
    have hp' : (p : K) ≠ 0 := by exact_mod_cast hp
    refine ⟨by simpa using h1, ?_, ?_⟩
    · intro x hx
      obtain ⟨y, -, rfl⟩ := List.mem_map.mp hx
      positivity
    · rw [sum_map_div, h2, div_self hp']

/-- C50: `generic_sphere` of these directions is defined and gives, for every direction, its positive multiple of
norm 1. -/
theorem C50_sphere {m fuel : ℕ} {nPoints : Option Int} {nPartitions : Option ℕ} {dirs : List (List ℝ)}
    (h : getRefDirs fuel m nPoints nPartitions = some dirs) : ∃ out, genericSphere dirs = some out ∧
      out.length = dirs.length ∧ ∀ (i : ℕ) (d : List ℝ), dirs[i]? = some d → ∃ u s, out[i]? = some u ∧ 0 < s ∧
        u = d.map (fun x => x / s) ∧ (u.map fun x => x ^ 2).sum = 1 := by
  have hpos : ∀ d ∈ dirs, 0 < (d.map fun x => x ^ 2).sum := by
    intro d hd
    obtain ⟨-, h0, h1⟩ := C50_simplex h d hd
    by_contra hn
    have hz : ∀ x ∈ d, x = 0 := by
      have hle : (d.map fun x => x ^ 2).sum ≤ 0 := not_lt.mp hn
      intro x hx
      have h2 := List.single_le_sum (l := d.map fun x => x ^ 2) (fun y hy => by
        obtain ⟨z, -, rfl⟩ := List.mem_map.mp hy
        positivity) (x ^ 2) (List.mem_map.mpr ⟨x, hx, rfl⟩)
      have h3 : x ^ 2 = 0 := le_antisymm (h2.trans hle) (by positivity)
      exact pow_eq_zero_iff (two_ne_zero) |>.mp h3
    rw [List.sum_eq_zero hz] at h1
    exact zero_ne_one h1
  have hm : ∀ l : List (List ℝ), (∀ d ∈ l, 0 < (d.map fun x => x ^ 2).sum) → genericSphere l =
      some (l.map fun d => d.map fun x => x / Real.sqrt (d.map fun x => x ^ 2).sum) := by
    intro l hl
    unfold genericSphere
    induction l with
    | nil => rfl
    | cons a l ih =>
      rw [List.mapM_cons, ih fun d hd => hl d (List.mem_cons_of_mem _ hd),
        if_neg (Real.sqrt_pos.mpr (hl a List.mem_cons_self)).ne']
      rfl
  refine ⟨_, hm dirs hpos, by simp, fun i d hi => ?_⟩
  have hd := hpos d (List.mem_of_getElem? hi)
  refine ⟨_, Real.sqrt (d.map fun x => x ^ 2).sum, by rw [List.getElem?_map, hi]; rfl, Real.sqrt_pos.mpr hd, rfl, ?_⟩
  have hs : ∀ (l : List ℝ) (s : ℝ), ((l.map fun x => x / s).map fun x => x ^ 2).sum =
      (l.map fun x => x ^ 2).sum / s ^ 2 := by
    intro l s
    induction l with
    | nil => simp
    | cons a l ih =>
      simp only [List.map_cons, List.sum_cons, ih]
      ring
  rw [hs, Real.sq_sqrt hd.le, div_self hd.ne']

/-- Outside the property: with one objective and more than one point asked for, the loop never ends. -/
theorem C50_one_objective {K : Type*} [Field K] (fuel : ℕ) {t : Int} (ht : 1 < t) :
    getRefDirs (K := K) fuel 1 (some t) none = none := by
  have h : ∀ fuel p, partitionLoop 1 t fuel p = none := by
    intro fuel
    induction fuel with
    | zero => intro p; rfl
    | succ fuel ih =>
      intro p
      unfold partitionLoop
      rw [if_neg (by omega), if_pos (by simpa using ht), ih]
  unfold getRefDirs target
  dsimp only
  rw [if_neg (by omega), h]
  rfl

/-- Three objectives, five points asked for: two partitions, six directions. -/
example : getRefDirs (K := ℚ) 6 3 (some 5) none = some [[0, 0, 1], [0, 1 / 2, 1 / 2], [0, 1, 0],
    [1 / 2, 0, 1 / 2], [1 / 2, 1 / 2, 0], [1, 0, 0]] := by
  decide +kernel

end Verif.Props
