import Verif.HV.Congr
import Mathlib.Algebra.Order.Ring.Defs
import Mathlib.Algebra.BigOperators.Group.Finset.Basic
import Mathlib.Algebra.Order.BigOperators.Ring.Finset
import Mathlib.Data.Option.Basic
import Mathlib.Tactic.Ring

/-!
# Two runs of the model on scaled coordinates

A simulation: with the coordinates multiplied by positive factors the algorithm takes the same decisions, and its areas and
volumes are multiplied by products of the factors.
-/

namespace Verif.HV

variable {K : Type*} [CommRing K] [LinearOrder K] [IsStrictOrderedRing K]

/-- The product of the first `n` factors. -/
def scaleProd (s : ℕ → K) (n : ℕ) : K := ∏ i ∈ Finset.range n, s i

variable {s : ℕ → K}

theorem scaleProd_zero : scaleProd s 0 = 1 := by simp [scaleProd]

theorem scaleProd_succ (n : ℕ) : scaleProd s (n + 1) = scaleProd s n * s n := by simp [scaleProd, Finset.prod_range_succ]

theorem scaleProd_pos (hs : ∀ i, 0 < s i) (n : ℕ) : 0 < scaleProd s n := Finset.prod_pos fun i _ => hs i

/-- The bounds of the two runs: scaled, or both at the start value. -/
def BoundsRel (s : ℕ → K) (a b : ℕ → K) : Prop :=
  ∀ i, b i = s i * a i ∨ a i = -((10 ^ 308 : ℕ) : K) ∧ b i = -((10 ^ 308 : ℕ) : K)

/-- The states of the two runs. -/
structure ScaledML (s : ℕ → K) (a b : ML K) : Prop where
  next : b.next = a.next
  prev : b.prev = a.prev
  ignore : b.ignore = a.ignore
  area : ∀ x y, b.area x y = scaleProd s y * a.area x y
  volume : ∀ x y, b.volume x y = scaleProd s (y + 1) * a.volume x y
  bounds : BoundsRel s a.bounds b.bounds

/-- The coordinates of the two runs: scaled, and above the start value of the bounds. -/
structure ScaledCargo (s : ℕ → K) (c c' : ℕ → ℕ → K) : Prop where
  pos : ∀ i, 0 < s i
  eq : ∀ z i, c' z i = s i * c z i
  range : ∀ z i, -((10 ^ 308 : ℕ) : K) < c z i
  range' : ∀ z i, -((10 ^ 308 : ℕ) : K) < c' z i

variable {c c' : ℕ → ℕ → K}

theorem ScaledCargo.lt_iff (h : ScaledCargo s c c') {a b : ℕ → K} (hb : BoundsRel s a b) (z i : ℕ) :
    b i < c' z i ↔ a i < c z i := by
  rcases hb i with e | ⟨e, e'⟩
  · rw [e, h.eq]
    exact mul_lt_mul_iff_right₀ (h.pos i)
  · rw [e, e']
    simp only [h.range, h.range']

theorem ScaledCargo.le_iff (h : ScaledCargo s c c') {a b : ℕ → K} (hb : BoundsRel s a b) (z i : ℕ) :
    b i ≤ c' z i ↔ a i ≤ c z i := by
  rcases hb i with e | ⟨e, e'⟩
  · rw [e, h.eq]
    exact mul_le_mul_iff_right₀ (h.pos i)
  · rw [e, e']
    simp only [(h.range z i).le, (h.range' z i).le]

theorem BoundsRel.set (h : ScaledCargo s c c') {a b : ℕ → K} (hb : BoundsRel s a b) (z i : ℕ) :
    BoundsRel s (set1 a i (c z i)) (set1 b i (c' z i)) := by
  intro j
  unfold set1
  split_ifs with hj
  · left
    rw [hj, h.eq]
  · exact hb j

theorem BoundsRel.lower (h : ScaledCargo s c c') {a b : ℕ → K} (hb : BoundsRel s a b) (z i : ℕ) :
    BoundsRel s (lowerBound c z i a) (lowerBound c' z i b) := by
  unfold lowerBound
  have : b i > c' z i ↔ a i > c z i := by
    rw [gt_iff_lt, gt_iff_lt, ← not_le, ← not_le, h.le_iff hb]
  by_cases hc : a i > c z i
  · rw [if_pos hc, if_pos (this.mpr hc)]
    exact hb.set h z i
  · rw [if_neg hc, if_neg (mt this.mp hc)]
    exact hb

theorem ScaledML.removeAt (h : ScaledCargo s c c') {a b : ML K} (hr : ScaledML s a b) (x i : ℕ) :
    ScaledML s (removeAt c x i a) (HV.removeAt c' x i b) where
  next := by simp only [HV.removeAt, hr.next, hr.prev]
  prev := by simp only [HV.removeAt, hr.next, hr.prev]
  ignore := hr.ignore
  area := hr.area
  volume := hr.volume
  bounds := hr.bounds.lower h x i

theorem ScaledML.remove (h : ScaledCargo s c c') {a b : ML K} (hr : ScaledML s a b) (x d : ℕ) :
    ScaledML s (remove c x d a) (HV.remove c' x d b) := by
  induction d with
  | zero => exact hr
  | succ d ih =>
    rw [remove_succ, remove_succ]
    exact ih.removeAt h x d

theorem ScaledML.reinsertAt (h : ScaledCargo s c c') {a b : ML K} (hr : ScaledML s a b) (x i : ℕ) :
    ScaledML s (reinsertAt c x i a) (HV.reinsertAt c' x i b) where
  next := by simp only [HV.reinsertAt, hr.next, hr.prev]
  prev := by simp only [HV.reinsertAt, hr.next, hr.prev]
  ignore := hr.ignore
  area := hr.area
  volume := hr.volume
  bounds := hr.bounds.lower h x i

theorem ScaledML.reinsert (h : ScaledCargo s c c') {a b : ML K} (hr : ScaledML s a b) (x d : ℕ) :
    ScaledML s (reinsert c x d a) (HV.reinsert c' x d b) := by
  induction d with
  | zero => exact hr
  | succ d ih =>
    rw [reinsert_succ, reinsert_succ]
    exact ih.reinsertAt h x d

theorem ScaledML.setArea {a b : ML K} (hr : ScaledML s a b) (x y : ℕ) {v w : K} (h : w = scaleProd s y * v) :
    ScaledML s { a with area := set2 a.area x y v } { b with area := set2 b.area x y w } where
  next := hr.next
  prev := hr.prev
  ignore := hr.ignore
  area := by
    intro x' y'
    simp only [set2]
    split_ifs with hc
    · rw [h, hc.2]
    · exact hr.area x' y'
  volume := hr.volume
  bounds := hr.bounds

theorem ScaledML.setVolume {a b : ML K} (hr : ScaledML s a b) (x y : ℕ) {v w : K} (h : w = scaleProd s (y + 1) * v) :
    ScaledML s { a with volume := set2 a.volume x y v } { b with volume := set2 b.volume x y w } where
  next := hr.next
  prev := hr.prev
  ignore := hr.ignore
  area := hr.area
  volume := by
    intro x' y'
    simp only [set2]
    split_ifs with hc
    · rw [h, hc.2]
    · exact hr.volume x' y'
  bounds := hr.bounds

theorem ScaledML.setIgnore {a b : ML K} (hr : ScaledML s a b) (x v : ℕ) :
    ScaledML s { a with ignore := set1 a.ignore x v } { b with ignore := set1 b.ignore x v } where
  next := hr.next
  prev := hr.prev
  ignore := by simp only [hr.ignore]
  area := hr.area
  volume := hr.volume
  bounds := hr.bounds

theorem resetLoop_scaled (d : ℕ) : ∀ (fuel q : ℕ) {a b : ML K}, ScaledML s a b →
    Option.Rel (ScaledML s) (resetLoop d fuel q a) (resetLoop d fuel q b)
  | 0, q, a, b, hr => by
    unfold resetLoop
    by_cases h1 : q = 0
    · rw [if_pos h1, if_pos h1]
      exact .some hr
    · rw [if_neg h1, if_neg h1]
      exact .none
  | fuel + 1, q, a, b, hr => by
    unfold resetLoop
    by_cases h1 : q = 0
    · rw [if_pos h1, if_pos h1]
      exact .some hr
    rw [if_neg h1, if_neg h1]
    dsimp only
    have e : b.prev q d = a.prev q d := by rw [hr.prev]
    rw [e]
    refine resetLoop_scaled d fuel _ ?_
    by_cases h2 : a.ignore q < d
    · rw [if_pos h2, if_pos (by rw [hr.ignore]; exact h2)]
      exact hr.setIgnore q 0
    · rw [if_neg h2, if_neg (by rw [hr.ignore]; exact h2)]
      exact hr

/-- The results of the removal loops. -/
structure ScaledOut (s : ℕ → K) (a b : RemOut K) : Prop where
  len : b.len = a.len
  p : b.p = a.p
  q : b.q = a.q
  st : ScaledML s a.st b.st

theorem removeLoop_scaled (h : ScaledCargo s c c') (d : ℕ) : ∀ (len p q : ℕ) {a b : ML K}, ScaledML s a b →
    Option.Rel (ScaledOut s) (removeLoop c d len p q a) (removeLoop c' d len p q b)
  | 0, p, q, a, b, hr => .some ⟨rfl, rfl, rfl, hr⟩
  | 1, p, q, a, b, hr => .some ⟨rfl, rfl, rfl, hr⟩
  | len + 2, p, q, a, b, hr => by
    unfold removeLoop
    by_cases h0 : q = 0
    · rw [if_pos h0, if_pos h0]
      exact .none
    rw [if_neg h0, if_neg h0, hr.prev]
    have ih := removeLoop_scaled h d (len + 1) q (a.prev q d) (hr.remove h q d)
    by_cases h1 : c q d > a.bounds d
    · rw [if_pos h1, if_pos ((h.lt_iff hr.bounds q d).mpr h1)]
      exact ih
    rw [if_neg h1, if_neg (mt (h.lt_iff hr.bounds q d).mp h1)]
    by_cases h2 : a.prev q d = 0
    · rw [if_pos h2, if_pos h2]
      exact .none
    rw [if_neg h2, if_neg h2]
    by_cases h3 : c (a.prev q d) d ≥ a.bounds d
    · rw [if_pos h3, if_pos ((h.le_iff hr.bounds _ d).mpr h3)]
      exact ih
    rw [if_neg h3, if_neg (mt (h.le_iff hr.bounds _ d).mp h3)]
    exact .some ⟨rfl, rfl, rfl, hr⟩

theorem ScaledML.initArea (h : ScaledCargo s c c') {a b : ML K} (hr : ScaledML s a b) (d q : ℕ) :
    ScaledML s (initArea c d q a) (HV.initArea c' d q b) where
  next := hr.next
  prev := hr.prev
  ignore := hr.ignore
  area := by
    have h0 : ∀ x y, set2 b.area q 0 1 x y = scaleProd s y * set2 a.area q 0 1 x y := by
      intro x y
      unfold set2
      split_ifs with hc
      · rw [hc.2, scaleProd_zero, mul_one]
      · exact hr.area x y
    intro x y
    simp only [HV.initArea]
    split_ifs with hc
    · obtain ⟨m, rfl⟩ : ∃ m, y = m + 1 := ⟨y - 1, by omega⟩
      rw [Nat.add_sub_cancel, h0, h.eq, scaleProd_succ]
      ring
    · exact h0 x y
  volume := hr.volume
  bounds := hr.bounds

/-- The results of `hvRecursive` at level `d`. -/
def ScaledRes (s : ℕ → K) (d : ℕ) (r r' : K × ML K) : Prop := r'.1 = scaleProd s (d + 1) * r.1 ∧ ScaledML s r.2 r'.2

theorem visit_scaled (hs : ∀ i, 0 < s i) {rec rec' : ℕ → ML K → Option (K × ML K)} {d : ℕ}
    (hrec : ∀ (len : ℕ) {a b : ML K}, ScaledML s a b → Option.Rel (ScaledRes s d) (rec len a) (rec' len b))
    (len q : ℕ) {a b : ML K} (hr : ScaledML s a b) :
    Option.Rel (ScaledML s) (visit rec (d + 1) len q a) (visit rec' (d + 1) len q b) := by
  unfold visit
  by_cases h1 : a.ignore q ≥ d + 1
  · rw [if_pos h1, if_pos (by rw [hr.ignore]; exact h1)]
    exact .some (hr.setArea _ _ (by rw [hr.prev, hr.area]))
  rw [if_neg h1, if_neg (by rw [hr.ignore]; exact h1)]
  have := hrec len hr
  generalize rec len a = r, rec' len b = r' at this
  cases this with
  | none => exact .none
  | @some r r' h =>
    obtain ⟨v, a1⟩ := r
    obtain ⟨w, b1⟩ := r'
    obtain ⟨h1, h2⟩ := h
    dsimp only at h1 h2
    have h3 := h2.setArea q (d + 1) (v := v) (w := w) h1
    dsimp only
    have hc : set2 b1.area q (d + 1) w q (d + 1) ≤ set2 b1.area q (d + 1) w (b1.prev q (d + 1)) (d + 1) ↔
        set2 a1.area q (d + 1) v q (d + 1) ≤ set2 a1.area q (d + 1) v (a1.prev q (d + 1)) (d + 1) := by
      have e := h3.area
      dsimp only at e
      rw [e, e, h2.prev]
      exact mul_le_mul_iff_right₀ (scaleProd_pos hs _)
    by_cases hle : set2 a1.area q (d + 1) v q (d + 1) ≤ set2 a1.area q (d + 1) v (a1.prev q (d + 1)) (d + 1)
    · rw [if_pos hle, if_pos (hc.mpr hle)]
      exact .some (h3.setIgnore q (d + 1))
    · rw [if_neg hle, if_neg (mt hc.mp hle)]
      exact .some h3

theorem sweepLoop_scaled (h : ScaledCargo s c c') {rec rec' : ℕ → ML K → Option (K × ML K)} {d : ℕ}
    (hrec : ∀ (len : ℕ) {a b : ML K}, ScaledML s a b → Option.Rel (ScaledRes s d) (rec len a) (rec' len b)) :
    ∀ (fuel : ℕ) (v w : K) (len p q : ℕ) {a b : ML K}, w = scaleProd s (d + 2) * v → ScaledML s a b →
    Option.Rel (ScaledRes s (d + 1)) (sweepLoop c rec (d + 1) fuel v len p q a) (sweepLoop c' rec' (d + 1) fuel w len p q b) := by
  intro fuel
  induction fuel with
  | zero =>
    intro v w len p q a b hv hr
    unfold sweepLoop
    split_ifs
    · refine .some ⟨?_, hr⟩
      dsimp only
      rw [hv, hr.area, h.eq, scaleProd_succ (d + 1)]
      ring
    · exact .none
  | succ fuel ih =>
    intro v w len p q a b hv hr
    unfold sweepLoop
    by_cases hp : p = 0
    · rw [if_pos hp, if_pos hp]
      refine .some ⟨?_, hr⟩
      dsimp only
      rw [hv, hr.area, h.eq, scaleProd_succ (d + 1)]
      ring
    rw [if_neg hp, if_neg hp]
    dsimp only
    have hv' : w + b.area q (d + 1) * (c' p (d + 1) - c' q (d + 1)) =
        scaleProd s (d + 2) * (v + a.area q (d + 1) * (c p (d + 1) - c q (d + 1))) := by
      rw [hv, hr.area, h.eq, h.eq, scaleProd_succ (d + 1)]
      ring
    have h1 : ScaledML s { a with bounds := set1 a.bounds (d + 1) (c p (d + 1)) }
        { b with bounds := set1 b.bounds (d + 1) (c' p (d + 1)) } :=
      ⟨hr.next, hr.prev, hr.ignore, hr.area, hr.volume, hr.bounds.set h p (d + 1)⟩
    have h2 := h1.reinsert h p (d + 1)
    have h3 := h2.setVolume p (d + 1) hv'
    have hvis := visit_scaled h.pos hrec (len + 1) p h3
    generalize visit rec (d + 1) (len + 1) p _ = r, visit rec' (d + 1) (len + 1) p _ = r' at hvis
    cases hvis with
    | none => exact .none
    | some hx =>
      dsimp only
      rw [h2.next]
      exact ih _ _ _ _ _ hv' hx

theorem level_scaled (h : ScaledCargo s c c') {rec rec' : ℕ → ML K → Option (K × ML K)} {d : ℕ}
    (hrec : ∀ (len : ℕ) {a b : ML K}, ScaledML s a b → Option.Rel (ScaledRes s d) (rec len a) (rec' len b))
    (fuel len : ℕ) {a b : ML K} (hr : ScaledML s a b) :
    Option.Rel (ScaledRes s (d + 1)) (level c fuel rec (d + 1) len a) (level c' fuel rec' (d + 1) len b) := by
  unfold level
  rw [hr.prev]
  have h1 := resetLoop_scaled (s := s) (d + 1) fuel (a.prev 0 (d + 1)) hr
  generalize resetLoop (d + 1) fuel (a.prev 0 (d + 1)) a = r, resetLoop (d + 1) fuel (a.prev 0 (d + 1)) b = r' at h1
  cases h1 with
  | none => exact .none
  | @some a1 b1 hr1 =>
    dsimp only
    rw [hr1.prev]
    have h2 := removeLoop_scaled h (d + 1) len 0 (a1.prev 0 (d + 1)) hr1
    generalize removeLoop c (d + 1) len 0 (a1.prev 0 (d + 1)) a1 = r, removeLoop c' (d + 1) len 0 (a1.prev 0 (d + 1)) b1 = r' at h2
    cases h2 with
    | none => exact .none
    | @some o o' ho =>
      obtain ⟨len, p, q, a2⟩ := o
      obtain ⟨len', p', q', b2⟩ := o'
      obtain ⟨e1, e2, e3, hr2⟩ := ho
      dsimp only at e1 e2 e3 hr2
      subst e1 e2 e3
      dsimp only
      split_ifs with hq hl hqp hqp hqp
      · exact .none
      · exact .none
      · rw [hr2.prev] at hqp; contradiction
      · rw [hr2.prev] at hqp; contradiction
      · have hv : b2.volume (b2.prev q' (d + 1)) (d + 1) + b2.area (b2.prev q' (d + 1)) (d + 1) *
            (c' q' (d + 1) - c' (b2.prev q' (d + 1)) (d + 1)) =
            scaleProd s (d + 2) * (a2.volume (a2.prev q' (d + 1)) (d + 1) + a2.area (a2.prev q' (d + 1)) (d + 1) *
              (c q' (d + 1) - c (a2.prev q' (d + 1)) (d + 1))) := by
          rw [hr2.prev, hr2.area, hr2.volume, h.eq, h.eq, scaleProd_succ (d + 1)]
          ring
        have hvis := visit_scaled h.pos hrec len' q' (hr2.setVolume q' (d + 1) hv)
        generalize visit rec (d + 1) len' q' _ = r, visit rec' (d + 1) len' q' _ = r' at hvis
        cases hvis with
        | none => exact .none
        | some hx => exact sweepLoop_scaled h hrec fuel _ _ _ _ _ hv hx
      · have hvis := visit_scaled h.pos hrec len' q' ((hr2.initArea h (d + 1) q').setVolume q' (d + 1) (v := 0) (w := 0) (by simp))
        generalize visit rec (d + 1) len' q' _ = r, visit rec' (d + 1) len' q' _ = r' at hvis
        cases hvis with
        | none => exact .none
        | some hx => exact sweepLoop_scaled h hrec fuel _ _ _ _ _ (by simp) hx

theorem sweep2_scaled (h : ScaledCargo s c c') {a b : ML K} (hr : ScaledML s a b) : ∀ (fuel : ℕ) (v h0 : K) (q p : ℕ),
    sweep2 c' b fuel (scaleProd s 2 * v) (s 0 * h0) q p = (sweep2 c a fuel v h0 q p).map (scaleProd s 2 * ·) := by
  have e2 : scaleProd s 2 = s 0 * s 1 := by rw [scaleProd_succ, scaleProd_succ, scaleProd_zero, one_mul]
  intro fuel
  induction fuel with
  | zero =>
    intro v h0 q p
    unfold sweep2
    by_cases hp : p = 0
    · rw [if_pos hp, if_pos hp, Option.map_some, h.eq, e2]
      congr 1
      ring
    · rw [if_neg hp, if_neg hp]
      rfl
  | succ fuel ih =>
    intro v h0 q p
    unfold sweep2
    by_cases hp : p = 0
    · rw [if_pos hp, if_pos hp, Option.map_some, h.eq, e2]
      congr 1
      ring
    rw [if_neg hp, if_neg hp]
    have e : (if c' p 0 < s 0 * h0 then c' p 0 else s 0 * h0) = s 0 * (if c p 0 < h0 then c p 0 else h0) := by
      rw [h.eq]
      by_cases hc : c p 0 < h0
      · rw [if_pos hc, if_pos ((mul_lt_mul_iff_right₀ (h.pos 0)).mpr hc)]
      · rw [if_neg hc, if_neg (mt (mul_lt_mul_iff_right₀ (h.pos 0)).mp hc)]
    dsimp only
    rw [e, hr.next, ← ih]
    congr 1
    rw [h.eq, h.eq, e2]
    ring

theorem hvRec_scaled (h : ScaledCargo s c c') (fuel : ℕ) : ∀ (d len : ℕ) {a b : ML K}, ScaledML s a b →
    Option.Rel (ScaledRes s d) (hvRec c fuel d len a) (hvRec c' fuel d len b)
  | d, 0, a, b, hr => by
    have e : ∀ (c : ℕ → ℕ → K) (a : ML K), hvRec c fuel d 0 a = some (0, a) := by
      intro c a
      unfold hvRec
      rfl
    rw [e, e]
    exact .some ⟨by simp, hr⟩
  | 0, len + 1, a, b, hr => by
    simp only [hvRec, hr.next]
    split_ifs
    · exact .none
    · refine .some ⟨?_, hr⟩
      dsimp only
      rw [h.eq, scaleProd_succ, scaleProd_zero]
      ring
  | 1, len + 1, a, b, hr => by
    simp only [hvRec, hr.next]
    split_ifs
    · exact .none
    · have e := sweep2_scaled h hr fuel 0 (c (a.next 0 1) 0) (a.next 0 1) (a.next (a.next 0 1) 1)
      rw [mul_zero, ← h.eq] at e
      rw [e]
      cases sweep2 c a fuel 0 (c (a.next 0 1) 0) (a.next 0 1) (a.next (a.next 0 1) 1) with
      | none => exact .none
      | some v => exact .some ⟨rfl, hr⟩
  | d + 2, len + 1, a, b, hr => by
    simp only [hvRec]
    exact level_scaled h (fun len _ _ hr => hvRec_scaled h fuel (d + 1) len hr) fuel (len + 1) hr

/-- The result of the sort depends on the order of the values only: it is the same after a strictly increasing map. Sorting by
comparisons (as NumPy does) has this property, whether it is stable or not. -/
def ComparisonSort {K : Type*} [LinearOrder K] (argsort : List K → List ℕ) : Prop :=
  ∀ (l : List K) (f : K → K), StrictMono f → argsort (l.map f) = argsort l

theorem preLoop_scaled (h : ScaledCargo s c c') {argsort : List K → List ℕ} (ha : ComparisonSort argsort) :
    ∀ (is nodes : List ℕ) {a b : ML K}, ScaledML s a b →
    Option.Rel (ScaledML s) (preLoop argsort c is nodes a) (preLoop argsort c' is nodes b)
  | [], _, _, _, hr => .some hr
  | i :: is, nodes, a, b, hr => by
    have e : sortByDimension argsort c' nodes i = sortByDimension argsort c nodes i := by
      unfold sortByDimension
      congr 1
      rw [show (nodes.map fun node => c' node i) = (nodes.map fun node => c node i).map (s i * ·) by
        rw [List.map_map]; exact List.map_congr_left fun z _ => h.eq z i]
      exact ha _ _ fun x y hxy => mul_lt_mul_of_pos_left hxy (h.pos i)
    unfold preLoop
    rw [e]
    cases sortByDimension argsort c nodes i with
    | none => exact .none
    | some ns =>
      refine preLoop_scaled h ha is ns ?_
      unfold extend
      induction ns generalizing a b with
      | nil => exact hr
      | cons x ns ih =>
        rw [List.foldl_cons, List.foldl_cons]
        have hx : ScaledML s (appendNode i x a) (appendNode i x b) :=
          ⟨by simp only [appendNode, hr.next, hr.prev], by simp only [appendNode, hr.prev], hr.ignore, hr.area, hr.volume, hr.bounds⟩
        exact ih _ _ hx

theorem freshML_scaled : ScaledML s (freshML : ML K) freshML where
  next := rfl
  prev := rfl
  ignore := rfl
  area := by intro x y; simp [freshML]
  volume := by intro x y; simp [freshML]
  bounds := fun _ => .inr ⟨rfl, rfl⟩

/-- `compute` after the choice of the relevant points. -/
theorem run_scaled (h : ScaledCargo s c c') {argsort : List K → List ℕ} (ha : ComparisonSort argsort) (d n : ℕ) :
    (match preProcess argsort c' (d + 1) n with
      | none => none
      | some st => match hvRec c' n d n st with
        | none => none
        | some (v, _) => some v) =
    (match preProcess argsort c (d + 1) n with
      | none => none
      | some st => match hvRec c n d n st with
        | none => none
        | some (v, _) => some v).map (scaleProd s (d + 1) * ·) := by
  have h1 := preLoop_scaled h ha (List.range (d + 1)) ((List.range n).map (· + 1)) freshML_scaled
  unfold preProcess
  generalize preLoop argsort c _ _ _ = r, preLoop argsort c' _ _ _ = r' at h1
  cases h1 with
  | none => rfl
  | @some a b hr =>
    dsimp only
    have h2 := hvRec_scaled h n d n hr
    generalize hvRec c n d n a = r, hvRec c' n d n b = r' at h2
    cases h2 with
    | none => rfl
    | @some r r' hx => exact congrArg some hx.1

/-- `compute` with any coordinates that agree with those of the relevant points. -/
theorem compute_eq_of_agree (argsort : List K → List ℕ) {d n : ℕ} {front : List (ℕ → K)} {ref : ℕ → K} {c : ℕ → ℕ → K}
    (hn : (relevantPoints (d + 1) front ref).length = n) (h : Agree (cargoOf (relevantPoints (d + 1) front ref)) c (d + 1)) :
    compute argsort (d + 1) front ref =
      match preProcess argsort c (d + 1) n with
      | none => none
      | some st => match hvRec c n d n st with
        | none => none
        | some (v, _) => some v := by
  unfold compute preProcess
  simp only [hn, hvRec_congr _ d h]
  rw [preLoop_congr argsort _ _ _ (fun i hi z => h z i (by simpa using hi))]
  cases preLoop argsort c (List.range (d + 1)) ((List.range n).map (· + 1)) freshML with
  | none => rfl
  | some st =>
    dsimp only
    cases hvRec c n d n st <;> rfl

end Verif.HV
