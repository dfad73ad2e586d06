import Verif.HV.Ring

/-!
# The model commutes with order embeddings that respect the operations

Used to run the model on integers in place of reals or rounding numbers.
-/

set_option linter.unusedSectionVars false

namespace Verif.HV

variable {J : Type*} [Zero J] [One J] [Add J] [Sub J] [Neg J] [Mul J] [NatCast J] [LinearOrder J]
variable {K : Type*} [Zero K] [One K] [Add K] [Sub K] [Neg K] [Mul K] [NatCast K] [LinearOrder K]

/-- `e` respects everything the model uses. -/
structure Emb (e : J → K) : Prop where
  zero : e 0 = 0
  one : e 1 = 1
  add : ∀ a b, e (a + b) = e a + e b
  sub : ∀ a b, e (a - b) = e a - e b
  neg : ∀ a, e (-a) = -(e a)
  mul : ∀ a b, e (a * b) = e a * e b
  nat : ∀ n : ℕ, e n = n
  le : ∀ a b, e a ≤ e b ↔ a ≤ b

namespace Emb

variable {e : J → K}

theorem lt (he : Emb e) (a b : J) : e a < e b ↔ a < b := by rw [← not_le, he.le, not_le]

theorem inj (he : Emb e) (a b : J) : e a = e b ↔ a = b := by
  rw [le_antisymm_iff, he.le, he.le, ← le_antisymm_iff]

end Emb

/-- Image of a state. -/
def ML.map (e : J → K) (s : ML J) : ML K where
  next := s.next
  prev := s.prev
  ignore := s.ignore
  area := fun a b => e (s.area a b)
  volume := fun a b => e (s.volume a b)
  bounds := fun b => e (s.bounds b)

/-- Image of a cargo array. -/
def mapC (e : J → K) (c : ℕ → ℕ → J) : ℕ → ℕ → K := fun a b => e (c a b)

/-- Image of a point. -/
def mapP (e : J → K) (p : ℕ → J) : ℕ → K := fun i => e (p i)

variable {e : J → K}

theorem set2_map (f : ℕ → ℕ → J) (a b : ℕ) (v : J) :
    (fun x y => e (set2 f a b v x y)) = set2 (fun x y => e (f x y)) a b (e v) := by
  funext x y; simp only [set2]; split <;> rfl

theorem set1_map (f : ℕ → J) (a : ℕ) (v : J) : (fun x => e (set1 f a v x)) = set1 (fun x => e (f x)) a (e v) := by
  funext x; simp only [set1]; split <;> rfl

section
variable (he : Emb e)
include he

theorem lowerBound_map (c : ℕ → ℕ → J) (x i : ℕ) (b : ℕ → J) :
    lowerBound (mapC e c) x i (fun j => e (b j)) = fun j => e (lowerBound c x i b j) := by
  simp only [lowerBound, mapC, gt_iff_lt, he.lt]
  split
  · rw [set1_map]
  · rfl

theorem removeAt_map (c : ℕ → ℕ → J) (x i : ℕ) (s : ML J) :
    removeAt (mapC e c) x i (s.map e) = (removeAt c x i s).map e := by
  simp only [removeAt, ML.map, lowerBound_map he]

theorem reinsertAt_map (c : ℕ → ℕ → J) (x i : ℕ) (s : ML J) :
    reinsertAt (mapC e c) x i (s.map e) = (reinsertAt c x i s).map e := by
  simp only [reinsertAt, ML.map, lowerBound_map he]

theorem remove_map (c : ℕ → ℕ → J) (x d : ℕ) (s : ML J) :
    remove (mapC e c) x d (s.map e) = (remove c x d s).map e := by
  induction d with
  | zero => rfl
  | succ d ih => rw [remove_succ, remove_succ, ih, removeAt_map he]

theorem reinsert_map (c : ℕ → ℕ → J) (x d : ℕ) (s : ML J) :
    reinsert (mapC e c) x d (s.map e) = (reinsert c x d s).map e := by
  induction d with
  | zero => rfl
  | succ d ih => rw [reinsert_succ, reinsert_succ, ih, reinsertAt_map he]

omit he in
theorem resetLoop_map (d : ℕ) : ∀ (fuel q : ℕ) (s : ML J),
    resetLoop d fuel q (s.map e) = (resetLoop d fuel q s).map (ML.map e) := by
  intro fuel
  induction fuel with
  | zero => intro q s; unfold resetLoop; split <;> rfl
  | succ fuel ih =>
    intro q s
    unfold resetLoop
    split
    · rfl
    · simp only [← ih]
      have h1 : (s.map e).ignore = s.ignore := rfl
      have h2 : (s.map e).prev = s.prev := rfl
      rw [h1, h2]
      congr 1
      split <;> rfl

omit he in
/-- Image of the removal result. -/
def RemOut.map (e : J → K) (o : RemOut J) : RemOut K := ⟨o.len, o.p, o.q, o.st.map e⟩

theorem removeLoop_map (c : ℕ → ℕ → J) (d : ℕ) : ∀ (len p q : ℕ) (s : ML J),
    removeLoop (mapC e c) d len p q (s.map e) = (removeLoop c d len p q s).map (RemOut.map e) := by
  intro len
  induction len with
  | zero => intro p q s; rfl
  | succ len ih =>
    intro p q s
    cases len with
    | zero => rfl
    | succ len =>
      unfold removeLoop
      have hb : (s.map e).bounds d = e (s.bounds d) := rfl
      have hp : (s.map e).prev = s.prev := rfl
      simp only [remove_map he, ih, hb, hp, mapC, gt_iff_lt, ge_iff_le, he.lt, he.le]
      split_ifs <;> rfl

theorem initArea_map (c : ℕ → ℕ → J) (d q : ℕ) (s : ML J) :
    initArea (mapC e c) d q (s.map e) = (initArea c d q s).map e := by
  simp only [initArea, ML.map, mapC, ML.mk.injEq, true_and, and_true]
  funext x y
  simp only [set2]
  split_ifs <;> simp only [he.mul, he.neg, he.one]

omit he in
/-- Image of a pair of value and state. -/
def pairMap (e : J → K) (o : J × ML J) : K × ML K := (e o.1, o.2.map e)

omit he in
/-- The recursive call commutes with the embedding. -/
def RecMap (e : J → K) (rz : ℕ → ML J → Option (J × ML J)) (rr : ℕ → ML K → Option (K × ML K)) : Prop :=
  ∀ len s, rr len (s.map e) = (rz len s).map (pairMap e)

theorem visit_map {rz rr} (h : RecMap e rz rr) (d len q : ℕ) (s : ML J) :
    visit rr d len q (s.map e) = (visit rz d len q s).map (ML.map e) := by
  unfold visit
  have hi : (s.map e).ignore = s.ignore := rfl
  rw [hi]
  split
  · simp only [ML.map, Option.map_some, set2_map]
  · rw [h]
    rcases rz len s with _ | ⟨a, s1⟩
    · rfl
    · simp only [Option.map_some, pairMap]
      have e1 : set2 (s1.map e).area q d (e a) = fun x y => e (set2 s1.area q d a x y) := by
        rw [set2_map]; rfl
      have hp : (s1.map e).prev = s1.prev := rfl
      have hi1 : (s1.map e).ignore = s1.ignore := rfl
      simp only [e1, hp, hi1, he.le]
      split <;> rfl

theorem sweepLoop_map {rz rr} (h : RecMap e rz rr) (c : ℕ → ℕ → J) (d : ℕ) :
    ∀ (fuel : ℕ) (hvol : J) (len p q : ℕ) (s : ML J),
    sweepLoop (mapC e c) rr d fuel (e hvol) len p q (s.map e) =
      (sweepLoop c rz d fuel hvol len p q s).map (pairMap e) := by
  intro fuel
  induction fuel with
  | zero =>
    intro hvol len p q s
    unfold sweepLoop
    split
    · simp [pairMap, ML.map, mapC, he.sub, he.mul]
    · rfl
  | succ fuel ih =>
    intro hvol len p q s
    unfold sweepLoop
    split
    · simp [pairMap, ML.map, mapC, he.sub, he.mul]
    · have ev : e hvol + (s.map e).area q d * (mapC e c p d - mapC e c q d) =
          e (hvol + s.area q d * (c p d - c q d)) := by
        simp [ML.map, mapC, he.add, he.sub, he.mul]
      have es : ({ s.map e with bounds := set1 (s.map e).bounds d (mapC e c p d) } : ML K) =
          ML.map e { s with bounds := set1 s.bounds d (c p d) } := by
        simp only [ML.map, mapC, set1_map]
      simp only [ev, es, reinsert_map he]
      set s1 := reinsert c p d { s with bounds := set1 s.bounds d (c p d) }
      set hv := hvol + s.area q d * (c p d - c q d)
      have es2 : ({ s1.map e with volume := set2 (s1.map e).volume p d (e hv) } : ML K) =
          ML.map e { s1 with volume := set2 s1.volume p d hv } := by
        simp only [ML.map, set2_map]
      have hn : (s1.map e).next = s1.next := rfl
      rw [es2, visit_map he h, hn]
      rcases visit rz d (len + 1) p { s1 with volume := set2 s1.volume p d hv } with _ | s2
      · rfl
      · exact ih hv (len + 1) (s1.next p d) p s2

theorem level_map {rz rr} (h : RecMap e rz rr) (c : ℕ → ℕ → J) (fuel d : ℕ) :
    RecMap e (level c fuel rz d) (level (mapC e c) fuel rr d) := by
  intro len s
  unfold level
  have hp : (s.map e).prev = s.prev := rfl
  rw [hp, resetLoop_map]
  rcases resetLoop d fuel (s.prev 0 d) s with _ | s1
  · rfl
  simp only [Option.map_some]
  have hp1 : (s1.map e).prev = s1.prev := rfl
  rw [hp1, removeLoop_map he]
  rcases removeLoop c d len 0 (s1.prev 0 d) s1 with _ | ⟨len, p, q, s2⟩
  · rfl
  simp only [Option.map_some, RemOut.map]
  by_cases hq : q = 0
  · simp [hq]
  simp only [hq, if_false]
  have hp2 : (s2.map e).prev q d = s2.prev q d := rfl
  rw [hp2]
  by_cases hl : len > 1
  · simp only [hl, if_true]
    by_cases hqp : s2.prev q d = 0
    · simp [hqp]
    simp only [hqp, if_false]
    have ev : (s2.map e).volume (s2.prev q d) d + (s2.map e).area (s2.prev q d) d *
        (mapC e c q d - mapC e c (s2.prev q d) d) =
        e (s2.volume (s2.prev q d) d + s2.area (s2.prev q d) d * (c q d - c (s2.prev q d) d)) := by
      simp [ML.map, mapC, he.add, he.sub, he.mul]
    simp only [ev]
    set hv := s2.volume (s2.prev q d) d + s2.area (s2.prev q d) d * (c q d - c (s2.prev q d) d)
    have es2 : ({ s2.map e with volume := set2 (s2.map e).volume q d (e hv) } : ML K) =
        ML.map e { s2 with volume := set2 s2.volume q d hv } := by
      simp only [ML.map, set2_map]
    rw [es2, visit_map he h]
    rcases visit rz d len q { s2 with volume := set2 s2.volume q d hv } with _ | s3
    · rfl
    · exact sweepLoop_map he h c d fuel hv len p q s3
  · simp only [hl, if_false, initArea_map he]
    set s3 := initArea c d q s2
    have es2 : ({ s3.map e with volume := set2 (s3.map e).volume q d (0 : K) } : ML K) =
        ML.map e { s3 with volume := set2 s3.volume q d 0 } := by
      simp only [ML.map, set2_map, he.zero]
    rw [es2, visit_map he h]
    rcases visit rz d len q { s3 with volume := set2 s3.volume q d 0 } with _ | s4
    · rfl
    · have := sweepLoop_map he h c d fuel 0 len p q s4
      rw [he.zero] at this
      exact this

theorem sweep2_map (c : ℕ → ℕ → J) (s : ML J) : ∀ (fuel : ℕ) (hvol h : J) (q p : ℕ),
    sweep2 (mapC e c) (s.map e) fuel (e hvol) (e h) q p = (sweep2 c s fuel hvol h q p).map e := by
  intro fuel
  induction fuel with
  | zero => intro hvol h q p; unfold sweep2; split <;> simp [mapC, he.add, he.mul]
  | succ fuel ih =>
    intro hvol h q p
    unfold sweep2
    split
    · simp [mapC, he.add, he.mul]
    · rw [← ih]
      have e1 : e hvol + e h * (mapC e c q 1 - mapC e c p 1) = e (hvol + h * (c q 1 - c p 1)) := by
        simp [mapC, he.add, he.sub, he.mul]
      have e2 : (if mapC e c p 0 < e h then mapC e c p 0 else e h) = e (if c p 0 < h then c p 0 else h) := by
        simp only [mapC, he.lt]; split <;> rfl
      rw [e1, e2]
      rfl

theorem hvRec_map (c : ℕ → ℕ → J) (fuel : ℕ) : ∀ d, RecMap e (hvRec c fuel d) (hvRec (mapC e c) fuel d)
  | 0 => by
    intro len s
    cases len with
    | zero => simp [hvRec, pairMap, he.zero]
    | succ len =>
      simp only [hvRec]
      have : (s.map e).next = s.next := rfl
      rw [this]
      split <;> simp [pairMap, mapC, he.neg]
  | 1 => by
    intro len s
    cases len with
    | zero => simp [hvRec, pairMap, he.zero]
    | succ len =>
      simp only [hvRec]
      have hn : (s.map e).next = s.next := rfl
      rw [hn]
      split
      · rfl
      · have := sweep2_map he c s fuel 0 (c (s.next 0 1) 0) (s.next 0 1) (s.next (s.next 0 1) 1)
        rw [he.zero] at this
        have e1 : mapC e c (s.next 0 1) 0 = e (c (s.next 0 1) 0) := rfl
        rw [e1, this]
        rcases sweep2 c s fuel 0 (c (s.next 0 1) 0) (s.next 0 1) (s.next (s.next 0 1) 1) with _ | v <;>
          simp [pairMap]
  | d + 2 => by
    intro len s
    cases len with
    | zero => simp [hvRec, pairMap, he.zero]
    | succ len => exact level_map he (hvRec_map c fuel (d + 1)) c fuel (d + 2) (len + 1) s

omit he in
/-- The `argsort` of the model on the images. -/
def SortMap (e : J → K) (ar : List K → List ℕ) (az : List J → List ℕ) : Prop := ∀ l : List J, ar (l.map e) = az l

omit he in
theorem sortByDimension_map {ar : List K → List ℕ} {az : List J → List ℕ} (hs : SortMap e ar az) (c : ℕ → ℕ → J)
    (nodes : List ℕ) (i : ℕ) : sortByDimension ar (mapC e c) nodes i = sortByDimension az c nodes i := by
  unfold sortByDimension
  rw [← hs, List.map_map]
  rfl

omit he in
theorem extend_map (i : ℕ) : ∀ (nodes : List ℕ) (s : ML J), extend nodes i (s.map e) = (extend nodes i s).map e
  | [], _ => rfl
  | x :: nodes, s => extend_map i nodes (appendNode i x s)

omit he in
theorem preLoop_map {ar : List K → List ℕ} {az : List J → List ℕ} (hs : SortMap e ar az) (c : ℕ → ℕ → J) :
    ∀ (is nodes : List ℕ) (s : ML J),
    preLoop ar (mapC e c) is nodes (s.map e) = (preLoop az c is nodes s).map (ML.map e)
  | [], _, _ => rfl
  | i :: is, nodes, s => by
    unfold preLoop
    rw [sortByDimension_map hs]
    rcases sortByDimension az c nodes i with _ | out
    · rfl
    · simp only [extend_map]
      exact preLoop_map hs c is out (extend out i s)

theorem freshML_map : (freshML : ML K) = (freshML : ML J).map e := by
  unfold freshML ML.map
  simp only [he.zero, ML.mk.injEq, true_and]
  funext x
  rw [he.neg, he.nat]

theorem relevantPoints_map (d : ℕ) (front : List (ℕ → J)) (ref : ℕ → J) :
    relevantPoints d (front.map (mapP e)) (mapP e ref) = (relevantPoints d front ref).map (mapP e) := by
  unfold relevantPoints
  have h1 : (front.map (mapP e)).filter (fun p => weaklyDominates d p (mapP e ref)) =
      (front.filter (fun p => weaklyDominates d p ref)).map (mapP e) := by
    rw [List.filter_map]
    congr 1
    apply List.filter_congr
    intro p _
    simp [weaklyDominates, mapP, he.lt]
  have h0 : ∀ a : J, e a = 0 ↔ a = 0 := fun a => by rw [← he.zero, he.inj]
  have h2 : (List.range d).any (fun i => decide (mapP e ref i ≠ 0)) =
      (List.range d).any (fun i => decide (ref i ≠ 0)) := by
    simp [mapP, h0]
  simp only [h1, h2]
  split
  · rw [List.map_map, List.map_map]
    congr 1
    funext p i
    simp [mapP, he.sub]
  · rfl

theorem cargoOf_map (pts : List (ℕ → J)) : cargoOf (pts.map (mapP e)) = mapC e (cargoOf pts) := by
  funext k i
  unfold cargoOf mapC
  by_cases hk : k = 0
  · simp [hk, he.zero]
  · simp only [hk, if_false]
    by_cases h : k - 1 < pts.length
    · simp [h, mapP]
    · simp [List.getElem?_eq_none (not_lt.mp h), he.zero]

/-- The model on the images is the image of the model. -/
theorem compute_map {ar : List K → List ℕ} {az : List J → List ℕ} (hs : SortMap e ar az) (d : ℕ)
    (front : List (ℕ → J)) (ref : ℕ → J) :
    compute ar d (front.map (mapP e)) (mapP e ref) = (compute az d front ref).map e := by
  unfold compute
  cases d with
  | zero => rfl
  | succ d =>
    simp only [relevantPoints_map he, cargoOf_map he, List.length_map]
    unfold preProcess
    rw [freshML_map he, preLoop_map hs]
    rcases preLoop az (cargoOf (relevantPoints (d + 1) front ref)) (List.range (d + 1))
      ((List.range (relevantPoints (d + 1) front ref).length).map (· + 1)) freshML with _ | s
    · rfl
    · simp only [Option.map_some]
      rw [hvRec_map he]
      rcases hvRec (cargoOf (relevantPoints (d + 1) front ref)) (relevantPoints (d + 1) front ref).length
        d (relevantPoints (d + 1) front ref).length s with _ | ⟨v, s'⟩ <;> simp [pairMap]

end

end Verif.HV
