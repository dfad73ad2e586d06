import Verif.HVD.Total
import Verif.HV.Eval

/-!
# C68: the hypervolume and its derivatives return a value on every input

`none` in the models is an exception, a cargo read from the sentinel of the multi-list, or a loop that does not end. The
theorems hold over every ordered field and for every way of breaking ties in `np.argsort`.
-/

namespace Verif.Props

open Verif.HV Verif.HVD

variable {K : Type*} [Field K] [LinearOrder K] [IsStrictOrderedRing K] {argsort : List K → List ℕ}

/-- C68: `hypervolume` returns for every list of points (also with ties, duplicates, dominated points and points outside
the reference box, where its value may be wrong), every reference point and every number of objectives. -/
theorem C68_hypervolume (ha : IsArgsort argsort) {d : ℕ} (hd : 0 < d) (points : List (ℕ → K)) (ref : ℕ → K) :
    ∃ v, hypervolume argsort d points ref = some v :=
  compute_total ha hd points ref

/-- A doubly linked ring: following `nx` from the sentinel `0` visits `l` and comes back, `pv` undoes it. -/
def RingOf (nx pv : ℕ → ℕ) (l : List ℕ) : Prop :=
  ∀ a b, (∃ u v, 0 :: (l ++ [0]) = u ++ a :: b :: v) → nx a = b ∧ pv b = a

theorem isRing_of_ringOf {nx pv : ℕ → ℕ} {l : List ℕ} (h : RingOf nx pv l) : IsRing nx pv l := by
  unfold RingOf at h
  unfold IsRing
  generalize 0 :: (l ++ [0]) = m at h ⊢
  induction m with
  | nil => exact List.IsChain.nil
  | cons a m ih =>
    cases m with
    | nil => exact List.IsChain.singleton _
    | cons b m =>
      rw [List.isChain_cons_cons]
      exact ⟨h a b ⟨[], m, rfl⟩, ih fun a' b' ⟨u, v, e⟩ => h a' b' ⟨a :: u, v, by rw [e]; rfl⟩⟩

/-- C68: the recursion takes nodes out of the lists and puts them back: if the lists `0, …, d` run through the same
nodes, then the call for `d` returns and leaves every link as it was, whatever the values, the flags, the stored areas
and volumes and the bounds are. -/
theorem C68_links (c : ℕ → ℕ → K) {d fuel : ℕ} (s : ML K) (nodes : Finset ℕ) (l : ℕ → List ℕ) (h0 : 0 ∉ nodes)
    (hl : ∀ i ≤ d, (l i).Nodup ∧ (l i).toFinset = nodes ∧ RingOf (s.next · i) (s.prev · i) (l i))
    (hfuel : nodes.card ≤ fuel) :
    ∃ v s', hvRec c fuel d nodes.card s = some (v, s') ∧ s'.next = s.next ∧ s'.prev = s.prev := by
  rcases nodes.eq_empty_or_nonempty with rfl | hne
  · refine ⟨0, s, ?_, rfl, rfl⟩
    rw [Finset.card_empty]
    rcases d with _ | _ | d <;> rfl
  · let X : Lists :=
      { D := d + 1
        N := nodes
        G := l
        zero_notMem := h0
        mem_G := fun i hi z => by rw [← (hl i (by omega)).2.1, List.mem_toFinset]
        nodup_G := fun i hi => (hl i (by omega)).1 }
    refine Lists.hvRec_links (X := X) c fuel hfuel d (Nat.lt_succ_self d) nodes s le_rfl hne fun i hi => ?_
    have : X.L i nodes = l i := by
      rw [Lists.L, List.filter_eq_self]
      intro a ha
      rw [decide_eq_true_eq, ← (hl i hi).2.1, List.mem_toFinset]
      exact ha
    rw [this]
    exact isRing_of_ringOf (hl i hi).2.2

/-- C68: the gradient call returns for every non-empty population, all objective values (given by the caller or
evaluated), Jacobians and reference points, in minimization and maximization, if the recursion limit suffices for the
non-dominated sorting. -/
theorem C68_gradient (ha : IsArgsort argsort) {p : Problem K} {fuel : ℕ} {X : List (ℕ → K)} (hd : 1 ≤ p.nObj)
    (hX : X ≠ []) {Y : Option (List (ℕ → K))} (hY : ∀ y, Y = some y → y.length = X.length)
    (YdX : Option (ℕ → ℕ → ℕ → K)) (hf : NDS.depthBound p.nObj X.length ≤ fuel) :
    ∃ r, p.computeGradient argsort fuel X Y YdX = some r :=
  p.computeGradient_total ha hd hX hY YdX hf

/-- C68: so does the Hessian call, for two and more objectives. -/
theorem C68_hessian (ha : IsArgsort argsort) {p : Problem K} {fuel : ℕ} {X : List (ℕ → K)} (hd : 2 ≤ p.nObj)
    (hX : X ≠ []) {Y : Option (List (ℕ → K))} (hY : ∀ y, Y = some y → y.length = X.length)
    (YdX : Option (ℕ → ℕ → ℕ → K)) (hf : NDS.depthBound p.nObj X.length ≤ fuel) :
    ∃ r, p.computeHessian argsort fuel X Y YdX = some r :=
  p.computeHessian_total ha hd hX hY YdX hf

/-- C68: for an empty population the hypervolume is zero and the gradient call raises. -/
theorem C68_empty (p : Problem K) (fuel : ℕ) {d : ℕ} (hd : 0 < d) (ref : ℕ → K) (ha : IsArgsort argsort) :
    hypervolume argsort d [] ref = some 0 ∧ p.computeGradient argsort fuel [] none none = none := by
  refine ⟨?_, ?_⟩
  · obtain ⟨v, hv⟩ := compute_total ha hd [] ref
    obtain ⟨D, rfl⟩ : ∃ D, d = D + 1 := ⟨d - 1, by omega⟩
    unfold hypervolume
    rw [hv]
    unfold compute at hv
    have hr : relevantPoints (D + 1) ([] : List (ℕ → K)) ref = [] := by simp [relevantPoints]
    dsimp only at hv
    rw [hr] at hv
    cases hp : preProcess argsort (cargoOf ([] : List (ℕ → K))) (D + 1) ([] : List (ℕ → K)).length with
    | none => rw [hp] at hv; exact absurd hv (by simp)
    | some s =>
      rw [hp] at hv
      rcases D with _ | _ | D <;> exact hv.symm
  · simp only [Problem.computeGradient, gradientY, front0, Option.getD_none, List.map_nil]
    by_cases h : p.nObj = 1 <;> simp [h, NDS.nonDominSort, NDS.frontLabels]

/-! ### Examples -/

/-- Equal, dominated and outside points with four objectives. -/
example : ∃ v, hypervolume stableArgsort 4
    [pt [1, 1, 2, 0], pt [1, 1, 2, 0], pt [1, 2, 2, 0], pt [0, 1, 9, 0], pt [3, 0, 0, (1 : ℚ)]] (pt [3, 3, 3, 1]) =
    some v :=
  C68_hypervolume stableArgsort_isArgsort (by norm_num) _ _

/-- The links of two lists through the nodes `1, 2` in opposite orders. -/
example : ∃ v s', hvRec (K := ℚ) (fun _ _ => 0) 2 1 2
    { next := fun a i => if i = 0 then (if a = 0 then 1 else if a = 1 then 2 else 0)
        else (if a = 0 then 2 else if a = 2 then 1 else 0)
      prev := fun a i => if i = 0 then (if a = 0 then 2 else if a = 2 then 1 else 0)
        else (if a = 0 then 1 else if a = 1 then 2 else 0)
      ignore := fun _ => 5, area := fun _ _ => 7, volume := fun _ _ => -1, bounds := fun _ => 3 } = some (v, s') := by
  obtain ⟨v, s', h, -⟩ := C68_links (K := ℚ) (d := 1) (fuel := 2) (fun _ _ => 0)
    { next := fun a i => if i = 0 then (if a = 0 then 1 else if a = 1 then 2 else 0)
        else (if a = 0 then 2 else if a = 2 then 1 else 0)
      prev := fun a i => if i = 0 then (if a = 0 then 2 else if a = 2 then 1 else 0)
        else (if a = 0 then 1 else if a = 1 then 2 else 0)
      ignore := fun _ => 5, area := fun _ _ => 7, volume := fun _ _ => -1, bounds := fun _ => 3 }
    {1, 2} (fun i => if i = 0 then [1, 2] else [2, 1]) (by decide) (by
      intro i hi
      have h2 : ∀ (x y z w a b : ℕ) (u v : List ℕ), [x, y, z, w] = u ++ a :: b :: v →
          (a = x ∧ b = y) ∨ (a = y ∧ b = z) ∨ (a = z ∧ b = w) := by
        intro x y z w a b u v e
        match u, e with
        | [], e => simp at e; exact Or.inl ⟨e.1.symm, e.2.1.symm⟩
        | [_], e => simp at e; exact Or.inr (Or.inl ⟨e.2.1.symm, e.2.2.1.symm⟩)
        | [_, _], e => simp at e; exact Or.inr (Or.inr ⟨e.2.2.1.symm, e.2.2.2.1.symm⟩)
        | _ :: _ :: _ :: u, e =>
          have := congrArg List.length e
          simp at this
          omega
      interval_cases i
      · refine ⟨by decide, by decide, ?_⟩
        rintro a b ⟨u, v, e⟩
        rcases h2 _ _ _ _ _ _ _ _ e with ⟨rfl, rfl⟩ | ⟨rfl, rfl⟩ | ⟨rfl, rfl⟩ <;> simp
      · refine ⟨by decide, by decide, ?_⟩
        rintro a b ⟨u, v, e⟩
        rcases h2 _ _ _ _ _ _ _ _ e with ⟨rfl, rfl⟩ | ⟨rfl, rfl⟩ | ⟨rfl, rfl⟩ <;> simp) (by decide)
  exact ⟨v, s', h⟩

/-- Three objectives of two variables, two equal points. -/
def totalProblem : Problem ℚ where
  nVar := 2
  nObj := 3
  ref := pt [1, 1, 1]
  func := fun x => pt [x 0, x 1, x 0 * x 1]
  jac := fun x => fun k v => pt (if k = 0 then [1, 0] else if k = 1 then [0, 1] else [x 1, x 0]) v
  hess := fun _ k v w => if k = 2 ∧ v ≠ w then 1 else 0
  minimization := true

example : (∃ r, totalProblem.computeGradient stableArgsort 50 [pt [1, 2], pt [1, 2], pt [0, 0]] none none = some r) ∧
    ∃ r, totalProblem.computeHessian stableArgsort 50 [pt [1, 2], pt [1, 2], pt [0, 0]] none none = some r := by
  refine ⟨C68_gradient stableArgsort_isArgsort (by decide) (by simp) (by simp) _ ?_,
    C68_hessian stableArgsort_isArgsort (by decide) (by simp) (by simp) _ ?_⟩ <;>
  decide

end Verif.Props
