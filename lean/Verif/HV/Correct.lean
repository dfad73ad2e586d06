import Verif.HV.Rec
import Verif.HV.Measure

/-!
# From the multi-list to the measure of the dominated region
-/

namespace Verif.HV

open MeasureTheory

/-- Condition under which `HyperVolume.compute` is exact. With at most three objectives only `range`
says anything. -/
structure Admissible (d : ℕ) (front : List (ℕ → ℝ)) (ref : ℕ → ℝ) : Prop where
  /-- The distances to the reference point stay in the range of `bounds` (hypervolume.py 58). -/
  range : ∀ p ∈ front, (∀ i < d, p i ≤ ref i) → ∀ i, 2 ≤ i → i < d → ref i - p i ≤ 10 ^ 308
  /-- With four or more objectives no two relevant points agree in all of the first three. -/
  triple : 4 ≤ d → (front.filter (fun p => weaklyDominates d p ref)).Pairwise
    (fun p q => p 0 = q 0 → p 1 = q 1 → p 2 ≠ q 2)
  /-- In the objectives `3, …, d - 2` no two relevant points share a value (nothing for `d ≤ 4`). -/
  tie : ∀ j, 3 ≤ j → j + 2 ≤ d →
    (front.filter (fun p => weaklyDominates d p ref)).Pairwise (fun p q => p j ≠ q j)
  /-- With seven or more objectives the relevant points are strictly below the reference point in all
  objectives except the last. -/
  below : 7 ≤ d → ∀ p ∈ front, (∀ i < d, p i ≤ ref i) → ∀ i, i + 2 ≤ d → p i < ref i

theorem weaklyDominates_iff {K : Type*} [Zero K] [One K] [Add K] [Sub K] [Neg K] [Mul K] [NatCast K] [LinearOrder K]
    (d : ℕ) (p q : ℕ → K) :
    weaklyDominates d p q = true ↔ ∀ i < d, p i ≤ q i := by
  simp [weaklyDominates]

/-- The points handed to `preProcess` are the relevant ones minus the reference point. -/
theorem relevantPoints_spec (d : ℕ) (front : List (ℕ → ℝ)) (ref : ℕ → ℝ) :
    ∃ f : (ℕ → ℝ) → (ℕ → ℝ), (∀ p, ∀ i < d, f p i = p i - ref i) ∧
      relevantPoints d front ref = (front.filter (fun p => weaklyDominates d p ref)).map f := by
  by_cases h : (List.range d).any (fun i => decide (ref i ≠ 0)) = true
  · exact ⟨fun p i => p i - ref i, fun _ _ _ => rfl, by simp only [relevantPoints, h, if_true]⟩
  · refine ⟨fun p => p, ?_, by simp only [relevantPoints, h]; simp⟩
    intro p i hi
    simp at h
    simp [h i hi]

theorem hvol_eq_relevant (d : ℕ) (front : List (ℕ → ℝ)) (ref : ℕ → ℝ) (f : (ℕ → ℝ) → (ℕ → ℝ))
    (hf : ∀ p, ∀ i < d, f p i = p i - ref i) :
    Spec.hvol d front ref =
      Spec.hvol d ((front.filter (fun p => weaklyDominates d p ref)).map f) (fun _ => 0) := by
  unfold Spec.hvol
  congr 1
  have hpre : Spec.region d ((front.filter (fun p => weaklyDominates d p ref)).map f) (fun _ => 0) =
      (fun x => (fun i : Fin d => ref i) + x) ⁻¹' Spec.region d front ref := by
    ext x
    simp only [Spec.region, Set.mem_ofPred_eq, Set.mem_preimage, Pi.add_apply, List.mem_map,
      List.mem_filter]
    constructor
    · rintro ⟨⟨_, ⟨p, ⟨hp, -⟩, rfl⟩, h⟩, h0⟩
      refine ⟨⟨p, hp, fun i => ?_⟩, fun i => by linarith [h0 i]⟩
      have := h i
      rw [hf p i i.2] at this
      linarith
    · rintro ⟨⟨p, hp, h⟩, h0⟩
      refine ⟨⟨f p, ⟨p, ⟨hp, ?_⟩, rfl⟩, fun i => ?_⟩, fun i => by linarith [h0 i]⟩
      · rw [weaklyDominates_iff]
        intro i hi
        have h1 := h ⟨i, hi⟩
        have h2 := h0 ⟨i, hi⟩
        simp only at h1 h2
        linarith
      · rw [hf p i i.2]; linarith [h i]
  rw [hpre, measure_preimage_add]

theorem cargoOf_succ (pts : List (ℕ → ℝ)) (k : ℕ) (hk : k < pts.length) (i : ℕ) :
    cargoOf pts (k + 1) i = pts[k] i := by
  simp [cargoOf, hk]

/-- The nodes `1, …, n`. -/
def nodeSet (n : ℕ) : Finset ℕ := ((List.range n).map (· + 1)).toFinset

theorem mem_nodeSet {n z : ℕ} : z ∈ nodeSet n ↔ ∃ k < n, z = k + 1 := by
  simp [nodeSet, eq_comm]

theorem card_nodeSet (n : ℕ) : (nodeSet n).card = n := by
  rw [nodeSet, List.toFinset_card_of_nodup (List.nodup_range.map (fun a b h => by simpa using h))]
  simp

theorem vol_nodeSet (d : ℕ) (pts : List (ℕ → ℝ)) :
    vol (cargoOf pts) d (nodeSet pts.length) = Spec.hvol d pts (fun _ => 0) := by
  unfold vol Spec.hvol
  congr 2
  ext x
  simp only [U, Spec.region, Set.mem_ofPred_eq]
  refine and_congr_left fun _ => ?_
  constructor
  · rintro ⟨z, hz, h⟩
    obtain ⟨k, hk, rfl⟩ := mem_nodeSet.mp hz
    exact ⟨pts[k], List.getElem_mem hk, fun i => by have := h i; rwa [cargoOf_succ pts k hk] at this⟩
  · rintro ⟨p, hp, h⟩
    obtain ⟨k, hk, rfl⟩ := List.getElem_of_mem hp
    exact ⟨k + 1, mem_nodeSet.mpr ⟨k, hk, rfl⟩, fun i => by rw [cargoOf_succ pts k hk]; exact h i⟩

/-- `compute` returns the measure of the dominated region. -/
theorem compute_correct {argsort : List ℝ → List ℕ} (ha : IsArgsort argsort) {d : ℕ} (hd : 0 < d)
    {front : List (ℕ → ℝ)} {ref : ℕ → ℝ} (h : Admissible d front ref) :
    compute argsort d front ref = some (Spec.hvol d front ref) := by
  obtain ⟨D, rfl⟩ : ∃ D, d = D + 1 := ⟨d - 1, by omega⟩
  obtain ⟨f, hf, hrel⟩ := relevantPoints_spec (D + 1) front ref
  set rel := front.filter (fun p => weaklyDominates (D + 1) p ref) with hreldef
  set pts := rel.map f with hpts
  have hmem : ∀ p ∈ rel, p ∈ front ∧ ∀ i < D + 1, p i ≤ ref i := by
    intro p hp
    rw [hreldef, List.mem_filter, weaklyDominates_iff] at hp
    exact hp
  have hlen : pts.length = rel.length := by simp [hpts]
  have hcargo : ∀ z ∈ nodeSet pts.length, ∃ p ∈ rel, ∀ i < D + 1, cargoOf pts z i = p i - ref i := by
    intro z hz
    obtain ⟨k, hk, rfl⟩ := mem_nodeSet.mp hz
    refine ⟨rel[k]'(by omega), List.getElem_mem _, fun i hi => ?_⟩
    rw [cargoOf_succ pts k hk]
    rw [List.getElem_map, hf _ i hi]
  have hneg : ∀ z ∈ nodeSet pts.length, ∀ i < D + 1, cargoOf pts z i ≤ 0 := by
    intro z hz i hi
    obtain ⟨p, hp, h1⟩ := hcargo z hz
    rw [h1 i hi]; linarith [(hmem p hp).2 i hi]
  obtain ⟨G, s, hpre, hG, hflag, harea, hb⟩ := preProcess_spec ha (cargoOf pts) (D + 1) pts.length
  have hGmem : ∀ i < D + 1, ∀ z, z ∈ G i ↔ z ∈ nodeSet pts.length := by
    intro i hi z
    rw [(hG i hi).1.mem_iff, nodeSet, List.mem_toFinset]
  let X : Ctx ℝ :=
    { c := cargoOf pts
      D := D + 1
      N := nodeSet pts.length
      G := G
      V := vol (cargoOf pts)
      zero_notMem := by intro h0; obtain ⟨k, -, hk⟩ := mem_nodeSet.mp h0; omega
      mem_G := hGmem
      nodup_G := fun i hi => (hG i hi).1.nodup_iff.mpr
        (List.nodup_range.map (fun a b h => by simpa using h))
      sorted_G := fun i hi => (hG i hi).2.1
      V_empty := vol_empty
      V_zero := vol_zero
      V_slab := fun d A x hd _ hx hA => vol_slab d A x (hneg x hx d hd) hA
      V_le := fun d A x hd _ hx hle => vol_le d A x (fun i hi => hneg x hx i (by omega)) hle
      V_dom := fun d A x _ _ => vol_dom d A x
      V_mono := fun d A B h => vol_mono d h
      neg := hneg
      triple := by
        intro h4 a ha b hb h0 h1 h2
        obtain ⟨k, hk, rfl⟩ := mem_nodeSet.mp ha
        obtain ⟨m, hm, rfl⟩ := mem_nodeSet.mp hb
        rw [cargoOf_succ pts k hk, cargoOf_succ pts m hm, List.getElem_map, List.getElem_map,
          hf _ _ (by omega), hf _ _ (by omega), sub_left_inj] at h0 h1 h2
        have hp := List.pairwise_iff_getElem.mp (h.triple h4)
        rw [← hreldef] at hp
        rcases lt_trichotomy k m with hkm | hkm | hkm
        · exact absurd h2 (hp k m (by omega) (by omega) hkm h0 h1)
        · rw [hkm]
        · exact absurd h2.symm (hp m k (by omega) (by omega) hkm h0.symm h1.symm)
      tie := by
        intro j hj1 hj2 a ha b hb hab
        have hj : j < D + 1 := by omega
        obtain ⟨k, hk, rfl⟩ := mem_nodeSet.mp ha
        obtain ⟨m, hm, rfl⟩ := mem_nodeSet.mp hb
        rw [cargoOf_succ pts k hk, cargoOf_succ pts m hm, List.getElem_map, List.getElem_map,
          hf _ j hj, hf _ j hj, sub_left_inj] at hab
        have hp := List.pairwise_iff_getElem.mp (h.tie j hj1 hj2)
        rw [← hreldef] at hp
        rcases lt_trichotomy k m with hkm | hkm | hkm
        · exact absurd hab (hp k m (by omega) (by omega) hkm)
        · rw [hkm]
        · exact absurd hab.symm (hp m k (by omega) (by omega) hkm)
      null := by
        intro h4 q hq i hi
        have hi' : i < D + 1 := by omega
        obtain ⟨p, hp, h1⟩ := hcargo q hq
        rw [h1 i hi']
        have := h.below h4 p (hmem p hp).1 (hmem p hp).2 i hi
        linarith }
  have hcard : X.N.card = pts.length := card_nodeSet _
  obtain ⟨s', hs'⟩ := Ctx.hvRec_total (X := X) (D := D) rfl s (fun i hi => (hG i hi).2.2) hflag harea
    (by
      intro j hj1 hj2 q hq
      obtain ⟨p, hp, h1⟩ := hcargo q hq
      rw [hb, Nat.cast_pow, Nat.cast_ofNat]
      show _ ≤ cargoOf pts q j
      rw [h1 j hj2]
      have := h.range p (hmem p hp).1 (hmem p hp).2 j hj1 hj2
      generalize (10 : ℝ) ^ 308 = B at *
      linarith)
  rw [hcard] at hs'
  have hval : X.V (D + 1) X.N = Spec.hvol (D + 1) front ref := by
    rw [hvol_eq_relevant (D + 1) front ref f hf]
    exact vol_nodeSet (D + 1) pts
  rw [hval] at hs'
  have hs'' : hvRec (cargoOf pts) pts.length D pts.length s = some (Spec.hvol (D + 1) front ref, s') :=
    hs'
  unfold compute
  simp only [hrel, hpre, hs'']

end Verif.HV
