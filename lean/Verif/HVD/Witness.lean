import Verif.HVD.Hessian
import Verif.HV.Eval
import Verif.Ind.RefSetLemmas

/-!
# Evaluating the Hessian model on integer inputs

The non-dominated sort is replaced by its meaning, the rest is cast to the integers, where the kernel can run it.
-/

namespace Verif.HVD

open Verif.HV Verif.HV.Spec Verif.NDS

/-- Front 0 is in increasing order. -/
theorem front0_sorted {d fuel : ℕ} {P : List (ℕ → ℝ)} {pi : List ℕ} (hd : 2 ≤ d) (h : front0 fuel d P = some pi) :
    pi.Pairwise (· < ·) := by
  unfold front0 at h
  rw [if_neg (by omega)] at h
  dsimp only at h
  split at h
  · simp at h
  rename_i fronts hfr
  rw [Option.map_eq_some_iff] at h
  obtain ⟨⟨v, l⟩, hfind, rfl⟩ := h
  have hmem := List.mem_of_find?_eq_some hfind
  unfold nonDominSort at hfr
  rw [Option.map_eq_some_iff] at hfr
  obtain ⟨lab, -, rfl⟩ := hfr
  obtain ⟨w, -, he⟩ := List.mem_map.mp hmem
  rw [Prod.mk.injEq] at he
  rw [← he.2]
  exact List.pairwise_lt_range.filter _

/-- Dominance of integer points. -/
def domZ (d : ℕ) (p q : ℕ → ℤ) : Bool :=
  (List.range d).all (fun k => decide (p k ≤ q k)) && (List.range d).any (fun k => decide (p k < q k))

/-- Positions of the non-dominated integer points. -/
def front0Z (d : ℕ) (P : List (ℕ → ℤ)) : List ℕ :=
  (List.range P.length).filter fun i =>
    (List.range P.length).all fun j => !domZ d (P.getD j (fun _ => 0)) (P.getD i (fun _ => 0))

theorem ptOf_castP {P : List (ℕ → ℤ)} {i : ℕ} : ptOf (P.map castP) i = castP (P.getD i (fun _ => 0)) := by
  unfold ptOf
  rw [List.getD_eq_getElem?_getD, List.getD_eq_getElem?_getD, List.getElem?_map]
  rcases P[i]? with _ | p
  · funext k; simp [castP]
  · simp

theorem domZ_iff {d : ℕ} {p q : ℕ → ℤ} : domZ d p q = true ↔ Dom d (castP p) (castP q) := by
  unfold domZ Dom
  simp [castP]

theorem front0_cast {d fuel : ℕ} (hd : 2 ≤ d) {P : List (ℕ → ℤ)} (hP : P ≠ []) (hf : depthBound d P.length ≤ fuel) :
    front0 fuel d (P.map castP) = some (front0Z d P) := by
  obtain ⟨pi, hpi, hF⟩ := front0_spec (d := d) (fuel := fuel) (P := P.map castP) (by omega) (by simpa using hP)
    (by simpa using hf)
  rw [hpi, Option.some.injEq]
  refine List.Perm.eq_of_pairwise (le := (· < ·)) (fun a b _ _ h1 h2 => absurd h1 (by omega)) (front0_sorted hd hpi)
    (List.pairwise_lt_range.filter _) ?_
  refine (List.perm_ext_iff_of_nodup hF.nodup (List.nodup_range.filter _)).mpr fun i => ?_
  constructor
  · intro hi
    have hv := hF.valid i hi
    rw [List.length_map] at hv
    refine List.mem_filter.mpr ⟨List.mem_range.mpr hv, ?_⟩
    rw [List.all_eq_true]
    intro j hj
    rw [List.mem_range] at hj
    have := hF.minimal i hi j (by simpa using hj)
    rw [ptOf_castP, ptOf_castP, ← domZ_iff] at this
    simpa using this
  · intro hi
    obtain ⟨hv, hall⟩ := List.mem_filter.mp hi
    rw [List.mem_range] at hv
    rw [List.all_eq_true] at hall
    refine hF.all hd i (by simpa using hv) fun j hj hdom => ?_
    rw [List.length_map] at hj
    have := hall j (List.mem_range.mpr hj)
    rw [ptOf_castP, ptOf_castP, ← domZ_iff] at hdom
    rw [hdom] at this
    simp at this

/-- `project` on integer points. -/
def projectZ (d axis i : ℕ) (P : List (ℕ → ℤ)) (ref : ℕ → ℤ) : Projection ℤ :=
  let y := P.getD i (fun _ => 0)
  let idx := (List.range P.length).filter (fun j => decide (P.getD j (fun _ => 0) axis < y axis))
  let front := (sel P idx).map (dropAt axis)
  let pi := front0Z (d - 1) front
  ⟨dropAt axis y, sel front pi, dropAt axis ref, sel idx pi⟩

theorem sel_map {α β : Type*} (f : α → β) (a : List α) (idx : List ℕ) : sel (a.map f) idx = (sel a idx).map f := by
  unfold sel
  rw [List.map_filterMap]
  congr 1
  funext i
  simp

theorem project_cast {d fuel k i : ℕ} (hd : 3 ≤ d) {P : List (ℕ → ℤ)} {ref : ℕ → ℤ} (hi : i < P.length)
    (hf : depthBound d P.length ≤ fuel) :
    project fuel d k i (P.map castP) (castP ref) = some ⟨castP (projectZ d k i P ref).y,
      (projectZ d k i P ref).front.map castP, castP (projectZ d k i P ref).ref, (projectZ d k i P ref).idx⟩ := by
  have hidx : ((List.range (P.map castP).length).filter fun j =>
      (P.map castP)[j]?.any fun p => decide (p k < castP (P.getD i (fun _ => 0)) k)) =
      (List.range P.length).filter (fun j => decide (P.getD j (fun _ => 0) k < P.getD i (fun _ => 0) k)) := by
    rw [List.length_map]
    apply List.filter_congr
    intro j hj
    rw [List.mem_range] at hj
    simp [hj, castP]
  have hdrop : ∀ p : ℕ → ℤ, dropAt k (castP p) = castP (dropAt k p) := by
    intro p
    funext q
    simp only [dropAt, castP]
    split_ifs <;> rfl
  have hfront : ∀ idx, (sel (P.map castP) idx).map (dropAt k) = ((sel P idx).map (dropAt k)).map castP := by
    intro idx
    rw [sel_map, List.map_map, List.map_map]
    congr 1
    funext p
    exact hdrop p
  have hy : (P.map castP)[i]? = some (castP (P.getD i (fun _ => 0))) := by
    simp [hi]
  unfold project
  rw [hy]
  dsimp only
  rw [hidx, hfront]
  unfold projectZ
  dsimp only
  set idx := (List.range P.length).filter (fun j => decide (P.getD j (fun _ => 0) k < P.getD i (fun _ => 0) k))
    with hidxdef
  by_cases hnil : (sel P idx).map (dropAt k) = []
  · rw [hnil]
    simp [hdrop, sel, front0Z]
  · rw [if_neg (by simpa using hnil), front0_cast (by omega) hnil]
    · dsimp only
      rw [hdrop, hdrop, sel_map]
    · refine le_trans (depthBound_mono (by omega) ?_) hf
      rw [List.length_map]
      refine le_trans (List.length_filterMap_le _ _) ?_
      refine le_trans (List.length_filter_le _ _) ?_
      simp

/-- One entry of the gradient on integer points. -/
def entryZ (az : List ℤ → List ℕ) (d : ℕ) (P : List (ℕ → ℤ)) (ref : ℕ → ℤ) (i k : ℕ) : Option ℤ :=
  let pr := projectZ d k i P ref
  (compute az (d - 1) (pr.y :: pr.front) pr.ref).bind fun a =>
    (compute az (d - 1) pr.front pr.ref).map fun b => -1 * (a - b)

theorem dYEntry_cast {ar : List ℝ → List ℕ} {az : List ℤ → List ℕ} (hs : SortCast ar az) {d fuel k i : ℕ} (hd : 3 ≤ d) {P : List (ℕ → ℤ)} {ref : ℕ → ℤ} (hi : i < P.length)
    (hf : depthBound d P.length ≤ fuel) :
    dYEntry ar fuel d (P.map castP) (castP ref) i k = (entryZ az d P ref i k).map (fun v : ℤ => (v : ℝ)) := by
  unfold dYEntry
  rw [project_cast hd hi hf]
  dsimp only
  unfold hypervolumeImprovement hypervolume entryZ
  rw [← List.map_cons, compute_cast hs, compute_cast hs]
  dsimp only
  rcases compute az (d - 1) ((projectZ d k i P ref).y :: (projectZ d k i P ref).front)
    (projectZ d k i P ref).ref with _ | a
  · rfl
  · rcases compute az (d - 1) (projectZ d k i P ref).front (projectZ d k i P ref).ref with _ | b
    · rfl
    · simp

/-- The clipped projected front on integer points. -/
def clippedZ (d k i : ℕ) (P : List (ℕ → ℤ)) (ref : ℕ → ℤ) : List (ℕ → ℤ) :=
  (projectZ d k i P ref).front.map (clip (projectZ d k i P ref).y (projectZ d k i P ref).ref)

theorem clip_cast (lo hi a : ℕ → ℤ) : clip (castP lo) (castP hi) (castP a) = castP (clip lo hi a) := by
  funext j
  simp [clip, castP]

/-- An entry of the Hessian in a row of another point, on integer points: if the code returns, the entry is that of
the gradient at the clipped points. -/
theorem hessianY_entry_cast {ar : List ℝ → List ℕ} {az : List ℤ → List ℕ} (hs' : SortCast ar az) {d fuel i k j m : ℕ}
    (hd : 4 ≤ d) {P : List (ℕ → ℤ)} {ref : ℕ → ℤ} (hi : i < P.length)
    (hk : k < d) (hm : m < d) (hmk : m ≠ k) (hf : depthBound d P.length ≤ fuel)
    {H : List (List (ℕ → ℕ → ℝ))} (hH : hessianY ar fuel d (P.map castP) (castP ref) = some H)
    (hin : i ∈ front0Z d P) (hj : j ∈ (projectZ d k i P ref).idx)
    (hsl : (projectZ d k i P ref).idx.idxOf j < (projectZ d k i P ref).front.length)
    (hle : (projectZ d k i P ref).front.length ≤ P.length)
    (hlt : P.getD i (fun _ => 0) m ≤ ((projectZ d k i P ref).front.getD ((projectZ d k i P ref).idx.idxOf j)
      (fun _ => 0)) (sIdx k m))
    {v : ℤ} (hv : entryZ az (d - 1) (clippedZ d k i P ref) (dropAt k ref) ((projectZ d k i P ref).idx.idxOf j)
      (sIdx k m) = some v) : entryH H j m i k = v := by
  have hP : P ≠ [] := by rintro rfl; simp at hi
  unfold hessianY at hH
  rw [front0_cast (by omega) hP hf] at hH
  dsimp only at hH
  obtain ⟨-, hrow⟩ := Ind.mapM_eq_some.mp hH
  have hri := hrow i (by simpa using hi)
  rw [List.getElem_range] at hri
  unfold entryH
  rw [List.getD_eq_getElem?_getD (l := H), ← hri]
  cases hR : (List.range d).mapM (fun k => hessianColumn ar fuel d (P.map castP) (castP ref)
      (front0Z d P) i k) with
  | none =>
    rw [hR] at hri
    have hl := (Ind.mapM_eq_some.mp hH).1
    have : i < H.length := by rw [hl]; simpa using hi
    rw [List.getElem?_eq_getElem this] at hri
    simp at hri
  | some R =>
    obtain ⟨hRl, hcol⟩ := Ind.mapM_eq_some.mp hR
    rw [List.length_range] at hRl
    have hck := hcol k (by simpa using hk)
    rw [List.getElem_range, List.getElem?_eq_getElem (by omega)] at hck
    rw [Option.getD_some, List.getD_eq_getElem _ _ (by omega)]
    generalize R[k] = c at hck
    unfold hessianColumn at hck
    rw [if_neg (by simpa using hin), project_cast (by omega) hi hf] at hck
    dsimp only at hck
    split at hck
    · simp at hck
    rename_i own hown
    split at hck
    · simp at hck
    rename_i cross hcross
    simp only [Option.some.injEq] at hck
    rw [← hck]
    dsimp only
    rw [if_pos hj]
    unfold crossBlock at hcross
    dsimp only at hcross
    split at hcross
    · simp at hcross
    rename_i out hout
    simp only [Option.some.injEq] at hcross
    rw [← hcross]
    set s := (projectZ d k i P ref).idx.idxOf j with hs
    rw [List.getD_eq_getElem _ _ (by simpa using hsl), List.getElem_map, List.getElem_range, insertAt_sIdx hmk,
      if_neg]
    swap
    · have e := ptOf_castP (P := (projectZ d k i P ref).front) (i := s)
      unfold ptOf at e
      rw [e]
      have hy : (projectZ d k i P ref).y (sIdx k m) = P.getD i (fun _ => 0) m := dropAt_sIdx hmk _
      simp only [castP, Int.cast_lt, not_lt]
      rw [hy]
      exact hlt
    have hcl : ((projectZ d k i P ref).front.map castP).map (clip (castP (projectZ d k i P ref).y)
        (castP (projectZ d k i P ref).ref)) = (clippedZ d k i P ref).map castP := by
      unfold clippedZ
      rw [List.map_map, List.map_map]
      congr 1
      funext p
      exact clip_cast _ _ _
    rw [hcl] at hout
    unfold hypervolumeDY at hout
    rw [if_neg (by omega), if_neg (by omega)] at hout
    have hcll : (clippedZ d k i P ref).length = (projectZ d k i P ref).front.length := by simp [clippedZ]
    obtain ⟨hol, horow⟩ := Ind.mapM_eq_some.mp hout
    rw [List.length_range, List.length_map, hcll] at hol
    have ho := horow s (by simpa [hcll] using hsl)
    rw [List.getElem_range, List.getElem?_eq_getElem (by omega), Option.map_eq_some_iff] at ho
    obtain ⟨r, hr, hr2⟩ := ho
    obtain ⟨hrl, hre⟩ := Ind.mapM_eq_some.mp hr
    rw [List.length_range] at hrl
    have hsm : sIdx k m < d - 1 := by unfold sIdx; split_ifs <;> omega
    have he := hre (sIdx k m) (by simpa using hsm)
    rw [List.getElem_range, List.getElem?_eq_getElem (by omega)] at he
    rw [List.getD_eq_getElem _ _ (by omega), ← hr2, pt, List.getD_eq_getElem _ _ (by omega)]
    have href : (projectZ d k i P ref).ref = dropAt k ref := rfl
    rw [href, dYEntry_cast hs' (by omega) (by omega), hv] at he
    · simpa using he.symm
    · rw [hcll]
      exact (depthBound_mono (by omega) hle).trans hf

end Verif.HVD
