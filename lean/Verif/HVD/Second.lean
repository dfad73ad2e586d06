import Verif.HVD.Partial

/-!
# Second partial derivatives
-/

namespace Verif.HVD

open Verif.HV Verif.HV.Spec

/-- Position of coordinate `m` after coordinate `k` has been dropped. -/
def sIdx (k m : ℕ) : ℕ := if m < k then m else m - 1

theorem dropAt_update {k m : ℕ} (h : m ≠ k) (a : ℕ → ℝ) (t : ℝ) :
    dropAt k (Function.update a m t) = Function.update (dropAt k a) (sIdx k m) t := by
  ext j
  unfold sIdx
  by_cases h1 : m < k
  · rw [if_pos h1]
    by_cases h2 : j = m
    · subst h2; simp [dropAt, h1]
    · rw [Function.update_of_ne h2]
      unfold dropAt
      by_cases h3 : j < k
      · simp [h3, h2]
      · simp [h3, show j + 1 ≠ m by omega]
  · rw [if_neg h1]
    by_cases h2 : j = m - 1
    · subst h2
      have h3 : ¬ m - 1 < k := by omega
      have h4 : m - 1 + 1 = m := by omega
      simp [dropAt, h3, h4]
    · rw [Function.update_of_ne h2]
      unfold dropAt
      by_cases h3 : j < k
      · simp [h3, show j ≠ m by omega]
      · simp [h3, show j + 1 ≠ m by omega]

theorem dropAt_sIdx {K : Type*} {k m : ℕ} (h : m ≠ k) (a : ℕ → K) : dropAt k a (sIdx k m) = a m := by
  unfold dropAt sIdx
  by_cases h1 : m < k
  · simp [h1]
  · have h2 : ¬ m - 1 < k := by omega
    have h3 : m - 1 + 1 = m := by omega
    simp [h1, h2, h3]

theorem insertAt_sIdx {K : Type*} [Zero K] {k m : ℕ} (h : m ≠ k) (a : ℕ → K) :
    insertAt k a m = a (sIdx k m) := by
  unfold insertAt sIdx
  by_cases h1 : m < k
  · simp [h1]
  · simp [h1, h]

theorem sIdx_le {k m n : ℕ} (hk : k ≤ n + 1) (hm : m ≤ n + 1) (_ : m ≠ k) : sIdx k m ≤ n := by
  unfold sIdx; split_ifs <;> omega

/-- The projections along `k` of the points that are lower than point `i` in objective `k`. -/
noncomputable def below (Y : List (ℕ → ℝ)) (i k : ℕ) : List (ℕ → ℝ) :=
  (Y.filter (fun a => a k < ptOf Y i k)).map (dropAt k)

theorem mem_below {Y : List (ℕ → ℝ)} {i k : ℕ} {p : ℕ → ℝ} :
    p ∈ below Y i k ↔ ∃ l < Y.length, ptOf Y l k < ptOf Y i k ∧ dropAt k (ptOf Y l) = p := by
  unfold below
  simp only [List.mem_map, List.mem_filter, decide_eq_true_eq]
  constructor
  · rintro ⟨q, ⟨hq, hlt⟩, rfl⟩
    obtain ⟨l, hl, rfl⟩ := mem_iff_ptOf.mp hq
    exact ⟨l, hl, hlt, rfl⟩
  · rintro ⟨l, hl, hlt, rfl⟩
    exact ⟨_, ⟨mem_iff_ptOf.mpr ⟨l, hl, rfl⟩, hlt⟩, rfl⟩

theorem hvi_congr_mem {d : ℕ} {x : ℕ → ℝ} {P P' : List (ℕ → ℝ)} {ref : ℕ → ℝ}
    (h : ∀ p, p ∈ P ↔ p ∈ P') : hvi d x P ref = hvi d x P' ref :=
  hvi_congr (fun _ _ => rfl) (fun _ _ => rfl) (fun p hp => ⟨p, (h p).mp hp, fun _ _ => le_rfl⟩)
    (fun p hp => ⟨p, (h p).mpr hp, fun _ _ => le_rfl⟩)

/-- Value of `∂²HV / ∂y_m^j ∂y_k^i` for `n + 2` objectives. -/
noncomputable def second (n : ℕ) (Y : List (ℕ → ℝ)) (ref : ℕ → ℝ) (j m i k : ℕ) : ℝ :=
  if m = k then 0
  else if j = i then
    hvi n (dropAt (sIdx k m) (dropAt k (ptOf Y i)))
      (((below Y i k).filter (fun b => b (sIdx k m) < ptOf Y i m)).map (dropAt (sIdx k m)))
      (dropAt (sIdx k m) (dropAt k ref))
  else if ptOf Y j k < ptOf Y i k ∧ ptOf Y i m < ptOf Y j m then
    -hvi n (dropAt (sIdx k m) (clip (dropAt k (ptOf Y i)) (dropAt k ref) (dropAt k (ptOf Y j))))
      ((((below Y i k).map (clip (dropAt k (ptOf Y i)) (dropAt k ref))).filter
        (fun b => b (sIdx k m) < ptOf Y j m)).map (dropAt (sIdx k m)))
      (dropAt (sIdx k m) (dropAt k ref))
  else 0

/-- Small moves keep the order of the points in every objective. -/
theorem order_eventually {d : ℕ} {Y : List (ℕ → ℝ)} {ref : ℕ → ℝ} (h : GeneralPosition d Y ref)
    {j m : ℕ} (hj : j < Y.length) (hm : m < d) :
    ∃ ε > 0, ∀ t, ptOf Y j m - ε < t → t < ptOf Y j m + ε →
      GeneralPosition d (setCoord Y j m t) ref ∧
      ∀ l < Y.length, ∀ i < Y.length, ∀ k < d,
        (ptOf (setCoord Y j m t) l k < ptOf (setCoord Y j m t) i k ↔ ptOf Y l k < ptOf Y i k) := by
  obtain ⟨ε, hε, hw⟩ := h.eventually hj hm
  refine ⟨ε, hε, fun t h1 h2 => ?_⟩
  obtain ⟨hg, ho⟩ := hw t h1 h2
  refine ⟨hg, fun l hl i hi k hk => ?_⟩
  rw [ptOf_setCoord hl, ptOf_setCoord hi]
  by_cases hkm : k = m
  · subst hkm
    by_cases hjl : j = l
    · by_cases hji : j = i
      · subst hjl; subst hji; simp
      · subst hjl
        simp only [if_true, Function.update_self, if_neg hji]
        have e1 := ho i hi (Ne.symm hji)
        have e2 := h.ne hi hj (Ne.symm hji) hm
        have e3 := hg.ne (i := i) (j := j) (by rwa [length_setCoord]) (by rwa [length_setCoord])
          (Ne.symm hji) hm
        rw [ptOf_setCoord hi, ptOf_setCoord hj, if_neg hji] at e3
        simp only [if_true, Function.update_self] at e3
        constructor
        · intro hlt
          by_contra hc
          have := e1.mpr (lt_of_le_of_ne (not_lt.mp hc) e2)
          linarith
        · intro hlt
          by_contra hc
          have := e1.mp (lt_of_le_of_ne (not_lt.mp hc) e3)
          linarith
    · by_cases hji : j = i
      · subst hji
        simp only [if_neg hjl, if_true, Function.update_self]
        exact ho l hl (Ne.symm hjl)
      · simp [hjl, hji]
  · have : ∀ a : ℕ → ℝ, Function.update a m t k = a k := fun a => Function.update_of_ne hkm _ _
    have e : ∀ (c : Prop) [Decidable c] (a : ℕ → ℝ), (if c then Function.update a m t else a) k = a k := by
      intro c _ a; split_ifs <;> simp [this]
    rw [e, e]

theorem slope_hasDerivAt {n i j k m : ℕ} {Y : List (ℕ → ℝ)} {ref : ℕ → ℝ}
    (h : GeneralPosition (n + 2) Y ref) (hi : i < Y.length) (hj : j < Y.length) (hk : k < n + 2)
    (hm : m < n + 2) :
    HasDerivAt (fun t => -slope (n + 1) (setCoord Y j m t) ref i k) (second n Y ref j m i k)
      (ptOf Y j m) := by
  obtain ⟨ε, hε, hw⟩ := order_eventually h hj hm
  set t0 := ptOf Y j m with ht0
  -- members of the projected lower set along the move
  have hbelow : ∀ t, t0 - ε < t → t < t0 + ε → ∀ p, p ∈ below (setCoord Y j m t) i k ↔
      ∃ l < Y.length, ptOf Y l k < ptOf Y i k ∧ dropAt k (ptOf (setCoord Y j m t) l) = p := by
    intro t h1 h2 p
    rw [mem_below, length_setCoord]
    refine exists_congr fun l => and_congr_right fun hl => ?_
    rw [(hw t h1 h2).2 l hl i hi k hk]
  have hslope : ∀ t, slope (n + 1) (setCoord Y j m t) ref i k =
      hvi (n + 1) (dropAt k (ptOf (setCoord Y j m t) i)) (below (setCoord Y j m t) i k) (dropAt k ref) :=
    fun t => rfl
  unfold second
  by_cases hmk : m = k
  · -- the moved coordinate is projected away
    rw [if_pos hmk]
    refine hasDerivAt_of_affine hε fun t h1 h2 => ?_
    have hdrop : ∀ t l, l < Y.length → dropAt k (ptOf (setCoord Y j m t) l) = dropAt k (ptOf Y l) := by
      intro t l hl
      rw [ptOf_setCoord hl]
      split_ifs
      · rw [hmk, dropAt_update_self]
      · rfl
    rw [mul_zero, add_zero, hslope, hslope, hdrop t i hi, hdrop t0 i hi]
    congr 1
    apply hvi_congr_mem
    intro p
    rw [hbelow t h1 h2, hbelow t0 (by linarith) (by linarith)]
    refine exists_congr fun l => and_congr_right fun hl => and_congr_right fun _ => ?_
    rw [hdrop t l hl, hdrop t0 l hl]
  rw [if_neg hmk]
  set m' := sIdx k m with hm'
  have hm'n : m' ≤ n := sIdx_le (by omega) (by omega) hmk
  have hrefm : dropAt k ref m' = ref m := dropAt_sIdx hmk ref
  have hcoord : ∀ l, dropAt k (ptOf Y l) m' = ptOf Y l m := fun l => dropAt_sIdx hmk _
  have hmemY : ∀ p, p ∈ below Y i k ↔ ∃ l < Y.length, ptOf Y l k < ptOf Y i k ∧ dropAt k (ptOf Y l) = p :=
    fun p => mem_below
  by_cases hji : j = i
  · -- moving the point itself
    rw [if_pos hji]
    subst hji
    have hb : ∀ t, t0 - ε < t → t < t0 + ε → ∀ p, p ∈ below (setCoord Y j m t) j k ↔ p ∈ below Y j k := by
      intro t h1 h2 p
      rw [hbelow t h1 h2, hmemY]
      refine exists_congr fun l => and_congr_right fun hl => and_congr_right fun hlt => ?_
      have hne : j ≠ l := by rintro rfl; exact lt_irrefl _ hlt
      rw [ptOf_setCoord hl, if_neg hne]
    have hs : ∀ t, t0 - ε < t → t < t0 + ε → slope (n + 1) (setCoord Y j m t) ref j k =
        hvi (n + 1) (Function.update (dropAt k (ptOf Y j)) m' t) (below Y j k) (dropAt k ref) := by
      intro t h1 h2
      rw [hslope, ptOf_setCoord hj, if_pos rfl, dropAt_update hmk]
      exact hvi_congr_mem (hb t h1 h2)
    obtain ⟨δ, hδ, hwin⟩ := exists_gap ((below Y j k).map (fun b => b m')) t0 (by
      intro a ha
      obtain ⟨b, hb, rfl⟩ := List.mem_map.mp ha
      obtain ⟨l, hl, hlt, rfl⟩ := mem_below.mp hb
      have hne : l ≠ j := by rintro rfl; exact lt_irrefl _ hlt
      change dropAt k (ptOf Y l) m' ≠ t0
      rw [hcoord]
      exact h.ne hl hj hne hm)
    have hA : ∀ a ∈ below Y j k, a m' ≤ t0 - δ ∨ t0 + δ ≤ a m' := fun a ha =>
      hwin _ (List.mem_map.mpr ⟨a, ha, rfl⟩)
    have htr : t0 < ref m := h.lt_ref hj hm
    have hfilter : hvi n (dropAt m' (dropAt k (ptOf Y j)))
        (((below Y j k).filter (fun a => a m' ≤ t0 - δ)).map (dropAt m')) (dropAt m' (dropAt k ref)) =
        hvi n (dropAt m' (dropAt k (ptOf Y j)))
        (((below Y j k).filter (fun b => b m' < ptOf Y j m)).map (dropAt m'))
        (dropAt m' (dropAt k ref)) := by
      congr 2
      apply List.filter_congr
      intro a ha
      rw [decide_eq_decide]
      rcases hA a ha with h' | h'
      · constructor <;> intro <;> linarith
      · constructor <;> intro <;> linarith
    rw [← hfilter]
    refine hasDerivAt_of_affine (lt_min hε (lt_min hδ (sub_pos.mpr htr))) fun t h1 h2 => ?_
    have b1 := min_le_left ε (min δ (ref m - t0))
    have b2 := (min_le_right ε (min δ (ref m - t0))).trans (min_le_left _ _)
    have b3 := (min_le_right ε (min δ (ref m - t0))).trans (min_le_right _ _)
    rw [hs t (by linarith) (by linarith), hs t0 (by linarith) (by linarith),
      hvi_affine hm'n (lo := t0 - δ) (hi := t0 + δ) (t' := t0) hA (by linarith) (by linarith)
        (by rw [hrefm]; linarith) (by linarith) (by linarith) (by rw [hrefm]; linarith)]
    ring
  rw [if_neg hji]
  have hyi : ∀ t, ptOf (setCoord Y j m t) i = ptOf Y i := by
    intro t
    rw [ptOf_setCoord hi, if_neg hji]
  by_cases hjk : ptOf Y j k < ptOf Y i k
  swap
  · -- the moved point is not below
    rw [if_neg (fun c => hjk c.1)]
    refine hasDerivAt_of_affine hε fun t h1 h2 => ?_
    rw [mul_zero, add_zero, hslope, hslope, hyi, hyi]
    congr 1
    apply hvi_congr_mem
    intro p
    rw [hbelow t h1 h2, hbelow t0 (by linarith) (by linarith)]
    refine exists_congr fun l => and_congr_right fun hl => and_congr_right fun hlt => ?_
    have hne : j ≠ l := by rintro rfl; exact hjk hlt
    rw [ptOf_setCoord hl, ptOf_setCoord hl, if_neg hne, if_neg hne]
  -- the moved point is below: split it off
  set y := dropAt k (ptOf Y i) with hy
  set r := dropAt k ref with hr
  set b := dropAt k (ptOf Y j) with hb
  set F0 := ((List.range Y.length).filter (fun l => l ≠ j ∧ ptOf Y l k < ptOf Y i k)).map
    (fun l => dropAt k (ptOf Y l)) with hF0
  have hmemF0 : ∀ p, p ∈ F0 ↔ ∃ l < Y.length, l ≠ j ∧ ptOf Y l k < ptOf Y i k ∧ dropAt k (ptOf Y l) = p := by
    intro p
    simp only [hF0, List.mem_map, List.mem_filter, List.mem_range, decide_eq_true_eq]
    constructor
    · rintro ⟨l, ⟨hl, h1, h2⟩, rfl⟩; exact ⟨l, hl, h1, h2, rfl⟩
    · rintro ⟨l, hl, h1, h2, rfl⟩; exact ⟨l, ⟨hl, h1, h2⟩, rfl⟩
  have hle : ∀ l < Y.length, ∀ q < n + 1, dropAt k (ptOf Y l) q ≤ r q := by
    intro l hl q hq
    simp only [hr, dropAt]
    split_ifs
    · exact (h.lt_ref hl (by omega)).le
    · exact (h.lt_ref hl (by omega)).le
  have hs : ∀ t, t0 - ε < t → t < t0 + ε → slope (n + 1) (setCoord Y j m t) ref i k =
      boxVol (n + 1) y r - hvol (n + 1) (F0.map (clip y r)) r -
        hvi (n + 1) (clip y r (Function.update b m' t)) (F0.map (clip y r)) r := by
    intro t h1 h2
    have e1 : hvi (n + 1) y (below (setCoord Y j m t) i k) r =
        hvi (n + 1) y (Function.update b m' t :: F0) r := by
      apply hvi_congr_mem
      intro p
      rw [hbelow t h1 h2, List.mem_cons, hmemF0]
      constructor
      · rintro ⟨l, hl, hlt, rfl⟩
        rw [ptOf_setCoord hl]
        by_cases hjl : j = l
        · subst hjl; left; rw [if_pos rfl, dropAt_update hmk]
        · right; rw [if_neg hjl]; exact ⟨l, hl, Ne.symm hjl, hlt, rfl⟩
      · rintro (rfl | ⟨l, hl, hlj, hlt, rfl⟩)
        · exact ⟨j, hj, hjk, by rw [ptOf_setCoord hj, if_pos rfl, dropAt_update hmk]⟩
        · exact ⟨l, hl, hlt, by rw [ptOf_setCoord hl, if_neg (Ne.symm hlj)]⟩
    rw [hslope, hyi, e1, hvi_eq_clip, List.map_cons, hvol_cons]
    · ring
    · intro p hp q hq
      rcases List.mem_cons.mp hp with rfl | hp
      · by_cases hqm : q = m'
        · subst hqm
          rw [Function.update_self, hrefm]
          have := (hw t h1 h2).1.lt_ref (i := j) (by rwa [length_setCoord]) hm
          rw [ptOf_setCoord hj, if_pos rfl, Function.update_self] at this
          exact this.le
        · rw [Function.update_of_ne hqm]; exact hle j hj q hq
      · obtain ⟨l, hl, -, -, rfl⟩ := (hmemF0 p).mp hp
        exact hle l hl q hq
    · exact fun q hq => hle i hi q hq
  have hym : y m' = ptOf Y i m := hcoord i
  have hbm : b m' = t0 := hcoord j
  by_cases him : ptOf Y i m < ptOf Y j m
  swap
  · -- the coordinate is clipped
    rw [if_neg (fun c => him c.2)]
    have hlt : t0 < ptOf Y i m := lt_of_le_of_ne (not_lt.mp him) (h.ne hj hi hji hm)
    refine hasDerivAt_of_affine (lt_min hε (sub_pos.mpr hlt)) fun t h1 h2 => ?_
    have b1 := min_le_left ε (ptOf Y i m - t0)
    have b2 := min_le_right ε (ptOf Y i m - t0)
    rw [mul_zero, add_zero, hs t (by linarith) (by linarith), hs t0 (by linarith) (by linarith)]
    have : clip y r (Function.update b m' t) = clip y r (Function.update b m' t0) := by
      ext q
      unfold clip
      by_cases hq : q = m'
      · subst hq
        rw [Function.update_self, Function.update_self, hym, max_eq_right (by linarith),
          max_eq_right (by linarith)]
      · rw [Function.update_of_ne hq, Function.update_of_ne hq]
    rw [this]
  · -- the coordinate is not clipped
    rw [if_pos ⟨hjk, him⟩]
    have him' : ptOf Y i m < t0 := him
    have htr : t0 < ref m := h.lt_ref hj hm
    have hclip : ∀ t, ptOf Y i m < t → t < ref m →
        clip y r (Function.update b m' t) = Function.update (clip y r b) m' t := by
      intro t h1 h2
      ext q
      by_cases hq : q = m'
      · subst hq
        rw [Function.update_self]
        unfold clip
        rw [Function.update_self, hym, hrefm, max_eq_left h1.le, min_eq_left h2.le]
      · rw [Function.update_of_ne hq]
        unfold clip
        rw [Function.update_of_ne hq]
    have hcm : ∀ l < Y.length, clip y r (dropAt k (ptOf Y l)) m' = max (ptOf Y l m) (ptOf Y i m) := by
      intro l hl
      unfold clip
      rw [hcoord, hym, hrefm, min_eq_left (max_le (h.lt_ref hl hm).le (h.lt_ref hi hm).le)]
    obtain ⟨δ, hδ, hwin⟩ := exists_gap ((F0.map (clip y r)).map (fun c => c m')) t0 (by
      intro a ha
      obtain ⟨c, hc, rfl⟩ := List.mem_map.mp ha
      obtain ⟨p, hp, rfl⟩ := List.mem_map.mp hc
      obtain ⟨l, hl, hlj, hlt, rfl⟩ := (hmemF0 p).mp hp
      rw [hcm l hl]
      rcases le_total (ptOf Y l m) (ptOf Y i m) with h' | h'
      · rw [max_eq_right h']; exact him'.ne
      · rw [max_eq_left h']; exact h.ne hl hj hlj hm)
    have hA : ∀ a ∈ F0.map (clip y r), a m' ≤ t0 - δ ∨ t0 + δ ≤ a m' := fun a ha =>
      hwin _ (List.mem_map.mpr ⟨a, ha, rfl⟩)
    have hfilter : hvi n (dropAt m' (clip y r b))
        (((F0.map (clip y r)).filter (fun a => a m' ≤ t0 - δ)).map (dropAt m')) (dropAt m' r) =
        hvi n (dropAt m' (clip y r b))
        ((((below Y i k).map (clip y r)).filter (fun c => c m' < ptOf Y j m)).map (dropAt m'))
        (dropAt m' r) := by
      apply hvi_congr_mem
      have key : ∀ c, c ∈ (F0.map (clip y r)).filter (fun a => a m' ≤ t0 - δ) ↔
          c ∈ ((below Y i k).map (clip y r)).filter (fun c => c m' < ptOf Y j m) := by
        intro c
        simp only [List.mem_filter, List.mem_map, decide_eq_true_eq]
        constructor
        · rintro ⟨⟨p, hp, rfl⟩, hle⟩
          obtain ⟨l, hl, hlj, hlt, rfl⟩ := (hmemF0 p).mp hp
          exact ⟨⟨_, (hmemY _).mpr ⟨l, hl, hlt, rfl⟩, rfl⟩, by linarith⟩
        · rintro ⟨⟨p, hp, rfl⟩, hlt'⟩
          obtain ⟨l, hl, hlt, rfl⟩ := (hmemY p).mp hp
          have hlj : l ≠ j := by
            rintro rfl
            rw [hcm l hl, max_eq_left him.le] at hlt'
            exact lt_irrefl _ hlt'
          have hF : dropAt k (ptOf Y l) ∈ F0 := (hmemF0 _).mpr ⟨l, hl, hlj, hlt, rfl⟩
          refine ⟨⟨_, hF, rfl⟩, ?_⟩
          rcases hA _ (List.mem_map_of_mem hF) with h' | h'
          · exact h'
          · linarith
      intro p
      simp only [List.mem_map, key]
    rw [← hfilter]
    refine hasDerivAt_of_affine (lt_min hε (lt_min hδ (lt_min (sub_pos.mpr htr) (sub_pos.mpr him'))))
      fun t h1 h2 => ?_
    have b1 := min_le_left ε (min δ (min (ref m - t0) (t0 - ptOf Y i m)))
    have b2 := (min_le_right ε (min δ (min (ref m - t0) (t0 - ptOf Y i m)))).trans (min_le_left _ _)
    have b3 := ((min_le_right ε (min δ (min (ref m - t0) (t0 - ptOf Y i m)))).trans
      (min_le_right _ _)).trans (min_le_left _ _)
    have b4 := ((min_le_right ε (min δ (min (ref m - t0) (t0 - ptOf Y i m)))).trans
      (min_le_right _ _)).trans (min_le_right _ _)
    rw [hs t (by linarith) (by linarith), hs t0 (by linarith) (by linarith),
      hclip t (by linarith) (by linarith), hclip t0 (by linarith) (by linarith),
      hvi_affine hm'n (lo := t0 - δ) (hi := t0 + δ) (t' := t0) hA (by linarith) (by linarith)
        (by rw [hrefm]; linarith) (by linarith) (by linarith) (by rw [hrefm]; linarith)]
    ring

end Verif.HVD
