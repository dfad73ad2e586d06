import Verif.HV.Ctx

/-!
# The loops of `hvRecursive` keep the invariant
-/

set_option linter.unusedSectionVars false

namespace Verif.HV

/-! ### The reset loop -/

section
variable {K : Type*} [Zero K] [One K] [Add K] [Sub K] [Neg K] [Mul K] [NatCast K] [LinearOrder K]

theorem resetLoop_spec (d : ℕ) : ∀ (l : List ℕ) (fuel : ℕ) (s : ML K), l.length ≤ fuel → 0 ∉ l →
    l.Nodup → List.IsChain (fun a b => s.next a d = b ∧ s.prev b d = a) (0 :: l) →
    resetLoop d fuel ((0 :: l).getLast (by simp)) s =
      some { s with ignore := fun x => if x ∈ l ∧ s.ignore x < d then 0 else s.ignore x } := by
  intro l
  induction l using List.reverseRecOn with
  | nil => intro fuel s _ _ _ _; unfold resetLoop; simp
  | append_singleton l a ih =>
    intro fuel s hf h0 hnd hch
    have ha0 : a ≠ 0 := by rintro rfl; exact h0 (by simp)
    rw [← List.cons_append, List.isChain_append] at hch
    obtain ⟨hc1, -, hc3⟩ := hch
    have hpa : s.prev a d = (0 :: l).getLast (by simp) :=
      (hc3 _ (List.getLast?_eq_some_getLast (by simp)) a (by simp)).2
    obtain ⟨fuel, rfl⟩ : ∃ f, fuel = f + 1 := ⟨fuel - 1, by simp at hf; omega⟩
    have hgl : (0 :: (l ++ [a])).getLast (by simp) = a := by simp
    rw [hgl]
    unfold resetLoop
    simp only [ha0, if_false]
    rw [hpa]
    have hal : a ∉ l := by
      rw [List.nodup_append] at hnd
      exact fun h => hnd.2.2 a h a (by simp) rfl
    by_cases hig : s.ignore a < d
    · simp only [hig, if_true]
      rw [ih fuel { s with ignore := set1 s.ignore a 0 } (by simp at hf; omega)
        (fun h => h0 (by simp [h])) (List.nodup_append.mp hnd).1 hc1]
      congr 2
      funext x
      by_cases hx : x = a
      · subst hx; simp [hal, hig, set1]
      · simp [hx, set1]
    · simp only [hig, if_false]
      rw [ih fuel s (by simp at hf; omega)
        (fun h => h0 (by simp [h])) (List.nodup_append.mp hnd).1 hc1]
      congr 2
      funext x
      by_cases hx : x = a
      · subst hx; simp [hal, hig]
      · simp [hx]

theorem toFinset_concat (l : List ℕ) (p : ℕ) : (l ++ [p]).toFinset = insert p l.toFinset := by
  ext z; simp

end

namespace Ctx

variable {K : Type*} [CommRing K] [LinearOrder K] [IsStrictOrderedRing K] {X : Ctx K}

/-! ### Stages of the sweep -/

/-- State between two steps of level `d` on the set `S`: the nodes of `l` are linked in the lists
below `d`, those of `r` are taken out; `s₀` is the state at entry. -/
structure Stage (X : Ctx K) (d : ℕ) (S : Finset ℕ) (s₀ : ML K) (l r : List ℕ) (s : ML K) : Prop where
  split : l ++ r = X.L d S
  nextd : ∀ a, s.next a d = s₀.next a d
  prevd : ∀ a, s.prev a d = s₀.prev a d
  rings : ∀ i < d, IsRing (s.next · i) (s.prev · i) (X.L i l.toFinset)
  undo : X.Undo d s₀.next s₀.prev l r s.next s.prev
  flag_out : ∀ q, q ∉ S → s.ignore q = s₀.ignore q
  flag_hi : ∀ q, d < s₀.ignore q → s.ignore q = s₀.ignore q
  flag_lo : ∀ q, s₀.ignore q ≤ d → s.ignore q ≤ d
  flag : ∀ q ∈ S, d ≤ s.ignore q → X.Fl d S q
  flag_r : ∀ q ∈ r, s.ignore q = 0 ∨ (d ≤ s.ignore q ∧ d + 2 ≤ X.D)
  area_hi : ∀ y j, d < j → s.area y j = s₀.area y j
  volume_hi : ∀ y j, d < j → s.volume y j = s₀.volume y j
  bounds_hi : ∀ j, d < j → s.bounds j = s₀.bounds j
  sent : ∀ j, s.area 0 j = 0
  area1 : ∀ q, s.area q 1 = 0 ∨ s.area q 1 = -(X.c q 0)

variable {d : ℕ} {S : Finset ℕ} {s₀ s : ML K} {l r : List ℕ} {q : ℕ}

section
variable (hd : d < X.D) (hS : S ⊆ X.N)
include hd hS

theorem split_mem (h : l ++ r = X.L d S) : ∀ z, z ∈ l ∨ z ∈ r ↔ z ∈ S := by
  intro z; rw [← mem_L hd hS, ← h]; simp

theorem split_sub (h : l ++ r = X.L d S) : l.toFinset ⊆ X.N := by
  intro z hz
  exact hS ((split_mem hd hS h z).1 (Or.inl (by simpa [or_comm] using hz)))

theorem split_nodup (h : l ++ r = X.L d S) : l.Nodup ∧ r.Nodup ∧ ∀ a ∈ l, a ∉ r := by
  have := nodup_L hd S
  rw [← h, List.nodup_append] at this
  exact ⟨this.1, this.2.1, fun a ha hb => this.2.2 a ha a hb rfl⟩

theorem Stage.remove (h : X.Stage d S s₀ (l ++ [q]) r s)
    (hq : s.ignore q = 0 ∨ (d ≤ s.ignore q ∧ d + 2 ≤ X.D)) :
    X.Stage d S s₀ l (q :: r) (remove X.c q d s) := by
  obtain ⟨hn, hp⟩ := remove_ptr X.c q d s
  have hsplit : l ++ q :: r = X.L d S := by rw [← h.split]; simp
  have hqS : q ∈ S := (split_mem hd hS h.split q).1 (Or.inl (by simp))
  have hqN := hS hqS
  have hq0 : q ≠ 0 := fun e => X.zero_notMem (e ▸ hqN)
  have hql : q ∉ l.toFinset := by
    have := (split_nodup hd hS h.split).1
    rw [List.nodup_append] at this
    simpa using fun hh => this.2.2 q hh q (by simp) rfl
  have hfin : (l ++ [q]).toFinset = insert q l.toFinset := by
    ext z; simp
  constructor
  case split => exact hsplit
  case nextd => intro a; rw [hn]; simp [remNext, h.nextd]
  case prevd => intro a; rw [hp]; simp [remPrev, h.prevd]
  case rings =>
    intro i hi
    obtain ⟨a, b, e1, e2, e3, e4⟩ := L_insert (X := X) (i := i) (by omega) hqN hql
    have hr := h.rings i hi
    rw [hfin, e1] at hr
    have := hr.erase hq0 e3 e4
    rw [e2, hn, hp]
    simpa [remNext, remPrev, hi] using this
  case undo =>
    exact ⟨s.next, s.prev, hn, hp, h.rings, h.undo⟩
  case flag_r =>
    intro z hz
    rcases List.mem_cons.mp hz with rfl | hz
    · simpa using hq
    · simpa using h.flag_r z hz
  case flag_out => simpa using h.flag_out
  case flag_hi => simpa using h.flag_hi
  case flag_lo => simpa using h.flag_lo
  case flag => simpa using h.flag
  case area_hi => simpa using h.area_hi
  case volume_hi => simpa using h.volume_hi
  case bounds_hi =>
    intro j hj; rw [remove_bounds]; simp [show ¬ j < d by omega, h.bounds_hi j hj]
  case sent => simpa using h.sent
  case area1 => simpa using h.area1

theorem Stage.reinsert (h : X.Stage d S s₀ l (q :: r) s) (b : K) :
    X.Stage d S s₀ (l ++ [q]) r
      (reinsert X.c q d { s with bounds := set1 s.bounds d b }) := by
  obtain ⟨nx', pv', hn, hp, hr, hu⟩ := h.undo
  have hsplit : (l ++ [q]) ++ r = X.L d S := by rw [← h.split]; simp
  have hqS : q ∈ S := (split_mem hd hS h.split q).1 (Or.inr (by simp))
  have hqN := hS hqS
  have hq0 : q ≠ 0 := fun e => X.zero_notMem (e ▸ hqN)
  have hql : q ∉ l.toFinset := by
    simpa using fun hh => (split_nodup hd hS h.split).2.2 q hh (by simp)
  have hfin : (l ++ [q]).toFinset = insert q l.toFinset := by
    ext z; simp
  have hloc : ∀ i < d, nx' q i ≠ q ∧ pv' q i ≠ q ∧ nx' (pv' q i) i = q ∧ pv' (nx' q i) i = q := by
    intro i hi
    obtain ⟨a, b, e1, e2, e3, e4⟩ := L_insert (X := X) (i := i) (by omega) hqN hql
    have hri := hr i hi
    rw [hfin, e1] at hri
    obtain ⟨n1, n2, n3, n4⟩ := hri.nbr
    refine ⟨?_, ?_, n1, n2⟩
    · intro he
      have hm : (b ++ [0]).head (by simp) ∈ b ++ [0] := List.head_mem _
      rw [← n4, he] at hm
      simp [e4, hq0] at hm
    · intro he
      have hm : (0 :: a).getLast (by simp) ∈ 0 :: a := List.getLast_mem _
      rw [← n3, he] at hm
      simp [e3, hq0] at hm
  obtain ⟨hn', hp'⟩ := reinsert_remove X.c q d { s with bounds := set1 s.bounds d b } nx' pv' hn hp
    (fun i hi => (hloc i hi).1) (fun i hi => (hloc i hi).2.1) (fun i hi => (hloc i hi).2.2.1)
    (fun i hi => (hloc i hi).2.2.2)
  constructor
  case split => exact hsplit
  case nextd =>
    intro a; rw [hn', ← h.nextd, hn]; simp [remNext]
  case prevd =>
    intro a; rw [hp', ← h.prevd, hp]; simp [remPrev]
  case rings => rw [hn', hp']; exact hr
  case undo => rw [hn', hp']; exact hu
  case flag_r =>
    intro z hz; simpa using h.flag_r z (by simp [hz])
  case flag_out => simpa using h.flag_out
  case flag_hi => simpa using h.flag_hi
  case flag_lo => simpa using h.flag_lo
  case flag => simpa using h.flag
  case area_hi => simpa using h.area_hi
  case volume_hi => simpa using h.volume_hi
  case bounds_hi =>
    intro j hj
    rw [reinsert_bounds]
    simp [show ¬ j < d by omega, set1, show j ≠ d by omega, h.bounds_hi j hj]
  case sent => simpa using h.sent
  case area1 => simpa using h.area1

/-- Predecessor and successor in list `d` during the sweep. -/
theorem Stage.nbr (h : X.Stage d S s₀ (l ++ [q]) r s)
    (h0 : IsRing (s₀.next · d) (s₀.prev · d) (X.L d S)) :
    s.prev q d = (0 :: l).getLast (by simp) ∧ s.next q d = (r ++ [0]).head (by simp) := by
  have hsplit : l ++ q :: r = X.L d S := by rw [← h.split]; simp
  rw [← hsplit] at h0
  obtain ⟨-, -, n3, n4⟩ := h0.nbr
  rw [h.nextd, h.prevd]
  exact ⟨n3, n4⟩

/-- The `area[d]` read from the predecessor is the volume of the nodes before, up to marked nodes. -/
theorem Stage.prevArea (h : X.Stage d S s₀ (l ++ [q]) r s)
    (h0 : IsRing (s₀.next · d) (s₀.prev · d) (X.L d S))
    (hc : ∀ y ∈ l, X.CacheAt d S y s) :
    ∃ U ⊆ l.toFinset, s.area (s.prev q d) d = X.V d U ∧
      ∀ x ∈ l.toFinset, x ∉ U → d + 2 ≤ X.D ∧ X.Wk d S x := by
  rw [(h.nbr hd hS h0).1]
  rcases List.eq_nil_or_concat' l with rfl | ⟨l', a, rfl⟩
  · exact ⟨∅, by simp, by simp [h.sent, X.V_empty], by simp⟩
  · have hsplit : l' ++ a :: (q :: r) = X.L d S := by rw [← h.split]; simp
    have := (hc a (by simp)).1
    unfold AreaOK at this
    rw [filter_le hd hS hsplit] at this
    have e : (l' ++ [a]).toFinset = insert a l'.toFinset := by ext z; simp
    rw [e]
    simpa using this

/-- Where the next node has a larger value in objective `d`, the area is exact. -/
theorem area_exact (hd2 : 2 ≤ d) (hsplit : l ++ q :: r = X.L d S)
    (hr : ∀ p ∈ r, X.c q d < X.c p d) (hne : X.c q d ≠ 0) (hc : X.CacheAt d S q s) :
    s.area q d = X.V d (insert q l.toFinset) := by
  have hqS : q ∈ S := by rw [← mem_L hd hS, ← hsplit]; simp
  rw [← filter_le hd hS hsplit]
  refine hc.1.exact hd2 hd hS hqS (fun z hz hle => ?_) hne
  by_contra hcon
  push Not at hcon
  have hz' : z ∈ l ++ q :: r := by rw [hsplit, mem_L hd hS]; exact hz
  have hnot : z ∉ S.filter (fun z => X.pos d z ≤ X.pos d q) := by simp [hcon]
  rw [filter_le hd hS hsplit] at hnot
  simp only [Finset.mem_insert, List.mem_toFinset, not_or] at hnot
  simp only [List.mem_append, List.mem_cons] at hz'
  have hzr : z ∈ r := by tauto
  exact absurd hle (not_le.mpr (hr z hzr))

/-- Filling in `area[d]` of the node just linked. -/
theorem visit_spec {rec : ℕ → ML K → Option (K × ML K)} (hd2 : 2 ≤ d) (hrec : X.RecSpec (d - 1) rec)
    (h : X.Stage d S s₀ (l ++ [q]) r s)
    (h0 : IsRing (s₀.next · d) (s₀.prev · d) (X.L d S))
    (hqf : s.ignore q = 0 ∨ (d ≤ s.ignore q ∧ d + 2 ≤ X.D))
    (hfl : 3 ≤ d → ∀ z ∈ l ++ [q], d - 1 ≤ s.ignore z → X.Wk (d - 1) (l ++ [q]).toFinset z ∨ (X.c z d = 0 ∧ d + 2 ≤ X.D))
    (hcl : l ≠ [] ∨ d ≤ s.ignore q → ∀ j, 2 ≤ j → j < d → X.Cache j (l ++ [q]).toFinset s)
    (hc : ∀ y ∈ l, X.CacheAt d S y s)
    (hv : s.volume q d = X.V (d + 1) l.toFinset + X.V d l.toFinset * X.c q d)
    (hlast : d + 1 = X.D → 4 ≤ d → l ≠ [] → X.Last (d - 1) (l ++ [q]).toFinset s) :
    ∃ s', visit rec d (l.length + 1) q s = some s' ∧ X.Stage d S s₀ (l ++ [q]) r s' ∧
      (3 ≤ d → ∀ z ∈ l ++ [q], d - 1 ≤ s'.ignore z → X.Wk (d - 1) (l ++ [q]).toFinset z ∨ (X.c z d = 0 ∧ d + 2 ≤ X.D)) ∧
      (∀ j, 2 ≤ j → j < d → X.Cache j (l ++ [q]).toFinset s') ∧
      (∀ y ∈ l ++ [q], X.CacheAt d S y s') ∧ s'.volume q d = s.volume q d ∧
      s'.bounds d = s.bounds d ∧
      (l = [] → s.ignore q = 0 → s.area q 1 = X.V 1 {q} → s'.bounds = s.bounds ∧
        ∀ j, 1 ≤ j → j ≤ d → s'.area q j = X.V j {q}) ∧
      (d + 1 = X.D → 4 ≤ d → l ≠ [] → ∃ w ∈ l ++ [q], ∃ w' ∈ l ++ [q],
        s'.bounds (d - 1) = X.c w (d - 1) ∧ X.c w' (d - 1) < X.c w (d - 1)) := by
  have hsplit : l ++ q :: r = X.L d S := by rw [← h.split]; simp
  have hqS : q ∈ S := (split_mem hd hS h.split q).1 (Or.inl (by simp))
  have hqN := hS hqS
  have hq0 : q ≠ 0 := fun e => X.zero_notMem (e ▸ hqN)
  have hnd := (split_nodup hd hS h.split).1
  have hql : q ∉ l := by
    rw [List.nodup_append] at hnd
    exact fun hh => hnd.2.2 q hh q (by simp) rfl
  have hfin : (l ++ [q]).toFinset = insert q l.toFinset := by
    ext z; simp
  have hlN : l.toFinset ⊆ X.N := fun z hz => split_sub hd hS h.split (by rw [hfin]; simp at hz ⊢; tauto)
  obtain ⟨W, hWl, hA, hWx⟩ := h.prevArea hd hS h0 hc
  have hpq : s.prev q d ≠ q := by
    rw [(h.nbr hd hS h0).1]
    intro e
    have := List.getLast_mem (l := 0 :: l) (by simp)
    rw [e] at this
    simp [hq0, hql] at this
  have hfull : ∀ s' : ML K, s'.area q d = X.V d (insert q l.toFinset) →
      s'.volume q d = s.volume q d → X.CacheAt d S q s' := by
    intro s' h1 h2
    unfold CacheAt AreaOK
    rw [filter_le hd hS hsplit, filter_lt hd hS hsplit, h1, h2, hv]
    exact ⟨⟨_, Finset.Subset.refl _, rfl, fun x hx hn => absurd hx hn⟩, rfl⟩
  have hqfD : d ≤ s.ignore q → d + 2 ≤ X.D := by
    intro hge
    rcases hqf with h1 | h1
    · omega
    · exact h1.2
  by_cases hig : d ≤ s.ignore q
  · refine ⟨{ s with area := set2 s.area q d (s.area (s.prev q d) d) }, by simp [visit, hig], ?_, hfl, ?_,
      ?_, rfl, rfl, fun _ h1 => by omega, fun h1 => by have := hqfD hig; omega⟩
    · constructor
      case split => exact h.split
      case nextd => exact h.nextd
      case prevd => exact h.prevd
      case rings => exact h.rings
      case undo => exact h.undo
      case flag_out => exact h.flag_out
      case flag_hi => exact h.flag_hi
      case flag_lo => exact h.flag_lo
      case flag => exact h.flag
      case flag_r => exact h.flag_r
      case area_hi => intro y j hj; simp [set2, show j ≠ d by omega, h.area_hi y j hj]
      case volume_hi => exact h.volume_hi
      case bounds_hi => exact h.bounds_hi
      case sent => intro j; simp [set2, hq0.symm, h.sent]
      case area1 => intro z; simpa [set2, show (1 : ℕ) ≠ d by omega] using h.area1 z
    · intro j hj1 hj2
      intro y hy hlt
      exact cacheAt_congr (hcl (Or.inr hig) j hj1 hj2 y hy hlt) (by simp [set2, show j ≠ d by omega]) rfl
    · intro y hy
      rcases List.mem_append.mp hy with hy | hy
      · have : y ≠ q := fun e => hql (e ▸ hy)
        exact cacheAt_congr (hc y hy) (by simp [set2, this]) rfl
      · have : y = q := by simpa using hy
        subst this
        unfold CacheAt AreaOK
        rw [filter_le hd hS hsplit, filter_lt hd hS hsplit]
        refine ⟨⟨W, hWl.trans (Finset.subset_insert _ _), ?_, ?_⟩, hv⟩
        · simp [set2, hA]
        · intro x hx hxW
          rcases Finset.mem_insert.mp hx with rfl | hx
          · refine ⟨hqfD hig, ?_⟩
            rcases h.flag x hqS hig with h1 | h1
            · exact h1.2
            · exact h1.2.wk hS hd hqS
          · exact hWx x hx hxW
  · have hlenN : (l ++ [q]).toFinset.card = l.length + 1 := by
      rw [List.toFinset_card_of_nodup hnd]; simp
    have hTN := split_sub hd hS h.split
    have hpre : X.Pre (d - 1) (l ++ [q]).toFinset s := by
      constructor
      · intro i hi; exact h.rings i (by omega)
      · intro h2 z hz hge
        refine ⟨by omega, ?_⟩
        rcases hfl (by omega) z (by simpa [or_comm] using hz) hge with h1 | ⟨h1, hD2⟩
        · exact h1
        · exfalso
          rw [hfin] at hz
          rcases Finset.mem_insert.mp hz with rfl | hz
          · omega
          · have hz' := hz
            rw [← filter_lt hd hS hsplit, Finset.mem_filter] at hz'
            have hle := c_le_of_pos hd (hlN hz) hqN hz'.2
            have he : X.c z d = X.c q d := le_antisymm hle (by rw [h1]; exact X.neg q hqN d hd)
            have := X.tie d (by omega) hD2 z (hlN hz) q hqN he
            subst this
            exact lt_irrefl _ hz'.2
      · intro h2 j hj1 hj2
        exact hcl (Or.inl (by rintro rfl; simp at h2)) j hj1 (by omega)
      · exact h.sent
      · intro _ h1 z hz
        have hl0 : l.length = 0 := by omega
        have hz' : z = q := by rw [hfin] at hz; simpa [List.length_eq_zero_iff.mp hl0] using hz
        rw [hz']; omega
      · intro h1 h3 h2
        exact hlast (by omega) (by omega) (by rintro rfl; simp at h2)
      · intro h1; omega
      · exact h.area1
    obtain ⟨s1, hs1, hp⟩ := hrec (l ++ [q]).toFinset s hTN ⟨q, by simp⟩ hpre
    rw [hlenN, show d - 1 + 1 = d by omega] at hs1
    have hpv : s1.prev q d = s.prev q d := by rw [hp.prev]
    have hTS : (l ++ [q]).toFinset ⊆ S := fun z hz =>
      (split_mem hd hS h.split z).1 (Or.inl (by simpa [or_comm] using hz))
    -- the state with the new area
    have hstage : X.Stage d S s₀ (l ++ [q]) r
        { s1 with area := set2 s1.area q d (X.V d (l ++ [q]).toFinset) } := by
      constructor
      case split => exact h.split
      case nextd => intro a; simp [hp.next, h.nextd]
      case prevd => intro a; simp [hp.prev, h.prevd]
      case rings => simpa [hp.next, hp.prev] using h.rings
      case undo => simpa [hp.next, hp.prev] using h.undo
      case flag_out =>
        intro z hz; simp only; rw [hp.flag_out z (fun e => hz (hTS e)), h.flag_out z hz]
      case flag_hi =>
        intro z hz; simp only
        rw [hp.flag_hi z (by rw [h.flag_hi z hz]; omega), h.flag_hi z hz]
      case flag_lo =>
        intro z hz; simp only
        have h1 := h.flag_lo z hz
        by_cases h2 : s.ignore z = d
        · rw [hp.flag_hi z (by omega)]; omega
        · have := hp.flag_lo z (by omega); omega
      case flag =>
        intro z hz hge; simp only at hge
        by_cases h2 : d ≤ s.ignore z
        · exact h.flag z hz h2
        · have := hp.flag_lo z (by omega); omega
      case flag_r =>
        intro z hz; simp only
        rw [hp.flag_out z]
        · exact h.flag_r z hz
        · intro e; exact (split_nodup hd hS h.split).2.2 z (by simpa [or_comm] using e) hz
      case area_hi =>
        intro y j hj
        simp [set2, show j ≠ d by omega, hp.area_hi y j (by omega), h.area_hi y j hj]
      case volume_hi => intro y j hj; simp [hp.volume_hi y j (by omega), h.volume_hi y j hj]
      case bounds_hi => intro j hj; simp [hp.bounds_hi j (by omega), h.bounds_hi j hj]
      case sent => intro j; simp [set2, hq0.symm, hp.sent]
      case area1 => intro z; simpa [set2, show (1 : ℕ) ≠ d by omega] using hp.area1 z
    have hfl1 : 3 ≤ d → ∀ z ∈ l ++ [q], d - 1 ≤ s1.ignore z →
        X.Wk (d - 1) (l ++ [q]).toFinset z ∨ (X.c z d = 0 ∧ d + 2 ≤ X.D) := by
      intro h3 z hz hge
      rcases hp.flag (by omega) z (by simpa [or_comm] using hz) hge with h1 | h1
      · exact Or.inl h1.2
      · omega
    have hcj : ∀ j, 2 ≤ j → j < d → X.Cache j (l ++ [q]).toFinset
        { s1 with area := set2 s1.area q d (X.V d (l ++ [q]).toFinset) } := by
      intro j hj1 hj2 y hy hlt
      exact cacheAt_congr (hp.cache j hj1 (by omega) y hy hlt)
        (by simp [set2, show j ≠ d by omega]) rfl
    have hvol : s1.volume q d = s.volume q d := hp.volume_hi q d (by omega)
    have hcd : ∀ y ∈ l ++ [q], X.CacheAt d S y
        { s1 with area := set2 s1.area q d (X.V d (l ++ [q]).toFinset) } := by
      intro y hy
      rcases List.mem_append.mp hy with hy | hy
      · have : y ≠ q := fun e => hql (e ▸ hy)
        exact cacheAt_congr (hc y hy) (by simp [set2, this, hp.area_hi y d (by omega)])
          (hp.volume_hi y d (by omega))
      · have : y = q := by simpa using hy
        subst this
        exact hfull _ (by simp [set2, hfin]) hvol
    have hbd : s1.bounds d = s.bounds d := hp.bounds_hi d (by omega)
    have hsing : l = [] → s.ignore q = 0 → s.area q 1 = X.V 1 {q} → s1.bounds = s.bounds ∧
        ∀ j, 1 ≤ j → j ≤ d → set2 s1.area q d (X.V d (l ++ [q]).toFinset) q j = X.V j {q} := by
      rintro rfl - ha1
      obtain ⟨b1, b2, b3⟩ := hp.sing (by rw [hlenN]; rfl)
      refine ⟨b1, fun j hj1 hj2 => ?_⟩
      rcases hj2.lt_or_eq with hlt | rfl
      · simp only [set2, hlt.ne, and_false, if_false]
        by_cases hd3 : d = 2
        · obtain rfl : j = 1 := by omega
          rw [b2 (by omega), ha1]
        · exact b3 (by omega) q (by simp) j hj1 (by omega)
      · simp [set2]
    have hbnd : d + 1 = X.D → 4 ≤ d → l ≠ [] → ∃ w ∈ l ++ [q], ∃ w' ∈ l ++ [q],
        s1.bounds (d - 1) = X.c w (d - 1) ∧ X.c w' (d - 1) < X.c w (d - 1) := by
      intro h1 h4 hl0
      have hpos := List.length_pos_iff.mpr hl0
      obtain ⟨w, hw, w', hw', e⟩ := hp.bnd (by omega) (by omega) (by omega)
      exact ⟨w, List.mem_toFinset.mp hw, w', List.mem_toFinset.mp hw', e⟩
    have hprev : s1.area (s1.prev q d) d = X.V d W := by
      rw [hpv, hp.area_hi _ _ (by omega), hA]
    by_cases hle : X.V d (l ++ [q]).toFinset ≤ X.V d W
    · refine ⟨{ s1 with
        area := set2 s1.area q d (X.V d (l ++ [q]).toFinset)
        ignore := set1 s1.ignore q d }, ?_, ?_, ?_, ?_, ?_, ?_, hbd, hsing, hbnd⟩
      · have hpq' : s1.prev q d ≠ q := by rw [hpv]; exact hpq
        rw [hfin] at hle
        simp [visit, hig, hs1, set2, hpq', hprev, hle]
      · have hdom : X.Dom d S q := by
          rw [hfin] at hle
          rcases X.V_le d _ _ hd.le hlN hqN (hle.trans (X.V_mono d _ _ hWl)) with h1 | ⟨z, hz, h2⟩
          · exact Or.inl h1
          · rw [← filter_lt hd hS hsplit] at hz
            simp only [Finset.mem_filter] at hz
            exact Or.inr ⟨z, hz.1, hz.2, h2⟩
        constructor
        case split => exact hstage.split
        case nextd => exact hstage.nextd
        case prevd => exact hstage.prevd
        case rings => exact hstage.rings
        case undo => exact hstage.undo
        case flag_out =>
          intro z hz
          have : z ≠ q := fun e => hz (e ▸ hqS)
          simpa [set1, this] using hstage.flag_out z hz
        case flag_hi =>
          intro z hz
          by_cases e : z = q
          · subst e; have := h.flag_hi z hz; omega
          · simpa [set1, e] using hstage.flag_hi z hz
        case flag_lo =>
          intro z hz
          by_cases e : z = q
          · subst e; simp [set1]
          · simpa [set1, e] using hstage.flag_lo z hz
        case flag =>
          intro z hz hge
          by_cases e : z = q
          · subst e; exact hdom.fl hS hd hqS
          · simp [set1, e] at hge; exact hstage.flag z hz hge
        case flag_r =>
          intro z hz
          have : z ≠ q := by
            rintro rfl; exact (split_nodup hd hS h.split).2.2 z (by simp) hz
          simpa [set1, this] using hstage.flag_r z hz
        case area_hi => exact hstage.area_hi
        case volume_hi => exact hstage.volume_hi
        case bounds_hi => exact hstage.bounds_hi
        case sent => exact hstage.sent
        case area1 => exact hstage.area1
      · intro h3 z hz hge
        by_cases e : z = q
        · subst e
          have hdom : X.Dom d S z := by
            rw [hfin] at hle
            rcases X.V_le d _ _ hd.le hlN hqN (hle.trans (X.V_mono d _ _ hWl)) with h1 | ⟨w, hw, h2⟩
            · exact Or.inl h1
            · rw [← filter_lt hd hS hsplit] at hw
              simp only [Finset.mem_filter] at hw
              exact Or.inr ⟨w, hw.1, hw.2, h2⟩
          obtain ⟨e, rfl⟩ : ∃ e, d = e + 1 := ⟨d - 1, by omega⟩
          exact Fl.down hS (by omega) hd hqS h.split hz (hdom.fl hS hd hqS)
        · simp only [set1, e, if_false] at hge; exact hfl1 h3 z hz hge
      · exact hcj
      · exact hcd
      · exact hvol
    · refine ⟨{ s1 with area := set2 s1.area q d (X.V d (l ++ [q]).toFinset) }, ?_, hstage, hfl1, hcj,
        hcd, hvol, hbd, hsing, hbnd⟩
      have hpq' : s1.prev q d ≠ q := by rw [hpv]; exact hpq
      rw [hfin] at hle
      simp [visit, hig, hs1, set2, hpq', hprev, hle]

/-- The value invariant of the sweep (`hvol` when node `p` is linked after `q`). -/
theorem slab_step {hvol : K} (p : ℕ) (hsplit : l ++ q :: r = X.L d S)
    (hvol_eq : hvol = X.V (d + 1) l.toFinset + X.V d l.toFinset * X.c q d) :
    hvol + X.V d (insert q l.toFinset) * (X.c p d - X.c q d) =
      X.V (d + 1) (insert q l.toFinset) + X.V d (insert q l.toFinset) * X.c p d := by
  have hqS : q ∈ S := by rw [← mem_L hd hS, ← hsplit]; simp
  have hlN : l.toFinset ⊆ X.N := split_sub hd hS (r := q :: r) hsplit
  have hle : ∀ z ∈ l.toFinset, X.c z d ≤ X.c q d := by
    intro z hz
    rw [← filter_lt hd hS hsplit, Finset.mem_filter] at hz
    exact c_le_of_pos hd (hS hz.1) (hS hqS) hz.2
  rw [X.V_slab d _ _ hd hlN (hS hqS) hle, hvol_eq]
  ring

theorem slab_final {hvol : K} (hsplit : l ++ [q] = X.L d S)
    (hvol_eq : hvol = X.V (d + 1) l.toFinset + X.V d l.toFinset * X.c q d) :
    hvol - X.V d (insert q l.toFinset) * X.c q d = X.V (d + 1) S := by
  have hqS : q ∈ S := by rw [← mem_L hd hS, ← hsplit]; simp
  have hlN : l.toFinset ⊆ X.N := split_sub hd hS (r := [q]) hsplit
  have hle : ∀ z ∈ l.toFinset, X.c z d ≤ X.c q d := by
    intro z hz
    rw [← filter_lt hd hS (r := []) hsplit, Finset.mem_filter] at hz
    exact c_le_of_pos hd (hS hz.1) (hS hqS) hz.2
  have hSe : S = insert q l.toFinset := by
    rw [← toFinset_L hd hS, ← hsplit]; ext z; simp
  rw [hSe, X.V_slab d _ _ hd hlN (hS hqS) hle, hvol_eq]
  ring

/-- Between tied nodes the area does not matter, otherwise it is exact. -/
theorem area_step (hd2 : 2 ≤ d) {p : ℕ} (hsplit : l ++ q :: (p :: r) = X.L d S)
    (hc : X.CacheAt d S q s) :
    s.area q d * (X.c p d - X.c q d) = X.V d (insert q l.toFinset) * (X.c p d - X.c q d) := by
  have hpS : p ∈ S := by rw [← mem_L hd hS, ← hsplit]; simp
  have hpw := pairwise_c_L hd S
  rw [← hsplit, List.pairwise_append, List.pairwise_cons, List.pairwise_cons] at hpw
  obtain ⟨-, ⟨h1, h2, -⟩, -⟩ := hpw
  rcases (h1 p (by simp)).lt_or_eq with hlt | heq
  · rw [area_exact hd hS hd2 hsplit ?_ ?_ hc]
    · intro z hz
      rcases List.mem_cons.mp hz with rfl | hz
      · exact hlt
      · exact lt_of_lt_of_le hlt (h2 z hz)
    · exact (lt_of_lt_of_le hlt (X.neg p (hS hpS) d hd)).ne
  · rw [heq]; simp

/-- The reinsertion sweep. -/
theorem sweepLoop_spec {rec : ℕ → ML K → Option (K × ML K)} (hd2 : 2 ≤ d)
    (hrec : X.RecSpec (d - 1) rec)
    (h0 : IsRing (s₀.next · d) (s₀.prev · d) (X.L d S)) :
    ∀ (r : List ℕ) (fuel : ℕ) (l : List ℕ) (q : ℕ) (hvol : K) (s : ML K), r.length ≤ fuel →
    X.Stage d S s₀ (l ++ [q]) r s →
    (3 ≤ d → ∀ z ∈ l ++ [q], d - 1 ≤ s.ignore z → X.Wk (d - 1) (l ++ [q]).toFinset z ∨ (X.c z d = 0 ∧ d + 2 ≤ X.D)) →
    (∀ j, 2 ≤ j → j < d → X.Cache j (l ++ [q]).toFinset s) →
    (∀ y ∈ l ++ [q], X.CacheAt d S y s) →
    hvol = X.V (d + 1) l.toFinset + X.V d l.toFinset * X.c q d →
    (d + 2 = X.D → 3 ≤ d → 2 ≤ S.card → r = [] →
      ∃ w ∈ S, ∃ w' ∈ S, s.bounds d = X.c w d ∧ X.c w' d < X.c w d) →
    (d + 1 = X.D → 4 ≤ d → l = [] → (∀ j, 1 ≤ j → j ≤ d → s.area q j = X.V j {q}) ∧
      ∀ y ∈ X.N, s.bounds (d - 1) ≤ X.c y (d - 1)) →
    (d + 1 = X.D → 4 ≤ d → l ≠ [] → ∃ w ∈ l ++ [q], ∃ w' ∈ l ++ [q],
      s.bounds (d - 1) = X.c w (d - 1) ∧ X.c w' (d - 1) < X.c w (d - 1)) →
    (S.card = 1 → s.bounds = s₀.bounds ∧ ∀ z ∈ S, ∀ j, 1 ≤ j → j ≤ d → s.area z j = X.V j {z}) →
    ∃ s', sweepLoop X.c rec d fuel hvol (l.length + 1) ((r ++ [0]).head (by simp)) q s =
        some (X.V (d + 1) S, s') ∧ X.Post d S s₀ s' := by
  intro r
  induction r with
  | nil =>
    intro fuel l q hvol s _ h hfl hcl hc hv hb1 hb2 hb3 hb4
    have hsplit : l ++ q :: [] = X.L d S := by rw [← h.split]; simp
    have ha : hvol - s.area q d * X.c q d = X.V (d + 1) S := by
      rw [← slab_final hd hS hsplit hv]
      by_cases hz : X.c q d = 0
      · simp [hz]
      · rw [area_exact hd hS hd2 hsplit (by simp) hz (hc q (by simp))]
    refine ⟨s, ?_, ?_⟩
    · unfold sweepLoop
      simp [ha]
    · have hSe : (l ++ [q]).toFinset = S := by
        rw [← toFinset_L hd hS, ← hsplit]
      obtain ⟨u1, u2⟩ := h.undo
      exact { next := u1, prev := u2, flag_out := h.flag_out, flag_hi := h.flag_hi
              flag_lo := h.flag_lo, flag := fun _ => h.flag
              cache := by
                intro j hj1 hj2
                rcases hj2.lt_or_eq with hlt | rfl
                · rw [← hSe]; exact hcl j hj1 hlt
                · intro y hy _
                  rw [← hSe] at hy
                  exact hc y (List.mem_toFinset.mp hy)
              area_hi := h.area_hi, volume_hi := h.volume_hi, bounds_hi := h.bounds_hi
              sent := h.sent, area1 := h.area1
              sing := fun h1 => ⟨(hb4 h1).1, fun h2 => by omega, fun _ => (hb4 h1).2⟩
              bnd := fun h1 h2 h3 => hb1 h1 h2 h3 rfl }
  | cons p r ih =>
    intro fuel l q hvol s hf h hfl hcl hc hv hb1 hb2 hb3 hb4
    obtain ⟨fuel, rfl⟩ : ∃ f, fuel = f + 1 := ⟨fuel - 1, by simp at hf; omega⟩
    have hsplit : l ++ q :: (p :: r) = X.L d S := by rw [← h.split]; simp
    have hpS : p ∈ S := (split_mem hd hS h.split p).1 (Or.inr (by simp))
    have hpN := hS hpS
    have hp0 : p ≠ 0 := fun e => X.zero_notMem (e ▸ hpN)
    have hpl : p ∉ l ++ [q] := fun hh => (split_nodup hd hS h.split).2.2 p hh (by simp)
    have hfinq : (l ++ [q]).toFinset = insert q l.toFinset := by ext z; simp
    have hfin : (l ++ [q] ++ [p]).toFinset = insert p (l ++ [q]).toFinset := toFinset_concat _ _
    have hlqN : (l ++ [q]).toFinset ⊆ X.N := split_sub hd hS h.split
    have ha : s.area q d * (X.c p d - X.c q d) =
        X.V d (insert q l.toFinset) * (X.c p d - X.c q d) :=
      area_step hd hS hd2 hsplit (hc q (by simp))
    have hstep := slab_step hd hS (r := p :: r) p hsplit hv
    have hst := h.reinsert hd hS (X.c p d)
    set hvol' := hvol + s.area q d * (X.c p d - X.c q d) with hvol'_def
    set s1 := Verif.HV.reinsert X.c p d { s with bounds := set1 s.bounds d (X.c p d) } with hs1
    have hi1 : s1.ignore = s.ignore := by simp [hs1]
    have ha1 : s1.area = s.area := by simp [hs1]
    have hv1 : s1.volume = s.volume := by simp [hs1]
    have hbs : ∀ j < d, s1.bounds j = min (s.bounds j) (X.c p j) := by
      intro j hj; rw [hs1, reinsert_bounds]; simp [hj, set1, show j ≠ d by omega]
    have hvol'_eq : hvol' = X.V (d + 1) (l ++ [q]).toFinset + X.V d (l ++ [q]).toFinset * X.c p d := by
      rw [hvol'_def, ha, hstep, hfinq]
    set s2 : ML K := { s1 with volume := set2 s1.volume p d hvol' } with hs2
    have hst2 : X.Stage d S s₀ (l ++ [q] ++ [p]) r s2 := by
      constructor
      case split => exact hst.split
      case nextd => exact hst.nextd
      case prevd => exact hst.prevd
      case rings => exact hst.rings
      case undo => exact hst.undo
      case flag_out => exact hst.flag_out
      case flag_hi => exact hst.flag_hi
      case flag_lo => exact hst.flag_lo
      case flag => exact hst.flag
      case flag_r => exact hst.flag_r
      case area_hi => exact hst.area_hi
      case volume_hi => intro y j hj; simp [hs2, set2, show j ≠ d by omega, hst.volume_hi y j hj]
      case bounds_hi => exact hst.bounds_hi
      case sent => exact hst.sent
      case area1 => exact hst.area1
    have hfl2 : 3 ≤ d → ∀ z ∈ l ++ [q] ++ [p], d - 1 ≤ s2.ignore z →
        X.Wk (d - 1) (l ++ [q] ++ [p]).toFinset z ∨ (X.c z d = 0 ∧ d + 2 ≤ X.D) := by
      intro h3 z hz hge
      have hge' : d - 1 ≤ s.ignore z := by simpa [hs2, hi1] using hge
      rcases List.mem_append.mp hz with hz' | hz'
      · rcases hfl h3 z hz' hge' with h1 | h1
        · exact Or.inl (h1.mono (by rw [hfin]; exact Finset.subset_insert _ _))
        · exact Or.inr h1
      · have : z = p := by simpa using hz'
        subst this
        rcases h.flag_r z (by simp) with h1 | h1
        · omega
        · obtain ⟨e, rfl⟩ : ∃ e, d = e + 1 := ⟨d - 1, by omega⟩
          exact Fl.down hS (by omega) hd hpS hst.split hz (h.flag z hpS h1.1)
    have hqf2 : s2.ignore p = 0 ∨ (d ≤ s2.ignore p ∧ d + 2 ≤ X.D) := by
      simpa [hs2, hi1] using h.flag_r p (by simp)
    have hcl2 : l ++ [q] ≠ [] ∨ d ≤ s2.ignore p → ∀ j, 2 ≤ j → j < d → X.Cache j (l ++ [q] ++ [p]).toFinset s2 := by
      intro _ j hj1 hj2
      rw [hfin]
      refine cache_insert (by omega) hpN hlqN (s := s) ?_ ?_ ?_ ?_ (hcl j hj1 hj2)
      · intro y; simp [hs2, ha1]
      · intro y; simp [hs2, hv1, set2, show j ≠ d by omega]
      · simp [hs2, hbs j hj2]
      · simp [hs2, hbs j hj2]
    have hc2 : ∀ y ∈ l ++ [q], X.CacheAt d S y s2 := by
      intro y hy
      have : y ≠ p := fun e => hpl (e ▸ hy)
      exact cacheAt_congr (hc y hy) (by simp [hs2, ha1]) (by simp [hs2, hv1, set2, this])
    have hv2 : s2.volume p d =
        X.V (d + 1) (l ++ [q]).toFinset + X.V d (l ++ [q]).toFinset * X.c p d := by
      simp only [hs2, set2, and_self, if_true]; exact hvol'_eq
    have hqS : q ∈ S := (split_mem hd hS h.split q).1 (Or.inl (by simp))
    have hlast2 : d + 1 = X.D → 4 ≤ d → l ++ [q] ≠ [] → X.Last (d - 1) (l ++ [q] ++ [p]).toFinset s2 := by
      intro hD h4 _
      refine ⟨p, by simp, ?_, ?_⟩
      · rcases hqf2 with h1 | h1
        · exact h1
        · omega
      · have hbp : s2.bounds (d - 1) = min (s.bounds (d - 1)) (X.c p (d - 1)) := by
          simp only [hs2]; exact hbs (d - 1) (by omega)
        by_cases hl0 : l = []
        · obtain ⟨ha', hb'⟩ := hb2 hD h4 hl0
          refine Or.inl ⟨q, ?_, fun j hj1 hj2 => ?_, fun y hy => ?_⟩
          · subst hl0; ext z; simp
          · have : s2.area q j = s.area q j := by simp [hs2, ha1]
            rw [this]; exact ha' j hj1 (by omega)
          · rw [hbp]
            exact (min_le_left _ _).trans (hb' y (split_sub hd hS hst.split hy))
        · right
          obtain ⟨w, hw, w', hw', e1, e2⟩ := hb3 hD h4 hl0
          rw [hbp, e1]
          rcases le_total (X.c w (d - 1)) (X.c p (d - 1)) with hle | hle
          · exact Or.inr ⟨w, List.mem_toFinset.mpr (List.mem_append_left _ hw), w',
              List.mem_toFinset.mpr (List.mem_append_left _ hw'), min_eq_left hle, e2⟩
          · exact Or.inl (min_eq_right hle)
    obtain ⟨s3, e3, hst3, hfl3, hcl3, hc3, hv3, hbd3, -, hbn3⟩ :=
      visit_spec hd hS hd2 hrec hst2 h0 hqf2 hfl2 hcl2 hc2 hv2 hlast2
    have hcard2 : 2 ≤ S.card := by
      rw [← length_L hd hS, ← hsplit]; simp; omega
    obtain ⟨s', e', hpost⟩ := ih fuel (l ++ [q]) p hvol' s3 (by simp at hf; omega) hst3 hfl3 hcl3 hc3
      hvol'_eq
      (by
        intro hD h3 _ _
        refine ⟨p, hpS, q, hqS, ?_, ?_⟩
        · rw [hbd3]
          simp only [hs2]
          rw [hs1, reinsert_bounds]; simp [set1]
        · have hpw := pairwise_c_L hd S
          rw [← hsplit, List.pairwise_append, List.pairwise_cons] at hpw
          refine lt_of_le_of_ne (hpw.2.1.1 p (by simp)) fun he => hpl ?_
          rw [← X.tie d h3 (by omega) q (hS hqS) p hpN he]; simp)
      (fun _ _ h1 => absurd h1 (by simp)) (fun h1 h4 h2 => hbn3 h1 h4 h2) (fun h1 => by omega)
    refine ⟨s', ?_, hpost⟩
    rw [← e']
    have hnext : s1.next p d = (r ++ [0]).head (by simp) := (hst.nbr hd hS h0).2
    conv_lhs => unfold sweepLoop
    have hlen : l.length + 1 + 1 = (l ++ [q]).length + 1 := by simp
    simp only [List.cons_append, List.head_cons, hp0, if_false]
    rw [← hs1, ← hvol'_def, hnext, hlen, ← hs2, e3]

/-! ### The removal loop -/

/-- Invariant of the removal loop. -/
structure Rem (X : Ctx K) (d : ℕ) (S : Finset ℕ) (s₀ : ML K) (l r : List ℕ) (s : ML K) : Prop where
  stage : X.Stage d S s₀ l r s
  flags : ∀ q ∈ S, s.ignore q = 0 ∨ (d ≤ s.ignore q ∧ d + 2 ≤ X.D)
  cache : 2 ≤ S.card → ∀ j, 2 ≤ j → j < d → X.Cache j l.toFinset s
  cached : 2 ≤ S.card → X.Cache d S s
  one : S.card = 1 → ∀ q ∈ S, s.ignore q = 0
  ign : ∀ q, s.ignore q = 0 ∨ s₀.ignore q ≠ 0
  area : s.area = s₀.area
  boundd : s.bounds d = s₀.bounds d
  boundle : ∀ j, s.bounds j ≤ s₀.bounds j
  removed : ∀ x ∈ r, X.c x d > s.bounds d ∨ ∃ y ∈ S, X.pos d y < X.pos d x ∧ X.c y d ≥ s.bounds d
  bound0 : r = [] → s.bounds = s₀.bounds

theorem Rem.step (h : X.Rem d S s₀ (l ++ [q]) r s)
    (hwhy : X.c q d > s.bounds d ∨ ∃ y ∈ S, X.pos d y < X.pos d q ∧ X.c y d ≥ s.bounds d) :
    X.Rem d S s₀ l (q :: r) (Verif.HV.remove X.c q d s) := by
  have hqS : q ∈ S := (split_mem hd hS h.stage.split q).1 (Or.inl (by simp))
  have hfin : (l ++ [q]).toFinset = insert q l.toFinset := by ext z; simp
  have hlN : l.toFinset ⊆ X.N := fun z hz =>
    split_sub hd hS h.stage.split (by rw [hfin]; exact Finset.mem_insert_of_mem hz)
  refine ⟨h.stage.remove hd hS (h.flags q hqS), by simpa using h.flags, ?_, ?_, ?_, ?_, ?_, ?_, ?_,
    ?_, ?_⟩
  · intro h2 j hj1 hj2
    have := h.cache h2 j hj1 hj2
    rw [hfin] at this
    refine cache_erase (by omega) (hS hqS) hlN (by simp) (by simp) ?_ ?_ this
    · rw [remove_bounds]; simp [hj2]
    · rw [remove_bounds]; simp [hj2]
  · intro h2 y hy hlt
    rw [remove_bounds] at hlt
    simp at hlt
    exact cacheAt_congr (h.cached h2 y hy hlt) (by simp) (by simp)
  · simpa using h.one
  · simpa using h.ign
  · simpa using h.area
  · rw [remove_bounds]; simp [h.boundd]
  · intro j
    refine le_trans ?_ (h.boundle j)
    rw [remove_bounds]
    split
    · exact min_le_left _ _
    · exact le_rfl
  · intro x hx
    have hb : (Verif.HV.remove X.c q d s).bounds d = s.bounds d := by rw [remove_bounds]; simp
    rw [hb]
    rcases List.mem_cons.mp hx with rfl | hx
    · exact hwhy
    · exact h.removed x hx
  · intro hcon; simp at hcon

theorem removeLoop_spec (h0 : IsRing (s₀.next · d) (s₀.prev · d) (X.L d S)) :
    ∀ (l r : List ℕ) (q : ℕ) (s : ML K), X.Rem d S s₀ (l ++ [q]) r s →
    ∃ l' q' r' s', removeLoop X.c d (l.length + 1) ((r ++ [0]).head (by simp)) q s =
        some ⟨l'.length + 1, (r' ++ [0]).head (by simp), q', s'⟩ ∧
      X.Rem d S s₀ (l' ++ [q']) r' s' ∧
      (l' = [] ∨ ∃ m qp, l' = m ++ [qp] ∧ X.c qp d < s'.bounds d) := by
  intro l
  induction l using List.reverseRecOn with
  | nil =>
    intro r q s h
    exact ⟨[], q, r, s, by simp [removeLoop], h, Or.inl rfl⟩
  | append_singleton l a ih =>
    intro r q s h
    have hqS : q ∈ S := (split_mem hd hS h.stage.split q).1 (Or.inl (by simp))
    have haS : a ∈ S := (split_mem hd hS h.stage.split a).1 (Or.inl (by simp))
    have hq0 : q ≠ 0 := fun e => X.zero_notMem (e ▸ hS hqS)
    have ha0 : a ≠ 0 := fun e => X.zero_notMem (e ▸ hS haS)
    have hpv : s.prev q d = a := by
      rw [(h.stage.nbr hd hS h0).1]; simp
    have hlen : (l ++ [a]).length + 1 = l.length + 2 := by simp
    rw [hlen]
    unfold removeLoop
    simp only [hq0, if_false, hpv, ha0]
    have hrec := fun hwhy => ih (q :: r) a (Verif.HV.remove X.c q d s) (h.step hd hS hwhy)
    simp only [List.cons_append, List.head_cons] at hrec
    by_cases h1 : X.c q d > s.bounds d
    · simp only [h1, if_true]; exact hrec (Or.inl h1)
    · simp only [h1, if_false]
      by_cases h2 : X.c a d ≥ s.bounds d
      · simp only [h2, if_true]
        refine hrec (Or.inr ⟨a, haS, ?_, h2⟩)
        have hsp : (l ++ [a]) ++ q :: r = X.L d S := by rw [← h.stage.split]; simp
        have ha' : a ∈ S.filter (fun z => X.pos d z < X.pos d q) := by
          rw [filter_lt hd hS hsp]; simp
        exact (Finset.mem_filter.mp ha').2
      · simp only [h2, if_false]
        exact ⟨l ++ [a], q, r, s, by simp, h, Or.inr ⟨l, a, rfl, not_le.mp h2⟩⟩

/-! ### One level -/

theorem level_spec {rec : ℕ → ML K → Option (K × ML K)} (hd2 : 2 ≤ d)
    (hrec : X.RecSpec (d - 1) rec) {fuel : ℕ} (hfuel : S.card ≤ fuel) (hne : S.Nonempty)
    (hpre : X.Pre d S s) :
    ∃ s', level X.c fuel rec d S.card s = some (X.V (d + 1) S, s') ∧ X.Post d S s s' := by
  have h0 : IsRing (s.next · d) (s.prev · d) (X.L d S) := hpre.ring d le_rfl
  obtain ⟨l, q, hl⟩ : ∃ l q, X.L d S = l ++ [q] := by
    rcases List.eq_nil_or_concat' (X.L d S) with h | h
    · exfalso
      have := length_L hd hS
      rw [h] at this
      exact hne.ne_empty (Finset.card_eq_zero.mp this.symm)
    · exact h
  have hlen : S.card = l.length + 1 := by rw [← length_L hd hS, hl]; simp
  have h0' := h0
  rw [hl] at h0'
  have hlast : s.prev 0 d = q := h0'.last.2
  -- reset
  set s1 : ML K := { s with ignore := fun x => if x ∈ X.L d S ∧ s.ignore x < d then 0 else s.ignore x }
    with hs1
  have hreset : resetLoop d fuel (s.prev 0 d) s = some s1 := by
    have hch : List.IsChain (fun a b => s.next a d = b ∧ s.prev b d = a) (0 :: X.L d S) := by
      have : List.IsChain (fun a b => s.next a d = b ∧ s.prev b d = a)
        ((0 :: X.L d S) ++ [0]) := h0
      rw [List.isChain_append] at this
      exact this.1
    have := resetLoop_spec (K := K) d (X.L d S) fuel s (by rw [length_L hd hS]; exact hfuel)
      (fun e => X.zero_notMem (hS ((mem_L hd hS).1 e))) (nodup_L hd S) hch
    rw [← this]
    congr 1
    rw [hlast]
    simp [hl]
  have hrem1 : X.Rem d S s (l ++ [q]) [] s1 := by
    have hSe : (l ++ [q]).toFinset = S := by rw [← hl]; exact toFinset_L hd hS
    refine ⟨?_, ?_, ?_, ?_, ?_, ?_, rfl, rfl, fun _ => le_rfl, by simp, fun _ => rfl⟩
    · constructor
      case split => simp [hl]
      case nextd => intro a; rfl
      case prevd => intro a; rfl
      case rings => intro i hi; rw [hSe]; exact hpre.ring i (by omega)
      case undo => exact ⟨rfl, rfl⟩
      case flag_out =>
        intro z hz
        simp [hs1, mem_L hd hS, hz]
      case flag_hi =>
        intro z hz
        simp [hs1, show ¬ s.ignore z < d by omega]
      case flag_lo =>
        intro z hz
        simp only [hs1]
        split <;> omega
      case flag =>
        intro z hz hge
        refine Or.inl (hpre.flag hd2 z hz ?_)
        simp only [hs1] at hge
        split at hge <;> omega
      case flag_r => simp
      case area_hi => intro y j _; rfl
      case volume_hi => intro y j _; rfl
      case bounds_hi => intro j _; rfl
      case sent => exact hpre.sent
      case area1 => exact hpre.area1
    · intro z hz
      simp only [hs1, mem_L hd hS, hz, true_and]
      split
      · exact Or.inl rfl
      · rename_i hge
        exact Or.inr ⟨not_lt.mp hge, (hpre.flag hd2 z hz (not_lt.mp hge)).1⟩
    · intro h2 j hj1 hj2
      rw [hSe]
      exact hpre.cache h2 j hj1 (by omega)
    · intro h2
      exact hpre.cache h2 d hd2 le_rfl
    · intro h1 z hz
      simp only [hs1, hpre.one hd2 h1 z hz]
      split <;> rfl
    · intro z
      simp only [hs1]
      split
      · exact Or.inl rfl
      · by_cases hz : s.ignore z = 0
        · exact Or.inl hz
        · exact Or.inr hz
  obtain ⟨l', q', r', s2, e2, hrem2, hstop⟩ := removeLoop_spec hd hS h0 l [] q s1 hrem1
  have hst2 := hrem2.stage
  have hq'S : q' ∈ S := (split_mem hd hS hst2.split q').1 (Or.inl (by simp))
  have hq'N := hS hq'S
  have hq'0 : q' ≠ 0 := fun e => X.zero_notMem (e ▸ hq'N)
  have hsplit2 : l' ++ q' :: r' = X.L d S := by rw [← hst2.split]; simp
  have hlenr : r'.length ≤ fuel := by
    have h1 : (X.L d S).length ≤ fuel := by rw [length_L hd hS]; exact hfuel
    rw [← hsplit2] at h1
    simp at h1; omega
  have hfl2 : 3 ≤ d → ∀ z ∈ l' ++ [q'], d - 1 ≤ s2.ignore z →
      X.Wk (d - 1) (l' ++ [q']).toFinset z ∨ (X.c z d = 0 ∧ d + 2 ≤ X.D) := by
    intro h3 z hz hge
    have hzS : z ∈ S := (split_mem hd hS hst2.split z).1 (Or.inl hz)
    rcases hrem2.flags z hzS with h1 | h1
    · omega
    · obtain ⟨e, rfl⟩ : ∃ e, d = e + 1 := ⟨d - 1, by omega⟩
      exact Fl.down hS (by omega) hd hzS hst2.split hz (hst2.flag z hzS h1.1)
  have hqf2 : s2.ignore q' = 0 ∨ (d ≤ s2.ignore q' ∧ d + 2 ≤ X.D) := hrem2.flags q' hq'S
  have hlev : level X.c fuel rec d S.card s =
      if l'.length + 1 > 1 then
          if s2.prev q' d = 0 then none
          else
            let hvol := s2.volume (s2.prev q' d) d +
              s2.area (s2.prev q' d) d * (X.c q' d - X.c (s2.prev q' d) d)
            match visit rec d (l'.length + 1) q' { s2 with volume := set2 s2.volume q' d hvol } with
            | none => none
            | some s => sweepLoop X.c rec d fuel hvol (l'.length + 1) ((r' ++ [0]).head (by simp)) q' s
        else
          match visit rec d (l'.length + 1) q'
            { initArea X.c d q' s2 with volume := set2 (initArea X.c d q' s2).volume q' d 0 } with
          | none => none
          | some s => sweepLoop X.c rec d fuel 0 (l'.length + 1) ((r' ++ [0]).head (by simp)) q' s := by
    unfold level
    rw [hreset]
    have hpv1 : s1.prev 0 d = q := hlast
    have e2' : removeLoop X.c d S.card 0 (s1.prev 0 d) s1 =
        some ⟨l'.length + 1, (r' ++ [0]).head (by simp), q', s2⟩ := by
      rw [hpv1, hlen]; exact e2
    simp only [e2', hq'0, if_false]
    rfl
  rw [hlev]
  by_cases hl' : l' = []
  · -- a single node is left
    subst hl'
    simp only [List.length_nil, Nat.zero_add, gt_iff_lt, lt_irrefl, if_false]
    set s3 : ML K := { initArea X.c d q' s2 with
      volume := set2 (initArea X.c d q' s2).volume q' d 0 } with hs3
    have hst3 : X.Stage d S s ([] ++ [q']) r' s3 := by
      constructor
      case split => exact hst2.split
      case nextd => exact hst2.nextd
      case prevd => exact hst2.prevd
      case rings => exact hst2.rings
      case undo => exact hst2.undo
      case flag_out => exact hst2.flag_out
      case flag_hi => exact hst2.flag_hi
      case flag_lo => exact hst2.flag_lo
      case flag => exact hst2.flag
      case flag_r => exact hst2.flag_r
      case area_hi =>
        intro y j hj
        simp only [hs3, initArea, set2, show ¬ (y = q' ∧ 1 ≤ j ∧ j ≤ d) by omega, if_false,
          show ¬ (y = q' ∧ j = 0) by omega]
        exact hst2.area_hi y j hj
      case volume_hi =>
        intro y j hj
        simp [hs3, initArea, set2, show j ≠ d by omega, hst2.volume_hi y j hj]
      case bounds_hi => exact hst2.bounds_hi
      case sent => intro j; simp [hs3, initArea, set2, hq'0.symm, hst2.sent]
      case area1 =>
        intro z
        by_cases hz : z = q'
        · subst hz; right; simp [hs3, initArea, set2, show 1 ≤ d by omega]
        · simpa [hs3, initArea, set2, hz] using hst2.area1 z
    have hcl3 : ([] : List ℕ) ≠ [] ∨ d ≤ s3.ignore q' →
        ∀ j, 2 ≤ j → j < d → X.Cache j ([] ++ [q']).toFinset s3 := by
      intro hor j hj1 hj2
      have hge : d ≤ s2.ignore q' := by
        rcases hor with h1 | h1
        · exact absurd rfl h1
        · exact h1
      have hD2 : d + 2 ≤ X.D := by
        rcases hqf2 with h1 | h1
        · omega
        · exact h1.2
      have hcard : 2 ≤ S.card := by
        by_contra hcon
        have h1 : S.card = 1 := by have := Finset.card_pos.mpr hne; omega
        have := hrem2.one h1 q' hq'S
        omega
      have hwk : X.Wk d S q' := by
        rcases hst2.flag q' hq'S hge with h1 | h1
        · exact h1.2
        · omega
      obtain ⟨p, r'', hr''⟩ : ∃ p r'', r' = p :: r'' := by
        rcases r' with _ | ⟨p, r''⟩
        · exfalso
          have := length_L hd hS
          rw [← hsplit2] at this
          simp at this; omega
        · exact ⟨p, r'', rfl⟩
      have hfirst : ∀ z ∈ S, z ≠ q' → X.pos d q' < X.pos d z := by
        intro z hz hzq
        by_contra hcon
        push Not at hcon
        have hlt : X.pos d z < X.pos d q' :=
          lt_of_le_of_ne hcon fun e => hzq (pos_inj hd (hS hz) e)
        have : z ∈ S.filter (fun z => X.pos d z < X.pos d q') := by simp [hz, hlt]
        rw [filter_lt hd hS hsplit2] at this
        simp at this
      have hzero : ∃ i ≤ d, X.c q' i = 0 := by
        rcases hwk with h1 | ⟨z, hz, hzq, hle⟩
        · exact h1
        · exfalso
          have h1 := c_le_of_pos hd hq'N (hS hz) (hfirst z hz hzq)
          exact hzq (X.tie d (by omega) hD2 z (hS hz) q' hq'N (le_antisymm (hle d le_rfl) h1))
      obtain ⟨i, hi, h0i⟩ := hzero
      have hD7 : X.D ≤ 6 := by
        by_contra hcon
        exact X.null (by omega) q' hq'N i (by omega) h0i
      have hilt : i < d := by
        refine lt_of_le_of_ne hi ?_
        rintro rfl
        have hpS : p ∈ S := (split_mem hd hS hsplit2 p).1 (Or.inr (by simp [hr'']))
        have hpq : p ≠ q' := by
          rintro rfl
          have := (split_nodup hd hS hst2.split).2.2 p (by simp)
          exact this (by simp [hr''])
        have h1 := c_le_of_pos hd hq'N (hS hpS) (hfirst p hpS hpq)
        have h2 := X.neg p (hS hpS) i hd
        exact hpq (X.tie i (by omega) hD2 p (hS hpS) q' hq'N
          (le_antisymm (by rw [h0i]; exact h2) h1))
      intro y hy hlt
      have hyq : y = q' := by simpa using hy
      subst hyq
      have hold := (hrem2.cache hcard j hj1 hj2 y (by simp) hlt).2
      have hset : (([] : List ℕ) ++ [y]).toFinset = {y} := by simp
      rw [hset] at hold ⊢
      have hvol : s3.volume y j = s2.volume y j := by simp [hs3, initArea, set2, hj2.ne]
      refine ⟨?_, by rw [hvol]; exact hold⟩
      have hfil : ({y} : Finset ℕ).filter (fun z => X.pos j z ≤ X.pos j y) = {y} := by
        ext z; simp only [Finset.mem_filter, Finset.mem_singleton]
        exact ⟨fun h => h.1, fun h => ⟨h, by rw [h]⟩⟩
      obtain ⟨k, rfl⟩ : ∃ k, j = k + 1 := ⟨j - 1, by omega⟩
      have harea : s3.area y (k + 1) = s2.area y k * -(X.c y k) := by
        have : k ≠ 0 := by omega
        simp [hs3, initArea, set2, this, hj2.le]
      unfold AreaOK
      rw [hfil, harea]
      have hexact : s2.area y k = X.V k {y} → ∃ U ⊆ ({y} : Finset ℕ),
          s2.area y k * -(X.c y k) = X.V (k + 1) U ∧
            ∀ x ∈ ({y} : Finset ℕ), x ∉ U → k + 1 + 2 ≤ X.D ∧ X.Wk (k + 1) {y} x := fun h1 =>
        ⟨{y}, by simp, by rw [h1, V_single_succ (by omega) hq'N], fun x hx hn => absurd hx hn⟩
      by_cases hd3 : d = 3
      · obtain rfl : k = 1 := by omega
        rcases hst2.area1 y with h1 | h1
        · refine ⟨∅, by simp, by rw [h1, X.V_empty]; ring, ?_⟩
          intro x hx _
          rw [Finset.mem_singleton.mp hx]
          exact ⟨by omega, Or.inl ⟨i, by omega, h0i⟩⟩
        · exact hexact (by rw [h1, V_single_zero (by omega) hq'N])
      · obtain ⟨p, hpS, hp0, hcase⟩ := hpre.last (by omega) (by omega) hcard
        have hpy : p ≠ y := by
          rintro rfl
          rcases hrem2.ign p with h1 | h1
          · omega
          · exact h1 hp0
        have hmem : ∀ x ∈ S, x ≠ y → x ∈ r' := by
          intro x hx hxy
          have := (split_mem hd hS hsplit2 x).2 hx
          simpa [hxy] using this
        have hno : ∀ w ∈ S, w ≠ y → s.bounds d = X.c w d → False := by
          intro w hw hwy hb
          rcases hrem2.removed w (hmem w hw hwy) with h1 | ⟨x, hx, h1, h2⟩
          · rw [hrem2.boundd, hb] at h1; exact lt_irrefl _ h1
          · rw [hrem2.boundd, hb] at h2
            have h3 := c_le_of_pos hd (hS hx) (hS hw) h1
            have := X.tie d (by omega) hD2 x (hS hx) w (hS hw) (le_antisymm h3 h2)
            subst this
            exact lt_irrefl _ h1
        rcases hcase with ⟨q, hSq, hqa, -⟩ | hb | ⟨w, hw, w', hw', hb, hlt'⟩
        · have hqy : y = q := by
            have := hq'S
            rw [hSq] at this
            simp only [Finset.mem_insert, Finset.mem_singleton] at this
            exact this.resolve_right fun e => hpy e.symm
          subst hqy
          exact hexact (by rw [hrem2.area]; exact hqa k (by omega) (by omega))
        · exact (hno p hpS hpy hb).elim
        · refine (hno w hw ?_ hb).elim
          rintro rfl
          by_cases e : w' = w
          · subst e; exact lt_irrefl _ hlt'
          · exact absurd (c_le_of_pos hd hq'N (hS hw') (hfirst w' hw' e)) (not_le.mpr hlt')
    have hbtop : d + 1 = X.D → 4 ≤ d → ∀ y ∈ X.N, s3.bounds (d - 1) ≤ X.c y (d - 1) := by
      intro h1 h4 y hy
      exact (hrem2.boundle (d - 1)).trans (hpre.low h1 (d - 1) (by omega) (by omega) y hy)
    have har1 : s3.area q' 1 = X.V 1 {q'} := by
      rw [V_single_zero (by omega) hq'N]
      simp [hs3, initArea, set2, show 1 ≤ d by omega]
    obtain ⟨s4, e4, hst4, hfl4, hcl4, hc4, -, hbd4, hsing4, -⟩ :=
      visit_spec hd hS hd2 hrec hst3 h0 hqf2 hfl2 hcl3 (by simp)
        (by simp [hs3, set2, X.V_empty]) (fun _ _ h => absurd rfl h)
    simp only [List.length_nil, Nat.zero_add] at e4
    rw [e4]
    have := sweepLoop_spec hd hS hd2 hrec h0 r' fuel [] q' 0 s4 hlenr hst4 hfl4 hcl4 hc4
      (by simp [X.V_empty])
      (by
        intro h1 h3 h2 hr
        exfalso
        have := length_L hd hS
        rw [← hsplit2, hr] at this
        simp at this; omega)
      (by
        intro h1 h4 _
        have hig : s2.ignore q' = 0 := by
          rcases hqf2 with h2 | h2
          · exact h2
          · omega
        obtain ⟨b1, b2⟩ := hsing4 rfl hig har1
        exact ⟨b2, fun y hy => by rw [b1]; exact hbtop h1 h4 y hy⟩)
      (fun _ _ h => absurd rfl h)
      (by
        intro h1
        have hr : r' = [] := by
          have := length_L hd hS
          rw [← hsplit2, h1] at this
          simpa using this
        obtain ⟨b1, b2⟩ := hsing4 rfl (hrem2.one h1 q' hq'S) har1
        refine ⟨by rw [b1]; exact hrem2.bound0 hr, fun z hz => ?_⟩
        have : z = q' := by
          have := (split_mem hd hS hsplit2 z).2 hz
          simpa [hr] using this
        rw [this]; exact b2)
    simpa using this
  · have hlpos : l'.length + 1 > 1 := by
      have := List.length_pos_iff.mpr hl'; omega
    simp only [hlpos, if_true]
    rcases hstop with h | ⟨m, qp, rfl, hqp⟩
    · exact absurd h hl'
    have hcard : 2 ≤ S.card := by
      rw [← length_L hd hS, ← hsplit2]; simp; omega
    have hpv : s2.prev q' d = qp := by rw [(hst2.nbr hd hS h0).1]; simp
    have hqpS : qp ∈ S := (split_mem hd hS hst2.split qp).1 (Or.inl (by simp))
    have hqp0 : qp ≠ 0 := fun e => X.zero_notMem (e ▸ hS hqpS)
    simp only [hpv, hqp0, if_false]
    have hsplitp : m ++ qp :: (q' :: r') = X.L d S := by rw [← hsplit2]; simp
    have hcd := hrem2.cached hcard
    have hcache : ∀ y ∈ m ++ [qp], X.CacheAt d S y s2 := by
      intro y hy
      have hyS : y ∈ S := (split_mem hd hS hst2.split y).1 (Or.inl (by simp at hy ⊢; tauto))
      apply hcd y hyS
      rcases List.mem_append.mp hy with hy | hy
      · have : y ∈ S.filter (fun z => X.pos d z < X.pos d qp) := by
          rw [filter_lt hd hS hsplitp]; simpa using hy
        rw [Finset.mem_filter] at this
        exact lt_of_le_of_lt (c_le_of_pos hd (hS hyS) (hS hqpS) this.2) hqp
      · have : y = qp := by simpa using hy
        rw [this]; exact hqp
    obtain ⟨-, hqv⟩ := hcache qp (by simp)
    rw [filter_lt hd hS hsplitp] at hqv
    have hfinp : (m ++ [qp]).toFinset = insert qp m.toFinset := by ext z; simp
    set hvol := s2.volume qp d + s2.area qp d * (X.c q' d - X.c qp d) with hvol_def
    have hvol_eq : hvol = X.V (d + 1) (m ++ [qp]).toFinset +
        X.V d (m ++ [qp]).toFinset * X.c q' d := by
      rw [hvol_def, area_step hd hS hd2 hsplitp (hcache qp (by simp)), hfinp]
      exact slab_step hd hS q' hsplitp hqv
    set s3 : ML K := { s2 with volume := set2 s2.volume q' d hvol } with hs3
    have hst3 : X.Stage d S s (m ++ [qp] ++ [q']) r' s3 := by
      constructor
      case split => exact hst2.split
      case nextd => exact hst2.nextd
      case prevd => exact hst2.prevd
      case rings => exact hst2.rings
      case undo => exact hst2.undo
      case flag_out => exact hst2.flag_out
      case flag_hi => exact hst2.flag_hi
      case flag_lo => exact hst2.flag_lo
      case flag => exact hst2.flag
      case flag_r => exact hst2.flag_r
      case area_hi => exact hst2.area_hi
      case volume_hi =>
        intro y j hj
        simp [hs3, set2, show j ≠ d by omega, hst2.volume_hi y j hj]
      case bounds_hi => exact hst2.bounds_hi
      case sent => exact hst2.sent
      case area1 => exact hst2.area1
    have hq'l : q' ∉ m ++ [qp] := by
      have := (split_nodup hd hS hst2.split).1
      rw [List.nodup_append] at this
      exact fun hh => this.2.2 q' hh q' (by simp) rfl
    have hcl3 : m ++ [qp] ≠ [] ∨ d ≤ s3.ignore q' → ∀ j, 2 ≤ j → j < d → X.Cache j (m ++ [qp] ++ [q']).toFinset s3 := by
      intro _ j hj1 hj2 y hy hlt
      exact cacheAt_congr (hrem2.cache hcard j hj1 hj2 y hy hlt) rfl
        (by simp [hs3, set2, show j ≠ d by omega])
    have hc3 : ∀ y ∈ m ++ [qp], X.CacheAt d S y s3 := by
      intro y hy
      have : y ≠ q' := fun e => hq'l (e ▸ hy)
      exact cacheAt_congr (hcache y hy) rfl (by simp [hs3, set2, this])
    have hntop : d + 1 ≠ X.D := by
      intro h1
      have h2 := hpre.low h1 d hd2 le_rfl qp (hS hqpS)
      rw [hrem2.boundd] at hqp
      exact absurd hqp (not_lt.mpr h2)
    obtain ⟨s4, e4, hst4, hfl4, hcl4, hc4, -, hbd4, -, -⟩ :=
      visit_spec hd hS hd2 hrec hst3 h0 hqf2 hfl2 hcl3 hc3
        (by simp only [hs3, set2, and_self, if_true]; exact hvol_eq) (fun h => absurd h hntop)
    rw [e4]
    exact sweepLoop_spec hd hS hd2 hrec h0 r' fuel (m ++ [qp]) q' hvol s4 hlenr hst4 hfl4 hcl4 hc4
      hvol_eq
      (by
        intro h1 h3 h2 hr
        have hbs : s4.bounds d = s.bounds d := by rw [hbd4]; exact hrem2.boundd
        rw [hbs]
        have hqpl : X.c qp d < s.bounds d := by rw [← hrem2.boundd]; exact hqp
        obtain ⟨p, hpS, -, ⟨q, hSq, -, hb⟩ | hb | hb⟩ := hpre.last h1 h3 hcard
        · exact absurd hqpl (not_lt.mpr (hb qp hqpS))
        · exact ⟨p, hpS, qp, hqpS, hb, by rw [← hb]; exact hqpl⟩
        · exact hb)
      (fun h => absurd h hntop) (fun h => absurd h hntop) (fun h => by omega)

end

end Ctx
end Verif.HV
