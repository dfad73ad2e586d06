import Verif.HV.Sweep
import Mathlib.Data.Finset.Max

/-!
# `hvRecursive` computes the volume, and `preProcess` establishes its precondition
-/

set_option linter.unusedSectionVars false

namespace Verif.HV
namespace Ctx

variable {K : Type*} [CommRing K] [LinearOrder K] [IsStrictOrderedRing K] {X : Ctx K}

theorem V_eq_of_least (d : ℕ) {A : Finset ℕ} (hA : A ⊆ X.N) {z : ℕ} (hz : z ∈ A)
    (h : ∀ w ∈ A, ∀ i < d, X.c z i ≤ X.c w i) : X.V d A = X.V d {z} := by
  have key : ∀ B : Finset ℕ, B ⊆ A → X.V d (B ∪ {z}) = X.V d {z} := by
    intro B
    induction B using Finset.induction_on with
    | empty => intro _; simp
    | insert w B _ ih =>
      intro hB
      rw [Finset.insert_union, X.V_dom d _ _ _ _ _, ih (fun x hx => hB (Finset.mem_insert_of_mem hx))]
      · intro x hx
        rcases Finset.mem_union.mp hx with hx | hx
        · exact hA (hB (Finset.mem_insert_of_mem hx))
        · rw [Finset.mem_singleton.mp hx]; exact hA hz
      · exact hA (hB (Finset.mem_insert_self _ _))
      · exact Or.inr ⟨z, by simp, h w (hB (Finset.mem_insert_self _ _))⟩
  have := key A le_rfl
  rwa [Finset.union_eq_left.mpr (by simpa using hz)] at this

theorem V_one_singleton (hD : 0 < X.D) {z : ℕ} (hz : z ∈ X.N) : X.V 1 {z} = -(X.c z 0) := by
  have := X.V_slab 0 ∅ z hD (by simp) hz (by simp)
  simp [X.V_empty, X.V_zero {z} (by simp)] at this
  exact this

theorem V_one_insert (hD : 0 < X.D) {A : Finset ℕ} (hA : A ⊆ X.N) (hne : A.Nonempty) {p : ℕ} (hp : p ∈ X.N) :
    -(X.V 1 (insert p A)) = if X.c p 0 < -(X.V 1 A) then X.c p 0 else -(X.V 1 A) := by
  obtain ⟨z, hz, hmin⟩ := A.exists_min_image (fun w => X.c w 0) hne
  have hVA : X.V 1 A = -(X.c z 0) := by
    rw [V_eq_of_least 1 hA hz, V_one_singleton (by omega) (hA hz)]
    intro w hw i hi
    obtain rfl : i = 0 := by omega
    exact hmin w hw
  rw [hVA, neg_neg]
  have hins : insert p A ⊆ X.N := by
    intro x hx
    rcases Finset.mem_insert.mp hx with rfl | hx
    · exact hp
    · exact hA hx
  by_cases h : X.c p 0 < X.c z 0
  · rw [V_eq_of_least 1 hins (Finset.mem_insert_self _ _), V_one_singleton hD hp]
    · simp [h]
    · intro w hw i hi
      obtain rfl : i = 0 := by omega
      rcases Finset.mem_insert.mp hw with rfl | hw
      · exact le_rfl
      · exact h.le.trans (hmin w hw)
  · rw [X.V_dom 1 A p hA hp, hVA]
    · simp [h]
    · refine Or.inr ⟨z, hz, ?_⟩
      intro i hi
      obtain rfl : i = 0 := by omega
      exact not_lt.mp h

theorem sweep2_spec (hD : 1 < X.D) {S : Finset ℕ} (hS : S ⊆ X.N) {s : ML K}
    (h0 : IsRing (s.next · 1) (s.prev · 1) (X.L 1 S)) :
    ∀ (r : List ℕ) (fuel : ℕ) (l : List ℕ) (q : ℕ) (hvol : K), r.length ≤ fuel →
    l ++ q :: r = X.L 1 S →
    hvol = X.V 2 l.toFinset + X.V 1 l.toFinset * X.c q 1 →
    sweep2 X.c s fuel hvol (-(X.V 1 (insert q l.toFinset))) q ((r ++ [0]).head (by simp)) =
      some (X.V 2 S) := by
  intro r
  induction r with
  | nil =>
    intro fuel l q hvol _ hsplit hv
    unfold sweep2
    have := slab_final hD hS hsplit hv
    simp only [List.nil_append, List.head_cons, if_true]
    rw [← this]
    congr 1
    ring
  | cons p r ih =>
    intro fuel l q hvol hf hsplit hv
    obtain ⟨fuel, rfl⟩ : ∃ f, fuel = f + 1 := ⟨fuel - 1, by simp at hf; omega⟩
    have hsplit' : (l ++ [q]) ++ p :: r = X.L 1 S := by rw [← hsplit]; simp
    have hpS : p ∈ S := by rw [← mem_L hD hS, ← hsplit]; simp
    have hp0 : p ≠ 0 := fun e => X.zero_notMem (e ▸ hS hpS)
    have hqS : q ∈ S := by rw [← mem_L hD hS, ← hsplit]; simp
    have hfin : (l ++ [q]).toFinset = insert q l.toFinset := by ext z; simp
    have hlN : (l ++ [q]).toFinset ⊆ X.N := split_sub hD hS hsplit'
    have hnext : s.next p 1 = (r ++ [0]).head (by simp) := by
      have := h0
      rw [← hsplit'] at this
      exact this.nbr.2.2.2
    have hhd : ((p :: r) ++ [0]).head (by simp) = p := rfl
    rw [hhd]
    unfold sweep2
    simp only [hp0, if_false]
    have hh := V_one_insert (by omega) hlN ⟨q, by simp⟩ (hS hpS)
    rw [hfin] at hh
    rw [hnext, ← hh]
    have := ih fuel (l ++ [q]) p (hvol + X.V 1 (insert q l.toFinset) * (X.c p 1 - X.c q 1))
      (by simp at hf; omega) hsplit' (by
        rw [slab_step hD hS p hsplit hv, hfin])
    rw [hfin] at this
    rw [← this]
    congr 1
    ring

theorem hvRec_one (hD : 1 < X.D) (fuel : ℕ) (hfuel : X.N.card ≤ fuel) :
    X.RecSpec 1 (hvRec X.c fuel 1) := by
  intro S s hS hne hpre
  have h0 := hpre.ring 1 le_rfl
  obtain ⟨q, r, hl⟩ : ∃ q r, X.L 1 S = q :: r := by
    rcases h : X.L 1 S with _ | ⟨q, r⟩
    · exfalso
      have := length_L hD hS
      rw [h] at this
      exact hne.ne_empty (Finset.card_eq_zero.mp this.symm)
    · exact ⟨q, r, rfl⟩
  obtain ⟨n, hn⟩ : ∃ n, S.card = n + 1 := ⟨S.card - 1, by have := hne.card_pos; omega⟩
  have hqS : q ∈ S := by rw [← mem_L hD hS, hl]; simp
  have hq0 : q ≠ 0 := fun e => X.zero_notMem (e ▸ hS hqS)
  have h0' := h0
  rw [hl] at h0'
  have hfirst : s.next 0 1 = q := h0'.first.1
  have hnext : s.next q 1 = (r ++ [0]).head (by simp) := (IsRing.nbr (l₁ := []) h0').2.2.2
  have hlen : r.length ≤ fuel := by
    have h1 := length_L hD hS
    rw [hl] at h1
    have h2 := Finset.card_le_card hS
    simp at h1; omega
  have key := sweep2_spec hD hS h0 r fuel [] q 0 hlen (by simp [hl]) (by simp [X.V_empty])
  simp only [List.toFinset_nil] at key
  rw [show insert q (∅ : Finset ℕ) = {q} from rfl, V_one_singleton (by omega) (hS hqS), neg_neg] at key
  refine ⟨s, ?_, ?_⟩
  · rw [hn]
    simp [hvRec, hfirst, hq0, hnext, key]
  · exact { next := rfl, prev := rfl, flag_out := fun _ _ => rfl, flag_hi := fun _ _ => rfl
            flag_lo := fun _ h => h, flag := by omega, cache := by intros; omega
            area_hi := fun _ _ _ => rfl, volume_hi := fun _ _ _ => rfl, bounds_hi := fun _ _ => rfl
            sent := hpre.sent, area1 := hpre.area1
            sing := fun _ => ⟨rfl, fun _ => rfl, by omega⟩
            bnd := by omega }

theorem hvRec_spec (fuel : ℕ) (hfuel : X.N.card ≤ fuel) :
    ∀ d, d + 1 < X.D → X.RecSpec (d + 1) (hvRec X.c fuel (d + 1)) := by
  intro d
  induction d with
  | zero => intro h; exact hvRec_one h fuel hfuel
  | succ d ih =>
    intro h S s hS hne hpre
    obtain ⟨n, hn⟩ : ∃ n, S.card = n + 1 := ⟨S.card - 1, by have := hne.card_pos; omega⟩
    have hcard := Finset.card_le_card hS
    have := level_spec (X := X) (d := d + 1 + 1) h hS (rec := hvRec X.c fuel (d + 1)) (by omega)
      (ih (by omega)) (fuel := fuel) (by omega) hne hpre
    rw [hn] at this ⊢
    exact this

theorem hvRec_zero (hD : 0 < X.D) (fuel : ℕ) {S : Finset ℕ} {s : ML K} (hS : S ⊆ X.N)
    (hne : S.Nonempty) (h0 : IsRing (s.next · 0) (s.prev · 0) (X.L 0 S)) :
    hvRec X.c fuel 0 S.card s = some (X.V 1 S, s) := by
  obtain ⟨q, r, hl⟩ : ∃ q r, X.L 0 S = q :: r := by
    rcases h : X.L 0 S with _ | ⟨q, r⟩
    · exfalso
      have := length_L hD hS
      rw [h] at this
      exact hne.ne_empty (Finset.card_eq_zero.mp this.symm)
    · exact ⟨q, r, rfl⟩
  obtain ⟨n, hn⟩ : ∃ n, S.card = n + 1 := ⟨S.card - 1, by have := hne.card_pos; omega⟩
  have hqS : q ∈ S := by rw [← mem_L hD hS, hl]; simp
  have hq0 : q ≠ 0 := fun e => X.zero_notMem (e ▸ hS hqS)
  have h0' := h0
  rw [hl] at h0'
  have hfirst : s.next 0 0 = q := h0'.first.1
  rw [hn]
  simp only [hvRec, hfirst, hq0, if_false]
  rw [V_eq_of_least 1 hS hqS, V_one_singleton (by omega) (hS hqS)]
  intro w hw i hi
  obtain rfl : i = 0 := by omega
  have hc := pairwise_c_L hD S
  rw [hl, List.pairwise_cons] at hc
  rw [← mem_L hD hS, hl] at hw
  rcases List.mem_cons.mp hw with rfl | hw
  · exact le_rfl
  · exact hc.1 w hw

/-- `hvRecursive` on all nodes of a freshly built multi-list. -/
theorem hvRec_total {D : ℕ} (hXD : X.D = D + 1) (s : ML K)
    (hring : ∀ i < X.D, IsRing (s.next · i) (s.prev · i) (X.G i))
    (hflag : ∀ q, s.ignore q = 0) (harea : ∀ y j, s.area y j = 0)
    (hb : ∀ j, 2 ≤ j → j < X.D → ∀ q ∈ X.N, s.bounds j ≤ X.c q j) :
    ∃ s', hvRec X.c X.N.card D X.N.card s = some (X.V (D + 1) X.N, s') := by
  have hLG : ∀ i < X.D, X.L i X.N = X.G i := by
    intro i hi
    rw [L, List.filter_eq_self]
    intro a ha
    simpa using (X.mem_G i hi a).1 ha
  rcases X.N.eq_empty_or_nonempty with hE | hne
  · refine ⟨s, ?_⟩
    rw [hE, X.V_empty, Finset.card_empty]
    rcases D with _ | _ | D <;> rfl
  · rcases D with _ | D
    · exact ⟨s, hvRec_zero (by omega) _ le_rfl hne (by rw [hLG 0 (by omega)]; exact hring 0 (by omega))⟩
    · have hpre : X.Pre (D + 1) X.N s := by
        constructor
        · intro i hi; rw [hLG i (by omega)]; exact hring i (by omega)
        · intro h2 q _ h; rw [hflag] at h; omega
        · intro _ j hj1 hj2 y hy hlt
          exact absurd hlt (not_lt.mpr (hb j hj1 (by omega) y hy))
        · intro j; exact harea 0 j
        · intro _ _ q _; exact hflag q
        · intro h; omega
        · intro _ j hj1 hj2 y hy; exact hb j hj1 (by omega) y hy
        · intro q; exact Or.inl (harea q 1)
      obtain ⟨s', h, -⟩ := hvRec_spec X.N.card le_rfl D (by omega) X.N s le_rfl hne hpre
      exact ⟨s', h⟩

end Ctx

/-! ### Building the multi-list -/

section build
variable {K : Type*} [Zero K] [One K] [Add K] [Sub K] [Neg K] [Mul K] [NatCast K] [LinearOrder K]

theorem isChain_imp_tail {R R' : ℕ → ℕ → Prop} {P : ℕ → Prop}
    (h : ∀ a b, P b → R a b → R' a b) :
    ∀ {l : List ℕ} {a : ℕ}, (∀ z ∈ l, P z) → (a :: l).IsChain R → (a :: l).IsChain R'
  | [], _, _, _ => List.IsChain.singleton _
  | b :: l, a, hP, hl => by
    rw [List.isChain_cons_cons] at hl ⊢
    exact ⟨h a b (hP b (by simp)) hl.1, isChain_imp_tail h (fun z hz => hP z (by simp [hz])) hl.2⟩

theorem IsRing.append {nx pv : ℕ → ℕ} {l : List ℕ} {x : ℕ} (h : IsRing nx pv l) (hx0 : x ≠ 0)
    (hx : x ∉ l) (hl0 : 0 ∉ l) :
    IsRing (fun a => if a = pv 0 then x else if a = x then 0 else nx a)
      (fun b => if b = 0 then x else if b = x then pv 0 else pv b) (l ++ [x]) := by
  unfold IsRing at *
  have e1 : 0 :: (l ++ [0]) = (0 :: l) ++ [0] := rfl
  have e2 : 0 :: (l ++ [x] ++ [0]) = (0 :: l) ++ [x, 0] := by simp
  rw [e1, List.isChain_append] at h
  rw [e2, List.isChain_append]
  obtain ⟨h1, -, h3⟩ := h
  have hlast := h3 _ (List.getLast?_eq_some_getLast (l := 0 :: l) (by simp)) 0 (by simp)
  have hp0 : pv 0 = (0 :: l).getLast (by simp) := hlast.2
  have hpx : pv 0 ≠ x := by
    intro e
    have := List.getLast_mem (l := 0 :: l) (by simp)
    rw [← hp0, e] at this
    simp [hx0, hx] at this
  refine ⟨?_, ?_, ?_⟩
  · have h1' := isChain_imp_tail (R' := fun a b => (nx a = b ∧ pv b = a) ∧ b ≠ 0)
      (P := fun b => b ≠ 0) (fun a b hb hr => ⟨hr, hb⟩) (fun z hz e => hl0 (e ▸ hz)) h1
    refine isChain_congr_of_notMem (x := x) ?_ (by simp [hx0, hx]) h1'
    rintro a b hax hbx ⟨⟨r1, r2⟩, hb0⟩
    have : a ≠ pv 0 := by
      intro e
      rw [e, hp0, hlast.1] at r1
      exact hb0 r1.symm
    simp [this, hax, hbx, hb0, r1, r2]
  · rw [List.isChain_cons_cons]
    refine ⟨?_, List.IsChain.singleton _⟩
    simp [hpx.symm]
  · intro a ha b hb
    rw [List.getLast?_eq_some_getLast (by simp)] at ha
    have ea : a = pv 0 := by rw [hp0]; simpa using ha.symm
    have eb : b = x := by simpa using hb.symm
    subst ea; subst eb
    simp [hx0]

theorem extend_spec (i : ℕ) : ∀ (nodes l : List ℕ) (s : ML K), (l ++ nodes).Nodup → 0 ∉ l ++ nodes →
    IsRing (s.next · i) (s.prev · i) l →
    IsRing ((extend nodes i s).next · i) ((extend nodes i s).prev · i) (l ++ nodes) ∧
    (∀ a j, j ≠ i → (extend nodes i s).next a j = s.next a j ∧
      (extend nodes i s).prev a j = s.prev a j) ∧
    (extend nodes i s).ignore = s.ignore ∧ (extend nodes i s).area = s.area ∧
    (extend nodes i s).bounds = s.bounds := by
  intro nodes
  induction nodes with
  | nil => intro l s _ _ h; simpa [extend] using h
  | cons x nodes ih =>
    intro l s hnd h0 hr
    have hassoc : l ++ x :: nodes = (l ++ [x]) ++ nodes := by simp
    have hx0 : x ≠ 0 := by rintro rfl; exact h0 (by simp)
    have hxl : x ∉ l := by
      rw [List.nodup_append] at hnd
      exact fun h => hnd.2.2 x h x (by simp) rfl
    have hl0 : 0 ∉ l := fun h => h0 (by simp [h])
    have hr1 : IsRing ((appendNode i x s).next · i) ((appendNode i x s).prev · i) (l ++ [x]) := by
      have := hr.append hx0 hxl hl0
      simpa [appendNode, set2] using this
    have := ih (l ++ [x]) (appendNode i x s) (by rwa [← hassoc]) (by rwa [← hassoc]) hr1
    rw [← hassoc] at this
    have he : extend (x :: nodes) i s = extend nodes i (appendNode i x s) := rfl
    rw [he]
    refine ⟨this.1, ?_, this.2.2.1, this.2.2.2.1, this.2.2.2.2⟩
    intro a j hj
    rw [(this.2.1 a j hj).1, (this.2.1 a j hj).2]
    simp [appendNode, set2, hj]

theorem mapM_getElem?_eq {nodes idx : List ℕ} (h : ∀ j ∈ idx, j < nodes.length) :
    ∃ out, idx.mapM (fun j => nodes[j]?) = some out ∧
      out = idx.map (fun j => nodes.getD j 0) := by
  induction idx with
  | nil => exact ⟨[], rfl, rfl⟩
  | cons j idx ih =>
    obtain ⟨out, h1, h2⟩ := ih (fun k hk => h k (by simp [hk]))
    have hj := h j (by simp)
    refine ⟨nodes[j] :: out, ?_, ?_⟩
    · simp [List.mapM_cons, h1, List.getElem?_eq_getElem hj]
    · simp [h2, List.getElem?_eq_getElem hj]

theorem sortByDimension_spec {argsort : List K → List ℕ} (ha : IsArgsort argsort)
    (c : ℕ → ℕ → K) (nodes : List ℕ) (i : ℕ) :
    ∃ out, sortByDimension argsort c nodes i = some out ∧ out.Perm nodes ∧
      out.Pairwise (fun a b => c a i ≤ c b i) := by
  obtain ⟨hp, hs⟩ := ha (nodes.map (fun node => c node i))
  rw [List.length_map] at hp
  set idx := argsort (nodes.map (fun node => c node i)) with hidx
  have hlt : ∀ j ∈ idx, j < nodes.length := fun j hj => by
    have := hp.mem_iff.mp hj; simpa using this
  obtain ⟨out, h1, h2⟩ := mapM_getElem?_eq hlt
  refine ⟨out, h1, ?_, ?_⟩
  · rw [h2]
    have h3 : (idx.map (fun j => nodes.getD j 0)).Perm
        ((List.range nodes.length).map (fun j => nodes.getD j 0)) := hp.map _
    have h4 : (List.range nodes.length).map (fun j => nodes.getD j 0) = nodes := by
      apply List.ext_getElem
      · simp
      · intro n hn1 hn2; simp [List.getElem?_eq_getElem hn2]
    rwa [h4] at h3
  · rw [h2, List.pairwise_map]
    refine hs.imp_of_mem ?_
    intro a b ha' hb' hab
    have hla := hlt a ha'
    have hlb := hlt b hb'
    have := hab (c nodes[a] i) (c nodes[b] i) (by simp [hla]) (by simp [hlb])
    simpa [List.getElem?_eq_getElem hla, List.getElem?_eq_getElem hlb] using this

theorem preLoop_spec {argsort : List K → List ℕ} (ha : IsArgsort argsort) (c : ℕ → ℕ → K) :
    ∀ (is nodes : List ℕ) (s : ML K), is.Nodup → nodes.Nodup → 0 ∉ nodes →
    (∀ i ∈ is, s.next 0 i = 0 ∧ s.prev 0 i = 0) →
    ∃ (G : ℕ → List ℕ) (s' : ML K), preLoop argsort c is nodes s = some s' ∧
      (∀ i ∈ is, (G i).Perm nodes ∧ (G i).Pairwise (fun a b => c a i ≤ c b i) ∧
        IsRing (s'.next · i) (s'.prev · i) (G i)) ∧
      (∀ a j, j ∉ is → s'.next a j = s.next a j ∧ s'.prev a j = s.prev a j) ∧
      s'.ignore = s.ignore ∧ s'.area = s.area ∧ s'.bounds = s.bounds := by
  intro is
  induction is with
  | nil => intro nodes s _ _ _ _; exact ⟨fun _ => [], s, rfl, by simp, by simp, rfl, rfl, rfl⟩
  | cons i is ih =>
    intro nodes s hnd hnn h0 hfresh
    obtain ⟨out, ho, hperm, hsorted⟩ := sortByDimension_spec ha c nodes i
    have hr0 : IsRing (s.next · i) (s.prev · i) [] := by
      unfold IsRing
      simp only [List.nil_append, List.isChain_cons_cons]
      exact ⟨hfresh i (by simp), List.IsChain.singleton _⟩
    have hext := extend_spec i out [] s (by simpa using hperm.nodup_iff.mpr hnn)
      (by simpa using fun h => h0 (hperm.mem_iff.mp h)) hr0
    rw [List.nil_append] at hext
    rw [List.nodup_cons] at hnd
    obtain ⟨G, s', e, hG, hout, hrest⟩ := ih out (extend out i s) hnd.2 (hperm.nodup_iff.mpr hnn)
      (fun h => h0 (hperm.mem_iff.mp h)) (by
        intro j hj
        have hji : j ≠ i := fun e => hnd.1 (e ▸ hj)
        rw [(hext.2.1 0 j hji).1, (hext.2.1 0 j hji).2]
        exact hfresh j (by simp [hj]))
    refine ⟨fun j => if j = i then out else G j, s', ?_, ?_, ?_, ?_⟩
    · simp [preLoop, ho, e]
    · intro j hj
      rcases List.mem_cons.mp hj with rfl | hj
      · simp only [if_true]
        refine ⟨hperm, hsorted, ?_⟩
        have e1 : (fun x => s'.next x j) = fun x => (extend out j s).next x j := by
          funext x; exact (hout x j hnd.1).1
        have e2 : (fun x => s'.prev x j) = fun x => (extend out j s).prev x j := by
          funext x; exact (hout x j hnd.1).2
        rw [e1, e2]; exact hext.1
      · have hji : j ≠ i := fun e => hnd.1 (e ▸ hj)
        simp only [hji, if_false]
        exact ⟨(hG j hj).1.trans hperm, (hG j hj).2⟩
    · intro a j hj
      simp only [List.mem_cons, not_or] at hj
      rw [(hout a j hj.2).1, (hout a j hj.2).2]
      exact hext.2.1 a j hj.1
    · rw [hrest.1, hrest.2.1, hrest.2.2]
      exact hext.2.2

theorem preProcess_spec {argsort : List K → List ℕ} (ha : IsArgsort argsort) (c : ℕ → ℕ → K)
    (D n : ℕ) :
    ∃ (G : ℕ → List ℕ) (s : ML K), preProcess argsort c D n = some s ∧
      (∀ i < D, (G i).Perm ((List.range n).map (· + 1)) ∧
        (G i).Pairwise (fun a b => c a i ≤ c b i) ∧ IsRing (s.next · i) (s.prev · i) (G i)) ∧
      (∀ q, s.ignore q = 0) ∧ (∀ y j, s.area y j = 0) ∧ ∀ j, s.bounds j = -((10 ^ 308 : ℕ) : K) := by
  obtain ⟨G, s, e, hG, -, h1, h2, h3⟩ := preLoop_spec ha c (List.range D)
    ((List.range n).map (· + 1)) freshML List.nodup_range
    (List.nodup_range.map (fun a b h => by simpa using h)) (by simp)
    (by intro i _; exact ⟨rfl, rfl⟩)
  refine ⟨G, s, e, fun i hi => hG i (by simpa using hi), ?_, ?_, ?_⟩
  · intro q; rw [h1]; rfl
  · intro y j; rw [h2]; rfl
  · intro j; rw [h3]; rfl

end build
end Verif.HV
