import Verif.HV.Rec

/-!
# `hvRecursive` always returns and leaves the lists as they were

Only the links are looked at: no assumption on the values, on the bounds or on the flags is used.
-/

set_option linter.unusedSectionVars false

namespace Verif.HV

variable {K : Type*} [Zero K] [One K] [Add K] [Sub K] [Neg K] [Mul K] [NatCast K] [LinearOrder K]

/-- The lists of all nodes, one for each of `D` objectives. -/
structure Lists where
  D : ℕ
  N : Finset ℕ
  G : ℕ → List ℕ
  zero_notMem : 0 ∉ N
  mem_G : ∀ i < D, ∀ z, z ∈ G i ↔ z ∈ N
  nodup_G : ∀ i < D, (G i).Nodup

namespace Lists

variable {X : Lists}

/-- List `i` restricted to the nodes of `S`. -/
def L (X : Lists) (i : ℕ) (S : Finset ℕ) : List ℕ := (X.G i).filter (· ∈ S)

theorem mem_L {i : ℕ} (hi : i < X.D) {S : Finset ℕ} (hS : S ⊆ X.N) {z : ℕ} : z ∈ X.L i S ↔ z ∈ S := by
  simp only [L, List.mem_filter, decide_eq_true_eq, X.mem_G i hi]
  exact ⟨fun h => h.2, fun h => ⟨hS h, h⟩⟩

theorem nodup_L {i : ℕ} (hi : i < X.D) (S : Finset ℕ) : (X.L i S).Nodup := (X.nodup_G i hi).filter _

theorem toFinset_L {i : ℕ} (hi : i < X.D) {S : Finset ℕ} (hS : S ⊆ X.N) : (X.L i S).toFinset = S := by
  ext z; simp [mem_L hi hS]

theorem length_L {i : ℕ} (hi : i < X.D) {S : Finset ℕ} (hS : S ⊆ X.N) : (X.L i S).length = S.card := by
  rw [← List.toFinset_card_of_nodup (nodup_L hi S), toFinset_L hi hS]

theorem L_insert {i : ℕ} (hi : i < X.D) {A : Finset ℕ} {q : ℕ} (hq : q ∈ X.N) (hqA : q ∉ A) :
    ∃ a b, X.L i (insert q A) = a ++ q :: b ∧ X.L i A = a ++ b ∧ q ∉ a ∧ q ∉ b := by
  have hmem := (X.mem_G i hi q).2 hq
  obtain ⟨g1, g2, hg⟩ := List.append_of_mem hmem
  have hnd := X.nodup_G i hi
  rw [hg, List.nodup_append] at hnd
  obtain ⟨-, h2, h3⟩ := hnd
  have hq1 : q ∉ g1 := fun h => h3 q h q (by simp) rfl
  have hq2 : q ∉ g2 := (List.nodup_cons.mp h2).1
  refine ⟨g1.filter (· ∈ A), g2.filter (· ∈ A), ?_, ?_, ?_, ?_⟩
  · rw [L, hg, List.filter_append, List.filter_cons]
    simp only [Finset.mem_insert, true_or, decide_true, if_true]
    congr 1
    · apply List.filter_congr
      intro z hz
      have : z ≠ q := fun h => hq1 (h ▸ hz)
      simp [this]
    · congr 1
      apply List.filter_congr
      intro z hz
      have : z ≠ q := fun h => hq2 (h ▸ hz)
      simp [this]
  · rw [L, hg, List.filter_append, List.filter_cons]
    simp [hqA]
  · simp [hq1]
  · simp [hq2]

/-- Re-inserting the nodes of `r` one by one after those of `l` leads to the pointers `nx₀`, `pv₀`. -/
def Undo (X : Lists) (d : ℕ) (nx₀ pv₀ : ℕ → ℕ → ℕ) : List ℕ → List ℕ → (ℕ → ℕ → ℕ) → (ℕ → ℕ → ℕ) → Prop
  | _, [], nx, pv => nx = nx₀ ∧ pv = pv₀
  | l, x :: r, nx, pv => ∃ nx' pv', nx = remNext x d nx' pv' ∧ pv = remPrev x d nx' pv' ∧
      (∀ i < d, IsRing (nx' · i) (pv' · i) (X.L i (l ++ [x]).toFinset)) ∧ X.Undo d nx₀ pv₀ (l ++ [x]) r nx' pv'

/-- A call returns and restores the links. -/
def RecTotal (X : Lists) (d : ℕ) (rec : ℕ → ML K → Option (K × ML K)) : Prop :=
  ∀ S s, S ⊆ X.N → S.Nonempty → (∀ i ≤ d, IsRing (s.next · i) (s.prev · i) (X.L i S)) →
    ∃ v s', rec S.card s = some (v, s') ∧ s'.next = s.next ∧ s'.prev = s.prev

/-- The links between two steps of level `d`: the nodes of `l` are in the lists below `d`, those of `r` are taken
out. -/
structure Stage (X : Lists) (d : ℕ) (S : Finset ℕ) (s₀ : ML K) (l r : List ℕ) (s : ML K) : Prop where
  split : l ++ r = X.L d S
  nextd : ∀ a, s.next a d = s₀.next a d
  prevd : ∀ a, s.prev a d = s₀.prev a d
  rings : ∀ i < d, IsRing (s.next · i) (s.prev · i) (X.L i l.toFinset)
  undo : X.Undo d s₀.next s₀.prev l r s.next s.prev

variable {d : ℕ} {S : Finset ℕ} {s₀ s : ML K} {l r : List ℕ} {q : ℕ}

/-- Only the links count. -/
theorem Stage.congr {s' : ML K} (h : X.Stage d S s₀ l r s) (hn : s'.next = s.next) (hp : s'.prev = s.prev) :
    X.Stage d S s₀ l r s' :=
  ⟨h.split, fun a => by rw [hn, h.nextd], fun a => by rw [hp, h.prevd],
    fun i hi => by rw [hn, hp]; exact h.rings i hi, by rw [hn, hp]; exact h.undo⟩

section
variable (hd : d < X.D) (hS : S ⊆ X.N)
include hd hS

theorem split_mem (h : l ++ r = X.L d S) : ∀ z, z ∈ l ∨ z ∈ r ↔ z ∈ S := by
  intro z; rw [← mem_L hd hS, ← h]; simp

theorem split_sub (h : l ++ r = X.L d S) : l.toFinset ⊆ X.N := by
  intro z hz
  exact hS ((split_mem hd hS h z).1 (Or.inl (by simpa [or_comm] using hz)))

theorem split_nodup (h : l ++ r = X.L d S) : l.Nodup ∧ r.Nodup ∧ ∀ a ∈ l, a ∉ r := by
  have := nodup_L hd S
  rw [← h, List.nodup_append] at this
  exact ⟨this.1, this.2.1, fun a ha hb => this.2.2 a ha a hb rfl⟩

theorem Stage.remove (c : ℕ → ℕ → K) (h : X.Stage d S s₀ (l ++ [q]) r s) :
    X.Stage d S s₀ l (q :: r) (Verif.HV.remove c q d s) := by
  obtain ⟨hn, hp⟩ := remove_ptr c q d s
  have hsplit : l ++ q :: r = X.L d S := by rw [← h.split]; simp
  have hqN := hS ((split_mem hd hS h.split q).1 (Or.inl (by simp)))
  have hq0 : q ≠ 0 := fun e => X.zero_notMem (e ▸ hqN)
  have hql : q ∉ l.toFinset := by
    have := (split_nodup hd hS h.split).1
    rw [List.nodup_append] at this
    simpa using fun hh => this.2.2 q hh q (by simp) rfl
  have hfin : (l ++ [q]).toFinset = insert q l.toFinset := by ext z; simp
  refine ⟨hsplit, fun a => by rw [hn]; simp [remNext, h.nextd], fun a => by rw [hp]; simp [remPrev, h.prevd], ?_,
    ⟨s.next, s.prev, hn, hp, h.rings, h.undo⟩⟩
  intro i hi
  obtain ⟨a, b, e1, e2, e3, e4⟩ := L_insert (X := X) (i := i) (by omega) hqN hql
  have hr := h.rings i hi
  rw [hfin, e1] at hr
  have := hr.erase hq0 e3 e4
  rw [e2, hn, hp]
  simpa [remNext, remPrev, hi] using this

theorem Stage.reinsert (c : ℕ → ℕ → K) (h : X.Stage d S s₀ l (q :: r) s) :
    X.Stage d S s₀ (l ++ [q]) r (Verif.HV.reinsert c q d s) := by
  obtain ⟨nx', pv', hn, hp, hr, hu⟩ := h.undo
  have hsplit : (l ++ [q]) ++ r = X.L d S := by rw [← h.split]; simp
  have hqN := hS ((split_mem hd hS h.split q).1 (Or.inr (by simp)))
  have hq0 : q ≠ 0 := fun e => X.zero_notMem (e ▸ hqN)
  have hql : q ∉ l.toFinset := by
    simpa using fun hh => (split_nodup hd hS h.split).2.2 q hh (by simp)
  have hfin : (l ++ [q]).toFinset = insert q l.toFinset := by ext z; simp
  have hloc : ∀ i < d, nx' q i ≠ q ∧ pv' q i ≠ q ∧ nx' (pv' q i) i = q ∧ pv' (nx' q i) i = q := by
    intro i hi
    obtain ⟨a, b, e1, e2, e3, e4⟩ := L_insert (X := X) (i := i) (by omega) hqN hql
    have hri := hr i hi
    rw [hfin, e1] at hri
    obtain ⟨n1, n2, n3, n4⟩ := hri.nbr
    refine ⟨?_, ?_, n1, n2⟩
    · intro he
      have hm : (b ++ [0]).head (by simp) ∈ b ++ [0] := List.head_mem _
      rw [← n4, he] at hm
      simp [e4, hq0] at hm
    · intro he
      have hm : (0 :: a).getLast (by simp) ∈ 0 :: a := List.getLast_mem _
      rw [← n3, he] at hm
      simp [e3, hq0] at hm
  obtain ⟨hn', hp'⟩ := reinsert_remove c q d s nx' pv' hn hp
    (fun i hi => (hloc i hi).1) (fun i hi => (hloc i hi).2.1) (fun i hi => (hloc i hi).2.2.1)
    (fun i hi => (hloc i hi).2.2.2)
  exact ⟨hsplit, fun a => by rw [hn', ← h.nextd, hn]; simp [remNext],
    fun a => by rw [hp', ← h.prevd, hp]; simp [remPrev], by rw [hn', hp']; exact hr, by rw [hn', hp']; exact hu⟩

theorem Stage.nbr (h : X.Stage d S s₀ (l ++ [q]) r s) (h0 : IsRing (s₀.next · d) (s₀.prev · d) (X.L d S)) :
    s.prev q d = (0 :: l).getLast (by simp) ∧ s.next q d = (r ++ [0]).head (by simp) := by
  have hsplit : l ++ q :: r = X.L d S := by rw [← h.split]; simp
  rw [← hsplit] at h0
  rw [h.prevd, h.nextd]
  exact ⟨h0.nbr.2.2.1, h0.nbr.2.2.2⟩

theorem visit_total {rec : ℕ → ML K → Option (K × ML K)} (hd1 : 1 ≤ d) (hrec : X.RecTotal (d - 1) rec)
    (h : X.Stage d S s₀ (l ++ [q]) r s) :
    ∃ s', visit rec d (l.length + 1) q s = some s' ∧ s'.next = s.next ∧ s'.prev = s.prev := by
  unfold visit
  by_cases hi : s.ignore q ≥ d
  · rw [if_pos hi]
    exact ⟨_, rfl, rfl, rfl⟩
  · rw [if_neg hi]
    have hcard : (l ++ [q]).toFinset.card = l.length + 1 := by
      rw [List.toFinset_card_of_nodup (split_nodup hd hS h.split).1]; simp
    obtain ⟨v, s', e, hn, hp⟩ := hrec (l ++ [q]).toFinset s (split_sub hd hS h.split) ⟨q, by simp⟩
      (fun i hi => h.rings i (by omega))
    rw [hcard] at e
    rw [e]
    dsimp only
    split
    · exact ⟨_, rfl, hn, hp⟩
    · exact ⟨_, rfl, hn, hp⟩

theorem sweepLoop_total {rec : ℕ → ML K → Option (K × ML K)} (c : ℕ → ℕ → K) (hd1 : 1 ≤ d)
    (hrec : X.RecTotal (d - 1) rec) (h0 : IsRing (s₀.next · d) (s₀.prev · d) (X.L d S)) :
    ∀ (r : List ℕ) (fuel : ℕ) (l : List ℕ) (q : ℕ) (hvol : K) (s : ML K), r.length ≤ fuel →
      X.Stage d S s₀ (l ++ [q]) r s →
      ∃ v s', sweepLoop c rec d fuel hvol (l.length + 1) ((r ++ [0]).head (by simp)) q s = some (v, s') ∧
        s'.next = s₀.next ∧ s'.prev = s₀.prev := by
  intro r
  induction r with
  | nil =>
    intro fuel l q hvol s _ h
    refine ⟨hvol - s.area q d * c q d, s, ?_, h.undo.1, h.undo.2⟩
    unfold sweepLoop
    simp
  | cons p r ih =>
    intro fuel l q hvol s hf h
    obtain ⟨fuel, rfl⟩ : ∃ f, fuel = f + 1 := ⟨fuel - 1, by simp at hf; omega⟩
    have hpN := hS ((split_mem hd hS h.split p).1 (Or.inr (by simp)))
    have hp0 : p ≠ 0 := fun e => X.zero_notMem (e ▸ hpN)
    have h1 := (h.congr (s' := { s with bounds := set1 s.bounds d (c p d) }) rfl rfl).reinsert hd hS c
    set s1 := Verif.HV.reinsert c p d { s with bounds := set1 s.bounds d (c p d) } with hs1
    have hnx := (h1.nbr hd hS h0).2
    set v1 := hvol + s.area q d * (c p d - c q d) with hv1
    have h2 := h1.congr (s' := { s1 with volume := set2 s1.volume p d v1 }) rfl rfl
    obtain ⟨s2, e2, n2, p2⟩ := visit_total hd hS hd1 hrec h2
    obtain ⟨v, s', e, hn, hp⟩ := ih fuel (l ++ [q]) p v1 s2 (by simp at hf; omega) (h2.congr n2 p2)
    refine ⟨v, s', ?_, hn, hp⟩
    have hhd : ((p :: r) ++ [0]).head (by simp) = p := rfl
    rw [hhd]
    unfold sweepLoop
    rw [if_neg hp0]
    dsimp only
    rw [← hv1, ← hs1, hnx]
    have hlen : (l ++ [q]).length + 1 = l.length + 1 + 1 := by simp
    rw [hlen] at e2 e
    rw [e2]
    exact e

theorem removeLoop_total (c : ℕ → ℕ → K) (h0 : IsRing (s₀.next · d) (s₀.prev · d) (X.L d S)) :
    ∀ (l r : List ℕ) (q : ℕ) (s : ML K), X.Stage d S s₀ (l ++ [q]) r s →
    ∃ l' q' r' s', removeLoop c d (l.length + 1) ((r ++ [0]).head (by simp)) q s =
        some ⟨l'.length + 1, (r' ++ [0]).head (by simp), q', s'⟩ ∧ X.Stage d S s₀ (l' ++ [q']) r' s' := by
  intro l
  induction l using List.reverseRecOn with
  | nil =>
    intro r q s h
    exact ⟨[], q, r, s, by simp [removeLoop], h⟩
  | append_singleton l a ih =>
    intro r q s h
    have hq0 : q ≠ 0 := fun e => X.zero_notMem (e ▸ hS ((split_mem hd hS h.split q).1 (Or.inl (by simp))))
    have ha0 : a ≠ 0 := fun e => X.zero_notMem (e ▸ hS ((split_mem hd hS h.split a).1 (Or.inl (by simp))))
    have hpv : s.prev q d = a := by rw [(h.nbr hd hS h0).1]; simp
    have hlen : (l ++ [a]).length + 1 = l.length + 2 := by simp
    rw [hlen]
    unfold removeLoop
    simp only [hq0, if_false, hpv, ha0]
    have hrec := ih (q :: r) a (Verif.HV.remove c q d s) (h.remove hd hS c)
    simp only [List.cons_append, List.head_cons] at hrec
    by_cases h1 : c q d > s.bounds d
    · simp only [h1, if_true]; exact hrec
    · simp only [h1, if_false]
      by_cases h2 : c a d ≥ s.bounds d
      · simp only [h2, if_true]; exact hrec
      · simp only [h2, if_false]
        exact ⟨l ++ [a], q, r, s, by simp, h⟩

theorem level_total {rec : ℕ → ML K → Option (K × ML K)} (c : ℕ → ℕ → K) (hd1 : 1 ≤ d)
    (hrec : X.RecTotal (d - 1) rec) {fuel : ℕ} (hfuel : S.card ≤ fuel) (hne : S.Nonempty)
    (hring : ∀ i ≤ d, IsRing (s.next · i) (s.prev · i) (X.L i S)) :
    ∃ v s', level c fuel rec d S.card s = some (v, s') ∧ s'.next = s.next ∧ s'.prev = s.prev := by
  have h0 := hring d le_rfl
  obtain ⟨l, q, hl⟩ : ∃ l q, X.L d S = l ++ [q] := by
    rcases List.eq_nil_or_concat' (X.L d S) with h | h
    · exfalso
      have := length_L hd hS
      rw [h] at this
      exact hne.ne_empty (Finset.card_eq_zero.mp this.symm)
    · exact h
  have hlen : S.card = l.length + 1 := by rw [← length_L hd hS, hl]; simp
  have h0' := h0
  rw [hl] at h0'
  have hlast : s.prev 0 d = q := h0'.last.2
  set s1 : ML K := { s with ignore := fun x => if x ∈ X.L d S ∧ s.ignore x < d then 0 else s.ignore x } with hs1
  have hreset : resetLoop d fuel (s.prev 0 d) s = some s1 := by
    have hch : List.IsChain (fun a b => s.next a d = b ∧ s.prev b d = a) (0 :: X.L d S) := by
      have : List.IsChain (fun a b => s.next a d = b ∧ s.prev b d = a) ((0 :: X.L d S) ++ [0]) := h0
      rw [List.isChain_append] at this
      exact this.1
    have := resetLoop_spec (K := K) d (X.L d S) fuel s (by rw [length_L hd hS]; exact hfuel)
      (fun e => X.zero_notMem (hS ((mem_L hd hS).1 e))) (nodup_L hd S) hch
    rw [← this]
    congr 1
    rw [hlast]
    simp [hl]
  have hst : X.Stage d S s (l ++ [q]) [] s1 := by
    have hSe : (l ++ [q]).toFinset = S := by rw [← hl]; exact toFinset_L hd hS
    exact ⟨by simp [hl], fun a => rfl, fun a => rfl, fun i hi => by rw [hSe]; exact hring i (by omega), rfl, rfl⟩
  have hlast1 : s1.prev 0 d = q := hlast
  obtain ⟨l', q', r', s2, e2, h2⟩ := removeLoop_total hd hS c h0 l [] q s1 hst
  have hq0 : q' ≠ 0 := fun e => X.zero_notMem (e ▸ hS ((split_mem hd hS h2.split q').1 (Or.inl (by simp))))
  have hrl : r'.length ≤ fuel := by
    have := congrArg List.length h2.split
    rw [length_L hd hS] at this
    simp at this
    omega
  have hpv := (h2.nbr hd hS h0).1
  unfold level
  rw [hreset]
  dsimp only
  have hhd : (([] : List ℕ) ++ [0]).head (by simp) = 0 := rfl
  rw [hhd] at e2
  rw [hlast1, hlen, e2]
  dsimp only
  rw [if_neg hq0]
  by_cases hl1 : l'.length + 1 > 1
  · rw [if_pos hl1]
    have hqp : s2.prev q' d ≠ 0 := by
      rw [hpv]
      obtain ⟨m, a, rfl⟩ : ∃ m a, l' = m ++ [a] := by
        rcases List.eq_nil_or_concat' l' with h | h
        · subst h; simp at hl1
        · exact h
      have : (0 :: (m ++ [a])).getLast (by simp) = a := by simp
      rw [this]
      exact fun e => X.zero_notMem (e ▸ hS ((split_mem hd hS h2.split a).1 (Or.inl (by simp))))
    rw [if_neg hqp]
    set hvol := s2.volume (s2.prev q' d) d + s2.area (s2.prev q' d) d * (c q' d - c (s2.prev q' d) d)
    have h3 := h2.congr (s' := { s2 with volume := set2 s2.volume q' d hvol }) rfl rfl
    obtain ⟨s3, e3, n3, p3⟩ := visit_total hd hS hd1 hrec h3
    rw [e3]
    exact sweepLoop_total hd hS c hd1 hrec h0 r' fuel l' q' hvol s3 hrl (h3.congr n3 p3)
  · rw [if_neg hl1]
    have h3 := h2.congr (s' := { initArea c d q' s2 with volume := set2 (initArea c d q' s2).volume q' d 0 }) rfl rfl
    obtain ⟨s3, e3, n3, p3⟩ := visit_total hd hS hd1 hrec h3
    rw [e3]
    exact sweepLoop_total hd hS c hd1 hrec h0 r' fuel l' q' 0 s3 hrl (h3.congr n3 p3)

end

theorem sweep2_total (c : ℕ → ℕ → K) (hD : 1 < X.D) {S : Finset ℕ} (hS : S ⊆ X.N) {s : ML K}
    (h0 : IsRing (s.next · 1) (s.prev · 1) (X.L 1 S)) :
    ∀ (r : List ℕ) (fuel : ℕ) (l : List ℕ) (q : ℕ) (hvol h : K), r.length ≤ fuel → l ++ q :: r = X.L 1 S →
      ∃ v, sweep2 c s fuel hvol h q ((r ++ [0]).head (by simp)) = some v := by
  intro r
  induction r with
  | nil =>
    intro fuel l q hvol h _ _
    unfold sweep2
    exact ⟨hvol + h * c q 1, by simp⟩
  | cons p r ih =>
    intro fuel l q hvol h hf hsplit
    obtain ⟨fuel, rfl⟩ : ∃ f, fuel = f + 1 := ⟨fuel - 1, by simp at hf; omega⟩
    have hsplit' : (l ++ [q]) ++ p :: r = X.L 1 S := by rw [← hsplit]; simp
    have hp0 : p ≠ 0 := fun e => X.zero_notMem (e ▸ hS (by rw [← mem_L hD hS, ← hsplit]; simp))
    have hnext : s.next p 1 = (r ++ [0]).head (by simp) := by
      have := h0
      rw [← hsplit'] at this
      exact this.nbr.2.2.2
    have hhd : ((p :: r) ++ [0]).head (by simp) = p := rfl
    rw [hhd]
    unfold sweep2
    rw [if_neg hp0, hnext]
    exact ih fuel (l ++ [q]) p _ _ (by simp at hf; omega) hsplit'

theorem hvRec_links (c : ℕ → ℕ → K) (fuel : ℕ) (hfuel : X.N.card ≤ fuel) :
    ∀ d < X.D, X.RecTotal d (hvRec c fuel d) := by
  intro d
  induction d with
  | zero =>
    intro hD S s hS hne hring
    have h0 := hring 0 le_rfl
    obtain ⟨q, r, hl⟩ : ∃ q r, X.L 0 S = q :: r := by
      rcases h : X.L 0 S with _ | ⟨q, r⟩
      · exfalso
        have := length_L hD hS
        rw [h] at this
        exact hne.ne_empty (Finset.card_eq_zero.mp this.symm)
      · exact ⟨q, r, rfl⟩
    obtain ⟨n, hn⟩ : ∃ n, S.card = n + 1 := ⟨S.card - 1, by have := hne.card_pos; omega⟩
    have hq0 : q ≠ 0 := fun e => X.zero_notMem (e ▸ hS (by rw [← mem_L hD hS, hl]; simp))
    rw [hl] at h0
    refine ⟨-c q 0, s, ?_, rfl, rfl⟩
    rw [hn]
    simp only [hvRec, h0.first.1, hq0, if_false]
  | succ d ih =>
    intro hD S s hS hne hring
    obtain ⟨n, hn⟩ : ∃ n, S.card = n + 1 := ⟨S.card - 1, by have := hne.card_pos; omega⟩
    have hcard := Finset.card_le_card hS
    cases d with
    | zero =>
      have h0 := hring 1 le_rfl
      obtain ⟨q, r, hl⟩ : ∃ q r, X.L 1 S = q :: r := by
        rcases h : X.L 1 S with _ | ⟨q, r⟩
        · exfalso
          have := length_L hD hS
          rw [h] at this
          exact hne.ne_empty (Finset.card_eq_zero.mp this.symm)
        · exact ⟨q, r, rfl⟩
      have hq0 : q ≠ 0 := fun e => X.zero_notMem (e ▸ hS (by rw [← mem_L hD hS, hl]; simp))
      have h0' := h0
      rw [hl] at h0'
      have hnext : s.next q 1 = (r ++ [0]).head (by simp) := (IsRing.nbr (l₁ := []) h0').2.2.2
      have hlen : r.length ≤ fuel := by
        have h1 := length_L hD hS
        rw [hl] at h1
        simp at h1; omega
      obtain ⟨v, hv⟩ := sweep2_total c hD hS h0 r fuel [] q 0 (c q 0) hlen (by simp [hl])
      refine ⟨v, s, ?_, rfl, rfl⟩
      rw [hn]
      simp [hvRec, h0'.first.1, hq0, hnext, hv]
    | succ d =>
      have := level_total (X := X) (d := d + 1 + 1) hD hS (rec := hvRec c fuel (d + 1)) c (by omega)
        (ih (by omega)) (fuel := fuel) (by omega) hne hring
      rw [hn] at this ⊢
      exact this

end Lists

/-- `compute` returns a value for every input with at least one objective. -/
theorem compute_total {argsort : List K → List ℕ} (ha : IsArgsort argsort) {d : ℕ} (hd : 0 < d)
    (front : List (ℕ → K)) (ref : ℕ → K) : ∃ v, compute argsort d front ref = some v := by
  obtain ⟨D, rfl⟩ : ∃ D, d = D + 1 := ⟨d - 1, by omega⟩
  unfold compute
  dsimp only
  set pts := relevantPoints (D + 1) front ref
  obtain ⟨G, s, hpre, hG, -⟩ := preProcess_spec ha (cargoOf pts) (D + 1) pts.length
  rw [hpre]
  dsimp only
  let X : Lists :=
    { D := D + 1
      N := ((List.range pts.length).map (· + 1)).toFinset
      G := G
      zero_notMem := by simp
      mem_G := fun i hi z => by rw [(hG i hi).1.mem_iff, List.mem_toFinset]
      nodup_G := fun i hi => (hG i hi).1.nodup_iff.mpr (List.nodup_range.map (fun a b h => by simpa using h)) }
  have hcard : X.N.card = pts.length := by
    show (List.toFinset _).card = _
    rw [List.toFinset_card_of_nodup (List.nodup_range.map (fun a b h => by simpa using h))]
    simp
  rcases Nat.eq_zero_or_pos pts.length with h0 | h0
  · rw [h0]
    refine ⟨0, ?_⟩
    rcases D with _ | _ | D <;> rfl
  · obtain ⟨v, s', e, -⟩ := Lists.hvRec_links (X := X) (cargoOf pts) pts.length hcard.le D (Nat.lt_succ_self D) X.N s
      le_rfl (Finset.card_pos.mp (by omega)) (by
        intro i hi
        have hi' : i < D + 1 := by omega
        have : X.L i X.N = G i := by
          rw [Lists.L, List.filter_eq_self]
          intro a ha
          simpa using (X.mem_G i hi' a).1 ha
        rw [this]
        exact (hG i hi').2.2)
    rw [hcard] at e
    exact ⟨v, by rw [e]⟩

end Verif.HV
