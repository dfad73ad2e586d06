import Verif.HV.Ring
import Mathlib.Data.Finset.Card
import Mathlib.Data.Finset.Filter
import Mathlib.Data.Finset.Max
import Mathlib.Tactic.Ring
import Mathlib.Tactic.Linarith

/-!
# The invariant of `hvRecursive`

`Ctx` collects what is fixed during one run: the cargo, the sorted lists and an abstract volume
function with the few laws the algorithm depends on. `Verif.HV.Measure` shows that Lebesgue measure
satisfies the laws.
-/

set_option linter.unusedSectionVars false

namespace Verif.HV

variable {K : Type*} [CommRing K] [LinearOrder K] [IsStrictOrderedRing K]

/-- Data that is fixed while `hvRecursive` runs on `D` objectives. `V d A` stands for the
`d`-dimensional volume of the union of the boxes `[c z, 0]`, `z ∈ A`, in the first `d` coordinates. -/
structure Ctx (K : Type*) [CommRing K] [LinearOrder K] where
  c : ℕ → ℕ → K
  D : ℕ
  N : Finset ℕ
  G : ℕ → List ℕ
  V : ℕ → Finset ℕ → K
  zero_notMem : 0 ∉ N
  mem_G : ∀ i < D, ∀ z, z ∈ G i ↔ z ∈ N
  nodup_G : ∀ i < D, (G i).Nodup
  sorted_G : ∀ i < D, (G i).Pairwise (fun a b => c a i ≤ c b i)
  V_empty : ∀ d, V d ∅ = 0
  V_zero : ∀ A : Finset ℕ, A.Nonempty → V 0 A = 1
  V_slab : ∀ d A x, d < D → A ⊆ N → x ∈ N → (∀ z ∈ A, c z d ≤ c x d) →
    V (d + 1) (insert x A) = V (d + 1) A + (V d (insert x A) - V d A) * -(c x d)
  V_le : ∀ d A x, d ≤ D → A ⊆ N → x ∈ N → V d (insert x A) ≤ V d A →
    (∃ i < d, c x i = 0) ∨ ∃ z ∈ A, ∀ i < d, c z i ≤ c x i
  V_dom : ∀ d A x, A ⊆ N → x ∈ N →
    ((∃ i < d, c x i = 0) ∨ ∃ z ∈ A, ∀ i < d, c z i ≤ c x i) → V d (insert x A) = V d A
  V_mono : ∀ d A B, A ⊆ B → V d A ≤ V d B
  neg : ∀ q ∈ N, ∀ i < D, c q i ≤ 0
  triple : 4 ≤ D → ∀ a ∈ N, ∀ b ∈ N, c a 0 = c b 0 → c a 1 = c b 1 → c a 2 = c b 2 → a = b
  tie : ∀ j, 3 ≤ j → j + 2 ≤ D → ∀ a ∈ N, ∀ b ∈ N, c a j = c b j → a = b
  null : 7 ≤ D → ∀ q ∈ N, ∀ i, i + 2 ≤ D → c q i ≠ 0

namespace Ctx

variable (X : Ctx K)

/-- List `i` restricted to the nodes of `S`. -/
def L (i : ℕ) (S : Finset ℕ) : List ℕ := (X.G i).filter (· ∈ S)

/-- Position of a node in list `i`. -/
def pos (i z : ℕ) : ℕ := (X.G i).idxOf z

variable {X}

theorem mem_L {i : ℕ} (hi : i < X.D) {S : Finset ℕ} (hS : S ⊆ X.N) {z : ℕ} :
    z ∈ X.L i S ↔ z ∈ S := by
  simp only [L, List.mem_filter, decide_eq_true_eq, X.mem_G i hi]
  exact ⟨fun h => h.2, fun h => ⟨hS h, h⟩⟩

theorem nodup_L {i : ℕ} (hi : i < X.D) (S : Finset ℕ) : (X.L i S).Nodup :=
  (X.nodup_G i hi).filter _

theorem toFinset_L {i : ℕ} (hi : i < X.D) {S : Finset ℕ} (hS : S ⊆ X.N) :
    (X.L i S).toFinset = S := by
  ext z; simp [mem_L hi hS]

theorem length_L {i : ℕ} (hi : i < X.D) {S : Finset ℕ} (hS : S ⊆ X.N) :
    (X.L i S).length = S.card := by
  rw [← List.toFinset_card_of_nodup (nodup_L hi S), toFinset_L hi hS]

theorem pairwise_pos {i : ℕ} (hi : i < X.D) :
    (X.G i).Pairwise (fun a b => X.pos i a < X.pos i b) := by
  rw [List.pairwise_iff_getElem]
  intro a b ha hb hab
  simp only [pos]
  rw [(X.nodup_G i hi).idxOf_getElem, (X.nodup_G i hi).idxOf_getElem]
  exact hab

theorem pairwise_pos_L {i : ℕ} (hi : i < X.D) (S : Finset ℕ) :
    (X.L i S).Pairwise (fun a b => X.pos i a < X.pos i b) :=
  (pairwise_pos hi).filter _

theorem pairwise_c_L {i : ℕ} (hi : i < X.D) (S : Finset ℕ) :
    (X.L i S).Pairwise (fun a b => X.c a i ≤ X.c b i) :=
  (X.sorted_G i hi).filter _

theorem pos_inj {i : ℕ} (hi : i < X.D) {a b : ℕ} (ha : a ∈ X.N) (h : X.pos i a = X.pos i b) :
    a = b :=
  (List.idxOf_inj ((X.mem_G i hi a).2 ha)).mp h

theorem c_le_of_pos {i : ℕ} (hi : i < X.D) {a b : ℕ} (ha : a ∈ X.N) (hb : b ∈ X.N)
    (h : X.pos i a < X.pos i b) : X.c a i ≤ X.c b i := by
  have ha' := (X.mem_G i hi a).2 ha
  have hb' := (X.mem_G i hi b).2 hb
  have := (List.pairwise_iff_getElem.mp (X.sorted_G i hi)) (X.pos i a) (X.pos i b)
    (List.idxOf_lt_length_of_mem ha') (List.idxOf_lt_length_of_mem hb') h
  simpa [pos] using this

theorem pos_lt_of_c {i : ℕ} (hi : i < X.D) {a b : ℕ} (ha : a ∈ X.N) (hb : b ∈ X.N)
    (h : X.c a i < X.c b i) : X.pos i a < X.pos i b := by
  rcases lt_trichotomy (X.pos i a) (X.pos i b) with h1 | h1 | h1
  · exact h1
  · rw [pos_inj hi ha h1] at h; exact absurd h (lt_irrefl _)
  · exact absurd (c_le_of_pos hi hb ha h1) (not_le.mpr h)

/-- Splitting list `i` at a node. -/
theorem L_insert {i : ℕ} (hi : i < X.D) {A : Finset ℕ} {q : ℕ} (hq : q ∈ X.N) (hqA : q ∉ A) :
    ∃ a b, X.L i (insert q A) = a ++ q :: b ∧ X.L i A = a ++ b ∧ q ∉ a ∧ q ∉ b := by
  have hmem := (X.mem_G i hi q).2 hq
  obtain ⟨g1, g2, hg⟩ := List.append_of_mem hmem
  have hnd := X.nodup_G i hi
  rw [hg, List.nodup_append] at hnd
  obtain ⟨-, h2, h3⟩ := hnd
  have hq1 : q ∉ g1 := fun h => h3 q h q (by simp) rfl
  have hq2 : q ∉ g2 := (List.nodup_cons.mp h2).1
  refine ⟨g1.filter (· ∈ A), g2.filter (· ∈ A), ?_, ?_, ?_, ?_⟩
  · rw [L, hg, List.filter_append, List.filter_cons]
    simp only [Finset.mem_insert, true_or, decide_true, if_true]
    congr 1
    · apply List.filter_congr
      intro z hz
      have : z ≠ q := fun h => hq1 (h ▸ hz)
      simp [this]
    · congr 1
      apply List.filter_congr
      intro z hz
      have : z ≠ q := fun h => hq2 (h ▸ hz)
      simp [this]
  · rw [L, hg, List.filter_append, List.filter_cons]
    simp [hqA]
  · simp [hq1]
  · simp [hq2]

/-- The nodes before `q` in list `d` are the prefix of the list before `q`. -/
theorem filter_lt {d : ℕ} (hd : d < X.D) {S : Finset ℕ} (hS : S ⊆ X.N) {l r : List ℕ} {q : ℕ}
    (h : l ++ q :: r = X.L d S) : S.filter (fun z => X.pos d z < X.pos d q) = l.toFinset := by
  have hp := pairwise_pos_L hd S
  rw [← h, List.pairwise_append] at hp
  obtain ⟨-, h2, h3⟩ := hp
  ext z
  simp only [Finset.mem_filter, List.mem_toFinset]
  rw [← mem_L hd hS, ← h]
  simp only [List.mem_append, List.mem_cons]
  constructor
  · rintro ⟨hz | rfl | hz, hlt⟩
    · exact hz
    · exact absurd hlt (lt_irrefl _)
    · exact absurd ((List.pairwise_cons.mp h2).1 z hz) (by omega)
  · intro hz
    exact ⟨Or.inl hz, h3 z hz q (by simp)⟩

theorem filter_le {d : ℕ} (hd : d < X.D) {S : Finset ℕ} (hS : S ⊆ X.N) {l r : List ℕ} {q : ℕ}
    (h : l ++ q :: r = X.L d S) :
    S.filter (fun z => X.pos d z ≤ X.pos d q) = insert q l.toFinset := by
  have hqS : q ∈ S := by rw [← mem_L hd hS, ← h]; simp
  rw [← filter_lt hd hS h]
  ext z
  simp only [Finset.mem_filter, Finset.mem_insert]
  constructor
  · rintro ⟨hz, hle⟩
    rcases hle.lt_or_eq with hlt | heq
    · exact Or.inr ⟨hz, hlt⟩
    · exact Or.inl (pos_inj hd (hS hz) heq)
  · rintro (rfl | ⟨hz, hlt⟩)
    · exact ⟨hqS, le_rfl⟩
    · exact ⟨hz, hlt.le⟩

variable (X)

/-- Node `q` adds nothing to the `d`-dimensional volume of the nodes of `S` before it. -/
def Dom (d : ℕ) (S : Finset ℕ) (q : ℕ) : Prop :=
  (∃ i < d, X.c q i = 0) ∨ ∃ z ∈ S, X.pos d z < X.pos d q ∧ ∀ i < d, X.c z i ≤ X.c q i

/-- The weaker meaning of a mark that survives on the levels below the one that set it: `q` is
degenerate or another node of `S` is at least as good in the objectives `0, …, d`. That node need not
come before `q` in list `d`. -/
def Wk (d : ℕ) (S : Finset ℕ) (q : ℕ) : Prop :=
  (∃ i ≤ d, X.c q i = 0) ∨ ∃ z ∈ S, z ≠ q ∧ ∀ i ≤ d, X.c z i ≤ X.c q i

/-- Meaning of a mark of level at least `d`. -/
def Fl (d : ℕ) (S : Finset ℕ) (q : ℕ) : Prop :=
  (d + 2 ≤ X.D ∧ X.Wk d S q) ∨ (d + 1 = X.D ∧ X.Dom d S q)

/-- `a` is the volume of the nodes up to `y` in list `j`, except that some marked nodes may be left
out. With ties in objective `j` a marked node can come before the node that dominates it; then its
`area[j]` is too small until the last of the tied nodes is reached. -/
def AreaOK (j : ℕ) (S : Finset ℕ) (y : ℕ) (a : K) : Prop :=
  ∃ U ⊆ S.filter (fun z => X.pos j z ≤ X.pos j y), a = X.V j U ∧
    ∀ x ∈ S.filter (fun z => X.pos j z ≤ X.pos j y), x ∉ U → j + 2 ≤ X.D ∧ X.Wk j S x

/-- The cached `area[j]` and `volume[j]` of node `y` are right for the nodes of `S`. -/
def CacheAt (j : ℕ) (S : Finset ℕ) (y : ℕ) (s : ML K) : Prop :=
  X.AreaOK j S y (s.area y j) ∧
  s.volume y j = X.V (j + 1) (S.filter (fun z => X.pos j z < X.pos j y)) +
    X.V j (S.filter (fun z => X.pos j z < X.pos j y)) * X.c y j

/-- The caches of level `j` are right for the nodes below `bounds[j]`. -/
def Cache (j : ℕ) (S : Finset ℕ) (s : ML K) : Prop :=
  ∀ y ∈ S, X.c y j < s.bounds j → X.CacheAt j S y s

/-- What is known when the level below the highest is called on at least two nodes: one node is new, and
either there is only one other node, whose areas are right, or `bounds[d]` is the value of the new
node or of a node that is not the first of list `d`. -/
def Last (d : ℕ) (S : Finset ℕ) (s : ML K) : Prop :=
  ∃ p ∈ S, s.ignore p = 0 ∧
    ((∃ q, S = {q, p} ∧ (∀ j, 1 ≤ j → j ≤ d → s.area q j = X.V j {q}) ∧
        ∀ y ∈ S, s.bounds d ≤ X.c y d) ∨
      s.bounds d = X.c p d ∨
      ∃ w ∈ S, ∃ w' ∈ S, s.bounds d = X.c w d ∧ X.c w' d < X.c w d)

/-- Precondition of `hvRecursive(d, |S|, bounds)`. -/
structure Pre (d : ℕ) (S : Finset ℕ) (s : ML K) : Prop where
  ring : ∀ i ≤ d, IsRing (s.next · i) (s.prev · i) (X.L i S)
  flag : 2 ≤ d → ∀ q ∈ S, d ≤ s.ignore q → d + 2 ≤ X.D ∧ X.Wk d S q
  cache : 2 ≤ S.card → ∀ j, 2 ≤ j → j ≤ d → X.Cache j S s
  sent : ∀ j, s.area 0 j = 0
  one : 2 ≤ d → S.card = 1 → ∀ q ∈ S, s.ignore q = 0
  last : d + 2 = X.D → 3 ≤ d → 2 ≤ S.card → X.Last d S s
  low : d + 1 = X.D → ∀ j, 2 ≤ j → j ≤ d → ∀ y ∈ X.N, s.bounds j ≤ X.c y j
  area1 : ∀ q, s.area q 1 = 0 ∨ s.area q 1 = -(X.c q 0)

/-- Postcondition of `hvRecursive(d, |S|, bounds)`. -/
structure Post (d : ℕ) (S : Finset ℕ) (s s' : ML K) : Prop where
  next : s'.next = s.next
  prev : s'.prev = s.prev
  flag_out : ∀ q, q ∉ S → s'.ignore q = s.ignore q
  flag_hi : ∀ q, d < s.ignore q → s'.ignore q = s.ignore q
  flag_lo : ∀ q, s.ignore q ≤ d → s'.ignore q ≤ d
  flag : 2 ≤ d → ∀ q ∈ S, d ≤ s'.ignore q → X.Fl d S q
  cache : ∀ j, 2 ≤ j → j ≤ d → X.Cache j S s'
  area_hi : ∀ y j, d < j → s'.area y j = s.area y j
  volume_hi : ∀ y j, d < j → s'.volume y j = s.volume y j
  bounds_hi : ∀ j, d < j → s'.bounds j = s.bounds j
  sent : ∀ j, s'.area 0 j = 0
  area1 : ∀ q, s'.area q 1 = 0 ∨ s'.area q 1 = -(X.c q 0)
  sing : S.card = 1 → s'.bounds = s.bounds ∧ (d = 1 → s'.area = s.area) ∧
    (2 ≤ d → ∀ q ∈ S, ∀ j, 1 ≤ j → j ≤ d → s'.area q j = X.V j {q})
  bnd : d + 2 = X.D → 3 ≤ d → 2 ≤ S.card →
    ∃ w ∈ S, ∃ w' ∈ S, s'.bounds d = X.c w d ∧ X.c w' d < X.c w d

/-- What a recursive call has to deliver. -/
def RecSpec (d : ℕ) (rec : ℕ → ML K → Option (K × ML K)) : Prop :=
  ∀ S s, S ⊆ X.N → S.Nonempty → X.Pre d S s →
    ∃ s', rec S.card s = some (X.V (d + 1) S, s') ∧ X.Post d S s s'

/-- Re-inserting the nodes of `r` one by one after those of `l` leads to the pointers `nx₀`, `pv₀`. -/
def Undo (d : ℕ) (nx₀ pv₀ : ℕ → ℕ → ℕ) : List ℕ → List ℕ → (ℕ → ℕ → ℕ) → (ℕ → ℕ → ℕ) → Prop
  | _, [], nx, pv => nx = nx₀ ∧ pv = pv₀
  | l, x :: r, nx, pv => ∃ nx' pv', nx = remNext x d nx' pv' ∧ pv = remPrev x d nx' pv' ∧
      (∀ i < d, IsRing (nx' · i) (pv' · i) (X.L i (l ++ [x]).toFinset)) ∧
      Undo d nx₀ pv₀ (l ++ [x]) r nx' pv'

variable {X}

theorem V_single_zero (hD : 0 < X.D) {q : ℕ} (hq : q ∈ X.N) : X.V 1 {q} = -(X.c q 0) := by
  have e0 := X.V_slab 0 ∅ q hD (by simp) hq (by simp)
  simp only [X.V_empty, insert_empty_eq, X.V_zero {q} ⟨q, by simp⟩, Nat.zero_add] at e0
  rw [e0]; ring

theorem V_single_succ {j : ℕ} (hD : j < X.D) {q : ℕ} (hq : q ∈ X.N) :
    X.V (j + 1) {q} = X.V j {q} * -(X.c q j) := by
  have e := X.V_slab j ∅ q hD (by simp) hq (by simp)
  simp only [X.V_empty, insert_empty_eq] at e
  rw [e]; ring

theorem Wk.mono {d : ℕ} {S T : Finset ℕ} (h : S ⊆ T) {q : ℕ} : X.Wk d S q → X.Wk d T q := by
  rintro (h1 | ⟨z, hz, h2⟩)
  · exact Or.inl h1
  · exact Or.inr ⟨z, h hz, h2⟩

theorem Dom.wk {d : ℕ} {S : Finset ℕ} (hS : S ⊆ X.N) (hD : d < X.D) {q : ℕ} (hq : q ∈ S)
    (h : X.Dom d S q) : X.Wk d S q := by
  rcases h with ⟨i, hi, h0⟩ | ⟨z, hz, hlt, hle⟩
  · exact Or.inl ⟨i, hi.le, h0⟩
  · refine Or.inr ⟨z, hz, fun e => by subst e; exact lt_irrefl _ hlt, fun i hi => ?_⟩
    rcases hi.lt_or_eq with h | rfl
    · exact hle i h
    · exact c_le_of_pos hD (hS hz) (hS hq) hlt

theorem Dom.fl {d : ℕ} {S : Finset ℕ} (hS : S ⊆ X.N) (hD : d < X.D) {q : ℕ} (hq : q ∈ S)
    (h : X.Dom d S q) : X.Fl d S q := by
  by_cases h2 : d + 2 ≤ X.D
  · exact Or.inl ⟨h2, h.wk hS hD hq⟩
  · exact Or.inr ⟨by omega, h⟩

/-- A mark of a higher level keeps its weak meaning one level down, except for the last node of the
list if its value in objective `d + 1` is the reference. Ties in the objectives `3, …` would break the
argument. -/
theorem Fl.down {d : ℕ} {S : Finset ℕ} (hS : S ⊆ X.N) (hd : 2 ≤ d) (hD : d + 1 < X.D) {q : ℕ}
    (hq : q ∈ S) {l r : List ℕ} (hl : l ++ r = X.L (d + 1) S) (hql : q ∈ l)
    (h : X.Fl (d + 1) S q) : X.Wk d l.toFinset q ∨ (X.c q (d + 1) = 0 ∧ d + 3 ≤ X.D) := by
  have key : ∀ z ∈ S, X.pos (d + 1) z < X.pos (d + 1) q → z ∈ l.toFinset := by
    intro z hz hlt
    obtain ⟨a, b, rfl⟩ := List.append_of_mem hql
    have h1 : a ++ q :: (b ++ r) = X.L (d + 1) S := by rw [← hl]; simp
    have : z ∈ S.filter (fun z => X.pos (d + 1) z < X.pos (d + 1) q) := by simp [hz, hlt]
    rw [filter_lt hD hS h1] at this
    simp at this ⊢
    tauto
  rcases h with ⟨hD2, ⟨i, hi, h0⟩ | ⟨z, hz, hne, hle⟩⟩ | ⟨-, ⟨i, hi, h0⟩ | ⟨z, hz, hlt, hle⟩⟩
  · rcases hi.lt_or_eq with h1 | rfl
    · exact Or.inl (Or.inl ⟨i, by omega, h0⟩)
    · exact Or.inr ⟨h0, hD2⟩
  · left
    have hc : X.c z (d + 1) ≠ X.c q (d + 1) := fun he =>
      hne (X.tie (d + 1) (by omega) hD2 z (hS hz) q (hS hq) he)
    exact Or.inr ⟨z, key z hz (pos_lt_of_c hD (hS hz) (hS hq) (lt_of_le_of_ne (hle _ le_rfl) hc)), hne,
      fun i hi => hle i (by omega)⟩
  · exact Or.inl (Or.inl ⟨i, by omega, h0⟩)
  · left
    exact Or.inr ⟨z, key z hz hlt, fun e => by subst e; exact lt_irrefl _ hlt,
      fun i hi => hle i (by omega)⟩

/-- Nodes that are degenerate or dominated, directly or through others, by nodes of `U` add nothing. -/
theorem V_closed {d : ℕ} (hd : d ≤ X.D) {A U : Finset ℕ} (hA : A ⊆ X.N) (hU : U ⊆ A) (f : ℕ → K)
    (h : ∀ x ∈ A, x ∉ U → (∃ i < d, X.c x i = 0) ∨
      ∃ z ∈ A, f z < f x ∧ ∀ i < d, X.c z i ≤ X.c x i) :
    X.V d A = X.V d U := by
  classical
  have hall : ∀ x ∈ A, (∃ i < d, X.c x i = 0) ∨ ∃ z ∈ U, ∀ i < d, X.c z i ≤ X.c x i := by
    by_contra hcon
    push Not at hcon
    obtain ⟨x₀, hx₀, hz₀, hn₀⟩ := hcon
    obtain ⟨x, hx, hmin⟩ := Finset.exists_min_image
      (A.filter (fun x => (∀ i < d, X.c x i ≠ 0) ∧ ∀ z ∈ U, ∃ i < d, X.c x i < X.c z i)) f
      ⟨x₀, Finset.mem_filter.mpr ⟨hx₀, hz₀, hn₀⟩⟩
    rw [Finset.mem_filter] at hx
    obtain ⟨hxA, hxz, hxn⟩ := hx
    have hxU : x ∉ U := by
      intro hh
      obtain ⟨i, -, hlt⟩ := hxn x hh
      exact lt_irrefl _ hlt
    rcases h x hxA hxU with ⟨i, hi, h0⟩ | ⟨z, hz, hf, hle⟩
    · exact hxz i hi h0
    · refine absurd (hmin z (Finset.mem_filter.mpr ⟨hz, ?_, ?_⟩)) (not_le.mpr hf)
      · intro i hi h0
        refine hxz i hi (le_antisymm (X.neg x (hA hxA) i (by omega)) ?_)
        rw [← h0]; exact hle i hi
      · intro u hu
        obtain ⟨i, hi, hlt⟩ := hxn u hu
        exact ⟨i, hi, lt_of_le_of_lt (hle i hi) hlt⟩
  have hstep : ∀ T : Finset ℕ, T ⊆ A → X.V d (U ∪ T) = X.V d U := by
    intro T
    induction T using Finset.induction_on with
    | empty => intro _; simp
    | insert x T hxT ih =>
      intro hT
      have hxA : x ∈ A := hT (Finset.mem_insert_self _ _)
      have hTA : T ⊆ A := fun z hz => hT (Finset.mem_insert_of_mem hz)
      have e : U ∪ insert x T = insert x (U ∪ T) := by
        ext z; simp only [Finset.mem_union, Finset.mem_insert]; tauto
      have hUT : U ∪ T ⊆ X.N := fun z hz => by
        rcases Finset.mem_union.mp hz with h1 | h1
        · exact hA (hU h1)
        · exact hA (hTA h1)
      rw [e, X.V_dom d (U ∪ T) x hUT (hA hxA) ?_, ih hTA]
      · rcases hall x hxA with h1 | ⟨z, hz, h1⟩
        · exact Or.inl h1
        · exact Or.inr ⟨z, Finset.mem_union_left _ hz, h1⟩
  have := hstep A (Finset.Subset.refl _)
  rwa [Finset.union_eq_right.mpr hU] at this

/-- At the last node of a group of ties the area is exact. -/
theorem AreaOK.exact {j : ℕ} (hj2 : 2 ≤ j) (hj : j < X.D) {S : Finset ℕ} (hS : S ⊆ X.N) {y : ℕ}
    (hy : y ∈ S) (hlast : ∀ z ∈ S, X.c z j ≤ X.c y j → X.pos j z ≤ X.pos j y) (hne : X.c y j ≠ 0)
    {a : K} (h : X.AreaOK j S y a) : a = X.V j (S.filter (fun z => X.pos j z ≤ X.pos j y)) := by
  obtain ⟨U, hU, rfl, hx⟩ := h
  have hle : ∀ x ∈ S.filter (fun z => X.pos j z ≤ X.pos j y), X.c x j ≤ X.c y j := by
    intro x hx
    rw [Finset.mem_filter] at hx
    rcases hx.2.lt_or_eq with h1 | h1
    · exact c_le_of_pos hj (hS hx.1) (hS hy) h1
    · rw [pos_inj hj (hS hx.1) h1]
  symm
  refine V_closed hj.le (fun z hz => hS (Finset.mem_filter.mp hz).1) hU
    (fun x => X.c x 0 + X.c x 1 + X.c x 2) ?_
  intro x hxA hxU
  have hxS := (Finset.mem_filter.mp hxA).1
  obtain ⟨hD, hw⟩ := hx x hxA hxU
  rcases hw with ⟨i, hi, h0⟩ | ⟨z, hz, hzx, hzle⟩
  · rcases hi.lt_or_eq with h1 | rfl
    · exact Or.inl ⟨i, h1, h0⟩
    · refine absurd (le_antisymm (X.neg y (hS hy) i hj) ?_) hne
      rw [← h0]; exact hle x hxA
  · refine Or.inr ⟨z, Finset.mem_filter.mpr ⟨hz, hlast z hz ((hzle j le_rfl).trans (hle x hxA))⟩, ?_,
      fun i hi => hzle i hi.le⟩
    have h0 := hzle 0 (by omega)
    have h1 := hzle 1 (by omega)
    have h2 := hzle 2 (by omega)
    by_contra hcon
    push Not at hcon
    exact hzx (X.triple (by omega) z (hS hz) x (hS hxS) (by linarith) (by linarith) (by linarith))

theorem cacheAt_congr {j : ℕ} {S : Finset ℕ} {y : ℕ} {s s' : ML K}
    (h : X.CacheAt j S y s) (ha : s'.area y j = s.area y j) (hv : s'.volume y j = s.volume y j) :
    X.CacheAt j S y s' := by
  unfold CacheAt at *
  rw [ha, hv]; exact h

theorem cacheAt_insert_iff {j : ℕ} (hj : j < X.D) {A : Finset ℕ} (hA : A ⊆ X.N) {q y : ℕ}
    (hq : q ∈ X.N) (hy : y ∈ X.N) (hlt : X.c y j < X.c q j) (s : ML K) :
    X.CacheAt j (insert q A) y s ↔ X.CacheAt j A y s := by
  have hp := pos_lt_of_c hj hy hq hlt
  have hle : ∀ x ∈ A.filter (fun z => X.pos j z ≤ X.pos j y), X.c x j ≤ X.c y j := by
    intro x hx
    rw [Finset.mem_filter] at hx
    rcases hx.2.lt_or_eq with h1 | h1
    · exact c_le_of_pos hj (hA hx.1) hy h1
    · rw [pos_inj hj (hA hx.1) h1]
  have hw : ∀ x ∈ A.filter (fun z => X.pos j z ≤ X.pos j y),
      (X.Wk j (insert q A) x ↔ X.Wk j A x) := by
    intro x hx
    refine ⟨?_, Wk.mono (Finset.subset_insert _ _)⟩
    rintro (h | ⟨z, hz, hne, h⟩)
    · exact Or.inl h
    · rcases Finset.mem_insert.mp hz with rfl | hz
      · exact absurd ((h j le_rfl).trans (hle x hx)) (not_le.mpr hlt)
      · exact Or.inr ⟨z, hz, hne, h⟩
  unfold CacheAt AreaOK
  rw [Finset.filter_insert, Finset.filter_insert]
  simp only [not_le.mpr hp, not_lt.mpr hp.le, if_false]
  refine and_congr_left fun _ => exists_congr fun U => and_congr_right fun _ => and_congr_right fun _ =>
    forall_congr' fun x => forall_congr' fun hx => ?_
  rw [hw x hx]

theorem cache_erase {j : ℕ} (hj : j < X.D) {A : Finset ℕ} {q : ℕ} (hq : q ∈ X.N) (hA : A ⊆ X.N)
    {s s' : ML K} (ha : ∀ y, s'.area y j = s.area y j) (hv : ∀ y, s'.volume y j = s.volume y j)
    (hb : s'.bounds j ≤ s.bounds j) (hbq : s'.bounds j ≤ X.c q j)
    (h : X.Cache j (insert q A) s) : X.Cache j A s' := by
  intro y hy hlt
  have h1 := h y (Finset.mem_insert_of_mem hy) (lt_of_lt_of_le hlt hb)
  have h2 := cacheAt_congr h1 (ha y) (hv y)
  exact (cacheAt_insert_iff hj hA hq (hA hy) (lt_of_lt_of_le hlt hbq) s').mp h2

theorem cache_insert {j : ℕ} (hj : j < X.D) {A : Finset ℕ} {q : ℕ} (hq : q ∈ X.N) (hA : A ⊆ X.N)
    {s s' : ML K} (ha : ∀ y, s'.area y j = s.area y j) (hv : ∀ y, s'.volume y j = s.volume y j)
    (hb : s'.bounds j ≤ s.bounds j) (hbq : s'.bounds j ≤ X.c q j)
    (h : X.Cache j A s) : X.Cache j (insert q A) s' := by
  intro y hy hlt
  rcases Finset.mem_insert.mp hy with rfl | hy
  · exact absurd (lt_of_lt_of_le hlt hbq) (lt_irrefl _)
  · have h1 := h y hy (lt_of_lt_of_le hlt hb)
    have h2 := cacheAt_congr h1 (ha y) (hv y)
    exact (cacheAt_insert_iff hj hA hq (hA hy) (lt_of_lt_of_le hlt hbq) s').mpr h2

end Ctx
end Verif.HV
