import Verif.Opt.HVNIterLemmas

/-!
# C69: one iteration and a run of `HVN`

The model of `HVN.iterate` (`Verif.Opt.HvnEnv.iterate`) is put together from the models of its parts. The
statements are about the points before and after an iteration.
-/

namespace Verif.Props

open Verif.Opt Verif.Util Verif.NDS

set_option linter.unusedSectionVars false

variable {K : Type*} [Field K] [LinearOrder K] [IsStrictOrderedRing K] [Inhabited K]

/-- A population of at least one and at most `N0` points with `dim` entries (primal and dual), together with the
objectives, Jacobians and constraint arrays that belong to the points. -/
structure Usable (p : Funcs K) (dim N0 : ℕ) (s : State K) : Prop where
  ne : s.X ≠ []
  le : s.X.length ≤ N0
  dim : ∀ x ∈ s.X, x.length = dim
  sync : InSync p s
  hess : HessInSync p s
  jac : s.J.isSome
  cHess : s.cstrHess.isSome

/-- What is assumed of the parts of an iteration: consistent callbacks, at least two objectives, a sufficient
recursion limit, a symmetric distance, and the Newton step, the residual and the indicator return on all usable
populations. -/
structure EnvOk (e : HvnEnv K) (nObj dim N0 : ℕ) : Prop where
  funcs : e.p.Ok nObj
  two : 2 ≤ nObj
  nVar : e.p.nVar ≤ dim
  fuel : ∀ n ≤ N0, depthBound nObj n ≤ e.fuel
  nonneg : ∀ x y, 0 ≤ e.dist x y
  symm : ∀ x y, e.dist x y = e.dist y x
  newton : ∀ t, Usable e.p dim N0 t → ∃ S R, e.newton t = some (S, R) ∧ S.length = t.X.length ∧
    R.length = t.X.length ∧ (∀ r ∈ S, r.length = dim) ∧ ∀ r ∈ R, r.length = dim
  residual : ∀ t, Usable e.p dim N0 t → ∃ R, e.residual t = some R
  indicator : ∀ t, Usable e.p dim N0 t → ∃ v, e.indicator t.Y = some v

/-- The rows `kept` represent the population: they are pairwise farther apart than `10⁻⁸` in the primal part, and
every other row is within `10⁻⁸` of one of them. -/
structure Representatives (dist : List K → List K → K) (n : ℕ) (X : List (List K)) (kept : List ℕ) : Prop where
  ne : kept ≠ []
  nodup : kept.Nodup
  lt : ∀ i ∈ kept, i < X.length
  apart : ∀ i ∈ kept, ∀ j ∈ kept, i ≠ j → 1 / 10 ^ 8 < dist ((X.getD i []).take n) ((X.getD j []).take n)
  near : ∀ j < X.length, j ∉ kept → ∃ i ∈ kept, dist ((X.getD i []).take n) ((X.getD j []).take n) ≤ 1 / 10 ^ 8

/-- Feasible with a margin: equalities up to `10⁻⁴`, inequalities below `-10⁻⁴`. -/
def MarginFeasible (p : Funcs K) (q : List K) : Prop :=
  (∀ v ∈ optVal p.h p.nEq q, |v| ≤ 1 / 10 ^ 4) ∧ ∀ v ∈ optVal p.g p.nIeq q, v < -(1 / 10 ^ 4)

/-- `parts` splits the points `Z` into layers: every point is in exactly one layer, no layer is empty, all
infeasible points are in the first layer, and a feasible point does not dominate another one of its layer. -/
structure Layers (p : Funcs K) (Z : List (List K)) (parts : List (List ℕ)) : Prop where
  perm : parts.flatten.Perm (List.range Z.length)
  ne : ∀ l ∈ parts, l ≠ []
  infeasible : ∀ i < Z.length, ¬ MarginFeasible p ((Z.getD i []).take p.nVar) → i ∈ parts.headD []
  nondom : ∀ l ∈ parts, ∀ i ∈ l, ∀ j ∈ l, MarginFeasible p ((Z.getD i []).take p.nVar) →
    MarginFeasible p ((Z.getD j []).take p.nVar) →
    ¬ Dominates (p.func.point ((Z.getD i []).take p.nVar)) (p.func.point ((Z.getD j []).take p.nVar))

/-- A layer moves from `Z` to `Z'`: along the Newton step `S` of the layer with the maximal step size `m`, halved at
most six times. After fewer than six halvings the norm of the residual at `Z'` is smaller than at `Z`, up to the
test `|‖R‖ - 2⁻⁵²| ≤ 10⁻⁸ + 10⁻⁵ 2⁻⁵²` of the code. `Q` describes the maximal step size. -/
def LayerMoved (e : HvnEnv K) (dim N0 : ℕ) (Q : List (List K) → List (List K) → K → Prop)
    (Z Z' : List (List K)) : Prop :=
  ∃ t S R m k, Usable e.p dim N0 t ∧ t.X = Z ∧ e.newton t = some (S, R) ∧ Q Z S m ∧ k ≤ 6 ∧
    Z'.length = Z.length ∧
    (∀ j < Z.length, ∀ c < dim, (Z'.getD j []).getD c 0 =
      (Z.getD j []).getD c 0 + m * (1 / 2) ^ k * (S.getD j []).getD c 0) ∧
    (k < 6 → ∃ t' R', Usable e.p dim N0 t' ∧ t'.X = Z' ∧ e.residual t' = some R' ∧
      (e.norm R' ≤ (1 - 1 / 10 ^ 5 * (m * (1 / 2) ^ k)) * e.norm R ∨
        |e.norm R - 1 / 2 ^ 52| ≤ 1 / 10 ^ 8 + 1 / 10 ^ 5 * |1 / 2 ^ 52|))

/-! ### Slices -/

theorem Usable.slice {p : Funcs K} {dim N0 : ℕ} {s : State K} (h : Usable p dim N0 s) {idx : List ℕ}
    (hne : idx ≠ []) (hi : ∀ i ∈ idx, i < s.X.length) (hl : idx.length ≤ N0) :
    ∃ t, s.getItem idx = some t ∧ Usable p dim N0 t ∧ t.X = idx.map (fun i => s.X.getD i []) ∧
      t.nJac = s.nJac ∧ t.nCstrJac = s.nCstrJac ∧ t.nCstrHess = s.nCstrHess := by
  obtain ⟨t, ht⟩ := C25_defined h.sync h.hess h.jac h.cHess hi
  obtain ⟨h1, h2, h3, h4⟩ := C25_rows (p := p) ht
  have hX : t.X = idx.map (fun i => s.X.getD i []) := by
    apply List.ext_getElem (by simp [h2])
    intro j hj hj'
    rw [h2] at hj
    obtain ⟨a, b, -⟩ := h1 j hj
    rw [List.getElem?_eq_getElem (by rw [h2]; exact hj), List.getElem?_eq_getElem a] at b
    rw [Option.some.inj b, List.getElem_map, List.getD_eq_getElem _ _ a]
  have hc : t.J.isSome ∧ t.cstrHess.isSome ∧ t.nJac = s.nJac ∧ t.nCstrJac = s.nCstrJac ∧
      t.nCstrHess = s.nCstrHess := by
    unfold State.getItem at ht
    simp only [Option.bind_eq_some_iff, Option.map_eq_some_iff] at ht
    obtain ⟨X, hX, Y, hY, J0, hJ0, J, hJ, cv, hcv, act, hact, cg, hcg, H0, hH0, ch, hch, rfl⟩ := ht
    exact ⟨rfl, rfl, rfl, rfl, rfl⟩
  refine ⟨t, ht, ⟨?_, by rw [h2]; exact hl, ?_, h3 h.sync, h4 h.hess, hc.1, hc.2.1⟩, hX, hc.2.2⟩
  · rw [hX]; simpa using hne
  · intro x hx
    rw [hX] at hx
    obtain ⟨i, hi', rfl⟩ := List.mem_map.mp hx
    rw [List.getD_eq_getElem _ _ (hi i hi')]
    exact h.dim _ (List.getElem_mem _)

theorem Usable.update {p : Funcs K} {nObj dim N0 : ℕ} (hp : p.Ok nObj) (hd : p.nVar ≤ dim) (s : State K)
    {X : List (List K)} (hne : X ≠ []) (hl : X.length ≤ N0) (hX : ∀ x ∈ X, x.length = dim) :
    ∃ s', p.update s X true true = some s' ∧ s'.X = X ∧ Usable p dim N0 s' ∧ s'.nJac = s.nJac + X.length := by
  obtain ⟨s', h1, h2, h3, h4, h5, h6⟩ := C23_update hp hd s hne hX true true
  refine ⟨s', h1, h2, ⟨by rw [h2]; exact hne, by rw [h2]; exact hl, by rw [h2]; exact hX, h3, h4 rfl, h5, h6 rfl⟩, ?_⟩
  have := (C24_counters p [.update X true true] s s' (by simp [exec, h1])).1
  simpa [Op.evals] using this

/-! ### One iteration -/

/-- The layers in terms of the points. -/
theorem layers_exist {e : HvnEnv K} {nObj dim N0 : ℕ} (he : EnvOk e nObj dim N0) {s : State K}
    (hs : Usable e.p dim N0 s) : ∃ parts, hvnPartitions e.fuel (e.p.isFeasible s) s.Y = some parts ∧
      Layers e.p s.X parts := by
  have hY := hs.sync.Y
  have hYl : s.Y.length = s.X.length := by rw [hY, List.length_map]
  have hYne : s.Y ≠ [] := by rw [hY]; simpa using hs.ne
  obtain ⟨hf1, hf2⟩ := C26_feasible he.funcs he.nVar hs.sync hs.dim
  have hfeas : ∀ i (hi : i < s.X.length), (e.p.isFeasible s).getD i false = true ↔
      MarginFeasible e.p ((s.X.getD i []).take e.p.nVar) := by
    intro i hi
    have := hf2 i hi
    rw [List.getD_eq_getElem _ _ (by rw [hf1]; exact hi), List.getD_eq_getElem _ _ hi]
    rw [List.getElem?_eq_getElem (by rw [hf1]; exact hi), Option.some.injEq] at this
    exact this
  obtain ⟨parts, h1, h2, h3, h4, h5⟩ := C29_partition nObj e.fuel (e.p.isFeasible s) s.Y hYne he.two
    (by
      intro y hy
      rw [hY] at hy
      obtain ⟨x, hx, rfl⟩ := List.mem_map.mp hy
      exact he.funcs.func.size _ (take_length he.nVar (hs.dim x hx)))
    (fun n hn => he.fuel n (by have := hs.le; omega))
  rw [hYl] at h2 h4
  have hlt : ∀ l ∈ parts, ∀ i ∈ l, i < s.X.length := fun l hl i hi =>
    List.mem_range.mp (h2.mem_iff.mp (List.mem_flatten.mpr ⟨l, hl, hi⟩))
  refine ⟨parts, h1, h2, h3, ?_, ?_⟩
  · intro i hi hn
    refine h4 i hi ?_
    rw [← hfeas i hi] at hn
    simpa using hn
  · intro l hl i hi j hj hfi hfj
    have hi' := hlt l hl i hi
    have hj' := hlt l hl j hj
    have := h5 l hl i hi j hj ((hfeas i hi').mpr hfi) ((hfeas j hj').mpr hfj) (by omega) (by omega)
    rw [List.getD_eq_getElem _ _ hi', List.getD_eq_getElem _ _ hj']
    have e1 : ∀ k (hk : k < s.X.length), s.Y[k]'(by rw [hYl]; exact hk) = e.p.func.point (s.X[k].take e.p.nVar) := by
      intro k hk
      simp [hY]
    rw [e1 i hi', e1 j hj'] at this
    exact this

/-- One layer. -/
theorem layer_exists {e : HvnEnv K} {nObj dim N0 : ℕ} (he : EnvOk e nObj dim N0) {s : State K}
    (hs : Usable e.p dim N0 s) {Q : List (List K) → List (List K) → K → Prop} {idx : List ℕ}
    (hQ : ∀ t S R, s.getItem idx = some t → Usable e.p dim N0 t → (∀ x ∈ t.X, x ∈ s.X) → e.newton t = some (S, R) →
      ∃ m, hvnMaxStep e.limit e.xl e.xu (e.p.primal t.X) (S.map (List.take e.p.nVar)) = some m ∧ Q t.X S m)
    (hne : idx ≠ []) (hi : ∀ i ∈ idx, i < s.X.length) (hl : idx.length ≤ N0) :
    ∃ t S R m k, Usable e.p dim N0 t ∧ t.X = idx.map (fun i => s.X.getD i []) ∧ e.newton t = some (S, R) ∧ Q t.X S m ∧
      k ≤ 6 ∧ S.length = idx.length ∧ R.length = idx.length ∧ (∀ r ∈ S, r.length = dim) ∧ (∀ r ∈ R, r.length = dim) ∧
      e.layer s idx = some (S, R, m * (1 / 2) ^ k) ∧
      (k < 6 → ∃ t' R', Usable e.p dim N0 t' ∧ t'.X = movedBy t.X S (m * (1 / 2) ^ k) ∧ e.residual t' = some R' ∧
        Accept (1 / 10 ^ 5) (e.norm R) (m * (1 / 2) ^ k) (e.norm R')) := by
  obtain ⟨t, ht, hu, hX, -⟩ := hs.slice hne hi hl
  have hXl : t.X.length = idx.length := by rw [hX, List.length_map]
  obtain ⟨S, R, hN, hS, hR, hSr, hRr⟩ := he.newton t hu
  have hsub : ∀ x ∈ t.X, x ∈ s.X := by
    intro x hx
    rw [hX] at hx
    obtain ⟨i, hi', rfl⟩ := List.mem_map.mp hx
    rw [List.getD_eq_getElem _ _ (hi i hi')]
    exact List.getElem_mem _
  obtain ⟨m, hm, hq⟩ := hQ t S R ht hu hsub hN
  have hphi : ∀ a, ∃ t' R', e.p.update t (movedBy t.X S a) true true = some t' ∧ Usable e.p dim N0 t' ∧
      t'.X = movedBy t.X S a ∧ e.residual t' = some R' := by
    intro a
    obtain ⟨m1, m2, -⟩ := movedBy_shape a hu.dim hSr hS
    obtain ⟨t', g1, g2, g3, -⟩ := Usable.update (N0 := N0) he.funcs he.nVar t (X := movedBy t.X S a)
      (by
        intro h0
        rw [h0] at m1
        exact hu.ne (List.length_eq_zero_iff.mp m1.symm))
      (by rw [m1]; exact hu.le) m2
    obtain ⟨R', hR'⟩ := he.residual t' g3
    exact ⟨t', R', g1, g3, g2, hR'⟩
  have hphi' : ∀ a, ∃ v, e.phi t S a = some v := by
    intro a
    obtain ⟨t', R', g1, -, -, g4⟩ := hphi a
    exact ⟨e.norm R', by rw [HvnEnv.phi, g1, Option.bind_some, g4, Option.map_some]⟩
  obtain ⟨k, hk, h1, -, h3⟩ := halvingM_spec (1 / 10 ^ 5) (e.phi t S) (e.norm R) hphi' 6 m
  refine ⟨t, S, R, m, k, hu, hX, hN, hq, hk, hS.trans hXl, hR.trans hXl, hSr, hRr, ?_, ?_⟩
  · rw [HvnEnv.layer, ht, Option.bind_some, hN, Option.bind_some, hm, Option.bind_some, h1, Option.map_some]
  · intro hk6
    obtain ⟨v, hv, hacc⟩ := h3 hk6
    obtain ⟨t', R', g1, g2, g3, g4⟩ := hphi (m * (1 / 2) ^ k)
    rw [HvnEnv.phi, g1, Option.bind_some, g4, Option.map_some] at hv
    refine ⟨t', R', g2, g3, g4, ?_⟩
    rw [Option.some.inj hv]
    exact hacc

/-- The statement about an iteration, with a condition `Q` on the maximal step sizes. -/
def IterationSpec (e : HvnEnv K) (dim N0 : ℕ) (Q : List (List K) → List (List K) → K → Prop) (s s' : State K) : Prop :=
  Usable e.p dim N0 s' ∧ ∃ kept parts, Representatives e.dist e.p.nVar s.X kept ∧ s'.X.length = kept.length ∧
    Layers e.p (kept.map fun i => s.X.getD i []) parts ∧
    (∀ idx ∈ parts, LayerMoved e dim N0 Q (idx.map fun i => s.X.getD (kept.getD i 0) [])
      (idx.map fun i => s'.X.getD i [])) ∧
    s'.nJac = s.nJac + kept.length

/-- The population without duplicates. -/
theorem kept_exists {p : Funcs K} {dist : List K → List K → K} (hnn : ∀ x y, 0 ≤ dist x y)
    (hsy : ∀ x y, dist x y = dist y x) (eps : K) {dim N0 : ℕ} {s : State K} (hs : Usable p dim N0 s) :
    ∃ kept s1, (s.getItem (keptIdx s.X.length eps fun i j =>
        dist ((p.primal s.X).getD i []) ((p.primal s.X).getD j []))) = some s1 ∧ Usable p dim N0 s1 ∧
      Representatives dist p.nVar s.X kept ∧ s1.X = kept.map (fun i => s.X.getD i []) ∧ s1.nJac = s.nJac := by
  set D : ℕ → ℕ → K := fun i j => dist ((p.primal s.X).getD i []) ((p.primal s.X).getD j []) with hD
  have hDe : ∀ i j, D i j = dist ((s.X.getD i []).take p.nVar) ((s.X.getD j []).take p.nVar) := by
    have : ∀ i, (p.primal s.X).getD i [] = (s.X.getD i []).take p.nVar := by
      intro i
      unfold Funcs.primal
      rw [List.getD_eq_getElem?_getD, List.getD_eq_getElem?_getD, List.getElem?_map]
      cases s.X[i]? <;> simp
    intro i j
    rw [hD]
    simp only [this]
  obtain ⟨k1, k2, k3, k4, -⟩ := C30_duplicates s.X.length eps D (fun i j => hnn _ _) (fun i j => hsy _ _) _ rfl
  simp only [hDe] at k3 k4
  set kept := keptIdx s.X.length eps D with hkept
  have hne : kept ≠ [] := by
    intro h
    obtain ⟨i, hi, -⟩ := k4 0 (List.length_pos_iff.mpr hs.ne) (by rw [h]; simp)
    rw [h] at hi
    simp at hi
  have hlen : kept.length ≤ s.X.length := by
    have := (List.subperm_of_subset k1 (fun i hi => List.mem_range.mpr (k2 i hi))).length_le
    simpa using this
  obtain ⟨s1, h1, h2, h3, h4, -⟩ := hs.slice hne k2 (hlen.trans hs.le)
  exact ⟨kept, s1, h1, h2, ⟨hne, k1, k2, k3, k4⟩, h3, h4⟩

theorem check_exists {e : HvnEnv K} {nObj dim N0 : ℕ} (he : EnvOk e nObj dim N0) {s : State K}
    (hs : Usable e.p dim N0 s) : ∃ kept s1, e.check s = some s1 ∧ Usable e.p dim N0 s1 ∧
      Representatives e.dist e.p.nVar s.X kept ∧ s1.X = kept.map (fun i => s.X.getD i []) ∧ s1.nJac = s.nJac :=
  kept_exists he.nonneg he.symm e.eps hs

theorem iteration_core {e : HvnEnv K} {nObj dim N0 : ℕ} (he : EnvOk e nObj dim N0) {s : State K}
    (hs : Usable e.p dim N0 s) {Q : List (List K) → List (List K) → K → Prop}
    (hQ : ∀ s1 parts, e.check s = some s1 → hvnPartitions e.fuel (e.p.isFeasible s1) s1.Y = some parts →
      ∀ idx ∈ parts, ∀ t S R, s1.getItem idx = some t → Usable e.p dim N0 t → (∀ x ∈ t.X, x ∈ s.X) →
      e.newton t = some (S, R) → ∃ m, hvnMaxStep e.limit e.xl e.xu (e.p.primal t.X) (S.map (List.take e.p.nVar)) = some m ∧ Q t.X S m) :
    ∃ s', e.iterate s = some s' ∧ IterationSpec e dim N0 Q s s' := by
  obtain ⟨kept, s1, c1, c2, c3, c4, c5⟩ := check_exists he hs
  obtain ⟨v, hv⟩ := he.indicator s1 c2
  obtain ⟨parts, p1, p2⟩ := layers_exist he c2
  have hs1l : s1.X.length = kept.length := by rw [c4, List.length_map]
  have hsub1 : ∀ x ∈ s1.X, x ∈ s.X := by
    intro x hx
    rw [c4] at hx
    obtain ⟨i, hi, rfl⟩ := List.mem_map.mp hx
    rw [List.getD_eq_getElem _ _ (c3.lt i hi)]
    exact List.getElem_mem _
  have hlt : ∀ l ∈ parts, ∀ i ∈ l, i < s1.X.length := fun l hl i hi =>
    List.mem_range.mp (p2.perm.mem_iff.mp (List.mem_flatten.mpr ⟨l, hl, hi⟩))
  have hnd : parts.flatten.Nodup := p2.perm.nodup_iff.mpr List.nodup_range
  have hlen : ∀ l ∈ parts, l.length ≤ N0 := by
    intro l hl
    have h1 : l.length ≤ parts.flatten.length := (List.sublist_flatten_of_mem hl).length_le
    have h2 := p2.perm.length_eq
    rw [List.length_range] at h2
    have := c2.le
    omega
  have hlay : ∀ idx ∈ parts, _ := fun idx hidx => layer_exists he c2
    (fun t S R ht hu hsub hn => hQ s1 parts c1 p1 idx hidx t S R ht hu (fun x hx => hsub1 x (hsub x hx)) hn) (p2.ne idx hidx)
    (hlt idx hidx) (hlen idx hidx)
  obtain ⟨acc, a1, a2, -, a4⟩ := HvnEnv.passes_total (e := e) (s := s1) (N := s1.X.length) (dim := dim) parts hnd
    (fun i hi => List.mem_range.mp (p2.perm.mem_iff.mp hi))
    (fun idx hidx => by
      obtain ⟨t, S, R, m, k, -, -, -, -, -, h1, h2, h3, h4, h5, -⟩ := hlay idx hidx
      exact ⟨S, R, _, h5, h1, h2, h3, h4⟩)
    { step := s1.X.map fun x => List.replicate x.length 0
      size := List.replicate s1.X.length 1
      R := s1.X.map fun x => List.replicate x.length 0 }
    (by
      have : ∀ r ∈ s1.X.map fun x => List.replicate x.length (0 : K), r.length = dim := by
        intro r hr
        obtain ⟨x, hx, rfl⟩ := List.mem_map.mp hr
        rw [List.length_replicate, c2.dim x hx]
      exact ⟨by simp, by simp, by simp, this, this⟩)
  set X' := List.zipWith (fun x sa => List.zipWith (fun x s => x + s * sa.2) x sa.1) s1.X (acc.step.zip acc.size)
    with hX'
  have hzl : (acc.step.zip acc.size).length = s1.X.length := by rw [List.length_zip, a2.step, a2.size, min_self]
  have hX'l : X'.length = s1.X.length := by rw [hX', List.length_zipWith, hzl, min_self]
  have hX'g : ∀ i (hi : i < s1.X.length), X'[i]'(by rw [hX'l]; exact hi) =
      List.zipWith (fun x s => x + s * acc.size[i]'(by rw [a2.size]; exact hi)) s1.X[i]
        (acc.step[i]'(by rw [a2.step]; exact hi)) := by
    intro i hi
    simp only [hX', List.getElem_zipWith, List.getElem_zip]
  have hrow : ∀ x ∈ X', x.length = dim := by
    intro x hx
    obtain ⟨i, hi, rfl⟩ := List.mem_iff_getElem.mp hx
    rw [hX'g i (by rw [← hX'l]; exact hi), List.length_zipWith, c2.dim _ (List.getElem_mem _),
      a2.stepRow _ (List.getElem_mem _), min_self]
  obtain ⟨s', u1, u2, u3, u4⟩ := Usable.update (N0 := N0) he.funcs he.nVar s1 (X := X')
    (by
      intro h0
      rw [h0] at hX'l
      exact c2.ne (List.length_eq_zero_iff.mp hX'l.symm))
    (by rw [hX'l]; exact c2.le) hrow
  refine ⟨s', ?_, u3, kept, parts, c3, by rw [u2, hX'l, hs1l], by rw [← c4]; exact p2, ?_, by rw [u4, c5, hX'l, hs1l]⟩
  · rw [HvnEnv.iterate, c1, Option.bind_some, hv, Option.bind_some, p1, Option.bind_some, a1, Option.bind_some, u1]
  · intro idx hidx
    obtain ⟨t, S, R, m, k, hu, hX, hN, hq, hk, hS, hR, hSr, hRr, hlayer, harm⟩ := hlay idx hidx
    have hZ : t.X = idx.map fun i => s.X.getD (kept.getD i 0) [] := by
      rw [hX]
      refine List.map_congr_left fun i hi => ?_
      have hi1 := hlt idx hidx i hi
      have hi2 : i < kept.length := hs1l ▸ hi1
      rw [c4, List.getD_eq_getElem _ _ (by simpa using hi2), List.getElem_map, List.getD_eq_getElem kept _ hi2]
    have hXl : t.X.length = idx.length := by rw [hX, List.length_map]
    have hmv := movedBy_shape (m * (1 / 2) ^ k) hu.dim hSr (hS.trans hXl.symm)
    have hZ' : (idx.map fun i => s'.X.getD i []) = movedBy t.X S (m * (1 / 2) ^ k) := by
      apply List.ext_getElem (by rw [hmv.1, hXl, List.length_map])
      intro j hj0 hj2
      have hj1 : j < idx.length := by simpa using hj0
      have hi1 := hlt idx hidx idx[j] (List.getElem_mem hj1)
      obtain ⟨q1, q2, -⟩ := a4 idx hidx _ _ _ hlayer j hj1
      rw [List.getElem?_eq_getElem (by rw [a2.step]; exact hi1), List.getElem?_eq_getElem (by omega),
        Option.some.injEq] at q1
      rw [List.getElem?_eq_getElem (by rw [a2.size]; exact hi1), Option.some.injEq] at q2
      rw [List.getElem_map]
      simp only [u2]
      rw [List.getD_eq_getElem _ _ (by rw [hX'l]; exact hi1), hX'g _ hi1, q1, q2]
      simp only [movedBy, List.getElem_zipWith, hX, List.getElem_map, List.getD_eq_getElem _ _ hi1, mul_comm]
    refine ⟨t, S, R, m, k, hu, hZ, hN, by rw [← hZ]; exact hq, hk, by simp, ?_, ?_⟩
    · intro j hj c hc
      rw [hZ', ← hZ]
      rw [← hZ] at hj
      exact hmv.2.2 j hj c hc
    · intro hk6
      obtain ⟨t', R', g1, g2, g3, g4⟩ := harm hk6
      exact ⟨t', R', g1, by rw [g2, hZ'], g3, g4⟩

/-- C69 (default settings, `limit_max_step_size=False`): an iteration returns. The new population is usable again;
it consists of representatives of the old one, which are split into layers; every layer moves along its own Newton
step with step size `2⁻ᵏ`, `k ≤ 6`, the same for all points of the layer, and for `k < 6` the residual got smaller.
The counter of the Jacobians grows by the number of points, although the line search evaluates more of them. -/
theorem C69_iteration {e : HvnEnv K} {nObj dim N0 : ℕ} (he : EnvOk e nObj dim N0) (hl : e.limit = false) {s : State K}
    (hs : Usable e.p dim N0 s) :
    ∃ s', e.iterate s = some s' ∧ IterationSpec e dim N0 (fun _ _ m => m = 1) s s' :=
  iteration_core he hs fun _ _ _ _ _ _ _ _ _ _ _ _ _ => ⟨1, by unfold hvnMaxStep; rw [if_pos hl], rfl⟩

/-- C69: a run returns a usable population that is not larger than the first one. -/
theorem C69_run {e : HvnEnv K} {nObj dim N0 : ℕ} (he : EnvOk e nObj dim N0) (hl : e.limit = false) :
    ∀ (n : ℕ) {s : State K}, Usable e.p dim N0 s →
    ∃ s', e.run n s = some s' ∧ Usable e.p dim N0 s' ∧ s'.X.length ≤ s.X.length
  | 0, s, hs => ⟨s, rfl, hs, le_rfl⟩
  | n + 1, s, hs => by
    obtain ⟨s1, h1, h2, kept, parts, h3, h4, -⟩ := C69_iteration he hl hs
    obtain ⟨s', r1, r2, r3⟩ := C69_run he hl n h2
    refine ⟨s', by rw [HvnEnv.run, h1, Option.bind_some, r1], r2, r3.trans ?_⟩
    have := (List.subperm_of_subset h3.nodup (fun i hi => List.mem_range.mpr (h3.lt i hi))).length_le
    rw [List.length_range] at this
    omega

/-- If no Newton step of a layer changes a point, then the points of the new population are the representatives. -/
theorem C69_fixed {e : HvnEnv K} {dim N0 : ℕ} {s s' : State K} {Q : List (List K) → List (List K) → K → Prop}
    (h : IterationSpec e dim N0 Q s s')
    (h0 : ∀ t S R, Usable e.p dim N0 t → (∀ x ∈ t.X, x ∈ s.X) → e.newton t = some (S, R) → ∀ r ∈ S, ∀ a ∈ r, a = 0) :
    (∀ x ∈ s'.X, x ∈ s.X) ∧ ∃ kept, Representatives e.dist e.p.nVar s.X kept ∧ s'.X = kept.map fun i => s.X.getD i [] := by
  obtain ⟨hu, kept, parts, h1, h2, h3, h4, -⟩ := h
  have hX : s'.X = kept.map fun i => s.X.getD i [] := by
    apply List.ext_getElem (by simp [h2])
    intro i hi hi'
    rw [h2] at hi
    have hmem : i ∈ parts.flatten := h3.perm.mem_iff.mpr (by simpa using hi)
    obtain ⟨idx, hidx, hii⟩ := List.mem_flatten.mp hmem
    obtain ⟨j, hj, rfl⟩ := List.mem_iff_getElem.mp hii
    obtain ⟨t, S, R, m, k, ht, htX, hN, -, -, hl, hmv, -⟩ := h4 idx hidx
    have hsub : ∀ x ∈ t.X, x ∈ s.X := by
      intro x hx
      rw [htX] at hx
      obtain ⟨q, hq, rfl⟩ := List.mem_map.mp hx
      have hq' : q < kept.length := by
        have := h3.perm.mem_iff.mp (List.mem_flatten.mpr ⟨idx, hidx, hq⟩)
        simpa using this
      rw [List.getD_eq_getElem kept _ hq', List.getD_eq_getElem _ _ (h1.lt _ (List.getElem_mem _))]
      exact List.getElem_mem _
    have hS := h0 t S R ht hsub hN
    have hz : ∀ j c, (S.getD j []).getD c 0 = 0 := by
      intro j c
      by_cases hj : j < S.length
      · rw [List.getD_eq_getElem _ _ hj]
        by_cases hc : c < S[j].length
        · rw [List.getD_eq_getElem _ _ hc]
          exact hS _ (List.getElem_mem _) _ (List.getElem_mem _)
        · exact List.getD_eq_default _ _ (by omega)
      · have : S.getD j [] = [] := List.getD_eq_default _ _ (by omega)
        rw [this]
        rfl
    have e1 := hmv j (by simpa using hj)
    rw [List.getElem_map]
    have hk : kept.getD idx[j] 0 = kept[idx[j]] := List.getD_eq_getElem _ _ hi
    have ex : s.X.getD kept[idx[j]] [] = t.X[j]'(by rw [htX]; simpa using hj) := by
      simp only [htX, List.getElem_map, hk]
    have hd1 : s'.X[idx[j]].length = dim := hu.dim _ (List.getElem_mem _)
    have hd2 : (s.X.getD kept[idx[j]] []).length = dim := by rw [ex]; exact ht.dim _ (List.getElem_mem _)
    apply List.ext_getElem (hd1.trans hd2.symm)
    intro c hc1 hc2
    have := e1 c (by omega)
    rw [hz, mul_zero, add_zero] at this
    rw [List.getD_eq_getElem (idx.map _) _ (by simpa using hj), List.getElem_map,
      List.getD_eq_getElem (idx.map _) _ (by simpa using hj), List.getElem_map, hk,
      List.getD_eq_getElem s'.X _ (by omega), List.getD_eq_getElem _ _ hc1, List.getD_eq_getElem _ _ hc2] at this
    exact this
  refine ⟨fun x hx => ?_, kept, h1, hX⟩
  rw [hX] at hx
  obtain ⟨i, hi, rfl⟩ := List.mem_map.mp hx
  rw [List.getD_eq_getElem _ _ (h1.lt i hi)]
  exact List.getElem_mem _

/-! ### The step limit -/

/-- The maximal step size of a layer is between zero and one, and all smaller steps stay inside the box. -/
def KeepsBox (xl xu : List K) (Z S : List (List K)) (m : K) : Prop :=
  0 ≤ m ∧ m ≤ 1 ∧ ∀ σ, 0 ≤ σ → σ ≤ m → ∀ i < Z.length, ∀ d < xl.length,
    xl.getD d 0 ≤ (Z.getD i []).getD d 0 + σ * (S.getD i []).getD d 0 ∧
      (Z.getD i []).getD d 0 + σ * (S.getD i []).getD d 0 ≤ xu.getD d 0

omit [IsStrictOrderedRing K] [Inhabited K] in
theorem getD_take_rows (n : ℕ) (A : List (List K)) (i : ℕ) {d : ℕ} (hd : d < n) :
    ((A.map (List.take n)).getD i []).getD d 0 = (A.getD i []).getD d 0 := by
  simp only [List.getD_eq_getElem?_getD, List.getElem?_map]
  cases A[i]? with
  | none => simp
  | some r => simp [List.getElem?_take, hd]

theorem keepsBox {e : HvnEnv K} {dim N0 : ℕ} {t : State K} {S : List (List K)} {m : K} (hl : e.limit = true)
    (hxl : e.xl.length = e.p.nVar) (hxu : e.xu.length = e.p.nVar) (hd : e.p.nVar ≤ dim) (ht : Usable e.p dim N0 t)
    (hS : S.length = t.X.length) (hSr : ∀ r ∈ S, r.length = dim) (hbox : PopInBox e.xl e.xu (e.p.primal t.X))
    (hm : hvnMaxStep e.limit e.xl e.xu (e.p.primal t.X) (S.map (List.take e.p.nVar)) = some m) :
    KeepsBox e.xl e.xu t.X S m := by
  have hshape : SameShape e.xl (e.p.primal t.X) (S.map (List.take e.p.nVar)) := by
    refine ⟨by simp [Funcs.primal, hS], fun r hr => ?_⟩
    obtain ⟨x, hx, rfl⟩ := List.mem_map.mp hr
    rw [List.length_take, hSr x hx]; omega
  by_cases h0 : ∀ r ∈ S.map (List.take e.p.nVar), ∀ a ∈ r, a = 0
  · rw [hl, C32_zero_step _ _ _ _ (hxu.trans hxl.symm) hbox hshape h0] at hm
    exact absurd hm (by simp)
  · push Not at h0
    obtain ⟨m', h1, h2, h3, h4⟩ := C32_partial _ _ _ _ (hxu.trans hxl.symm) hbox hshape h0
    rw [hl, h1] at hm
    obtain rfl := Option.some.inj hm
    refine ⟨h2, h3, fun σ hσ hσm i hi d hd' => ?_⟩
    have := h4 σ hσ hσm i (by simpa [Funcs.primal] using hi) d hd'
    unfold Funcs.primal at this
    rw [getD_take_rows _ _ _ (by omega), getD_take_rows _ _ _ (by omega)] at this
    exact this

theorem foldlM_layers {e : HvnEnv K} {s : State K} : ∀ (parts : List (List ℕ)) (acc acc' : HvnEnv.Acc K),
    parts.foldlM (e.pass s) acc = some acc' → ∀ idx ∈ parts, ∃ r, e.layer s idx = some r
  | [], _, _, _, _, h => absurd h (by simp)
  | l :: parts, acc, acc', h, idx, hidx => by
    rw [List.foldlM_cons] at h
    obtain ⟨acc1, h1, h2⟩ := Option.bind_eq_some_iff.mp h
    rcases List.mem_cons.mp hidx with rfl | hidx
    · unfold HvnEnv.pass at h1
      obtain ⟨r, hr, -⟩ := Option.bind_eq_some_iff.mp h1
      exact ⟨r, hr⟩
    · exact foldlM_layers parts acc1 acc' h2 idx hidx

/-- The points of an iteration with steps that keep the box are in the box. -/
theorem IterationSpec.inBox {e : HvnEnv K} {dim N0 : ℕ} {s s' : State K} (hxl : e.xl.length = e.p.nVar)
    (hd : e.p.nVar ≤ dim) (h : IterationSpec e dim N0 (KeepsBox e.xl e.xu) s s') : PopInBox e.xl e.xu (e.p.primal s'.X) := by
  obtain ⟨hu, kept, parts, h1, h2, h3, h4, -⟩ := h
  intro x hx
  obtain ⟨y, hy, rfl⟩ := List.mem_map.mp hx
  have hyl := hu.dim y hy
  refine ⟨by rw [List.length_take, hyl, hxl]; omega, fun d hd' => ?_⟩
  obtain ⟨i, hi, rfl⟩ := List.mem_iff_getElem.mp hy
  have hmem : i ∈ parts.flatten := h3.perm.mem_iff.mpr (by simpa using h2 ▸ hi)
  obtain ⟨idx, hidx, hii⟩ := List.mem_flatten.mp hmem
  obtain ⟨j, hj, rfl⟩ := List.mem_iff_getElem.mp hii
  obtain ⟨t, S, R, m, k, -, htX, -, ⟨q1, q2, q3⟩, -, -, hmv, -⟩ := h4 idx hidx
  have e1 := hmv j (by simpa using hj) d (by omega)
  have hpow : (0 : K) ≤ (1 / 2) ^ k ∧ ((1 : K) / 2) ^ k ≤ 1 :=
    ⟨by positivity, pow_le_one₀ (by norm_num) (by norm_num)⟩
  have := q3 (m * (1 / 2) ^ k) (mul_nonneg q1 hpow.1) (mul_le_of_le_one_right q1 hpow.2) j (by simpa using hj) d hd'
  rw [← e1, List.getD_eq_getElem (idx.map _) _ (by simpa using hj), List.getElem_map,
    List.getD_eq_getElem s'.X _ hi] at this
  have e2 : (s'.X[idx[j]].take e.p.nVar).getD d 0 = s'.X[idx[j]].getD d 0 := by
    simp [List.getD_eq_getElem?_getD, List.getElem?_take, show d < e.p.nVar by omega]
  rw [e2]
  exact this

/-- C69 with the step limit (`limit_max_step_size=True`): an iteration that returns keeps the points inside the box;
the maximal step sizes are at most one. -/
theorem C69_box {e : HvnEnv K} {nObj dim N0 : ℕ} (he : EnvOk e nObj dim N0) (hl : e.limit = true)
    (hxl : e.xl.length = e.p.nVar) (hxu : e.xu.length = e.p.nVar) {s s' : State K} (hs : Usable e.p dim N0 s)
    (hbox : PopInBox e.xl e.xu (e.p.primal s.X)) (h : e.iterate s = some s') :
    IterationSpec e dim N0 (KeepsBox e.xl e.xu) s s' ∧ PopInBox e.xl e.xu (e.p.primal s'.X) := by
  have hsub : ∀ t : State K, (∀ x ∈ t.X, x ∈ s.X) → PopInBox e.xl e.xu (e.p.primal t.X) := by
    intro t ht x hx
    obtain ⟨y, hy, rfl⟩ := List.mem_map.mp hx
    exact hbox _ (List.mem_map_of_mem (ht y hy))
  obtain ⟨s'', h1, h2⟩ := iteration_core (Q := KeepsBox e.xl e.xu) he hs (by
    intro s1 parts hc hp idx hidx t S R ht hu htsub hN
    unfold HvnEnv.iterate at h
    rw [hc, Option.bind_some] at h
    obtain ⟨v, -, h⟩ := Option.bind_eq_some_iff.mp h
    rw [hp, Option.bind_some] at h
    obtain ⟨acc, hacc, -⟩ := Option.bind_eq_some_iff.mp h
    obtain ⟨r, hr⟩ := foldlM_layers _ _ _ hacc idx hidx
    unfold HvnEnv.layer at hr
    rw [ht, Option.bind_some, hN, Option.bind_some] at hr
    obtain ⟨m, hm, -⟩ := Option.bind_eq_some_iff.mp hr
    obtain ⟨S', R', hN', g1, -, g3, -⟩ := he.newton t hu
    rw [hN] at hN'
    obtain ⟨rfl, rfl⟩ : S = S' ∧ R = R' := Prod.mk.injEq .. ▸ Option.some.inj hN'
    exact ⟨m, hm, keepsBox hl hxl hxu he.nVar hu g1 g3 (hsub t htsub) hm⟩)
  rw [h] at h1
  obtain rfl := Option.some.inj h1
  exact ⟨h2, h2.inBox hxl he.nVar⟩

/-- C69 with the step limit: the iteration returns if no Newton step of a part of the population vanishes (in its
primal part). -/
theorem C69_box_returns_partial {e : HvnEnv K} {nObj dim N0 : ℕ} (he : EnvOk e nObj dim N0) (hl : e.limit = true)
    (hxl : e.xl.length = e.p.nVar) (hxu : e.xu.length = e.p.nVar) {s : State K} (hs : Usable e.p dim N0 s)
    (hbox : PopInBox e.xl e.xu (e.p.primal s.X))
    (hne : ∀ t S R, Usable e.p dim N0 t → (∀ x ∈ t.X, x ∈ s.X) → e.newton t = some (S, R) →
      ∃ r ∈ S, ∃ a ∈ r.take e.p.nVar, a ≠ 0) :
    ∃ s', e.iterate s = some s' := by
  obtain ⟨s', h, -⟩ := iteration_core (Q := fun _ _ _ => True) he hs (by
    intro s1 parts hc hp idx hidx t S R ht hu htsub hN
    obtain ⟨S', R', hN', g1, -, g3, -⟩ := he.newton t hu
    rw [hN] at hN'
    obtain ⟨rfl, rfl⟩ : S = S' ∧ R = R' := Prod.mk.injEq .. ▸ Option.some.inj hN'
    obtain ⟨r, hr, a, ha, ha0⟩ := hne t S R hu htsub hN
    have hb : PopInBox e.xl e.xu (e.p.primal t.X) := by
      intro x hx
      obtain ⟨y, hy, rfl⟩ := List.mem_map.mp hx
      exact hbox _ (List.mem_map_of_mem (htsub y hy))
    obtain ⟨m, hm, -⟩ := C32_partial e.xl e.xu (e.p.primal t.X) (S.map (List.take e.p.nVar)) (hxu.trans hxl.symm) hb
      ⟨by simp [Funcs.primal, g1], fun r hr => by
        obtain ⟨x, hx, rfl⟩ := List.mem_map.mp hr
        have := he.nVar
        rw [List.length_take, g3 x hx]; omega⟩
      ⟨_, List.mem_map_of_mem hr, a, ha, ha0⟩
    exact ⟨m, by rw [hl]; exact hm, trivial⟩)
  exact ⟨s', h⟩

/-- C69 with the step limit: it raises if the Newton steps of all parts of the population vanish (in their primal
part), for instance at a stationary point. -/
theorem C69_box_raises {e : HvnEnv K} {nObj dim N0 : ℕ} (he : EnvOk e nObj dim N0) (hl : e.limit = true)
    (hxl : e.xl.length = e.p.nVar) (hxu : e.xu.length = e.p.nVar) {s : State K} (hs : Usable e.p dim N0 s)
    (hbox : PopInBox e.xl e.xu (e.p.primal s.X))
    (h0 : ∀ t S R, Usable e.p dim N0 t → (∀ x ∈ t.X, x ∈ s.X) → e.newton t = some (S, R) →
      ∀ r ∈ S, ∀ a ∈ r.take e.p.nVar, a = 0) : e.iterate s = none := by
  by_contra hn
  obtain ⟨s', h⟩ := Option.ne_none_iff_exists'.mp hn
  obtain ⟨⟨-, kept, parts, hrep, -, hlay, -⟩, -⟩ := C69_box he hl hxl hxu hs hbox h
  obtain ⟨kept', s1, c1, c2, c3, c4, -⟩ := check_exists he hs
  obtain ⟨parts', p1, p2⟩ := layers_exist he c2
  obtain ⟨idx, hidx⟩ : ∃ idx, idx ∈ parts' := by
    rcases hp : parts' with _ | ⟨l, ls⟩
    · have := p2.perm.length_eq
      rw [hp] at this
      simp only [List.flatten_nil, List.length_nil, List.length_range] at this
      exact absurd (List.length_eq_zero_iff.mp this.symm) c2.ne
    · exact ⟨l, by simp⟩
  unfold HvnEnv.iterate at h
  rw [c1, Option.bind_some] at h
  obtain ⟨v, -, h⟩ := Option.bind_eq_some_iff.mp h
  rw [p1, Option.bind_some] at h
  obtain ⟨acc, hacc, -⟩ := Option.bind_eq_some_iff.mp h
  obtain ⟨r, hr⟩ := foldlM_layers _ _ _ hacc idx hidx
  have hlt : ∀ i ∈ idx, i < s1.X.length := fun i hi =>
    List.mem_range.mp (p2.perm.mem_iff.mp (List.mem_flatten.mpr ⟨idx, hidx, hi⟩))
  have hlen : idx.length ≤ N0 := by
    have h1 : idx.length ≤ parts'.flatten.length := (List.sublist_flatten_of_mem hidx).length_le
    have h2 := p2.perm.length_eq
    rw [List.length_range] at h2
    have := c2.le
    omega
  obtain ⟨t, ht, hu, hX, -⟩ := c2.slice (p2.ne idx hidx) hlt hlen
  have hsub : ∀ x ∈ t.X, x ∈ s.X := by
    intro x hx
    rw [hX] at hx
    obtain ⟨i, hi, rfl⟩ := List.mem_map.mp hx
    have hi' : i < kept'.length := by simpa [c4] using hlt i hi
    rw [c4, List.getD_eq_getElem _ _ (by simpa using hi'), List.getElem_map,
      List.getD_eq_getElem _ _ (c3.lt _ (List.getElem_mem _))]
    exact List.getElem_mem _
  obtain ⟨S, R, hN, g1, -, g3, -⟩ := he.newton t hu
  unfold HvnEnv.layer at hr
  rw [ht, Option.bind_some, hN, Option.bind_some, hl, C32_zero_step e.xl e.xu (e.p.primal t.X)
    (S.map (List.take e.p.nVar)) (hxu.trans hxl.symm) (by
      intro x hx
      obtain ⟨y, hy, rfl⟩ := List.mem_map.mp hx
      exact hbox _ (List.mem_map_of_mem (hsub y hy)))
    ⟨by simp [Funcs.primal, g1], fun r hr => by
      obtain ⟨x, hx, rfl⟩ := List.mem_map.mp hr
      have := he.nVar
      rw [List.length_take, g3 x hx]; omega⟩
    (by
      intro r hr a ha
      obtain ⟨x, hx, rfl⟩ := List.mem_map.mp hr
      exact h0 t S R hu hsub hN x hx a ha)] at hr
  simp at hr

/-- C69 with the step limit: a run that returns keeps the points inside the box. -/
theorem C69_box_run {e : HvnEnv K} {nObj dim N0 : ℕ} (he : EnvOk e nObj dim N0) (hl : e.limit = true)
    (hxl : e.xl.length = e.p.nVar) (hxu : e.xu.length = e.p.nVar) : ∀ (n : ℕ) {s s' : State K}, Usable e.p dim N0 s →
    PopInBox e.xl e.xu (e.p.primal s.X) → e.run n s = some s' →
    Usable e.p dim N0 s' ∧ PopInBox e.xl e.xu (e.p.primal s'.X)
  | 0, s, s', hs, hb, h => by
    obtain rfl := Option.some.inj h
    exact ⟨hs, hb⟩
  | n + 1, s, s', hs, hb, h => by
    obtain ⟨s1, h1, h2⟩ := Option.bind_eq_some_iff.mp h
    obtain ⟨g1, g2⟩ := C69_box he hl hxl hxu hs hb h1
    exact C69_box_run he hl hxl hxu n g1.1 g2 h2

end Verif.Props
