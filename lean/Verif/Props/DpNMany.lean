import Verif.Opt.DpNMany
import Verif.Props.DpN

/-!
# C71: the iterations of `DpN` with a reference set of several components
-/

set_option linter.unusedSectionVars false

namespace Verif.Props

open Verif.Opt Verif.Ind Verif.Util Verif.HV

variable {K : Type*} [Field K] [LinearOrder K] [IsStrictOrderedRing K] [Inhabited K]

/-! ## Specification -/

/-- What an iteration starts from: a usable population of `N` points, a reference set of several components, clusters of
the points that can be matched to it, and the last step if there was one. The clusters are given, or they are made of the
points closest to each component. -/
structure DpnReadyMany (a : Dpn K) (cls : List (List ℕ)) (N : ℕ) (s : DpnState K) : Prop where
  state : Usable a.p (a.p.nVar + a.p.nDual) N s.state
  size : s.state.X.length = N
  ref : ManyRef s.ref cls N
  clusters : s.ref.yIdx = some cls ∨ s.ref.yIdx = none ∧ ∃ near : (ℕ → K) → ℕ,
    (∀ y ∈ images a s.state.X, label a.env.dist s.ref.ref y = some (near y)) ∧
    cls = (List.range s.ref.ref.length).map fun k => (List.range N).filter fun j => (images a s.state.X)[j]?.map near = some k
  matched : s.ref.matched = none ∨ ∃ M comp, Placed s.ref cls comp M ∧ M.length = N
  step : s.iter ≠ 0 → s.step.length = N

/-- The targets of an iteration with several components: `M0` is matched to the points, those of the cluster `v` in the
component `comp v`; `M1` are the targets after the shift, each in the direction of its component; `T` are those of the
indicator that is chosen. -/
structure DpnTargetsMany (a : Dpn K) (cls : List (List ℕ)) (s s' : DpnState K) (comp : ℕ → ℕ) (M0 M1 T : List (ℕ → K)) :
    Prop where
  gd : ∃ D, s'.gd = a.sqrt ((D.map (· ^ 2)).sum / (s.state.X.length : K)) ∧
    List.Forall₂ (fun y d => (∃ r ∈ s.ref.referenceSet, a.env.dist y r = d) ∧ ∀ r ∈ s.ref.referenceSet, d ≤ a.env.dist y r)
      (images a s.state.X) D
  igd : s'.igd = (∑ i ∈ Finset.range s.state.X.length, ∑ k ∈ Finset.range a.nObj,
    ((images a s.state.X).getD i 0 k - M0.getD i 0 k) ^ 2) / (s.state.X.length : K)
  inj : Set.InjOn comp {v | v < cls.length}
  kept : ∀ (v : ℕ) (c : List ℕ), cls[v]? = some c → ∀ old, s.ref.medoids[comp v]? = some (some old) →
    old.length = c.length → (atIdx M0 c).Perm old
  fresh : ∀ (v : ℕ) (c : List ℕ), cls[v]? = some c →
    (∀ old, s.ref.medoids[comp v]? = some (some old) → old.length ≠ c.length) →
    ∃ C, s.ref.ref[comp v]? = some C ∧ (atIdx M0 c).Subperm C
  rays : ∀ (v : ℕ) (c : List ℕ), cls[v]? = some c → MovedAlong s.ref.ref s.ref.eta (comp v) (atIdx M0 c)
  matched : WithinClusters a.env.dist cls (images a s.state.X) M0 M0
  shifted : ∃ own : ℕ → ℕ, (∀ (v : ℕ) (c : List ℕ), cls[v]? = some c → ∀ i ∈ c, own i = comp v) ∧
    ShiftedBy (if s.iter = 0 then 8 / 100 else 5 / 100 : K)
      (fun i => s.iter = 0 ∨ AtRest a.env.dist (images a s.state.X) M0 (s.step.map fun r => a.norm (r.take a.p.nVar)) i)
      s.ref.eta own M0 M1 s.hist s'.hist
  targets : ClusterTargets a.env.dist (a.gdActive s'.gd s'.igd) cls (images a s.state.X) M1 T
  after : s'.ref.ref = s.ref.ref ∧ s'.ref.eta = s.ref.eta ∧ s'.ref.yIdx = some cls

/-! ### Lemmas -/

/-- The partition by the closest components. -/
theorem partition_closest {env : MatchEnv (ℕ → K) K} {S : RefSet (ℕ → K)} {Y : List (ℕ → K)} (hn : S.ref.length ≠ 1)
    (hc : S.yIdx = none) {near : (ℕ → K) → ℕ} (hnear : ∀ y ∈ Y, label env.dist S.ref y = some (near y)) :
    ∃ parts, S.partition env Y = some ((List.range S.ref.length).map fun k =>
      (List.range Y.length).filter fun j => Y[j]?.map near = some k, parts) := by
  have hl : Y.mapM (label env.dist S.ref) = some (Y.map near) :=
    mapM_eq_some.mpr ⟨by simp, fun i hi => by simp [hnear _ (List.getElem_mem hi), hi]⟩
  obtain ⟨parts, hparts, -⟩ := mapM_exists (f := gather Y) (l := (List.range S.ref.length).map fun k =>
    (List.range Y.length).filter fun j => Y[j]?.map near = some k) (P := fun _ _ => True) fun c hc => by
      obtain ⟨k, -, rfl⟩ := List.mem_map.mp hc
      obtain ⟨Yc, h⟩ := exists_gather (X := Y)
        (idx := (List.range Y.length).filter fun j => Y[j]?.map near = some k)
        fun i hi => List.mem_range.mp (List.mem_filter.mp hi).1
      exact ⟨Yc, h, trivial⟩
  refine ⟨parts, ?_⟩
  unfold RefSet.partition
  rw [if_neg hn, hc]
  simp only [hl, Option.map_some, Option.bind_some, List.getElem?_map]
  rw [hparts]
  rfl

theorem DpnReadyMany.partition {a : Dpn K} {cls : List (List ℕ)} {N : ℕ} {s : DpnState K} (h : DpnReadyMany a cls N s) :
    (∃ parts, s.ref.partition a.env (images a s.state.X) = some (cls, parts)) ∧ ∀ c, s.ref.yIdx = some c → c = cls := by
  have hl : (images a s.state.X).length = N := (images_length a _).trans h.size
  rcases h.clusters with e | ⟨e, near, hn, hc⟩
  · exact ⟨partition_given a.env (by rw [hl]; exact h.ref) e, fun c hc => Option.some.inj (hc.symm.trans e)⟩
  · refine ⟨?_, fun c hc' => by rw [e] at hc'; simp at hc'⟩
    rw [hc, ← hl]
    exact partition_closest h.ref.several e hn

/-! ### Theorems -/

/-- C71 with several components: an iteration of `DpN` returns. It evaluates the indicators, shifts the targets, each in
the direction of its component, computes residuals and Newton directions with respect to the targets of the chosen
indicator, projects them at the box, searches the step sizes and moves the points. The targets of a cluster stay together
up to the Newton directions; in the trials of the line search they come from some component each. -/
theorem C71_many_iteration {a : Dpn K} (ha : a.Ok) {cls : List (List ℕ)} {N : ℕ} {s : DpnState K}
    (hs : DpnReadyMany a cls N s) :
    ∃ s' comp M0 M1 T n, ∃ α : ℕ → K, a.iterate s = some s' ∧ DpnReadyMany a cls N s' ∧ s'.iter = s.iter ∧
      DpnTargetsMany a cls s s' comp M0 M1 T ∧
      IsMat N (a.p.nVar + a.p.nDual) n ∧ IsMat N (a.p.nVar + a.p.nDual) s'.step ∧
      (∀ i < N, DpnMove a s s' T n i) ∧
      (∀ i < N, s'.state.X.getD i [] = moved (s.state.X.getD i []) (s'.step.getD i []) (α i)) ∧
      (∀ i < N, 0 ≤ α i ∧ α i ≤ 1) ∧
      (((∀ r ∈ s'.step, ∀ x ∈ r, Vanishes x) ∧ (∀ i < N, α i = 1) ∧ s'.state.nJac = s.state.nJac + N) ∨
       ((¬ ∀ r ∈ s'.step, ∀ x ∈ r, Vanishes x) ∧
        s.state.nJac + 2 * N ≤ s'.state.nJac ∧ s'.state.nJac ≤ s.state.nJac + 9 * N ∧
        ∀ i < N, ∃ m, 0 ≤ m ∧ m ≤ 1 ∧
          ((∀ d < a.p.nVar, a.xl.getD d 0 < (s.state.X.getD i []).getD d 0 ∧
            (s.state.X.getD i []).getD d 0 < a.xu.getD d 0) → 0 < m ∧ ((∀ d < a.p.nVar,
              a.xl.getD d 0 ≤ (s.state.X.getD i []).getD d 0 + (s'.step.getD i []).getD d 0 ∧
              (s.state.X.getD i []).getD d 0 + (s'.step.getD i []).getD d 0 ≤ a.xu.getD d 0) → m = 1)) ∧
          SearchedBy a (a.gdActive s'.gd s'.igd) s.state.X (TrialTargets a.env.dist (a.gdActive s'.gd s'.igd) cls
            s.ref.ref s.ref.eta M1) i (s'.step.getD i []) (s'.R.getD i []) m (α i) ∧
          ((∀ d < a.p.nVar, a.xl.getD d 0 ≤ (s.state.X.getD i []).getD d 0 ∧
              (s.state.X.getD i []).getD d 0 ≤ a.xu.getD d 0) →
            ∀ d < a.p.nVar, a.xl.getD d 0 ≤ (s'.state.X.getD i []).getD d 0 ∧
              (s'.state.X.getD i []).getD d 0 ≤ a.xu.getD d 0))) := by
  obtain ⟨⟨parts, hpart⟩, hyc⟩ := hs.partition
  obtain ⟨hst, rfl, href, -, hmt, hstep⟩ := hs
  have hYl := images_length a s.state.X
  have hpos : 0 < s.state.X.length := List.length_pos_iff.mpr hst.ne
  have hcls : ∃ c, c ∈ cls := by
    have : (0 : ℕ) ∈ cls.flatten := href.perm.mem_iff.mpr (List.mem_range.mpr hpos)
    obtain ⟨c, hc, -⟩ := List.mem_flatten.mp this
    exact ⟨c, hc⟩
  have hRne : s.ref.referenceSet ≠ [] := by
    rcases hmt with h | ⟨M, comp, h, hl⟩
    · obtain ⟨c, hc⟩ := hcls
      have h1 : 0 < c.length := List.length_pos_iff.mpr (href.ne c hc)
      have h2 : 0 < s.ref.ref.length := (List.length_pos_of_mem hc).trans_le href.few
      have h3 := href.size c hc _ (List.getElem_mem h2)
      rw [RefSet.referenceSet, h]
      simp only [Option.getD_none]
      intro h0
      have := List.flatten_eq_nil_iff.mp h0 _ (List.getElem_mem h2)
      rw [this, List.length_nil] at h3
      omega
    · rw [RefSet.referenceSet, h.matched]
      exact List.ne_nil_of_length_pos (by simp; omega)
  obtain ⟨D, g1, g2⟩ := Dpn.gdValue_spec (a := a) hRne (images a s.state.X)
  obtain ⟨S1, M0, comp, m1, m2, m3, m4, m5, m6, m7⟩ := match_many ha.env (by rw [hYl]; exact href) hpart hyc
  have hR1 : S1.referenceSet = M0 := by rw [RefSet.referenceSet, m3.matched]; rfl
  have i1 : a.igdValue s.ref (images a s.state.X) = some (S1, (∑ i ∈ Finset.range s.state.X.length,
      ∑ k ∈ Finset.range a.nObj, ((images a s.state.X).getD i 0 k - M0.getD i 0 k) ^ 2) / (s.state.X.length : K)) := by
    rw [Dpn.igdValue, m1, Option.bind_some, Dpn.minusRef, hR1, if_pos m6, Option.map_some]
    have e : ∀ l : List K, l.sum = ∑ i ∈ Finset.range l.length, l.getD i 0 := fun l => by
      rw [Finset.sum_range]
      simp [List.sum_ofFn.symm]
    rw [e, List.length_map, List.length_zipWith, m6, min_self, hYl]
    congr 3
    refine Finset.sum_congr rfl fun i hi => ?_
    have hi := Finset.mem_range.mp hi
    rw [List.getD_eq_getElem _ _ (by simp; omega), List.getElem_map, List.getElem_zipWith,
      List.getD_eq_getElem (images a s.state.X) _ (by omega), List.getD_eq_getElem M0 _ (by omega)]
    rfl
  obtain ⟨S2, M1, hist', k1, k2, k3, k4, k5, k6, k7⟩ := dpnShift_placed a.env.dist m2 m3 m6 s.iter
    (stepNorm := s.step.map fun r => a.norm (r.take a.p.nVar)) (fun h => by simpa [hYl] using hstep h) s.hist
  rw [hYl] at g1 k1
  set g := a.sqrt ((D.map (· ^ 2)).sum / (s.state.X.length : K)) with hg
  set v := (∑ i ∈ Finset.range s.state.X.length, ∑ k ∈ Finset.range a.nObj,
    ((images a s.state.X).getD i 0 k - M0.getD i 0 k) ^ 2) / (s.state.X.length : K) with hv
  obtain ⟨S3, T, n1, n2, n3, n4, ⟨M3, n5, n6, n7⟩, n9, n8⟩ := Dpn.diffs_many ha (a.gdActive g v) href.reMatch m1 m3.idx k2 k3
    k4 (k3.clusters.trans m3.clusters.symm) k6 (by rw [hYl]; exact hpos)
  rw [hYl] at n2 n6
  obtain ⟨s', n, α, q1, q2, q3, ⟨o1, o2, o3, M4, comp4, o4, o5, -⟩, q5, q6, q7, q8, q9, q10, q11, q12, q13, q14⟩ :=
    iterate_of ha hst g1 i1 k1 n1 (n9.trans hYl) (Dpn.flow_many ha (a.gdActive g v) (S0 := s.ref) (cls := cls) (M1 := M1)
      hpos) ⟨n2, n3.trans (k4.trans m4), n4.trans (k5.trans m5), M3, comp, n5, n6, n7⟩
  refine ⟨s', comp, M0, M1, T, n, α, q1, ⟨q2, q3, o1, .inl o4.clusters, .inr ⟨M4, comp4, o4, o5⟩, fun _ => q10.1⟩, q7, ?_, q9,
    q10, q11, q12, q13, ?_⟩
  · refine ⟨⟨D, q5.trans hg, g2⟩, q6.trans hv, m3.inj, fun v c hv => (m7 v c hv).2.1, fun v c hv => (m7 v c hv).2.2.1,
      fun v c hv => (m7 v c hv).1, ⟨m6, ?_⟩, ⟨fun i => comp (clusterOf cls i), fun v c hv i hi => ?_, ?_⟩,
      by rw [q5, q6]; exact n8, o2, o3, o4.clusters⟩
    · intro c hc
      obtain ⟨v, hv, rfl⟩ := List.getElem_of_mem hc
      exact ⟨List.Perm.refl _, (m7 v _ (List.getElem?_eq_getElem hv)).2.2.2⟩
    · obtain ⟨t, ht, rfl⟩ := List.getElem_of_mem hi
      have hlt : c[t] < s.state.X.length :=
        List.mem_range.mp (href.perm.mem_iff.mp (List.mem_flatten.mpr ⟨c, List.mem_of_getElem? hv, hi⟩))
      obtain ⟨c', t', e1, e2⟩ := clusterOf_spec href.perm hlt
      have h1 := m3.idx _ c' t' _ e1 e2
      rw [m3.idx v c t _ hv (List.getElem?_eq_getElem ht)] at h1
      have := (Prod.mk.inj (Option.some.inj (Option.some.inj h1))).1
      exact this.symm
    · rw [← m5, q8]; exact k7
  · rw [q5, q6]
    exact q14

/-- C71 with several components, the box: an iteration that starts in the box leads out of it by at most `1e-8`, and not
at all unless all components of the step are that small. -/
theorem C71_many_box {a : Dpn K} (ha : a.Ok) {cls : List (List ℕ)} {N : ℕ} {s s' : DpnState K}
    (hs : DpnReadyMany a cls N s) (hi : a.iterate s = some s')
    (hb : ∀ x ∈ s.state.X, ∀ d < a.p.nVar, a.xl.getD d 0 ≤ x.getD d 0 ∧ x.getD d 0 ≤ a.xu.getD d 0) :
    (∀ x ∈ s'.state.X, ∀ d < a.p.nVar,
      a.xl.getD d 0 - 1 / 10 ^ 8 ≤ x.getD d 0 ∧ x.getD d 0 ≤ a.xu.getD d 0 + 1 / 10 ^ 8) ∧
    ((∃ r ∈ s'.step, ∃ x ∈ r, 1 / 10 ^ 8 < |x|) →
      ∀ x ∈ s'.state.X, ∀ d < a.p.nVar, a.xl.getD d 0 ≤ x.getD d 0 ∧ x.getD d 0 ≤ a.xu.getD d 0) := by
  obtain ⟨s1, comp, M0, M1, T, n, α, h1, h2, -, -, -, h3, -, h4, -, h5⟩ := C71_many_iteration ha hs
  obtain rfl : s1 = s' := Option.some.inj (h1.symm.trans hi)
  exact box_of (α := α) ⟨hs.size, hs.state.dim⟩ h2.size h3 h4 (h5.imp (fun h => ⟨h.1, h.2.1⟩) fun h i hi =>
    (h.2.2.2 i hi).choose_spec.2.2.2.2) hb

/-- C71 with several components, the loop: any number of iterations returns, always with as many points and the same
clusters, after at most nine evaluations of the Jacobian per point and iteration. -/
theorem C71_many_run {a : Dpn K} (ha : a.Ok) {cls : List (List ℕ)} {N : ℕ} (n : ℕ) {s : DpnState K}
    (hs : DpnReadyMany a cls N s) :
    ∃ s', a.run n s = some s' ∧ DpnReadyMany a cls N s' ∧ s'.iter = s.iter + n ∧
      s.state.nJac + n * N ≤ s'.state.nJac ∧ s'.state.nJac ≤ s.state.nJac + n * (9 * N) := by
  induction n generalizing s with
  | zero => exact ⟨s, rfl, hs, rfl, by simp, by simp⟩
  | succ n ih =>
    obtain ⟨s1, comp, M0, M1, T, m, α, h1, h2, h3, -, -, h4, -, -, -, h5⟩ := C71_many_iteration ha hs
    have hr : DpnReadyMany a cls N (Dpn.log s1) := ⟨h2.state, h2.size, h2.ref, h2.clusters, h2.matched, fun _ => h4.1⟩
    obtain ⟨s', g1, g2, g3, g4, g5⟩ := ih hr
    have e1 : (Dpn.log s1).iter = s1.iter + 1 := rfl
    have e2 : (Dpn.log s1).state = s1.state := rfl
    rw [e2] at g4 g5
    have hj : s.state.nJac + N ≤ s1.state.nJac ∧ s1.state.nJac ≤ s.state.nJac + 9 * N := by
      rcases h5 with ⟨-, -, h⟩ | ⟨-, h, h', -⟩ <;> omega
    refine ⟨s', by rw [Dpn.run, h1, Option.bind_some, g1], g2, by omega, ?_, ?_⟩
    · rw [Nat.succ_mul]; omega
    · rw [Nat.succ_mul]; omega

/-- C71 with several components from the start: for a new reference set with given clusters, in which no cluster is
empty or larger than a component, the constructor and any number of iterations return. -/
theorem C71_many_start {a : Dpn K} (ha : a.Ok) {ref : List (List (ℕ → K))} {eta : List (ℕ → K)} {cls : List (List ℕ)}
    {X0 : List (List K)} (hX : ∀ x ∈ X0, x.length = a.p.nVar) (hX0 : X0 ≠ [])
    (hle : ∀ d < a.p.nVar, a.xl.getD d 0 ≤ a.xu.getD d 0) (hr : ref.length ≠ 1) (he : eta.length = ref.length)
    (hperm : cls.flatten.Perm (List.range X0.length)) (hne : ∀ c ∈ cls, c ≠ []) (hfew : cls.length ≤ ref.length)
    (hsz : ∀ c ∈ cls, ∀ C ∈ ref, c.length ≤ C.length) (n : ℕ) :
    ∃ s s', a.start (RefSet.new ref eta (some cls)) X0 = some s ∧ a.run n s = some s' ∧
      DpnReadyMany a cls X0.length s' ∧ s'.iter = n ∧
      X0.length + n * X0.length ≤ s'.state.nJac ∧ s'.state.nJac ≤ X0.length + n * (9 * X0.length) := by
  obtain ⟨s, g1, g2, g3, g4, g5, g6, -⟩ := (start_of ha (S := RefSet.new ref eta (some cls)) hX0 hle).2 hX
  have hrd : DpnReadyMany a cls X0.length s := by
    refine ⟨g2, g3, ?_, .inl (by rw [g6]; rfl), .inl (by rw [g6]; rfl), fun h => absurd g4 h⟩
    rw [g6]
    exact ⟨hr, he, by simp [RefSet.new], rfl, hperm, hne, hfew, hsz, fun k md hk => by
      simp only [RefSet.new, List.getElem?_map, Option.map_eq_some_iff] at hk
      obtain ⟨_, _, h⟩ := hk
      cases h⟩
  obtain ⟨s', h1, h2, h3, h4, h5⟩ := C71_many_run ha n hrd
  rw [g5] at h4 h5
  exact ⟨s, s', g1, h1, h2, by omega, h4, h5⟩

/-! ### Examples -/

/-- Two components of two points each, and their directions. -/
def twoRef : List (List (ℕ → ℚ)) :=
  [[fun k => if k = 1 then 1 else 0, fun k => if k = 1 then 7 / 8 else 1 / 8],
   [fun k => if k = 0 then 7 / 8 else 1 / 8, fun k => if k = 0 then 1 else 0]]

/-- The hypotheses of `C71_many_start`, `C71_many_run` and `C71_many_iteration`: three points in two clusters. -/
example (n : ℕ) : ∃ s s', (lineDpn .deltap fun x : ℚ => x).start
      (RefSet.new twoRef [fun _ => -1, fun k => if k = 0 then -1 else 0] (some [[1], [0, 2]])) [[3 / 4], [1 / 4], [2]] = some s ∧
    (lineDpn .deltap fun x : ℚ => x).run n s = some s' ∧ s'.state.X.length = 3 ∧ s'.state.nJac ≤ 3 + n * 27 := by
  obtain ⟨s, s', h1, h2, h3, -, -, h4⟩ := C71_many_start (lineDpn_ok .deltap fun x : ℚ => x) (ref := twoRef)
    (eta := [fun _ => -1, fun k => if k = 0 then -1 else 0]) (cls := [[1], [0, 2]]) (X0 := [[3 / 4], [1 / 4], [2]])
    (by simp [lineDpn, lineFuncs]) (by simp) (fun d hd => by
      obtain rfl : d = 0 := Nat.lt_one_iff.mp hd
      simp [lineDpn]) (by decide) rfl (by decide) (by decide) (by decide) (by simp [twoRef]) n
  exact ⟨s, s', h1, h2, h3.size, h4⟩

end Verif.Props
