import Verif.Props.DpNMany
import Verif.Props.MMDN

/-!
# C72: the iterations of `MMDNewton` with matching and a reference set of several components
-/

set_option linter.unusedSectionVars false

namespace Verif.Props

open Verif.Opt Verif.Ind Verif.Util Verif.HV

/-! ## Specification -/

/-- What an iteration with matching starts from: a usable population of `N` points, a reference set of several
components, clusters of the points that can be matched to it, and the last step if there was one. The clusters are given,
or they are made of the points closest to each component. -/
structure MmdnReadyMany (a : Mmdn) (cls : List (List ℕ)) (N : ℕ) (s : MmdnState) : Prop where
  state : Usable a.p (a.p.nVar + a.p.nDual) N s.state
  size : s.state.X.length = N
  ref : ManyRef s.ref cls N
  clusters : s.ref.yIdx = some cls ∨ s.ref.yIdx = none ∧ ∃ near : (ℕ → ℝ) → ℕ,
    (∀ y ∈ mmdImages a s.state.X, label a.env.dist s.ref.ref y = some (near y)) ∧
    cls = (List.range s.ref.ref.length).map fun k =>
      (List.range N).filter fun j => (mmdImages a s.state.X)[j]?.map near = some k
  step : s.iter ≠ 0 → s.step.length = N

/-- The reference points of an iteration with several components: `M0` is matched to the points, those of the cluster `v`
in the component `comp v`; `M1` are the targets after the shift, each in the direction of its component; `T` are those of
the Newton step. -/
structure MmdnTargetsMany (a : Mmdn) (cls : List (List ℕ)) (s s' : MmdnState) (comp : ℕ → ℕ) (M0 M1 T : List (ℕ → ℝ)) :
    Prop where
  value : s'.value = mmdValue a M0 fun (i : Fin s.state.X.length) k => (mmdImages a s.state.X).getD i 0 k
  inj : Set.InjOn comp {v | v < cls.length}
  kept : ∀ (v : ℕ) (c : List ℕ), cls[v]? = some c → ∀ old, s.ref.medoids[comp v]? = some (some old) →
    old.length = c.length → (atIdx M0 c).Perm old
  fresh : ∀ (v : ℕ) (c : List ℕ), cls[v]? = some c →
    (∀ old, s.ref.medoids[comp v]? = some (some old) → old.length ≠ c.length) →
    ∃ C, s.ref.ref[comp v]? = some C ∧ (atIdx M0 c).Subperm C
  along : ∀ (v : ℕ) (c : List ℕ), cls[v]? = some c → MovedAlong s.ref.ref s.ref.eta (comp v) (atIdx M0 c)
  matched : WithinClusters a.env.dist cls (mmdImages a s.state.X) M0 M0
  shifted : ∃ own : ℕ → ℕ, (∀ (v : ℕ) (c : List ℕ), cls[v]? = some c → ∀ i ∈ c, own i = comp v) ∧
    ShiftedBy (8 / 100 : ℝ) (fun i => s.iter = 0 ∨
      AtRestAny a.env.dist (mmdImages a s.state.X) M0 (s.step.map fun r => euclNorm (r.take a.p.nVar)) i)
      s.ref.eta own M0 M1 s.hist s'.hist
  targets : WithinClusters a.env.dist cls (mmdImages a s.state.X) M1 T
  after : s'.ref.ref = s.ref.ref ∧ s'.ref.eta = s.ref.eta ∧ s'.ref.yIdx = some cls

/-! ### Lemmas -/

/-- The shift of the matched targets. -/
theorem mmdShift_placed {dist : (ℕ → ℝ) → (ℕ → ℝ) → ℝ} (hd : ∀ x y, 0 ≤ dist x y) {S : RefSet (ℕ → ℝ)}
    {cls : List (List ℕ)} {comp : ℕ → ℕ} {M Y : List (ℕ → ℝ)} (hS : ManyRef S cls Y.length) (h : Placed S cls comp M)
    (hM : M.length = Y.length) (iter : ℕ) {stepNorm : List ℝ} (hst : iter ≠ 0 → stepNorm.length = Y.length)
    (hist : ℕ → List (ℕ → ℝ)) :
    ∃ S' M' hist', mmdShift dist iter Y.length Y stepNorm S hist = some (S', hist') ∧ ManyRef S' cls Y.length ∧
      Placed S' cls comp M' ∧ S'.ref = S.ref ∧ S'.eta = S.eta ∧ M'.length = Y.length ∧
      ShiftedBy (8 / 100 : ℝ) (fun i => iter = 0 ∨ AtRestAny dist Y M stepNorm i) S.eta
        (fun i => comp (clusterOf cls i)) M M' hist hist' := by
  have hR : S.referenceSet = M := by rw [RefSet.referenceSet, h.matched]; rfl
  obtain ⟨m, a1, a2, a3⟩ : ∃ m, mmdShiftMask dist iter M.length Y M stepNorm = some m ∧ m.length = M.length ∧
      ∀ i < M.length, (m[i]? = some true ↔ (iter = 0 ∨ AtRestAny dist Y M stepNorm i)) := by
    by_cases hi : iter = 0
    · exact ⟨List.replicate M.length true, by rw [mmdShiftMask, if_pos hi], by simp, fun i hi' => by simp [hi', hi]⟩
    · obtain ⟨m, a1, a2, a3⟩ := mmdShiftMask_spec hd hi hM.symm (by rw [hM]; exact hst hi)
      exact ⟨m, a1, a2, fun i hi' => by rw [a3 i hi']; simp [hi]⟩
  obtain ⟨S', M', hist', h1, h2, h3, h4, h6, h7, h8, h5⟩ := shiftMasked_spec
    (c := (8 / 100 : ℝ)) (hist := hist) (comp := fun i => comp (clusterOf cls i))
    h.synced h.matched hS.eta a2 (fun i hi => by
      obtain ⟨c, t, e1, e2⟩ := clusterOf_spec hS.perm (by rw [← hM]; exact hi)
      exact ⟨t, h.idx _ c t i e1 e2⟩) a3
  have hsh : S.shift (8 / 100 : ℝ) (some (nonzero m)) = some S' := by
    unfold shiftMasked at h1
    obtain ⟨S1, e1, e2⟩ := Option.bind_eq_some_iff.mp h1
    obtain ⟨hh, -, e3⟩ := Option.map_eq_some_iff.mp e2
    rw [e1, (Prod.mk.inj e3).1]
  obtain ⟨p1, p2⟩ := shift_placed (by norm_num) hS h h2 h4 h8 hsh
  exact ⟨S', M', hist', by unfold mmdShift; rw [hR, ← hM, a1, Option.bind_some, h1], p1, p2, h6, h7, h5.1.trans hM, h5⟩

/-! ### Theorems -/

/-- C72 with several components, an iteration: it returns. It evaluates the indicator, shifts the reference points, each
in the direction of its component, computes the residual and the Newton direction for the reference points of the points,
searches a common step size and moves the points; the counter increases by one for each point. Missing are the box and
the second derivatives of the constraints in the Newton equations. -/
theorem C72_many_iteration_partial {a : Mmdn} (ha : a.Ok) (hm : a.matching = true) {cls : List (List ℕ)} {N : ℕ}
    {s : MmdnState} (hs : MmdnReadyMany a cls N s) :
    ∃ s' comp M0 M1 T G H α, a.iterate s = some s' ∧ MmdnReadyMany a cls N s' ∧ s'.iter = s.iter + 1 ∧
      MmdnTargetsMany a cls s s' comp M0 M1 T ∧ MmdnMove a s s' T G H ∧
      MmdnSearchedBy a s.state.X (OwnComponents a.env.dist cls s.ref.ref s.ref.eta) s'.step s'.R α ∧
      IsMat N (a.p.nVar + a.p.nDual) s'.step ∧ IsMat N (a.p.nVar + a.p.nDual) s'.R ∧
      (∀ i < N, ∀ c < a.p.nVar + a.p.nDual, (s'.state.X.getD i []).getD c 0 =
        (s.state.X.getD i []).getD c 0 + α * (s'.step.getD i []).getD c 0) ∧
      s'.state.nJac = s.state.nJac + N := by
  obtain ⟨hst, rfl, href, hcl, hstep⟩ := hs
  have hpos : 0 < s.state.X.length := List.length_pos_iff.mpr hst.ne
  have hY := Mmdn.images_eq hst
  have hl : ∀ X, (mmdImages a X).length = X.length := fun X => by simp [mmdImages]
  have hYl := hl s.state.X
  have hset : ∀ {S : RefSet (ℕ → ℝ)} {comp : ℕ → ℕ} {M : List (ℕ → ℝ)}, Placed S cls comp M → S.referenceSet = M :=
    fun h => by rw [RefSet.referenceSet, h.matched]; rfl
  -- the value
  obtain ⟨⟨parts, hpart⟩, hyc⟩ : (∃ parts, s.ref.partition a.env (mmdImages a s.state.X) = some (cls, parts)) ∧
      ∀ c, s.ref.yIdx = some c → c = cls := by
    rcases hcl with e | ⟨e, near, hn, hc⟩
    · exact ⟨partition_given a.env (by rw [hYl]; exact href) e, fun c hc => Option.some.inj (hc.symm.trans e)⟩
    · refine ⟨?_, fun c hc' => by rw [e] at hc'; simp at hc'⟩
      rw [hc, ← hYl]
      exact partition_closest href.several e hn
  obtain ⟨S1, M0, comp, m1, m2, m3, m4, m5, m6, m7⟩ := match_many ha.env (by rw [hYl]; exact href) hpart hyc
  have hR1 := hset m3
  have v1 : a.value s.ref (mmdImages a s.state.X) = some (S1,
      mmdValue a M0 fun (i : Fin s.state.X.length) k => (mmdImages a s.state.X).getD i 0 k) := by
    rw [Mmdn.value, if_pos hm, m1, Option.bind_some, if_neg (by rw [hR1]; omega), C41_value,
      if_neg (by omega), Option.map_some, hR1, mmdValue, if_pos hm]
    rw [hYl]
    rfl
  -- the shift
  obtain ⟨S2, M1, hist', k1, k2, k3, k4, k5, k6, k7⟩ := mmdShift_placed ha.nonneg m2 m3 m6 s.iter
    (stepNorm := s.step.map fun r => euclNorm (r.take a.p.nVar)) (fun h => by simpa [hYl] using hstep h) s.hist
  rw [hYl] at k1
  -- the Newton step
  obtain ⟨S3, T, r1, r2, r3, r4, r5, r6⟩ := rematch_many ha.env href.reMatch m1 m3.idx k2 k3 k4
    (k3.clusters.trans m3.clusters.symm) k6
  obtain ⟨D, i1, -, i3⟩ := Mmdn.indicator_of hst hm r1 (hset r5) (r6.1.trans hYl)
  obtain ⟨st, R, G, H, n1, n7, n8, n9, n10, n11⟩ := Mmdn.newton_of ha hst rfl i1 i3
  rw [hYl] at r2
  have hmv := fun α => movedBy_shape α hst.dim n8.2 n8.1
  -- the line search
  have hphi : ∀ α S, (ManyRef S cls s.state.X.length ∧ S.ref = s.ref.ref ∧ S.eta = s.ref.eta ∧
      ∃ M comp, Placed S cls comp M) → ∃ v S', a.phi s.state st α S = some (v, S') ∧
      (ManyRef S' cls s.state.X.length ∧ S'.ref = s.ref.ref ∧ S'.eta = s.ref.eta ∧ ∃ M comp, Placed S' cls comp M) ∧
      ResidualNormBy a (OwnComponents a.env.dist cls s.ref.ref s.ref.eta) (movedBy s.state.X st α) v := by
    rintro α S ⟨p1, p2, p3, M, comp', p4⟩
    obtain ⟨h1, h2, -⟩ := hmv α
    obtain ⟨t, t1, t2, t3, -⟩ := Usable.update ha.funcs (Nat.le_add_right a.p.nVar a.p.nDual) s.state
      (X := movedBy s.state.X st α) (N0 := s.state.X.length) (List.ne_nil_of_length_pos (by omega)) h1.le h2
    have htl : (mmdImages a t.X).length = s.state.X.length := by rw [hl, t2, h1]
    obtain ⟨S', T', comp'', q1, q2, q3, q4, q5, q6⟩ := trial_many ha.env (Y := mmdImages a t.X) (by rw [htl]; exact p1) p4
    obtain ⟨D', -, d2, d3⟩ := Mmdn.indicator_of t3 hm q1 (hset q5) (q6.1.trans (hl _))
    rw [p2, p3] at q6
    obtain ⟨R', e1, e2⟩ := Mmdn.residual_of ha t3 (Tg := OwnComponents a.env.dist cls s.ref.ref s.ref.eta) d2 q6
      fun hs => (d3 hs).1
    rw [htl] at q2
    refine ⟨_, S', by rw [Mmdn.phi, t1, Option.bind_some, e1, Option.map_some], ⟨q2, q3.trans p2, q4.trans p3, T', comp'',
      q5⟩, ?_⟩
    rw [t2] at e2
    exact e2
  have hls : ∃ α S4, a.lineSearch s.state st R S3 = some (α, S4) ∧
      (ManyRef S4 cls s.state.X.length ∧ S4.ref = s.ref.ref ∧ S4.eta = s.ref.eta ∧ ∃ M comp, Placed S4 cls comp M) ∧
      MmdnSearchedBy a s.state.X (OwnComponents a.env.dist cls s.ref.ref s.ref.eta) st R α := by
    have hI : ManyRef S3 cls s.state.X.length ∧ S3.ref = s.ref.ref ∧ S3.eta = s.ref.eta ∧ ∃ M comp, Placed S3 cls comp M :=
      ⟨r2, r3.trans (k4.trans m4), r4.trans (k5.trans m5), T, comp, r5⟩
    unfold Mmdn.lineSearch MmdnSearchedBy
    by_cases hsk : a.Skips st
    · rw [if_pos hsk]
      exact ⟨1, S3, rfl, hI, by rw [if_pos (skips_iff.mp hsk)]⟩
    · rw [if_neg hsk]
      obtain ⟨j, hj, S4, j1, j2, j3, j4⟩ := halvingW_spec (c1 := 1 / 10 ^ 6) (phi0 := frobNorm R) hphi 6 1 S3 hI
      simp only [one_mul] at j1 j3 j4
      refine ⟨_, S4, j1, j2, ?_⟩
      rw [if_neg fun h => hsk (skips_iff.mpr h)]
      exact ⟨j, hj, rfl, j3, j4⟩
  obtain ⟨α, S4, l1, ⟨l2, l3, l4, M4, comp4, l5⟩, l7⟩ := hls
  obtain ⟨b1, b2, b3⟩ := hmv α
  obtain ⟨t, t1, t2, t3, t4⟩ := Usable.update ha.funcs (Nat.le_add_right a.p.nVar a.p.nDual) s.state
    (X := movedBy s.state.X st α) (N0 := s.state.X.length) (List.ne_nil_of_length_pos (by omega)) b1.le b2
  refine ⟨{ state := t, ref := S4,
            value := mmdValue a M0 fun (i : Fin s.state.X.length) k => (mmdImages a s.state.X).getD i 0 k,
            iter := s.iter + 1, step := st, R := R, hist := hist' }, comp, M0, M1, T, G, H, α,
    ?_, ⟨t3, by rw [t2, b1], l2, .inl l5.clusters, fun _ => n8.1⟩, rfl, ?_, ⟨n7, n10, n11⟩, l7, n8, n9,
    fun i hi c hc => by rw [t2]; exact b3 i hi c hc, by rw [t4, b1]⟩
  · unfold Mmdn.iterate
    simp only [hY, v1, k1, n1, l1, Option.bind_some]
    rw [t1, Option.map_some]
  · refine ⟨rfl, m3.inj, fun v c hv => (m7 v c hv).2.1, fun v c hv => (m7 v c hv).2.2.1, fun v c hv => (m7 v c hv).1,
      ⟨m6, fun c hc => ?_⟩, ⟨fun i => comp (clusterOf cls i), fun v c hv i hi => ?_, by rw [← m5]; exact k7⟩, r6, l3, l4,
      l5.clusters⟩
    · obtain ⟨v, hv, rfl⟩ := List.getElem_of_mem hc
      exact ⟨List.Perm.refl _, (m7 v _ (List.getElem?_eq_getElem hv)).2.2.2⟩
    · obtain ⟨q, hq, rfl⟩ := List.getElem_of_mem hi
      have hlt : c[q] < s.state.X.length :=
        List.mem_range.mp (href.perm.mem_iff.mp (List.mem_flatten.mpr ⟨c, List.mem_of_getElem? hv, hi⟩))
      obtain ⟨c', t', e1, e2⟩ := clusterOf_spec href.perm hlt
      have h1 := m3.idx _ c' t' _ e1 e2
      rw [m3.idx v c q _ hv (List.getElem?_eq_getElem hq)] at h1
      exact (Prod.mk.inj (Option.some.inj (Option.some.inj h1))).1.symm

/-- C72 with several components, the loop: any number of iterations returns, always with as many points and the same
clusters. -/
theorem C72_many_run {a : Mmdn} (ha : a.Ok) (hm : a.matching = true) {cls : List (List ℕ)} {N : ℕ} (n : ℕ)
    {s : MmdnState} (hs : MmdnReadyMany a cls N s) :
    ∃ s', a.run n s = some s' ∧ MmdnReadyMany a cls N s' ∧ s'.iter = s.iter + n ∧
      s'.state.nJac = s.state.nJac + n * N := by
  induction n generalizing s with
  | zero => exact ⟨s, rfl, hs, rfl, by simp⟩
  | succ n ih =>
    obtain ⟨s1, comp, M0, M1, T, G, H, α, h1, h2, h3, -, -, -, -, -, -, h4⟩ := C72_many_iteration_partial ha hm hs
    obtain ⟨s', g1, g2, g3, g4⟩ := ih h2
    exact ⟨s', by rw [Mmdn.run, h1, Option.bind_some, g1], g2, by omega, by rw [g4, h4, Nat.succ_mul]; omega⟩

/-- C72 with several components from the start: for a new reference set with given clusters, in which no cluster is
empty or larger than a component, the constructor and any number of iterations return. -/
theorem C72_many_start {a : Mmdn} (ha : a.Ok) (hm : a.matching = true) {ref : List (List (ℕ → ℝ))} {eta : List (ℕ → ℝ)}
    {cls : List (List ℕ)} {X0 : List (List ℝ)} (hX : ∀ x ∈ X0, x.length = a.p.nVar) (hX0 : X0 ≠ [])
    (hle : ∀ d < a.p.nVar, a.xl.getD d 0 ≤ a.xu.getD d 0) (hr : ref.length ≠ 1) (he : eta.length = ref.length)
    (hperm : cls.flatten.Perm (List.range X0.length)) (hne : ∀ c ∈ cls, c ≠ []) (hfew : cls.length ≤ ref.length)
    (hsz : ∀ c ∈ cls, ∀ C ∈ ref, c.length ≤ C.length) (n : ℕ) :
    ∃ s s', a.start (RefSet.new ref eta (some cls)) X0 = some s ∧ a.run n s = some s' ∧
      MmdnReadyMany a cls X0.length s' ∧ s'.iter = n ∧ s'.state.nJac = X0.length + n * X0.length := by
  obtain ⟨s, g1, g2, g3, g4, g5, g6, -⟩ := (mmdnStart_of ha (S := RefSet.new ref eta (some cls)) hX0 hle).2 hX
  have hrd : MmdnReadyMany a cls X0.length s := by
    refine ⟨g2, g3, ?_, .inl (by rw [g6]; rfl), fun h => absurd g4 h⟩
    rw [g6]
    exact ⟨hr, he, by simp [RefSet.new], rfl, hperm, hne, hfew, hsz, fun k md hk => by
      simp only [RefSet.new, List.getElem?_map, Option.map_eq_some_iff] at hk
      obtain ⟨_, _, h⟩ := hk
      cases h⟩
  obtain ⟨s', h1, h2, h3, h4⟩ := C72_many_run ha hm n hrd
  rw [g5] at h4
  exact ⟨s, s', g1, h1, h2, by omega, h4⟩

/-! ### Examples -/

/-- The hypotheses of `C72_many_start`, `C72_many_run` and `C72_many_iteration_partial`: three points in two clusters. -/
example (n : ℕ) : ∃ s s', (lineMmdn true).start (RefSet.new
      [[fun k => if k = 1 then 1 else 0, fun _ => 1 / 2], [fun k => if k = 0 then 1 else 0, fun _ => 1 / 3]]
      [fun _ => -1, fun k => if k = 0 then -1 else 0] (some [[1], [0, 2]])) [[3 / 4], [1 / 4], [2]] = some s ∧
    (lineMmdn true).run n s = some s' ∧ s'.state.X.length = 3 ∧ s'.state.nJac = 3 + n * 3 := by
  obtain ⟨s, s', h1, h2, h3, -, h4⟩ := C72_many_start (lineMmdn_ok true) rfl
    (ref := [[fun k => if k = 1 then 1 else 0, fun _ => 1 / 2], [fun k => if k = 0 then 1 else 0, fun _ => 1 / 3]])
    (eta := [fun _ => -1, fun k => if k = 0 then -1 else 0]) (cls := [[1], [0, 2]]) (X0 := [[3 / 4], [1 / 4], [2]])
    (by simp [lineMmdn, lineFuncs]) (by simp) (fun d hd => by
      obtain rfl : d = 0 := Nat.lt_one_iff.mp hd
      simp [lineMmdn]) (by simp) rfl (by decide) (by simp) (by simp) (by simp) n
  exact ⟨s, s', h1, h2, h3.size, h4⟩

end Verif.Props
