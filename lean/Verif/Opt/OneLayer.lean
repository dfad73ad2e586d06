import Verif.Props.HVNIter

/-!
# An iteration of `HVN` on a population that forms one layer

Lemmas for C77.
-/

namespace Verif.Opt

open Verif.Util Verif.Props Verif.NDS

variable {K : Type*} [Field K] [LinearOrder K] [IsStrictOrderedRing K] [Inhabited K]

omit [Field K] [IsStrictOrderedRing K] in
/-- Without dominance among the feasible points there is one layer with all points in their order. -/
theorem hvnPartitions_one {D fuel : ℕ} {feas : List Bool} {Y : List (List K)} (hD : 2 ≤ D)
    (hY : ∀ y ∈ Y, y.length = D) (hdepth : ∀ n ≤ Y.length, depthBound D n ≤ fuel)
    (hnd : ∀ i (hi : i < Y.length), ∀ j (hj : j < Y.length), feas.getD i false = true → feas.getD j false = true →
      ¬ Dominates Y[i] Y[j]) :
    hvnPartitions fuel feas Y = some [List.range Y.length] := by
  unfold hvnPartitions
  dsimp only
  set F := (List.range Y.length).filter fun i => feas.getD i false with hF
  set I := (List.range Y.length).filter fun i => !feas.getD i false with hI
  have hFI : (F ++ I).Perm (List.range Y.length) := List.filter_append_perm _ _
  have hFmem : ∀ i ∈ F, i < Y.length ∧ feas.getD i false = true := by
    intro i hi
    rw [hF, List.mem_filter, List.mem_range] at hi
    exact hi
  by_cases hlen : F.length > 0
  · rw [if_pos hlen]
    set Z := F.map fun i => Y.getD i [] with hZ
    have hZl : Z.length = F.length := List.length_map _
    have hFl : F.length ≤ Y.length := by
      rw [hF]; exact (List.length_filter_le _ _).trans (by simp)
    have hZr : ∀ y ∈ Z, y.length = D := by
      intro y hy
      obtain ⟨i, hi, rfl⟩ := List.mem_map.mp hy
      have := (hFmem i hi).1
      rw [List.getD_eq_getElem _ _ this]
      exact hY _ (List.getElem_mem this)
    have hZe : ∀ k (hk : k < Z.length), Z[k] = Y[F[k]'(hZl ▸ hk)]'(hFmem _ (List.getElem_mem _)).1 := by
      intro k hk
      simp only [hZ, List.getElem_map]
      exact List.getD_eq_getElem _ _ _
    obtain ⟨lab, ⟨hl, hr⟩, hs⟩ := nonDominSort_spec (Y := Z) (fuel := fuel)
      (by intro h; rw [h] at hZl; simp at hZl; omega) hD hZr (by rw [hZl]; exact hdepth _ hFl)
    have hlab : lab = List.replicate F.length 0 := by
      refine List.eq_replicate_iff.mpr ⟨hl.trans hZl, fun b hb => ?_⟩
      obtain ⟨i, hi, rfl⟩ := List.mem_iff_getElem.mp hb
      refine Nat.le_zero.mp ((hr i (hl ▸ hi) 0).mpr fun j hj hdom => ?_)
      rw [hZe j hj, hZe i (hl ▸ hi)] at hdom
      exact absurd hdom (hnd _ _ _ _ (hFmem _ (List.getElem_mem _)).2 (hFmem _ (List.getElem_mem _)).2)
    have hdd : (List.replicate F.length 0).dedup = [0] := by
      obtain ⟨n, hn⟩ := Nat.exists_eq_succ_of_ne_zero hlen.ne'
      rw [hn]
      exact List.replicate_dedup (Nat.succ_ne_zero n)
    have hfr : frontsOf lab = [(0, List.range F.length)] := by
      unfold frontsOf
      rw [hlab, hdd]
      simp only [List.insertionSort_cons, List.insertionSort_nil, List.orderedInsert_nil, List.map_cons, List.map_nil,
        List.length_replicate]
      refine congrArg (fun l => [(0, l)]) (List.filter_eq_self.mpr fun i hi => ?_)
      simp [List.mem_range.mp hi]
    have hmapF : (List.range F.length).map (fun j => F.getD j 0) = F := by
      apply List.ext_getElem (by simp)
      intro i h1 h2
      rw [List.getElem_map, List.getElem_range, List.getD_eq_getElem _ _ h2]
    rw [hs, Option.map_some, hfr]
    simp only [List.map_cons, List.map_nil, if_true, hmapF]
    refine congrArg (fun l => some [l]) ?_
    refine List.Perm.eq_of_pairwise (le := fun a b : ℕ => a ≤ b) (fun a b _ _ h1 h2 => le_antisymm h1 h2)
      (List.pairwise_insertionSort _ _) ?_ ((List.perm_insertionSort _ _).trans hFI)
    exact List.pairwise_le_range
  · rw [if_neg hlen]

/-- An iteration on points that are apart from each other and form one layer, if the step limit is one or fails and the
line search accepts the full step: all points move by the Newton step, or the iteration fails because of the limit. -/
theorem HvnEnv.iterate_limit {e : HvnEnv K} {nObj dim N0 : ℕ} (he : EnvOk e nObj dim N0)
    {s : State K} (hs : Usable e.p dim N0 s)
    (hap : ∀ i < s.X.length, ∀ j < s.X.length, i ≠ j →
      1 / 10 ^ 8 < e.dist ((s.X.getD i []).take e.p.nVar) ((s.X.getD j []).take e.p.nVar))
    (hnd : ∀ i < s.X.length, ∀ j < s.X.length, MarginFeasible e.p ((s.X.getD i []).take e.p.nVar) →
      MarginFeasible e.p ((s.X.getD j []).take e.p.nVar) →
      ¬ Dominates (e.p.func.point ((s.X.getD i []).take e.p.nVar)) (e.p.func.point ((s.X.getD j []).take e.p.nVar)))
    (hacc : ∀ t, Usable e.p dim N0 t → t.X = s.X → ∀ S R, e.newton t = some (S, R) →
      ∀ t', Usable e.p dim N0 t' → t'.X = movedBy s.X S 1 → ∀ R', e.residual t' = some R' →
      Accept (1 / 10 ^ 5) (e.norm R) 1 (e.norm R'))
    (hmax : ∀ t, Usable e.p dim N0 t → t.X = s.X → ∀ S R, e.newton t = some (S, R) →
      hvnMaxStep e.limit e.xl e.xu (e.p.primal t.X) (S.map (List.take e.p.nVar)) = some 1 ∨
      hvnMaxStep e.limit e.xl e.xu (e.p.primal t.X) (S.map (List.take e.p.nVar)) = none) :
    (∃ s' t S R, e.iterate s = some s' ∧ Usable e.p dim N0 s' ∧ Usable e.p dim N0 t ∧ t.X = s.X ∧
      e.newton t = some (S, R) ∧ s'.X = movedBy s.X S 1) ∨
    e.iterate s = none ∧ ∃ t S R, Usable e.p dim N0 t ∧ t.X = s.X ∧ e.newton t = some (S, R) ∧
      hvnMaxStep e.limit e.xl e.xu (e.p.primal t.X) (S.map (List.take e.p.nVar)) = none := by
  have hpr : ∀ i, (e.p.primal s.X).getD i [] = (s.X.getD i []).take e.p.nVar := by
    intro i
    unfold Funcs.primal
    rw [List.getD_eq_getElem?_getD, List.getD_eq_getElem?_getD, List.getElem?_map]
    cases s.X[i]? <;> simp
  have hmapX : ∀ X : List (List K), (List.range X.length).map (fun i => X.getD i []) = X := by
    intro X
    apply List.ext_getElem (by simp)
    intro i h1 h2
    rw [List.getElem_map, List.getElem_range, List.getD_eq_getElem _ _ h2]
  have hrne : ∀ X : List (List K), X ≠ [] → List.range X.length ≠ [] := fun X hX => by
    simpa using hX
  -- duplicates
  obtain ⟨s1, c1, c2, c3, -⟩ := hs.slice (hrne _ hs.ne) (fun i hi => List.mem_range.mp hi) (by simpa using hs.le)
  rw [hmapX] at c3
  have hkept : e.check s = some s1 := by
    rw [HvnEnv.check, (C30_duplicates s.X.length e.eps _ (fun i j => he.nonneg _ _) (fun i j => he.symm _ _) _ rfl).2.2.2.2]
    · exact c1
    · intro i hi j hj hij
      rw [hpr, hpr]
      exact hap i hi j hj hij
  obtain ⟨v, hv⟩ := he.indicator s1 c2
  -- one layer
  have hY := c2.sync.Y
  have hYl : s1.Y.length = s1.X.length := by rw [hY, List.length_map]
  have hfeas : ∀ i (hi : i < s1.X.length), (e.p.isFeasible s1).getD i false = true ↔
      MarginFeasible e.p ((s1.X.getD i []).take e.p.nVar) := by
    intro i hi
    obtain ⟨hf1, hf2⟩ := C26_feasible he.funcs he.nVar c2.sync c2.dim
    have := hf2 i hi
    rw [List.getD_eq_getElem _ _ (by rw [hf1]; exact hi), List.getD_eq_getElem _ _ hi]
    rw [List.getElem?_eq_getElem (by rw [hf1]; exact hi), Option.some.injEq] at this
    exact this
  have hparts : hvnPartitions e.fuel (e.p.isFeasible s1) s1.Y = some [List.range s1.X.length] := by
    rw [← hYl]
    refine hvnPartitions_one he.two ?_ ?_ ?_
    · intro y hy
      rw [hY] at hy
      obtain ⟨x, hx, rfl⟩ := List.mem_map.mp hy
      exact he.funcs.func.size _ (take_length he.nVar (c2.dim x hx))
    · exact fun n hn => he.fuel n (by have := c2.le; omega)
    · intro i hi j hj hfi hfj
      rw [hfeas i (hYl ▸ hi)] at hfi
      rw [hfeas j (hYl ▸ hj)] at hfj
      have e1 : ∀ k (hk : k < s1.Y.length), s1.Y[k] = e.p.func.point ((s1.X.getD k []).take e.p.nVar) := by
        intro k hk
        rw [List.getD_eq_getElem _ _ (hYl ▸ hk)]
        simp [hY]
      rw [e1 i hi, e1 j hj, c3]
      rw [c3] at hfi hfj
      exact hnd i (by rw [← c3]; omega) j (by rw [← c3]; omega) hfi hfj
  -- the layer
  obtain ⟨t, ht, hu, hX, -⟩ := c2.slice (hrne _ c2.ne) (fun i hi => List.mem_range.mp hi) (by simpa using c2.le)
  rw [hmapX, c3] at hX
  obtain ⟨S, R, hN, hS, hR, hSr, hRr⟩ := he.newton t hu
  rcases hmax t hu hX S R hN with hm | hm
  case inr =>
    refine .inr ⟨?_, t, S, R, hu, hX, hN, hm⟩
    have hl0 : e.layer s1 (List.range s1.X.length) = none := by
      rw [HvnEnv.layer, ht, Option.bind_some, hN, Option.bind_some, hm, Option.bind_none]
    rw [HvnEnv.iterate, hkept, Option.bind_some, hv, Option.bind_some, hparts, Option.bind_some, List.foldlM_cons,
      HvnEnv.pass, hl0]
    rfl
  left
  obtain ⟨m1, m2, m3⟩ := movedBy_shape 1 hu.dim hSr hS
  obtain ⟨t', g1, g2, g3, -⟩ := Usable.update (N0 := N0) he.funcs he.nVar t (X := movedBy t.X S 1)
    (by
      intro h0
      rw [h0] at m1
      exact hu.ne (List.length_eq_zero_iff.mp m1.symm))
    (by rw [m1]; exact hu.le) m2
  obtain ⟨R', hR'⟩ := he.residual t' g3
  have hphi : e.phi t S 1 = some (e.norm R') := by rw [HvnEnv.phi, g1, Option.bind_some, hR', Option.map_some]
  have hlayer : e.layer s1 (List.range s1.X.length) = some (S, R, 1) := by
    rw [HvnEnv.layer, ht, Option.bind_some, hN, Option.bind_some]
    rw [hm, Option.bind_some, halvingM, hphi, Option.bind_some,
      if_pos (hacc t hu hX S R hN t' g3 (by rw [g2, hX]) R' hR'), Option.map_some]
  have hlX : t.X.length = s1.X.length := by rw [hX, c3]
  obtain ⟨acc, a1, a2, -, a4⟩ := HvnEnv.passes_total (e := e) (s := s1) (N := s1.X.length) (dim := dim)
    [List.range s1.X.length] (by simpa using List.nodup_range) (fun i hi => by simpa using hi)
    (fun idx hidx => by
      obtain rfl : idx = List.range s1.X.length := by simpa using hidx
      exact ⟨S, R, 1, hlayer, by rw [hS, hlX, List.length_range], by rw [hR, hlX, List.length_range], hSr, hRr⟩)
    { step := s1.X.map fun x => List.replicate x.length 0
      size := List.replicate s1.X.length 1
      R := s1.X.map fun x => List.replicate x.length 0 }
    (by
      have : ∀ r ∈ s1.X.map fun x => List.replicate x.length (0 : K), r.length = dim := by
        intro r hr
        obtain ⟨x, hx, rfl⟩ := List.mem_map.mp hr
        rw [List.length_replicate, c2.dim x hx]
      exact ⟨by simp, by simp, by simp, this, this⟩)
  have hstep : acc.step = S := by
    apply List.ext_getElem (by rw [a2.step, hS, hlX])
    intro i h1 h2
    have h3 : i < s1.X.length := by rw [← a2.step]; exact h1
    have := (a4 _ (by simp) S R 1 hlayer i (by simpa using h3)).1
    rw [List.getElem_range, List.getElem?_eq_getElem h1, List.getElem?_eq_getElem h2] at this
    exact Option.some.inj this
  have hsize : acc.size = List.replicate s1.X.length 1 := by
    apply List.ext_getElem (by rw [a2.size, List.length_replicate])
    intro i h1 h2
    have h3 : i < s1.X.length := by rw [← a2.size]; exact h1
    have := (a4 _ (by simp) S R 1 hlayer i (by simpa using h3)).2.1
    rw [List.getElem_range, List.getElem?_eq_getElem h1] at this
    rw [Option.some.inj this, List.getElem_replicate]
  have hX' : List.zipWith (fun x sa => List.zipWith (fun x s => x + s * sa.2) x sa.1) s1.X (acc.step.zip acc.size) =
      movedBy s1.X S 1 := by
    rw [hstep, hsize]
    apply List.ext_getElem (by simp [movedBy, hS, hlX])
    intro i h1 h2
    simp [movedBy]
  obtain ⟨s', u1, u2, u3, -⟩ := Usable.update (N0 := N0) he.funcs he.nVar s1 (X := movedBy s1.X S 1)
    (by rw [c3, ← hX]
        intro h0
        rw [h0] at m1
        exact hu.ne (List.length_eq_zero_iff.mp m1.symm))
    (by rw [c3, ← hX, m1]; exact hu.le) (by rw [c3, ← hX]; exact m2)
  refine ⟨s', t, S, R, ?_, u3, hu, hX, hN, by rw [u2, c3]⟩
  rw [HvnEnv.iterate, hkept, Option.bind_some, hv, Option.bind_some, hparts, Option.bind_some, a1, Option.bind_some,
    hX', u1]

/-- Without the step limit the iteration returns. -/
theorem HvnEnv.iterate_full {e : HvnEnv K} {nObj dim N0 : ℕ} (he : EnvOk e nObj dim N0) (hlim : e.limit = false)
    {s : State K} (hs : Usable e.p dim N0 s)
    (hap : ∀ i < s.X.length, ∀ j < s.X.length, i ≠ j →
      1 / 10 ^ 8 < e.dist ((s.X.getD i []).take e.p.nVar) ((s.X.getD j []).take e.p.nVar))
    (hnd : ∀ i < s.X.length, ∀ j < s.X.length, MarginFeasible e.p ((s.X.getD i []).take e.p.nVar) →
      MarginFeasible e.p ((s.X.getD j []).take e.p.nVar) →
      ¬ Dominates (e.p.func.point ((s.X.getD i []).take e.p.nVar)) (e.p.func.point ((s.X.getD j []).take e.p.nVar)))
    (hacc : ∀ t, Usable e.p dim N0 t → t.X = s.X → ∀ S R, e.newton t = some (S, R) →
      ∀ t', Usable e.p dim N0 t' → t'.X = movedBy s.X S 1 → ∀ R', e.residual t' = some R' →
      Accept (1 / 10 ^ 5) (e.norm R) 1 (e.norm R')) :
    ∃ s' t S R, e.iterate s = some s' ∧ Usable e.p dim N0 s' ∧ Usable e.p dim N0 t ∧ t.X = s.X ∧
      e.newton t = some (S, R) ∧ s'.X = movedBy s.X S 1 := by
  have hm : ∀ X S, hvnMaxStep e.limit e.xl e.xu X S = some 1 := fun X S => by unfold hvnMaxStep; rw [if_pos hlim]
  rcases HvnEnv.iterate_limit he hs hap hnd hacc fun t _ _ S R _ => .inl (hm _ _) with h | ⟨-, t, S, R, -, -, -, h⟩
  · exact h
  · rw [hm] at h; cases h

end Verif.Opt
