import Verif.HVD.Smooth

/-!
# The chain rule for the hypervolume of `f(X)`

Lemmas about the hypervolume as a function of the decision points.
-/

namespace Verif.HVD

open Verif.HV Verif.HV.Spec Topology

variable {N d : ℕ}

/-- The coordinates of a list of `N` points. -/
def toVec (N d : ℕ) (Y : List (ℕ → ℝ)) : Fin N × Fin d → ℝ := fun p => ptOf Y p.1 p.2

theorem ptOf_ofVec_toVec {Y : List (ℕ → ℝ)} (i : ℕ) (hi : i < N) (k : ℕ) (hk : k < d) :
    ptOf (ofVec (toVec N d Y)) i k = ptOf Y i k := ptOf_ofVec (toVec N d Y) ⟨i, hi⟩ ⟨k, hk⟩

theorem hvol_toVec {Y : List (ℕ → ℝ)} {ref : ℕ → ℝ} (hY : Y.length = N) :
    hvol d Y ref = hvVec ref (toVec N d Y) := by
  unfold hvVec
  apply le_antisymm <;> apply hvol_mono <;> intro p hp _
  · obtain ⟨i, hi, rfl⟩ := mem_iff_ptOf.mp hp
    refine ⟨ptOf (ofVec (toVec N d Y)) i, mem_iff_ptOf.mpr ⟨i, by rw [length_ofVec]; omega, rfl⟩, fun k hk => ?_⟩
    rw [ptOf_ofVec_toVec i (by omega) k hk]
  · obtain ⟨i, hi, rfl⟩ := mem_iff_ptOf.mp hp
    rw [length_ofVec] at hi
    refine ⟨ptOf Y i, mem_iff_ptOf.mpr ⟨i, by omega, rfl⟩, fun k hk => ?_⟩
    rw [ptOf_ofVec_toVec i hi k hk]

theorem generalPosition_toVec {Y : List (ℕ → ℝ)} {ref : ℕ → ℝ} (hY : Y.length = N) :
    GeneralPosition d (ofVec (toVec N d Y)) ref ↔ GeneralPosition d Y ref := by
  rw [generalPosition_ofVec, generalPosition_iff, hY]
  constructor
  · rintro ⟨h1, h2⟩
    exact ⟨fun i hi j hj hij k hk => h1 ⟨j, hj⟩ ⟨i, hi⟩ (fun e => hij (congrArg Fin.val e)) ⟨k, hk⟩,
      fun i hi k hk => h2 ⟨i, hi⟩ ⟨k, hk⟩⟩
  · rintro ⟨h1, h2⟩
    exact ⟨fun i j hji k => h1 j j.2 i i.2 (fun e => hji (Fin.ext e)) k k.2, fun i k => h2 i i.2 k k.2⟩

theorem toVec_setCoord {Y : List (ℕ → ℝ)} (hY : Y.length = N) (i : Fin N) (k : Fin d) (t : ℝ) :
    toVec N d (setCoord Y i k t) = Function.update (toVec N d Y) (i, k) t := by
  ext ⟨j, m⟩
  unfold toVec
  simp only
  rw [ptOf_setCoord (by rw [hY]; exact j.2)]
  by_cases hij : j = i
  · subst hij
    rw [if_pos rfl]
    by_cases hm : m = k
    · subst hm; simp
    · rw [Function.update_of_ne (fun e => hm (Fin.ext e)), Function.update_of_ne]
      intro e; exact hm (Prod.mk.inj e).2
  · rw [if_neg (fun e => hij (Fin.ext e.symm)), Function.update_of_ne]
    intro e; exact hij (Prod.mk.inj e).1

theorem clm_sum (L : (Fin N × Fin d → ℝ) →L[ℝ] ℝ) (w : Fin N × Fin d → ℝ) :
    L w = ∑ p, w p * L (Pi.single p 1) := by
  conv_lhs => rw [pi_eq_sum_univ w, map_sum]
  refine Finset.sum_congr rfl fun p _ => ?_
  rw [map_smul, smul_eq_mul]
  congr 2
  ext j
  simp [Pi.single_apply, eq_comm]

/-- A smooth function that is the hypervolume near `Y`. -/
structure Local (N d : ℕ) (ref : ℕ → ℝ) (Y : List (ℕ → ℝ)) where
  G : (Fin N × Fin d → ℝ) → ℝ
  ε : ℝ
  pos : 0 < ε
  smooth : ∀ n : WithTop ℕ∞, ContDiff ℝ n G
  gp : ∀ x, (∀ p, |x p - toVec N d Y p| < ε) → GeneralPosition d (ofVec x) ref
  eq : ∀ x, (∀ p, |x p - toVec N d Y p| < ε) → hvVec ref x = G x

theorem exists_local {Y : List (ℕ → ℝ)} {ref : ℕ → ℝ} (hY : Y.length = N) (h : GeneralPosition d Y ref) :
    Nonempty (Local N d ref Y) := by
  obtain ⟨ε, hε, h1, G, h2, h3⟩ := hvVec_smooth ((generalPosition_toVec (N := N) hY).mpr h)
  exact ⟨⟨G, ε, hε, h2, h1, h3⟩⟩

namespace Local

variable {ref : ℕ → ℝ} {Y : List (ℕ → ℝ)} (L : Local N d ref Y)

/-- The neighbourhood on which `G` is the hypervolume. -/
theorem mem_nhds {x : Fin N × Fin d → ℝ} (hx : ∀ p, |x p - toVec N d Y p| < L.ε) :
    ∀ᶠ z in 𝓝 x, ∀ p, |z p - toVec N d Y p| < L.ε := by
  rw [Filter.eventually_all]
  intro p
  have : Continuous (fun z : Fin N × Fin d → ℝ => |z p - toVec N d Y p|) := by fun_prop
  exact this.continuousAt.eventually_lt continuousAt_const (hx p)

/-- The partial derivatives of `G`. -/
noncomputable def dG (p : Fin N × Fin d) (x : Fin N × Fin d → ℝ) : ℝ := fderiv ℝ L.G x (Pi.single p 1)

theorem hasFDerivAt (x : Fin N × Fin d → ℝ) : HasFDerivAt L.G (fderiv ℝ L.G x) x :=
  ((L.smooth 1).differentiable (by norm_num) x).hasFDerivAt

theorem dG_smooth (p : Fin N × Fin d) : ContDiff ℝ 1 (L.dG p) := by
  have : ContDiff ℝ 1 (fderiv ℝ L.G) := (L.smooth 2).fderiv_right (by norm_num)
  exact this.clm_apply contDiff_const

theorem hasDerivAt_update (x : Fin N × Fin d → ℝ) (p : Fin N × Fin d) :
    HasDerivAt (fun t => L.G (Function.update x p t)) (L.dG p x) (x p) := by
  have h1 := _root_.hasDerivAt_update x p (x p)
  have h2 : HasFDerivAt L.G (fderiv ℝ L.G x) (Function.update x p (x p)) := by
    rw [Function.update_eq_self]; exact L.hasFDerivAt x
  exact h2.comp_hasDerivAt _ h1

/-- The partial derivatives of the hypervolume. -/
theorem partialHV_eq {Z : List (ℕ → ℝ)} (hZ : Z.length = N) (hx : ∀ p, |toVec N d Z p - toVec N d Y p| < L.ε)
    (i : Fin N) (k : Fin d) : partialHV d Z ref i k = L.dG (i, k) (toVec N d Z) := by
  unfold partialHV
  apply HasDerivAt.deriv
  have h1 := L.hasDerivAt_update (toVec N d Z) (i, k)
  refine h1.congr_of_eventuallyEq ?_
  have hc : Filter.Tendsto (fun t => Function.update (toVec N d Z) (i, k) t) (𝓝 (ptOf Z i k)) (𝓝 (toVec N d Z)) := by
    have := (_root_.hasDerivAt_update (toVec N d Z) (i, k) (ptOf Z i k)).continuousAt
    have e : Function.update (toVec N d Z) (i, k) (ptOf Z i k) = toVec N d Z := Function.update_eq_self _ _
    unfold ContinuousAt at this
    rwa [e] at this
  filter_upwards [hc.eventually (L.mem_nhds hx)] with t ht
  rw [hvol_toVec (N := N) (by rw [length_setCoord, hZ]), toVec_setCoord hZ, L.eq _ ht]

end Local

/-! ### Moving a decision variable -/

/-- The derivative of the objective vectors if variable `v` of point `i` moves. -/
def moveVec (N d : ℕ) (J : (ℕ → ℝ) → ℕ → ℕ → ℝ) (X : List (ℕ → ℝ)) (i v : ℕ) : Fin N × Fin d → ℝ :=
  fun p => if (p.1 : ℕ) = i then J (ptOf X i) p.2 v else 0

theorem ptOf_map_f {f : (ℕ → ℝ) → ℕ → ℝ} {X : List (ℕ → ℝ)} {i : ℕ} (hi : i < X.length) :
    ptOf (X.map f) i = f (ptOf X i) := by
  rw [ptOf_eq (by simpa using hi), ptOf_eq hi]; simp

theorem hasDerivAt_toVec {f : (ℕ → ℝ) → ℕ → ℝ} {J : (ℕ → ℝ) → ℕ → ℕ → ℝ} {X : List (ℕ → ℝ)} {i v : ℕ}
    (hX : X.length = N) (hi : i < N)
    (hJ : ∀ k < d, HasDerivAt (fun t => f (Function.update (ptOf X i) v t) k) (J (ptOf X i) k v) (ptOf X i v)) :
    HasDerivAt (fun t => toVec N d ((setCoord X i v t).map f)) (moveVec N d J X i v) (ptOf X i v) := by
  rw [hasDerivAt_pi]
  rintro ⟨j, k⟩
  have hj : (j : ℕ) < X.length := by rw [hX]; exact j.2
  have he : ∀ t, toVec N d ((setCoord X i v t).map f) (j, k) =
      f (if i = j then Function.update (ptOf X j) v t else ptOf X j) k := by
    intro t
    unfold toVec
    simp only
    rw [ptOf_map_f (by rw [length_setCoord]; exact hj), ptOf_setCoord hj]
  simp only [he, moveVec]
  by_cases h : (j : ℕ) = i
  · simp only [h, if_true]
    exact hJ k k.2
  · simp only [h, if_false, Ne.symm h]
    exact hasDerivAt_const _ _

theorem sum_moveVec (g : Fin N × Fin d → ℝ) (J : (ℕ → ℝ) → ℕ → ℕ → ℝ) (X : List (ℕ → ℝ)) (i : Fin N) (v : ℕ) :
    ∑ p, moveVec N d J X i v p * g p = ∑ k : Fin d, g (i, k) * J (ptOf X i) k v := by
  rw [Fintype.sum_prod_type, Finset.sum_eq_single i]
  · refine Finset.sum_congr rfl fun k _ => ?_
    simp [moveVec, mul_comm]
  · intro j _ hj
    refine Finset.sum_eq_zero fun k _ => ?_
    have : (j : ℕ) ≠ i := fun e => hj (Fin.ext e)
    simp [moveVec, this]
  · simp

theorem self_near {Y : List (ℕ → ℝ)} {ref : ℕ → ℝ} (L : Local N d ref Y) :
    ∀ p, |toVec N d Y p - toVec N d Y p| < L.ε := fun p => by simpa using L.pos

/-- The chain rule of first order. -/
theorem chain_first {f : (ℕ → ℝ) → ℕ → ℝ} {J : (ℕ → ℝ) → ℕ → ℕ → ℝ} {X : List (ℕ → ℝ)} {ref : ℕ → ℝ} {i v : ℕ}
    (h : GeneralPosition d (X.map f) ref) (hi : i < X.length)
    (hJ : ∀ k < d, HasDerivAt (fun t => f (Function.update (ptOf X i) v t) k) (J (ptOf X i) k v) (ptOf X i v)) :
    HasDerivAt (fun t => hvol d ((setCoord X i v t).map f) ref)
      (∑ k ∈ Finset.range d, partialHV d (X.map f) ref i k * J (ptOf X i) k v) (ptOf X i v) := by
  obtain ⟨L⟩ := exists_local (N := X.length) (by simp) h
  have hc := hasDerivAt_toVec (N := X.length) (d := d) rfl hi hJ
  have h0 : toVec X.length d ((setCoord X i v (ptOf X i v)).map f) = toVec X.length d (X.map f) := by
    rw [setCoord_self _ hi]
  have hG : HasFDerivAt L.G (fderiv ℝ L.G (toVec X.length d (X.map f)))
      (toVec X.length d ((setCoord X i v (ptOf X i v)).map f)) := by
    rw [h0]; exact L.hasFDerivAt _
  have hcomp := hG.comp_hasDerivAt _ hc
  have hval : (fderiv ℝ L.G (toVec X.length d (X.map f))) (moveVec X.length d J X i v) =
      ∑ k ∈ Finset.range d, partialHV d (X.map f) ref i k * J (ptOf X i) k v := by
    rw [clm_sum]
    have := sum_moveVec (fun p => L.dG p (toVec X.length d (X.map f))) J X ⟨i, hi⟩ v
    simp only [Local.dG] at this
    rw [this, Finset.sum_range]
    refine Finset.sum_congr rfl fun k _ => ?_
    rw [← L.partialHV_eq (by simp) (self_near L) ⟨i, hi⟩ k |>.symm]
    rfl
  rw [hval] at hcomp
  refine hcomp.congr_of_eventuallyEq ?_
  have hcont : Filter.Tendsto (fun t => toVec X.length d ((setCoord X i v t).map f)) (𝓝 (ptOf X i v))
      (𝓝 (toVec X.length d (X.map f))) := by
    have := hc.continuousAt
    unfold ContinuousAt at this
    simp only [h0] at this
    exact this
  filter_upwards [hcont.eventually (L.mem_nhds (self_near L))] with t ht
  rw [hvol_toVec (N := X.length) (by rw [List.length_map, length_setCoord]), L.eq _ ht]
  rfl

/-- The chain rule of second order. -/
theorem chain_second {f : (ℕ → ℝ) → ℕ → ℝ} {J : (ℕ → ℝ) → ℕ → ℕ → ℝ} {J2 : (ℕ → ℝ) → ℕ → ℕ → ℕ → ℝ}
    {X : List (ℕ → ℝ)} {ref : ℕ → ℝ} {i v j w : ℕ}
    (h : GeneralPosition d (X.map f) ref) (hi : i < X.length) (hj : j < X.length)
    (hJ : ∀ᶠ t in 𝓝 (ptOf X j w), ∀ k < d,
      HasDerivAt (fun s => f (Function.update (ptOf (setCoord X j w t) i) v s) k)
        (J (ptOf (setCoord X j w t) i) k v) (ptOf (setCoord X j w t) i v))
    (hJ0 : ∀ k < d, HasDerivAt (fun t => f (Function.update (ptOf X j) w t) k) (J (ptOf X j) k w) (ptOf X j w))
    (hJ2 : i = j → ∀ k < d, HasDerivAt (fun t => J (Function.update (ptOf X i) w t) k v) (J2 (ptOf X i) k v w)
      (ptOf X i w)) :
    HasDerivAt (fun t => deriv (fun s => hvol d ((setCoord (setCoord X j w t) i v s).map f) ref)
        (ptOf (setCoord X j w t) i v))
      (∑ k ∈ Finset.range d, ((∑ m ∈ Finset.range d,
        deriv (fun t => partialHV d (setCoord (X.map f) j m t) ref i k) (ptOf (X.map f) j m) * J (ptOf X j) m w) *
          J (ptOf X i) k v + partialHV d (X.map f) ref i k * (if i = j then J2 (ptOf X i) k v w else 0)))
      (ptOf X j w) := by
  obtain ⟨L⟩ := exists_local (N := X.length) (by simp) h
  have hc := hasDerivAt_toVec (N := X.length) (d := d) rfl hj hJ0
  have h0 : toVec X.length d ((setCoord X j w (ptOf X j w)).map f) = toVec X.length d (X.map f) := by
    rw [setCoord_self _ hj]
  have hcont : Filter.Tendsto (fun t => toVec X.length d ((setCoord X j w t).map f)) (𝓝 (ptOf X j w))
      (𝓝 (toVec X.length d (X.map f))) := by
    have := hc.continuousAt
    unfold ContinuousAt at this
    simp only [h0] at this
    exact this
  -- the first derivative near the point
  have hfirst : (fun t => deriv (fun s => hvol d ((setCoord (setCoord X j w t) i v s).map f) ref)
      (ptOf (setCoord X j w t) i v)) =ᶠ[𝓝 (ptOf X j w)] fun t =>
        ∑ k : Fin d, L.dG (⟨i, hi⟩, k) (toVec X.length d ((setCoord X j w t).map f)) *
          J (ptOf (setCoord X j w t) i) k v := by
    filter_upwards [hcont.eventually (L.mem_nhds (self_near L)), hJ] with t ht hJt
    have hgp : GeneralPosition d ((setCoord X j w t).map f) ref := by
      rw [← generalPosition_toVec (N := X.length) (by rw [List.length_map, length_setCoord])]
      exact L.gp _ ht
    rw [(chain_first hgp (by rwa [length_setCoord]) hJt).deriv, Finset.sum_range]
    refine Finset.sum_congr rfl fun k _ => ?_
    rw [← L.partialHV_eq (by rw [List.length_map, length_setCoord]) ht ⟨i, hi⟩ k]
  refine HasDerivAt.congr_of_eventuallyEq ?_ hfirst
  rw [Finset.sum_range]
  refine HasDerivAt.fun_sum fun k _ => ?_
  -- the second partial derivatives
  have hdG : HasFDerivAt (L.dG (⟨i, hi⟩, k)) (fderiv ℝ (L.dG (⟨i, hi⟩, k)) (toVec X.length d (X.map f)))
      (toVec X.length d (X.map f)) := ((L.dG_smooth _).differentiable (by norm_num) _).hasFDerivAt
  have hsec : ∀ m : Fin d, fderiv ℝ (L.dG (⟨i, hi⟩, k)) (toVec X.length d (X.map f)) (Pi.single (⟨j, hj⟩, m) 1) =
      deriv (fun t => partialHV d (setCoord (X.map f) j m t) ref i k) (ptOf (X.map f) j m) := by
    intro m
    symm
    apply HasDerivAt.deriv
    have h1 := _root_.hasDerivAt_update (toVec X.length d (X.map f)) (⟨j, hj⟩, m) (ptOf (X.map f) j m)
    have e : Function.update (toVec X.length d (X.map f)) (⟨j, hj⟩, m) (ptOf (X.map f) j m) =
      toVec X.length d (X.map f) := Function.update_eq_self _ _
    have h2 : HasFDerivAt (L.dG (⟨i, hi⟩, k)) (fderiv ℝ (L.dG (⟨i, hi⟩, k)) (toVec X.length d (X.map f)))
        (Function.update (toVec X.length d (X.map f)) (⟨j, hj⟩, m) (ptOf (X.map f) j m)) := by rw [e]; exact hdG
    refine (h2.comp_hasDerivAt _ h1).congr_of_eventuallyEq ?_
    have hc1 : Filter.Tendsto (fun t => Function.update (toVec X.length d (X.map f)) (⟨j, hj⟩, m) t)
        (𝓝 (ptOf (X.map f) j m)) (𝓝 (toVec X.length d (X.map f))) := by
      have := h1.continuousAt
      unfold ContinuousAt at this
      rwa [e] at this
    filter_upwards [hc1.eventually (L.mem_nhds (self_near L))] with t ht
    have hs := toVec_setCoord (N := X.length) (Y := X.map f) (by simp) ⟨j, hj⟩ m t
    rw [← hs] at ht
    have := L.partialHV_eq (by rw [length_setCoord, List.length_map]) ht ⟨i, hi⟩ k
    rw [hs] at this
    exact this
  have hdGc : HasDerivAt (fun t => L.dG (⟨i, hi⟩, k) (toVec X.length d ((setCoord X j w t).map f)))
      (∑ m ∈ Finset.range d, deriv (fun t => partialHV d (setCoord (X.map f) j m t) ref i k)
        (ptOf (X.map f) j m) * J (ptOf X j) m w) (ptOf X j w) := by
    have h2 : HasFDerivAt (L.dG (⟨i, hi⟩, k)) (fderiv ℝ (L.dG (⟨i, hi⟩, k)) (toVec X.length d (X.map f)))
        (toVec X.length d ((setCoord X j w (ptOf X j w)).map f)) := by rw [h0]; exact hdG
    have h3 := h2.comp_hasDerivAt _ hc
    rw [clm_sum, sum_moveVec _ J X ⟨j, hj⟩ w] at h3
    rw [Finset.sum_range]
    refine h3.congr_deriv ?_
    exact Finset.sum_congr rfl fun m _ => by rw [hsec m]
  have hJk : HasDerivAt (fun t => J (ptOf (setCoord X j w t) i) k v) (if i = j then J2 (ptOf X i) k v w else 0)
      (ptOf X j w) := by
    by_cases hij : i = j
    · rw [if_pos hij]
      have := hJ2 hij k k.2
      subst hij
      refine this.congr_of_eventuallyEq (Filter.Eventually.of_forall fun t => ?_)
      simp only
      rw [ptOf_setCoord hi, if_pos rfl]
    · rw [if_neg hij]
      refine (hasDerivAt_const _ (J (ptOf X i) k v)).congr_of_eventuallyEq (Filter.Eventually.of_forall fun t => ?_)
      simp only
      rw [ptOf_setCoord hi, if_neg (Ne.symm hij)]
  have := hdGc.mul hJk
  refine this.congr_deriv ?_
  simp only [setCoord_self X hj]
  rw [L.partialHV_eq (by simp) (self_near L) ⟨i, hi⟩ k]

end Verif.HVD
