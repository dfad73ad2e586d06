import Verif.HVD.Inclusion
import Verif.Props.HVN
import Mathlib.Analysis.Calculus.ContDiff.Comp
import Mathlib.Analysis.Calculus.Deriv.Pi

/-!
# The hypervolume as a smooth function of the decision points

Lemmas for C77: near images in general position the hypervolume of the images is three times continuously
differentiable, and the partial derivatives in C69 are its derivatives.
-/

namespace Verif.Props

open Verif.Opt Verif.HV Verif.HVD Verif.Util Topology

/-- The first `n` entries of a list as a vector. -/
def vec (n : ℕ) (q : List ℝ) : Fin n → ℝ := fun v => q.getD v 0

/-- `f` is three times continuously differentiable at `q` as a function of `n` variables, and near `q` the functions `g`
and `h` are its first and second derivatives. -/
structure Smooth3 (n : ℕ) (f : List ℝ → ℝ) (g : List ℝ → ℕ → ℝ) (h : List ℝ → ℕ → ℕ → ℝ) (q : List ℝ) : Prop where
  smooth : ContDiffAt ℝ 3 (fun x : Fin n → ℝ => f (List.ofFn x)) (vec n q)
  grad : ∀ᶠ x in 𝓝 (vec n q), ∀ v : Fin n,
    g (List.ofFn x) v = fderiv ℝ (fun x : Fin n → ℝ => f (List.ofFn x)) x (Pi.single v 1)
  hess : ∀ᶠ x in 𝓝 (vec n q), ∀ v w : Fin n,
    h (List.ofFn x) v w = fderiv ℝ (fun x : Fin n → ℝ => g (List.ofFn x) v) x (Pi.single w 1)

theorem Smooth3.congr {n : ℕ} {f : List ℝ → ℝ} {g : List ℝ → ℕ → ℝ} {h : List ℝ → ℕ → ℕ → ℝ} {q q' : List ℝ}
    (hs : Smooth3 n f g h q) (hq : vec n q = vec n q') : Smooth3 n f g h q' := by
  constructor
  · rw [← hq]; exact hs.smooth
  · rw [← hq]; exact hs.grad
  · rw [← hq]; exact hs.hess

theorem Smooth3.grad_smooth {n : ℕ} {f : List ℝ → ℝ} {g : List ℝ → ℕ → ℝ} {h : List ℝ → ℕ → ℕ → ℝ} {q : List ℝ}
    (hs : Smooth3 n f g h q) (v : Fin n) : ContDiffAt ℝ 2 (fun x : Fin n → ℝ => g (List.ofFn x) v) (vec n q) := by
  have h1 : ContDiffAt ℝ 2 (fun x => fderiv ℝ (fun x : Fin n → ℝ => f (List.ofFn x)) x (Pi.single v 1)) (vec n q) :=
    (hs.smooth.fderiv_right (m := 2) (by norm_num)).clm_apply contDiffAt_const
  exact h1.congr_of_eventuallyEq (hs.grad.mono fun x hx => hx v)

/-- What holds at all points near `q`. -/
structure Diff2 (n : ℕ) (f : List ℝ → ℝ) (g : List ℝ → ℕ → ℝ) (h : List ℝ → ℕ → ℕ → ℝ) (x : Fin n → ℝ) : Prop where
  diff : DifferentiableAt ℝ (fun x : Fin n → ℝ => f (List.ofFn x)) x
  grad : ∀ v : Fin n, g (List.ofFn x) v = fderiv ℝ (fun x : Fin n → ℝ => f (List.ofFn x)) x (Pi.single v 1)
  diff2 : ∀ v : Fin n, DifferentiableAt ℝ (fun x : Fin n → ℝ => g (List.ofFn x) v) x
  hess : ∀ v w : Fin n,
    h (List.ofFn x) v w = fderiv ℝ (fun x : Fin n → ℝ => g (List.ofFn x) v) x (Pi.single w 1)

theorem Smooth3.eventually {n : ℕ} {f : List ℝ → ℝ} {g : List ℝ → ℕ → ℝ} {h : List ℝ → ℕ → ℕ → ℝ} {q : List ℝ}
    (hs : Smooth3 n f g h q) : ∀ᶠ x in 𝓝 (vec n q), Diff2 n f g h x := by
  have h1 : ∀ᶠ x in 𝓝 (vec n q), DifferentiableAt ℝ (fun x : Fin n → ℝ => f (List.ofFn x)) x :=
    (hs.smooth.eventually (by simp)).mono fun x hx => hx.differentiableAt (by norm_num)
  have h2 : ∀ᶠ x in 𝓝 (vec n q), ∀ v : Fin n, DifferentiableAt ℝ (fun x : Fin n → ℝ => g (List.ofFn x) v) x :=
    Filter.eventually_all.mpr fun v =>
      ((hs.grad_smooth v).eventually (by simp)).mono fun x hx => hx.differentiableAt (by norm_num)
  filter_upwards [h1, h2, hs.grad, hs.hess] with x a b c d
  exact ⟨a, c, b, d⟩

theorem hasDerivAt_coord {ι : Type*} [Fintype ι] [DecidableEq ι] {f : (ι → ℝ) → ℝ} {u : ι → ℝ}
    (h : DifferentiableAt ℝ f u) (q : ι) :
    HasDerivAt (fun t => f (Function.update u q t)) (fderiv ℝ f u (Pi.single q 1)) (u q) := by
  have h1 : HasFDerivAt f (fderiv ℝ f u) (Function.update u q (u q)) := by
    rw [Function.update_eq_self]; exact h.hasFDerivAt
  exact h1.comp_hasDerivAt (u q) (hasDerivAt_update u q (u q))

theorem eventually_update {ι : Type*} [DecidableEq ι] {p : (ι → ℝ) → Prop} {u : ι → ℝ} (h : ∀ᶠ x in 𝓝 u, p x) (q : ι) :
    ∀ᶠ t in 𝓝 (u q), p (Function.update u q t) := by
  have hc : Filter.Tendsto (fun t => Function.update u q t) (𝓝 (u q)) (𝓝 u) := by
    have h1 : Continuous fun t => Function.update u q t := continuous_const.update _ continuous_id
    have h2 := h1.tendsto (u q)
    rwa [Function.update_eq_self] at h2
  exact hc.eventually h

/-! ### Populations as vectors -/

section Pop

variable {N n : ℕ}

/-- Point `i` of a population. -/
def rowU (u : Fin N × Fin n → ℝ) (i : Fin N) : Fin n → ℝ := fun v => u (i, v)

/-- A population of `N` points with `n` variables. -/
def popOf (u : Fin N × Fin n → ℝ) : List (ℕ → ℝ) := List.ofFn fun i => pt (List.ofFn (rowU u i))

theorem popOf_length (u : Fin N × Fin n → ℝ) : (popOf u).length = N := by simp [popOf]

theorem ptOf_popOf (u : Fin N × Fin n → ℝ) (i : Fin N) : ptOf (popOf u) i = pt (List.ofFn (rowU u i)) := by
  rw [ptOf_eq (by rw [popOf_length]; exact i.2)]
  simp [popOf]

theorem pt_ofFn (x : Fin n → ℝ) (v : Fin n) : pt (List.ofFn x) v = x v := by
  simp [pt, List.getD_eq_getElem?_getD]

theorem pt_update (x : Fin n → ℝ) (v : Fin n) (t : ℝ) :
    Function.update (pt (List.ofFn x)) v t = pt (List.ofFn (Function.update x v t)) := by
  funext w
  by_cases hw : w < n
  · have : w = ((⟨w, hw⟩ : Fin n) : ℕ) := rfl
    rw [this, pt_ofFn]
    by_cases hv : (⟨w, hw⟩ : Fin n) = v
    · rw [hv, Function.update_self, Function.update_self]
    · rw [Function.update_of_ne hv, Function.update_of_ne (by simpa [Fin.ext_iff] using hv), pt_ofFn]
  · rw [Function.update_of_ne (by have := v.2; omega)]
    simp [pt, List.getD_eq_getElem?_getD, hw]

theorem rowU_update (u : Fin N × Fin n → ℝ) (i j : Fin N) (v : Fin n) (t : ℝ) :
    rowU (Function.update u (i, v) t) j = if i = j then Function.update (rowU u j) v t else rowU u j := by
  funext w
  unfold rowU
  by_cases h : i = j
  · subst h
    rw [if_pos rfl]
    by_cases hw : w = v
    · subst hw; simp
    · rw [Function.update_of_ne (by simpa using hw), Function.update_of_ne hw]
  · rw [if_neg h, Function.update_of_ne]
    intro h'
    exact h (congrArg Prod.fst h').symm

theorem setCoord_popOf (u : Fin N × Fin n → ℝ) (i : Fin N) (v : Fin n) (t : ℝ) :
    setCoord (popOf u) i v t = popOf (Function.update u (i, v) t) := by
  apply List.ext_getElem (by rw [length_setCoord, popOf_length, popOf_length])
  intro j h1 h2
  have hj : j < N := by rwa [popOf_length] at h2
  rw [← ptOf_eq h1, ← ptOf_eq h2, ptOf_setCoord (by rw [popOf_length]; exact hj)]
  have e := ptOf_popOf u ⟨j, hj⟩
  have e' := ptOf_popOf (Function.update u (i, v) t) ⟨j, hj⟩
  rw [show ptOf (popOf u) j = _ from e, show ptOf (popOf (Function.update u (i, v) t)) j = _ from e', rowU_update]
  by_cases h : (i : ℕ) = j
  · rw [if_pos h, if_pos (Fin.ext h), pt_update]
  · rw [if_neg h, if_neg (fun h' => h (congrArg Fin.val h'))]

end Pop

/-! ### Smoothness -/

section Hv

variable {a : Hvn ℝ} {N N0 : ℕ}

theorem Hvn.func_ofFn (x : Fin a.p.nVar → ℝ) : a.problem.func (pt (List.ofFn x)) = pt (a.p.func.point (List.ofFn x)) := by
  simp only [Hvn.problem]
  rw [Hvn.coords_pt (by simp)]

theorem Hvn.jac_ofFn (x : Fin a.p.nVar → ℝ) (k v : ℕ) :
    a.problem.jac (pt (List.ofFn x)) k v = pt (a.p.jac.point (List.ofFn x)) (k * a.p.nVar + v) := by
  simp only [Hvn.problem]
  rw [Hvn.coords_pt (by simp)]

theorem Hvn.hess_ofFn (x : Fin a.p.nVar → ℝ) (k v w : ℕ) :
    a.problem.hess (pt (List.ofFn x)) k v w = pt (a.hess (List.ofFn x)) ((k * a.p.nVar + v) * a.p.nVar + w) := by
  simp only [Hvn.problem]
  rw [Hvn.coords_pt (by simp)]

/-- Objective `k` and its derivatives, as given by the callbacks. -/
structure SmoothObjectives (a : Hvn ℝ) (q : List ℝ) : Prop where
  obj : ∀ k < a.nObj, Smooth3 a.p.nVar (fun q => pt (a.p.func.point q) k)
    (fun q v => pt (a.p.jac.point q) (k * a.p.nVar + v))
    (fun q v w => pt (a.hess q) ((k * a.p.nVar + v) * a.p.nVar + w)) q

/-- The hypervolume of the images of a population. -/
noncomputable def hvPop (a : Hvn ℝ) (u : Fin N × Fin a.p.nVar → ℝ) : ℝ := hvX a.problem (popOf u)

theorem map_func_popOf (u : Fin N × Fin a.p.nVar → ℝ) : (popOf u).map a.problem.func =
    (List.range N).map fun i k => if h : i < N then pt (a.p.func.point (List.ofFn (rowU u ⟨i, h⟩))) k else 0 := by
  apply List.ext_getElem (by simp [popOf])
  intro i h1 h2
  have hi : i < N := by simpa using h2
  funext k
  rw [List.getElem_map, List.getElem_map, List.getElem_range, dif_pos hi]
  simp only [popOf, List.getElem_ofFn, Hvn.func_ofFn]

theorem hvPop_contDiffAt {u : Fin N × Fin a.p.nVar → ℝ}
    (hs : ∀ i, ∀ k < a.nObj, ContDiffAt ℝ 3 (fun x : Fin a.p.nVar → ℝ => pt (a.p.func.point (List.ofFn x)) k) (rowU u i))
    (hg : GeneralPosition a.nObj ((popOf u).map a.problem.func) (pt a.ref)) : ContDiffAt ℝ 3 (hvPop (N := N) a) u := by
  have h0 : hvPop (N := N) a = fun u => Spec.hvol a.nObj ((List.range N).map fun i k =>
      if h : i < N then pt (a.p.func.point (List.ofFn (rowU u ⟨i, h⟩))) k else 0) (pt a.ref) := by
    funext u
    rw [hvPop, hvX, map_func_popOf]
    rfl
  rw [map_func_popOf] at hg
  rw [h0]
  refine hvol_contDiffAt (y := fun i k u => if h : i < N then pt (a.p.func.point (List.ofFn (rowU u ⟨i, h⟩))) k else 0)
    (fun i hi k hk => ?_) hg
  simp only [hi, dif_pos]
  refine ContDiffAt.comp (g := fun x : Fin a.p.nVar → ℝ => pt (a.p.func.point (List.ofFn x)) k)
    (f := fun u : Fin N × Fin a.p.nVar → ℝ => rowU u ⟨i, hi⟩) u (hs ⟨i, hi⟩ k hk) ?_
  exact contDiffAt_pi.mpr fun v => contDiffAt_apply (n := 3) ℝ ℝ ((⟨i, hi⟩ : Fin N), v) u

theorem hasDerivs_popOf {u : Fin N × Fin a.p.nVar → ℝ}
    (hs : ∀ i, ∀ᶠ x in 𝓝 (rowU u i), ∀ k < a.nObj, Diff2 a.p.nVar (fun q => pt (a.p.func.point q) k)
      (fun q v => pt (a.p.jac.point q) (k * a.p.nVar + v))
      (fun q v w => pt (a.hess q) ((k * a.p.nVar + v) * a.p.nVar + w)) x)
    (hsym : ∀ q, ∀ k < a.nObj, ∀ v < a.p.nVar, ∀ w < a.p.nVar,
      pt (a.hess q) ((k * a.p.nVar + v) * a.p.nVar + w) = pt (a.hess q) ((k * a.p.nVar + w) * a.p.nVar + v)) :
    HasDerivs a.problem (popOf u) where
  jac := by
    intro i hi w hw
    rw [popOf_length] at hi
    have hw : w < a.p.nVar := hw
    have e := ptOf_popOf u ⟨i, hi⟩
    rw [show ptOf (popOf u) i = _ from e, show pt (List.ofFn (rowU u ⟨i, hi⟩)) w = rowU u ⟨i, hi⟩ ⟨w, hw⟩ from
      pt_ofFn _ ⟨w, hw⟩]
    set x := rowU u ⟨i, hi⟩ with hx
    have hev := eventually_update (hs ⟨i, hi⟩) ⟨w, hw⟩
    refine hev.mono fun t ht k hk v hv => ?_
    have hv : v < a.p.nVar := hv
    have hk : k < a.nObj := hk
    rw [show Function.update (pt (List.ofFn x)) w t = _ from pt_update x ⟨w, hw⟩ t, Hvn.jac_ofFn,
      show pt (List.ofFn (Function.update x ⟨w, hw⟩ t)) v = _ from pt_ofFn _ ⟨v, hv⟩]
    have h1 := hasDerivAt_coord (ht k hk).diff ⟨v, hv⟩
    rw [← (ht k hk).grad ⟨v, hv⟩] at h1
    refine h1.congr_of_eventuallyEq (Filter.Eventually.of_forall fun s => ?_)
    dsimp only
    rw [show Function.update (pt (List.ofFn (Function.update x ⟨w, hw⟩ t))) v s = _ from pt_update _ ⟨v, hv⟩ s,
      Hvn.func_ofFn]
  hess := by
    intro i hi k hk v hv w hw
    rw [popOf_length] at hi
    have hv : v < a.p.nVar := hv
    have hw : w < a.p.nVar := hw
    have hk : k < a.nObj := hk
    have e := ptOf_popOf u ⟨i, hi⟩
    rw [show ptOf (popOf u) i = _ from e, show pt (List.ofFn (rowU u ⟨i, hi⟩)) w = rowU u ⟨i, hi⟩ ⟨w, hw⟩ from
      pt_ofFn _ ⟨w, hw⟩, Hvn.hess_ofFn]
    have ht := (hs ⟨i, hi⟩).self_of_nhds k hk
    have h1 := hasDerivAt_coord (ht.diff2 ⟨v, hv⟩) ⟨w, hw⟩
    rw [← ht.hess ⟨v, hv⟩ ⟨w, hw⟩] at h1
    refine h1.congr_of_eventuallyEq (Filter.Eventually.of_forall fun s => ?_)
    dsimp only
    rw [show Function.update (pt (List.ofFn (rowU u ⟨i, hi⟩))) w s = _ from pt_update _ ⟨w, hw⟩ s, Hvn.jac_ofFn]
  symm := by
    intro x k hk v hv w hw
    exact hsym _ k hk v hv w hw

/-- The partial derivatives are entries of the derivative. -/
theorem grad_eq {u : Fin N × Fin a.p.nVar → ℝ} (hd : DifferentiableAt ℝ (hvPop (N := N) a) u) {i : Fin N}
    {v : Fin a.p.nVar} {G : ℝ}
    (h : HasDerivAt (fun t => hvX a.problem (setCoord (popOf u) i v t)) G (ptOf (popOf u) i v)) :
    G = fderiv ℝ (hvPop (N := N) a) u (Pi.single (i, v) 1) := by
  rw [ptOf_popOf, pt_ofFn] at h
  have h1 := hasDerivAt_coord hd (i, v)
  refine HasDerivAt.unique (h.congr_of_eventuallyEq (Filter.Eventually.of_forall fun t => ?_)) h1
  dsimp only
  rw [setCoord_popOf]
  rfl

theorem hess_eq {u : Fin N × Fin a.p.nVar → ℝ} (hd : ContDiffAt ℝ 3 (hvPop (N := N) a) u) {i j : Fin N}
    {v w : Fin a.p.nVar} {H : ℝ}
    (h : HasDerivAt (fun t => deriv (fun s => hvX a.problem (setCoord (setCoord (popOf u) j w t) i v s))
      (ptOf (setCoord (popOf u) j w t) i v)) H (ptOf (popOf u) j w)) :
    H = fderiv ℝ (fun u => fderiv ℝ (hvPop (N := N) a) u (Pi.single (i, v) 1)) u (Pi.single (j, w) 1) := by
  have hd1 : DifferentiableAt ℝ (fun u => fderiv ℝ (hvPop (N := N) a) u (Pi.single (i, v) 1)) u :=
    ((hd.fderiv_right (m := 2) (by norm_num)).clm_apply contDiffAt_const).differentiableAt (by norm_num)
  have h1 := hasDerivAt_coord hd1 (j, w)
  rw [ptOf_popOf, pt_ofFn] at h
  refine HasDerivAt.unique (h.congr_of_eventuallyEq ?_) h1
  have hev : ∀ᶠ u' in 𝓝 u, DifferentiableAt ℝ (hvPop (N := N) a) u' :=
    (hd.eventually (by simp)).mono fun x hx => hx.differentiableAt (by norm_num)
  have hev' := eventually_update hev (j, w)
  refine hev'.mono fun t ht => ?_
  dsimp only
  rw [setCoord_popOf, ptOf_popOf, pt_ofFn]
  refine ((hasDerivAt_coord ht (i, v)).congr_of_eventuallyEq (Filter.Eventually.of_forall fun s => ?_)).deriv.symm
  dsimp only
  rw [setCoord_popOf]
  rfl

end Hv

end Verif.Props
