import Verif.Props.SmoothHv
import Verif.Props.LocalConv

/-!
# The Lagrangian of a population

The function whose stationary points the iteration of `HVN` looks for, and its derivatives. For C77.
-/

namespace Verif.Props

open Verif.Opt Verif.HV Verif.HVD Verif.Util Topology

/-- The variables of point `i`. -/
def varsOf (a : Hvn ℝ) (X : List (List ℝ)) (i : ℕ) : List ℝ := (X.getD i []).take a.p.nVar

/-- The unknowns of the first-order conditions at the population `X`: all variables, and the multipliers of the active
constraints (point, coordinate). -/
noncomputable def unknowns (a : Hvn ℝ) (X : List (List ℝ)) : Finset (ℕ × ℕ) :=
  (Finset.range X.length ×ˢ Finset.range (a.p.nVar + a.p.nDual)).filter fun q =>
    q.2 < a.p.nVar ∨ IsActive a.p (varsOf a X q.1) (q.2 - a.p.nVar)

/-- The entries given by `z`, and zeros elsewhere. -/
noncomputable def fill (A : Finset (ℕ × ℕ)) (z : A → ℝ) (i c : ℕ) : ℝ := if h : (i, c) ∈ A then z ⟨(i, c), h⟩ else 0

/-- The hypervolume of the images of the points plus the constraints active at `X`, weighted by the multipliers. Row `i`
of `y` has the variables of point `i` first, then the multipliers. -/
noncomputable def lagrangian (a : Hvn ℝ) (X : List (List ℝ)) (y : ℕ → ℕ → ℝ) : ℝ :=
  hvX a.problem ((List.range X.length).map y) +
    ∑ i ∈ Finset.range X.length, ∑ k ∈ Finset.range a.p.nDual,
      if IsActive a.p (varsOf a X i) k then y i (a.p.nVar + k) * cVal a.p (a.coords (y i)) k else 0

/-- As a function of the unknowns. -/
noncomputable def lagr (a : Hvn ℝ) (X : List (List ℝ)) (z : unknowns a X → ℝ) : ℝ :=
  lagrangian a X (fill (unknowns a X) z)

section

variable {a : Hvn ℝ} {X : List (List ℝ)}

theorem mem_unknowns {i c : ℕ} : (i, c) ∈ unknowns a X ↔ (i < X.length ∧ c < a.p.nVar + a.p.nDual) ∧
    (c < a.p.nVar ∨ IsActive a.p (varsOf a X i) (c - a.p.nVar)) := by
  simp [unknowns]

theorem var_mem {i v : ℕ} (hi : i < X.length) (hv : v < a.p.nVar) : (i, v) ∈ unknowns a X :=
  mem_unknowns.mpr ⟨⟨hi, by omega⟩, Or.inl hv⟩

theorem dual_mem {i k : ℕ} (hi : i < X.length) (hk : k < a.p.nDual) (h : IsActive a.p (varsOf a X i) k) :
    (i, a.p.nVar + k) ∈ unknowns a X :=
  mem_unknowns.mpr ⟨⟨hi, by omega⟩, Or.inr (by rwa [Nat.add_sub_cancel_left])⟩

/-! ### Linear parts -/

noncomputable def fillL (A : Finset (ℕ × ℕ)) (i c : ℕ) : (A → ℝ) →L[ℝ] ℝ :=
  if h : (i, c) ∈ A then ContinuousLinearMap.proj ⟨(i, c), h⟩ else 0

theorem fillL_apply {A : Finset (ℕ × ℕ)} (i c : ℕ) (z : A → ℝ) : fillL A i c z = fill A z i c := by
  unfold fillL fill
  split <;> rfl

noncomputable def rowL (A : Finset (ℕ × ℕ)) (n i : ℕ) : (A → ℝ) →L[ℝ] (Fin n → ℝ) :=
  ContinuousLinearMap.pi fun v => fillL A i v

noncomputable def primL (A : Finset (ℕ × ℕ)) (N n : ℕ) : (A → ℝ) →L[ℝ] (Fin N × Fin n → ℝ) :=
  ContinuousLinearMap.pi fun q => fillL A q.1 q.2

theorem rowL_apply {A : Finset (ℕ × ℕ)} {n i : ℕ} (z : A → ℝ) (v : Fin n) : rowL A n i z v = fill A z i v :=
  fillL_apply _ _ _

theorem primL_apply {A : Finset (ℕ × ℕ)} {N n : ℕ} (z : A → ℝ) (q : Fin N × Fin n) :
    primL A N n z q = fill A z q.1 q.2 :=
  fillL_apply _ _ _

theorem rowU_primL {A : Finset (ℕ × ℕ)} {N n : ℕ} (z : A → ℝ) (i : Fin N) : rowU (primL A N n z) i = rowL A n i z := rfl

theorem fill_single {A : Finset (ℕ × ℕ)} (q : A) (i c : ℕ) : fill A (Pi.single q 1) i c = if (i, c) = q.1 then 1 else 0 := by
  unfold fill
  by_cases h : (i, c) = q.1
  · have hm : (i, c) ∈ A := h ▸ q.2
    rw [dif_pos hm, if_pos h, show (⟨(i, c), hm⟩ : A) = q from Subtype.ext h, Pi.single_eq_same]
  · rw [if_neg h]
    split
    · exact Pi.single_eq_of_ne (fun h' => h (congrArg Subtype.val h')) _
    · rfl

theorem coords_fill {A : Finset (ℕ × ℕ)} (z : A → ℝ) (i : ℕ) :
    a.coords (fill A z i) = List.ofFn (rowL A a.p.nVar i z) := by
  apply List.ext_getElem (by simp [Hvn.coords])
  intro v h1 h2
  simp [Hvn.coords, rowL_apply]

theorem hvX_fill {A : Finset (ℕ × ℕ)} (z : A → ℝ) (N : ℕ) :
    hvX a.problem ((List.range N).map (fill A z)) = hvPop (N := N) a (primL A N a.p.nVar z) := by
  unfold hvPop hvX
  congr 1
  apply List.ext_getElem (by simp [popOf])
  intro i h1 h2
  have hi : i < N := by simpa using h1
  rw [List.getElem_map, List.getElem_map, List.getElem_map, List.getElem_range]
  simp only [popOf, List.getElem_ofFn, Hvn.func_ofFn, rowU_primL]
  simp only [Hvn.problem, coords_fill]

theorem lagr_eq (z : unknowns a X → ℝ) : lagr a X z =
    hvPop (N := X.length) a (primL (unknowns a X) X.length a.p.nVar z) +
    ∑ i ∈ Finset.range X.length, ∑ k ∈ Finset.range a.p.nDual,
      if IsActive a.p (varsOf a X i) k then fillL (unknowns a X) i (a.p.nVar + k) z *
        cVal a.p (List.ofFn (rowL (unknowns a X) a.p.nVar i z)) k else 0 := by
  unfold lagr lagrangian
  rw [hvX_fill]
  congr 1
  refine Finset.sum_congr rfl fun i _ => Finset.sum_congr rfl fun k _ => ?_
  rw [coords_fill, fillL_apply]

/-! ### Derivatives -/

/-- What is needed for the first and second derivatives at `z`. -/
structure GoodAt (a : Hvn ℝ) (X : List (List ℝ)) (z : unknowns a X → ℝ) : Prop where
  hv : ContDiffAt ℝ 3 (hvPop (N := X.length) a) (primL (unknowns a X) X.length a.p.nVar z)
  cstr : ∀ i < X.length, ∀ k < a.p.nDual, Diff2 a.p.nVar (fun q => cVal a.p q k) (fun q v => cGrad a.p q k v)
    (fun q v w => cHess a.p q k v w) (rowL (unknowns a X) a.p.nVar i z)

theorem lagr_fderiv {z : unknowns a X → ℝ} (h : GoodAt a X z) (s : unknowns a X → ℝ) :
    fderiv ℝ (lagr a X) z s =
      fderiv ℝ (hvPop (N := X.length) a) (primL (unknowns a X) X.length a.p.nVar z)
        (primL (unknowns a X) X.length a.p.nVar s) +
      ∑ i ∈ Finset.range X.length, ∑ k ∈ Finset.range a.p.nDual, if IsActive a.p (varsOf a X i) k then
        fill (unknowns a X) z i (a.p.nVar + k) *
          fderiv ℝ (fun x : Fin a.p.nVar → ℝ => cVal a.p (List.ofFn x) k) (rowL (unknowns a X) a.p.nVar i z)
            (rowL (unknowns a X) a.p.nVar i s) +
        fill (unknowns a X) s i (a.p.nVar + k) * cVal a.p (List.ofFn (rowL (unknowns a X) a.p.nVar i z)) k else 0 := by
  have h1 : HasFDerivAt (fun z => hvPop (N := X.length) a (primL (unknowns a X) X.length a.p.nVar z)) _ z :=
    HasFDerivAt.comp (g := hvPop (N := X.length) a) z (h.hv.differentiableAt (by norm_num)).hasFDerivAt
      (primL (unknowns a X) X.length a.p.nVar).hasFDerivAt
  have h2 : ∀ i ∈ Finset.range X.length, ∀ k ∈ Finset.range a.p.nDual,
      HasFDerivAt (fun z => if IsActive a.p (varsOf a X i) k then fillL (unknowns a X) i (a.p.nVar + k) z *
        cVal a.p (List.ofFn (rowL (unknowns a X) a.p.nVar i z)) k else 0)
      (if IsActive a.p (varsOf a X i) k then
        fillL (unknowns a X) i (a.p.nVar + k) z • ((fderiv ℝ (fun x : Fin a.p.nVar → ℝ => cVal a.p (List.ofFn x) k)
          (rowL (unknowns a X) a.p.nVar i z)).comp (rowL (unknowns a X) a.p.nVar i)) +
        cVal a.p (List.ofFn (rowL (unknowns a X) a.p.nVar i z)) k • fillL (unknowns a X) i (a.p.nVar + k) else 0) z := by
    intro i hi k hk
    by_cases hact : IsActive a.p (varsOf a X i) k
    · simp only [if_pos hact]
      have hc : HasFDerivAt (fun z => cVal a.p (List.ofFn (rowL (unknowns a X) a.p.nVar i z)) k) _ z :=
        ((h.cstr i (Finset.mem_range.mp hi) k (Finset.mem_range.mp hk)).diff.hasFDerivAt).comp z
          (rowL (unknowns a X) a.p.nVar i).hasFDerivAt
      exact (fillL (unknowns a X) i (a.p.nVar + k)).hasFDerivAt.mul hc
    · simp only [if_neg hact]
      exact hasFDerivAt_const _ _
  have h3 := h1.fun_add (HasFDerivAt.fun_sum fun i hi => HasFDerivAt.fun_sum fun k hk => h2 i hi k hk)
  have h4 : lagr a X = _ := funext lagr_eq
  rw [h4]
  rw [HasFDerivAt.fderiv h3]
  simp only [ContinuousLinearMap.add_apply, ContinuousLinearMap.sum_apply, ContinuousLinearMap.comp_apply]
  congr 1
  refine Finset.sum_congr rfl fun i _ => Finset.sum_congr rfl fun k _ => ?_
  split
  · simp only [ContinuousLinearMap.add_apply, ContinuousLinearMap.smul_apply, ContinuousLinearMap.comp_apply,
      smul_eq_mul, fillL_apply]
    ring
  · rfl

/-- The gradient of the Lagrangian. -/
noncomputable def lagrF (a : Hvn ℝ) (X : List (List ℝ)) (z : unknowns a X → ℝ) : unknowns a X → ℝ :=
  fun q => fderiv ℝ (lagr a X) z (Pi.single q 1)

theorem primL_single_var {N n : ℕ} {A : Finset (ℕ × ℕ)} {i : Fin N} {v : Fin n} (h : ((i : ℕ), (v : ℕ)) ∈ A) :
    primL A N n (Pi.single ⟨(i, v), h⟩ 1) = Pi.single (i, v) 1 := by
  funext q
  rw [primL_apply, fill_single]
  by_cases hq : q = (i, v)
  · subst hq; simp
  · rw [Pi.single_eq_of_ne hq, if_neg]
    intro h'
    exact hq (Prod.ext (Fin.ext (congrArg Prod.fst h')) (Fin.ext (congrArg Prod.snd h')))

theorem lagrF_var {z : unknowns a X → ℝ} (h : GoodAt a X z) {i : Fin X.length} {v : Fin a.p.nVar}
    (hm : ((i : ℕ), (v : ℕ)) ∈ unknowns a X) : lagrF a X z ⟨(i, v), hm⟩ =
      fderiv ℝ (hvPop (N := X.length) a) (primL (unknowns a X) X.length a.p.nVar z) (Pi.single (i, v) 1) +
      ∑ k ∈ Finset.range a.p.nDual, if IsActive a.p (varsOf a X i) k then fill (unknowns a X) z i (a.p.nVar + k) *
        cGrad a.p (List.ofFn (rowL (unknowns a X) a.p.nVar i z)) k v else 0 := by
  rw [lagrF, lagr_fderiv h, primL_single_var]
  congr 1
  rw [Finset.sum_eq_single_of_mem (i : ℕ) (Finset.mem_range.mpr i.2)]
  · refine Finset.sum_congr rfl fun k hk => ?_
    refine if_congr Iff.rfl ?_ rfl
    rw [fill_single, if_neg (by intro h'; have := congrArg Prod.snd h'; have := v.2; simp at *; omega), zero_mul, add_zero]
    have e : rowL (unknowns a X) a.p.nVar i (Pi.single ⟨((i : ℕ), (v : ℕ)), hm⟩ 1) = Pi.single v 1 := by
      funext w
      rw [rowL_apply, fill_single]
      by_cases hw : w = v
      · subst hw; simp
      · rw [Pi.single_eq_of_ne hw, if_neg]
        intro h'
        exact hw (Fin.ext (congrArg Prod.snd h'))
    rw [e, ← (h.cstr i i.2 k (Finset.mem_range.mp hk)).grad v]
  · intro j _ hj
    refine Finset.sum_eq_zero fun k _ => ?_
    rw [fill_single, if_neg (c := (_, _) = _) (by intro h'; exact hj (congrArg Prod.fst h')), zero_mul, add_zero]
    have e : rowL (unknowns a X) a.p.nVar j (Pi.single ⟨((i : ℕ), (v : ℕ)), hm⟩ 1) = 0 := by
      funext w
      rw [rowL_apply, fill_single, if_neg (by intro h'; exact hj (congrArg Prod.fst h'))]
      rfl
    rw [e, map_zero, mul_zero, ite_self]

theorem lagrF_dual {z : unknowns a X → ℝ} (h : GoodAt a X z) {i k : ℕ} (hi : i < X.length) (hk : k < a.p.nDual)
    (hact : IsActive a.p (varsOf a X i) k) (hm : (i, a.p.nVar + k) ∈ unknowns a X) :
    lagrF a X z ⟨(i, a.p.nVar + k), hm⟩ = cVal a.p (List.ofFn (rowL (unknowns a X) a.p.nVar i z)) k := by
  have e0 : ∀ j, rowL (unknowns a X) a.p.nVar j (Pi.single ⟨(i, a.p.nVar + k), hm⟩ 1) = 0 := by
    intro j
    funext w
    rw [rowL_apply, fill_single, if_neg]
    · rfl
    · intro h'
      have := congrArg Prod.snd h'
      have := w.2
      simp at *
      omega
  have e1 : primL (unknowns a X) X.length a.p.nVar (Pi.single ⟨(i, a.p.nVar + k), hm⟩ 1) = 0 := by
    funext q
    exact congrFun (e0 q.1) q.2
  rw [lagrF, lagr_fderiv h, e1, map_zero, zero_add]
  simp only [e0, map_zero, mul_zero, zero_add, fill_single]
  rw [Finset.sum_eq_single_of_mem i (Finset.mem_range.mpr hi),
    Finset.sum_eq_single_of_mem k (Finset.mem_range.mpr hk)]
  · rw [if_pos hact, if_pos rfl, one_mul]
  · intro l _ hl
    rw [if_neg (c := (_, _) = _) (fun h' => hl (by have := congrArg Prod.snd h'; simpa using this)), zero_mul, ite_self]
  · intro j _ hj
    refine Finset.sum_eq_zero fun l _ => ?_
    rw [if_neg (c := (_, _) = _) (fun h' => hj (congrArg Prod.fst h')), zero_mul, ite_self]

theorem clm_sum {ι : Type*} [Fintype ι] [DecidableEq ι] (f : (ι → ℝ) →L[ℝ] ℝ) (s : ι → ℝ) :
    f s = ∑ q, f (Pi.single q 1) * s q := by
  conv_lhs => rw [pi_eq_sum_univ' s]
  rw [map_sum]
  refine Finset.sum_congr rfl fun q _ => ?_
  rw [map_smul, smul_eq_mul, mul_comm]

theorem lagrF_var_fderiv {z : unknowns a X → ℝ} (h : ∀ᶠ z in 𝓝 z, GoodAt a X z) {i : Fin X.length} {v : Fin a.p.nVar}
    (hm : ((i : ℕ), (v : ℕ)) ∈ unknowns a X) (s : unknowns a X → ℝ) :
    fderiv ℝ (fun z => lagrF a X z ⟨(i, v), hm⟩) z s =
      ∑ q : Fin X.length × Fin a.p.nVar, fderiv ℝ (fun u => fderiv ℝ (hvPop (N := X.length) a) u (Pi.single (i, v) 1))
        (primL (unknowns a X) X.length a.p.nVar z) (Pi.single q 1) * fill (unknowns a X) s q.1 q.2 +
      ∑ k ∈ Finset.range a.p.nDual, if IsActive a.p (varsOf a X i) k then fill (unknowns a X) z i (a.p.nVar + k) *
          (∑ w : Fin a.p.nVar, cHess a.p (List.ofFn (rowL (unknowns a X) a.p.nVar i z)) k v w * fill (unknowns a X) s i w) +
        cGrad a.p (List.ofFn (rowL (unknowns a X) a.p.nVar i z)) k v * fill (unknowns a X) s i (a.p.nVar + k) else 0 := by
  have h0 := h.self_of_nhds
  have hd1 : DifferentiableAt ℝ (fun u => fderiv ℝ (hvPop (N := X.length) a) u (Pi.single (i, v) 1))
      (primL (unknowns a X) X.length a.p.nVar z) :=
    ((h0.hv.fderiv_right (m := 2) (by norm_num)).clm_apply contDiffAt_const).differentiableAt (by norm_num)
  have h1 : HasFDerivAt (fun z => fderiv ℝ (hvPop (N := X.length) a) (primL (unknowns a X) X.length a.p.nVar z) (Pi.single (i, v) 1)) _ z :=
    HasFDerivAt.comp (g := fun u => fderiv ℝ (hvPop (N := X.length) a) u (Pi.single (i, v) 1)) z hd1.hasFDerivAt
      (primL (unknowns a X) X.length a.p.nVar).hasFDerivAt
  have h2 : ∀ k ∈ Finset.range a.p.nDual,
      HasFDerivAt (fun z => if IsActive a.p (varsOf a X i) k then fillL (unknowns a X) i (a.p.nVar + k) z *
        cGrad a.p (List.ofFn (rowL (unknowns a X) a.p.nVar i z)) k v else 0)
      (if IsActive a.p (varsOf a X i) k then
        fillL (unknowns a X) i (a.p.nVar + k) z • ((fderiv ℝ (fun x : Fin a.p.nVar → ℝ => cGrad a.p (List.ofFn x) k v)
          (rowL (unknowns a X) a.p.nVar i z)).comp (rowL (unknowns a X) a.p.nVar i)) +
        cGrad a.p (List.ofFn (rowL (unknowns a X) a.p.nVar i z)) k v • fillL (unknowns a X) i (a.p.nVar + k) else 0) z := by
    intro k hk
    by_cases hact : IsActive a.p (varsOf a X i) k
    · simp only [if_pos hact]
      have hc : HasFDerivAt (fun z => cGrad a.p (List.ofFn (rowL (unknowns a X) a.p.nVar i z)) k v) _ z :=
        (((h0.cstr i i.2 k (Finset.mem_range.mp hk)).diff2 v).hasFDerivAt).comp z (rowL (unknowns a X) a.p.nVar i).hasFDerivAt
      exact (fillL (unknowns a X) i (a.p.nVar + k)).hasFDerivAt.mul hc
    · simp only [if_neg hact]
      exact hasFDerivAt_const _ _
  have h3 := h1.fun_add (HasFDerivAt.fun_sum h2)
  have h4 : HasFDerivAt (fun z => lagrF a X z ⟨(i, v), hm⟩) _ z := h3.congr_of_eventuallyEq (by
    filter_upwards [h] with z' hz'
    rw [lagrF_var hz']
    simp only [fillL_apply])
  rw [h4.fderiv]
  simp only [ContinuousLinearMap.add_apply, ContinuousLinearMap.sum_apply, ContinuousLinearMap.comp_apply]
  congr 1
  · rw [clm_sum]
    exact Finset.sum_congr rfl fun q _ => by rw [primL_apply]
  · refine Finset.sum_congr rfl fun k hk => ?_
    split
    · simp only [ContinuousLinearMap.add_apply, ContinuousLinearMap.smul_apply, ContinuousLinearMap.comp_apply,
        smul_eq_mul, fillL_apply]
      congr 1
      congr 1
      rw [clm_sum]
      exact Finset.sum_congr rfl fun w _ => by
        rw [rowL_apply, ← (h0.cstr i i.2 k (Finset.mem_range.mp hk)).hess v w]
    · rfl

theorem lagrF_dual_fderiv {z : unknowns a X → ℝ} (h : ∀ᶠ z in 𝓝 z, GoodAt a X z) {i k : ℕ} (hi : i < X.length)
    (hk : k < a.p.nDual) (hact : IsActive a.p (varsOf a X i) k) (hm : (i, a.p.nVar + k) ∈ unknowns a X)
    (s : unknowns a X → ℝ) : fderiv ℝ (fun z => lagrF a X z ⟨(i, a.p.nVar + k), hm⟩) z s =
      ∑ w : Fin a.p.nVar, cGrad a.p (List.ofFn (rowL (unknowns a X) a.p.nVar i z)) k w * fill (unknowns a X) s i w := by
  have h0 := (h.self_of_nhds).cstr i hi k hk
  have hc : HasFDerivAt (fun z => cVal a.p (List.ofFn (rowL (unknowns a X) a.p.nVar i z)) k) _ z :=
    h0.diff.hasFDerivAt.comp z (rowL (unknowns a X) a.p.nVar i).hasFDerivAt
  have h4 : HasFDerivAt (fun z => lagrF a X z ⟨(i, a.p.nVar + k), hm⟩) _ z := hc.congr_of_eventuallyEq (by
    filter_upwards [h] with z' hz'
    exact lagrF_dual hz' hi hk hact hm)
  rw [h4.fderiv, ContinuousLinearMap.comp_apply, clm_sum]
  exact Finset.sum_congr rfl fun w _ => by rw [rowL_apply, ← h0.grad w]

end

end Verif.Props
