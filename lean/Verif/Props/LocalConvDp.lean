import Verif.Props.KktMap
import Verif.Props.LocalConv
import Verif.Opt.PrecondKeep

/-!
# C85: local convergence of `DpN`

Near a population of nondegenerate solutions of the first-order conditions, for targets that are not attained, the targets
stay where they are, the line search accepts the full Newton steps, and each point converges quadratically.
-/

namespace Verif.Props

open Verif.Opt Verif.HV Verif.Util Verif.Ind Topology Metric

/-! ## Specification -/

/-- Variables and multipliers of active constraints differ by at most `ε` from those of `x0`. -/
def Within (a : Dpn ℝ) (x0 x : List ℝ) (ε : ℝ) : Prop :=
  (∀ v < a.p.nVar, |pt x v - pt x0 v| ≤ ε) ∧
    ∀ k < a.p.nDual, IsActive a.p (x0.take a.p.nVar) k → |pt x (a.p.nVar + k) - pt x0 (a.p.nVar + k)| ≤ ε

/-- `X` are nondegenerate solutions for the targets `T`, which are the only targets that the indicator can choose among
`M`; no point of `M` is attained. -/
structure RegularPop (a : Dpn ℝ) (useGd : Bool) (X : List (List ℝ)) (M T : List (ℕ → ℝ)) : Prop where
  point : ∀ i < X.length, RegularPoint a useGd X.length (X.getD i []) (T.getD i 0)
  targets : ∀ T', Targets a.env.dist useGd (images a X) M T' ↔ T' = T
  unattained : ∀ i < X.length, ∀ r ∈ M, 1 / 10 ^ 8 < a.env.dist ((images a X).getD i 0) r

/-- Preconditioning is off, or `precondition_hessian` works on Hessians that are positive definite at the solutions. -/
def PrecondHarmless (a : Dpn ℝ) (useGd : Bool) (X : List (List ℝ)) (T : List (ℕ → ℝ)) : Prop :=
  (∀ A, a.precond A = A) ∨ ∃ chol : Chol, (∀ n, IsCholesky (chol n)) ∧ (∀ A, a.precond A = precondTable chol A) ∧
    ∀ i < X.length, PosForm a.p.nVar (dpHess a useGd X.length ((X.getD i []).take a.p.nVar) (T.getD i 0))

/-- The indicator at work is GD (`useGd`) or IGD: by the choice of `type`, or, for `type="deltap"`, since one of the values
that the code compares is larger for `X`. These are the root of the mean of the squared distances to the nearest targets,
and the mean of the squared distances to the matched targets (C70). -/
def IndicatorFixed (a : Dpn ℝ) (useGd : Bool) (X : List (List ℝ)) (M : List (ℕ → ℝ)) : Prop :=
  a.kind = .gd ∧ useGd = true ∨ a.kind = .igd ∧ useGd = false ∨
  a.kind = .deltap ∧ ∃ (D : ℕ → ℝ) (S : List (ℕ → ℝ)), (∀ T', Targets a.env.dist false (images a X) M T' ↔ T' = S) ∧
    (∀ i < X.length, (∃ r ∈ M, a.env.dist ((images a X).getD i 0) r = D i) ∧
      ∀ r ∈ M, D i ≤ a.env.dist ((images a X).getD i 0) r) ∧
    (useGd = true ∧ (∑ i ∈ Finset.range X.length, a.env.dist ((images a X).getD i 0) (S.getD i 0) ^ 2) / X.length <
        √((∑ i ∈ Finset.range X.length, D i ^ 2) / X.length) ∨
      useGd = false ∧ √((∑ i ∈ Finset.range X.length, D i ^ 2) / X.length) <
        (∑ i ∈ Finset.range X.length, a.env.dist ((images a X).getD i 0) (S.getD i 0) ^ 2) / X.length)

/-- A state after the first iteration whose targets are `M` and whose points are within `δ` of `X`. -/
structure DpnNear (a : Dpn ℝ) (X : List (List ℝ)) (M : List (ℕ → ℝ)) (δ : ℝ) (s : DpnState ℝ) : Prop where
  ready : DpnReady a X.length s
  later : s.iter ≠ 0
  targets : ∃ M', Paired s.ref M' ∧ M'.Perm M
  close : ∀ i < X.length, Within a (X.getD i []) (s.state.X.getD i []) δ

/-! ## Lemmas -/

theorem list_eventually {α β : Type*} {F : Filter β} {l : List α} {p : α → β → Prop} (h : ∀ x ∈ l, ∀ᶠ η in F, p x η) :
    ∀ᶠ η in F, ∀ x ∈ l, p x η := by
  induction l with
  | nil => simp
  | cons x l ih =>
    filter_upwards [h x List.mem_cons_self, ih fun y hy => h y (List.mem_cons_of_mem _ hy)] with η h1 h2 y hy
    rcases List.mem_cons.mp hy with rfl | hy
    · exact h1
    · exact h2 y hy

theorem range_eventually {β : Type*} {F : Filter β} {n : ℕ} {p : ℕ → β → Prop} (h : ∀ i < n, ∀ᶠ η in F, p i η) :
    ∀ᶠ η in F, ∀ i < n, p i η :=
  (list_eventually (l := List.range n) fun i hi => h i (List.mem_range.mp hi)).mono fun _ hη i hi =>
    hη i (List.mem_range.mpr hi)

theorem small_pos {c g : ℝ} (hg : 0 < g) : ∀ᶠ η in 𝓝[>] (0 : ℝ), c * η < g := by
  have h : Filter.Tendsto (fun η : ℝ => c * η) (𝓝[>] 0) (𝓝 (c * 0)) :=
    ((continuous_const.mul continuous_id).tendsto 0).mono_left nhdsWithin_le_nhds
  rw [mul_zero] at h
  exact h.eventually (gt_mem_nhds hg)

theorem list_sum_getD (l : List ℝ) : l.sum = ∑ i ∈ Finset.range l.length, l.getD i 0 := by
  induction l with
  | nil => simp
  | cons x l ih => rw [List.sum_cons, List.length_cons, Finset.sum_range_succ', ih, add_comm]; simp

theorem sum_zipWith_getD {dist : (ℕ → ℝ) → (ℕ → ℝ) → ℝ} {Y T : List (ℕ → ℝ)} (h : T.length = Y.length) :
    (List.zipWith dist Y T).sum = ∑ i ∈ Finset.range Y.length, dist (Y.getD i 0) (T.getD i 0) := by
  rw [list_sum_getD, List.length_zipWith, h, min_self]
  refine Finset.sum_congr rfl fun i hi => ?_
  have hi := Finset.mem_range.mp hi
  rw [List.getD_eq_getElem _ _ (by simp; omega), List.getElem_zipWith, List.getD_eq_getElem Y _ hi,
    List.getD_eq_getElem T _ (by omega)]

/-- Unique targets stay the same for objective points with nearly the same distances. -/
theorem targets_stable {dist : (ℕ → ℝ) → (ℕ → ℝ) → ℝ} {useGd : Bool} {Y M T : List (ℕ → ℝ)}
    (hT : ∀ T', Targets dist useGd Y M T' ↔ T' = T) :
    ∃ η > 0, ∀ Y' : List (ℕ → ℝ), Y'.length = Y.length →
      (∀ i < Y.length, ∀ r ∈ M, |dist (Y'.getD i 0) r - dist (Y.getD i 0) r| ≤ η) →
      ∀ T', Targets dist useGd Y' M T' → T' = T := by
  have h0 := (hT T).mpr rfl
  cases useGd with
  | true =>
    unfold Targets at h0 hT ⊢
    simp only [if_true] at h0 hT ⊢
    have gap : ∀ i < Y.length, ∀ r ∈ M, r ≠ T.getD i 0 →
        dist (Y.getD i 0) (T.getD i 0) < dist (Y.getD i 0) r := by
      intro i hi r hr hne
      refine ((h0.2 i hi).2 r hr).lt_of_ne fun heq => hne ?_
      have h1 := (hT (T.set i r)).mp ⟨by rw [List.length_set, h0.1], fun j hj => by
        by_cases hij : i = j
        · subst hij
          rw [List.getD_eq_getElem _ _ (by rw [List.length_set, h0.1]; exact hi), List.getElem_set_self]
          exact ⟨hr, fun r' hr' => heq ▸ (h0.2 i hi).2 r' hr'⟩
        · rw [List.getD_eq_getElem _ _ (by rw [List.length_set, h0.1]; exact hj), List.getElem_set_ne hij,
            ← List.getD_eq_getElem _ 0 (by rw [h0.1]; exact hj)]
          exact h0.2 j hj⟩
      have h2 := congrArg (fun l => l.getD i 0) h1
      rw [List.getD_eq_getElem _ _ (by rw [List.length_set, h0.1]; exact hi), List.getElem_set_self] at h2
      exact h2
    have hex : ∀ᶠ η in 𝓝[>] (0 : ℝ), ∀ i < Y.length, ∀ r ∈ M, r ≠ T.getD i 0 →
        2 * η < dist (Y.getD i 0) r - dist (Y.getD i 0) (T.getD i 0) := by
      refine range_eventually fun i hi => list_eventually fun r hr => ?_
      by_cases hne : r = T.getD i 0
      · exact Filter.Eventually.of_forall fun _ h => absurd hne h
      · exact (small_pos (sub_pos.mpr (gap i hi r hr hne))).mono fun η hη _ => hη
    obtain ⟨η, hη, hpos⟩ := (hex.and self_mem_nhdsWithin).exists
    refine ⟨η, hpos, fun Y' hl hd T' hT' => ?_⟩
    refine List.ext_getElem (by rw [hT'.1, hl, h0.1]) fun i h1 h2 => ?_
    have hi : i < Y.length := by rw [← h0.1]; exact h2
    rw [← List.getD_eq_getElem _ 0 h1, ← List.getD_eq_getElem _ 0 h2]
    by_contra hne
    have h3 := hη i hi _ (hT'.2 i (by omega)).1 hne
    have h4 := (hT'.2 i (by omega)).2 _ (h0.2 i hi).1
    have h5 := abs_le.mp (hd i hi _ (hT'.2 i (by omega)).1)
    have h6 := abs_le.mp (hd i hi _ (h0.2 i hi).1)
    linarith [h5.1, h6.2]
  | false =>
    unfold Targets at h0 hT ⊢
    simp only [Bool.false_eq_true, if_false] at h0 hT ⊢
    have gap : ∀ T' ∈ M.permutations, T' ≠ T → (List.zipWith dist Y T).sum < (List.zipWith dist Y T').sum := by
      intro T' hT' hne
      have hp := List.mem_permutations.mp hT'
      refine (h0.2.2 T' hp).lt_of_ne fun heq => hne ((hT T').mp ⟨?_, hp, fun T'' h'' => ?_⟩)
      · rw [hp.length_eq, ← h0.2.1.length_eq, h0.1]
      · rw [← heq]; exact h0.2.2 T'' h''
    have hex : ∀ᶠ η in 𝓝[>] (0 : ℝ), ∀ T' ∈ M.permutations, T' ≠ T →
        2 * Y.length * η < (List.zipWith dist Y T').sum - (List.zipWith dist Y T).sum := by
      refine list_eventually fun T' hT' => ?_
      by_cases hne : T' = T
      · exact Filter.Eventually.of_forall fun _ h => absurd hne h
      · exact (small_pos (sub_pos.mpr (gap T' hT' hne))).mono fun η hη _ => hη
    obtain ⟨η, hη, hpos⟩ := (hex.and self_mem_nhdsWithin).exists
    refine ⟨η, hpos, fun Y' hl hd T' hT' => ?_⟩
    have hsum : ∀ T'' : List (ℕ → ℝ), T''.Perm M →
        |(List.zipWith dist Y' T'').sum - (List.zipWith dist Y T'').sum| ≤ Y.length * η := by
      intro T'' hp
      have hlen : T''.length = Y.length := by rw [hp.length_eq, ← h0.2.1.length_eq, h0.1]
      rw [sum_zipWith_getD hlen, sum_zipWith_getD (by rw [hlen, hl]), hl, ← Finset.sum_sub_distrib]
      refine (Finset.abs_sum_le_sum_abs _ _).trans ?_
      refine (Finset.sum_le_sum fun i hi => hd i (Finset.mem_range.mp hi) (T''.getD i 0) ?_).trans (by simp)
      have hi := Finset.mem_range.mp hi
      rw [List.getD_eq_getElem _ _ (by omega)]
      exact hp.mem_iff.mp (List.getElem_mem _)
    by_contra hne
    have h3 := hη T' (List.mem_permutations.mpr hT'.2.1) hne
    have h4 := hT'.2.2 T h0.2.1
    have h5 := abs_le.mp (hsum T' hT'.2.1)
    have h6 := abs_le.mp (hsum T h0.2.1)
    nlinarith [h5.1, h6.2]

theorem sqrt_of_root {a : Dpn ℝ} (he : Euclidean a) {x : ℝ} (hx : 0 ≤ x) : a.sqrt x = √x := by
  obtain ⟨h1, h2⟩ := he.root x hx
  rw [← h2, Real.sqrt_sq h1, h2]

/-- A comparison of continuous functions of finitely many numbers is stable. -/
theorem compare_stable {n : ℕ} {G V : (Fin n → ℝ) → ℝ} (hG : Continuous G) (hV : Continuous V) (p q : Fin n → ℝ)
    (h : V q < G p) : ∃ η > 0, ∀ p' q' : Fin n → ℝ, (∀ i, |p' i - p i| ≤ η) → (∀ i, |q' i - q i| ≤ η) → V q' < G p' := by
  have hopen : IsOpen {z : (Fin n → ℝ) × (Fin n → ℝ) | V z.2 < G z.1} :=
    isOpen_lt (hV.comp continuous_snd) (hG.comp continuous_fst)
  obtain ⟨ε, hε, hb⟩ := Metric.isOpen_iff.mp hopen (p, q) h
  refine ⟨ε / 2, by linarith, fun p' q' h1 h2 => ?_⟩
  have hm : (p', q') ∈ ball (p, q) ε → V q' < G p' := fun hz => hb hz
  refine hm ?_
  rw [mem_ball_iff_norm, Prod.mk_sub_mk]
  refine lt_of_le_of_lt (norm_prod_le_iff.mpr ⟨(pi_norm_le_iff_of_nonneg (by linarith)).mpr h1,
    (pi_norm_le_iff_of_nonneg (by linarith)).mpr h2⟩) (half_lt_self hε)

theorem IndicatorFixed.stable {a : Dpn ℝ} (he : Euclidean a) {useGd : Bool} {X : List (List ℝ)} {M : List (ℕ → ℝ)}
    (h : IndicatorFixed a useGd X M) :
    ∃ η > 0, ∀ (Y' M0 : List (ℕ → ℝ)) (D' : List ℝ), Y'.length = X.length →
      (∀ i < X.length, ∀ r ∈ M, |a.env.dist (Y'.getD i 0) r - a.env.dist ((images a X).getD i 0) r| ≤ η) →
      Targets a.env.dist false Y' M M0 → List.Forall₂ (fun y d => (∃ r ∈ M, a.env.dist y r = d) ∧ ∀ r ∈ M, d ≤ a.env.dist y r) Y' D' →
      a.gdActive (a.sqrt ((D'.map (· ^ 2)).sum / (X.length : ℝ)))
        ((∑ i ∈ Finset.range X.length, ∑ k ∈ Finset.range a.nObj, (Y'.getD i 0 k - M0.getD i 0 k) ^ 2) / (X.length : ℝ)) = useGd := by
  rcases h with ⟨h, rfl⟩ | ⟨h, rfl⟩ | ⟨h, D, S, hS, hD, hc⟩
  · exact ⟨1, one_pos, fun _ _ _ _ _ _ _ => by rw [Dpn.gdActive, h]⟩
  · exact ⟨1, one_pos, fun _ _ _ _ _ _ _ => by rw [Dpn.gdActive, h]⟩
  obtain ⟨η1, hη1, hstab⟩ := targets_stable hS
  rw [images_length] at hstab
  obtain ⟨G, hG⟩ : ∃ G : (Fin X.length → ℝ) → ℝ, G = fun p : Fin X.length → ℝ => √((∑ i, p i ^ 2) / (X.length : ℝ)) := ⟨_, rfl⟩
  obtain ⟨V, hV⟩ : ∃ V : (Fin X.length → ℝ) → ℝ, V = fun q : Fin X.length → ℝ => (∑ i, q i ^ 2) / (X.length : ℝ) := ⟨_, rfl⟩
  have cV : Continuous V := by rw [hV]; fun_prop
  have cG : Continuous G := by rw [hG]; fun_prop
  obtain ⟨p, hp⟩ : ∃ p : Fin X.length → ℝ, p = fun i : Fin X.length => D i := ⟨_, rfl⟩
  obtain ⟨q, hq⟩ : ∃ q : Fin X.length → ℝ,
    q = fun i : Fin X.length => a.env.dist ((images a X).getD i 0) (S.getD i 0) := ⟨_, rfl⟩
  have eG : √((∑ i ∈ Finset.range X.length, D i ^ 2) / X.length) = G p := by rw [hG, hp, Finset.sum_range]
  have eV : (∑ i ∈ Finset.range X.length, a.env.dist ((images a X).getD i 0) (S.getD i 0) ^ 2) / X.length = V q := by
    rw [hV, hq, Finset.sum_range]
  rw [eG, eV] at hc
  obtain ⟨η2, hη2, hcmp⟩ : ∃ η > 0, ∀ p' q' : Fin X.length → ℝ, (∀ i, |p' i - p i| ≤ η) → (∀ i, |q' i - q i| ≤ η) →
      decide (V q' < G p') = useGd := by
    rcases hc with ⟨rfl, hc⟩ | ⟨rfl, hc⟩
    · obtain ⟨η, h1, h2⟩ := compare_stable cG cV p q hc
      exact ⟨η, h1, fun p' q' a b => decide_eq_true (h2 p' q' a b)⟩
    · obtain ⟨η, h1, h2⟩ := compare_stable cV cG q p hc
      exact ⟨η, h1, fun p' q' a b => decide_eq_false (h2 q' p' b a).not_gt⟩
  refine ⟨min η1 η2, lt_min hη1 hη2, fun Y' M0 D' hl hd hM0 hD' => ?_⟩
  obtain rfl : M0 = S := hstab Y' hl (fun i hi r hr => (hd i hi r hr).trans (min_le_left _ _)) M0 hM0
  have hDl : D'.length = X.length := by rw [← hD'.length_eq, hl]
  have hmem : ∀ i < X.length, M0.getD i 0 ∈ M := fun i hi => by
    have hl0 : M0.length = X.length := by rw [hM0.1, hl]
    unfold Targets at hM0
    simp only [Bool.false_eq_true, if_false] at hM0
    rw [List.getD_eq_getElem _ _ (by omega)]
    exact hM0.2.1.mem_iff.mp (List.getElem_mem _)
  have e1 : a.sqrt ((D'.map (· ^ 2)).sum / (X.length : ℝ)) = G fun i : Fin X.length => D'.getD i 0 := by
    rw [list_sum_getD, List.length_map, hDl, hG]
    have : ∑ i ∈ Finset.range X.length, (D'.map (· ^ 2)).getD i 0 = ∑ i : Fin X.length, D'.getD i 0 ^ 2 := by
      rw [Finset.sum_range]
      refine Finset.sum_congr rfl fun i _ => ?_
      rw [List.getD_eq_getElem _ _ (by rw [List.length_map, hDl]; exact i.2), List.getElem_map,
        List.getD_eq_getElem _ _ (by rw [hDl]; exact i.2)]
    rw [this, sqrt_of_root he (by positivity)]
  have e2 : (∑ i ∈ Finset.range X.length, ∑ k ∈ Finset.range a.nObj, (Y'.getD i 0 k - M0.getD i 0 k) ^ 2) / (X.length : ℝ) =
      V fun i : Fin X.length => a.env.dist (Y'.getD i 0) (M0.getD i 0) := by
    rw [hV, Finset.sum_range]
    simp only [he.square]
  rw [e1, e2, Dpn.gdActive, h]
  refine hcmp _ _ (fun i => ?_) fun i => ?_
  · rw [hp]
    obtain ⟨⟨r1, hr1, g1⟩, g2⟩ := hD i i.2
    have hk := List.forall₂_iff_get.mp hD'
    obtain ⟨⟨r2, hr2, g3⟩, g4⟩ := hk.2 i (by rw [hl]; exact i.2) (by rw [hDl]; exact i.2)
    simp only [List.get_eq_getElem] at g3 g4
    rw [← List.getD_eq_getElem _ 0, ← List.getD_eq_getElem D' 0] at g3
    simp only [← List.getD_eq_getElem Y' 0, ← List.getD_eq_getElem D' 0] at g4
    have b1 := abs_le.mp (hd i i.2 r1 hr1)
    have b2 := abs_le.mp (hd i i.2 r2 hr2)
    have c1 := g4 r1 hr1
    have c2 := g2 r2 hr2
    have hm := min_le_right η1 η2
    simp only
    rw [abs_le]
    constructor <;> linarith [b1.1, b1.2, b2.1, b2.2]
  · rw [hq]
    exact (hd i i.2 _ (hmem i i.2)).trans (min_le_right _ _)

theorem uniform_bounds {Q : ℕ → ℝ → ℝ → Prop}
    (mono : ∀ i δ δ' C C', Q i δ C → 0 < δ' → δ' ≤ δ → C ≤ C' → Q i δ' C') (N : ℕ)
    (h : ∀ i < N, ∃ δ > 0, ∃ C > 0, Q i δ C) : ∃ δ > 0, ∃ C > 0, ∀ i < N, Q i δ C := by
  induction N with
  | zero => exact ⟨1, one_pos, 1, one_pos, fun i hi => absurd hi (Nat.not_lt_zero i)⟩
  | succ N ih =>
    obtain ⟨δ1, hδ1, C1, hC1, h1⟩ := ih fun i hi => h i (by omega)
    obtain ⟨δ2, hδ2, C2, hC2, h2⟩ := h N (by omega)
    refine ⟨min δ1 δ2, lt_min hδ1 hδ2, max C1 C2, lt_max_of_lt_left hC1, fun i hi => ?_⟩
    rcases Nat.lt_succ_iff_lt_or_eq.mp hi with hi | rfl
    · exact mono i _ _ _ _ (h1 i hi) (lt_min hδ1 hδ2) (min_le_left _ _) (le_max_left _ _)
    · exact mono i _ _ _ _ h2 (lt_min hδ1 hδ2) (min_le_right _ _) (le_max_right _ _)

section

variable {a : Dpn ℝ} {useGd : Bool} {N : ℕ} {x0 : List ℝ} {τ : ℕ → ℝ}

theorem within_iff {x : List ℝ} {ε : ℝ} (hε : 0 ≤ ε) : Within a x0 x ε ↔ ‖unk a x0 x - unk a x0 x0‖ ≤ ε := by
  rw [norm_prod_le_iff, pi_norm_le_iff_of_nonneg hε, pi_norm_le_iff_of_nonneg hε]
  constructor
  · rintro ⟨h1, h2⟩
    refine ⟨fun v => h1 v v.2, fun k => ?_⟩
    simp only [unk, Prod.snd_sub, Pi.sub_apply]
    by_cases hact : IsActive a.p (x0.take a.p.nVar) k
    · rw [if_pos hact, if_pos hact]; exact h2 k k.2 hact
    · rw [if_neg hact, if_neg hact, sub_self, norm_zero]; exact hε
  · rintro ⟨h1, h2⟩
    refine ⟨fun v hv => h1 ⟨v, hv⟩, fun k hk hact => ?_⟩
    have := h2 ⟨k, hk⟩
    simp only [unk, Prod.snd_sub, Pi.sub_apply, if_pos hact] at this
    exact this

theorem dist_eq_sqrt (he : Euclidean a) (y r : ℕ → ℝ) :
    a.env.dist y r = √(∑ k ∈ Finset.range a.nObj, (y k - r k) ^ 2) := by
  rw [← he.square, Real.sqrt_sq (he.nonneg y r)]

theorem norm_lower (ha : a.Ok) (he : Euclidean a) (r : List ℝ) (c : ℕ) : |pt r c| ≤ a.norm r := by
  have hnn : 0 ≤ (r.map (· ^ 2)).sum := List.sum_nonneg fun y hy => by
    obtain ⟨x, -, rfl⟩ := List.mem_map.mp hy
    exact sq_nonneg x
  rw [ha.norm, sqrt_of_root he hnn, ← Real.sqrt_sq_eq_abs]
  by_cases hc : c < r.length
  · refine Real.sqrt_le_sqrt (List.single_le_sum (fun y hy => ?_) _ (List.mem_map.mpr ⟨r[c], List.getElem_mem hc, ?_⟩))
    · obtain ⟨x, -, rfl⟩ := List.mem_map.mp hy
      exact sq_nonneg x
    · rw [pt, List.getD_eq_getElem _ _ hc]
  · rw [pt, List.getD_eq_default _ _ (not_lt.mp hc)]
    exact Real.sqrt_le_sqrt (by simpa using hnn)

theorem norm_upper (ha : a.Ok) (he : Euclidean a) {r : List ℝ} {B : ℝ} (hB : 0 ≤ B) (h : ∀ c < r.length, |pt r c| ≤ B) :
    a.norm r ≤ r.length * B := by
  have hs : (r.map (· ^ 2)).sum = ∑ q : Fin r.length, (r[q] : ℝ) ^ 2 := by
    rw [list_sum_getD, List.length_map, Finset.sum_range]
    exact Finset.sum_congr rfl fun q _ => by
      rw [List.getD_eq_getElem _ _ (by simp), List.getElem_map]; rfl
  rw [ha.norm, hs, sqrt_of_root he (Finset.sum_nonneg fun q _ => sq_nonneg _)]
  refine ((sqrt_sum_bounds fun q : Fin r.length => (r[q] : ℝ)).2).trans ?_
  rw [Fintype.card_fin]
  refine mul_le_mul_of_nonneg_left ((pi_norm_le_iff_of_nonneg hB).mpr fun q => ?_) (Nat.cast_nonneg _)
  have := h q q.2
  rw [pt, List.getD_eq_getElem _ _ q.2] at this
  exact this

/-- What the neighbourhood of a regular point has to provide: the Newton step exists, improves the point and makes the
residual small. -/
def NewtonOn (a : Dpn ℝ) (useGd : Bool) (N : ℕ) (M : List (ℕ → ℝ)) (η : ℝ) (x0 : List ℝ) (τ : ℕ → ℝ) (δ C : ℝ) : Prop :=
  ∀ x : List ℝ, x.length = a.p.nVar + a.p.nDual → ‖unk a x0 x - unk a x0 x0‖ ≤ δ →
    NearPoint a x0 x ∧ InsideBox a.xl a.xu a.p.nVar x ∧
    (∀ r ∈ M, |a.env.dist (pt (a.p.func.point (x.take a.p.nVar))) r -
      a.env.dist (pt (a.p.func.point (x0.take a.p.nVar))) r| ≤ η ∧
      1 / 10 ^ 8 < a.env.dist (pt (a.p.func.point (x.take a.p.nVar))) r) ∧
    (∃ s, fderiv ℝ (kktMap a useGd N x0 τ) (unk a x0 x) s = -kktMap a useGd N x0 τ (unk a x0 x)) ∧
    ∀ s, fderiv ℝ (kktMap a useGd N x0 τ) (unk a x0 x) s = -kktMap a useGd N x0 τ (unk a x0 x) →
      ‖unk a x0 x + s - unk a x0 x0‖ ≤ C * ‖unk a x0 x - unk a x0 x0‖ ^ 2 ∧
      ‖unk a x0 x + s - unk a x0 x0‖ ≤ ‖unk a x0 x - unk a x0 x0‖ / 2 ∧
      (a.p.nVar + a.p.nDual : ℕ) * ‖kktMap a useGd N x0 τ (unk a x0 x + s)‖ ≤ 1 / 2 * ‖kktMap a useGd N x0 τ (unk a x0 x)‖

theorem NewtonOn.mono {M : List (ℕ → ℝ)} {η δ δ' C C' : ℝ} (h : NewtonOn a useGd N M η x0 τ δ C) (hδ : δ' ≤ δ)
    (hC : C ≤ C') : NewtonOn a useGd N M η x0 τ δ' C' := by
  intro x hx hd
  obtain ⟨h1, h2, h3, h4, h5⟩ := h x hx (hd.trans hδ)
  refine ⟨h1, h2, h3, h4, fun s hs => ?_⟩
  obtain ⟨g1, g2, g3⟩ := h5 s hs
  exact ⟨g1.trans (mul_le_mul_of_nonneg_right hC (sq_nonneg _)), g2, g3⟩

/-- Near `x0` the preconditioning changes nothing. -/
def KeepsOn (a : Dpn ℝ) (useGd : Bool) (N : ℕ) (x0 : List ℝ) (τ : ℕ → ℝ) (δ : ℝ) : Prop :=
  ∀ x : List ℝ, x.length = a.p.nVar + a.p.nDual → ‖unk a x0 x - unk a x0 x0‖ ≤ δ →
    ∀ A, IsMat a.p.nVar a.p.nVar A →
      (∀ v < a.p.nVar, ∀ w < a.p.nVar, at2 A v w = dpHess a useGd N (x.take a.p.nVar) τ v w) →
      ∀ v < a.p.nVar, ∀ w < a.p.nVar, at2 (a.precond A) v w = at2 A v w

/-- Second derivatives are continuous and, in a neighbourhood, symmetric. -/
theorem Smooth3.hess_cont {n : ℕ} {f : List ℝ → ℝ} {g : List ℝ → ℕ → ℝ} {h : List ℝ → ℕ → ℕ → ℝ} {q : List ℝ}
    (hs : Smooth3 n f g h q) (v w : Fin n) : ContinuousAt (fun x : Fin n → ℝ => h (List.ofFn x) v w) (vec n q) := by
  have h1 : ContinuousAt (fun x => fderiv ℝ (fun x : Fin n → ℝ => g (List.ofFn x) v) x (Pi.single w 1)) (vec n q) :=
    (((hs.grad_smooth v).fderiv_right (m := 1) (by norm_num)).clm_apply contDiffAt_const).continuousAt
  exact h1.congr (hs.hess.mono fun x hx => (hx v w).symm)

theorem Smooth3.hess_symm {n : ℕ} {f : List ℝ → ℝ} {g : List ℝ → ℕ → ℝ} {h : List ℝ → ℕ → ℕ → ℝ} {q : List ℝ}
    (hs : Smooth3 n f g h q) : ∀ᶠ x in 𝓝 (vec n q), ∀ v w : Fin n, h (List.ofFn x) v w = h (List.ofFn x) w v := by
  filter_upwards [hs.smooth.eventually (by simp), hs.grad.eventually_nhds, hs.hess] with x h1 h2 h3 v w
  have e : ∀ v w : Fin n, h (List.ofFn x) v w =
      fderiv ℝ (fun y => fderiv ℝ (fun x : Fin n → ℝ => f (List.ofFn x)) y (Pi.single v 1)) x (Pi.single w 1) := by
    intro v w
    rw [h3 v w, Filter.EventuallyEq.fderiv_eq (h2.mono fun y hy => hy v)]
  rw [e v w, e w v]
  exact secondDeriv_comm h1 (by norm_num) _ _

theorem RegularPoint.keepsOn (h : RegularPoint a useGd N x0 τ)
    (hp : (∀ A, a.precond A = A) ∨ ∃ chol : Chol, (∀ n, IsCholesky (chol n)) ∧ (∀ A, a.precond A = precondTable chol A) ∧
      PosForm a.p.nVar (dpHess a useGd N (x0.take a.p.nVar) τ)) : ∃ δ > 0, KeepsOn a useGd N x0 τ δ := by
  rcases hp with hp | ⟨chol, hc, hp, hpos⟩
  · exact ⟨1, one_pos, fun x _ _ A _ _ v _ w _ => by rw [hp]⟩
  obtain ⟨η, hη, hopen⟩ := hpos.open_near
  have hself : List.ofFn (vec a.p.nVar (x0.take a.p.nVar)) = x0.take a.p.nVar := by
    rw [vec_take, ofFn_vec_take (by rw [h.row]; omega)]
  have h1 : ∀ᶠ z in 𝓝 (vec a.p.nVar (x0.take a.p.nVar)), ∀ k ∈ Finset.range a.nObj, ∀ v w : Fin a.p.nVar,
      pt (a.hess (List.ofFn z)) ((k * a.p.nVar + v) * a.p.nVar + w) =
      pt (a.hess (List.ofFn z)) ((k * a.p.nVar + w) * a.p.nVar + v) :=
    (Finset.eventually_all _).mpr fun k hk => (h.obj k (Finset.mem_range.mp hk)).hess_symm
  have h2 : ∀ᶠ z in 𝓝 (vec a.p.nVar (x0.take a.p.nVar)), ∀ v w : Fin a.p.nVar,
      |dpHess a useGd N (List.ofFn z) τ v w - dpHess a useGd N (x0.take a.p.nVar) τ v w| < η := by
    refine Filter.eventually_all.mpr fun v => Filter.eventually_all.mpr fun w => ?_
    have hcont : ContinuousAt (fun z : Fin a.p.nVar → ℝ => dpHess a useGd N (List.ofFn z) τ v w)
        (vec a.p.nVar (x0.take a.p.nVar)) := by
      unfold dpHess
      refine continuousAt_const.mul (tendsto_finsetSum _ fun k hk => ?_)
      have hk := h.obj k (Finset.mem_range.mp hk)
      exact ((hk.grad_smooth v).continuousAt.mul (hk.grad_smooth w).continuousAt).add
        ((hk.hess_cont v w).mul (hk.smooth.continuousAt.sub continuousAt_const))
    have := Metric.continuousAt_iff'.mp hcont η hη
    rw [hself] at this
    exact this.mono fun z hz => by rwa [Real.dist_eq] at hz
  obtain ⟨ρ, hρ, hball⟩ := Metric.eventually_nhds_iff_ball.mp (h1.and h2)
  refine ⟨ρ / 2, by positivity, fun x hx hd A hA hAe => ?_⟩
  obtain ⟨b1, b2⟩ := hball (vec a.p.nVar x) (by
    rw [mem_ball_iff_norm, vec_take]
    exact ((norm_fst_le (unk a x0 x - unk a x0 x0)).trans hd).trans_lt (half_lt_self hρ))
  rw [ofFn_vec_take (by rw [hx]; omega)] at b1 b2
  rw [hp]
  refine precondTable_keep hc hA (fun v hv w hw => ?_) (hopen _ fun v hv w hw => ?_)
  · rw [hAe v hv w hw, hAe w hw v hv]
    unfold dpHess
    refine congrArg _ (Finset.sum_congr rfl fun k hk => ?_)
    rw [b1 k hk ⟨v, hv⟩ ⟨w, hw⟩]
    ring
  · rw [hAe v hv w hw]
    exact (b2 ⟨v, hv⟩ ⟨w, hw⟩).le

theorem RegularPoint.newtonOn (he : Euclidean a) (h : RegularPoint a useGd N x0 τ) {M : List (ℕ → ℝ)}
    (hM : ∀ r ∈ M, 1 / 10 ^ 8 < a.env.dist (pt (a.p.func.point (x0.take a.p.nVar))) r) {η : ℝ} (hη : 0 < η) :
    ∃ δ > 0, ∃ C > 0, NewtonOn a useGd N M η x0 τ δ C := by
  have hself : List.ofFn (vec a.p.nVar (x0.take a.p.nVar)) = x0.take a.p.nVar := by
    rw [vec_take, ofFn_vec_take (by rw [h.row]; omega)]
  have hdist : ∀ᶠ z in 𝓝 (vec a.p.nVar (x0.take a.p.nVar)), ∀ r ∈ M,
      |a.env.dist (pt (a.p.func.point (List.ofFn z))) r - a.env.dist (pt (a.p.func.point (x0.take a.p.nVar))) r| ≤ η ∧
      1 / 10 ^ 8 < a.env.dist (pt (a.p.func.point (List.ofFn z))) r := by
    refine list_eventually fun r hr => ?_
    have hc : ContinuousAt (fun z : Fin a.p.nVar → ℝ => a.env.dist (pt (a.p.func.point (List.ofFn z))) r)
        (vec a.p.nVar (x0.take a.p.nVar)) := by
      simp only [dist_eq_sqrt he]
      refine ContinuousAt.sqrt (tendsto_finsetSum _ fun k hk => ?_)
      exact (((h.obj k (Finset.mem_range.mp hk)).smooth.continuousAt).sub continuousAt_const).pow 2
    have h1 := continuousAt_const.eventually_lt hc (by rw [hself]; exact hM r hr)
    have h2 := (Metric.continuousAt_iff'.mp hc) η hη
    rw [hself] at h2
    filter_upwards [h1, h2] with z b1 b2
    exact ⟨by rw [Real.dist_eq] at b2; exact b2.le, b1⟩
  obtain ⟨ρ, hρ, hball⟩ := Metric.eventually_nhds_iff_ball.mp (hdist.and h.near)
  obtain ⟨r, hr, L, hd, hL⟩ := lipschitz_derivative h.smooth
  obtain ⟨δ, hδ, C, hC, -, hloc⟩ := newton_local hr hd hL h.zero h.inj
  set c : ℝ := ((a.p.nVar + a.p.nDual : ℕ) : ℝ) with hc
  have hc0 : 0 ≤ c := Nat.cast_nonneg _
  refine ⟨min (min δ ρ) (1 / (2 * (c + 1) * C)) / 2, by positivity, C, hC, fun x hx hxd => ?_⟩
  have hlt : ‖unk a x0 x - unk a x0 x0‖ < min (min δ ρ) (1 / (2 * (c + 1) * C)) :=
    hxd.trans_lt (half_lt_self (by positivity))
  obtain ⟨hlt, hd3⟩ := lt_min_iff.mp hlt
  obtain ⟨hd1, hd2⟩ := lt_min_iff.mp hlt
  obtain ⟨-, hsol, hstep⟩ := hloc _ hd1
  have hmem : vec a.p.nVar x ∈ ball (vec a.p.nVar (x0.take a.p.nVar)) ρ := by
    rw [mem_ball_iff_norm, vec_take]
    exact (norm_fst_le (unk a x0 x - unk a x0 x0)).trans_lt hd2
  obtain ⟨b1, b2⟩ := hball _ hmem
  obtain ⟨b3, b4⟩ := b2 x hx rfl
  rw [ofFn_vec_take (by rw [hx]; omega)] at b1
  refine ⟨b3, b4, b1, hsol, fun s hs => ?_⟩
  obtain ⟨g1, g2, g3⟩ := hstep s hs
  refine ⟨g1, g2, ?_⟩
  have l3 : c * (C * ‖unk a x0 x - unk a x0 x0‖) ≤ 1 / 2 := by
    have := hd3.le
    rw [le_div_iff₀ (by positivity)] at this
    nlinarith [norm_nonneg (unk a x0 x - unk a x0 x0), mul_nonneg hC.le (norm_nonneg (unk a x0 x - unk a x0 x0))]
  have l4 := mul_le_mul_of_nonneg_left g3 hc0
  have l5 := mul_le_mul_of_nonneg_right l3 (norm_nonneg (kktMap a useGd N x0 τ (unk a x0 x)))
  rw [← mul_assoc] at l4
  exact l4.trans l5

theorem NearPoint.norm_le (ha : a.Ok) (he : Euclidean a) {x r : List ℝ} (h : NearPoint a x0 x)
    (hr : KktResidual a.p x (dpGrad a useGd N (x.take a.p.nVar) τ) (pt r)) :
    ‖kktMap a useGd N x0 τ (unk a x0 x)‖ ≤ a.norm r := by
  obtain ⟨h1, h2⟩ := h.residual hr
  have h0 : 0 ≤ a.norm r := (abs_nonneg _).trans (norm_lower ha he r 0)
  rw [norm_prod_le_iff, pi_norm_le_iff_of_nonneg h0, pi_norm_le_iff_of_nonneg h0]
  exact ⟨fun v => by rw [← h1 v]; exact norm_lower ha he r v, fun k => by rw [← h2 k]; exact norm_lower ha he r _⟩

theorem NearPoint.le_norm (ha : a.Ok) (he : Euclidean a) {x r : List ℝ} (h : NearPoint a x0 x)
    (hl : r.length = a.p.nVar + a.p.nDual) (hr : KktResidual a.p x (dpGrad a useGd N (x.take a.p.nVar) τ) (pt r)) :
    a.norm r ≤ (a.p.nVar + a.p.nDual : ℕ) * ‖kktMap a useGd N x0 τ (unk a x0 x)‖ := by
  obtain ⟨h1, h2⟩ := h.residual hr
  rw [← hl]
  refine norm_upper ha he (norm_nonneg _) fun c hc => ?_
  by_cases hv : c < a.p.nVar
  · have := h1 ⟨c, hv⟩
    simp only at this
    rw [this, ← Real.norm_eq_abs]
    exact (norm_le_pi_norm _ _).trans (norm_fst_le _)
  · have := h2 ⟨c - a.p.nVar, by omega⟩
    simp only at this
    rw [show a.p.nVar + (c - a.p.nVar) = c by omega] at this
    rw [this, ← Real.norm_eq_abs]
    exact (norm_le_pi_norm _ _).trans (norm_snd_le _)

theorem pt_moved {x d : List ℝ} (hl : d.length = x.length) {c : ℕ} (hc : c < x.length) :
    pt (moved x d 1) c = pt x c + pt d c := by
  unfold moved
  rw [pt, pt, pt, List.getD_eq_getElem _ _ (by rw [List.length_zipWith]; omega), List.getElem_zipWith,
    List.getD_eq_getElem x _ hc, List.getD_eq_getElem d _ (by omega), one_mul]

/-- The full step of one point near a regular point. -/
theorem near_move (ha : a.Ok) (he : Euclidean a) (hsol : SolverSound a.solve)
    {s s' : DpnState ℝ} {T M : List (ℕ → ℝ)} {n : List (List ℝ)} {i : ℕ} {η δ C : ℝ}
    (hg : a.gdActive s'.gd s'.igd = useGd) (hN : s.state.X.length = N)
    (hxl : (s.state.X.getD i []).length = a.p.nVar + a.p.nDual) (hnl : (n.getD i []).length = a.p.nVar + a.p.nDual)
    (hmv : DpnMove a s s' T n i) (hQ : NewtonOn a useGd N M η x0 (T.getD i 0) δ C)
    (hp : KeepsOn a useGd N x0 (T.getD i 0) δ) (hd : ‖unk a x0 (s.state.X.getD i []) - unk a x0 x0‖ ≤ δ) :
    (moved (s.state.X.getD i []) (s'.step.getD i []) 1).length = a.p.nVar + a.p.nDual ∧
    (∀ d < a.p.nVar, pt (moved (s.state.X.getD i []) (s'.step.getD i []) 1) d =
      pt (s.state.X.getD i []) d + pt (s'.step.getD i []) d) ∧
    ‖unk a x0 (moved (s.state.X.getD i []) (s'.step.getD i []) 1) - unk a x0 x0‖ ≤
      C * ‖unk a x0 (s.state.X.getD i []) - unk a x0 x0‖ ^ 2 ∧
    ‖unk a x0 (moved (s.state.X.getD i []) (s'.step.getD i []) 1) - unk a x0 x0‖ ≤
      ‖unk a x0 (s.state.X.getD i []) - unk a x0 x0‖ / 2 ∧
    (a.p.nVar + a.p.nDual : ℕ) *
      ‖kktMap a useGd N x0 (T.getD i 0) (unk a x0 (moved (s.state.X.getD i []) (s'.step.getD i []) 1))‖ ≤
      1 / 2 * a.norm (s'.R.getD i []) := by
  obtain ⟨hnear, hin, -, ⟨s0, hs0⟩, hstep⟩ := hQ _ hxl hd
  have hbox := (dpnBox_interior (xl := a.xl) (xu := a.xu) (x := (s.state.X.getD i []).take a.p.nVar)
      (n := (n.getD i []).take a.p.nVar) (by rw [List.length_take, hxl, ha.xl]; omega) (by rw [ha.xu, ha.xl])
      (fun d hd => by
        rw [ha.xl] at hd
        have : ((s.state.X.getD i []).take a.p.nVar).getD d 0 = (s.state.X.getD i []).getD d 0 := by
          simp only [List.getD_eq_getElem?_getD, List.getElem?_take, if_pos hd]
        rw [this]
        exact hin d hd)).1
  have hst : s'.step.getD i [] = n.getD i [] := by rw [hmv.handled, hbox, List.take_append_drop]
  rw [hst]
  obtain ⟨A, hA, hAe⟩ := exists_table a.p.nVar
    (dpHess a useGd N ((s.state.X.getD i []).take a.p.nVar) (T.getD i 0))
  have hHS : ∀ (y : ℕ → ℝ), ∀ v < a.p.nVar, ∑ w ∈ Finset.range a.p.nVar, at2 (a.precond A) v w * y w =
      ∑ w ∈ Finset.range a.p.nVar, dpHess a useGd N ((s.state.X.getD i []).take a.p.nVar) (T.getD i 0) v w * y w :=
    fun y v hv => Finset.sum_congr rfl fun w hw => by
      rw [hp _ hxl hd A hA hAe v hv w (Finset.mem_range.mp hw), hAe v hv w (Finset.mem_range.mp hw)]
  have hmn := hmv.newton
  rw [hg, hN] at hmn
  have hsolv : ∃ z : ℕ → ℝ, KktNewton a.p (s.state.X.getD i []) (dpGrad a useGd N
      ((s.state.X.getD i []).take a.p.nVar) (T.getD i 0))
      (fun v => ∑ w ∈ Finset.range a.p.nVar, at2 (a.precond A) v w * z w) z := by
    obtain ⟨y, hy⟩ : ∃ y : ℕ → ℝ, y = fun c => if hc : c < a.p.nVar then s0.1 ⟨c, hc⟩ else
      if hc : c - a.p.nVar < a.p.nDual then s0.2 ⟨c - a.p.nVar, hc⟩ else 0 := ⟨_, rfl⟩
    have hk := (hnear.newton (useGd := useGd) (N := N) (τ := T.getD i 0) (y := y) (s := s0)
      (fun v => by rw [hy]; simp) (fun k => by
        by_cases hact : IsActive a.p (x0.take a.p.nVar) k
        · rw [if_pos hact, hy]; simp
        · rw [if_neg hact]
          have h2 := hs0
          rw [kktMap_fderiv (by exact hnear.diff)] at h2
          have h3 := congrFun (congrArg Prod.snd h2) k
          simp only [if_neg hact, kktMap, Prod.snd_neg, Pi.neg_apply, unk, neg_zero] at h3
          exact h3)).mpr hs0
    exact ⟨y, fun v hv => by simp only [hHS y v hv]; exact hk.1 v hv, hk.2⟩
  have hnw := hmn A hA hAe hsol hsolv
  obtain ⟨s1, hs1⟩ : ∃ s1 : KktSpace a, s1 = (fun v : Fin a.p.nVar => pt (n.getD i []) v, fun k : Fin a.p.nDual =>
    if IsActive a.p (x0.take a.p.nVar) k then pt (n.getD i []) (a.p.nVar + k) else 0) := ⟨_, rfl⟩
  have hs1F := (hnear.newton (useGd := useGd) (N := N) (τ := T.getD i 0) (y := pt (n.getD i [])) (s := s1)
    (fun v => by rw [hs1]) (fun k => by rw [hs1])).mp
    ⟨fun v hv => by simp only [← hHS _ v hv]; exact hnw.1 v hv, hnw.2⟩
  have hlen : (moved (s.state.X.getD i []) (n.getD i []) 1).length = a.p.nVar + a.p.nDual := by
    unfold moved; rw [List.length_zipWith]; omega
  have hpt : ∀ c < a.p.nVar + a.p.nDual, pt (moved (s.state.X.getD i []) (n.getD i []) 1) c =
      pt (s.state.X.getD i []) c + pt (n.getD i []) c := fun c hc => pt_moved (by omega) (by omega)
  have hunk : unk a x0 (moved (s.state.X.getD i []) (n.getD i []) 1) = unk a x0 (s.state.X.getD i []) + s1 := by
    rw [hs1]
    refine Prod.ext (funext fun v => ?_) (funext fun k => ?_)
    · exact hpt v (by have := v.2; omega)
    · simp only [unk, Prod.snd_add, Pi.add_apply]
      by_cases hact : IsActive a.p (x0.take a.p.nVar) k
      · rw [if_pos hact, if_pos hact, if_pos hact]
        exact hpt _ (by have := k.2; omega)
      · rw [if_neg hact, if_neg hact, if_neg hact, add_zero]
  obtain ⟨g1, g2, g3⟩ := hstep s1 hs1F
  rw [hunk]
  have hres := hmv.residual
  rw [hg, hN] at hres
  exact ⟨hlen, fun d hd => hpt d (by omega), g1, g2,
    g3.trans (mul_le_mul_of_nonneg_left (hnear.norm_le ha he hres) (by norm_num))⟩

end

/-! ## C85 -/

/-- C85, one iteration: near a population of nondegenerate solutions whose targets are not attained, the targets stay,
all points take the full Newton step, and the distance of each point to its solution is at most half of what it was and
at most a multiple of its square. -/
theorem C85_iteration {a : Dpn ℝ} (ha : a.Ok) (he : Euclidean a) (hsol : SolverSound a.solve)
    {useGd : Bool} {X : List (List ℝ)} {M T : List (ℕ → ℝ)} (hp : PrecondHarmless a useGd X T) (hk : IndicatorFixed a useGd X M)
    (hX : RegularPop a useGd X M T) :
    ∃ δ > 0, ∃ C > 0, ∀ s, DpnNear a X M δ s → ∃ s', a.iterate s = some s' ∧ s'.iter = s.iter ∧
      DpnNear a X M δ s' ∧ (∀ i, s'.hist i = s.hist i) ∧ ∀ i < X.length,
        s'.state.X.getD i [] = moved (s.state.X.getD i []) (s'.step.getD i []) 1 ∧
        ∀ ε, 0 ≤ ε → ε ≤ δ → Within a (X.getD i []) (s.state.X.getD i []) ε →
          Within a (X.getD i []) (s'.state.X.getD i []) (C * ε ^ 2) ∧
          Within a (X.getD i []) (s'.state.X.getD i []) (ε / 2) := by
  have him : ∀ (Z : List (List ℝ)) i, i < Z.length →
      (images a Z).getD i 0 = pt (a.p.func.point ((Z.getD i []).take a.p.nVar)) := by
    intro Z i hi
    rw [List.getD_eq_getElem _ _ (by rw [images_length]; exact hi), List.getD_eq_getElem _ _ hi]
    simp only [images, List.getElem_map]
  obtain ⟨η1, hη1, hstab⟩ := targets_stable hX.targets
  rw [images_length] at hstab
  obtain ⟨η2, hη2, hfix⟩ := hk.stable he
  obtain ⟨η, hη, hle1, hle2⟩ : ∃ η > 0, η ≤ η1 ∧ η ≤ η2 := ⟨min η1 η2, lt_min hη1 hη2, min_le_left _ _, min_le_right _ _⟩
  obtain ⟨δ, hδ, C, hC, hQ⟩ := uniform_bounds
    (Q := fun i δ C => NewtonOn a useGd X.length M η (X.getD i []) (T.getD i 0) δ C ∧
      KeepsOn a useGd X.length (X.getD i []) (T.getD i 0) δ)
    (fun i δ δ' C C' h _ h1 h2 => ⟨h.1.mono h1 h2, fun x hx hd => h.2 x hx (hd.trans h1)⟩) X.length
    (fun i hi => by
      obtain ⟨δ1, p1, C, hC, q1⟩ := (hX.point i hi).newtonOn he
        (fun r hr => by rw [← him X i hi]; exact hX.unattained i hi r hr) hη
      obtain ⟨δ2, p2, q2⟩ := (hX.point i hi).keepsOn
        (hp.imp_right fun ⟨chol, c1, c2, c3⟩ => ⟨chol, c1, c2, c3 i hi⟩)
      exact ⟨min δ1 δ2, lt_min p1 p2, C, hC, q1.mono (min_le_left _ _) le_rfl,
        fun x hx hd => q2 x hx (hd.trans (min_le_right _ _))⟩)
  have hK := fun i hi => (hQ i hi).2
  replace hQ := fun i hi => (hQ i hi).1
  refine ⟨δ, hδ, C, hC, fun s hs => ?_⟩
  obtain ⟨s', M0, M1, T', n, α, h1, h2, h3, h4, h5, h6, h7, h8, -, h9⟩ := C71_iteration ha hs.ready
  obtain ⟨M', hM', hperm⟩ := hs.targets
  have hsz := hs.ready.size
  have hrow : ∀ i < X.length, (s.state.X.getD i []).length = a.p.nVar + a.p.nDual := fun i hi =>
    IsMat.row ⟨hsz, hs.ready.state.dim⟩ hi
  have hnorm : ∀ i < X.length, ‖unk a (X.getD i []) (s.state.X.getD i []) - unk a (X.getD i []) (X.getD i [])‖ ≤ δ :=
    fun i hi => (within_iff hδ.le).mp (hs.close i hi)
  have hM'l : M'.length = X.length := by
    rcases hs.ready.matched with h | ⟨M2, h, hl⟩
    · rw [hM'.matched] at h; simp at h
    · obtain rfl : M' = M2 := Option.some.inj (hM'.matched.symm.trans h.matched)
      exact hl
  have hM0 : M0.Perm M := (h4.kept M' hM'.medoids (by rw [hM'l, hsz])).trans hperm
  have hrest : ∀ i, ¬ (s.iter = 0 ∨ AtRest a.env.dist (images a s.state.X) M0
      (s.step.map fun r => a.norm (r.take a.p.nVar)) i) := by
    rintro i (h | ⟨y, r, -, e1, e2, -, e3, -⟩)
    · exact hs.later h
    · obtain ⟨hi, e1⟩ := List.getElem?_eq_some_iff.mp e1
      have hi' : i < X.length := by rw [images_length, hsz] at hi; exact hi
      have hr : r ∈ M := hM0.mem_iff.mp (List.mem_of_getElem? e2)
      have := (((hQ i hi') _ (hrow i hi') (hnorm i hi')).2.2.1 r hr).2
      rw [← him s.state.X i (by omega), List.getD_eq_getElem _ _ hi, e1] at this
      exact absurd ((le_abs_self _).trans e3) (not_le.mpr this)
  obtain ⟨hl1, hsh⟩ := h4.shifted
  have heta : ∃ dir, s.ref.eta[0]? = some dir :=
    ⟨_, List.getElem?_eq_getElem (by rw [hs.ready.ref.eta]; exact one_pos)⟩
  obtain ⟨dir, hdir⟩ := heta
  have hM1 : M1 = M0 := by
    refine List.ext_getElem hl1 fun i g1 g2 => ?_
    have := (((hsh i).1 _ dir (List.getElem?_eq_getElem g2) hdir).2 (hrest i)).1
    rw [List.getElem?_eq_getElem g1] at this
    exact Option.some.inj this
  have hhist : ∀ i, s'.hist i = s.hist i := by
    intro i
    by_cases hi : i < M0.length
    · exact (((hsh i).1 _ dir (List.getElem?_eq_getElem hi) hdir).2 (hrest i)).2
    · exact (hsh i).2 (not_lt.mp hi)
  subst hM1
  -- the targets are `T` whenever all points are near
  have htar : ∀ Z : List (List ℝ), Z.length = X.length → (∀ i < X.length, (Z.getD i []).length = a.p.nVar + a.p.nDual ∧
      ‖unk a (X.getD i []) (Z.getD i []) - unk a (X.getD i []) (X.getD i [])‖ ≤ δ) →
      ∀ T'', Targets a.env.dist useGd (images a Z) M1 T'' → T'' = T := by
    intro Z hZ hZn T'' hT''
    refine hstab _ (by rw [images_length, hZ]) (fun i hi r hr => ?_) T'' (Verif.Opt.Targets.perm hT'' hM0)
    rw [him X i hi, him Z i (by omega)]
    exact (((hQ i hi) _ (hZn i hi).1 (hZn i hi).2).2.2.1 r hr).1.trans hle1
  have hgd : a.gdActive s'.gd s'.igd = useGd := by
    obtain ⟨D', e1, e2⟩ := h4.gd
    rw [e1, h4.igd, hsz]
    refine hfix (images a s.state.X) M1 D' (by rw [images_length, hsz]) (fun i hi r hr => ?_)
      (Verif.Opt.Targets.perm h4.matched hM0) (e2.imp fun y d hyd => ?_)
    · rw [him X i hi, him s.state.X i (by omega)]
      exact (((hQ i hi) _ (hrow i hi) (hnorm i hi)).2.2.1 r hr).1.trans hle2
    · rw [hM'.referenceSet] at hyd
      simpa only [hperm.mem_iff] using hyd
  have htg := h4.targets
  rw [hgd] at htg
  obtain rfl : T' = T := htar _ hsz (fun i hi => ⟨hrow i hi, hnorm i hi⟩) _ htg
  have hmove := fun i (hi : i < X.length) => near_move ha he hsol hgd hsz (hrow i hi) (h5.row hi) (h7 i hi)
    (hQ i hi) (hK i hi) (hnorm i hi)
  have hα : ∀ i < X.length, α i = 1 := by
    intro i hi
    rcases h9 with ⟨-, h, -⟩ | ⟨-, -, -, h⟩
    · exact h i hi
    · obtain ⟨m, -, -, hm, ⟨tr, -, hhead, -, hrej, -⟩, -⟩ := h i hi
      obtain ⟨m1, m2, m3, m4, m5⟩ := hmove i hi
      have hnear' : ‖unk a (X.getD i []) (moved (s.state.X.getD i []) (s'.step.getD i []) 1) -
          unk a (X.getD i []) (X.getD i [])‖ ≤ δ := m4.trans ((half_le_self (norm_nonneg _)).trans (hnorm i hi))
      obtain ⟨n1, n2, -⟩ := (hQ i hi) _ m1 hnear'
      obtain ⟨-, n3, -⟩ := (hQ i hi) _ (hrow i hi) (hnorm i hi)
      have hm1 : m = 1 := (hm n3).2 fun d hd => by
        have e := m2 d hd
        simp only [pt] at e
        rw [← e]
        exact ⟨(n2 d hd).1.le, (n2 d hd).2.le⟩
      subst hm1
      cases tr with
      | nil => simpa using hhead
      | cons b tr =>
        obtain rfl : b = 1 := by simpa using hhead
        obtain ⟨v, ⟨T'', r, t1, t2, t3, t4⟩, hnot⟩ := hrej 1 List.mem_cons_self
        refine absurd (Or.inl ?_) hnot
        rw [hgd] at t1 t3
        obtain rfl : T'' = T' := htar (s.state.X.set i (moved (s.state.X.getD i []) (s'.step.getD i []) 1))
          (by rw [List.length_set, hsz]) (fun j hj => by
            by_cases hij : i = j
            · subst hij
              rw [List.getD_eq_getElem _ _ (by rw [List.length_set]; omega), List.getElem_set_self]
              exact ⟨m1, hnear'⟩
            · rw [List.getD_eq_getElem _ _ (by rw [List.length_set]; omega), List.getElem_set_ne hij,
                ← List.getD_eq_getElem _ [] (by omega)]
              exact ⟨hrow j hj, hnorm j hj⟩) _ t1
        rw [hsz] at t3
        have hv := n1.le_norm ha he t2 t3
        rw [t4]
        have h0 : 0 ≤ a.norm (s'.R.getD i []) := (abs_nonneg _).trans (norm_lower ha he _ 0)
        linarith
  have hfin : ∀ i < X.length, ∀ ε, 0 ≤ ε → ε ≤ δ → Within a (X.getD i []) (s.state.X.getD i []) ε →
      Within a (X.getD i []) (s'.state.X.getD i []) (C * ε ^ 2) ∧
      Within a (X.getD i []) (s'.state.X.getD i []) (ε / 2) := by
    intro i hi ε h0 _ hw
    obtain ⟨-, -, m3, m4, -⟩ := hmove i hi
    have hw := (within_iff h0).mp hw
    rw [h8 i hi, hα i hi, within_iff (mul_nonneg hC.le (sq_nonneg _)), within_iff (by linarith)]
    exact ⟨m3.trans (mul_le_mul_of_nonneg_left (pow_le_pow_left₀ (norm_nonneg _) hw 2) hC.le), by linarith⟩
  obtain ⟨M2, p1, p2, -⟩ := h4.after
  refine ⟨s', h1, h3, ⟨h2, by rw [h3]; exact hs.later, ⟨M2, p1, p2.trans hM0⟩, fun i hi => ?_⟩, hhist, fun i hi =>
    ⟨by rw [h8 i hi, hα i hi], hfin i hi⟩⟩
  have hw := (within_iff (by linarith)).mp (hfin i hi δ hδ.le le_rfl (hs.close i hi)).2
  exact (within_iff hδ.le).mpr (hw.trans (half_le_self hδ.le))

/-- C85, the loop: the distance of each point to its solution is at least halved in each iteration and converges to zero
quadratically. -/
theorem C85_run {a : Dpn ℝ} (ha : a.Ok) (he : Euclidean a) (hsol : SolverSound a.solve)
    {useGd : Bool} {X : List (List ℝ)} {M T : List (ℕ → ℝ)} (hp : PrecondHarmless a useGd X T) (hk : IndicatorFixed a useGd X M)
    (hX : RegularPop a useGd X M T) :
    ∃ δ > 0, ∃ C > 0, ∀ s, DpnNear a X M δ s → ∀ n, ∃ s', a.run n s = some s' ∧ s'.iter = s.iter + n ∧
      DpnNear a X M δ s' ∧ (∀ i, s'.hist i = s.hist i) ∧
      ∀ i < X.length, ∀ ε, 0 ≤ ε → ε ≤ δ → Within a (X.getD i []) (s.state.X.getD i []) ε →
        Within a (X.getD i []) (s'.state.X.getD i []) (ε / 2 ^ n) ∧
        Within a (X.getD i []) (s'.state.X.getD i []) ((C * ε) ^ 2 ^ n / C) := by
  obtain ⟨δ, hδ, C, hC, h⟩ := C85_iteration ha he hsol hp hk hX
  refine ⟨δ, hδ, C, hC, fun s hs n => ?_⟩
  induction n generalizing s with
  | zero =>
    refine ⟨s, rfl, rfl, hs, fun _ => rfl, fun i hi ε _ _ hw => ⟨by simpa using hw, ?_⟩⟩
    rw [pow_zero, pow_one, mul_div_cancel_left₀ _ hC.ne']
    exact hw
  | succ n ih =>
    obtain ⟨s1, h1, h2, h3, h4, h5⟩ := h s hs
    have hl : DpnNear a X M δ (Dpn.log s1) :=
      ⟨⟨h3.ready.state, h3.ready.size, h3.ready.ref, h3.ready.matched, fun _ => h3.ready.step h3.later⟩,
        Nat.succ_ne_zero _, h3.targets, h3.close⟩
    obtain ⟨s', g1, g2, g3, g4, g5⟩ := ih _ hl
    refine ⟨s', by rw [Dpn.run, h1, Option.bind_some, g1], ?_, g3, fun i => (g4 i).trans (h4 i),
      fun i hi ε h0 hε hw => ?_⟩
    · rw [g2, show (Dpn.log s1).iter = s1.iter + 1 from rfl, h2]; omega
    · obtain ⟨e1, e2⟩ := (h5 i hi).2 ε h0 hε hw
      have q1 := (g5 i hi (ε / 2) (by linarith) (by linarith) e2).1
      refine ⟨by rw [pow_succ', ← div_div]; exact q1, ?_⟩
      -- the smaller of the two bounds
      by_cases hm : C * ε ^ 2 ≤ δ
      · have q2 := (g5 i hi (C * ε ^ 2) (by positivity) hm e1).2
        rw [pow_succ', pow_mul, mul_pow, pow_two C, mul_assoc]
        exact q2
      · have q2 := (g5 i hi (ε / 2) (by linarith) (by linarith) e2).2
        have hpos : 0 ≤ (C * ε) ^ 2 ^ (n + 1) / C := by positivity
        have hpos' : 0 ≤ (C * (ε / 2)) ^ 2 ^ n / C := by positivity
        refine (within_iff hpos).mpr (((within_iff hpos').mp q2).trans ?_)
        refine div_le_div_of_nonneg_right ?_ hC.le
        rw [pow_succ', pow_mul]
        refine pow_le_pow_left₀ (by positivity) ?_ _
        nlinarith

end Verif.Props
