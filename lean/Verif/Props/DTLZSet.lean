import Verif.Props.DTLZ
import Mathlib.Analysis.SpecialFunctions.Trigonometric.Bounds
import Mathlib.Analysis.SpecialFunctions.Trigonometric.Deriv
import Mathlib.Analysis.Convex.SpecificFunctions.Deriv

/-!
# C66: the Pareto sets of the DTLZ problems
-/

namespace Verif.Props

open Verif.Prob

/-- `x` is in the box and no decision vector in the box has objectives that dominate its objectives. -/
def Optimal (n : ℕ) (obj : List ℝ → List ℝ) (x : List ℝ) : Prop :=
  InUnitBox n x ∧ ∀ y, InUnitBox n y → ¬ ParetoLess (obj y) (obj x)

/-- Every decision vector in the box is weakly dominated by a vector of `S`. -/
def Covers (n : ℕ) (obj : List ℝ → List ℝ) (S : Set (List ℝ)) : Prop :=
  ∀ y, InUnitBox n y → ∃ x ∈ S, List.Forall₂ (· ≤ ·) (obj x) (obj y)

/-- The vectors that `get_pareto_set` may draw (`np.random.rand` draws from `[0, 1)`; the end point is added so that
the set is closed): `M - 1` numbers of the unit interval and then `n - (M - 1)` times `v`. -/
def Drawn (v : ℝ) (M n : ℕ) : Set (List ℝ) :=
  {x | x.length = n ∧ (∀ z ∈ x.take (M - 1), 0 ≤ z ∧ z ≤ 1) ∧ ∀ z ∈ x.drop (M - 1), z = v}

/-- C66: `get_pareto_set` returns as many vectors as were drawn, all of the form described by `Drawn`. -/
theorem C66_drawn {M n k : ℕ} (hk : k = n + 1 - M) (hM : 1 ≤ M) (hn : M ≤ n + 1) (v : ℝ) (rows : List (List ℝ))
    (hrows : ∀ r ∈ rows, r.length = n - k ∧ ∀ z ∈ r, 0 ≤ z ∧ z < 1) :
    (dtlzSet v k rows).length = rows.length ∧ ∀ x ∈ dtlzSet v k rows, x ∈ Drawn v M n := by
  refine ⟨by simp [dtlzSet], ?_⟩
  intro x hx
  obtain ⟨r, hr, rfl⟩ := List.mem_map.mp hx
  obtain ⟨hl, hb⟩ := hrows r hr
  have hl' : M - 1 = r.length := by omega
  refine ⟨by simp; omega, ?_, ?_⟩
  · rw [hl', List.take_left]
    exact fun z hz => ⟨(hb z hz).1, (hb z hz).2.le⟩
  · rw [hl', List.drop_left]
    exact fun z hz => (List.mem_replicate.mp hz).2

theorem drawn_box {v : ℝ} {M n : ℕ} {x : List ℝ} (hv : 0 ≤ v ∧ v ≤ 1) (hx : x ∈ Drawn v M n) : InUnitBox n x := by
  refine ⟨hx.1, fun z hz => ?_⟩
  rw [← List.take_append_drop (M - 1) x] at hz
  rcases List.mem_append.mp hz with h | h
  · exact hx.2.1 z h
  · rw [hx.2.2 z h]
    exact hv

/-- The vector that keeps the position variables and has the distance variables `v`. -/
theorem drawn_of_box {n : ℕ} {y : List ℝ} (v : ℝ) (M : ℕ) (hy : InUnitBox n y) :
    ∃ x ∈ Drawn v M n, x.take (M - 1) = y.take (M - 1) ∧ x.drop (M - 1) = List.replicate (n - (M - 1)) v := by
  rcases le_or_gt (M - 1) n with h | h
  · have hl : (y.take (M - 1)).length = M - 1 := by
      rw [List.length_take, hy.1]
      omega
    have h1 : (y.take (M - 1) ++ List.replicate (n - (M - 1)) v).take (M - 1) = y.take (M - 1) := by
      rw [List.take_append_of_le_length hl.ge, List.take_of_length_le hl.le]
    have h2 : (y.take (M - 1) ++ List.replicate (n - (M - 1)) v).drop (M - 1) =
        List.replicate (n - (M - 1)) v := by
      rw [List.drop_append_of_le_length hl.ge, List.drop_of_length_le hl.le, List.nil_append]
    refine ⟨y.take (M - 1) ++ List.replicate (n - (M - 1)) v, ⟨?_, ?_, ?_⟩, h1, h2⟩
    · rw [List.length_append, hl, List.length_replicate]
      omega
    · rw [h1]
      exact fun z hz => hy.2 z (List.mem_of_mem_take hz)
    · rw [h2]
      exact fun z hz => (List.mem_replicate.mp hz).2
  · have h1 : y.take (M - 1) = y := List.take_of_length_le (by rw [hy.1]; omega)
    have h2 : y.drop (M - 1) = [] := List.drop_of_length_le (by rw [hy.1]; omega)
    refine ⟨y, ⟨hy.1, ?_, ?_⟩, rfl, ?_⟩
    · rw [h1]
      exact hy.2
    · rw [h2]
      simp
    · rw [h2, show n - (M - 1) = 0 by omega, List.replicate_zero]

/-! ### Optimality -/

theorem theta_bounds {x : List ℝ} {g : ℝ} (hg : 0 ≤ g) (hx : ∀ z ∈ x, 0 ≤ z ∧ z ≤ 1) :
    ∀ t ∈ thetaCurve x g, 0 ≤ t ∧ t ≤ 1 := by
  cases x with
  | nil => simp [thetaCurve]
  | cons z x =>
    intro t ht
    rcases List.mem_cons.mp ht with rfl | ht
    · exact hx _ (by simp)
    · obtain ⟨a, ha, rfl⟩ := List.mem_map.mp ht
      obtain ⟨h0, h1⟩ := hx a (by simp [ha])
      have hp := mul_nonneg hg h0
      refine ⟨by positivity, ?_⟩
      rw [div_le_one (by linarith)]
      nlinarith

theorem objective_nonneg_curve {P : DTLZ} (hP : P.transform = transformCurve) (hs : P.scale = 1) {n : ℕ}
    {x : List ℝ} (hx : InUnitBox n x) (hg : 0 ≤ gAt P x) : ∀ f ∈ P.objective x, 0 ≤ f := by
  unfold DTLZ.objective
  dsimp only
  rw [hP]
  dsimp only [transformCurve]
  rw [productForm_eq _ _ _ (by simp), hs, one_mul]
  intro f hf
  have hg' : 0 ≤ P.g (distance P.nObj x) := hg
  have hang : ∀ z ∈ thetaCurve (position P.nObj x) (P.g (distance P.nObj x)),
      0 ≤ z * Real.pi / 2 ∧ z * Real.pi / 2 ≤ Real.pi / 2 := by
    intro z hz
    obtain ⟨h0, h1⟩ := theta_bounds hg' (fun a ha => hx.2 a (List.mem_of_mem_take ha)) z hz
    have := Real.pi_pos
    exact ⟨by positivity, by nlinarith⟩
  refine stick_nonneg (by linarith) ?_ ?_ f (List.mem_reverse.mp hf)
  · intro a ha
    obtain ⟨z, hz, rfl⟩ := List.mem_map.mp ha
    obtain ⟨h1, h2⟩ := hang z hz
    exact Real.cos_nonneg_of_mem_Icc ⟨by linarith, h2⟩
  · intro a ha
    obtain ⟨z, hz, rfl⟩ := List.mem_map.mp ha
    obtain ⟨h1, h2⟩ := hang z hz
    exact Real.sin_nonneg_of_nonneg_of_le_pi h1 (by linarith [Real.pi_pos])

theorem optimal_sphere {P : DTLZ} {n : ℕ} {x : List ℝ} (hx : InUnitBox n x)
    (hs : ∀ y, ((P.objective y).map fun f => f ^ 2).sum = (1 + gAt P y) ^ 2)
    (h0 : ∀ y, InUnitBox n y → ∀ f ∈ P.objective y, 0 ≤ f)
    (hg : ∀ y, InUnitBox n y → gAt P x ≤ gAt P y) (hx0 : 0 ≤ gAt P x) : Optimal n P.objective x := by
  refine ⟨hx, ?_⟩
  rintro y hy ⟨h1, h2⟩
  obtain ⟨h3, h4⟩ := forall₂_sq h1 (h0 y hy)
  rw [hs, hs] at h3 h4
  have h5 := hg y hy
  refine h2 (h4 (le_antisymm h3 ?_))
  exact pow_le_pow_left₀ (by linarith) (by linarith) 2

/-- C66: `get_pareto_set` of DTLZ1 - DTLZ5 and of the inverted DTLZ1 returns Pareto-optimal vectors. -/
theorem C66_optimal {M n k : ℕ} (hk : k = n - (M - 1)) (hM : 1 ≤ M) (hn : M ≤ n + 1) {x : List ℝ}
    (hx : x ∈ Drawn 0.5 M n) : (∀ P ∈ [DTLZ1 M k, DTLZ2 M, DTLZ3 M k, DTLZ4 M, DTLZ5 M], Optimal n P.objective x) ∧
      Optimal n (DTLZ1 M k).inverted x := by
  have hb := drawn_box (by norm_num) hx
  have hlen : ∀ y : List ℝ, y.length = n → (y.drop (M - 1)).length = k := fun y hy => by
    rw [List.length_drop, hy, hk]
  have hs0 : gSphere (x.drop (M - 1)) = 0 := (C51_gSphere _).2.mpr hx.2.2
  have hr0 : gRastrigin k (x.drop (M - 1)) = 0 := by
    have := C51_gRastrigin (x.drop (M - 1))
    rw [hlen x hx.1] at this
    exact this.2.mpr hx.2.2
  have hr : ∀ y, InUnitBox n y → 0 ≤ gRastrigin k (y.drop (M - 1)) := by
    intro y hy
    have := C51_gRastrigin (y.drop (M - 1))
    rw [hlen y hy.1] at this
    exact this.1
  have hone : Optimal n (DTLZ1 M k).objective x := by
    refine ⟨hb, fun y hy => C51_optimal1 hk hy.1 ?_⟩
    rw [C51_dtlz1, show gAt (DTLZ1 M k) x = 0 from hr0]
    norm_num
  refine ⟨?_, hb, ?_⟩
  · intro P hP
    have hsq := fun y => C51_sphere M k 0 y P
    simp only [List.mem_cons, List.not_mem_nil, or_false] at hP hsq
    rcases hP with rfl | rfl | rfl | rfl | rfl
    · exact hone
    · exact optimal_sphere hb (fun y => hsq y (by simp))
        (fun y hy => objective_nonneg_sphere rfl zero_le_one rfl hy (C51_gSphere _).1)
        (fun y hy => hs0.le.trans (C51_gSphere _).1) hs0.ge
    · exact optimal_sphere hb (fun y => hsq y (by simp))
        (fun y hy => objective_nonneg_sphere rfl zero_le_one rfl hy (hr y hy))
        (fun y hy => hr0.le.trans (hr y hy)) hr0.ge
    · exact optimal_sphere hb (fun y => hsq y (by simp))
        (fun y hy => objective_nonneg_sphere rfl (by norm_num) rfl hy (C51_gSphere _).1)
        (fun y hy => hs0.le.trans (C51_gSphere _).1) hs0.ge
    · exact optimal_sphere hb (fun y => hsq y (by simp))
        (fun y hy => objective_nonneg_curve rfl rfl hy (C51_gSphere _).1)
        (fun y hy => hs0.le.trans (C51_gSphere _).1) hs0.ge
  · rintro y hy ⟨h1, h2⟩
    obtain ⟨h3, h4⟩ := forall₂_sum h1
    have e1 := C51_inverted1 (k := k) hM (show M ≤ y.length + 1 by rw [hy.1]; exact hn)
    have e2 := C51_inverted1 (k := k) hM (show M ≤ x.length + 1 by rw [hx.1]; exact hn)
    rw [show gAt (DTLZ1 M k) x = 0 from hr0] at e2
    have h5 : 0 ≤ gAt (DTLZ1 M k) y := hr y hy
    have hM' : (0 : ℝ) ≤ (M : ℝ) - 1 := by
      have : (1 : ℝ) ≤ M := by exact_mod_cast hM
      linarith
    rw [e1, e2] at h3 h4
    have h6 := mul_nonneg hM' h5
    exact h2 (h4 (by linarith))

/-- C66: `get_pareto_set` of DTLZ6 returns Pareto-optimal vectors (of the problem with the capped variables, where
`g` is never below `k / 1000`). -/
theorem C66_optimal6 {M n : ℕ} {x : List ℝ} (hx : x ∈ Drawn 0 M n) :
    Optimal n (DTLZ6 M 1e-30).objective x := by
  have hmin : ∀ y, InUnitBox n y → ((n - (M - 1) : ℕ) : ℝ) / 1000 ≤ gAt (DTLZ6 M 1e-30) y := by
    intro y hy
    have := (C51_violated_dtlz6 (y.drop (M - 1))).1
    rwa [List.length_drop, hy.1] at this
  have hval : gAt (DTLZ6 M 1e-30) x = ((n - (M - 1) : ℕ) : ℝ) / 1000 := by
    have h1 : x.drop (M - 1) = List.replicate (x.drop (M - 1)).length 0 := List.eq_replicate_of_mem hx.2.2
    have h2 := (C51_violated_dtlz6 (x.drop (M - 1))).2
    rw [← h1, List.length_drop, hx.1] at h2
    exact h2
  have hnn : ∀ y, InUnitBox n y → 0 ≤ gAt (DTLZ6 M 1e-30) y := fun y hy => le_trans (by positivity) (hmin y hy)
  have hb := drawn_box (by norm_num) hx
  exact optimal_sphere hb (fun y => C51_sphere M 0 1e-30 y _ (by simp))
    (fun y hy => objective_nonneg_curve rfl rfl hy (hnn y hy)) (fun y hy => hval.le.trans (hmin y hy)) (hnn x hb)

/-! ### Coverage -/

theorem stick_scale (s c : ℝ) (x1 x2 : List ℝ) : stick (s * c) x1 x2 = (stick c x1 x2).map (s * ·) := by
  induction x1 generalizing c x2 with
  | nil => simp [stick]
  | cons a x1 ih =>
    cases x2 with
    | nil => simp [stick]
    | cons b x2 => simp [stick, ← ih, mul_assoc]

theorem productForm_scale (s : ℝ) {x1 x2 : List ℝ} (h : x1.length = x2.length) :
    productForm s x1 x2 = (productForm 1 x1 x2).map (s * ·) := by
  rw [productForm_eq _ _ _ h, productForm_eq _ _ _ h, List.map_reverse, ← stick_scale, mul_one]

theorem productForm_nonneg {x1 x2 : List ℝ} (h : x1.length = x2.length) (h1 : ∀ a ∈ x1, 0 ≤ a)
    (h2 : ∀ b ∈ x2, 0 ≤ b) : ∀ f ∈ productForm 1 x1 x2, 0 ≤ f := by
  rw [productForm_eq _ _ _ h]
  exact fun f hf => stick_nonneg zero_le_one h1 h2 f (List.mem_reverse.mp hf)

theorem forall₂_map_of {u : List ℝ} {p q : ℝ → ℝ} (h : ∀ f ∈ u, p f ≤ q f) :
    List.Forall₂ (· ≤ ·) (u.map p) (u.map q) := by
  induction u with
  | nil => simp
  | cons a u ih =>
    simp only [List.map_cons]
    exact List.Forall₂.cons (h a (by simp)) (ih fun f hf => h f (by simp [hf]))

/-- The case in which the transformed variables do not depend on `g`. -/
theorem covers_scale {P : DTLZ} {n : ℕ} {v : ℝ} (hs : 0 ≤ P.scale)
    (hl : ∀ x g, (P.transform x g).1.length = (P.transform x g).2.length)
    (hi : ∀ x g g', P.transform x g = P.transform x g')
    (h0 : ∀ x : List ℝ, (∀ z ∈ x, 0 ≤ z ∧ z ≤ 1) → ∀ g, (∀ a ∈ (P.transform x g).1, 0 ≤ a) ∧
      ∀ a ∈ (P.transform x g).2, 0 ≤ a)
    (hg : ∀ x ∈ Drawn v P.nObj n, ∀ y, InUnitBox n y → gAt P x ≤ gAt P y) :
    Covers n P.objective (Drawn v P.nObj n) := by
  intro y hy
  obtain ⟨x, hx, h1, -⟩ := drawn_of_box v P.nObj hy
  refine ⟨x, hx, ?_⟩
  have h2 := hg x hx y hy
  unfold gAt at h2
  unfold DTLZ.objective
  dsimp only [position, distance]
  rw [h1, hi _ (P.g (x.drop (P.nObj - 1))) (P.g (y.drop (P.nObj - 1))), productForm_scale _ (hl _ _),
    productForm_scale (P.scale * (1 + P.g (y.drop (P.nObj - 1)))) (hl _ _)]
  obtain ⟨h3, h4⟩ := h0 (y.take (P.nObj - 1)) (fun z hz => hy.2 z (List.mem_of_mem_take hz))
    (P.g (y.drop (P.nObj - 1)))
  refine forall₂_map_of fun f hf => mul_le_mul_of_nonneg_right ?_ (productForm_nonneg (hl _ _) h3 h4 f hf)
  exact mul_le_mul_of_nonneg_left (by linarith) hs

theorem transformSphere_nonneg {alpha : ℝ} (ha : 0 ≤ alpha) {x : List ℝ} (hx : ∀ z ∈ x, 0 ≤ z ∧ z ≤ 1) (g : ℝ) :
    (∀ a ∈ (transformSphere alpha x g).1, 0 ≤ a) ∧ ∀ a ∈ (transformSphere alpha x g).2, 0 ≤ a := by
  have hang : ∀ z ∈ x, 0 ≤ z ^ alpha * Real.pi / 2 ∧ z ^ alpha * Real.pi / 2 ≤ Real.pi / 2 := by
    intro z hz
    obtain ⟨h0, h1⟩ := hx z hz
    have h2 : 0 ≤ z ^ alpha := Real.rpow_nonneg h0 _
    have h3 : z ^ alpha ≤ 1 := Real.rpow_le_one h0 h1 ha
    have := Real.pi_pos
    exact ⟨by positivity, by nlinarith⟩
  constructor
  · intro a ha
    obtain ⟨z, hz, rfl⟩ := List.mem_map.mp ha
    obtain ⟨h1, h2⟩ := hang z hz
    exact Real.cos_nonneg_of_mem_Icc ⟨by linarith, h2⟩
  · intro a ha
    obtain ⟨z, hz, rfl⟩ := List.mem_map.mp ha
    obtain ⟨h1, h2⟩ := hang z hz
    exact Real.sin_nonneg_of_nonneg_of_le_pi h1 (by linarith [Real.pi_pos])

/-- C66: for DTLZ1 - DTLZ4 every decision vector in the box is weakly dominated by one that `get_pareto_set` may
draw. -/
theorem C66_covers {M n k : ℕ} (hk : k = n - (M - 1)) : ∀ P ∈ [DTLZ1 M k, DTLZ2 M, DTLZ3 M k, DTLZ4 M],
    Covers n P.objective (Drawn 0.5 M n) := by
  have hs0 : ∀ x ∈ Drawn 0.5 M n, gSphere (x.drop (M - 1)) = 0 := fun x hx => (C51_gSphere _).2.mpr hx.2.2
  have hr0 : ∀ x ∈ Drawn 0.5 M n, gRastrigin k (x.drop (M - 1)) = 0 := by
    intro x hx
    have := C51_gRastrigin (x.drop (M - 1))
    rw [List.length_drop, hx.1, ← hk] at this
    exact this.2.mpr hx.2.2
  have hr : ∀ y, InUnitBox n y → 0 ≤ gRastrigin k (y.drop (M - 1)) := by
    intro y hy
    have := C51_gRastrigin (y.drop (M - 1))
    rw [List.length_drop, hy.1, ← hk] at this
    exact this.1
  intro P hP
  simp only [List.mem_cons, List.not_mem_nil, or_false] at hP
  rcases hP with rfl | rfl | rfl | rfl
  · refine covers_scale (P := DTLZ1 M k) (by norm_num [DTLZ1]) (fun x g => by simp [DTLZ1, transformLinear])
      (fun _ _ _ => rfl) (fun x hx g => ⟨fun a ha => (hx a ha).1, fun a ha => ?_⟩)
      (fun x hx y hy => (hr0 x hx).le.trans (hr y hy))
    obtain ⟨z, hz, rfl⟩ := List.mem_map.mp ha
    linarith [(hx z hz).2]
  · exact covers_scale (P := DTLZ2 M) zero_le_one (fun x g => by simp [DTLZ2, transformSphere])
      (fun _ _ _ => rfl) (fun x hx g => transformSphere_nonneg zero_le_one hx g)
      (fun x hx y _ => (hs0 x hx).le.trans (C51_gSphere _).1)
  · exact covers_scale (P := DTLZ3 M k) zero_le_one (fun x g => by simp [DTLZ3, transformSphere])
      (fun _ _ _ => rfl) (fun x hx g => transformSphere_nonneg zero_le_one hx g)
      (fun x hx y hy => (hr0 x hx).le.trans (hr y hy))
  · exact covers_scale (P := DTLZ4 M) zero_le_one (fun x g => by simp [DTLZ4, transformSphere])
      (fun _ _ _ => rfl) (fun x hx g => transformSphere_nonneg (by norm_num) hx g)
      (fun x hx y _ => (hs0 x hx).le.trans (C51_gSphere _).1)

/-- C66: the same for the inverted DTLZ1. -/
theorem C66_covers_inverted {M n k : ℕ} (hk : k = n - (M - 1)) :
    Covers n (DTLZ1 M k).inverted (Drawn 0.5 M n) := by
  intro y hy
  obtain ⟨x, hx, h1, -⟩ := drawn_of_box 0.5 M hy
  refine ⟨x, hx, ?_⟩
  have hr0 : gRastrigin k (x.drop (M - 1)) = 0 := by
    have := C51_gRastrigin (x.drop (M - 1))
    rw [List.length_drop, hx.1, ← hk] at this
    exact this.2.mpr hx.2.2
  have hr : 0 ≤ gRastrigin k (y.drop (M - 1)) := by
    have := C51_gRastrigin (y.drop (M - 1))
    rw [List.length_drop, hy.1, ← hk] at this
    exact this.1
  unfold DTLZ.inverted
  dsimp only [DTLZ1, position, distance, transformLinear]
  rw [h1, hr0, productForm_scale _ (by simp), productForm_scale (0.5 * (1 + gRastrigin k (y.drop (M - 1)))) (by simp),
    List.map_map, List.map_map]
  refine forall₂_map_of fun f hf => ?_
  have hnn : ∀ f ∈ productForm 1 (y.take (M - 1)) ((y.take (M - 1)).map fun z => 1 - z), 0 ≤ f := by
    refine productForm_nonneg (by simp) (fun a ha => (hy.2 a (List.mem_of_mem_take ha)).1) fun a ha => ?_
    obtain ⟨z, hz, rfl⟩ := List.mem_map.mp ha
    linarith [(hy.2 z (List.mem_of_mem_take hz)).2]
  have hsum : (productForm 1 (y.take (M - 1)) ((y.take (M - 1)).map fun z => 1 - z)).sum = 1 := by
    rw [productForm_eq _ _ _ (by simp), List.sum_reverse, stick_sum]
  have hle : f ≤ 1 := by
    rw [← hsum]
    exact List.single_le_sum hnn f hf
  have := mul_nonneg hr (sub_nonneg.mpr hle)
  simp only [Function.comp_apply]
  norm_num
  linarith

/-- The sine is at least proportional: for a larger factor and a not smaller product. -/
theorem sin_scale {s s' u u' : ℝ} (hs : 0 < s) (hss : s ≤ s') (hu : 0 ≤ u) (hu2 : u ≤ Real.pi / 2)
    (hu' : u' ≤ Real.pi / 2) (h : s * u ≤ s' * u') : s * Real.sin u ≤ s' * Real.sin u' := by
  have hs' : 0 < s' := lt_of_lt_of_le hs hss
  have hpi := Real.pi_pos
  have h1 : s / s' * u ≤ u' := by
    rw [div_mul_eq_mul_div, div_le_iff₀ hs']
    linarith
  have h0 : 0 ≤ s / s' * u := by positivity
  have h2 : s / s' * Real.sin u ≤ Real.sin (s / s' * u) := by
    have hc := strictConcaveOn_sin_Icc.concaveOn
    have := hc.2 (show u ∈ Set.Icc 0 Real.pi from ⟨hu, by linarith⟩)
      (show (0 : ℝ) ∈ Set.Icc 0 Real.pi from ⟨le_rfl, hpi.le⟩) (show 0 ≤ s / s' by positivity)
      (show 0 ≤ 1 - s / s' by rw [sub_nonneg, div_le_one hs']; exact hss) (by ring)
    simpa using this
  have h3 : Real.sin (s / s' * u) ≤ Real.sin u' :=
    Real.sin_le_sin_of_le_of_le_pi_div_two (by linarith) hu' h1
  have h4 := h2.trans h3
  rw [div_mul_eq_mul_div, div_le_iff₀ hs'] at h4
  linarith

theorem curve_le {g g' b : ℝ} (hg : 0 ≤ g) (hgg : g ≤ g') (hb : 0 ≤ b ∧ b ≤ 1) :
    (1 + g) * Real.cos ((1 + 2 * g * b) / (2 * (1 + g)) * Real.pi / 2) ≤
        (1 + g') * Real.cos ((1 + 2 * g' * b) / (2 * (1 + g')) * Real.pi / 2) ∧
      (1 + g) * Real.sin ((1 + 2 * g * b) / (2 * (1 + g)) * Real.pi / 2) ≤
        (1 + g') * Real.sin ((1 + 2 * g' * b) / (2 * (1 + g')) * Real.pi / 2) := by
  have hpi := Real.pi_pos
  have hbd : ∀ g b : ℝ, 0 ≤ g → 0 ≤ b → b ≤ 1 → 0 ≤ (1 + 2 * g * b) / (2 * (1 + g)) * Real.pi / 2 ∧
      (1 + 2 * g * b) / (2 * (1 + g)) * Real.pi / 2 ≤ Real.pi / 2 := by
    intro g b hg h0 h1
    refine ⟨by positivity, ?_⟩
    have : (1 + 2 * g * b) / (2 * (1 + g)) ≤ 1 := by
      rw [div_le_one (by linarith)]
      nlinarith
    nlinarith
  have hm : ∀ g b : ℝ, 0 ≤ g → (1 + g) * ((1 + 2 * g * b) / (2 * (1 + g)) * Real.pi / 2) =
      (1 + 2 * g * b) * Real.pi / 4 := by
    intro g b hg
    field_simp
    ring
  have hsym : ∀ g b : ℝ, 0 ≤ g → Real.cos ((1 + 2 * g * b) / (2 * (1 + g)) * Real.pi / 2) =
      Real.sin ((1 + 2 * g * (1 - b)) / (2 * (1 + g)) * Real.pi / 2) := by
    intro g b hg
    rw [← Real.sin_pi_div_two_sub]
    congr 1
    field_simp
    ring
  have hg' := hg.trans hgg
  have key : ∀ b : ℝ, 0 ≤ b → b ≤ 1 → (1 + g) * Real.sin ((1 + 2 * g * b) / (2 * (1 + g)) * Real.pi / 2) ≤
        (1 + g') * Real.sin ((1 + 2 * g' * b) / (2 * (1 + g')) * Real.pi / 2) := by
    intro b h0 h1
    refine sin_scale (by linarith) (by linarith) (hbd g b hg h0 h1).1 (hbd g b hg h0 h1).2 (hbd g' b hg' h0 h1).2 ?_
    rw [hm g b hg, hm g' b hg']
    have := mul_le_mul_of_nonneg_right hgg h0
    nlinarith
  refine ⟨?_, key b hb.1 hb.2⟩
  rw [hsym g b hg, hsym g' b hg']
  exact key (1 - b) (by linarith [hb.2]) (by linarith [hb.1])

/-- The curve problems with two or three objectives. -/
theorem covers_curve {P : DTLZ} {n : ℕ} {v : ℝ} (hM : P.nObj = 2 ∨ P.nObj = 3) (hn : P.nObj ≤ n + 1)
    (hs : P.scale = 1) (ht : P.transform = transformCurve) (h0 : ∀ x, 0 ≤ P.g x)
    (hg : ∀ x ∈ Drawn v P.nObj n, ∀ y, InUnitBox n y → gAt P x ≤ gAt P y) :
    Covers n P.objective (Drawn v P.nObj n) := by
  intro y hy
  obtain ⟨x, hx, h1, -⟩ := drawn_of_box v P.nObj hy
  refine ⟨x, hx, ?_⟩
  have h2 := hg x hx y hy
  unfold gAt at h2
  have hgx := h0 (x.drop (P.nObj - 1))
  have hl : (y.take (P.nObj - 1)).length = P.nObj - 1 := by
    rw [List.length_take, hy.1]
    omega
  have hbox := fun z (hz : z ∈ y.take (P.nObj - 1)) => hy.2 z (List.mem_of_mem_take hz)
  have hang : ∀ a : ℝ, 0 ≤ a ∧ a ≤ 1 → 0 ≤ Real.cos (a * Real.pi / 2) ∧ 0 ≤ Real.sin (a * Real.pi / 2) := by
    intro a ha
    have hpi := Real.pi_pos
    have h3 : 0 ≤ a * Real.pi / 2 := by
      have := mul_nonneg ha.1 hpi.le
      linarith
    have h4 : a * Real.pi / 2 ≤ Real.pi / 2 := by nlinarith
    exact ⟨Real.cos_nonneg_of_mem_Icc ⟨by linarith, h4⟩, Real.sin_nonneg_of_nonneg_of_le_pi h3 (by linarith)⟩
  unfold DTLZ.objective
  dsimp only [position, distance]
  rw [h1, hs, ht]
  simp only [one_mul]
  generalize P.g (x.drop (P.nObj - 1)) = g at h2 hgx ⊢
  generalize P.g (y.drop (P.nObj - 1)) = g' at h2 ⊢
  generalize y.take (P.nObj - 1) = r at hl hbox ⊢
  rw [productForm_eq _ _ _ (by simp [transformCurve]), productForm_eq _ _ _ (by simp [transformCurve])]
  rw [List.forall₂_reverse_iff]
  rcases hM with hM | hM
  · rw [hM] at hl
    obtain ⟨a, rfl⟩ := List.length_eq_one_iff.mp hl
    obtain ⟨h3, h4⟩ := hang a (hbox a (by simp))
    simp only [transformCurve, thetaCurve, List.map_cons, List.map_nil, stick]
    refine List.Forall₂.cons ?_ (List.Forall₂.cons ?_ List.Forall₂.nil)
    · exact mul_le_mul_of_nonneg_right (by linarith) h4
    · exact mul_le_mul_of_nonneg_right (by linarith) h3
  · rw [hM] at hl
    obtain ⟨a, b, rfl⟩ := List.length_eq_two.mp hl
    obtain ⟨h3, h4⟩ := hang a (hbox a (by simp))
    obtain ⟨h5, h6⟩ := curve_le hgx h2 (hbox b (by simp))
    simp only [transformCurve, thetaCurve, List.map_cons, List.map_nil, stick]
    refine List.Forall₂.cons ?_ (List.Forall₂.cons ?_ (List.Forall₂.cons ?_ List.Forall₂.nil))
    · exact mul_le_mul_of_nonneg_right (by linarith) h4
    · rw [mul_right_comm, mul_right_comm (1 + g')]
      exact mul_le_mul_of_nonneg_right h6 h3
    · rw [mul_right_comm, mul_right_comm (1 + g')]
      exact mul_le_mul_of_nonneg_right h5 h3

/-- C66, partly: for two and three objectives `get_pareto_set` of DTLZ5 and DTLZ6 misses no part of the front. The
full statement, for any number of objectives, is false for DTLZ5 (`C66_violated_dtlz5`). -/
theorem C66_covers_curve_partial {M n : ℕ} (hM : M = 2 ∨ M = 3) (hn : M ≤ n + 1) :
    Covers n (DTLZ5 M).objective (Drawn 0.5 M n) ∧ Covers n (DTLZ6 M 1e-30).objective (Drawn 0 M n) := by
  refine ⟨covers_curve (P := DTLZ5 M) hM hn rfl rfl (fun x => (C51_gSphere x).1) fun x hx y _ => ?_,
    covers_curve (P := DTLZ6 M 1e-30) hM hn rfl rfl (fun x => ?_) fun x hx y hy => ?_⟩
  · exact ((C51_gSphere _).2.mpr hx.2.2).le.trans (C51_gSphere _).1
  · exact le_trans (by positivity) (C51_violated_dtlz6 x).1
  · have h1 : x.drop (M - 1) = List.replicate (x.drop (M - 1)).length 0 := List.eq_replicate_of_mem hx.2.2
    have h2 := (C51_violated_dtlz6 (x.drop (M - 1))).2
    have h3 := (C51_violated_dtlz6 (y.drop (M - 1))).1
    rw [← h1, List.length_drop, hx.1] at h2
    rw [List.length_drop, hy.1] at h3
    exact h2.le.trans h3

theorem cos_three_tenths : Real.cos (3 / 5 * Real.pi / 2) ^ 2 < 2 / 5 := by
  have h1 : Real.cos (3 / 5 * Real.pi / 2) ^ 2 = 1 / 2 + Real.cos (2 * (3 / 5 * Real.pi / 2)) / 2 := Real.cos_sq _
  have h2 : 2 * (3 / 5 * Real.pi / 2) = Real.pi - 2 * (Real.pi / 5) := by ring
  rw [h1, h2, Real.cos_pi_sub, Real.cos_two_mul, Real.cos_pi_div_five]
  have h3 : (2 : ℝ) < √5 := by
    rw [Real.lt_sqrt (by norm_num)]
    norm_num
  have h4 : (√5 : ℝ) ^ 2 = 5 := Real.sq_sqrt (by norm_num)
  nlinarith

/-- C66 is violated by DTLZ5 with four objectives and four variables: no vector that `get_pareto_set` may draw
weakly dominates `(0, 1, 1, 1)`, so the set misses a part of the front. -/
theorem C66_violated_dtlz5 : InUnitBox 4 [0, 1, 1, 1] ∧
    ∀ x ∈ Drawn 0.5 4 4, ¬ List.Forall₂ (· ≤ ·) ((DTLZ5 4).objective x) ((DTLZ5 4).objective [0, 1, 1, 1]) := by
  refine ⟨⟨rfl, by simp⟩, ?_⟩
  intro x hx h
  obtain ⟨a, b, c, d, rfl⟩ : ∃ a b c d, x = [a, b, c, d] := by
    have := hx.1
    match x, this with
    | [a, b, c, d], _ => exact ⟨a, b, c, d, rfl⟩
  have hd : d = 0.5 := hx.2.2 d (by simp)
  subst hd
  obtain ⟨ha0, ha1⟩ := hx.2.1 a (by simp)
  have f1 : (DTLZ5 4).objective [a, b, c, 0.5] = ([Real.sin (a * Real.pi / 2),
      Real.cos (a * Real.pi / 2) * (√2 / 2), Real.cos (a * Real.pi / 2) * (√2 / 2) * (√2 / 2),
      Real.cos (a * Real.pi / 2) * (√2 / 2) * (√2 / 2)]).reverse := by
    unfold DTLZ.objective
    dsimp only [DTLZ5]
    rw [productForm_eq _ _ _ (by simp [transformCurve])]
    simp [gSphere, distance, position, transformCurve, thetaCurve, stick]
    rw [show (2 : ℝ)⁻¹ * Real.pi / 2 = Real.pi / 4 by ring, Real.cos_pi_div_four, Real.sin_pi_div_four]
    exact ⟨rfl, rfl, Or.inl rfl⟩
  have f2 : (DTLZ5 4).objective [0, 1, 1, 1] = ([0, 5 / 4 * Real.sin (3 / 5 * Real.pi / 2),
      5 / 4 * Real.cos (3 / 5 * Real.pi / 2) * Real.sin (3 / 5 * Real.pi / 2),
      5 / 4 * Real.cos (3 / 5 * Real.pi / 2) * Real.cos (3 / 5 * Real.pi / 2)]).reverse := by
    unfold DTLZ.objective
    dsimp only [DTLZ5]
    rw [productForm_eq _ _ _ (by simp [transformCurve])]
    simp [gSphere, distance, position, transformCurve, thetaCurve, stick]
    rw [show (1 + (1 - 0.5) ^ 2 : ℝ) = 5 / 4 by norm_num,
      show ((1 + 2 * (1 - 0.5) ^ 2) / (2 * (5 / 4)) : ℝ) = 3 / 5 by norm_num]
    exact ⟨rfl, rfl, rfl⟩
  rw [f1, f2, List.forall₂_reverse_iff] at h
  simp only [List.forall₂_cons, List.forall₂_nil_left_iff, and_true] at h
  obtain ⟨h1, -, -, h4⟩ := h
  have hpi := Real.pi_pos
  have h5 : 0 ≤ Real.sin (a * Real.pi / 2) := by
    refine Real.sin_nonneg_of_nonneg_of_le_pi (by positivity) ?_
    nlinarith
  have h6 : 0 ≤ Real.cos (a * Real.pi / 2) := by
    have : 0 ≤ a * Real.pi / 2 := by positivity
    exact Real.cos_nonneg_of_mem_Icc ⟨by linarith, by nlinarith⟩
  have h7 := Real.cos_sq_add_sin_sq (a * Real.pi / 2)
  have h8 : Real.sin (a * Real.pi / 2) = 0 := le_antisymm h1 h5
  rw [h8] at h7
  have h9 : Real.cos (a * Real.pi / 2) = 1 := by nlinarith
  rw [h9] at h4
  have h10 : (√2 : ℝ) * √2 = 2 := Real.mul_self_sqrt (by norm_num)
  have := cos_three_tenths
  nlinarith

/-- C66 is violated by the inverted DTLZ2: a vector that `get_pareto_set` may draw is not optimal. -/
theorem C66_violated_inverted : [0.5, 0.5] ∈ Drawn 0.5 2 2 ∧ ¬ Optimal 2 (DTLZ2 2).inverted [0.5, 0.5] := by
  obtain ⟨h1, h2, -, h3⟩ := C51_violated_inverted
  exact ⟨⟨rfl, by simp; norm_num, by simp⟩, fun h => h.2 _ h2 h3⟩

/-- C66 is violated by the problems with the equality constraint (Eq1DTLZ1 - Eq1DTLZ4 and the inverted ones): they
inherit a `get_pareto_set` that does not know of the constraint. For every number of objectives it may draw a vector
at which the constraint is `0.1599`, and it draws feasible vectors only by chance (`C51_constraint`). -/
theorem C66_violated_constraint (M n : ℕ) :
    List.replicate n 0.5 ∈ Drawn 0.5 M n ∧ eqConstraint M (List.replicate n 0.5) = 0.1599 := by
  refine ⟨⟨by simp, ?_, ?_⟩, ?_⟩
  · intro z hz
    rw [(List.mem_replicate.mp (List.mem_of_mem_take hz)).2]
    norm_num
  · intro z hz
    exact (List.mem_replicate.mp (List.mem_of_mem_drop hz)).2
  · unfold eqConstraint position
    rw [List.take_replicate, List.map_replicate, List.sum_replicate]
    norm_num

/-! ### DTLZ7 -/

/-- The sum that the first objectives of DTLZ7 take off the last one. -/
noncomputable def bumps (r : List ℝ) : ℝ := (r.map fun t => t * (1 + Real.sin (3 * Real.pi * t))).sum

/-- A value that the bump function takes at no smaller point of the interval, nor exceeds there. -/
def Record (t : ℝ) : Prop :=
  ∀ s, 0 ≤ s → s < t → s * (1 + Real.sin (3 * Real.pi * s)) < t * (1 + Real.sin (3 * Real.pi * t))

theorem bumps_le {u v : List ℝ} (h : List.Forall₂ (· ≤ ·) u v) (hu : ∀ z ∈ u, 0 ≤ z) (hv : ∀ z ∈ v, Record z) :
    bumps u ≤ bumps v ∧ (bumps u = bumps v → u = v) := by
  unfold bumps
  induction h with
  | nil => simp
  | @cons a b u v hab _ ih =>
    obtain ⟨h1, h2⟩ := ih (fun z hz => hu z (by simp [hz])) (fun z hz => hv z (by simp [hz]))
    simp only [List.map_cons, List.sum_cons]
    rcases lt_or_eq_of_le hab with hlt | rfl
    · have := hv b (by simp) a (hu a (by simp)) hlt
      exact ⟨by linarith, fun h => by linarith⟩
    · exact ⟨by linarith, fun h => by rw [h2 (by linarith)]⟩

/-- The objectives of DTLZ7 as a total function, for `k ≥ 1`. -/
noncomputable def bumpObjective (M k : ℕ) (x : List ℝ) : List ℝ :=
  x.take (M - 1) ++ [(2 + 9 / k * (x.drop (M - 1)).sum) * M - bumps (x.take (M - 1))]

theorem dtlz7_eq {M n k : ℕ} (hk : k = n - (M - 1)) (hk0 : 0 < k) {x : List ℝ} (hx : InUnitBox n x) :
    dtlz7 M k x = some (bumpObjective M k x) := by
  have hl : (x.drop (M - 1)).length = k := by rw [List.length_drop, hx.1, hk]
  have hs : 0 ≤ (x.drop (M - 1)).sum := List.sum_nonneg fun z hz => (hx.2 z (List.mem_of_mem_drop hz)).1
  have hg : gLinear k (distance M x) = some (1 + 9 / k * (x.drop (M - 1)).sum) := by
    unfold gLinear distance
    rw [if_neg hk0.ne', hl, Nat.sub_self, List.drop_zero]
  unfold dtlz7
  rw [hg]
  dsimp only [position, bumpObjective]
  have hG : 0 ≤ 9 / (k : ℝ) * (x.drop (M - 1)).sum := by positivity
  generalize 9 / (k : ℝ) * (x.drop (M - 1)).sum = G at hG
  congr 3
  have e : ∀ r : List ℝ, (1 + (1 + G)) * (r.map fun z => z / (1 + (1 + G)) *
      (1 + Real.sin (3 * Real.pi * z))).sum = bumps r := by
    intro r
    induction r with
    | nil => simp [bumps]
    | cons a r ih =>
      simp only [bumps, List.map_cons, List.sum_cons] at ih ⊢
      rw [mul_add, ih]
      have : 1 + (1 + G) ≠ 0 := by positivity
      field_simp
  rw [mul_sub, e]
  ring

theorem forall₂_snoc {u v : List ℝ} {a b : ℝ} :
    List.Forall₂ (· ≤ ·) (u ++ [a]) (v ++ [b]) ↔ List.Forall₂ (· ≤ ·) u v ∧ a ≤ b := by
  rw [← List.forall₂_reverse_iff]
  simp only [List.reverse_append, List.reverse_cons, List.reverse_nil, List.nil_append, List.cons_append,
    List.forall₂_cons, List.forall₂_reverse_iff]
  tauto

/-- C66, partly, for DTLZ7 with at least one distance variable: the vectors drawn by `get_pareto_set` cover the
front, and a vector of the box is optimal exactly if it is of the drawn form and all its position variables are
records of the bump function. The full statement, that all drawn vectors are optimal, is false
(`C66_violated_dtlz7`). -/
theorem C66_dtlz7_partial {M n k : ℕ} (hk : k = n - (M - 1)) (hk0 : 0 < k) (hM : 1 ≤ M) :
    ∃ obj, (∀ x, InUnitBox n x → dtlz7 M k x = some (obj x)) ∧ Covers n obj (Drawn 0 M n) ∧
      ∀ x, InUnitBox n x → (Optimal n obj x ↔ x ∈ Drawn 0 M n ∧ ∀ z ∈ x.take (M - 1), Record z) := by
  have hM' : (1 : ℝ) ≤ M := by exact_mod_cast hM
  have hk' : (0 : ℝ) < k := by exact_mod_cast hk0
  have hdist : ∀ x, InUnitBox n x → 0 ≤ (x.drop (M - 1)).sum ∧
      ((x.drop (M - 1)).sum = 0 ↔ ∀ z ∈ x.drop (M - 1), z = 0) := fun x hx =>
    sum_nonneg_eq_zero fun z hz => (hx.2 z (List.mem_of_mem_drop hz)).1
  have hlast : ∀ x, InUnitBox n x → ((2 : ℝ) * M ≤ (2 + 9 / k * (x.drop (M - 1)).sum) * M ∧
      ((2 + 9 / k * (x.drop (M - 1)).sum) * M = 2 * M ↔ ∀ z ∈ x.drop (M - 1), z = 0)) := by
    intro x hx
    obtain ⟨h1, h2⟩ := hdist x hx
    rw [← h2]
    have h9 : 0 < 9 / (k : ℝ) := by positivity
    have h3 := mul_nonneg h9.le h1
    refine ⟨by nlinarith, fun h => ?_, fun h => by rw [h]; ring⟩
    have h4 : (9 / (k : ℝ) * (x.drop (M - 1)).sum) * M = 0 := by linarith
    rcases mul_eq_zero.mp h4 with h5 | h5
    · rcases mul_eq_zero.mp h5 with h6 | h6
      · exact absurd h6 h9.ne'
      · exact h6
    · linarith
  refine ⟨bumpObjective M k, fun x hx => dtlz7_eq hk hk0 hx, ?_, ?_⟩
  · intro y hy
    obtain ⟨x, hx, h1, h2⟩ := drawn_of_box 0 M hy
    refine ⟨x, hx, ?_⟩
    unfold bumpObjective
    rw [forall₂_snoc, h1]
    refine ⟨List.forall₂_same.mpr fun _ _ => le_rfl, ?_⟩
    have := ((hlast x (drawn_box (by norm_num) hx)).2).mpr hx.2.2
    have := (hlast y hy).1
    linarith
  · intro x hx
    have hxl : (x.take (M - 1)).length = M - 1 := by
      rw [List.length_take, hx.1]
      omega
    constructor
    · rintro ⟨-, hopt⟩
      have hz : ∀ z ∈ x.drop (M - 1), z = 0 := by
        by_contra hne
        obtain ⟨y, hy, h1, h2⟩ := drawn_of_box 0 M hx
        have hyb := drawn_box (by norm_num) hy
        have h3 := ((hlast y hyb).2).mpr hy.2.2
        have h4 := hlast x hx
        have h5 : (2 : ℝ) * M < (2 + 9 / k * (x.drop (M - 1)).sum) * M :=
          lt_of_le_of_ne h4.1 fun h => hne (h4.2.mp h.symm)
        refine hopt y hyb ⟨?_, ?_⟩
        · unfold bumpObjective
          rw [forall₂_snoc, h1]
          exact ⟨List.forall₂_same.mpr fun _ _ => le_rfl, by linarith⟩
        · unfold bumpObjective
          rw [h1]
          intro h
          have := List.append_cancel_left h
          simp only [List.cons.injEq, and_true] at this
          linarith
      refine ⟨⟨hx.1, fun z hz => hx.2 z (List.mem_of_mem_take hz), hz⟩, ?_⟩
      intro z hzm s hs0 hsz
      by_contra hlt
      rw [not_lt] at hlt
      obtain ⟨l1, l2, hl⟩ := List.append_of_mem hzm
      have hl12 : (l1 ++ s :: l2).length = M - 1 := by
        rw [← hxl, hl]
        simp
      have hz1 := hx.2 z (List.mem_of_mem_take hzm)
      set y := (l1 ++ s :: l2) ++ x.drop (M - 1) with hy
      have ht : y.take (M - 1) = l1 ++ s :: l2 := by
        rw [hy, List.take_append_of_le_length hl12.ge, List.take_of_length_le hl12.le]
      have hd : y.drop (M - 1) = x.drop (M - 1) := by
        rw [hy, List.drop_append_of_le_length hl12.ge, List.drop_of_length_le hl12.le, List.nil_append]
      have hmem : ∀ w ∈ l1 ++ z :: l2, 0 ≤ w ∧ w ≤ 1 := by
        rw [← hl]
        exact fun w hw => hx.2 w (List.mem_of_mem_take hw)
      have hyb : InUnitBox n y := by
        refine ⟨?_, ?_⟩
        · rw [hy, List.length_append, hl12, List.length_drop, hx.1]
          omega
        · intro w hw
          rcases List.mem_append.mp hw with h | h
          · rcases List.mem_append.mp h with h | h
            · exact hmem w (by simp [h])
            · rcases List.mem_cons.mp h with rfl | h
              · exact ⟨hs0, by linarith [hz1.2]⟩
              · exact hmem w (by simp [h])
          · exact hx.2 w (List.mem_of_mem_drop h)
      refine hopt y hyb ⟨?_, ?_⟩
      · unfold bumpObjective
        rw [forall₂_snoc, ht, hd, hl]
        constructor
        · refine List.rel_append (List.forall₂_same.mpr fun _ _ => le_rfl) ?_
          exact List.Forall₂.cons hsz.le (List.forall₂_same.mpr fun _ _ => le_rfl)
        · have e : bumps (l1 ++ z :: l2) ≤ bumps (l1 ++ s :: l2) := by
            simp only [bumps, List.map_append, List.map_cons, List.sum_append, List.sum_cons]
            linarith
          linarith
      · unfold bumpObjective
        rw [ht, hl]
        intro h
        have h1 := (List.append_inj h (by simp)).1
        have h2 := (List.append_inj h1 rfl).2
        simp only [List.cons.injEq, and_true] at h2
        exact hsz.ne h2
    · rintro ⟨hd, hrec⟩
      refine ⟨hx, ?_⟩
      rintro y hy ⟨h1, h2⟩
      unfold bumpObjective at h1 h2
      rw [forall₂_snoc] at h1
      obtain ⟨h3, h4⟩ := h1
      obtain ⟨h5, h6⟩ := bumps_le h3 (fun z hz => (hy.2 z (List.mem_of_mem_take hz)).1) hrec
      have h7 := ((hlast x hx).2).mpr hd.2.2
      have h8 := (hlast y hy).1
      have h9 := h6 (by linarith)
      rw [h9] at h4 h2
      rw [show (2 + 9 / (k : ℝ) * (y.drop (M - 1)).sum) * M = (2 + 9 / k * (x.drop (M - 1)).sum) * M by linarith] at h2
      exact h2 rfl

/-- C66 is violated by DTLZ7: with two objectives and two variables `get_pareto_set` may draw `(0.5, 0)`, whose
objectives `(0.5, 4)` are dominated by those of `(0, 0)`, which are `(0, 4)`. -/
theorem C66_violated_dtlz7 : [0.5, 0] ∈ Drawn 0 2 2 ∧ dtlz7 2 1 [0.5, 0] = some [0.5, 4] ∧
    InUnitBox 2 [0, 0] ∧ dtlz7 2 1 [0, 0] = some [0, 4] ∧ ParetoLess [0, 4] [0.5, 4] := by
  have hs : Real.sin (3 * Real.pi * 0.5) = -1 := by
    rw [show 3 * Real.pi * 0.5 = Real.pi / 2 + Real.pi by ring, Real.sin_add_pi, Real.sin_pi_div_two]
  have hd : ([0.5, 0] : List ℝ) ∈ Drawn 0 2 2 := ⟨rfl, by simp; norm_num, by simp⟩
  have hb : InUnitBox 2 [0, 0] := ⟨rfl, by simp⟩
  refine ⟨hd, ?_, hb, ?_, ?_, ?_⟩
  · rw [dtlz7_eq rfl one_pos (drawn_box (by norm_num) hd)]
    simp only [bumpObjective, bumps, List.take, List.drop, List.map, List.sum_cons, List.sum_nil, hs,
      List.cons_append, List.nil_append]
    norm_num
  · rw [dtlz7_eq rfl one_pos hb]
    simp only [bumpObjective, bumps, List.take, List.drop, List.map, List.sum_cons, List.sum_nil,
      List.cons_append, List.nil_append]
    norm_num
  · refine List.Forall₂.cons (by norm_num) (List.Forall₂.cons le_rfl List.Forall₂.nil)
  · intro h
    have := (List.cons.inj h).1
    norm_num at this

/-- Without distance variables the objective raises. -/
theorem C66_dtlz7_error (M : ℕ) (x : List ℝ) : dtlz7 M 0 x = none := by
  simp [dtlz7, gLinear]

/-- Hypotheses of `C66_drawn`, `C66_optimal` and `C66_covers`. -/
example : (∀ r ∈ [[(0.25 : ℝ), 0.75], [0, 0.5]], r.length = 11 - 9 ∧ ∀ z ∈ r, 0 ≤ z ∧ z < 1) ∧ 9 = 11 + 1 - 3 ∧
    [(0.25 : ℝ), 0.75] ++ List.replicate 9 0.5 ∈ Drawn 0.5 3 11 ∧
    [(0.25 : ℝ), 0.75] ++ List.replicate 9 0 ∈ Drawn 0 3 11 := by
  refine ⟨?_, rfl, ⟨rfl, ?_, ?_⟩, ⟨rfl, ?_, ?_⟩⟩ <;> simp <;> norm_num

/-- A record of the bump function and so an optimal vector of DTLZ7: the first position variable is 1/6. -/
example : Record (1 / 6) ∧ [(1 / 6 : ℝ), 0, 0] ∈ Drawn 0 2 3 := by
  refine ⟨fun s h0 h1 => ?_, rfl, ?_, ?_⟩
  · rw [show 3 * Real.pi * (1 / 6) = Real.pi / 2 by ring, Real.sin_pi_div_two]
    have := mul_le_mul_of_nonneg_left (Real.sin_le_one (3 * Real.pi * s)) h0
    linarith
  · simp
    norm_num
  · simp

end Verif.Props
