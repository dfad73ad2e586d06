import Verif.Opt.Lara
import Verif.Props.BoxStep
import Verif.Props.HVN
import Verif.Opt.PrecondLemmas

/-!
# C74: the gradient method `Lara` as a whole
-/

namespace Verif.Props

open Verif.Opt Verif.Util Verif.HV

section

variable {K : Type*} [Field K] [LinearOrder K] [IsStrictOrderedRing K] [Inhabited K]

/-- Row `k` of the Jacobian at `x`. -/
def gradRow (a : Lara K) (x : List K) (k : ℕ) : List K :=
  (List.range a.nVar).map fun v => (a.jac.point x).getD (k * a.nVar + v) 0

/-- Minus the sum of the normalised gradients. -/
def laraDir (a : Lara K) (x : List K) (d : ℕ) : K :=
  -∑ k ∈ Finset.range a.nObj, (a.jac.point x).getD (k * a.nVar + d) 0 / a.norm (gradRow a x k)

/-- The same without the components that leave the box at a point on the boundary (up to `10⁻¹⁰`). -/
def laraBoxDir (a : Lara K) (x : List K) (d : ℕ) : K :=
  if (x.getD d 0 - a.xl.getD d 0 ≤ 1 / 10 ^ 10 ∧ laraDir a x d < 0) ∨
    (a.xu.getD d 0 - x.getD d 0 ≤ 1 / 10 ^ 10 ∧ 0 < laraDir a x d) then 0 else laraDir a x d

/-- The assumptions about the arguments: consistent callbacks, a proper box, and a distance. -/
structure LaraOk (a : Lara K) : Prop where
  funcs : a.funcs.Ok a.nObj
  pos : 0 < a.nVar
  xl : a.xl.length = a.nVar
  xu : a.xu.length = a.nVar
  box : ∀ d < a.nVar, a.xl.getD d 0 < a.xu.getD d 0
  nonneg : ∀ x y, 0 ≤ a.dist x y
  symm : ∀ x y, a.dist x y = a.dist y x

/-- No objective has a gradient of norm zero at `x`. -/
def NoCritical (a : Lara K) (x : List K) : Prop := ∀ k < a.nObj, a.norm (gradRow a x k) ≠ 0

/-- What an iteration does: duplicates are removed, and the remaining points move by the same step size along their own
directions. The step size is the largest one up to one that keeps all points in the box: if it is smaller than one, a
point reaches the boundary. -/
structure LaraMove (a : Lara K) (s s' : State K) (kept : List ℕ) (α : K) : Prop where
  reps : Representatives a.dist a.nVar s.X kept
  size : s'.X.length = kept.length
  nonneg : 0 ≤ α
  le_one : α ≤ 1
  move : ∀ j < kept.length, ∀ d < a.nVar, (s'.X.getD j []).getD d 0 =
    (s.X.getD (kept.getD j 0) []).getD d 0 + α * laraBoxDir a (s.X.getD (kept.getD j 0) []) d
  box : PopInBox a.xl a.xu s'.X
  largest : α < 1 → ∃ j < kept.length, ∃ d < a.nVar, laraBoxDir a (s.X.getD (kept.getD j 0) []) d ≠ 0 ∧
    ((s'.X.getD j []).getD d 0 = a.xl.getD d 0 ∨ (s'.X.getD j []).getD d 0 = a.xu.getD d 0)
  evals : s'.nJac = s.nJac + kept.length

omit [Inhabited K] in
theorem reach_lower {l x s m : K} (h : l ≤ x) (hs : s < 0) (hm : m = |x - l| / |s|) : x + m * s = l := by
  rw [hm, abs_of_nonneg (sub_nonneg.mpr h), abs_of_neg hs, div_neg, neg_mul, div_mul_cancel₀ _ hs.ne]
  ring

omit [Inhabited K] in
theorem reach_upper {u x s m : K} (h : x ≤ u) (hs : 0 < s) (hm : m = |u - x| / |s|) : x + m * s = u := by
  rw [hm, abs_of_nonneg (sub_nonneg.mpr h), abs_of_pos hs, div_mul_cancel₀ _ hs.ne']
  ring

/-- C74: an iteration from points in the box without vanishing gradients returns and moves as described. -/
theorem C74_iteration {a : Lara K} (ha : LaraOk a) {N0 : ℕ} {s : State K} (hs : Usable a.funcs a.nVar N0 s)
    (hb : PopInBox a.xl a.xu s.X) (hc : ∀ x ∈ s.X, NoCritical a x) :
    ∃ s' kept α, a.iterate s = some s' ∧ Usable a.funcs a.nVar N0 s' ∧ LaraMove a s s' kept α := by
  obtain ⟨kept, s1, c1, c2, c3, c4, c5⟩ := kept_exists ha.nonneg ha.symm a.eps hs
  obtain ⟨J, hJ⟩ := Option.isSome_iff_exists.mp c2.jac
  have hJe := c2.sync.J J hJ
  have hsub : ∀ x ∈ s1.X, x ∈ s.X := by
    intro x hx
    rw [c4] at hx
    obtain ⟨i, hi, rfl⟩ := List.mem_map.mp hx
    rw [List.getD_eq_getElem _ _ (c3.lt i hi)]
    exact List.getElem_mem _
  have htake : ∀ x ∈ s1.X, x.take a.nVar = x := fun x hx => List.take_of_length_le (c2.dim x hx).le
  have hprim : a.funcs.primal s1.X = s1.X := by
    rw [Funcs.primal]
    conv_rhs => rw [← List.map_id s1.X]
    exact List.map_congr_left htake
  have hJ1 : J = s1.X.map a.jac.point := by
    rw [hJe]
    refine List.map_congr_left fun x hx => ?_
    show a.jac.point (x.take a.nVar) = _
    rw [htake x hx]
  have hgr : J.map a.gradients = s1.X.map fun x => (List.range a.nObj).map (gradRow a x) := by
    rw [hJ1, List.map_map]; rfl
  have hb1 : PopInBox a.xl a.xu s1.X := fun x hx => hb x (hsub x hx)
  have hX : ∀ i (hi : i < s1.X.length), s1.X[i].length = a.xl.length ∧ Verif.Opt.InBox a.xl a.xu s1.X[i] := fun i hi =>
    ⟨(hb1 _ (List.getElem_mem hi)).1, fun d hd => (hb1 _ (List.getElem_mem hi)).2 d
      ((hb1 _ (List.getElem_mem hi)).1 ▸ hd)⟩
  obtain ⟨S, hS, hSl, hSd, hSv⟩ := laraStep_total (norm := a.norm) (dim := a.xl.length) (J := J.map a.gradients)
    (by
      intro G hG v hv
      rw [hgr] at hG
      obtain ⟨x, hx, rfl⟩ := List.mem_map.mp hG
      obtain ⟨k, hk, rfl⟩ := List.mem_map.mp hv
      simp [gradRow, ha.xl])
    (by
      intro G hG v hv
      rw [hgr] at hG
      obtain ⟨x, hx, rfl⟩ := List.mem_map.mp hG
      obtain ⟨k, hk, rfl⟩ := List.mem_map.mp hv
      exact hc x (hsub x hx) k (List.mem_range.mp hk))
  rw [List.length_map, hJ1, List.length_map] at hSl
  obtain ⟨S', m, e1, l1, m0, m1, hS', hS'v, hmax⟩ := laraBox_spec (X := s1.X) (step := S) (ha.xu.trans ha.xl.symm)
    (by rw [ha.xl]; exact ha.pos) c2.ne (by rw [ha.xl]; exact ha.box) (by omega) hX hSd
  have hdir : ∀ i (hi : i < s1.X.length) (hi' : i < S'.length), ∀ d < a.nVar, S'[i].getD d 0 = laraBoxDir a s1.X[i] d := by
    intro i hi hi' d hd
    rw [hS'v i hi hi' d (by rw [ha.xl]; exact hd)]
    have e : (S[i]'(by omega)).getD d 0 = laraDir a s1.X[i] d := by
      have := hSv i (by simpa [hJ1] using hi) d (by rw [ha.xl]; exact hd)
      rw [List.getD_eq_getElem S _ (by omega)] at this
      rw [this, laraDir, hgr, List.getD_eq_getElem _ _ (by simpa using hi), List.getElem_map, List.map_map]
      congr 1
      rw [← List.sum_toFinset _ List.nodup_range, List.toFinset_range]
      refine Finset.sum_congr rfl fun k _ => ?_
      simp only [Function.comp_apply]
      congr 1
      rw [gradRow, List.getD_eq_getElem (List.map _ _) _ (by simpa using hd)]
      simp
    rw [e]
    have hbx := (hb1 _ (List.getElem_mem hi)).2 d (by rw [ha.xl]; exact hd)
    unfold laraZero laraBoxDir
    rw [abs_of_nonneg (sub_nonneg.mpr hbx.1), abs_of_nonneg (sub_nonneg.mpr hbx.2)]
    dsimp only
    by_cases h1 : s1.X[i].getD d 0 - a.xl.getD d 0 ≤ 1 / 10 ^ 10 ∧ laraDir a s1.X[i] d < 0
    · rw [if_pos h1, if_neg (by simp), if_pos (.inl h1)]
    · rw [if_neg h1]
      by_cases h2 : a.xu.getD d 0 - s1.X[i].getD d 0 ≤ 1 / 10 ^ 10 ∧ 0 < laraDir a s1.X[i] d
      · rw [if_pos h2, if_pos (.inr h2)]
      · rw [if_neg h2, if_neg (by tauto)]
  have hmm : min (max 1 0) m = m := by rw [max_eq_left zero_le_one, min_eq_right m1]
  set X' := List.zipWith (fun x st => move x st m) s1.X S' with hX'
  have hlX' : X'.length = s1.X.length := by rw [hX', List.length_zipWith]; omega
  have hrow : ∀ i (hi : i < X'.length), X'[i].length = a.nVar ∧ ∀ d < a.nVar,
      X'[i].getD d 0 = (s1.X[i]'(by omega)).getD d 0 + m * (S'[i]'(by omega)).getD d 0 := by
    intro i hi
    have h1 := (hX i (by omega)).1
    have h3 := (hS' i (by omega) (by omega)).1
    simp only [hX', List.getElem_zipWith]
    have := ha.xl
    exact ⟨by rw [move_length (by omega)]; omega, fun d hd => move_getD (by omega) (by omega)⟩
  have hit : laraIteration a.norm a.xl a.xu s1.X (J.map a.gradients) = some X' := by
    unfold laraIteration
    rw [hS, Option.bind_some, e1, Option.bind_some]
    dsimp only
    rw [hmm, hX']
    simp only [move, mul_comm m]
  obtain ⟨s', u1, u2, u3, u4⟩ := Usable.update (N0 := N0) (dim := a.nVar) ha.funcs le_rfl s1 (X := X')
    (by rw [← List.length_pos_iff, hlX', List.length_pos_iff]; exact c2.ne) (by rw [hlX']; exact c2.le) (by
      intro x hx
      obtain ⟨i, hi, rfl⟩ := List.mem_iff_getElem.mp hx
      exact (hrow i hi).1)
  have hk : s1.X.length = kept.length := by rw [c4, List.length_map]
  have hx1 : ∀ j (hj : j < s1.X.length), s.X.getD (kept.getD j 0) [] = s1.X[j] := by
    intro j hj
    simp only [c4, List.getElem_map]
    rw [List.getD_eq_getElem kept _ (by omega)]
  refine ⟨s', kept, m, ?_, u3, c3, by rw [u2, hlX', hk], m0, m1, ?_, ?_, ?_, by rw [u4, c5, hlX', hk]⟩
  · unfold Lara.iterate Lara.check
    rw [c1, Option.bind_some, hJ, Option.bind_some, hprim, hit, Option.bind_some, u1]
  · intro j hj d hd
    rw [hx1 j (by omega), u2, List.getD_eq_getElem X' _ (by omega), (hrow j (by omega)).2 d hd,
      hdir j (by omega) (by omega) d hd]
  · rw [u2]
    intro x hx
    obtain ⟨i, hi, rfl⟩ := List.mem_iff_getElem.mp hx
    refine ⟨by rw [(hrow i hi).1, ha.xl], fun d hd => ?_⟩
    rw [(hrow i hi).2 d (ha.xl ▸ hd)]
    have hbx := (hb1 _ (List.getElem_mem (show i < s1.X.length by omega))).2 d hd
    have h4 := (hS' i (by omega) (by omega)).2 d hd
    exact coord_in_box hbx.1 hbx.2 m0 h4.1 h4.2
  · intro hlt
    rcases hmax with h | ⟨i, hi, hi', d, hd, h⟩
    · exact absurd h hlt.ne
    have hd' : d < a.nVar := ha.xl ▸ hd
    have hbx := (hb1 _ (List.getElem_mem hi)).2 d hd
    refine ⟨i, by omega, d, hd', ?_, ?_⟩
    · rw [hx1 i hi, ← hdir i hi hi' d hd']
      rcases h with h | h
      exacts [h.1.ne, h.1.ne']
    · rw [u2, List.getD_eq_getElem X' _ (by omega), (hrow i (by omega)).2 d hd']
      rcases h with ⟨h1, h2⟩ | ⟨h1, h2⟩
      · exact .inl (reach_lower hbx.1 h1 h2)
      · exact .inr (reach_upper hbx.2 h1 h2)

/-- C74, from the constructor: a population of the right shape is clipped to the box and evaluated. -/
theorem C74_start {a : Lara K} (ha : LaraOk a) {X0 : List (List K)} (hne : X0 ≠ []) (hd : ∀ x ∈ X0, x.length = a.nVar) :
    ∃ s, a.start X0 = some s ∧ Usable a.funcs a.nVar X0.length s ∧ PopInBox a.xl a.xu s.X ∧ s.X.length = X0.length ∧
      ∀ i < X0.length, ∀ d < a.nVar, (s.X.getD i []).getD d 0 =
        min (max ((X0.getD i []).getD d 0) (a.xl.getD d 0)) (a.xu.getD d 0) := by
  have hl := ha.xl
  have hu := ha.xu
  set clip : List K → List K := fun x => (x.zip (a.xl.zip a.xu)).map fun q => min (max q.1 q.2.1) q.2.2 with hclip
  have len : ∀ x ∈ X0, (clip x).length = a.nVar := fun x hx => by simp [hclip, hd x hx, hl, hu]
  have val : ∀ x ∈ X0, ∀ d < a.nVar, (clip x).getD d 0 = min (max (x.getD d 0) (a.xl.getD d 0)) (a.xu.getD d 0) := by
    intro x hx d hdl
    have l1 := hd x hx
    rw [List.getD_eq_getElem (clip x) _ (by rw [len x hx]; exact hdl), List.getD_eq_getElem x _ (by omega),
      List.getD_eq_getElem a.xl _ (by omega), List.getD_eq_getElem a.xu _ (by omega)]
    simp [hclip]
  obtain ⟨s, h1, h2, h3, -⟩ := Usable.update (N0 := X0.length) (dim := a.nVar) ha.funcs le_rfl State.init
    (X := X0.map clip) (by simpa using hne) (by simp) (by
      intro y hy
      obtain ⟨x, hx, rfl⟩ := List.mem_map.mp hy
      exact len x hx)
  refine ⟨s, ?_, h3, ?_, by simp [h2], ?_⟩
  · rw [Lara.start, if_pos]
    · exact h1
    · simp only [List.all_eq_true, decide_eq_true_eq]
      exact fun x hx => ⟨hd x hx, hl, hu⟩
  · rw [h2]
    intro y hy
    obtain ⟨x, hx, rfl⟩ := List.mem_map.mp hy
    refine ⟨by rw [len x hx, hl], fun d hdl => ?_⟩
    rw [val x hx d (hl ▸ hdl)]
    exact ⟨le_min (le_max_right _ _) (ha.box d (hl ▸ hdl)).le, min_le_right _ _⟩
  · intro i hi d hdl
    rw [h2, List.getD_eq_getElem (X0.map clip) _ (by simpa using hi), List.getElem_map, val _ (List.getElem_mem hi) d hdl,
      List.getD_eq_getElem X0 _ hi]

/-- C74: if no gradient vanishes in the box, any number of iterations from the constructor on returns, every one of
them moves as described, and the number of points does not grow. -/
theorem C74_run {a : Lara K} (ha : LaraOk a) (hc : ∀ x, PopInBox a.xl a.xu [x] → NoCritical a x)
    {X0 : List (List K)} (hne : X0 ≠ []) (hd : ∀ x ∈ X0, x.length = a.nVar) (n : ℕ) :
    ∃ (s : ℕ → State K), a.start X0 = some (s 0) ∧ a.run n (s 0) = some (s n) ∧
      (∀ m < n, ∃ kept α, LaraMove a (s m) (s (m + 1)) kept α) ∧
      ∀ m ≤ n, PopInBox a.xl a.xu (s m).X ∧ (s m).X ≠ [] ∧ (s m).X.length ≤ X0.length := by
  obtain ⟨s0, h1, h2, h3, -⟩ := C74_start ha hne hd
  have key : ∀ n s0, Usable a.funcs a.nVar X0.length s0 → PopInBox a.xl a.xu s0.X →
      ∃ (s : ℕ → State K), s 0 = s0 ∧ a.run n s0 = some (s n) ∧
      (∀ m < n, ∃ kept α, LaraMove a (s m) (s (m + 1)) kept α) ∧
      ∀ m ≤ n, PopInBox a.xl a.xu (s m).X ∧ (s m).X ≠ [] ∧ (s m).X.length ≤ X0.length := by
    intro n
    induction n with
    | zero =>
      intro s0 hu hb
      exact ⟨fun _ => s0, rfl, rfl, fun m hm => absurd hm (by omega), fun m _ => ⟨hb, hu.ne, hu.le⟩⟩
    | succ n ih =>
      intro s0 hu hb
      obtain ⟨s', kept, α, e1, e2, e3⟩ := C74_iteration ha hu hb fun x hx => hc x fun y hy => by
        rw [List.mem_singleton.mp hy]; exact hb x hx
      obtain ⟨s, f1, f2, f3, f4⟩ := ih s' e2 e3.box
      refine ⟨fun m => m.casesOn s0 s, rfl, ?_, ?_, ?_⟩
      · rw [Lara.run, e1, Option.bind_some, f2]
      · rintro (_ | m) hm
        · exact ⟨kept, α, by dsimp only; rw [f1]; exact e3⟩
        · exact f3 m (by omega)
      · rintro (_ | m) hm
        · exact ⟨hb, hu.ne, hu.le⟩
        · exact f4 m (by omega)
  obtain ⟨s, f1, f2, f3, f4⟩ := key n s0 h2 h3
  exact ⟨s, by rw [f1]; exact h1, by rw [f1]; exact f2, f3, f4⟩

/-! ### The direction may overshoot for ever -/

/-- `x ↦ (x², 2x²)` on `[-10, 10]`. -/
def squares (K : Type*) [Field K] [LinearOrder K] : Lara K where
  nVar := 1
  nObj := 2
  func := ⟨fun x => [x.getD 0 0 ^ 2, 2 * x.getD 0 0 ^ 2], none⟩
  jac := ⟨fun x => [2 * x.getD 0 0, 4 * x.getD 0 0], none⟩
  xl := [-10]
  xu := [10]
  eps := 1
  dist := sumDist
  norm := fun v => (v.map fun t => |t|).sum

theorem squares_ok : LaraOk (squares K) where
  funcs :=
    { func := ⟨fun b hb => by simp [squares, Lara.funcs] at hb, fun _ _ => rfl⟩
      jac := ⟨fun b hb => by simp [squares, Lara.funcs] at hb, fun _ _ => rfl⟩
      h := by rintro c hc; simp [Lara.funcs] at hc
      g := by rintro c hc; simp [Lara.funcs] at hc
      hJac := by rintro c hc; simp [Lara.funcs] at hc
      gJac := by rintro c hc; simp [Lara.funcs] at hc
      hHess := by rintro c hc; simp [Lara.funcs] at hc
      gHess := by rintro c hc; simp [Lara.funcs] at hc }
  pos := one_pos
  xl := rfl
  xu := rfl
  box := by
    intro d hd
    obtain rfl : d = 0 := by simp only [squares] at hd; omega
    simp [squares]
  nonneg := sumDist_nonneg
  symm := sumDist_symm

theorem squares_noCritical {x : K} (hx : x ≠ 0) : NoCritical (squares K) [x] := by
  intro k hk
  have : k = 0 ∨ k = 1 := by simp only [squares] at hk; omega
  rcases this with rfl | rfl <;> simp [squares, gradRow, hx]

theorem squares_dir {x : K} (hx : x ≠ 0) (h1 : -9 < x) (h2 : x < 9) :
    laraBoxDir (squares K) [x] 0 = if 0 < x then -2 else 2 := by
  have e : laraDir (squares K) [x] 0 = if 0 < x then -2 else 2 := by
    simp only [laraDir, squares, gradRow, Finset.sum_range_succ, Finset.sum_range_zero]
    rcases lt_or_gt_of_ne hx with h | h
    · rw [if_neg h.not_gt]
      simp [abs_of_neg h, abs_mul]
      field_simp
      norm_num
    · rw [if_pos h]
      simp [abs_of_pos h, abs_mul]
      field_simp
      norm_num
  have t : (1 : K) / 10 ^ 10 < 1 := by norm_num
  rw [laraBoxDir, if_neg, e]
  simp only [squares, List.getD_cons_zero]
  rintro (⟨h, -⟩ | ⟨h, -⟩) <;> linarith

theorem squares_iterate {s : State K} {x : K} (hs : Usable (squares K).funcs 1 1 s) (hX : s.X = [[x]]) (hx : x ≠ 0)
    (h1 : -7 < x) (h2 : x < 7) : ∃ s', (squares K).iterate s = some s' ∧ Usable (squares K).funcs 1 1 s' ∧
      s'.X = [[x + if 0 < x then -2 else 2]] := by
  obtain ⟨s', kept, α, e1, e2, e3⟩ := C74_iteration squares_ok hs
    (by
      rw [hX]
      intro y hy
      rw [List.mem_singleton.mp hy]
      refine ⟨rfl, fun d hd => ?_⟩
      obtain rfl : d = 0 := by simp only [squares, List.length_singleton] at hd; omega
      simp only [squares, List.getD_cons_zero]
      constructor <;> linarith)
    (by
      rw [hX]
      intro y hy
      rw [List.mem_singleton.mp hy]
      exact squares_noCritical hx)
  have hk : kept = [0] := by
    have hlt : ∀ i ∈ kept, i = 0 := fun i hi => by
      have := e3.reps.lt i hi
      rw [hX, List.length_singleton] at this
      omega
    rcases kept with _ | ⟨i, _ | ⟨j, l⟩⟩
    · exact absurd rfl e3.reps.ne
    · rw [hlt i (by simp)]
    · have := e3.reps.nodup
      rw [hlt i (by simp), hlt j (by simp)] at this
      simp at this
  subst hk
  have hm := e3.move 0 (by simp) 0 one_pos
  rw [hX] at hm
  simp only [List.getD_cons_zero] at hm
  rw [squares_dir hx (by linarith) (by linarith)] at hm
  have hα : α = 1 := by
    by_contra hne
    obtain ⟨j, hj, d, hd, -, h⟩ := e3.largest (lt_of_le_of_ne e3.le_one hne)
    obtain rfl : j = 0 := by simpa using hj
    obtain rfl : d = 0 := by simp only [squares] at hd; omega
    rw [hm] at h
    have h3 := e3.nonneg
    have h4 := e3.le_one
    simp only [squares, List.getD_cons_zero] at h
    split_ifs at h <;> rcases h with h | h <;> linarith
  refine ⟨s', e1, e2, ?_⟩
  have hl := e3.size
  obtain ⟨y, hy⟩ := List.length_eq_one_iff.mp (show s'.X.length = 1 from hl)
  have hyl := e2.dim y (by rw [hy]; simp)
  obtain ⟨z, rfl⟩ := List.length_eq_one_iff.mp hyl
  rw [hy] at hm ⊢
  simp only [List.getD_cons_zero] at hm
  rw [hm, hα, one_mul]

/-- C74, violation: the step size is one if the box allows it, there is no line search. For the objectives `x²` and
`2x²` the point `1/4` moves to `-7/4` and back again, with a first objective 49 times larger in between. So the method never
comes closer to the common minimum `0`. -/
theorem C74_cycle (n : ℕ) : ∃ s0 s1 s2, (squares K).start [[1 / 4]] = some s0 ∧ (squares K).run (2 * n) s0 = some s1 ∧
    (squares K).iterate s1 = some s2 ∧ s1.X = [[1 / 4]] ∧ s2.X = [[-(7 / 4)]] ∧
    s1.Y = [[1 / 16, 1 / 8]] ∧ s2.Y = [[49 / 16, 49 / 8]] := by
  obtain ⟨s0, h1, h2, -, h4, h5⟩ := C74_start (squares_ok (K := K)) (X0 := [[1 / 4]]) (by simp) (by simp [squares])
  have hX0 : s0.X = [[1 / 4]] := by
    obtain ⟨y, hy⟩ := List.length_eq_one_iff.mp (show s0.X.length = 1 from h4)
    obtain ⟨z, rfl⟩ := List.length_eq_one_iff.mp (h2.dim y (by rw [hy]; simp))
    have := h5 0 (by simp) 0 one_pos
    rw [hy] at this ⊢
    simp only [List.getD_cons_zero, squares] at this
    rw [this, max_eq_left (by norm_num), min_eq_left (by norm_num)]
  have two : ∀ s : State K, Usable (squares K).funcs 1 1 s → s.X = [[1 / 4]] → ∃ s' s'', (squares K).iterate s = some s' ∧
      (squares K).iterate s' = some s'' ∧ Usable (squares K).funcs 1 1 s' ∧ Usable (squares K).funcs 1 1 s'' ∧
      s'.X = [[-(7 / 4)]] ∧ s''.X = [[1 / 4]] := by
    intro s hs hX
    obtain ⟨s', a1, a2, a3⟩ := squares_iterate hs hX (by norm_num) (by norm_num) (by norm_num)
    rw [if_pos (by norm_num), show (1 / 4 : K) + -2 = -(7 / 4) by norm_num] at a3
    obtain ⟨s'', b1, b2, b3⟩ := squares_iterate a2 a3 (by norm_num) (by norm_num) (by norm_num)
    rw [if_neg (by norm_num), show (-(7 / 4) : K) + 2 = 1 / 4 by norm_num] at b3
    exact ⟨s', s'', a1, b1, a2, b2, a3, b3⟩
  have key : ∀ n (s : State K), Usable (squares K).funcs 1 1 s → s.X = [[1 / 4]] → ∃ s1, (squares K).run (2 * n) s = some s1 ∧
      Usable (squares K).funcs 1 1 s1 ∧ s1.X = [[1 / 4]] := by
    intro n
    induction n with
    | zero => exact fun s hs hX => ⟨s, rfl, hs, hX⟩
    | succ n ih =>
      intro s hs hX
      obtain ⟨s', s'', a1, a2, -, a4, -, a6⟩ := two s hs hX
      obtain ⟨s1, b1, b2, b3⟩ := ih s'' a4 a6
      refine ⟨s1, ?_, b2, b3⟩
      rw [show 2 * (n + 1) = 2 * n + 1 + 1 by ring, Lara.run, a1, Option.bind_some, Lara.run, a2, Option.bind_some, b1]
  obtain ⟨s1, b1, b2, b3⟩ := key n s0 h2 hX0
  obtain ⟨s2, -, c1, -, c3, -, c5, -⟩ := two s1 b2 b3
  refine ⟨s0, s1, s2, h1, b1, c1, b3, c5, ?_, ?_⟩
  · rw [b2.sync.Y, b3]
    simp [Lara.funcs, squares]
    norm_num
  · rw [c3.sync.Y, c5]
    simp [Lara.funcs, squares]
    norm_num

end

/-! ### The direction -/

/-- Derivative of objective `k` along `w`. -/
def slopeAlong (a : Lara ℝ) (x : List ℝ) (k : ℕ) (w : ℕ → ℝ) : ℝ :=
  ∑ d ∈ Finset.range a.nVar, (a.jac.point x).getD (k * a.nVar + d) 0 * w d

/-- The values of objective `k` along `w`. -/
def valueAlong (a : Lara ℝ) (x : List ℝ) (k : ℕ) (w : ℕ → ℝ) (t : ℝ) : ℝ :=
  (a.func.point ((List.range a.nVar).map fun d => x.getD d 0 + t * w d)).getD k 0

/-- The Jacobian consists of the derivatives of the objectives. -/
def HasGradients (a : Lara ℝ) : Prop := ∀ x : List ℝ, x.length = a.nVar → ∀ (w : ℕ → ℝ), ∀ k < a.nObj,
  HasDerivAt (valueAlong a x k w) (slopeAlong a x k w) 0

/-- What is assumed of `np.linalg.norm`. -/
def EuclidNorm (norm : List ℝ → ℝ) : Prop := ∀ v, norm v = Real.sqrt (v.map (· ^ 2)).sum

/-- A direction that does not leave the box and along which all objectives decrease to first order. -/
def CanImprove (a : Lara ℝ) (x : List ℝ) : Prop := ∃ w : ℕ → ℝ,
  (∀ d < a.nVar, (x.getD d 0 = a.xl.getD d 0 → 0 ≤ w d) ∧ (x.getD d 0 = a.xu.getD d 0 → w d ≤ 0)) ∧
  ∀ k < a.nObj, slopeAlong a x k w < 0

/-- Away from the boundary. -/
def Interior (a : Lara ℝ) (x : List ℝ) : Prop := ∀ d < a.nVar,
  1 / 10 ^ 10 < x.getD d 0 - a.xl.getD d 0 ∧ 1 / 10 ^ 10 < a.xu.getD d 0 - x.getD d 0

/-- No two gradients are at an obtuse angle. -/
def NoConflict (a : Lara ℝ) (x : List ℝ) : Prop := ∀ k < a.nObj, ∀ j < a.nObj,
  0 ≤ ∑ d ∈ Finset.range a.nVar, (a.jac.point x).getD (k * a.nVar + d) 0 * (a.jac.point x).getD (j * a.nVar + d) 0

/-- The direction of a point in the box improves all objectives at once whenever that is possible at all. The condition
`P` restricts the statement to some problems and points. -/
def C74Descent (P : Lara ℝ → List ℝ → Prop) : Prop :=
  ∀ a, LaraOk a → EuclidNorm a.norm → HasGradients a → ∀ x, PopInBox a.xl a.xu [x] → NoCritical a x → CanImprove a x →
    P a x → ∀ k < a.nObj, DecreasesAlong (valueAlong a x k (laraBoxDir a x))

/-- The full statement. -/
def C74Statement : Prop := C74Descent fun _ _ => True

theorem gradRow_norm {a : Lara ℝ} (he : EuclidNorm a.norm) {x : List ℝ} (hc : NoCritical a x) {k : ℕ} (hk : k < a.nObj) :
    0 < a.norm (gradRow a x k) ∧ a.norm (gradRow a x k) ^ 2 =
      ∑ d ∈ Finset.range a.nVar, (a.jac.point x).getD (k * a.nVar + d) 0 ^ 2 := by
  have h := hc k hk
  rw [he] at h ⊢
  have e : ((gradRow a x k).map (· ^ 2)).sum = ∑ d ∈ Finset.range a.nVar, (a.jac.point x).getD (k * a.nVar + d) 0 ^ 2 := by
    rw [gradRow, List.map_map, ← List.sum_toFinset _ List.nodup_range, List.toFinset_range]
    rfl
  rw [e] at h ⊢
  exact ⟨lt_of_le_of_ne (Real.sqrt_nonneg _) h.symm, Real.sq_sqrt (Finset.sum_nonneg fun _ _ => sq_nonneg _)⟩

theorem slope_laraDir (a : Lara ℝ) (x : List ℝ) (k : ℕ) : slopeAlong a x k (laraDir a x) =
    -∑ j ∈ Finset.range a.nObj, (∑ d ∈ Finset.range a.nVar, (a.jac.point x).getD (k * a.nVar + d) 0 *
      (a.jac.point x).getD (j * a.nVar + d) 0) / a.norm (gradRow a x j) := by
  unfold slopeAlong laraDir
  simp only [mul_neg, Finset.sum_neg_distrib, Finset.mul_sum, Finset.sum_div]
  rw [Finset.sum_comm]
  simp only [mul_div_assoc]

/-- C74: away from the boundary the direction improves all objectives for at most two objectives, and for any number of
objectives without conflict. -/
theorem C74_descent_partial : C74Descent fun a x => Interior a x ∧ (a.nObj ≤ 2 ∨ NoConflict a x) := by
  rintro a ha he hg x hb hc ⟨w, -, hw⟩ ⟨hi, hP⟩ k hk
  have hbd : ∀ d < a.nVar, laraBoxDir a x d = laraDir a x d := by
    intro d hd
    rw [laraBoxDir, if_neg]
    rintro (⟨h, -⟩ | ⟨h, -⟩)
    exacts [absurd (hi d hd).1 h.not_gt, absurd (hi d hd).2 h.not_gt]
  have hs : slopeAlong a x k (laraBoxDir a x) = slopeAlong a x k (laraDir a x) :=
    Finset.sum_congr rfl fun d hd => by rw [hbd d (Finset.mem_range.mp hd)]
  have hx : x.length = a.nVar := by rw [(hb x (by simp)).1, ha.xl]
  have self : ∀ j < a.nObj, (∑ d ∈ Finset.range a.nVar, (a.jac.point x).getD (j * a.nVar + d) 0 *
      (a.jac.point x).getD (j * a.nVar + d) 0) / a.norm (gradRow a x j) = a.norm (gradRow a x j) := by
    intro j hj
    obtain ⟨n1, n2⟩ := gradRow_norm he hc hj
    rw [div_eq_iff n1.ne', ← pow_two, n2]
    simp only [pow_two]
  refine decreasesAlong_of_deriv (hg x hx _ k hk) ?_
  rw [hs, slope_laraDir, neg_lt_zero]
  rcases hP with h2 | h2
  · have hcase : a.nObj = 1 ∨ a.nObj = 2 := by omega
    rcases hcase with h1 | h1
    · obtain rfl : k = 0 := by omega
      rw [h1, Finset.sum_range_one, self 0 hk]
      exact (gradRow_norm he hc hk).1
    · obtain ⟨p0, q0⟩ := gradRow_norm he hc (k := 0) (by omega)
      obtain ⟨p1, q1⟩ := gradRow_norm he hc (k := 1) (by omega)
      have s0 := self 0 (by omega)
      have s1 := self 1 (by omega)
      set n0 := a.norm (gradRow a x 0)
      set n1 := a.norm (gradRow a x 1)
      set c := ∑ d ∈ Finset.range a.nVar, (a.jac.point x).getD (0 * a.nVar + d) 0 *
        (a.jac.point x).getD (1 * a.nVar + d) 0 with hcdef
      have hc' : ∑ d ∈ Finset.range a.nVar, (a.jac.point x).getD (1 * a.nVar + d) 0 *
        (a.jac.point x).getD (0 * a.nVar + d) 0 = c := Finset.sum_congr rfl fun d _ => mul_comm _ _
      have hsq : ∑ d ∈ Finset.range a.nVar, (n1 * (a.jac.point x).getD (0 * a.nVar + d) 0 +
          n0 * (a.jac.point x).getD (1 * a.nVar + d) 0) ^ 2 = 2 * (n0 * n1) * (n0 * n1 + c) := by
        have : ∀ d, (n1 * (a.jac.point x).getD (0 * a.nVar + d) 0 + n0 * (a.jac.point x).getD (1 * a.nVar + d) 0) ^ 2 =
            n1 ^ 2 * (a.jac.point x).getD (0 * a.nVar + d) 0 ^ 2 + n0 ^ 2 * (a.jac.point x).getD (1 * a.nVar + d) 0 ^ 2 +
            2 * (n0 * n1) * ((a.jac.point x).getD (0 * a.nVar + d) 0 * (a.jac.point x).getD (1 * a.nVar + d) 0) :=
          fun d => by ring
        simp only [this, Finset.sum_add_distrib, ← Finset.mul_sum]
        rw [← q0, ← q1, ← hcdef]
        ring
      have hpos : 0 < n0 * n1 + c := by
        by_contra hneg
        have hz := le_antisymm (hsq ▸ mul_nonpos_of_nonneg_of_nonpos (by positivity) (not_lt.mp hneg))
          (Finset.sum_nonneg fun d _ => sq_nonneg _)
        rw [Finset.sum_eq_zero_iff_of_nonneg fun d _ => sq_nonneg _] at hz
        have hlin : n1 * slopeAlong a x 0 w + n0 * slopeAlong a x 1 w = 0 := by
          unfold slopeAlong
          rw [Finset.mul_sum, Finset.mul_sum, ← Finset.sum_add_distrib]
          refine Finset.sum_eq_zero fun d hd => ?_
          have := pow_eq_zero_iff (two_ne_zero) |>.mp (hz d hd)
          linear_combination w d * this
        have a0 := mul_neg_of_pos_of_neg p1 (hw 0 (by omega))
        have a1 := mul_neg_of_pos_of_neg p0 (hw 1 (by omega))
        linarith
      have hk2 : k = 0 ∨ k = 1 := by omega
      rw [h1, Finset.sum_range_succ, Finset.sum_range_one]
      rcases hk2 with rfl | rfl
      · rw [s0, ← hcdef]
        have : n0 + c / n1 = (n0 * n1 + c) / n1 := by field_simp
        rw [this]
        exact div_pos hpos p1
      · rw [s1, hc']
        have : c / n0 + n1 = (n0 * n1 + c) / n0 := by field_simp; ring
        rw [this]
        exact div_pos hpos p0
  · refine Finset.sum_pos' (fun j hj => div_nonneg (h2 k hk j (Finset.mem_range.mp hj))
      (gradRow_norm he hc (Finset.mem_range.mp hj)).1.le) ⟨k, Finset.mem_range.mpr hk, ?_⟩
    rw [self k hk]
    exact (gradRow_norm he hc hk).1

/-! ### Violations with linear objectives -/

/-- Linear objectives with the matrix `A` on the unit cube. -/
noncomputable def linear (m n : ℕ) (A : ℕ → ℕ → ℝ) : Lara ℝ where
  nVar := n
  nObj := m
  func := ⟨fun x => (List.range m).map fun k => ∑ d ∈ Finset.range n, A k d * x.getD d 0, none⟩
  jac := ⟨fun _ => (List.range (m * n)).map fun i => A (i / n) (i % n), none⟩
  xl := List.replicate n 0
  xu := List.replicate n 1
  eps := 1
  dist := sumDist
  norm := fun v => Real.sqrt (v.map (· ^ 2)).sum

theorem linear_jac (m n : ℕ) (A : ℕ → ℕ → ℝ) (x : List ℝ) {k d : ℕ} (hk : k < m) (hd : d < n) :
    ((linear m n A).jac.point x).getD (k * n + d) 0 = A k d := by
  have h : k * n + d < m * n := by nlinarith
  simp only [linear]
  rw [List.getD_eq_getElem _ _ (by simpa using h)]
  simp [Nat.mul_comm k n, Nat.mul_add_div (show 0 < n by omega), Nat.mul_add_mod, Nat.div_eq_of_lt hd,
    Nat.mod_eq_of_lt hd]

theorem linear_ok (m n : ℕ) (A : ℕ → ℕ → ℝ) (hn : 0 < n) : LaraOk (linear m n A) where
  funcs :=
    { func := ⟨fun b hb => by simp [linear, Lara.funcs] at hb, fun _ _ => by simp [linear, Lara.funcs]⟩
      jac := ⟨fun b hb => by simp [linear, Lara.funcs] at hb, fun _ _ => by simp [linear, Lara.funcs]⟩
      h := by rintro c hc; simp [Lara.funcs] at hc
      g := by rintro c hc; simp [Lara.funcs] at hc
      hJac := by rintro c hc; simp [Lara.funcs] at hc
      gJac := by rintro c hc; simp [Lara.funcs] at hc
      hHess := by rintro c hc; simp [Lara.funcs] at hc
      gHess := by rintro c hc; simp [Lara.funcs] at hc }
  pos := hn
  xl := by simp [linear]
  xu := by simp [linear]
  box := by
    intro d hd
    have hd' : d < n := hd
    simp [linear, List.getD_eq_getElem?_getD, List.getElem?_replicate, hd']
  nonneg := sumDist_nonneg
  symm := sumDist_symm

theorem linear_slope (m n : ℕ) (A : ℕ → ℕ → ℝ) (x : List ℝ) {k : ℕ} (hk : k < m) (w : ℕ → ℝ) :
    slopeAlong (linear m n A) x k w = ∑ d ∈ Finset.range n, A k d * w d :=
  Finset.sum_congr rfl fun d hd => by
    rw [← linear_jac m n A x hk (Finset.mem_range.mp hd)]
    rfl

theorem linear_value (m n : ℕ) (A : ℕ → ℕ → ℝ) (x : List ℝ) {k : ℕ} (hk : k < m) (w : ℕ → ℝ) (t : ℝ) :
    valueAlong (linear m n A) x k w t =
      ∑ d ∈ Finset.range n, A k d * x.getD d 0 + t * ∑ d ∈ Finset.range n, A k d * w d := by
  unfold valueAlong
  simp only [linear]
  rw [List.getD_eq_getElem _ _ (by simpa using hk), List.getElem_map, List.getElem_range, Finset.mul_sum,
    ← Finset.sum_add_distrib]
  refine Finset.sum_congr rfl fun d hd => ?_
  rw [List.getD_eq_getElem (List.map _ _) _ (by simpa using hd), List.getElem_map, List.getElem_range]
  ring

theorem linear_gradients (m n : ℕ) (A : ℕ → ℕ → ℝ) : HasGradients (linear m n A) := by
  intro x _ w k hk
  rw [linear_slope m n A x hk]
  have e : valueAlong (linear m n A) x k w = fun t =>
      ∑ d ∈ Finset.range n, A k d * x.getD d 0 + t * ∑ d ∈ Finset.range n, A k d * w d :=
    funext fun t => linear_value m n A x hk w t
  rw [e]
  simpa using ((hasDerivAt_id (0 : ℝ)).mul_const (∑ d ∈ Finset.range n, A k d * w d)).const_add
    (∑ d ∈ Finset.range n, A k d * x.getD d 0)

theorem linear_norm (m n : ℕ) (A : ℕ → ℕ → ℝ) (x : List ℝ) {k : ℕ} (hk : k < m)
    (h : ∑ d ∈ Finset.range n, A k d ^ 2 = 1) : (linear m n A).norm (gradRow (linear m n A) x k) = 1 := by
  have e : gradRow (linear m n A) x k = (List.range n).map (A k) :=
    List.map_congr_left fun d hd => linear_jac m n A x hk (List.mem_range.mp hd)
  rw [e]
  show Real.sqrt _ = 1
  rw [List.map_map, ← List.sum_toFinset _ List.nodup_range, List.toFinset_range]
  simp only [Function.comp_apply]
  rw [h, Real.sqrt_one]

theorem linear_dir (m n : ℕ) (A : ℕ → ℕ → ℝ) (x : List ℝ) (h : ∀ k < m, ∑ d ∈ Finset.range n, A k d ^ 2 = 1)
    {d : ℕ} (hd : d < n) : laraDir (linear m n A) x d = -∑ k ∈ Finset.range m, A k d := by
  unfold laraDir
  congr 1
  refine Finset.sum_congr rfl fun k hk => ?_
  have hk' := Finset.mem_range.mp hk
  rw [linear_norm m n A x hk' (h k hk'), div_one]
  exact linear_jac m n A x hk' hd

/-- A linear objective that increases along the direction shows that the statement fails. -/
theorem linear_not_descent {P : Lara ℝ → List ℝ → Prop} {m n : ℕ} {A : ℕ → ℕ → ℝ} {x : List ℝ} (hn : 0 < n)
    (hA : ∀ k < m, ∑ d ∈ Finset.range n, A k d ^ 2 = 1) (hx : PopInBox (linear m n A).xl (linear m n A).xu [x])
    (hw : CanImprove (linear m n A) x) (hP : P (linear m n A) x) {k : ℕ} (hk : k < m)
    (h : 0 ≤ ∑ d ∈ Finset.range n, A k d * laraBoxDir (linear m n A) x d) : ¬ C74Descent P := by
  intro hD
  obtain ⟨ε, e1, e2⟩ := hD _ (linear_ok m n A hn) (fun _ => rfl) (linear_gradients m n A) x hx
    (fun k hk => by rw [linear_norm m n A x hk (hA k hk)]; exact one_ne_zero) hw hP k hk
  have := e2 (ε / 2) (by linarith) (by linarith)
  rw [linear_value m n A x hk, linear_value m n A x hk] at this
  have := mul_nonneg (show 0 ≤ ε / 2 by linarith) h
  linarith

/-- Three objectives of two variables. -/
noncomputable def threeA (k d : ℕ) : ℝ := (([[1, 0], [-(3 / 5), 4 / 5], [-(4 / 5), 3 / 5]] : List (List ℝ)).getD k []).getD d 0

/-- C74, violation: with three objectives the sum of the normalised gradients can increase an objective, though all three
could be improved at once, at a point in the middle of the box. -/
theorem C74_violated_three : ¬ C74Descent fun a x => Interior a x ∧ a.nObj = 3 := by
  have hA : ∀ k < 3, ∑ d ∈ Finset.range 2, threeA k d ^ 2 = 1 := by
    intro k hk
    interval_cases k <;> norm_num [threeA, Finset.sum_range_succ]
  have hi : Interior (linear 3 2 threeA) [1 / 2, 1 / 2] := by
    intro d hd
    have hd' : d < 2 := hd
    interval_cases d <;> norm_num [linear]
  refine linear_not_descent (x := [1 / 2, 1 / 2]) (by norm_num) hA ?_ ⟨fun d => if d = 0 then -1 else -2, ?_, ?_⟩
    ⟨hi, rfl⟩ (k := 0) (by norm_num) ?_
  · intro y hy
    rw [List.mem_singleton.mp hy]
    refine ⟨rfl, fun d hd => ?_⟩
    have hd' : d < 2 := by simpa [linear] using hd
    interval_cases d <;> norm_num [linear]
  · intro d hd
    have hd' : d < 2 := hd
    interval_cases d <;> norm_num [linear]
  · intro k hk
    have hk' : k < 3 := hk
    rw [linear_slope 3 2 threeA _ hk']
    interval_cases k <;> norm_num [threeA, Finset.sum_range_succ]
  · have hd : ∀ d < 2, laraBoxDir (linear 3 2 threeA) [1 / 2, 1 / 2] d = -∑ k ∈ Finset.range 3, threeA k d := by
      intro d hd
      rw [laraBoxDir, if_neg, linear_dir 3 2 threeA _ hA hd]
      rintro (⟨h, -⟩ | ⟨h, -⟩)
      exacts [absurd (hi d hd).1 h.not_gt, absurd (hi d hd).2 h.not_gt]
    rw [Finset.sum_range_succ, Finset.sum_range_one, hd 0 (by norm_num), hd 1 (by norm_num)]
    norm_num [threeA, Finset.sum_range_succ]

/-- Two objectives of three variables. -/
noncomputable def boundaryA (k d : ℕ) : ℝ := (([[4 / 5, 3 / 5, 0], [0, -(4 / 5), 3 / 5]] : List (List ℝ)).getD k []).getD d 0

/-- C74, violation: at the boundary of the box the components of the direction that leave the box are set to zero. What
remains can increase an objective, even with two objectives, though both could be improved at once inside the box. -/
theorem C74_violated_boundary : ¬ C74Descent fun a _ => a.nObj = 2 := by
  have hA : ∀ k < 2, ∑ d ∈ Finset.range 3, boundaryA k d ^ 2 = 1 := by
    intro k hk
    interval_cases k <;> norm_num [boundaryA, Finset.sum_range_succ]
  refine linear_not_descent (x := [0, 1 / 2, 1 / 2]) (by norm_num) hA ?_
    ⟨fun d => if d = 0 then 0 else if d = 1 then -1 else -2, ?_, ?_⟩ rfl (k := 0) (by norm_num) ?_
  · intro y hy
    rw [List.mem_singleton.mp hy]
    refine ⟨rfl, fun d hd => ?_⟩
    have hd' : d < 3 := by simpa [linear] using hd
    interval_cases d <;> norm_num [linear]
  · intro d hd
    have hd' : d < 3 := hd
    interval_cases d <;> norm_num [linear]
  · intro k hk
    have hk' : k < 2 := hk
    rw [linear_slope 2 3 boundaryA _ hk']
    interval_cases k <;> norm_num [boundaryA, Finset.sum_range_succ]
  · have hd0 : laraBoxDir (linear 2 3 boundaryA) [0, 1 / 2, 1 / 2] 0 = 0 := by
      rw [laraBoxDir, linear_dir 2 3 boundaryA _ hA (by norm_num), if_pos]
      left
      norm_num [linear, boundaryA, Finset.sum_range_succ]
    have hd1 : laraBoxDir (linear 2 3 boundaryA) [0, 1 / 2, 1 / 2] 1 = 1 / 5 := by
      rw [laraBoxDir, linear_dir 2 3 boundaryA _ hA (by norm_num), if_neg]
      · norm_num [boundaryA, Finset.sum_range_succ]
      · norm_num [linear]
    rw [Finset.sum_range_succ, Finset.sum_range_succ, Finset.sum_range_one, hd0, hd1]
    norm_num [boundaryA]

theorem C74_violated : ¬ C74Statement := fun h =>
  C74_violated_three fun a ha he hg x hx hc hi _ => h a ha he hg x hx hc hi trivial

/-! ### Examples -/

/-- Three points, two of them equal. -/
example : (((squares ℚ).start [[1 / 4], [3], [3]]).bind ((squares ℚ).run 2)).map (fun s => (s.X, s.Y)) =
    some ([[1 / 4], [-1]], [[1 / 16, 1 / 8], [1, 2]]) := by
  decide +kernel

/-- On the line no gradient vanishes, as required by `C74_run`. -/
def lineLara (K : Type*) [Field K] [LinearOrder K] : Lara K :=
  ⟨1, 2, (lineFuncs K).func, (lineFuncs K).jac, [0], [1], 1, sumDist, fun v => (v.map fun t => |t|).sum⟩

example (n : ℕ) : ∃ (s : ℕ → State ℚ), (lineLara ℚ).start [[2], [1 / 3]] = some (s 0) ∧
    (lineLara ℚ).run n (s 0) = some (s n) ∧ (∀ m < n, ∃ kept α, LaraMove (lineLara ℚ) (s m) (s (m + 1)) kept α) ∧
    ∀ m ≤ n, PopInBox [0] [1] (s m).X ∧ (s m).X ≠ [] ∧ (s m).X.length ≤ 2 :=
  C74_run (a := lineLara ℚ)
    { funcs := lineFuncs_ok, pos := one_pos, xl := rfl, xu := rfl, nonneg := sumDist_nonneg, symm := sumDist_symm
      box := by
        intro d hd
        obtain rfl : d = 0 := by simp only [lineLara] at hd; omega
        simp [lineLara] }
    (by
      intro x _ k hk
      have : k = 0 ∨ k = 1 := by simp only [lineLara] at hk; omega
      rcases this with rfl | rfl <;> simp [gradRow, lineLara, lineFuncs])
    (by simp) (by simp [lineLara]) n

/-- `C74_descent_partial` for the first and the last of the three objectives. -/
example : DecreasesAlong (valueAlong (linear 2 2 fun k => threeA (2 * k)) [1 / 2, 1 / 2] 0
    (laraBoxDir (linear 2 2 fun k => threeA (2 * k)) [1 / 2, 1 / 2])) := by
  have hA : ∀ k < 2, ∑ d ∈ Finset.range 2, threeA (2 * k) d ^ 2 = 1 := by
    intro k hk
    interval_cases k <;> norm_num [threeA, Finset.sum_range_succ]
  refine C74_descent_partial _ (linear_ok _ _ _ (by norm_num)) (fun _ => rfl) (linear_gradients _ _ _) _ ?_
    (fun k hk => by rw [linear_norm 2 2 _ _ hk (hA k hk)]; exact one_ne_zero) ⟨fun d => if d = 0 then -1 else -2, ?_, ?_⟩
    ⟨?_, .inl le_rfl⟩ 0 (by norm_num [linear])
  · intro y hy
    rw [List.mem_singleton.mp hy]
    refine ⟨rfl, fun d hd => ?_⟩
    have hd' : d < 2 := by simpa [linear] using hd
    interval_cases d <;> norm_num [linear]
  · intro d hd
    have hd' : d < 2 := hd
    interval_cases d <;> norm_num [linear]
  · intro k hk
    have hk' : k < 2 := hk
    rw [linear_slope 2 2 _ _ hk']
    interval_cases k <;> norm_num [threeA, Finset.sum_range_succ]
  · intro d hd
    have hd' : d < 2 := hd
    interval_cases d <;> norm_num [linear]

end Verif.Props
