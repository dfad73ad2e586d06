import Verif.HV.Ring

/-!
# The model reads only the first `d` coordinates
-/

set_option linter.unusedSectionVars false

namespace Verif.HV

variable {K : Type*} [Ring K] [LinearOrder K]

/-- Two cargo arrays agree in the first `n` coordinates. -/
def Agree (c c' : ℕ → ℕ → K) (n : ℕ) : Prop := ∀ z, ∀ i < n, c z i = c' z i

theorem Agree.mono {c c' : ℕ → ℕ → K} {n m : ℕ} (h : Agree c c' n) (hm : m ≤ n) : Agree c c' m :=
  fun z i hi => h z i (by omega)

variable {c c' : ℕ → ℕ → K}

theorem remove_congr {x d : ℕ} (h : Agree c c' d) (s : ML K) : remove c x d s = remove c' x d s := by
  induction d with
  | zero => rfl
  | succ d ih =>
    rw [remove_succ, remove_succ, ih (h.mono (by omega))]
    simp only [removeAt, lowerBound, h x d (by omega)]

theorem reinsert_congr {x d : ℕ} (h : Agree c c' d) (s : ML K) :
    reinsert c x d s = reinsert c' x d s := by
  induction d with
  | zero => rfl
  | succ d ih =>
    rw [reinsert_succ, reinsert_succ, ih (h.mono (by omega))]
    simp only [reinsertAt, lowerBound, h x d (by omega)]

theorem removeLoop_congr {d : ℕ} (h : Agree c c' (d + 1)) : ∀ (len p q : ℕ) (s : ML K),
    removeLoop c d len p q s = removeLoop c' d len p q s := by
  intro len
  induction len with
  | zero => intro p q s; rfl
  | succ len ih =>
    intro p q s
    cases len with
    | zero => rfl
    | succ len =>
      unfold removeLoop
      simp only [ih, remove_congr (h.mono (Nat.le_succ d)), h _ d (by omega)]

theorem initArea_congr {d q : ℕ} (h : Agree c c' d) (s : ML K) : initArea c d q s = initArea c' d q s := by
  unfold initArea
  simp only [ML.mk.injEq, true_and, and_true]
  funext x y
  split_ifs with hxy
  · rw [h q (y - 1) (by omega)]
  · rfl

theorem sweepLoop_congr {rec : ℕ → ML K → Option (K × ML K)} {d : ℕ} (h : Agree c c' (d + 1)) :
    ∀ (fuel : ℕ) (hvol : K) (len p q : ℕ) (s : ML K),
    sweepLoop c rec d fuel hvol len p q s = sweepLoop c' rec d fuel hvol len p q s := by
  intro fuel
  induction fuel with
  | zero => intro hvol len p q s; unfold sweepLoop; rw [h q d (by omega)]
  | succ fuel ih =>
    intro hvol len p q s
    unfold sweepLoop
    simp only [ih, reinsert_congr (h.mono (Nat.le_succ d)), h _ d (by omega)]

theorem level_congr {rec : ℕ → ML K → Option (K × ML K)} {d : ℕ} (h : Agree c c' (d + 1))
    (fuel len : ℕ) (s : ML K) : level c fuel rec d len s = level c' fuel rec d len s := by
  unfold level
  simp only [removeLoop_congr h, initArea_congr (h.mono (Nat.le_succ d)), sweepLoop_congr h,
    h _ d (by omega)]

theorem sweep2_congr (h : Agree c c' 2) (s : ML K) : ∀ (fuel : ℕ) (hvol hh : K) (q p : ℕ),
    sweep2 c s fuel hvol hh q p = sweep2 c' s fuel hvol hh q p := by
  intro fuel
  induction fuel with
  | zero => intro hvol hh q p; unfold sweep2; rw [h q 1 (by omega)]
  | succ fuel ih =>
    intro hvol hh q p
    unfold sweep2
    simp only [ih, h _ 1 (by omega), h _ 0 (by omega)]

theorem hvRec_congr (fuel : ℕ) : ∀ (d : ℕ), Agree c c' (d + 1) → ∀ (len : ℕ) (s : ML K),
    hvRec c fuel d len s = hvRec c' fuel d len s
  | 0, h, len, s => by
    cases len with
    | zero => simp only [hvRec]
    | succ len => simp only [hvRec, h _ 0 (by omega)]
  | 1, h, len, s => by
    cases len with
    | zero => simp only [hvRec]
    | succ len => simp only [hvRec, sweep2_congr h, h _ 0 (by omega)]
  | d + 2, h, len, s => by
    cases len with
    | zero => simp only [hvRec]
    | succ len =>
      have hr : hvRec c fuel (d + 1) = hvRec c' fuel (d + 1) :=
        funext fun len => funext fun s => hvRec_congr fuel (d + 1) (h.mono (by omega)) len s
      simp only [hvRec, hr, level_congr h]

theorem preLoop_congr (argsort : List K → List ℕ) : ∀ (is nodes : List ℕ) (s : ML K),
    (∀ i ∈ is, ∀ z, c z i = c' z i) → preLoop argsort c is nodes s = preLoop argsort c' is nodes s
  | [], _, _, _ => rfl
  | i :: is, nodes, s, h => by
    unfold preLoop sortByDimension
    simp only [h i (by simp)]
    split
    · rfl
    · exact preLoop_congr argsort is _ _ (fun j hj => h j (by simp [hj]))

/-- `compute` reads only the first `d` coordinates of the shifted relevant points. -/
theorem compute_congr (argsort : List K → List ℕ) (d : ℕ) (front front' : List (ℕ → K))
    (ref ref' : ℕ → K)
    (hl : (relevantPoints d front ref).length = (relevantPoints d front' ref').length)
    (h : Agree (cargoOf (relevantPoints d front ref)) (cargoOf (relevantPoints d front' ref')) d) :
    compute argsort d front ref = compute argsort d front' ref' := by
  cases d with
  | zero => rfl
  | succ d =>
    unfold compute preProcess
    simp only [hl, hvRec_congr _ d h]
    rw [preLoop_congr argsort _ _ _ (fun i hi z => h z i (by simpa using hi))]

end Verif.HV
