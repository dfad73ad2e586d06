import Verif.Opt.Run

/-!
# The loops of the optimizers (C31)
-/

namespace Verif.Props

open Verif.Opt

section Run

variable {σ α β ι ρ μ : Type*}

/-- The attributes after `k` iterations from the population `s`: every history has one entry per iteration. The
indicator value and the norm belong to the population before the iteration, the other entries to the one after. -/
structure AfterIterations (o : Optimizer) (b : Body σ α β ι ρ μ) (s : σ) (k : ℕ) (r : RunState σ α β ι ρ μ) :
    Prop where
  pop : r.pop = b.iterate^[k] s
  iterCount : r.iterCount = k
  histX : r.histX = (List.range k).map fun j => b.x (b.iterate^[j + 1] s)
  histY : r.histY = (List.range k).map fun j => b.y (b.iterate^[j + 1] s)
  histInd : r.histInd = if o = .lara then [] else (List.range k).map fun j => some (b.ind (b.iterate^[j] s))
  histR : r.histR = (List.range k).map fun j => some (b.resNorm (b.iterate^[j] s))
  histMetrics : r.histMetrics =
    b.metrics.map fun m => (m.1, (List.range k).map fun j => m.2 (b.y (b.iterate^[j + 1] s)))

theorem after_zero (o : Optimizer) (b : Body σ α β ι ρ μ) (s : σ) : AfterIterations o b s 0 (initRun s b) := by
  constructor <;> simp [initRun]

theorem after_succ {o : Optimizer} {b : Body σ α β ι ρ μ} {s : σ} {k : ℕ} {r : RunState σ α β ι ρ μ}
    (h : AfterIterations o b s k r) : AfterIterations o b s (k + 1) (logOnce o b (iterateOnce o b r)) ∧
      (logOnce o b (iterateOnce o b r)).stop = r.stop := by
  refine ⟨?_, rfl⟩
  obtain ⟨h1, h2, h3, h4, h5, h6, h7⟩ := h
  have hp : b.iterate r.pop = b.iterate^[k + 1] s := by rw [h1, Function.iterate_succ_apply']
  constructor
  · exact hp
  · show (if o = .mmd then (if o = .mmd then r.iterCount + 1 else r.iterCount) else
      (if o = .mmd then r.iterCount + 1 else r.iterCount) + 1) = k + 1
    by_cases ho : o = .mmd <;> simp [ho, h2]
  · show r.histX ++ [b.x (b.iterate r.pop)] = _
    rw [hp, h3, List.range_succ, List.map_append]
    rfl
  · show r.histY ++ [b.y (b.iterate r.pop)] = _
    rw [hp, h4, List.range_succ, List.map_append]
    rfl
  · show (if o = .lara then r.histInd else r.histInd ++ [if o = .lara then r.currInd else some (b.ind r.pop)]) = _
    by_cases ho : o = .lara
    · simp [ho, h5]
    · simp only [ho, if_false] at h5 ⊢
      rw [h5, h1, List.range_succ, List.map_append]
      rfl
  · show r.histR ++ [some (b.resNorm r.pop)] = _
    rw [h6, h1, List.range_succ, List.map_append]
    rfl
  · show List.zipWith (fun h m => (h.1, h.2 ++ [m.2 (b.y (b.iterate r.pop))])) r.histMetrics b.metrics = _
    rw [hp, h7, List.zipWith_map_left, List.zipWith_self]
    refine List.map_congr_left fun m _ => ?_
    rw [List.range_succ, List.map_append]
    rfl

theorem runLoop_after {o : Optimizer} {b : Body σ α β ι ρ μ} {s : σ} {m : ℕ} (fuel k : ℕ)
    {r : RunState σ α β ι ρ μ} (hk : k ≤ m) (hf : m - k < fuel) (h : AfterIterations o b s k r) (hs : r.stop = none) :
    ∃ r', runLoop o (some m) b fuel r = some r' ∧ AfterIterations o b s m r' ∧ r'.stop = some m := by
  induction fuel generalizing k r with
  | zero => omega
  | succ fuel ih =>
    unfold runLoop terminate
    by_cases hkm : m ≤ r.iterCount
    · have hkm' : k = m := by have := h.iterCount; omega
      subst hkm'
      simp only [Option.any_some, hkm, decide_true, if_true, Option.isSome_some]
      refine ⟨_, rfl, ?_, by rw [h.iterCount]⟩
      exact ⟨h.pop, h.iterCount, h.histX, h.histY, h.histInd, h.histR, h.histMetrics⟩
    · simp only [Option.any_some, hkm, decide_false, Bool.false_eq_true, if_false, hs, Option.isSome_none]
      obtain ⟨h', hs'⟩ := after_succ h
      have hi := h.iterCount
      exact ih (k + 1) (by omega) (by omega) h' (hs'.trans hs)

/-- C31: with `max_iters = m` the loop ends after exactly `m` iterations, whatever the iterations do; the counter is
`m`, every history has one entry per iteration (`Lara` records no indicator values), and `run` returns the final
population. -/
theorem C31_run (o : Optimizer) (b : Body σ α β ι ρ μ) (s : σ) (m fuel : ℕ) (hf : m < fuel) :
    ∃ r, runLoop o (some m) b fuel (initRun s b) = some r ∧ AfterIterations o b s m r ∧
      r.histX.length = m ∧ r.histY.length = m ∧ r.histR.length = m ∧ (o ≠ .lara → r.histInd.length = m) ∧
      (∀ h ∈ r.histMetrics, h.2.length = m) ∧ r.histMetrics.map Prod.fst = b.metrics.map Prod.fst ∧
      runResult b r = (b.x (b.iterate^[m] s), b.y (b.iterate^[m] s), some m) := by
  obtain ⟨r, h1, h2, h3⟩ := runLoop_after (o := o) (b := b) (s := s) (m := m) fuel 0 (by omega) (by omega)
    (after_zero o b s) rfl
  refine ⟨r, h1, h2, by simp [h2.histX], by simp [h2.histY], by simp [h2.histR],
    fun ho => by simp [h2.histInd, ho], ?_, ?_, by simp [runResult, h2.pop, h3]⟩
  · intro h hh
    rw [h2.histMetrics] at hh
    obtain ⟨m', -, rfl⟩ := List.mem_map.mp hh
    simp
  · rw [h2.histMetrics, List.map_map]
    rfl

/-- Without the argument `max_iters` (that is, `None`) ten iterations per point are made. -/
theorem C31_default (o : Optimizer) (b : Body σ α β ι ρ μ) (s : σ) (N fuel : ℕ) (hf : 10 * N < fuel) :
    ∃ r, runLoop o (maxIters N none) b fuel (initRun s b) = some r ∧ r.iterCount = 10 * N := by
  obtain ⟨r, h1, h2, -⟩ := C31_run o b s (N * 10) fuel (by omega)
  exact ⟨r, h1, by rw [h2.iterCount]; ring⟩

/-- A second call of `run` makes no iteration. -/
theorem C31_second_run (o : Optimizer) (b : Body σ α β ι ρ μ) (s : σ) (m fuel : ℕ) (hf : m < fuel)
    (r : RunState σ α β ι ρ μ) (hr : runLoop o (some m) b fuel (initRun s b) = some r) :
    runLoop o (some m) b fuel r = some r := by
  obtain ⟨r', h1, h2, h3⟩ := runLoop_after (o := o) (b := b) (s := s) (m := m) fuel 0 (by omega) (by omega)
    (after_zero o b s) rfl
  rw [hr] at h1
  obtain rfl := Option.some.inj h1
  obtain ⟨fuel, rfl⟩ : ∃ f, fuel = f + 1 := ⟨fuel - 1, by omega⟩
  unfold runLoop terminate
  simp only [Option.any_some, h2.iterCount, le_refl, decide_true, if_true, Option.isSome_some]
  have hi := h2.iterCount
  clear h1 h2 hr
  cases r
  simp only at h3 hi
  rw [h3, hi]

/-- The default value of `max_iters` is infinity, and there is no other criterion (`xtol` is never used): the loop
never ends. -/
theorem C31_infinite (o : Optimizer) (b : Body σ α β ι ρ μ) (fuel : ℕ) (r : RunState σ α β ι ρ μ)
    (hs : r.stop = none) : runLoop o (maxIters 0 (some none)) b fuel r = none := by
  induction fuel generalizing r with
  | zero => rfl
  | succ fuel ih =>
    unfold runLoop terminate
    simp only [maxIters, Option.any_none, Bool.false_eq_true, if_false, hs, Option.isSome_none]
    exact ih _ hs

/-- Populations are numbers; the iteration doubles, the indicator is the number itself. -/
def runExample : Body ℕ ℕ ℕ ℕ ℕ ℕ :=
  { iterate := fun s => 2 * s, x := id, y := fun s => s + 1, ind := id, resNorm := fun s => 7 * s,
    metrics := [("GD", fun y => 10 * y)] }

example : (runLoop .hvn (some 3) runExample 10 (initRun 1 runExample)).map
    (fun r => (r.histX, r.histInd, r.histMetrics, runResult runExample r)) =
    some ([2, 4, 8], [some 1, some 2, some 4], [("GD", [30, 50, 90])], (8, 9, some 3)) := by rfl

example : ∃ r, runLoop .mmd (some 3) runExample 4 (initRun 1 runExample) = some r ∧
    AfterIterations .mmd runExample 1 3 r := by
  obtain ⟨r, h1, h2, -⟩ := C31_run .mmd runExample 1 3 4 (by decide)
  exact ⟨r, h1, h2⟩

end Run

end Verif.Props
