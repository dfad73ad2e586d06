import Verif.Props.EaRuns
import Verif.Props.DTLZSet
import Verif.Props.Misc
import Verif.Props.ZDT

/-!
# C92: the reference points of benchmark_EA.py and the fronts of the problems

The hypervolume of a set only counts what is below the reference point. Here the reference points of the table are compared
with the fronts.
-/

namespace Verif.Props

open Verif.Scripts Verif.Prob

/-- The problem has a reference point that is larger than `y` in every objective. -/
def BelowReference (name : String) (y : List ℝ) : Prop :=
  ∃ r, getReferencePoint name = some r ∧ List.Forall₂ (fun (a : ℝ) (b : ℕ) => a < b) y r

theorem below_three {name : String} {a b c : ℕ} (h : getReferencePoint name = some [a, b, c]) {y : List ℝ} (hl : y.length = 3)
    (hy : ∀ v ∈ y, v < a ∧ v < b ∧ v < c) : BelowReference name y := by
  obtain ⟨u, v, w, rfl⟩ := List.length_eq_three.mp hl
  refine ⟨_, h, ?_⟩
  simp only [List.mem_cons, List.not_mem_nil, or_false, forall_eq_or_imp, forall_eq] at hy
  exact .cons hy.1.1 (.cons hy.2.1.2.1 (.cons hy.2.2.2.2 .nil))

/-- C92, reference points of the ZDT problems: the fronts returned by `get_pareto_front` are below them. -/
theorem C92_reference_zdt (n : ℕ) : (∀ y ∈ zdtFront1 n, BelowReference "ZDT1" y ∧ BelowReference "ZDT4" y) ∧
    (∀ y ∈ zdtFront2 n, BelowReference "ZDT2" y) ∧ (∀ y ∈ zdtFront3 n, BelowReference "ZDT3" y) ∧
    ∀ y ∈ zdtFront6 n, BelowReference "ZDT6" y := by
  have key : ∀ name, getReferencePoint name = some [11, 11] → ∀ a b : ℝ, a ≤ 1 → b ≤ 2 → BelowReference name [a, b] :=
    fun name h a b ha hb => ⟨_, h, .cons (by push_cast; linarith) (.cons (by push_cast; linarith) .nil)⟩
  refine ⟨fun y hy => ?_, fun y hy => ?_, fun y hy => ?_, fun y hy => ?_⟩
  · obtain ⟨f, hf, rfl⟩ := List.mem_map.mp hy
    have h1 := (C52_linspace zero_le_one f hf).2
    have h2 := Real.sqrt_nonneg f
    exact ⟨key _ (by decide +kernel) _ _ h1 (by linarith), key _ (by decide +kernel) _ _ h1 (by linarith)⟩
  · obtain ⟨f, hf, rfl⟩ := List.mem_map.mp hy
    exact key _ (by decide +kernel) _ _ (C52_linspace zero_le_one f hf).2 (by nlinarith [sq_nonneg f])
  · obtain ⟨r, hr, hy⟩ := List.mem_flatMap.mp hy
    obtain ⟨f, hf, rfl⟩ := List.mem_map.mp hy
    have hr' : 0 ≤ r.1 ∧ r.1 ≤ r.2 ∧ r.2 ≤ 1 := by
      simp only [zdt3Regions, List.mem_cons, List.not_mem_nil, or_false] at hr
      rcases hr with rfl | rfl | rfl | rfl | rfl <;> norm_num
    obtain ⟨h0, h1⟩ := C52_linspace hr'.2.1 f hf
    have h2 := Real.sqrt_nonneg f
    have h3 := Real.neg_one_le_sin (10 * Real.pi * f)
    exact key _ (by decide +kernel) _ _ (by linarith) (by nlinarith)
  · obtain ⟨f, hf, rfl⟩ := List.mem_map.mp hy
    exact key _ (by decide +kernel) _ _ (C52_linspace (by norm_num) f hf).2 (by nlinarith [sq_nonneg f])

theorem le_of_sum_sq {y : List ℝ} {c : ℝ} (hc : 0 ≤ c) (h : (y.map fun f => f ^ 2).sum = c ^ 2) : ∀ v ∈ y, v ≤ c := by
  intro v hv
  have := List.single_le_sum (l := y.map fun f => f ^ 2) (fun a ha => by
    obtain ⟨b, -, rfl⟩ := List.mem_map.mp ha
    positivity) (v ^ 2) (List.mem_map.mpr ⟨v, hv, rfl⟩)
  rw [h] at this
  exact abs_le_of_sq_le_sq' this hc |>.2

/-- C92, reference points of the DTLZ problems with three objectives: the objective vectors of the sets returned by
`get_pareto_set` are below them (for DTLZ6 with less than 1000 distance variables, for DTLZ7 with at least one). -/
theorem C92_reference_dtlz {n k : ℕ} (hn : 2 ≤ n) (hk : k = n - 2) :
    (∀ x ∈ Drawn 0.5 3 n, BelowReference "DTLZ1" ((DTLZ1 3 k).objective x) ∧ BelowReference "DTLZ2" ((DTLZ2 3).objective x) ∧
      BelowReference "DTLZ3" ((DTLZ3 3 k).objective x) ∧ BelowReference "DTLZ4" ((DTLZ4 3).objective x) ∧
      BelowReference "DTLZ5" ((DTLZ5 3).objective x)) ∧
    (k < 1000 → ∀ x ∈ Drawn 0 3 n, BelowReference "DTLZ6" ((DTLZ6 3 1e-30).objective x)) ∧
    (0 < k → ∀ x ∈ Drawn 0 3 n, ∃ y, dtlz7 3 k x = some y ∧ BelowReference "DTLZ7" y) := by
  refine ⟨fun x hx => ?_, fun hk0 x hx => ?_, fun hk0 x hx => ?_⟩
  · have hs : gSphere (x.drop (3 - 1)) = 0 := (C51_gSphere _).2.mpr hx.2.2
    have hr : gRastrigin k (x.drop (3 - 1)) = 0 := by
      have := (C51_gRastrigin (x.drop (3 - 1))).2.mpr hx.2.2
      rwa [List.length_drop, hx.1, ← hk] at this
    have hlen := C51_length 3 k 0 (x := x) (by norm_num) (by rw [hx.1]; omega)
    have hsph := C51_sphere 3 k 0 x
    have hbox := drawn_box (by norm_num) hx
    have two : ∀ (name : String) (P : DTLZ), getReferencePoint name = some [2, 2, 2] → (P.objective x).length = 3 →
        ((P.objective x).map fun f => f ^ 2).sum = (1 + gAt P x) ^ 2 → gAt P x = 0 → BelowReference name (P.objective x) := by
      intro name P h1 h2 h3 h4
      refine below_three h1 h2 fun v hv => ?_
      rw [h4, add_zero] at h3
      have := le_of_sum_sq zero_le_one h3 v hv
      have h5 : v < ((2 : ℕ) : ℝ) := by push_cast; linarith
      exact ⟨h5, h5, h5⟩
    refine ⟨?_, two _ _ (by decide +kernel) (hlen _ (by simp)).1 (hsph _ (by simp)) hs,
      two _ _ (by decide +kernel) (hlen _ (by simp)).1 (hsph _ (by simp)) hr,
      two _ _ (by decide +kernel) (hlen _ (by simp)).1 (hsph _ (by simp)) hs,
      two _ _ (by decide +kernel) (hlen _ (by simp)).1 (hsph _ (by simp)) hs⟩
    refine below_three (a := 2) (b := 2) (c := 2) (by decide +kernel) (hlen _ (by simp)).1 fun v hv => ?_
    have h1 := C51_dtlz1 3 k x
    rw [show gAt (DTLZ1 3 k) x = 0 from hr] at h1
    have h0 : ∀ f ∈ (DTLZ1 3 k).objective x, 0 ≤ f := by
      unfold DTLZ.objective
      dsimp only [DTLZ1, transformLinear]
      rw [productForm_eq _ _ _ (by simp)]
      intro f hf
      refine stick_nonneg ?_ (fun a ha => (hx.2.1 a ha).1) ?_ f (List.mem_reverse.mp hf)
      · rw [show gRastrigin k (distance 3 x) = 0 from hr]
        norm_num
      · intro a ha
        obtain ⟨z, hz, rfl⟩ := List.mem_map.mp ha
        linarith [(hx.2.1 z hz).2]
    have h2 := List.single_le_sum h0 v hv
    rw [h1] at h2
    have h5 : v < ((2 : ℕ) : ℝ) := by push_cast; norm_num at h2; linarith
    exact ⟨h5, h5, h5⟩
  · have hd : x.drop (3 - 1) = List.replicate k 0 := by
      rw [List.eq_replicate_iff]
      exact ⟨by rw [List.length_drop, hx.1, hk], hx.2.2⟩
    have hg : gAt (DTLZ6 3 1e-30) x = (k : ℝ) / 1000 := by
      have := (C51_violated_dtlz6 (x.drop (3 - 1))).2
      rw [hd, List.length_replicate] at this
      exact (congrArg _ hd).trans this
    refine below_three (a := 2) (b := 2) (c := 2) (by decide +kernel)
      (C51_length 3 k 1e-30 (by norm_num) (by rw [hx.1]; omega) _ (by simp)).1 fun v hv => ?_
    have h1 := C51_sphere 3 k 1e-30 x (DTLZ6 3 1e-30) (by simp)
    rw [hg] at h1
    have hk' : (k : ℝ) < 1000 := by exact_mod_cast hk0
    have h2 := le_of_sum_sq (by positivity) h1 v hv
    have h5 : v < ((2 : ℕ) : ℝ) := by push_cast; linarith
    exact ⟨h5, h5, h5⟩
  · refine ⟨_, dtlz7_eq hk hk0 (drawn_box (by norm_num) hx), ?_⟩
    have ht : (x.take 2).length = 2 := by rw [List.length_take, hx.1]; omega
    have hp := hx.2.1
    change ∀ z ∈ x.take 2, _ at hp
    have hd : (x.drop 2).sum = 0 := List.sum_eq_zero hx.2.2
    unfold bumpObjective
    change BelowReference _ (x.take 2 ++ [(2 + 9 / (k : ℝ) * (x.drop 2).sum) * (3 : ℕ) - bumps (x.take 2)])
    rw [hd]
    obtain ⟨u, v, he⟩ := List.length_eq_two.mp ht
    rw [he] at hp ⊢
    simp only [List.mem_cons, List.not_mem_nil, or_false, forall_eq_or_imp, forall_eq] at hp
    have hb : 0 ≤ bumps [u, v] := by
      refine List.sum_nonneg fun a ha => ?_
      simp only [List.map_cons, List.map_nil, List.mem_cons, List.not_mem_nil, or_false] at ha
      rcases ha with rfl | rfl
      · exact mul_nonneg hp.1.1 (by linarith [Real.neg_one_le_sin (3 * Real.pi * u)])
      · exact mul_nonneg hp.2.1 (by linarith [Real.neg_one_le_sin (3 * Real.pi * v)])
    refine ⟨[2, 2, 10], by decide +kernel, .cons ?_ (.cons ?_ (.cons ?_ .nil))⟩
    · push_cast; linarith [hp.1.2]
    · push_cast; linarith [hp.2.2]
    · push_cast; linarith

/-- C92, the reference point of CONV4_2F: no point of the front is beyond it in any objective. -/
theorem C92_reference_conv {z : List ℝ} (hz : z ∈ UpperFront ∪ LowerFront) :
    ∃ r, getReferencePoint "CONV4_2F" = some r ∧ List.Forall₂ (fun (a : ℝ) (b : ℕ) => a ≤ b) z r := by
  refine ⟨[2, 2, 2, 10], by decide +kernel, ?_⟩
  rcases hz with ⟨w, hw, rfl⟩ | ⟨w, hw, -, rfl⟩
  · have h := fun j hj => dist2_weights hw (j := j) hj
    have h0 := h 0 (by norm_num)
    have h1 := h 1 (by norm_num)
    have h2 := h 2 (by norm_num)
    have h3 := h 3 (by norm_num)
    rw [distances_four]
    refine .cons ?_ (.cons ?_ (.cons ?_ (.cons ?_ .nil))) <;> push_cast <;> linarith
  · have h := fun j hj => dist2_weights hw (j := j) hj
    have h0 := h 0 (by norm_num)
    have h1 := h 1 (by norm_num)
    have h2 := h 2 (by norm_num)
    have h3 := h 3 (by norm_num)
    rw [distances_four]
    simp only [List.zipWith_cons_cons, List.zipWith_nil_left]
    refine .cons ?_ (.cons ?_ (.cons ?_ (.cons ?_ .nil))) <;> push_cast <;> linarith

/-- but the corners of the upper part of the front are on its boundary, so they add nothing to the hypervolume. -/
theorem C92_violated_conv : ∃ z ∈ UpperFront ∪ LowerFront, ¬ BelowReference "CONV4_2F" z := by
  refine ⟨_, .inl ⟨fun i => if i = 0 then 1 else 0, ?_, rfl⟩, ?_⟩
  · refine ⟨fun j _ => ?_, ?_⟩
    · dsimp only
      split_ifs <;> norm_num
    · simp
  · rintro ⟨r, hr, h⟩
    rw [show getReferencePoint "CONV4_2F" = some [2, 2, 2, 10] by decide +kernel] at hr
    obtain rfl := Option.some.inj hr
    rw [distances_four] at h
    simp only [List.forall₂_cons] at h
    have := h.2.1
    norm_num [dist2, unit4, Finset.sum_range_succ] at this

/-- A point of the set of DTLZ7 with two position variables and one distance variable. -/
example : ∃ y, dtlz7 3 1 [0.5, 1, 0] = some y ∧ BelowReference "DTLZ7" y :=
  (C92_reference_dtlz (n := 3) (k := 1) (by norm_num) rfl).2.2 one_pos _
    ⟨rfl, by norm_num, by simp⟩

/-- A point of the front of ZDT1. -/
example : BelowReference "ZDT1" [0, 1 - Real.sqrt 0] :=
  ((C92_reference_zdt 3).1 _ (List.mem_map.mpr ⟨0, List.mem_map.mpr ⟨0, by simp, by simp⟩, rfl⟩)).1

end Verif.Props
