import Verif.HVD.Symmetry
import Mathlib.Analysis.Calculus.ContDiff.Operations
import Mathlib.Analysis.Calculus.FDeriv.Pi
import Mathlib.Analysis.Calculus.Deriv.Pi
import Mathlib.Analysis.Calculus.Deriv.Comp
import Mathlib.Analysis.Calculus.Deriv.Prod

/-!
# The hypervolume is smooth near points in general position

A function that is affine in every coordinate on a box is a polynomial there.
-/

namespace Verif.HVD

open Verif.HV Verif.HV.Spec

/-- On a box around `c`, a function that is affine in each coordinate agrees with a smooth one. -/
theorem exists_smooth_of_affine {ι : Type*} [Fintype ι] [DecidableEq ι] {F : (ι → ℝ) → ℝ} {c : ι → ℝ} {ε : ℝ}
    (hε : 0 < ε) (h : ∀ x, (∀ i, |x i - c i| < ε) → ∀ i, ∃ S, ∀ t, |t - c i| < ε →
      F (Function.update x i t) = F x + (t - x i) * S) :
    ∃ G : (ι → ℝ) → ℝ, (∀ n : WithTop ℕ∞, ContDiff ℝ n G) ∧ ∀ x, (∀ i, |x i - c i| < ε) → F x = G x := by
  have key : ∀ s : Finset ι, ∀ b : ι → ℝ, (∀ i, |b i - c i| < ε) →
      ∃ G : (ι → ℝ) → ℝ, (∀ n : WithTop ℕ∞, ContDiff ℝ n G) ∧
        ∀ x, (∀ i, |x i - c i| < ε) → F (s.piecewise x b) = G x := by
    intro s
    induction s using Finset.induction_on with
    | empty =>
      intro b _
      exact ⟨fun _ => F b, fun n => contDiff_const, fun x _ => by simp⟩
    | insert i s his ih =>
      intro b hb
      have hup : ∀ t, |t - c i| < ε → ∀ j, |Function.update b i t j - c j| < ε := by
        intro t ht j
        by_cases hj : j = i
        · subst hj; simpa using ht
        · simpa [hj] using hb j
      have hc0 : |c i - c i| < ε := by simpa using hε
      have hc1 : |c i + ε / 2 - c i| < ε := by
        rw [add_sub_cancel_left, abs_of_pos (by linarith)]; linarith
      obtain ⟨G0, hG0, e0⟩ := ih _ (hup _ hc0)
      obtain ⟨G1, hG1, e1⟩ := ih _ (hup _ hc1)
      refine ⟨fun x => G0 x + (x i - c i) * ((G1 x - G0 x) * (ε / 2)⁻¹), fun n => ?_, fun x hx => ?_⟩
      · have hi : ContDiff ℝ n (fun x : ι → ℝ => x i) := contDiff_apply ℝ ℝ i
        exact (hG0 n).add ((hi.sub contDiff_const).mul (((hG1 n).sub (hG0 n)).mul contDiff_const))
      · have hpw : ∀ t, s.piecewise x (Function.update b i t) = Function.update (s.piecewise x b) i t := by
          intro t
          ext j
          by_cases hj : j = i
          · subst hj; simp [his]
          · by_cases hjs : j ∈ s <;> simp [hj, hjs]
        have hins : (insert i s).piecewise x b = Function.update (s.piecewise x b) i (x i) := by
          rw [Finset.piecewise_insert]
        have hbox : ∀ j, |s.piecewise x (Function.update b i (c i)) j - c j| < ε := by
          intro j
          by_cases hjs : j ∈ s
          · simpa [hjs] using hx j
          · simpa [hjs] using hup _ hc0 j
        obtain ⟨S, hS⟩ := h _ hbox i
        have hval : s.piecewise x (Function.update b i (c i)) i = c i := by simp [his]
        have hS' : ∀ t, |t - c i| < ε → F (Function.update (s.piecewise x b) i t) =
            G0 x + (t - c i) * S := by
          intro t ht
          have := hS t ht
          rw [hval, e0 x hx, hpw, Function.update_idem] at this
          exact this
        have hs1 := hS' _ hc1
        rw [← hpw, e1 x hx, add_sub_cancel_left] at hs1
        rw [hins, hS' _ (hx i)]
        have hε2 : ε / 2 ≠ 0 := by positivity
        have : (G1 x - G0 x) * (ε / 2)⁻¹ = S := by
          rw [hs1]; field_simp; ring
        simp only
        rw [this]
  obtain ⟨G, hG, he⟩ := key Finset.univ c (fun i => by simpa using hε)
  exact ⟨G, hG, fun x hx => by simpa using he x hx⟩

/-! ### Point sets as vectors -/

variable {N d : ℕ}

/-- The list of points with the given coordinates. -/
def ofVec (x : Fin N × Fin d → ℝ) : List (ℕ → ℝ) :=
  List.ofFn fun i : Fin N => fun k : ℕ => if h : k < d then x (i, ⟨k, h⟩) else 0

theorem length_ofVec (x : Fin N × Fin d → ℝ) : (ofVec x).length = N := by simp [ofVec]

theorem ptOf_ofVec (x : Fin N × Fin d → ℝ) (i : Fin N) (k : Fin d) : ptOf (ofVec x) i k = x (i, k) := by
  rw [ptOf_eq (by rw [length_ofVec]; exact i.2)]
  exact (congrFun (List.getElem_ofFn _) _).trans (dif_pos k.2)

theorem setCoord_ofVec (x : Fin N × Fin d → ℝ) (i : Fin N) (k : Fin d) (t : ℝ) :
    setCoord (ofVec x) i k t = ofVec (Function.update x (i, k) t) := by
  apply List.ext_getElem (by simp [setCoord, ofVec])
  intro j h1 h2
  rw [length_ofVec] at h2
  simp only [setCoord, List.getElem_modify, ofVec, List.getElem_ofFn]
  by_cases hij : (i : ℕ) = j
  · rw [if_pos hij]
    ext m
    by_cases hm : m = k
    · subst hm
      rw [Function.update_self, dif_pos k.2]
      have : ((⟨j, h2⟩ : Fin N), (⟨(k : ℕ), k.2⟩ : Fin d)) = (i, k) := by
        rw [Prod.mk.injEq]; exact ⟨Fin.ext hij.symm, rfl⟩
      rw [this, Function.update_self]
    · rw [Function.update_of_ne hm]
      by_cases hmd : m < d
      · rw [dif_pos hmd, dif_pos hmd, Function.update_of_ne]
        intro he
        rw [Prod.mk.injEq] at he
        exact hm (congrArg Fin.val he.2)
      · rw [dif_neg hmd, dif_neg hmd]
  · rw [if_neg hij]
    ext m
    by_cases hmd : m < d
    · rw [dif_pos hmd, dif_pos hmd, Function.update_of_ne]
      intro he
      rw [Prod.mk.injEq] at he
      exact hij (congrArg Fin.val he.1).symm
    · rw [dif_neg hmd, dif_neg hmd]

/-- The hypervolume as a function of all coordinates. -/
noncomputable def hvVec (ref : ℕ → ℝ) (x : Fin N × Fin d → ℝ) : ℝ := hvol d (ofVec x) ref

theorem exists_uniform_window {x : Fin N × Fin d → ℝ} {ref : ℕ → ℝ} (h : GeneralPosition d (ofVec x) ref) :
    ∃ ε > 0, (∀ i j : Fin N, j ≠ i → ∀ k : Fin d, x (j, k) ≤ x (i, k) - 2 * ε ∨ x (i, k) + 2 * ε ≤ x (j, k)) ∧
      ∀ i : Fin N, ∀ k : Fin d, x (i, k) + 2 * ε ≤ ref k := by
  have hw : ∀ p : Fin N × Fin d, ∃ ε > 0, (∀ j : Fin N, j ≠ p.1 →
      x (j, p.2) ≤ x p - ε ∨ x p + ε ≤ x (j, p.2)) ∧ x p + ε ≤ ref p.2 := by
    rintro ⟨i, k⟩
    have hi : (i : ℕ) < (ofVec x).length := by rw [length_ofVec]; exact i.2
    obtain ⟨ε, hε, h1, h2⟩ := exists_window (Y := ofVec x) (ref := ref) (i := i) (k := k)
      (fun j hj hji => h.ne hj hi hji k.2) (h.lt_ref hi k.2)
    rw [ptOf_ofVec] at h2
    refine ⟨ε, hε, fun j hj => ?_, h2⟩
    have := h1 j (by rw [length_ofVec]; exact j.2) (fun e => hj (Fin.ext e))
    rwa [ptOf_ofVec, ptOf_ofVec] at this
  choose e he h1 h2 using hw
  have hmin : ∃ δ > 0, ∀ p, δ ≤ e p := by
    rcases isEmpty_or_nonempty (Fin N × Fin d) with hE | hE
    · exact ⟨1, one_pos, fun p => (hE.false p).elim⟩
    · obtain ⟨p0, hp0⟩ := Finite.exists_min e
      exact ⟨e p0, he p0, hp0⟩
  obtain ⟨δ, hδ, hle⟩ := hmin
  refine ⟨δ / 2, by linarith, fun i j hji k => ?_, fun i k => ?_⟩
  · have := hle (i, k)
    rcases h1 (i, k) j hji with h' | h'
    · left; simp only at h'; linarith
    · right; simp only at h'; linarith
  · have := hle (i, k)
    have := h2 (i, k)
    simp only at this
    linarith

theorem generalPosition_ofVec {x : Fin N × Fin d → ℝ} {ref : ℕ → ℝ} :
    GeneralPosition d (ofVec x) ref ↔ (∀ i j : Fin N, j ≠ i → ∀ k : Fin d, x (j, k) ≠ x (i, k)) ∧
      ∀ i : Fin N, ∀ k : Fin d, x (i, k) < ref k := by
  rw [generalPosition_iff, length_ofVec]
  constructor
  · rintro ⟨h1, h2⟩
    refine ⟨fun i j hji k => ?_, fun i k => ?_⟩
    · have := h1 j j.2 i i.2 (fun e => hji (Fin.ext e)) k k.2
      rwa [ptOf_ofVec, ptOf_ofVec] at this
    · have := h2 i i.2 k k.2
      rwa [ptOf_ofVec] at this
  · rintro ⟨h1, h2⟩
    refine ⟨fun i hi j hj hij k hk => ?_, fun i hi k hk => ?_⟩
    · have := h1 ⟨j, hj⟩ ⟨i, hi⟩ (fun e => hij (congrArg Fin.val e)) ⟨k, hk⟩
      have e1 := ptOf_ofVec x ⟨i, hi⟩ ⟨k, hk⟩
      have e2 := ptOf_ofVec x ⟨j, hj⟩ ⟨k, hk⟩
      simp only at e1 e2
      rwa [e1, e2]
    · have := h2 ⟨i, hi⟩ ⟨k, hk⟩
      have e1 := ptOf_ofVec x ⟨i, hi⟩ ⟨k, hk⟩
      simp only at e1
      rwa [e1]

/-- Near a point set in general position: general position persists, and the hypervolume is a smooth
function of all coordinates. -/
theorem hvVec_smooth {c : Fin N × Fin d → ℝ} {ref : ℕ → ℝ} (h : GeneralPosition d (ofVec c) ref) :
    ∃ ε > 0, (∀ x, (∀ p, |x p - c p| < ε) → GeneralPosition d (ofVec x) ref) ∧
      ∃ G : (Fin N × Fin d → ℝ) → ℝ, (∀ n : WithTop ℕ∞, ContDiff ℝ n G) ∧
        ∀ x, (∀ p, |x p - c p| < ε) → hvVec ref x = G x := by
  obtain ⟨ε, hε, hw, hr⟩ := exists_uniform_window h
  refine ⟨ε, hε, ?_, exists_smooth_of_affine hε ?_⟩
  · intro x hx
    rw [generalPosition_ofVec]
    refine ⟨fun i j hji k => ?_, fun i k => ?_⟩
    · have a1 := abs_lt.mp (hx (i, k))
      have a2 := abs_lt.mp (hx (j, k))
      rcases hw i j hji k with h' | h' <;> intro e <;> linarith
    · have a1 := abs_lt.mp (hx (i, k))
      have := hr i k
      linarith
  · rintro x hx ⟨i, k⟩
    obtain ⟨n, hn⟩ : ∃ n, d = n + 1 := ⟨d - 1, by have := k.2; omega⟩
    subst hn
    have hi : (i : ℕ) < (ofVec x).length := by rw [length_ofVec]; exact i.2
    refine ⟨-hvi n (dropAt k (ptOf (ofVec x) i)) ((((ofVec x).eraseIdx i).filter
      (fun a => a k ≤ c (i, k) - ε)).map (dropAt k)) (dropAt k ref), fun t ht => ?_⟩
    have hA : ∀ j < (ofVec x).length, j ≠ i → ptOf (ofVec x) j k ≤ c (i, k) - ε ∨
        c (i, k) + ε ≤ ptOf (ofVec x) j k := by
      intro j hj hji
      rw [length_ofVec] at hj
      have hji' : (⟨j, hj⟩ : Fin N) ≠ i := fun e => hji (congrArg Fin.val e)
      have e1 := ptOf_ofVec x ⟨j, hj⟩ k
      simp only at e1
      rw [e1]
      have a2 := abs_lt.mp (hx (⟨j, hj⟩, k))
      rcases hw i ⟨j, hj⟩ hji' k with h' | h'
      · left; linarith
      · right; linarith
    have a1 := abs_lt.mp (hx (i, k))
    have a2 := abs_lt.mp ht
    have hre := hr i k
    have := hvol_affine (Y := ofVec x) (ref := ref) (t := t) (t' := x (i, k)) (lo := c (i, k) - ε)
      (hi := c (i, k) + ε) (k := (k : ℕ)) (i := (i : ℕ)) (n := n) (by have := k.2; omega) hi hA (by linarith) (by linarith) (by linarith)
      (by linarith) (by linarith) (by linarith)
    rw [setCoord_ofVec, setCoord_ofVec, Function.update_eq_self] at this
    unfold hvVec
    rw [this]
    ring

end Verif.HVD
