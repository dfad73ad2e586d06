import Verif.HVD.Chain

/-!
# The chain rule along a line

Lemmas: the hypervolume of `f(X + t W)` as a function of `t`.
-/

namespace Verif.HVD

open Verif.HV Verif.HV.Spec Topology

variable {d : ℕ}

/-- `X + t W`. -/
def lineOf (X : List (ℕ → ℝ)) (W : ℕ → ℕ → ℝ) (t : ℝ) : List (ℕ → ℝ) := X.mapIdx fun i x v => x v + t * W i v

theorem ptOf_lineOf {X : List (ℕ → ℝ)} {W : ℕ → ℕ → ℝ} {t : ℝ} {i : ℕ} (hi : i < X.length) :
    ptOf (lineOf X W t) i = fun v => ptOf X i v + t * W i v := by
  rw [ptOf_eq (by simpa [lineOf] using hi), ptOf_eq hi]; simp [lineOf]

theorem chain_line {n : ℕ} {f : (ℕ → ℝ) → ℕ → ℝ} {J : (ℕ → ℝ) → ℕ → ℕ → ℝ} {X : List (ℕ → ℝ)} {ref : ℕ → ℝ} {W : ℕ → ℕ → ℝ}
    (h : GeneralPosition d (X.map f) ref)
    (hJ : ∀ i < X.length, ∀ k < d, HasDerivAt (fun t => f (fun v => ptOf X i v + t * W i v) k)
      (∑ v ∈ Finset.range n, J (ptOf X i) k v * W i v) 0) :
    HasDerivAt (fun t => hvol d ((lineOf X W t).map f) ref)
      (∑ i ∈ Finset.range X.length, ∑ v ∈ Finset.range n,
        (∑ k ∈ Finset.range d, partialHV d (X.map f) ref i k * J (ptOf X i) k v) * W i v) 0 := by
  obtain ⟨L⟩ := exists_local (N := X.length) (by simp) h
  have hc : HasDerivAt (fun t => toVec X.length d ((lineOf X W t).map f))
      (fun p => ∑ v ∈ Finset.range n, J (ptOf X p.1) p.2 v * W p.1 v) 0 := by
    rw [hasDerivAt_pi]
    rintro ⟨i, k⟩
    have he : ∀ t, toVec X.length d ((lineOf X W t).map f) (i, k) = f (fun v => ptOf X i v + t * W i v) k := fun t => by
      unfold toVec
      simp only
      rw [ptOf_map_f (by simp [lineOf]), ptOf_lineOf i.2]
    simp only [he]
    exact hJ i i.2 k k.2
  have hX0 : lineOf X W 0 = X := by
    refine List.ext_getElem (by simp [lineOf]) fun i h1 h2 => ?_
    simp [lineOf]
  have h0 : toVec X.length d ((lineOf X W 0).map f) = toVec X.length d (X.map f) := by rw [hX0]
  have hG : HasFDerivAt L.G (fderiv ℝ L.G (toVec X.length d (X.map f)))
      (toVec X.length d ((lineOf X W 0).map f)) := by
    rw [h0]; exact L.hasFDerivAt _
  have hcomp := hG.comp_hasDerivAt _ hc
  have hval : (fderiv ℝ L.G (toVec X.length d (X.map f))) (fun p => ∑ v ∈ Finset.range n, J (ptOf X p.1) p.2 v * W p.1 v) =
      ∑ i ∈ Finset.range X.length, ∑ v ∈ Finset.range n,
        (∑ k ∈ Finset.range d, partialHV d (X.map f) ref i k * J (ptOf X i) k v) * W i v := by
    rw [clm_sum, Fintype.sum_prod_type, Finset.sum_range]
    refine Finset.sum_congr rfl fun i _ => ?_
    have e : ∀ k : Fin d, fderiv ℝ L.G (toVec X.length d (X.map f)) (Pi.single (i, k) 1) =
        partialHV d (X.map f) ref i k := fun k => (L.partialHV_eq (by simp) (self_near L) i k).symm
    simp only [e]
    calc ∑ k : Fin d, (∑ v ∈ Finset.range n, J (ptOf X i) k v * W i v) * partialHV d (X.map f) ref i k
        = ∑ k ∈ Finset.range d, ∑ v ∈ Finset.range n, partialHV d (X.map f) ref i k * J (ptOf X i) k v * W i v := by
          rw [Finset.sum_range]
          refine Finset.sum_congr rfl fun k _ => ?_
          rw [Finset.sum_mul]
          exact Finset.sum_congr rfl fun v _ => by ring
      _ = _ := by
          rw [Finset.sum_comm]
          exact Finset.sum_congr rfl fun v _ => by rw [Finset.sum_mul]
  rw [hval] at hcomp
  refine hcomp.congr_of_eventuallyEq ?_
  have hcont : Filter.Tendsto (fun t => toVec X.length d ((lineOf X W t).map f)) (𝓝 0)
      (𝓝 (toVec X.length d (X.map f))) := by
    have := hc.continuousAt
    unfold ContinuousAt at this
    simp only [h0] at this
    exact this
  filter_upwards [hcont.eventually (L.mem_nhds (self_near L))] with t ht
  rw [hvol_toVec (N := X.length) (by simp [lineOf]), L.eq _ ht]
  rfl

end Verif.HVD
