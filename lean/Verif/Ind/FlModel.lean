import Verif.Ind.DeltaP
import Mathlib.Analysis.SpecialFunctions.Exp
import Mathlib.Data.Finset.Card

/-!
# GD, IGD and MMD with rounding (hvd/delta_p.py, hvd/mmd.py)

`fl` rounds the exact result of an operation to a number of the machine. Sums may be formed in any order and with any
brackets (NumPy adds pairwise, SciPy in blocks, JAX as it likes), so the results are described by relations. Square root,
exponential function and powers are rounded like the other operations. Adding a zero that starts a sum is exact and left
out. Overflow, underflow and NaN are not modelled. JAX uses doubles (hvd/__init__.py 5).
-/

namespace Verif.Ind

variable {N M m : ℕ}

/-- `v` is a sum of `f` over `s` in some order, with a rounding for each addition. -/
inductive FlSum {ι : Type} [DecidableEq ι] (fl : ℝ → ℝ) (f : ι → ℝ) : Finset ι → ℝ → Prop
  | empty : FlSum fl f ∅ 0
  | one (i : ι) : FlSum fl f {i} (f i)
  | add {s t : Finset ι} {a b : ℝ} : Disjoint s t → s.Nonempty → t.Nonempty → FlSum fl f s a → FlSum fl f t b →
      FlSum fl f (s ∪ t) (fl (a + b))

/-- The sum of squared differences of `cdist(..., metric="minkowski")` (delta_p.py 40, 155) and of the kernels (mmd.py 25,
30). -/
def FlSquares (fl : ℝ → ℝ) (x y : Fin m → ℝ) (s : ℝ) : Prop :=
  FlSum fl (fun a => fl (fl (x a - y a) * fl (x a - y a))) Finset.univ s

/-- `cdist(A, B, metric="minkowski")` (delta_p.py 40, 155) with order 2. -/
def FlCdist (fl : ℝ → ℝ) (A : Fin N → Fin m → ℝ) (B : Fin M → Fin m → ℝ) (D : Fin N → Fin M → ℝ) : Prop :=
  ∀ i j, ∃ s, FlSquares fl (A i) (B j) s ∧ D i j = fl √s

/-- `np.mean` of `n` numbers: the sum divided by their number. -/
def FlMean {ι : Type} [DecidableEq ι] [Fintype ι] (fl : ℝ → ℝ) (f : ι → ℝ) (v : ℝ) : Prop :=
  Fintype.card ι ≠ 0 ∧ ∃ s, FlSum fl f Finset.univ s ∧ v = fl (s / Fintype.card ι)

/-- `GenerationalDistance.compute` (delta_p.py 43-58) with `p = 2`. -/
def FlGd (fl : ℝ → ℝ) (R : Fin M → Fin m → ℝ) (Y : Fin N → Fin m → ℝ) (v : ℝ) : Prop :=
  ∃ D, FlCdist fl Y R D ∧ ∃ ind, argminRows D = some ind ∧
    ∃ q, FlMean fl (fun i => fl (D i (ind i) * D i (ind i))) q ∧ v = fl √q

/-- `InvertedGenerationalDistance.compute` without matching (delta_p.py 185-187) with `p = 2`. -/
def FlIgd (fl : ℝ → ℝ) (R : Fin M → Fin m → ℝ) (Y : Fin N → Fin m → ℝ) (v : ℝ) : Prop :=
  ∃ D, FlCdist fl R Y D ∧ ∃ ind, argminRows D = some ind ∧
    ∃ q, FlMean fl (fun j => fl (D j (ind j) * D j (ind j))) q ∧ v = fl √q

/-- `InvertedGenerationalDistance.compute` with matching (delta_p.py 182-184). -/
def FlIgdMatched (fl : ℝ → ℝ) (matched Y : Fin N → Fin m → ℝ) (v : ℝ) : Prop :=
  ∃ s : Fin N → ℝ, (∀ i, FlSquares fl (Y i) (matched i) (s i)) ∧ FlMean fl s v

/-- `rbf` (mmd.py 28-30). -/
def FlRbf (fl : ℝ → ℝ) (theta : ℝ) (x y : Fin m → ℝ) (v : ℝ) : Prop :=
  ∃ s, FlSquares fl x y s ∧ v = fl (Real.exp (-fl (theta * s)))

/-- `laplace` (mmd.py 33-35). -/
def FlLaplace (fl : ℝ → ℝ) (theta : ℝ) (x y : Fin m → ℝ) (v : ℝ) : Prop :=
  ∃ s, FlSum fl (fun a => |fl (x a - y a)|) Finset.univ s ∧ v = fl (Real.exp (-fl (theta * s)))

/-- `rational_quadratic` (mmd.py 23-25) with `alpha = 1`, which is never changed (mmd.py 76). -/
def FlRationalQuadratic (fl : ℝ → ℝ) (theta : ℝ) (x y : Fin m → ℝ) (v : ℝ) : Prop :=
  ∃ s, FlSquares fl x y s ∧ v = fl (fl (fl (fl (s * theta) / 2) + 1))⁻¹

/-- `cdist(A, B, metric=k).mean()`. -/
def FlMeanCdist (fl : ℝ → ℝ) (k : (Fin m → ℝ) → (Fin m → ℝ) → ℝ → Prop) (A : Fin N → Fin m → ℝ) (B : Fin M → Fin m → ℝ)
    (v : ℝ) : Prop :=
  ∃ K : Fin N × Fin M → ℝ, (∀ q, k (A q.1) (B q.2) (K q)) ∧ FlMean fl K v

/-- `MMD.compute` (mmd.py 115-135). -/
def FlMmd (fl : ℝ → ℝ) (k : (Fin m → ℝ) → (Fin m → ℝ) → ℝ → Prop) (R : Fin M → Fin m → ℝ) (Y : Fin N → Fin m → ℝ)
    (v : ℝ) : Prop :=
  ∃ rr yy ry, FlMeanCdist fl k R R rr ∧ FlMeanCdist fl k Y Y yy ∧ FlMeanCdist fl k R Y ry ∧
    v = fl (fl (rr + yy) - fl (2 * ry))

end Verif.Ind
