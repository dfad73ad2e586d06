import Verif.HVD.Decision

/-!
# Objectives and Jacobians given by the caller
-/

namespace Verif.HVD

open Verif.HV

variable {K : Type*} [Field K] [LinearOrder K]

namespace Problem

variable {p : Problem K} {argsort : List K → List ℕ} {fuel : ℕ} {X : List (ℕ → K)} {Y : List (ℕ → K)}
  {J : ℕ → ℕ → ℕ → K}

theorem blockDiag_given (hJ : ∀ i < X.length, J i = p.jac' (ptOf X i)) {a : ℕ} (ha : a < X.length * p.nObj) (b : ℕ) :
    HVD.blockDiag p.nObj p.nVar (p.jacobians X (some J)) a b = HVD.blockDiag p.nObj p.nVar (p.jacobians X none) a b := by
  have : a / p.nObj < X.length := Nat.div_lt_of_lt_mul (by rwa [Nat.mul_comm])
  unfold HVD.blockDiag jacobians
  simp only [Option.getD_some, Option.getD_none, hJ _ this]

theorem rowTimes_given (hJ : ∀ i < X.length, J i = p.jac' (ptOf X i)) (g : ℕ → K) :
    rowTimes (X.length * p.nObj) g (HVD.blockDiag p.nObj p.nVar (p.jacobians X (some J))) =
      rowTimes (X.length * p.nObj) g (HVD.blockDiag p.nObj p.nVar (p.jacobians X none)) := by
  funext b
  unfold rowTimes
  refine Finset.sum_congr rfl fun a ha => ?_
  rw [blockDiag_given hJ (Finset.mem_range.mp ha)]

/-- The gradient call with cached objectives and Jacobians. -/
theorem computeGradient_given (hY : Y = X.map p.func') (hJ : ∀ i < X.length, J i = p.jac' (ptOf X i)) :
    p.computeGradient argsort fuel X (some Y) (some J) = p.computeGradient argsort fuel X none none := by
  unfold computeGradient
  simp only [Option.getD_some, Option.getD_none, hY, rowTimes_given hJ]

/-- The Hessian call with cached objectives and Jacobians. -/
theorem computeHessian_given (hY : Y = X.map p.func') (hJ : ∀ i < X.length, J i = p.jac' (ptOf X i)) :
    p.computeHessian argsort fuel X (some Y) (some J) = p.computeHessian argsort fuel X none none := by
  unfold computeHessian
  rw [computeGradient_given hY hJ]
  simp only [Option.getD_some, Option.getD_none, hY]
  congr 1
  funext g
  congr 1
  funext H
  have : ∀ T, hessRaw (X.length * p.nObj) g.HVdY
      (fun a b => entryH H (a / p.nObj) (a % p.nObj) (b / p.nObj) (b % p.nObj))
      (HVD.blockDiag p.nObj p.nVar (p.jacobians X (some J))) T =
    hessRaw (X.length * p.nObj) g.HVdY (fun a b => entryH H (a / p.nObj) (a % p.nObj) (b / p.nObj) (b % p.nObj))
      (HVD.blockDiag p.nObj p.nVar (p.jacobians X none)) T := by
    intro T
    funext b c
    unfold hessRaw
    congr 1
    refine Finset.sum_congr rfl fun a' ha' => ?_
    rw [blockDiag_given hJ (Finset.mem_range.mp ha')]
    congr 1
    refine Finset.sum_congr rfl fun a ha => ?_
    rw [blockDiag_given hJ (Finset.mem_range.mp ha)]
  simp only [this]

end Problem

end Verif.HVD
