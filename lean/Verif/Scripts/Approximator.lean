import Mathlib.Algebra.BigOperators.Fin
import Mathlib.Algebra.Order.Field.Basic

/-!
# `MLP` and `ParetoApproximator` (examples/HVSS/base.py 74-91 and 146-208)

The weights are arbitrary: the training (`train_mlp`, lines 94-122) is not modelled. Simplifications: numbers are elements of an
ordered field, while torch computes in single precision; a batch consists of one point (line 172 adds and removes the batch
dimension). Automatic differentiation is modelled by the rules of the operations: `torch.autograd.functional.jacobian` by the
backward pass (`Net.grad`), `hessian` by the tangent of the backward pass (`Net.gradTangent`). Both use the derivative 0 of ReLU
at 0 and the second derivative 0, as torch does.
-/

namespace Verif.Scripts

variable {K : Type*} [Field K] [LinearOrder K]

/-- A chain of `nn.Linear` layers with `nn.ReLU` between them and one output (base.py 77-82). -/
inductive Net (K : Type*) : ℕ → Type _
  | out {n : ℕ} (w : Fin n → K) (b : K) : Net K n
  | hidden {n m : ℕ} (w : Fin m → Fin n → K) (b : Fin m → K) (rest : Net K m) : Net K n

/-- The values before the activation: `nn.Linear` (base.py 77-81). -/
def linear {n m : ℕ} (w : Fin m → Fin n → K) (b : Fin m → K) (x : Fin n → K) (i : Fin m) : K := ∑ j, w i j * x j + b i

/-- `nn.ReLU` (base.py 82). -/
def relu (z : K) : K := if 0 < z then z else 0

/-- `MLP.forward` (base.py 84-91). -/
def Net.eval : {n : ℕ} → Net K n → (Fin n → K) → K
  | _, .out w b, x => ∑ j, w j * x j + b
  | _, .hidden w b rest, x => rest.eval fun i => relu (linear w b x i)

/-- The backward pass of `MLP.forward`, called in base.py 189: the gradient passes through a ReLU where its input is positive. -/
def Net.grad : {n : ℕ} → Net K n → (Fin n → K) → Fin n → K
  | _, .out w _, _ => w
  | _, .hidden w b rest, x => fun j =>
    ∑ i, (if 0 < linear w b x i then rest.grad (fun i => relu (linear w b x i)) i else 0) * w i j

/-- The tangent of the backward pass in the direction `d`, called in base.py 194. -/
def Net.gradTangent : {n : ℕ} → Net K n → (Fin n → K) → (Fin n → K) → Fin n → K
  | _, .out _ _, _, _ => fun _ => 0
  | _, .hidden w b rest, x, d => fun j =>
    ∑ i, (if 0 < linear w b x i then rest.gradTangent (fun i => relu (linear w b x i))
      (fun i => if 0 < linear w b x i then ∑ l, w i l * d l else 0) i else 0) * w i j

/-- `MLP` (base.py 74-82) with `n` inputs: hidden layers with `h`, 64, 32 and 16 units; `h` is `hidden_dim`, by default 128. -/
def mlp {n h : ℕ} (w1 : Fin h → Fin n → K) (b1 : Fin h → K) (w2 : Fin 64 → Fin h → K) (b2 : Fin 64 → K)
    (w3 : Fin 32 → Fin 64 → K) (b3 : Fin 32 → K) (w4 : Fin 16 → Fin 32 → K) (b4 : Fin 16 → K) (w5 : Fin 16 → K) (b5 : K) :
    Net K n :=
  .hidden w1 b1 (.hidden w2 b2 (.hidden w3 b3 (.hidden w4 b4 (.out w5 b5))))

/-- `ParetoApproximator.eq_constraint` (base.py 183-185): the last objective is the value of the network at the other ones. -/
def eqConstraint {n : ℕ} (net : Net K n) (x : Fin (n + 1) → K) : K := net.eval (Fin.init x) - x (Fin.last n)

/-- `ParetoApproximator.eq_jacobian` (base.py 187-189). -/
def eqJacobian {n : ℕ} (net : Net K n) (x : Fin (n + 1) → K) : Fin (n + 1) → K :=
  Fin.snoc (α := fun _ => K) (net.grad (Fin.init x)) (-1)

/-- `ParetoApproximator.eq_hessian` (base.py 191-195): the last row and column stay 0. -/
def eqHessian {n : ℕ} (net : Net K n) (x : Fin (n + 1) → K) : Fin (n + 1) → Fin (n + 1) → K :=
  Fin.snoc (α := fun _ => Fin (n + 1) → K)
    (fun i => Fin.snoc (α := fun _ => K) (fun j => net.gradTangent (Fin.init x) (Pi.single j 1) i) 0) fun _ => 0

/-- `ParetoApproximator._ieq_constraint` (base.py 203-204) with the bounds -1 and 0 (lines 151-152): the unit disc in the first
two variables (`x[0:2]`), then the lower and the upper bounds. -/
def ieqConstraint {n : ℕ} (x : Fin n → K) : List K :=
  ((∑ i, if i.val < 2 then x i ^ 2 else 0) - 1) :: ((List.finRange n).map fun i => -1 - x i) ++
    (List.finRange n).map fun i => x i - 0

/-- `ParetoApproximator.ieq_jacobian` (base.py 197-198), by the rules of automatic differentiation. -/
def ieqJacobian {n : ℕ} (x : Fin n → K) : List (Fin n → K) :=
  (fun i => if i.val < 2 then 2 * x i else 0) :: ((List.finRange n).map fun i j => if j = i then -1 else 0) ++
    (List.finRange n).map fun i j => if j = i then 1 else 0

/-- `ParetoApproximator.ieq_hessian` (base.py 200-201). -/
def ieqHessian {n : ℕ} : List (Fin n → Fin n → K) :=
  (fun i j => if i = j ∧ i.val < 2 then 2 else 0) :: ((List.finRange n).map fun _ _ _ => 0) ++
    (List.finRange n).map fun _ _ _ => 0

/-- `n_ieq_constr` (base.py 156). -/
def nIeqConstr (n : ℕ) : ℕ := n * 2 + 1

end Verif.Scripts
