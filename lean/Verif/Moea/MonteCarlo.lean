import Mathlib.Algebra.BigOperators.Fin
import Mathlib.Algebra.Field.Basic
import Mathlib.Data.Fin.SuccPred

/-!
# The Monte Carlo hypervolume (hvd/moea/sms_emoa.py 20-93)

The boolean matrix `dom` of shape `(N, n)` is a function; `none` stands for NaN (no samples) or an exception.
The functions are decorated with `jax.jit`; first their bodies are modelled, then what the decorator does to
them.
-/

namespace Verif.Moea

variable {K : Type*} [Field K] {N n : ℕ}

/-- The entry `i` of `alpha(N, k)` (sms_emoa.py 24-30). -/
def alpha (N : ℕ) (k : K) (i : ℕ) : K :=
  if i = 0 then 0 else (∏ j ∈ Finset.Ico 1 i, (k - j) / ((N : K) - j)) / i

/-- `np.sum(dom, axis=0)` (sms_emoa.py 37, 48, 77, 91). -/
def nDom (dom : Fin N → Fin n → Bool) (s : Fin n) : ℕ := (Finset.univ.filter fun i => dom i s = true).card

/-- `np.sum(a[n_dom[dom[i]]])` (sms_emoa.py 40, 51). -/
def weightSum (a : ℕ → K) (dom : Fin N → Fin n → Bool) (i : Fin N) : K :=
  ∑ s with dom i s = true, a (nDom dom s)

/-- The body of `hv_monte_carlo` (sms_emoa.py 33-41). -/
def hvMonteCarlo (dom : Fin N → Fin n → Bool) (V : K) : Option K :=
  if n = 0 then none else some ((∑ i, weightSum (alpha N (N : K)) dom i) / n * V)

/-- The body of `hvc_monte_carlo` (sms_emoa.py 44-52). -/
def hvcMonteCarlo (dom : Fin N → Fin n → Bool) (V k : K) : Option (Fin N → K) :=
  if n = 0 then none else some fun i => weightSum (alpha N k) dom i / n * V

/-- The state of `ApproximateMonteCarloHypervolume` (sms_emoa.py 55-93) for `N` points. -/
structure MCState (K : Type*) (N n : ℕ) where
  V : K
  dom : Fin N → Fin n → Bool
  hv : K
  hvc : Fin N → K

/-- The end of `_calc` (sms_emoa.py 76-84), given the matrix and the volume. -/
def mcCalc (dom : Fin N → Fin n → Bool) (V k : K) : Option (MCState K N n) :=
  (hvMonteCarlo dom V).bind fun hv => (hvcMonteCarlo dom V k).map fun hvc =>
    { V := V, dom := dom, hv := hv, hvc := hvc }

/-- `delete(k)` (sms_emoa.py 86-93) with the parameter `n_exclusive`. -/
def MCState.delete (st : MCState K (N + 1) n) (nExclusive : K) (k : Fin (N + 1)) : Option (MCState K N n) :=
  let dom := fun i => st.dom (k.succAbove i)
  (hvcMonteCarlo dom st.V nExclusive).map fun hvc =>
    { V := st.V, dom := dom, hv := st.hv - st.hvc k, hvc := hvc }

/-! ### The decorator

`jax.jit` replaces all arguments of a function by tracers; shapes stay known. A tracer cannot be used as an
integer by numpy: `np.zeros` raises a `TracerIntegerConversionError`. -/

/-- An integer in a traced function. -/
inductive JInt where
  | known (n : ℕ)
  | tracer

/-- `np.zeros(N + 1)` and the loop in `alpha` (sms_emoa.py 25-28): the entries. -/
def alphaPy (N : JInt) (k : K) : Option (ℕ → K) :=
  match N with
  | .known n => some (alpha n k)
  | .tracer => none

/-- `jit(alpha)` (sms_emoa.py 23-24): the argument `N` is a tracer in the body. -/
def alphaJit (_ : JInt) (k : K) : Option (ℕ → K) := alphaPy .tracer k

/-- `hv_monte_carlo` as it is: `N` is known from the shape of `dom`, and the decorated `alpha` is called. -/
def hvMonteCarloJit (dom : Fin N → Fin n → Bool) (V : K) : Option K :=
  (alphaJit (.known N) (N : K)).bind fun a =>
    if n = 0 then none else some ((∑ i, weightSum a dom i) / n * V)

end Verif.Moea
