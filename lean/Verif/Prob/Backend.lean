/-!
# The backend of pymoo (hvd/problems/_pymoo_factory.py)

* The state is `pymoo.gradient.TOOLBOX` together with `sys.modules`, for every loaded module the name of its `anp`
  (`none` if it has none).
* `gradient.activate` only sets `TOOLBOX`.
* A computation takes a state to a result (or an exception) and a state.
-/

namespace Verif.Prob

/-- The global state. -/
structure Py where
  toolbox : String
  modules : String → Option (Option String)

/-- A computation with exceptions of type `E`. -/
def Comp (E A : Type) := Py → Except E A × Py

/-- `gradient.activate`. -/
def activate (b : String) (w : Py) : Py := { w with toolbox := b }

/-- `with _jax_pymoo_backend(): body` (lines 43-62): the setting before is kept; it is restored, unless it was JAX,
also after an exception. -/
def withJax {E A : Type} (body : Comp E A) : Comp E A := fun w =>
  let previous := w.toolbox
  let w1 := if previous != "jax.numpy" then activate "jax.numpy" w else w
  let r := body w1
  (r.1, if previous != "jax.numpy" then activate previous r.2 else r.2)

/-- The exceptions of the factory. -/
inductive FactoryError where
  | unsupported
  | mixed (backend : Option String)
  | other (msg : String)
deriving DecidableEq

/-- The body of the `with` statement (lines 78-79). -/
def importBody (importModule : String → Comp FactoryError Unit) (module cls : String) :
    Comp FactoryError (String × String) := fun w =>
  let r := importModule module w
  match r.1 with
  | .error e => (.error e, r.2)
  | .ok () => (.ok (module, cls), r.2)

/-- `_import_jax_problem_type` (lines 65-79). `importModule` is `import_module`; the class of a module is represented
by the pair of names. -/
def importJaxProblem (importModule : String → Comp FactoryError Unit) (module cls : String) :
    Comp FactoryError (String × String) := fun w =>
  match w.modules module with
  | some backend =>
    if backend != some "jax.numpy" then (.error (.mixed backend), w) else (.ok (module, cls), w)
  | none => withJax (importBody importModule module cls) w

/-- `get_pymoo_problem` (lines 82-109) up to the import; `table` is `_PYMOO_PROBLEMS`. -/
def getPymooProblem (importModule : String → Comp FactoryError Unit) (table : List (String × String × String))
    (name : String) : Comp FactoryError (String × String) := fun w =>
  match table.lookup name.toLower with
  | none => (.error .unsupported, w)
  | some spec => importJaxProblem importModule spec.1 spec.2 w

end Verif.Prob
