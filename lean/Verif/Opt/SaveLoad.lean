import Mathlib.Data.List.Basic

/-!
# Model of `State.save` and `State.load` (hvd/base.py, lines 280-299)

An object is the dictionary of its attributes. The file system maps names to contents. Pickling is assumed
to be faithful, so a content is the dictionary that was dumped.
-/

namespace Verif.Opt

/-- `__dict__`: attributes with their values, in the order of their creation. -/
abbrev Dict (V : Type*) := List (String × V)

/-- A file: just opened for writing, or with a pickled dictionary. -/
inductive Content (V : Type*) where
  | empty
  | pickle (d : Dict V)

abbrev Files (V : Type*) := String → Option (Content V)

inductive IOErr where
  | keyError (key : String)
  | fileNotFound
  | eof
deriving DecidableEq

/-- `del d[key]`. -/
def delKey {V : Type*} (d : Dict V) (key : String) : Except IOErr (Dict V) :=
  if key ∈ d.map Prod.fst then .ok (d.filter fun kv => kv.1 ≠ key) else .error (.keyError key)

/-- The keys that are deleted in lines 283-290, in this order. -/
def savedWithout : List String := ["func", "_jac", "h", "h_jac", "h_hess", "g", "g_jac", "g_hess"]

/-- `save` (lines 280-291): the file is opened for writing (and emptied) before the keys are deleted. -/
def save {V : Type*} (fs : Files V) (filename : String) (d : Dict V) : Files V × Except IOErr Unit :=
  let opened := Function.update fs (filename ++ ".pkl") (some .empty)
  match savedWithout.foldlM delKey d with
  | .error e => (opened, .error e)
  | .ok d => (Function.update opened (filename ++ ".pkl") (some (.pickle d)), .ok ())

/-- `load` (lines 293-299): the dictionary of the new object. -/
def load {V : Type*} (fs : Files V) (filename : String) : Except IOErr (Dict V) :=
  match fs filename with
  | none => .error .fileNotFound
  | some .empty => .error .eof
  | some (.pickle d) => .ok d

/-- The attributes of a state after the constructor (lines 42-57) and after `update` (lines 150-159). -/
def stateKeys : List String :=
  ["n_var", "n_eq", "n_ieq", "n_cstr", "func", "jac", "h", "h_jac", "h_hess", "g", "g_jac", "g_hess",
    "_constrained", "n_jac_evals", "n_cstr_jac_evals", "n_cstr_hess_evals", "X", "Y", "J", "cstr_value",
    "active_indices", "cstr_grad", "cstr_hess"]

end Verif.Opt
