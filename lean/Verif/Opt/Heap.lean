import Verif.Opt.StateLemmas

/-!
# Aliasing of the arrays of a state

In `State.lean` a state is a value. Here the arrays are objects on a heap that a state refers to, so that
assignments to rows (`self.X[k] = x`) are seen by everybody who refers to the same array.
-/

namespace Verif.Opt

variable {K : Type*} [Field K] [LinearOrder K]

/-- An object of the heap: an array of numbers or of flags, or `None`. -/
inductive Obj (K : Type*) where
  | num (A : List (List K))
  | bool (A : List (List Bool))
  | none

def Obj.ofOpt : Option (List (List K)) → Obj K
  | .none => .none
  | some A => .num A

def Obj.toOpt : Obj K → Option (Option (List (List K)))
  | .none => some .none
  | .num A => some (some A)
  | .bool _ => .none

/-- A state object: the addresses of `X`, `Y`, `J`, `cstr_value`, `active_indices`, `cstr_grad`,
`cstr_hess`, in this order, and the counters. -/
structure Ref where
  addrs : List ℕ
  nJac : ℕ
  nCstrJac : ℕ
  nCstrHess : ℕ

def State.cells (s : State K) : List (Obj K) :=
  [.num s.X, .num s.Y, .ofOpt s.J, .num s.cstrValue, .bool s.active, .num s.cstrGrad, .ofOpt s.cstrHess]

/-- The value of a state object with the given arrays. -/
def decode (r : Ref) : List (Obj K) → Option (State K)
  | [.num X, .num Y, J, .num cv, .bool act, .num cg, H] =>
    J.toOpt.bind fun J => H.toOpt.map fun H => ⟨X, Y, J, cv, act, cg, H, r.nJac, r.nCstrJac, r.nCstrHess⟩
  | _ => none

def readAll (h : List (Obj K)) (addrs : List ℕ) : Option (List (Obj K)) := addrs.mapM fun a => h[a]?

def writeAll (h : List (Obj K)) (addrs : List ℕ) (cells : List (Obj K)) : List (Obj K) :=
  (addrs.zip cells).foldl (fun h ac => h.set ac.1 ac.2) h

/-- The value of a state object. -/
def Ref.view (h : List (Obj K)) (r : Ref) : Option (State K) := (readAll h r.addrs).bind (decode r)

/-- `update` (hvd/base.py, lines 150-159): the attributes get new arrays (`X` is copied in line 153, the
others are results of function calls, which are assumed to return new arrays); without `compute_hessian`
the attribute `cstr_hess` keeps its array. -/
def hUpdate (p : Funcs K) (h : List (Obj K)) (r : Ref) (X : List (List K)) (g hb : Bool) :
    Option (List (Obj K) × Ref) :=
  (r.view h).bind fun s => (p.update s X g hb).map fun s' =>
    if hb then (h ++ s'.cells, ⟨List.range' h.length 7, s'.nJac, s'.nCstrJac, s'.nCstrHess⟩)
    else (h ++ s'.cells.take 6,
      ⟨List.range' h.length 6 ++ r.addrs.drop 6, s'.nJac, s'.nCstrJac, s'.nCstrHess⟩)

/-- `update_one` (hvd/base.py, lines 161-168) writes into the arrays. -/
def hUpdateOne (p : Funcs K) (h : List (Obj K)) (r : Ref) (x : List K) (k : ℕ) : Option (List (Obj K) × Ref) :=
  (r.view h).bind fun s => (p.updateOne s x k).map fun s' =>
    (writeAll h r.addrs s'.cells, ⟨r.addrs, s'.nJac, s'.nCstrJac, s'.nCstrHess⟩)

/-- `__getitem__` (hvd/base.py, lines 301-316): `deepcopy` makes new arrays, of which rows are selected. The
arrays of the copy that are replaced afterwards are not modelled. -/
def hGetItem (h : List (Obj K)) (r : Ref) (idx : List ℕ) : Option (List (Obj K) × Ref) :=
  (r.view h).bind fun s => (s.getItem idx).map fun s' =>
    (h ++ s'.cells, ⟨List.range' h.length 7, s'.nJac, s'.nCstrJac, s'.nCstrHess⟩)

/-! ### Lemmas -/

theorem Obj.toOpt_ofOpt (o : Option (List (List K))) : (Obj.ofOpt o).toOpt = some o := by
  rcases o with _ | _ <;> rfl

theorem decode_cells (s : State K) (l : List ℕ) : decode ⟨l, s.nJac, s.nCstrJac, s.nCstrHess⟩ s.cells = some s := by
  simp only [State.cells, decode, Obj.toOpt_ofOpt, Option.bind_some, Option.map_some]

theorem Obj.ofOpt_toOpt {o : Obj K} {v : Option (List (List K))} (h : o.toOpt = some v) : o = Obj.ofOpt v := by
  rcases o with A | A | _
  · simp only [Obj.toOpt, Option.some.injEq] at h; subst h; rfl
  · simp [Obj.toOpt] at h
  · simp only [Obj.toOpt, Option.some.injEq] at h; subst h; rfl

theorem cells_of_decode {r : Ref} {l : List (Obj K)} {s : State K} (h : decode r l = some s) :
    l = s.cells ∧ s.nJac = r.nJac ∧ s.nCstrJac = r.nCstrJac ∧ s.nCstrHess = r.nCstrHess := by
  unfold decode at h
  split at h
  · simp only [Option.bind_eq_some_iff, Option.map_eq_some_iff] at h
    obtain ⟨J, hJ, H, hH, rfl⟩ := h
    rw [Obj.ofOpt_toOpt hJ, Obj.ofOpt_toOpt hH]
    exact ⟨rfl, rfl, rfl, rfl⟩
  · exact absurd h (by simp)

theorem cells_length (s : State K) : s.cells.length = 7 := rfl

theorem readAll_congr {h h' : List (Obj K)} {addrs : List ℕ} (H : ∀ a ∈ addrs, h'[a]? = h[a]?) :
    readAll h' addrs = readAll h addrs := by
  unfold readAll
  induction addrs with
  | nil => rfl
  | cons a l ih =>
    rw [List.mapM_cons, List.mapM_cons, H a (by simp), ih fun b hb => H b (List.mem_cons_of_mem _ hb)]

theorem readAll_eq_some {h : List (Obj K)} {addrs : List ℕ} {c : List (Obj K)} :
    readAll h addrs = some c ↔ addrs.map (fun a => h[a]?) = c.map some := by
  unfold readAll
  induction addrs generalizing c with
  | nil => cases c <;> simp
  | cons a l ih =>
    rw [List.mapM_cons]
    rcases ha : h[a]? with _ | o
    · rcases c with _ | ⟨o', c⟩ <;> simp [ha]
    · rcases c with _ | ⟨o', c⟩
      · simp [Option.bind_eq_some_iff]
      · simp only [Option.bind_eq_bind, Option.bind_some, Option.pure_def, Option.bind_eq_some_iff,
          Option.some.injEq, List.cons.injEq, List.map_cons, ha, ← ih]
        constructor
        · rintro ⟨_, h1, rfl, rfl⟩; exact ⟨rfl, h1⟩
        · rintro ⟨rfl, h1⟩; exact ⟨c, h1, rfl, rfl⟩

theorem readAll_lt {h : List (Obj K)} {addrs : List ℕ} {c : List (Obj K)} (H : readAll h addrs = some c) :
    (∀ a ∈ addrs, a < h.length) ∧ addrs.length = c.length := by
  rw [readAll_eq_some] at H
  refine ⟨fun a ha => ?_, by simpa using congrArg List.length H⟩
  have : h[a]? ∈ c.map some := H ▸ List.mem_map_of_mem ha
  obtain ⟨o, _, ho⟩ := List.mem_map.mp this
  exact (List.getElem?_eq_some_iff.mp ho.symm).1

theorem readAll_append {h c : List (Obj K)} {addrs : List ℕ} (H : ∀ a ∈ addrs, a < h.length) :
    readAll (h ++ c) addrs = readAll h addrs :=
  readAll_congr fun a ha => List.getElem?_append_left (H a ha)

theorem readAll_alloc (h c : List (Obj K)) : readAll (h ++ c) (List.range' h.length c.length) = some c := by
  rw [readAll_eq_some]
  refine List.ext_getElem (by simp) fun i h1 h2 => ?_
  have hi : i < c.length := by simpa using h1
  rw [List.getElem_map, List.getElem_map, List.getElem_range',
    List.getElem?_append_right (by omega)]
  simp [hi]

theorem writeAll_length (h : List (Obj K)) (addrs : List ℕ) (c : List (Obj K)) :
    (writeAll h addrs c).length = h.length := by
  unfold writeAll
  generalize addrs.zip c = l
  induction l generalizing h with
  | nil => rfl
  | cons x l ih => rw [List.foldl_cons, ih, List.length_set]

theorem getElem?_writeAll {h : List (Obj K)} {addrs : List ℕ} {c : List (Obj K)} {a : ℕ} (ha : a ∉ addrs) :
    (writeAll h addrs c)[a]? = h[a]? := by
  unfold writeAll
  have : ∀ x ∈ addrs.zip c, x.1 ≠ a := by
    rintro ⟨b, o⟩ hx rfl
    exact ha (List.of_mem_zip hx).1
  revert this
  generalize addrs.zip c = l
  intro this
  induction l generalizing h with
  | nil => rfl
  | cons x l ih =>
    rw [List.foldl_cons, ih fun y hy => this y (List.mem_cons_of_mem _ hy),
      List.getElem?_set_ne (this x (by simp))]

theorem readAll_writeAll {h : List (Obj K)} {addrs : List ℕ} {c : List (Obj K)} (hn : addrs.Nodup)
    (hl : addrs.length = c.length) (hlt : ∀ a ∈ addrs, a < h.length) :
    readAll (writeAll h addrs c) addrs = some c := by
  rw [readAll_eq_some]
  induction addrs generalizing h c with
  | nil => cases c <;> simp_all
  | cons a l ih =>
    rcases c with _ | ⟨o, c⟩
    · simp at hl
    · have e : writeAll h (a :: l) (o :: c) = writeAll (h.set a o) l c := rfl
      rw [e, List.map_cons, List.map_cons, ih (List.nodup_cons.mp hn).2 (by simpa using hl)
        (by intro b hb; rw [List.length_set]; exact hlt b (by simp [hb])),
        getElem?_writeAll (List.nodup_cons.mp hn).1, List.getElem?_set_self (hlt a (by simp))]

theorem readAll_append_addrs {h : List (Obj K)} {a b : List ℕ} {c d : List (Obj K)} (h1 : readAll h a = some c)
    (h2 : readAll h b = some d) : readAll h (a ++ b) = some (c ++ d) := by
  rw [readAll_eq_some] at *
  rw [List.map_append, List.map_append, h1, h2]

theorem readAll_drop {h : List (Obj K)} {a : List ℕ} {c : List (Obj K)} (n : ℕ) (h1 : readAll h a = some c) :
    readAll h (a.drop n) = some (c.drop n) := by
  rw [readAll_eq_some] at *
  rw [List.map_drop, List.map_drop, h1]

theorem view_eq_some {h : List (Obj K)} {r : Ref} {s : State K} : r.view h = some s ↔
    readAll h r.addrs = some s.cells ∧ s.nJac = r.nJac ∧ s.nCstrJac = r.nCstrJac ∧ s.nCstrHess = r.nCstrHess := by
  unfold Ref.view
  rw [Option.bind_eq_some_iff]
  constructor
  · rintro ⟨l, h1, h2⟩
    obtain ⟨rfl, h3⟩ := cells_of_decode h2
    exact ⟨h1, h3⟩
  · rintro ⟨h1, h2, h3, h4⟩
    refine ⟨_, h1, ?_⟩
    have := decode_cells s r.addrs
    rw [h2, h3, h4] at this
    exact this

end Verif.Opt
