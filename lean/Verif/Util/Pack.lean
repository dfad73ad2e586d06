import Mathlib.Data.List.Basic
import Mathlib.Data.List.Forall2
import Mathlib.Tactic.Linarith
import Mathlib.Tactic.Ring

/-!
# Model of the packing of primal-dual matrices (hvd/utils.py 30-47, hvd/mmd_newton.py 17-29)

A matrix is the list of its rows, `none` is an exception.
-/

namespace Verif.Util

variable {K : Type*}

/-- Selection of a row by a boolean mask of the same length. -/
def select (m : List Bool) (r : List K) : List K := ((m.zip r).filter Prod.fst).map Prod.snd

/-- Consecutive slices of the given lengths. -/
def slices : List ℕ → List K → List (List K)
  | [], _ => []
  | c :: cs, x => x.take c :: slices cs (x.drop c)

/-- `x.reshape(N, -1)`. -/
def reshape (N : ℕ) (x : List K) : Option (List (List K)) :=
  if N = 0 ∨ x.length % N ≠ 0 then none else some (slices (List.replicate N (x.length / N)) x)

/-- Assignment `X[i, m] = v` to a row of zeros. A wrong number of values is an error (NumPy would
broadcast a single value). -/
def scatter [Zero K] : List Bool → List K → Option (List K)
  | [], [] => some []
  | true :: m, a :: v => (scatter m v).map (a :: ·)
  | false :: m, v => (scatter m v).map (0 :: ·)
  | [], _ :: _ => none
  | true :: _, [] => none

/-- `matrix_to_Nd_vector` (utils.py 30-31), the column written as a list. A mask of the wrong shape is
an error. -/
def pack (X : List (List K)) (n : ℕ) (act : List (List Bool)) : Option (List K) :=
  if (X.map fun r => (r.drop n).length) = act.map List.length then
    some ((X.map (List.take n)).flatten ++ (List.zipWith (fun r m => select m (r.drop n)) X act).flatten)
  else none

/-- `Nd_vector_to_matrix` of mmd_newton.py (17-29): here the masks contain the primal part. The slices
of `b` between the cumulative sums of the numbers of active duals are taken one after the other.
Simplified: a number of masks other than `N` or a mask of the wrong length is an error. -/
def unpackFull [Zero K] (x : List K) (N dim n : ℕ) (act : List (List Bool)) : Option (List (List K)) :=
  if dim = n then reshape N x
  else if act.length ≠ N then none
  else
    (reshape N (x.take (N * n))).bind fun a =>
      (List.zip act (List.zip a (slices (act.map fun m => m.count true - n) (x.drop (N * n))))).mapM
        fun p => if p.1.length = dim then scatter p.1 (p.2.1 ++ p.2.2) else none

/-- `Nd_vector_to_matrix` of utils.py (34-47): the primal part of the masks is prepended. -/
def unpack [Zero K] (x : List K) (N dim n : ℕ) (act : List (List Bool)) : Option (List (List K)) :=
  unpackFull x N dim n (act.map (List.replicate n true ++ ·))

/-! ### Lemmas -/

/-- Zero the entries that are not selected. -/
def zeroOut [Zero K] (m : List Bool) (r : List K) : List K := List.zipWith (fun b a => if b then a else 0) m r

theorem slices_flatten : ∀ (L : List (List K)), slices (L.map List.length) L.flatten = L
  | [] => rfl
  | r :: L => by simp [slices, slices_flatten L]

theorem length_slices : ∀ (cs : List ℕ) (x : List K), (slices cs x).length = cs.length
  | [], _ => rfl
  | c :: cs, x => by simp [slices, length_slices cs]

theorem slices_spec : ∀ (cs : List ℕ) (x : List K), x.length = cs.sum →
    (slices cs x).flatten = x ∧ (slices cs x).map List.length = cs
  | [], x, h => by
    have : x = [] := by simpa using h
    simp [slices, this]
  | c :: cs, x, h => by
    rw [List.sum_cons] at h
    have := slices_spec cs (x.drop c) (by rw [List.length_drop]; omega)
    refine ⟨?_, ?_⟩
    · simp [slices, this.1]
    · simp only [slices, List.map_cons, this.2, List.length_take]
      rw [min_eq_left (by omega)]

theorem sum_map_const (X : List (List K)) {w : ℕ} (h : ∀ r ∈ X, r.length = w) :
    X.flatten.length = X.length * w := by
  induction X with
  | nil => simp
  | cons r X ih =>
    rw [List.flatten_cons, List.length_append, ih (fun s hs => h s (by simp [hs])), h r (by simp),
      List.length_cons]
    ring

theorem reshape_flatten {X : List (List K)} {w : ℕ} (hX : X ≠ []) (h : ∀ r ∈ X, r.length = w) :
    reshape X.length X.flatten = some X := by
  have hl := sum_map_const X h
  have hpos : 0 < X.length := List.length_pos_iff.mpr hX
  unfold reshape
  rw [hl, if_neg (by rw [Nat.mul_mod_right]; omega), Nat.mul_div_cancel_left _ hpos]
  have : List.replicate X.length w = X.map List.length := by
    symm
    rw [List.eq_replicate_iff]
    refine ⟨by simp, fun b hb => ?_⟩
    obtain ⟨r, hr, rfl⟩ := List.mem_map.mp hb
    exact h r hr
  rw [this, slices_flatten]

theorem reshape_spec {N w : ℕ} {x : List K} (hN : 0 < N) (h : x.length = N * w) :
    ∃ X, reshape N x = some X ∧ X.length = N ∧ X.flatten = x ∧ ∀ r ∈ X, r.length = w := by
  have hs := slices_spec (List.replicate N w) x (by simp [h])
  refine ⟨slices (List.replicate N w) x, ?_, by simp [length_slices], hs.1, fun r hr => ?_⟩
  · unfold reshape
    rw [h, if_neg (by rw [Nat.mul_mod_right]; omega), Nat.mul_div_cancel_left _ hN]
  · have : r.length ∈ (slices (List.replicate N w) x).map List.length := List.mem_map_of_mem hr
    rw [hs.2] at this
    exact List.eq_of_mem_replicate this

theorem select_length (m : List Bool) : ∀ (r : List K), r.length = m.length → (select m r).length = m.count true := by
  induction m with
  | nil => intro r _; simp [select]
  | cons b m ih =>
    intro r hr
    cases r with
    | nil => simp at hr
    | cons a r =>
      have := ih r (by simpa using hr)
      unfold select at this ⊢
      cases b <;> simpa using this

theorem scatter_replicate [Zero K] (m : List Bool) (b : List K) : ∀ (a : List K),
    scatter (List.replicate a.length true ++ m) (a ++ b) = (scatter m b).map (a ++ ·)
  | [] => by simp
  | x :: a => by
    rw [List.length_cons, List.replicate_succ, List.cons_append, List.cons_append, scatter,
      scatter_replicate m b a, Option.map_map]
    rfl

theorem scatter_select [Zero K] (m : List Bool) : ∀ (r : List K), r.length = m.length →
    scatter m (select m r) = some (zeroOut m r) := by
  induction m with
  | nil => intro r _; simp [select, scatter, zeroOut]
  | cons b m ih =>
    intro r hr
    cases r with
    | nil => simp at hr
    | cons a r =>
      have := ih r (by simpa using hr)
      unfold select at this
      unfold select zeroOut
      cases b
      · simp only [List.zip_cons_cons, List.filter_cons_of_neg (by simp : ¬ (false, a).1 = true), scatter,
          this]
        simp [zeroOut]
      · simp only [List.zip_cons_cons, List.filter_cons_of_pos (by simp : (true, a).1 = true), List.map_cons,
          scatter, this]
        simp [zeroOut]

theorem scatter_spec [Zero K] (m : List Bool) : ∀ (v : List K), v.length = m.count true →
    ∃ r, scatter m v = some r ∧ r.length = m.length ∧ select m r = v := by
  induction m with
  | nil =>
    intro v hv
    have : v = [] := by simpa using hv
    subst this
    exact ⟨[], rfl, rfl, rfl⟩
  | cons b m ih =>
    intro v hv
    cases b
    · obtain ⟨r, h1, h2, h3⟩ := ih v (by simpa using hv)
      refine ⟨0 :: r, by simp [scatter, h1], by simp [h2], ?_⟩
      unfold select at h3 ⊢
      simpa using h3
    · cases v with
      | nil => simp at hv
      | cons a v =>
        obtain ⟨r, h1, h2, h3⟩ := ih v (by simpa using hv)
        refine ⟨a :: r, by simp [scatter, h1], by simp [h2], ?_⟩
        unfold select at h3 ⊢
        simpa using h3

/-- What unpacking a packed matrix gives. -/
theorem unpack_rows [Zero K] {n dim : ℕ} : ∀ (X : List (List K)) (act : List (List Bool)), X.length = act.length →
    (∀ r ∈ X, r.length = dim) → (∀ m ∈ act, n + m.length = dim) →
    (List.zip (act.map (List.replicate n true ++ ·)) (List.zip (X.map (List.take n))
      (List.zipWith (fun r m => select m (r.drop n)) X act))).mapM
        (fun p => if p.1.length = dim then scatter p.1 (p.2.1 ++ p.2.2) else none) =
      some (List.zipWith (fun r m => r.take n ++ zeroOut m (r.drop n)) X act)
  | [], [], _, _, _ => rfl
  | [], _ :: _, h, _, _ => by simp at h
  | _ :: _, [], h, _, _ => by simp at h
  | r :: X, m :: act, h, hX, hm => by
    have ih := unpack_rows X act (by simpa using h) (fun s hs => hX s (by simp [hs]))
      (fun s hs => hm s (by simp [hs]))
    have h1 := hX r (by simp)
    have h2 := hm m (by simp)
    have htl : (r.take n).length = n := by rw [List.length_take]; omega
    have hs : scatter (List.replicate n true ++ m) (r.take n ++ select m (r.drop n)) =
        some (r.take n ++ zeroOut m (r.drop n)) := by
      have := scatter_replicate m (select m (r.drop n)) (r.take n)
      rw [htl] at this
      rw [this, scatter_select m _ (by rw [List.length_drop]; omega)]
      rfl
    simp only [List.map_cons, List.zipWith_cons_cons, List.zip_cons_cons, List.mapM_cons]
    rw [if_pos (by simp [h2]), hs, ih]
    rfl

theorem unpack_pack [Zero K] {n dim : ℕ} {X : List (List K)} {act : List (List Bool)} (hN : X ≠ [])
    (hl : X.length = act.length) (hX : ∀ r ∈ X, r.length = dim) (hm : ∀ m ∈ act, n + m.length = dim) :
    ∃ v, pack X n act = some v ∧
      unpack v X.length dim n act = some (List.zipWith (fun r m => r.take n ++ zeroOut m (r.drop n)) X act) := by
  have hshape : (X.map fun r => (r.drop n).length) = act.map List.length := by
    apply List.ext_getElem (by simpa using hl)
    intro i h1 h2
    simp only [List.length_map] at h1 h2
    simp only [List.getElem_map, List.length_drop]
    have e1 := hX _ (List.getElem_mem h1)
    have e2 := hm _ (List.getElem_mem h2)
    omega
  refine ⟨_, by unfold pack; rw [if_pos hshape], ?_⟩
  have hnd : n ≤ dim := by
    obtain ⟨m, hmem⟩ : ∃ m, m ∈ act := by
      rcases act with _ | ⟨m, act⟩
      · simp at hl; exact absurd hl hN
      · exact ⟨m, by simp⟩
    have := hm m hmem
    omega
  have htk : ∀ r ∈ X.map (List.take n), r.length = n := by
    intro r hr
    obtain ⟨s, hs, rfl⟩ := List.mem_map.mp hr
    rw [List.length_take, hX s hs]; omega
  have hlen : (X.map (List.take n)).flatten.length = X.length * n := by
    rw [sum_map_const _ htk, List.length_map]
  unfold unpack unpackFull
  by_cases hd : dim = n
  · rw [if_pos hd]
    have hsel : (List.zipWith (fun r m => select m (r.drop n)) X act).flatten = [] := by
      rw [List.flatten_eq_nil_iff]
      intro l hmem
      obtain ⟨i, hi, rfl⟩ := List.getElem_of_mem hmem
      simp only [List.length_zipWith, lt_min_iff] at hi
      rw [List.getElem_zipWith]
      have : act[i] = [] := by
        have := hm _ (List.getElem_mem hi.2)
        exact List.length_eq_zero_iff.mp (by omega)
      rw [this]
      simp [select]
    rw [hsel, List.append_nil]
    have := reshape_flatten (X := X.map (List.take n)) (by simpa using hN) htk
    rw [List.length_map] at this
    rw [this]
    congr 1
    apply List.ext_getElem (by simp [hl])
    intro i h1 h2
    simp only [List.length_zipWith, lt_min_iff] at h2
    rw [List.getElem_zipWith, List.getElem_map]
    have e2 := hm _ (List.getElem_mem h2.2)
    have e3 : act[i] = [] := List.length_eq_zero_iff.mp (by omega)
    rw [e3]
    simp [zeroOut]
  · rw [if_neg hd, if_neg (by simp [hl])]
    rw [← hlen, List.take_left, List.drop_left]
    have hre := reshape_flatten (X := X.map (List.take n)) (by simpa using hN) htk
    rw [List.length_map] at hre
    rw [hre, Option.bind_some]
    have hcount : (act.map (List.replicate n true ++ ·)).map (fun m => m.count true - n) =
        (List.zipWith (fun r m => select m (r.drop n)) X act).map List.length := by
      apply List.ext_getElem (by simp [hl])
      intro i h1 h2
      simp only [List.length_map, List.length_zipWith, lt_min_iff] at h1 h2
      simp only [List.getElem_map, List.getElem_zipWith, List.count_append, List.count_replicate_self]
      rw [select_length]
      · omega
      · have e1 := hX _ (List.getElem_mem h2.1)
        have e2 := hm _ (List.getElem_mem h2.2)
        rw [List.length_drop]; omega
    rw [hcount, slices_flatten]
    exact unpack_rows X act hl hX hm

theorem pack_rows [Zero K] {n dim : ℕ} : ∀ (act : List (List Bool)) (a b : List (List K)), a.length = act.length →
    b.length = act.length → (∀ r ∈ a, r.length = n) → b.map List.length = act.map (List.count true) →
    (∀ m ∈ act, n + m.length = dim) →
    ∃ X, (List.zip (act.map (List.replicate n true ++ ·)) (List.zip a b)).mapM
        (fun p => if p.1.length = dim then scatter p.1 (p.2.1 ++ p.2.2) else none) = some X ∧
      X.length = act.length ∧ (∀ r ∈ X, r.length = dim) ∧ X.map (List.take n) = a ∧
      List.zipWith (fun r m => select m (r.drop n)) X act = b
  | [], [], [], _, _, _, _, _ => ⟨[], rfl, rfl, by simp, rfl, rfl⟩
  | [], _ :: _, _, h, _, _, _, _ => by simp at h
  | [], [], _ :: _, _, h, _, _, _ => by simp at h
  | _ :: _, [], _, h, _, _, _, _ => by simp at h
  | _ :: _, _ :: _, [], _, h, _, _, _ => by simp at h
  | m :: act, ai :: a, bi :: b, ha, hb, hw, hc, hm => by
    simp only [List.map_cons, List.cons.injEq] at hc
    obtain ⟨X, h1, h2, h3, h4, h5⟩ := pack_rows act a b (by simpa using ha) (by simpa using hb)
      (fun r hr => hw r (by simp [hr])) hc.2 (fun s hs => hm s (by simp [hs]))
    have hai := hw ai (by simp)
    have hm' := hm m (by simp)
    obtain ⟨r, hr1, hr2, hr3⟩ := scatter_spec m bi hc.1
    have hs : scatter (List.replicate n true ++ m) (ai ++ bi) = some (ai ++ r) := by
      have := scatter_replicate m bi ai
      rw [hai] at this
      rw [this, hr1]
      rfl
    refine ⟨(ai ++ r) :: X, ?_, by simp [h2], ?_, ?_, ?_⟩
    · simp only [List.map_cons, List.zip_cons_cons, List.mapM_cons]
      rw [if_pos (by simp [hm']), hs, h1]
      rfl
    · intro s hs
      rcases List.mem_cons.mp hs with rfl | hs
      · rw [List.length_append]; omega
      · exact h3 s hs
    · rw [List.map_cons, h4, ← hai, List.take_left]
    · rw [List.zipWith_cons_cons, h5, ← hai, List.drop_left, hr3]

theorem pack_unpack [Zero K] {N n dim : ℕ} {v : List K} {act : List (List Bool)} (hN : 0 < N)
    (hl : act.length = N) (hm : ∀ m ∈ act, n + m.length = dim)
    (hv : v.length = N * n + (act.map (List.count true)).sum) :
    ∃ X, unpack v N dim n act = some X ∧ X.length = N ∧ (∀ r ∈ X, r.length = dim) ∧ pack X n act = some v := by
  have hshape : ∀ X : List (List K), X.length = N → (∀ r ∈ X, r.length = dim) →
      (X.map fun r => (r.drop n).length) = act.map List.length := by
    intro X hXl hX
    apply List.ext_getElem (by simp [hl, hXl])
    intro i h1 h2
    simp only [List.length_map] at h1 h2
    simp only [List.getElem_map, List.length_drop]
    have e1 := hX _ (List.getElem_mem h1)
    have e2 := hm _ (List.getElem_mem h2)
    omega
  unfold unpack unpackFull
  by_cases hd : dim = n
  · have hnil : ∀ m ∈ act, m = [] := fun m hmem =>
      List.length_eq_zero_iff.mp (by have := hm m hmem; omega)
    have hsum : (act.map (List.count true)).sum = 0 := by
      have : act.map (List.count true) = act.map (fun _ => 0) :=
        List.map_congr_left fun m hmem => by rw [hnil m hmem]; rfl
      rw [this]
      simp
    rw [hsum, Nat.add_zero] at hv
    obtain ⟨X, h1, h2, h3, h4⟩ := reshape_spec hN hv
    rw [if_pos hd]
    have h4' : ∀ r ∈ X, r.length = dim := fun r hr => by rw [h4 r hr, hd]
    refine ⟨X, h1, h2, h4', ?_⟩
    unfold pack
    rw [if_pos (hshape X h2 h4')]
    have e1 : X.map (List.take n) = X := by
      conv_rhs => rw [← List.map_id X]
      refine List.map_congr_left fun r hr => ?_
      rw [List.take_of_length_le (by rw [h4 r hr]), id]
    have e2 : (List.zipWith (fun r m => select m (r.drop n)) X act).flatten = [] := by
      rw [List.flatten_eq_nil_iff]
      intro l hmem
      obtain ⟨i, hi, rfl⟩ := List.getElem_of_mem hmem
      simp only [List.length_zipWith, lt_min_iff] at hi
      rw [List.getElem_zipWith, hnil _ (List.getElem_mem hi.2)]
      simp [select]
    rw [e1, e2, h3, List.append_nil]
  · rw [if_neg hd, if_neg (by simp [hl])]
    have htake : (v.take (N * n)).length = N * n := by rw [List.length_take]; omega
    obtain ⟨a, h1, h2, h3, h4⟩ := reshape_spec hN htake
    rw [h1, Option.bind_some]
    have hcount : (act.map (List.replicate n true ++ ·)).map (fun m => m.count true - n) =
        act.map (List.count true) := by
      rw [List.map_map]
      refine List.map_congr_left fun m _ => ?_
      simp [List.count_append]
    rw [hcount]
    have hsl := slices_spec (act.map (List.count true)) (v.drop (N * n)) (by rw [List.length_drop]; omega)
    obtain ⟨X, g1, g2, g3, g4, g5⟩ := pack_rows (n := n) (dim := dim) act a
      (slices (act.map (List.count true)) (v.drop (N * n))) (by rw [h2, hl])
      (by rw [length_slices, List.length_map]) h4 hsl.2 hm
    refine ⟨X, g1, by rw [g2, hl], g3, ?_⟩
    unfold pack
    rw [if_pos (hshape X (by rw [g2, hl]) g3), g4, g5, h3, hsl.1, List.take_append_drop]

end Verif.Util
