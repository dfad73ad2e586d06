import Verif.HV.Correct
import Verif.HV.Embed
import Mathlib.Data.Int.Cast.Lemmas
import Mathlib.Algebra.Order.Ring.Cast
import Mathlib.Data.Int.Order.Basic

/-!
# Evaluating the model on integer inputs

The model over `ℝ` on integer inputs is the cast of the model over `ℤ`, which the kernel can run.
`naive` is a plain slab recursion; it equals the measure and gives the true value of examples.
-/

namespace Verif.HV

/-! ### The concrete argsort -/

theorem stableArgsort_isArgsort {K : Type*} [LinearOrder K] :
    IsArgsort (stableArgsort : List K → List ℕ) := by
  intro l
  have hperm : ((l.zipIdx).insertionSort (fun a b => a.1 ≤ b.1)).Perm l.zipIdx :=
    List.perm_insertionSort _ _
  constructor
  · have := hperm.map Prod.snd
    rw [List.zipIdx_map_snd] at this
    simpa [stableArgsort, List.range_eq_range'] using this
  · unfold stableArgsort
    rw [List.pairwise_map]
    have hs : ((l.zipIdx).insertionSort (fun a b => a.1 ≤ b.1)).Pairwise (fun a b => a.1 ≤ b.1) := by
      have : Std.Total (fun a b : K × ℕ => a.1 ≤ b.1) := ⟨fun a b => le_total a.1 b.1⟩
      have : IsTrans (K × ℕ) (fun a b => a.1 ≤ b.1) := ⟨fun a b c h1 h2 => le_trans h1 h2⟩
      exact List.pairwise_insertionSort _ _
    refine hs.imp_of_mem ?_
    intro a b ha hb hab x y hx hy
    have ha' := hperm.mem_iff.mp ha
    have hb' := hperm.mem_iff.mp hb
    rw [List.mem_zipIdx_iff_getElem?] at ha' hb'
    rw [ha'] at hx; rw [hb'] at hy
    cases hx; cases hy
    exact hab

/-- An `argsort` that puts the last of equal values first. The contract of `np.argsort` allows it, as the default sort
of NumPy is not stable. -/
def lastArgsort {K : Type*} [LinearOrder K] (l : List K) : List ℕ :=
  ((l.zipIdx.reverse).insertionSort (fun a b => a.1 ≤ b.1)).map Prod.snd

theorem lastArgsort_isArgsort {K : Type*} [LinearOrder K] : IsArgsort (lastArgsort : List K → List ℕ) := by
  intro l
  have hperm : ((l.zipIdx.reverse).insertionSort (fun a b => a.1 ≤ b.1)).Perm l.zipIdx :=
    (List.perm_insertionSort _ _).trans (List.reverse_perm _)
  constructor
  · have := hperm.map Prod.snd
    rw [List.zipIdx_map_snd] at this
    simpa [lastArgsort, List.range_eq_range'] using this
  · unfold lastArgsort
    rw [List.pairwise_map]
    have hs : ((l.zipIdx.reverse).insertionSort (fun a b => a.1 ≤ b.1)).Pairwise (fun a b => a.1 ≤ b.1) := by
      have : Std.Total (fun a b : K × ℕ => a.1 ≤ b.1) := ⟨fun a b => le_total a.1 b.1⟩
      have : IsTrans (K × ℕ) (fun a b => a.1 ≤ b.1) := ⟨fun a b c h1 h2 => le_trans h1 h2⟩
      exact List.pairwise_insertionSort _ _
    refine hs.imp_of_mem ?_
    intro a b ha hb hab x y hx hy
    have ha' := hperm.mem_iff.mp ha
    have hb' := hperm.mem_iff.mp hb
    rw [List.mem_zipIdx_iff_getElem?] at ha' hb'
    rw [ha'] at hx; rw [hb'] at hy
    cases hx; cases hy
    exact hab

/-! ### Casting the model -/

/-- Cast of a cargo array. -/
def castC (c : ℕ → ℕ → ℤ) : ℕ → ℕ → ℝ := fun a b => c a b

theorem emb_cast : Emb (fun v : ℤ => (v : ℝ)) where
  zero := Int.cast_zero
  one := Int.cast_one
  add := Int.cast_add
  sub := Int.cast_sub
  neg := Int.cast_neg
  mul := Int.cast_mul
  nat := Int.cast_natCast
  le := fun _ _ => Int.cast_le

/-- Cast of a point. -/
def castP (p : ℕ → ℤ) : ℕ → ℝ := fun i => p i

theorem insertionSort_zipIdx_cast (l : List (ℤ × ℕ)) :
    (l.map (fun a => ((a.1 : ℝ), a.2))).insertionSort (fun a b => a.1 ≤ b.1) =
      (l.insertionSort (fun a b => a.1 ≤ b.1)).map (fun a => ((a.1 : ℝ), a.2)) := by
  symm
  apply List.map_insertionSort
  intro a _ b _
  simp

/-- `stableArgsort` only looks at the order. -/
theorem stableArgsort_map {J K : Type*} [LinearOrder J] [LinearOrder K] {e : J → K} (he : ∀ a b, e a ≤ e b ↔ a ≤ b)
    (l : List J) : stableArgsort (l.map e) = stableArgsort l := by
  unfold stableArgsort
  rw [List.zipIdx_map]
  have h : (l.zipIdx.map (Prod.map e id)).insertionSort (fun a b => a.1 ≤ b.1) =
      (l.zipIdx.insertionSort (fun a b => a.1 ≤ b.1)).map (Prod.map e id) := by
    symm
    apply List.map_insertionSort
    intro a _ b _
    exact (he a.1 b.1).symm
  rw [h, List.map_map]
  rfl

theorem stableArgsort_cast (l : List ℤ) :
    stableArgsort (l.map (fun v : ℤ => (v : ℝ))) = stableArgsort l := stableArgsort_map (fun _ _ => Int.cast_le) l

theorem lastArgsort_cast (l : List ℤ) :
    lastArgsort (l.map (fun v : ℤ => (v : ℝ))) = lastArgsort l := by
  unfold lastArgsort
  rw [List.zipIdx_map, ← List.map_reverse]
  have := insertionSort_zipIdx_cast l.zipIdx.reverse
  have e : (l.zipIdx.reverse.map (Prod.map (fun v : ℤ => (v : ℝ)) id)) =
      l.zipIdx.reverse.map (fun a => ((a.1 : ℝ), a.2)) := rfl
  rw [e, this, List.map_map]
  rfl

/-- The `argsort` of the model over `ℝ` on integers. -/
def SortCast (ar : List ℝ → List ℕ) (az : List ℤ → List ℕ) : Prop :=
  ∀ l : List ℤ, ar (l.map (fun v : ℤ => (v : ℝ))) = az l

theorem cargoOf_cast (pts : List (ℕ → ℤ)) : cargoOf (pts.map castP) = castC (cargoOf pts) := cargoOf_map emb_cast pts

/-- On integer inputs the model over `ℝ` is the cast of the model over `ℤ`. -/
theorem compute_cast {ar : List ℝ → List ℕ} {az : List ℤ → List ℕ} (hs : SortCast ar az) (d : ℕ)
    (front : List (ℕ → ℤ)) (ref : ℕ → ℤ) :
    compute ar d (front.map castP) (castP ref) = (compute az d front ref).map (fun v : ℤ => (v : ℝ)) :=
  compute_map emb_cast hs d front ref

/-! ### The naive slab recursion -/

/-- One sweep of the naive recursion; `f` is the volume one dimension lower. -/
def naiveAux {K : Type*} [Ring K] (g : ℕ → K) (f : List ℕ → K) : List ℕ → List ℕ → K
  | _, [] => 0
  | pre, x :: xs => (f (x :: pre) - f pre) * -(g x) + naiveAux g f (x :: pre) xs

/-- Volume of the union of the boxes `[c z, 0]`, `z ∈ l`, in the first `d` coordinates. -/
def naive {K : Type*} [Ring K] [LinearOrder K] (c : ℕ → ℕ → K) : ℕ → List ℕ → K
  | 0, l => if l = [] then 0 else 1
  | d + 1, l => naiveAux (fun z => c z d) (naive c d) [] (l.insertionSort (fun a b => c a d ≤ c b d))

theorem naiveAux_cast (g : ℕ → ℤ) (f : List ℕ → ℤ) : ∀ l pre : List ℕ,
    naiveAux (fun z => (g z : ℝ)) (fun l => (f l : ℝ)) pre l = ((naiveAux g f pre l : ℤ) : ℝ)
  | [], _ => by simp [naiveAux]
  | x :: l, pre => by simp [naiveAux, naiveAux_cast g f l (x :: pre)]

theorem naive_cast (c : ℕ → ℕ → ℤ) : ∀ (d : ℕ) (l : List ℕ),
    naive (castC c) d l = ((naive c d l : ℤ) : ℝ)
  | 0, l => by simp only [naive]; split <;> simp
  | d + 1, l => by
    have hf : naive (castC c) d = fun l => ((naive c d l : ℤ) : ℝ) := funext (naive_cast c d)
    simp only [naive]
    rw [hf]
    have hl : l.insertionSort (fun a b => castC c a d ≤ castC c b d) =
        l.insertionSort (fun a b => c a d ≤ c b d) := by
      congr 1
      · funext a b; simp [castC]
    rw [hl]
    exact naiveAux_cast _ _ _ _

theorem naiveAux_eq {c : ℕ → ℕ → ℝ} {d : ℕ} {f : List ℕ → ℝ}
    (hf : ∀ l : List ℕ, (∀ z ∈ l, ∀ i < d + 1, c z i ≤ 0) → f l = vol c d l.toFinset) :
    ∀ l pre : List ℕ, (∀ z ∈ pre, ∀ i < d + 1, c z i ≤ 0) → (∀ z ∈ l, ∀ i < d + 1, c z i ≤ 0) →
    (∀ a ∈ pre, ∀ b ∈ l, c a d ≤ c b d) → l.Pairwise (fun a b => c a d ≤ c b d) →
    vol c (d + 1) (pre.toFinset ∪ l.toFinset) =
      vol c (d + 1) pre.toFinset + naiveAux (fun z => c z d) f pre l
  | [], pre, _, _, _, _ => by simp [naiveAux]
  | x :: l, pre, hp, hl, hpl, hs => by
    rw [List.pairwise_cons] at hs
    have ih := naiveAux_eq hf l (x :: pre)
      (by
        intro z hz
        rcases List.mem_cons.mp hz with rfl | hz
        · exact hl z (by simp)
        · exact hp z hz)
      (fun z hz => hl z (by simp [hz]))
      (by
        intro a ha b hb
        rcases List.mem_cons.mp ha with rfl | ha
        · exact hs.1 b hb
        · exact hpl a ha b (by simp [hb]))
      hs.2
    have hset : pre.toFinset ∪ (x :: l).toFinset = (x :: pre).toFinset ∪ l.toFinset := by
      ext z; simp
    rw [hset, ih, naiveAux, List.toFinset_cons,
      vol_slab d pre.toFinset x (hl x (by simp) d (by omega))
        (fun z hz => hpl z (by simpa using hz) x (by simp)),
      hf pre hp, hf (x :: pre), List.toFinset_cons]
    · ring
    · intro z hz
      rcases List.mem_cons.mp hz with rfl | hz
      · exact hl z (by simp)
      · exact hp z hz

theorem naive_eq {c : ℕ → ℕ → ℝ} : ∀ (d : ℕ) (l : List ℕ), (∀ z ∈ l, ∀ i < d, c z i ≤ 0) →
    naive c d l = vol c d l.toFinset
  | 0, l, _ => by
    rw [naive]
    split
    · subst l; simp [vol_empty]
    · rw [vol_zero]
      rcases l with _ | ⟨a, l⟩
      · contradiction
      · exact ⟨a, by simp⟩
  | d + 1, l, h => by
    have hperm := List.perm_insertionSort (fun a b => c a d ≤ c b d) l
    have hs : (l.insertionSort (fun a b => c a d ≤ c b d)).Pairwise (fun a b => c a d ≤ c b d) := by
      have : Std.Total (fun a b : ℕ => c a d ≤ c b d) := ⟨fun a b => le_total _ _⟩
      have : IsTrans ℕ (fun a b => c a d ≤ c b d) := ⟨fun a b c h1 h2 => le_trans h1 h2⟩
      exact List.pairwise_insertionSort _ _
    have := naiveAux_eq (c := c) (d := d) (f := naive c d)
      (fun l hl => naive_eq d l (fun z hz i hi => hl z hz i (by omega)))
      (l.insertionSort (fun a b => c a d ≤ c b d)) [] (by simp)
      (fun z hz => h z (hperm.mem_iff.mp hz)) (by simp) hs
    have hset : (l.insertionSort (fun a b => c a d ≤ c b d)).toFinset = l.toFinset :=
      List.toFinset_eq_of_perm _ _ hperm
    rw [hset] at this
    simp [vol_empty] at this
    rw [naive, this]

/-- True hypervolume of integer points below the origin. -/
theorem hvol_cast (d : ℕ) (pts : List (ℕ → ℤ))
    (h : ∀ p ∈ pts, ∀ i < d, p i ≤ 0) :
    Spec.hvol d (pts.map castP) (fun _ => 0) =
      ((naive (cargoOf pts) d ((List.range pts.length).map (· + 1)) : ℤ) : ℝ) := by
  rw [← vol_nodeSet, List.length_map, cargoOf_cast, ← naive_cast, naive_eq]
  · rfl
  · intro z hz i hi
    obtain ⟨k, hk, rfl⟩ := List.mem_map.mp hz
    have hk' : k < pts.length := by simpa using hk
    have := h pts[k] (List.getElem_mem _) i hi
    simp [castC, cargoOf, hk']
    exact_mod_cast this

end Verif.HV
