import Verif.Props.HVNIter
import Verif.Props.Newton
import Verif.Props.Residual
import Verif.HVD.Total
import Verif.Ind.RefSetLemmas

/-!
# The data of the points of a usable population
-/

namespace Verif.Opt

open Verif.Util Verif.Props Verif.HV

section Chunk

variable {K : Type*} [Field K] [LinearOrder K]

theorem chunk_total {m n : ℕ} {r : List K} (h : r.length = m * n) :
    ∃ A, chunk m n r = some A ∧ A.length = m ∧ ∀ x ∈ A, x.length = n := by
  refine ⟨_, by rw [chunk, if_pos h], by simp [length_slices], fun x hx => ?_⟩
  have := (slices_spec (List.replicate m n) r (by simp [h])).2
  have hx' : x.length ∈ (slices (List.replicate m n) r).map List.length := List.mem_map_of_mem hx
  rw [this] at hx'
  exact List.eq_of_mem_replicate hx'

omit [LinearOrder K] in
theorem slices_getD {n : ℕ} : ∀ (m : ℕ) (r : List K) (k : ℕ), k < m →
    (slices (List.replicate m n) r).getD k [] = (r.drop (k * n)).take n := by
  intro m
  induction m with
  | zero => intro r k hk; omega
  | succ m ih =>
    intro r k hk
    rw [List.replicate_succ, slices]
    cases k with
    | zero => simp
    | succ k =>
      rw [List.getD_cons_succ, ih _ _ (by omega), List.drop_drop, Nat.succ_mul, Nat.add_comm]

theorem chunk_getD {m n : ℕ} {r : List K} {A : List (List K)} (h : chunk m n r = some A) {k v : ℕ} (hk : k < m)
    (hv : v < n) : (A.getD k []).getD v 0 = pt r (k * n + v) := by
  unfold chunk at h
  split at h
  · rw [← Option.some.inj h, slices_getD _ _ _ hk]
    simp only [pt, List.getD_eq_getElem?_getD, List.getElem?_take, if_pos hv, List.getElem?_drop]
  · simp at h

end Chunk

namespace Funcs

variable {K : Type*} [Field K] [LinearOrder K] [IsStrictOrderedRing K] [Inhabited K]

variable {p : Funcs K} {nObj N0 : ℕ}

/-- The data `d` belong to the row `x` of primal and dual variables. -/
structure PointOf (p : Funcs K) (x : List K) (d : NewtonPoint K) : Prop where
  act : ∀ k < p.nDual, d.act.getD k false = (p.rowActive (x.take p.nVar)).getD k false
  cstr : ∀ k < p.nDual, d.cstr.getD k 0 = pt (p.rowCstr (x.take p.nVar)) k
  dual : ∀ k < p.nDual, d.dual.getD k 0 = pt x (p.nVar + k)
  dH : ∀ k < p.nDual, ∀ v < p.nVar, (d.dH.getD k []).getD v 0 = pt (p.rowGrad (x.take p.nVar)) (k * p.nVar + v)
  ddH : ∀ k < p.nDual, ∀ v < p.nVar, ∀ w < p.nVar, ((d.ddH.getD k []).getD v []).getD w 0 =
    pt (p.rowHess (x.take p.nVar)) ((k * p.nVar + v) * p.nVar + w)

theorem nDual_free (h : p.constrained = false) : p.nDual = 0 := by simp [nDual, h]

theorem layerPoints_spec (hp : p.Ok nObj) (hj : p.constrained = true → p.hasJac) {t : State K}
    (ht : Usable p (p.nVar + p.nDual) N0 t) {grad : List (List K)} (hg : grad.length = t.X.length)
    (hr : ∀ r ∈ grad, r.length = p.nVar) :
    ∃ ds, p.layerPoints t grad = some ds ∧ ds.length = t.X.length ∧ ∀ i (hi : i < ds.length),
      ds[i].Shape p.nVar p.nDual ∧ ds[i].grad = grad.getD i [] ∧ PointOf p (t.X.getD i []) ds[i] := by
  unfold layerPoints
  by_cases hc : p.constrained = true
  · rw [if_pos hc]
    have hn : p.nDual = p.nEq + p.nIeq := by rw [nDual, if_pos hc]
    unfold cstrPoints
    obtain ⟨-, -, h3, h4, h5⟩ := InSync.iff.mp ht.sync
    obtain ⟨H, hH⟩ := Option.isSome_iff_exists.mp ht.cHess
    have h6 := HessInSync.iff.mp ht.hess H hH
    have key : ∀ i ∈ List.range t.X.length, ∃ d, ((chunk (p.nEq + p.nIeq) p.nVar (t.cstrGrad.getD i [])).bind fun dH =>
        t.cstrHess.bind fun ch =>
        (chunk (p.nEq + p.nIeq) (p.nVar * p.nVar) (ch.getD i [])).bind fun dd =>
        (dd.mapM (chunk p.nVar p.nVar)).map fun ddH =>
          ({ grad := grad.getD i [], dual := (t.X.getD i []).drop p.nVar, act := t.active.getD i []
             cstr := t.cstrValue.getD i [], dH := dH, ddH := ddH } : NewtonPoint K)) = some d ∧
        (d.Shape p.nVar p.nDual ∧ d.grad = grad.getD i [] ∧ PointOf p (t.X.getD i []) d) := by
      intro i hi
      have hi := List.mem_range.mp hi
      have hx := ht.dim _ (List.getElem_mem hi)
      rw [hn] at hx
      have hq : (t.X[i].take p.nVar).length = p.nVar := by rw [List.length_take, hx]; omega
      have e : ∀ f : List K → List K, (t.X.map fun x => f (x.take p.nVar)).getD i [] =
          f (t.X[i].take p.nVar) := fun f => by
        rw [List.getD_eq_getElem _ _ (by simpa using hi), List.getElem_map]
      have e' : (t.X.map fun x => p.rowActive (x.take p.nVar)).getD i [] =
          p.rowActive (t.X[i].take p.nVar) := by
        rw [List.getD_eq_getElem _ _ (by simpa using hi), List.getElem_map]
      have eX : t.X.getD i [] = t.X[i] := List.getD_eq_getElem _ _ hi
      simp only [h5, e, hH, Option.bind_some, h6, h3, h4, e', eX]
      have hG := hp.rowGrad_length hq
      rw [if_pos (hj hc)] at hG
      obtain ⟨dH, d1, d2, d3⟩ := chunk_total hG
      have hHl := hp.rowHess_length hq
      rw [Nat.mul_assoc] at hHl
      obtain ⟨dd, g1, g2, g3⟩ := chunk_total hHl
      obtain ⟨ddH, k1, k2, -⟩ := HVD.mapM_total (f := chunk p.nVar p.nVar) (P := fun _ => True) (l := dd)
        (fun x hx => by obtain ⟨A, hA, -⟩ := chunk_total (g3 x hx); exact ⟨A, hA, trivial⟩)
      refine ⟨_, by rw [d1, Option.bind_some, g1, Option.bind_some, k1, Option.map_some],
        ⟨⟨?_, ?_, ?_, ?_, by rw [hn]; exact d2⟩, d3, ?_⟩, rfl, ⟨?_, ?_, ?_, ?_, ?_⟩⟩
      · rw [List.getD_eq_getElem _ _ (by omega)]
        exact hr _ (List.getElem_mem _)
      · rw [List.length_drop, hx, hn]; omega
      · rw [hn]; exact hp.rowActive_length hq
      · rw [hn]; exact hp.rowCstr_length hq
      · rw [hn, k2, g2]
      · exact fun k _ => rfl
      · exact fun k _ => rfl
      · intro k _
        simp only [pt, List.getD_eq_getElem?_getD, List.getElem?_drop]
      · intro k hk v hv
        exact chunk_getD d1 (hn ▸ hk) hv
      · intro k hk v hv w hw
        rw [hn] at hk
        have hkd : k < dd.length := by omega
        have hkd' : k < ddH.length := by omega
        have hkk : chunk p.nVar p.nVar dd[k] = some ddH[k] := by
          rw [(Ind.mapM_eq_some.mp k1).2 k hkd, List.getElem?_eq_getElem hkd']
        rw [List.getD_eq_getElem ddH _ hkd', chunk_getD hkk hv hw]
        have hvw : v * p.nVar + w < p.nVar * p.nVar := by nlinarith
        have := chunk_getD g1 hk hvw
        rw [List.getD_eq_getElem dd _ hkd] at this
        unfold pt at this ⊢
        rw [this]
        congr 1
        ring
    obtain ⟨ds, h1, h2⟩ := mapM_exists key
    have h2l := h2.length_eq
    rw [List.length_range] at h2l
    refine ⟨ds, h1, h2l.symm, fun i hi => ?_⟩
    have := (List.forall₂_iff_get.mp h2).2 i (by rw [List.length_range]; omega) hi
    simpa only [List.get_eq_getElem, List.getElem_range] using this
  · have hn : p.nDual = 0 := nDual_free (by simpa using hc)
    rw [if_neg hc]
    refine ⟨_, rfl, by simp [freePoints, hg], fun i hi => ?_⟩
    have hi' : i < grad.length := by simpa [freePoints] using hi
    have : (freePoints grad)[i] = { grad := grad[i], dual := [], act := [], cstr := [], dH := [], ddH := [] } := by
      simp [freePoints]
    rw [this, hn]
    refine ⟨⟨⟨hr _ (List.getElem_mem hi'), rfl, rfl, rfl, rfl⟩, by simp, rfl⟩,
      (List.getD_eq_getElem _ _ hi').symm, ⟨?_, ?_, ?_, ?_, ?_⟩⟩ <;> · intro k hk; omega

theorem layerPoints_total (hp : p.Ok nObj) (hj : p.constrained = true → p.hasJac) {t : State K}
    (ht : Usable p (p.nVar + p.nDual) N0 t) {grad : List (List K)} (hg : grad.length = t.X.length)
    (hr : ∀ r ∈ grad, r.length = p.nVar) :
    ∃ ds, p.layerPoints t grad = some ds ∧ ds.length = t.X.length ∧ ∀ d ∈ ds, d.Shape p.nVar p.nDual := by
  obtain ⟨ds, h1, h2, h3⟩ := layerPoints_spec hp hj ht hg hr
  refine ⟨ds, h1, h2, fun d hd => ?_⟩
  obtain ⟨i, hi, rfl⟩ := List.mem_iff_getElem.mp hd
  exact (h3 i hi).1

end Funcs

end Verif.Opt
