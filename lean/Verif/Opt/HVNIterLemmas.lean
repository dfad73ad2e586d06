import Verif.Opt.HVNIter
import Verif.Props.State
import Verif.Props.Population
import Verif.Props.BoxStep

/-!
# Lemmas about the iteration of `HVN`
-/

namespace Verif.Opt

open Verif.Util Verif.Props Verif.NDS

/-! ### Assignments to rows -/

section Assign

variable {α : Type*}

theorem foldl_set_length : ∀ (q : List (ℕ × α)) (A : List α),
    (q.foldl (fun A q => A.set q.1 q.2) A).length = A.length
  | [], A => rfl
  | q :: l, A => by rw [List.foldl_cons, foldl_set_length l, List.length_set]

theorem foldl_set_other : ∀ (q : List (ℕ × α)) (A : List α) (i : ℕ), (∀ p ∈ q, p.1 ≠ i) →
    (q.foldl (fun A q => A.set q.1 q.2) A)[i]? = A[i]?
  | [], A, i, _ => rfl
  | q :: l, A, i, h => by
    rw [List.foldl_cons, foldl_set_other l _ i fun p hp => h p (by simp [hp]),
      List.getElem?_set_ne (h q (by simp))]

theorem foldl_set_zip : ∀ (idx : List ℕ) (rows A : List α), idx.Nodup → idx.length = rows.length →
    (∀ i ∈ idx, i < A.length) → ∀ j (hj : j < idx.length),
    ((idx.zip rows).foldl (fun A q => A.set q.1 q.2) A)[idx[j]]? = rows[j]?
  | [], _, _, _, _, _, j, hj => by simp at hj
  | i :: idx, [], _, _, h, _, _, _ => by simp at h
  | i :: idx, r :: rows, A, hn, hl, hA, j, hj => by
    rw [List.zip_cons_cons, List.foldl_cons]
    obtain ⟨hi, hn⟩ := List.nodup_cons.mp hn
    cases j with
    | zero =>
      rw [List.getElem_cons_zero, foldl_set_other]
      · rw [List.getElem?_set_self (hA i (by simp)), List.getElem?_cons_zero]
      · intro p hp h
        exact hi (h ▸ (List.of_mem_zip hp).1)
    | succ j =>
      rw [List.getElem_cons_succ, List.getElem?_cons_succ]
      exact foldl_set_zip idx rows _ hn (by simpa using hl)
        (fun k hk => by rw [List.length_set]; exact hA k (by simp [hk])) j (by simpa using hj)

theorem foldl_set_const (a : α) (idx : List ℕ) (A : List α) :
    idx.foldl (fun l i => l.set i a) A = (idx.zip (idx.map fun _ => a)).foldl (fun A q => A.set q.1 q.2) A := by
  induction idx generalizing A with
  | nil => rfl
  | cons i idx ih => rw [List.foldl_cons, ih, List.map_cons, List.zip_cons_cons, List.foldl_cons]

end Assign

variable {K : Type*}

theorem foldl_set_rows {n : ℕ} : ∀ (q : List (ℕ × List K)) (A : List (List K)), (∀ r ∈ A, r.length = n) →
    (∀ p ∈ q, p.2.length = n) → ∀ r ∈ q.foldl (fun A q => A.set q.1 q.2) A, r.length = n
  | [], _, hA, _ => hA
  | p :: q, A, hA, hq => foldl_set_rows q _
      (fun r hr => by
        rcases List.mem_or_eq_of_mem_set hr with h | h
        · exact hA r h
        · rw [h]; exact hq p (by simp))
      (fun p hp => hq p (by simp [hp]))

theorem assignRows_total {A rows : List (List K)} {idx : List ℕ} {n : ℕ} (hA : ∀ r ∈ A, r.length = n)
    (hr : ∀ r ∈ rows, r.length = n) (hl : idx.length = rows.length) (hi : ∀ i ∈ idx, i < A.length) :
    assignRows A idx rows = some ((idx.zip rows).foldl (fun A q => A.set q.1 q.2) A) := by
  unfold assignRows
  rw [if_pos]
  refine ⟨hl, fun q hq => ?_⟩
  obtain ⟨h1, h2⟩ := List.of_mem_zip hq
  rw [List.getElem?_eq_getElem (hi _ h1), Option.any_some, decide_eq_true_eq, hA _ (List.getElem_mem _), hr _ h2]

section

variable [Field K] [LinearOrder K]

/-! ### The line search -/

theorem halvingM_spec [IsStrictOrderedRing K] (c1 : K) (phi : K → Option K) (phi0 : K) (hphi : ∀ a, ∃ v, phi a = some v) :
    ∀ (t : ℕ) (s : K), ∃ k ≤ t, halvingM c1 phi phi0 t s = some (s * (1 / 2) ^ k) ∧
      (∀ l < k, ∃ v, phi (s * (1 / 2) ^ l) = some v ∧ ¬ Accept c1 phi0 (s * (1 / 2) ^ l) v) ∧
      (k < t → ∃ v, phi (s * (1 / 2) ^ k) = some v ∧ Accept c1 phi0 (s * (1 / 2) ^ k) v) := by
  intro t
  induction t with
  | zero => intro s; exact ⟨0, le_rfl, by simp [halvingM], by simp, by simp⟩
  | succ t ih =>
    intro s
    obtain ⟨v, hv⟩ := hphi s
    by_cases h : Accept c1 phi0 s v
    · exact ⟨0, by omega, by simp [halvingM, hv, h], by simp, fun _ => ⟨v, by simpa using hv, by simpa using h⟩⟩
    · obtain ⟨k, hk, h1, h2, h3⟩ := ih (s * (1 / 2))
      have hpow : ∀ l, s * (1 / 2) * (1 / 2) ^ l = s * (1 / 2) ^ (l + 1) := fun l => by rw [pow_succ]; ring
      refine ⟨k + 1, by omega, ?_, ?_, ?_⟩
      · simp only [halvingM, hv, h, Option.bind_some, if_false]
        rw [h1, hpow]
      · intro l hl
        rcases l with _ | l
        · exact ⟨v, by simpa using hv, by simpa using h⟩
        · rw [← hpow]; exact h2 l (by omega)
      · intro hlt
        rw [← hpow]; exact h3 (by omega)

theorem movedBy_shape {X S : List (List K)} {n : ℕ} (a : K) (hX : ∀ x ∈ X, x.length = n) (hS : ∀ x ∈ S, x.length = n)
    (hl : S.length = X.length) : (movedBy X S a).length = X.length ∧ (∀ x ∈ movedBy X S a, x.length = n) ∧
      ∀ i < X.length, ∀ c < n, ((movedBy X S a).getD i []).getD c 0 =
        (X.getD i []).getD c 0 + a * (S.getD i []).getD c 0 := by
  have h1 : (movedBy X S a).length = X.length := by unfold movedBy; rw [List.length_zipWith, hl, min_self]
  unfold movedBy at h1 ⊢
  refine ⟨h1, ?_, ?_⟩
  · intro x hx
    obtain ⟨i, hi, rfl⟩ := List.mem_iff_getElem.mp hx
    rw [List.getElem_zipWith, List.length_zipWith, hX _ (List.getElem_mem _), hS _ (List.getElem_mem _), min_self]
  · intro i hi c hc
    have hx := hX _ (List.getElem_mem hi)
    have hs := hS _ (List.getElem_mem (by omega : i < S.length))
    rw [List.getD_eq_getElem _ _ (lt_of_lt_of_eq hi h1.symm), List.getD_eq_getElem _ _ hi,
      List.getD_eq_getElem _ _ (by omega : i < S.length), List.getElem_zipWith, List.getD_eq_getElem _ _ (by rw [List.length_zipWith]; omega), List.getElem_zipWith,
      List.getD_eq_getElem _ _ (by omega), List.getD_eq_getElem _ _ (by omega)]

end

/-! ### The loop over the layers -/

section Pass

variable [Field K] [LinearOrder K] [Inhabited K]

/-- The matrices have one row for each point. -/
structure HvnEnv.Acc.Shape (N dim : ℕ) (acc : HvnEnv.Acc K) : Prop where
  step : acc.step.length = N
  size : acc.size.length = N
  R : acc.R.length = N
  stepRow : ∀ r ∈ acc.step, r.length = dim
  RRow : ∀ r ∈ acc.R, r.length = dim

theorem HvnEnv.pass_total {e : HvnEnv K} {s : State K} {idx : List ℕ} {S R : List (List K)} {a : K} {N dim : ℕ}
    (hl : e.layer s idx = some (S, R, a)) (hS : S.length = idx.length) (hR : R.length = idx.length)
    (hSr : ∀ r ∈ S, r.length = dim) (hRr : ∀ r ∈ R, r.length = dim) (hn : idx.Nodup) (hi : ∀ i ∈ idx, i < N)
    {acc : HvnEnv.Acc K} (h : acc.Shape N dim) : ∃ acc', e.pass s acc idx = some acc' ∧ acc'.Shape N dim ∧
      (∀ i, i ∉ idx → acc'.step[i]? = acc.step[i]? ∧ acc'.size[i]? = acc.size[i]? ∧ acc'.R[i]? = acc.R[i]?) ∧
      ∀ j (hj : j < idx.length), acc'.step[idx[j]]? = S[j]? ∧ acc'.size[idx[j]]? = some a ∧
        acc'.R[idx[j]]? = R[j]? := by
  unfold HvnEnv.pass
  rw [hl, Option.bind_some, assignRows_total h.stepRow hSr hS.symm (by rw [h.step]; exact hi), Option.bind_some,
    assignRows_total h.RRow hRr hR.symm (by rw [h.R]; exact hi), Option.map_some]
  refine ⟨_, rfl, ⟨?_, ?_, ?_, ?_, ?_⟩, ?_, ?_⟩
  · rw [foldl_set_length, h.step]
  · rw [foldl_set_const, foldl_set_length, h.size]
  · rw [foldl_set_length, h.R]
  · exact foldl_set_rows _ _ h.stepRow fun p hp => hSr _ (List.of_mem_zip hp).2
  · exact foldl_set_rows _ _ h.RRow fun p hp => hRr _ (List.of_mem_zip hp).2
  · intro i hni
    have : ∀ {β : Type _} (l : List β), ∀ p ∈ idx.zip l, p.1 ≠ i := fun l p hp he =>
      hni (he ▸ (List.of_mem_zip hp).1)
    exact ⟨foldl_set_other _ _ _ (this _), by rw [foldl_set_const]; exact foldl_set_other _ _ _ (this _),
      foldl_set_other _ _ _ (this _)⟩
  · intro j hj
    refine ⟨foldl_set_zip _ _ _ hn hS.symm (by rw [h.step]; exact hi) j hj, ?_,
      foldl_set_zip _ _ _ hn hR.symm (by rw [h.R]; exact hi) j hj⟩
    rw [foldl_set_const, foldl_set_zip _ _ _ hn (by simp) (by rw [h.size]; exact hi) j hj]
    simp [hj]

theorem HvnEnv.passes_total {e : HvnEnv K} {s : State K} {N dim : ℕ} : ∀ (parts : List (List ℕ)),
    parts.flatten.Nodup → (∀ i ∈ parts.flatten, i < N) →
    (∀ idx ∈ parts, ∃ S R a, e.layer s idx = some (S, R, a) ∧ S.length = idx.length ∧ R.length = idx.length ∧
      (∀ r ∈ S, r.length = dim) ∧ ∀ r ∈ R, r.length = dim) →
    ∀ acc : HvnEnv.Acc K, acc.Shape N dim → ∃ acc', parts.foldlM (e.pass s) acc = some acc' ∧ acc'.Shape N dim ∧
      (∀ i, i ∉ parts.flatten → acc'.step[i]? = acc.step[i]? ∧ acc'.size[i]? = acc.size[i]? ∧
        acc'.R[i]? = acc.R[i]?) ∧
      ∀ idx ∈ parts, ∀ S R a, e.layer s idx = some (S, R, a) → ∀ j (hj : j < idx.length),
        acc'.step[idx[j]]? = S[j]? ∧ acc'.size[idx[j]]? = some a ∧ acc'.R[idx[j]]? = R[j]?
  | [], _, _, _, acc, h => ⟨acc, rfl, h, fun _ _ => ⟨rfl, rfl, rfl⟩, fun _ hi => absurd hi (by simp)⟩
  | idx :: parts, hn, hi, hlay, acc, h => by
    rw [List.flatten_cons] at hn hi
    obtain ⟨hn1, hn2, hdis⟩ := List.nodup_append.mp hn
    obtain ⟨S, R, a, h1, h2, h3, h4, h5⟩ := hlay idx (by simp)
    obtain ⟨acc1, p1, p2, p3, p4⟩ := HvnEnv.pass_total h1 h2 h3 h4 h5 hn1 (fun i hm => hi i (by simp [hm])) h
    obtain ⟨acc2, q1, q2, q3, q4⟩ := HvnEnv.passes_total parts hn2
      (fun i hm => hi i (List.mem_append_right _ hm)) (fun idx hm => hlay idx (by simp [hm])) acc1 p2
    refine ⟨acc2, ?_, q2, ?_, ?_⟩
    · rw [List.foldlM_cons, p1]
      exact q1
    · intro i hni
      rw [List.flatten_cons, List.mem_append, not_or] at hni
      obtain ⟨a1, a2, a3⟩ := q3 i hni.2
      obtain ⟨b1, b2, b3⟩ := p3 i hni.1
      exact ⟨a1.trans b1, a2.trans b2, a3.trans b3⟩
    · intro idx' hm S' R' a' hl j hj
      rcases List.mem_cons.mp hm with rfl | hm
      · rw [h1] at hl
        obtain ⟨rfl, rfl, rfl⟩ : S = S' ∧ R = R' ∧ a = a' := by
          have := Option.some.inj hl
          exact ⟨congrArg Prod.fst this, congrArg (fun x => x.2.1) this, congrArg (fun x => x.2.2) this⟩
        have hni : idx'[j] ∉ parts.flatten := fun hm => hdis _ (List.getElem_mem hj) _ hm rfl
        obtain ⟨a1, a2, a3⟩ := q3 _ hni
        obtain ⟨b1, b2, b3⟩ := p4 j hj
        exact ⟨a1.trans b1, a2.trans b2, a3.trans b3⟩
      · exact q4 idx' hm S' R' a' hl j hj

end Pass

end Verif.Opt
