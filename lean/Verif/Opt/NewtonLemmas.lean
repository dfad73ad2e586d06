import Verif.Opt.Newton
import Mathlib.Algebra.BigOperators.Intervals
import Mathlib.Data.List.Flatten

/-!
# Products of the Newton matrix with packed vectors
-/

namespace Verif.Opt

open Verif.Util

variable {K : Type*} [CommRing K]

/-- The product of a row with a vector. -/
def dotL (a b : List K) : K := (List.zipWith (· * ·) a b).sum

@[simp] theorem dotL_nil (b : List K) : dotL [] b = 0 := by simp [dotL]

@[simp] theorem dotL_nil_right (b : List K) : dotL b [] = 0 := by simp [dotL]

@[simp] theorem dotL_cons (a b : K) (l m : List K) : dotL (a :: l) (b :: m) = a * b + dotL l m := by simp [dotL]

theorem dotL_append (a b c d : List K) (h : a.length = c.length) : dotL (a ++ b) (c ++ d) = dotL a c + dotL b d := by
  unfold dotL
  rw [List.zipWith_append h, List.sum_append]

theorem dotL_zero (k : ℕ) (b : List K) : dotL (List.replicate k 0) b = 0 := by
  induction k generalizing b with
  | zero => simp
  | succ k ih => cases b <;> simp [List.replicate_succ, ih]

theorem dotL_map_zero {A : Type*} (l : List A) (f : A → K) (hf : ∀ a ∈ l, f a = 0) (b : List K) :
    dotL (l.map f) b = 0 := by
  have : l.map f = List.replicate l.length 0 := by
    rw [List.eq_replicate_iff]
    refine ⟨by simp, fun x hx => ?_⟩
    obtain ⟨a, ha, rfl⟩ := List.mem_map.mp hx
    exact hf a ha
  rw [this, dotL_zero]

theorem dotL_neg (a b : List K) : dotL a (b.map (-1 * ·)) = - dotL a b := by
  induction a generalizing b with
  | nil => simp
  | cons x a ih =>
    cases b with
    | nil => simp
    | cons y b => simp only [List.map_cons, dotL_cons, ih]; ring

theorem dotL_add (a b c : List K) (h : a.length = b.length) :
    dotL (List.zipWith (· + ·) a b) c = dotL a c + dotL b c := by
  induction a generalizing b c with
  | nil => cases b <;> simp_all
  | cons x a ih =>
    cases b with
    | nil => simp at h
    | cons y b =>
      cases c with
      | nil => simp
      | cons z c =>
        simp only [List.zipWith_cons_cons, dotL_cons, ih b c (by simpa using h)]; ring

theorem dotL_eq_sum (a b : List K) {n : ℕ} (ha : a.length = n) (hb : b.length = n) :
    dotL a b = ∑ v ∈ Finset.range n, a.getD v 0 * b.getD v 0 := by
  induction a generalizing b n with
  | nil =>
    subst ha
    simp
  | cons x a ih =>
    cases b with
    | nil => subst hb; simp at ha
    | cons y b =>
      subst ha
      rw [List.length_cons, Finset.sum_range_succ', dotL_cons, ih b rfl (by simpa using hb)]
      simp [add_comm]

/-- The product with a list of parts of equal length. -/
theorem dotL_flatten (a : List K) (Ls : List (List K)) {n : ℕ} (hL : ∀ l ∈ Ls, l.length = n)
    (ha : a.length = Ls.length * n) :
    dotL a Ls.flatten = ∑ j ∈ Finset.range Ls.length, ∑ w ∈ Finset.range n,
      a.getD (j * n + w) 0 * (Ls.getD j []).getD w 0 := by
  induction Ls generalizing a with
  | nil =>
    simp
  | cons L Ls ih =>
    have hl : L.length = n := hL L (by simp)
    rw [List.length_cons, Finset.sum_range_succ']
    have e : a = a.take n ++ a.drop n := (List.take_append_drop n a).symm
    have h1 : (a.take n).length = L.length := by
      rw [List.length_take, ha, hl, List.length_cons, add_mul]; omega
    conv_lhs => rw [e, List.flatten_cons, dotL_append _ _ _ _ h1]
    rw [ih (a.drop n) (fun l hl => hL l (by simp [hl])) (by
      rw [List.length_drop, ha, List.length_cons, add_mul]; omega),
      dotL_eq_sum _ _ (h1.trans hl) hl, add_comm]
    congr 1
    · refine Finset.sum_congr rfl fun j _ => Finset.sum_congr rfl fun w _ => ?_
      congr 1
      simp only [List.getD_eq_getElem?_getD, List.getElem?_drop]
      congr 2
      ring
    · refine Finset.sum_congr rfl fun w hw => ?_
      have hw' := Finset.mem_range.mp hw
      congr 1
      simp only [List.getD_eq_getElem?_getD, List.getElem?_take_of_lt hw', zero_mul, zero_add]

theorem blockDiagFrom_length_rows {n b : ℕ} {Bs : List (List (List K))} (h : ∀ B ∈ Bs, ∀ r ∈ B, r.length = n) :
    ∀ r ∈ blockDiagFrom n b Bs, r.length = (b + Bs.length) * n := by
  induction Bs generalizing b with
  | nil => simp [blockDiagFrom]
  | cons B Bs ih =>
    intro r hr
    rw [blockDiagFrom, List.mem_append] at hr
    rcases hr with hr | hr
    · obtain ⟨s, hs, rfl⟩ := List.mem_map.mp hr
      simp only [List.length_append, List.length_replicate, List.length_cons, h B (by simp) s hs]
      ring
    · rw [ih (fun B hB => h B (by simp [hB])) r hr, List.length_cons]
      ring

/-- Rows of a block-diagonal matrix times a vector given by its parts. -/
theorem blockDiagFrom_mul {n b : ℕ} {Bs : List (List (List K))} (pre : List K) (hpre : pre.length = b * n)
    (Ls : List (List K)) (h : ∀ B ∈ Bs, ∀ r ∈ B, r.length = n) (hl : Ls.length = Bs.length)
    (hL : ∀ l ∈ Ls, l.length = n) :
    (blockDiagFrom n b Bs).map (dotL · (pre ++ Ls.flatten)) =
      (List.zipWith (fun B L => B.map (dotL · L)) Bs Ls).flatten := by
  induction Bs generalizing b pre Ls with
  | nil => simp [blockDiagFrom]
  | cons B Bs ih =>
    cases Ls with
    | nil => simp at hl
    | cons L Ls =>
      have hL0 : L.length = n := hL L (by simp)
      rw [blockDiagFrom, List.map_append, List.map_map, List.zipWith_cons_cons, List.flatten_cons]
      congr 1
      · refine List.map_congr_left fun r hr => ?_
        simp only [Function.comp_apply, List.flatten_cons]
        rw [List.append_assoc, dotL_append _ _ _ _ (by rw [List.length_replicate, hpre]), dotL_zero, zero_add,
          dotL_append _ _ _ _ ((h B (by simp) r hr).trans hL0.symm), dotL_zero, add_zero]
      · have := ih (b := b + 1) (pre ++ L) (by rw [List.length_append, hpre, hL0]; ring) Ls
          (fun B hB => h B (by simp [hB])) (by simpa using hl) (fun l hl => hL l (by simp [hl]))
        rw [← this]
        simp only [List.flatten_cons, List.append_assoc]

/-- Columns of a block-diagonal matrix times a vector given by its parts. -/
theorem blockDiagFrom_column {n b : ℕ} {Bs : List (List (List K))} (h : ∀ B ∈ Bs, ∀ r ∈ B, r.length = n)
    (Zs : List (List K)) (hZ : Bs.map List.length = Zs.map List.length) :
    (∀ c < b * n, dotL (column (blockDiagFrom n b Bs) c) Zs.flatten = 0) ∧
      ∀ i < Bs.length, ∀ v < n, dotL (column (blockDiagFrom n b Bs) ((b + i) * n + v)) Zs.flatten =
        dotL (column (Bs.getD i []) v) (Zs.getD i []) := by
  induction Bs generalizing b Zs with
  | nil => simp [blockDiagFrom, column]
  | cons B Bs ih =>
    cases Zs with
    | nil => simp at hZ
    | cons Z Zs =>
      simp only [List.map_cons, List.cons.injEq] at hZ
      obtain ⟨ih1, ih2⟩ := ih (b := b + 1) (fun B hB => h B (by simp [hB])) Zs hZ.2
      have hsplit : ∀ c, dotL (column (blockDiagFrom n b (B :: Bs)) c) (Z :: Zs).flatten =
          dotL (B.map fun r => (List.replicate (b * n) (0 : K) ++ r ++ List.replicate (Bs.length * n) 0).getD c 0) Z +
            dotL (column (blockDiagFrom n (b + 1) Bs) c) Zs.flatten := by
        intro c
        unfold column
        rw [blockDiagFrom, List.map_append, List.map_map, List.flatten_cons,
          dotL_append _ _ _ _ (by simpa using hZ.1)]
        rfl
      refine ⟨fun c hc => ?_, fun i hi v hv => ?_⟩
      · rw [hsplit, ih1 c (by rw [add_mul]; omega), add_zero]
        refine dotL_map_zero _ _ (fun r hr => ?_) _
        rw [List.append_assoc, List.getD_append _ _ _ _ (by simpa using hc)]
        simp
      · rw [hsplit]
        cases i with
        | zero =>
          rw [ih1 _ (by rw [Nat.add_zero, add_mul]; omega), add_zero]
          simp only [List.getD_cons_zero]
          congr 1
          refine List.map_congr_left fun r hr => ?_
          have hr' := h B (by simp) r hr
          rw [List.append_assoc, List.getD_append_right _ _ _ _ (by simp), List.length_replicate, Nat.add_zero,
            Nat.add_sub_cancel_left, List.getD_append _ _ _ _ (by omega)]
        | succ i =>
          have e : (b + (i + 1)) * n + v = (b + 1 + i) * n + v := by ring
          rw [e, ih2 i (by simpa using hi) v hv, List.getD_cons_succ, List.getD_cons_succ]
          have : dotL (B.map fun r => (List.replicate (b * n) (0 : K) ++ r ++
              List.replicate (Bs.length * n) 0).getD ((b + 1 + i) * n + v) 0) Z = 0 := by
            refine dotL_map_zero _ _ (fun r hr => ?_) _
            have hr' := h B (by simp) r hr
            have : b * n + n ≤ (b + 1 + i) * n + v := by nlinarith [Nat.zero_le (i * n)]
            rw [List.getD_append_right _ _ _ _ (by simp only [List.length_append, List.length_replicate]; omega)]
            simp
          rw [this, zero_add]

/-- The product of the bordered matrix. -/
theorem bordered_mul {c : ℕ} {A H : List (List K)} {z1 z2 : List K} (hA : ∀ r ∈ A, r.length = z1.length)
    (hH : ∀ r ∈ H, r.length = z1.length) (hz : z2.length = H.length) :
    (bordered c A H).map (dotL · (z1 ++ z2)) =
      List.zipWith (fun r j => dotL r z1 + dotL (column H j) z2) A (List.range c) ++ H.map (dotL · z1) := by
  unfold bordered
  rw [List.map_append, List.map_map]
  congr 1
  · rw [List.zipWith_map_right, List.map_zipWith]
    apply List.ext_getElem (by simp)
    intro i h1 h2
    rw [List.getElem_zipWith, List.getElem_zipWith]
    rw [dotL_append _ _ _ _ (hA _ (List.getElem_mem _))]
  · refine List.map_congr_left fun r hr => ?_
    simp only [Function.comp_apply]
    rw [dotL_append _ _ _ _ (hH r hr), ← hz, dotL_zero, add_zero]

/-! ### Selected entries -/

/-- The product of two selections. -/
theorem dotL_select {A B : Type*} (m : List Bool) (a : List A) (b : List B) (f : A → K) (g : B → K) (da : A) (db : B)
    (ha : a.length = m.length) (hb : b.length = m.length) :
    dotL ((select m a).map f) ((select m b).map g) = ∑ k ∈ Finset.range m.length,
      if m.getD k false = true then f (a.getD k da) * g (b.getD k db) else 0 := by
  induction m generalizing a b with
  | nil => simp [select]
  | cons x m ih =>
    cases a with
    | nil => simp at ha
    | cons a0 a =>
      cases b with
      | nil => simp at hb
      | cons b0 b =>
        rw [List.length_cons, Finset.sum_range_succ']
        simp only [List.getD_cons_succ, List.getD_cons_zero]
        rw [← ih a b (by simpa using ha) (by simpa using hb)]
        cases x with
        | false => simp [select]
        | true => simp [select, add_comm]

theorem sum_zip_eq_dotL {A B : Type*} (a : List A) (b : List B) (f : A → K) (g : B → K) :
    ((a.zip b).map fun p => f p.1 * g p.2).sum = dotL (a.map f) (b.map g) := by
  induction a generalizing b with
  | nil => simp
  | cons x a ih =>
    cases b with
    | nil => simp
    | cons y b => simp [ih]

theorem select_eq_iff {A : Type*} (m : List Bool) (a b : List A) (da : A) (ha : a.length = m.length)
    (hb : b.length = m.length) :
    select m a = select m b ↔ ∀ k < m.length, m.getD k false = true → a.getD k da = b.getD k da := by
  induction m generalizing a b with
  | nil => simp [select]
  | cons x m ih =>
    cases a with
    | nil => simp at ha
    | cons a0 a =>
      cases b with
      | nil => simp at hb
      | cons b0 b =>
        have ih' := ih a b (by simpa using ha) (by simpa using hb)
        have e : (∀ k < (x :: m).length, (x :: m).getD k false = true → (a0 :: a).getD k da = (b0 :: b).getD k da) ↔
            (x = true → a0 = b0) ∧ ∀ k < m.length, m.getD k false = true → a.getD k da = b.getD k da := by
          constructor
          · intro h
            refine ⟨fun hx => by simpa using h 0 (by simp) (by simpa using hx), fun k hk h' => ?_⟩
            simpa using h (k + 1) (by simpa using hk) (by simpa using h')
          · rintro ⟨h1, h2⟩ k hk h'
            cases k with
            | zero => simpa using h1 (by simpa using h')
            | succ k => simpa using h2 k (by simpa using hk) (by simpa using h')
        rw [e, ← ih']
        cases x with
        | false => simp [select]
        | true => simp [select]

theorem select_map {A B : Type*} (m : List Bool) (a : List A) (f : A → B) : select m (a.map f) = (select m a).map f := by
  induction m generalizing a with
  | nil => simp [select]
  | cons x m ih =>
    cases a with
    | nil => simp [select]
    | cons a0 a =>
      have := ih a
      unfold select at this ⊢
      cases x <;> simp [this]

/-! ### The Newton matrix -/

theorem flatten_getD_uniform {A : Type*} (Ls : List (List A)) {n : ℕ} (h : ∀ l ∈ Ls, l.length = n) (i v : ℕ)
    (hi : i < Ls.length) (hv : v < n) (d : A) : Ls.flatten.getD (i * n + v) d = (Ls.getD i []).getD v d := by
  induction Ls generalizing i with
  | nil => simp at hi
  | cons L Ls ih =>
    have hL : L.length = n := h L (by simp)
    cases i with
    | zero =>
      rw [List.flatten_cons, List.getD_append _ _ _ _ (by omega)]
      simp
    | succ i =>
      rw [List.flatten_cons, List.getD_append_right _ _ _ _ (by rw [hL, add_mul]; omega), hL, List.getD_cons_succ,
        ← ih (fun l hl => h l (by simp [hl])) i (by simpa using hi)]
      congr 1
      rw [add_mul]; omega

theorem flatten_length_uniform {A : Type*} (Ls : List (List A)) {n : ℕ} (h : ∀ l ∈ Ls, l.length = n) :
    Ls.flatten.length = Ls.length * n := sum_map_const Ls h

theorem ext_getD_uniform {A : Type*} (d : A) {N n : ℕ} {a b : List A} (ha : a.length = N * n) (hb : b.length = N * n)
    (h : ∀ i < N, ∀ v < n, a.getD (i * n + v) d = b.getD (i * n + v) d) : a = b := by
  refine List.ext_getElem (ha.trans hb.symm) fun q h1 h2 => ?_
  have hn : 0 < n := by
    rcases Nat.eq_zero_or_pos n with rfl | hn
    · rw [ha] at h1; simp at h1
    · exact hn
  have := h (q / n) (Nat.div_lt_of_lt_mul (by rw [mul_comm, ← ha]; exact h1)) (q % n) (Nat.mod_lt _ hn)
  rw [mul_comm, Nat.div_add_mod] at this
  rwa [List.getD_eq_getElem _ _ h1, List.getD_eq_getElem _ _ h2] at this

/-- The arrays of a point with `n` variables and `p` constraints. -/
structure NewtonPoint.Shape (n p : ℕ) (d : NewtonPoint K) : Prop where
  base : d.toPointData.Shape n p
  rows : ∀ r ∈ d.dH, r.length = n
  ddH : d.ddH.length = p

theorem select_subset {A : Type*} (m : List Bool) (l : List A) : ∀ a ∈ select m l, a ∈ l := by
  intro a ha
  unfold select at ha
  obtain ⟨⟨b, c⟩, hbc, rfl⟩ := List.mem_map.mp ha
  exact (List.of_mem_zip (List.mem_filter.mp hbc).1).2

theorem activeHess_length (n : ℕ) (d : NewtonPoint K) : (activeHess n d).length = n := by
  simp [activeHess, lagrangeHess]

theorem activeHess_row (n : ℕ) (d : NewtonPoint K) : ∀ r ∈ activeHess n d, r.length = n := by
  intro r hr
  unfold activeHess lagrangeHess at hr
  obtain ⟨v, -, rfl⟩ := List.mem_map.mp hr
  simp

theorem activeHess_getD {n p : ℕ} {d : NewtonPoint K} (h : d.Shape n p) {v w : ℕ} (hv : v < n) (hw : w < n) :
    ((activeHess n d).getD v []).getD w 0 = ∑ k ∈ Finset.range p,
      if d.act.getD k false = true then d.dual.getD k 0 * ((d.ddH.getD k []).getD v []).getD w 0 else 0 := by
  have e : ((activeHess n d).getD v []).getD w 0 = (((select d.act d.dual).zip (select d.act d.ddH)).map
      fun p => p.1 * (p.2.getD v []).getD w 0).sum := by
    have e0 : (activeHess n d).getD v [] = (List.range n).map fun w =>
        (((select d.act d.dual).zip (select d.act d.ddH)).map fun p => p.1 * (p.2.getD v []).getD w 0).sum := by
      unfold activeHess lagrangeHess
      rw [List.getD_eq_getElem _ _ (by rw [List.length_map, List.length_range]; exact hv), List.getElem_map,
        List.getElem_range]
    rw [e0, List.getD_eq_getElem _ _ (by rw [List.length_map, List.length_range]; exact hw), List.getElem_map,
      List.getElem_range]
  have e2 := sum_zip_eq_dotL (select d.act d.dual) (select d.act d.ddH) (fun a : K => a)
    (fun B => (B.getD v []).getD w 0)
  rw [e, e2, dotL_select _ _ _ _ _ 0 [] (h.base.dual.trans h.base.act.symm) (h.ddH.trans h.base.act.symm),
    h.base.act]

/-- The first part of the product of the Newton matrix with a packed matrix. -/
def primalPart (curvature : Bool) (n : ℕ) (Hess : List (List K)) (d : NewtonPoint K) (z : List K) (r : List K)
    (i v : ℕ) : K :=
  dotL (Hess.getD (i * n + v) []) z + (if curvature then dotL ((activeHess n d).getD v []) (r.take n) else 0) +
    dotL (column (select d.act d.dH) v) (select d.act (r.drop n))

theorem newtonMatrix_mul (curvature : Bool) {n p : ℕ} {Hess : List (List K)} {ds : List (NewtonPoint K)}
    (h : ∀ d ∈ ds, d.Shape n p) (hH : Hess.length = ds.length * n) (hHr : ∀ r ∈ Hess, r.length = ds.length * n)
    {S : List (List K)} (hS : S.length = ds.length) (hSr : ∀ r ∈ S, r.length = n + p) {z : List K}
    (hz : z = (S.map (List.take n)).flatten) :
    (newtonMatrix curvature n Hess ds).map (dotL · (z ++
        (List.zipWith (fun r m => select m (r.drop n)) S (ds.map fun d => d.act)).flatten)) =
      (List.zipWith (fun d (ri : List K × ℕ) => (List.range n).map fun v =>
        primalPart curvature n Hess d z ri.1 ri.2 v) ds (S.zip (List.range ds.length))).flatten ++
      (List.zipWith (fun d r => (select d.act d.dH).map (dotL · (r.take n))) ds S).flatten := by
  have htk : ∀ r ∈ S.map (List.take n), r.length = n := by
    intro r hr
    obtain ⟨s, hs, rfl⟩ := List.mem_map.mp hr
    rw [List.length_take, hSr s hs]; omega
  have hzl : z.length = ds.length * n := by rw [hz, sum_map_const _ htk, List.length_map, hS]
  have hrows : ∀ B ∈ ds.map (fun d => select d.act d.dH), ∀ r ∈ B, r.length = n := by
    intro B hB r hr
    obtain ⟨d, hd, rfl⟩ := List.mem_map.mp hB
    exact (h d hd).rows r (select_subset _ _ _ hr)
  have hlens : (ds.map fun d => select d.act d.dH).map List.length =
      (List.zipWith (fun r m => select m (r.drop n)) S (ds.map fun d => d.act)).map List.length := by
    apply List.ext_getElem (by simp [hS])
    intro i h1 h2
    simp only [List.length_map] at h1
    have hd := h _ (List.getElem_mem h1)
    simp only [List.getElem_map, List.getElem_zipWith]
    rw [select_length _ _ (hd.base.dH.trans hd.base.act.symm), select_length]
    rw [List.length_drop, hSr _ (List.getElem_mem _), hd.base.act]
    omega
  have hHl : (blockDiag n (ds.map fun d => select d.act d.dH)).length =
      (List.zipWith (fun r m => select m (r.drop n)) S (ds.map fun d => d.act)).flatten.length := by
    have : ∀ (b : ℕ) (Bs : List (List (List K))), (blockDiagFrom n b Bs).length = (Bs.map List.length).sum := by
      intro b Bs
      induction Bs generalizing b with
      | nil => simp [blockDiagFrom]
      | cons B Bs ih => rw [blockDiagFrom, List.length_append, ih]; simp
    rw [blockDiag, this, hlens, List.length_flatten]
  have hHrow : ∀ r ∈ blockDiag n (ds.map fun d => select d.act d.dH), r.length = z.length := by
    intro r hr
    rw [blockDiagFrom_length_rows hrows r hr, hzl]
    simp
  have hM : ∀ B ∈ ds.map (activeHess n), ∀ r ∈ B, r.length = n := by
    intro B hB r hr
    obtain ⟨d, hd, rfl⟩ := List.mem_map.mp hB
    exact activeHess_row n d r hr
  have hMl : (blockDiag n (ds.map (activeHess n))).map (dotL · z) =
      (List.zipWith (fun B L => B.map (dotL · L)) (ds.map (activeHess n)) (S.map (List.take n))).flatten := by
    have := blockDiagFrom_mul (b := 0) (Bs := ds.map (activeHess n)) [] (by simp) (S.map (List.take n)) hM
      (by simp [hS]) htk
    rw [← hz] at this
    exact this
  have hMu : ∀ l ∈ List.zipWith (fun B L => B.map (dotL · L)) (ds.map (activeHess n)) (S.map (List.take n)),
      l.length = n := by
    intro l hl
    obtain ⟨i, hi, rfl⟩ := List.mem_iff_getElem.mp hl
    rw [List.getElem_zipWith, List.length_map, List.getElem_map, activeHess_length]
  have hMlen : (blockDiag n (ds.map (activeHess n))).length = ds.length * n := by
    have := congrArg List.length hMl
    rw [List.length_map, flatten_length_uniform _ hMu] at this
    rw [this]
    simp [hS]
  have hMrow : ∀ r ∈ blockDiag n (ds.map (activeHess n)), r.length = ds.length * n := by
    intro r hr
    rw [blockDiagFrom_length_rows hM r hr]
    simp
  unfold newtonMatrix
  rw [bordered_mul (by
    intro r hr
    split at hr
    · unfold addRows at hr
      obtain ⟨i, hi, rfl⟩ := List.mem_iff_getElem.mp hr
      rw [List.getElem_zipWith, List.length_zipWith, hHr _ (List.getElem_mem _), hMrow _ (List.getElem_mem _), hzl]
      simp
    · rw [hHr r hr, hzl]) hHrow hHl.symm]
  have hAlen : (if curvature then addRows Hess (blockDiag n (ds.map (activeHess n))) else Hess).length =
      ds.length * n := by
    split
    · simp [addRows, hH, hMlen]
    · exact hH
  congr 1
  · have hu : ∀ l ∈ List.zipWith (fun d (ri : List K × ℕ) => (List.range n).map fun v =>
        primalPart curvature n Hess d z ri.1 ri.2 v) ds (S.zip (List.range ds.length)), l.length = n := by
      intro l hl
      obtain ⟨i, hi, rfl⟩ := List.mem_iff_getElem.mp hl
      rw [List.getElem_zipWith]
      simp
    refine ext_getD_uniform (0 : K) (N := ds.length) (n := n) (by simp [hAlen])
      (by rw [flatten_length_uniform _ hu]; simp [hS]) fun i hi v hv => ?_
    have hq : i * n + v < ds.length * n := by
      have : (i + 1) * n ≤ ds.length * n := Nat.mul_le_mul_right n hi
      rw [add_mul] at this; omega
    rw [flatten_getD_uniform _ hu i v (by simp [hS, hi]) hv,
      List.getD_eq_getElem _ _ (by simp [hAlen, hq]), List.getElem_zipWith, List.getElem_range,
      List.getD_eq_getElem (List.zipWith _ _ _) _ (by simp [hS, hi]), List.getElem_zipWith, List.getElem_zip,
      List.getElem_range, List.getD_eq_getElem _ _ (by simpa using hv), List.getElem_map, List.getElem_range]
    have hcol := (blockDiagFrom_column (n := n) (b := 0) hrows _ hlens).2 i (by simpa using hi) v hv
    rw [Nat.zero_add] at hcol
    unfold primalPart
    rw [blockDiag.eq_def n (ds.map fun d => select d.act d.dH), hcol, List.getD_eq_getElem _ _ (by simpa using hi), List.getElem_map,
      List.getD_eq_getElem (List.zipWith _ _ _) _ (by simp [hS, hi]), List.getElem_zipWith, List.getElem_map]
    congr 1
    rw [List.getD_eq_getElem _ _ (by rw [hH]; exact hq)]
    cases curvature with
    | false => simp
    | true =>
      simp only [if_true]
      have hd := h _ (List.getElem_mem hi)
      have e1 : dotL ((blockDiag n (ds.map (activeHess n)))[i * n + v]'(by rw [hMlen]; exact hq)) z =
          dotL ((activeHess n ds[i]).getD v []) ((S[i]'(by omega)).take n) := by
        have := congrArg (fun l => l.getD (i * n + v) 0) hMl
        rw [flatten_getD_uniform _ hMu i v (by simp [hS, hi]) hv,
          List.getD_eq_getElem _ _ (by rw [List.length_map, hMlen]; exact hq), List.getElem_map,
          List.getD_eq_getElem (List.zipWith _ _ _) _ (by simp [hS, hi]), List.getElem_zipWith, List.getElem_map,
          List.getElem_map, List.getD_eq_getElem _ _ (by simp [activeHess_length, hv]), List.getElem_map] at this
        rw [this, List.getD_eq_getElem _ _ (by simp [activeHess_length, hv])]
      have e2 : (addRows Hess (blockDiag n (ds.map (activeHess n))))[i * n + v]'(by
          simp [addRows, hH, hMlen, hq]) =
          List.zipWith (· + ·) (Hess[i * n + v]'(by rw [hH]; exact hq))
            ((blockDiag n (ds.map (activeHess n)))[i * n + v]'(by rw [hMlen]; exact hq)) := by
        simp [addRows]
      rw [e2, dotL_add _ _ _ (by rw [hHr _ (List.getElem_mem _), hMrow _ (List.getElem_mem _)]), e1]
  · have := blockDiagFrom_mul (b := 0) (Bs := ds.map fun d => select d.act d.dH) [] (by simp) (S.map (List.take n))
      hrows (by simp [hS]) htk
    rw [← hz] at this
    unfold blockDiag
    simp only [List.nil_append] at this
    rw [this, List.zipWith_map]

theorem select_zeroOut (m : List Bool) (r : List K) (h : r.length = m.length) : select m (zeroOut m r) = select m r := by
  have hl : (zeroOut m r).length = m.length := by simp [zeroOut, h]
  rw [select_eq_iff m _ _ 0 hl h]
  intro k hk hm
  rw [List.getD_eq_getElem _ _ (by omega)] at hm
  rw [List.getD_eq_getElem _ _ (by omega), List.getD_eq_getElem _ _ (by omega)]
  unfold zeroOut
  rw [List.getElem_zipWith, if_pos hm]

theorem hvnR_eq {n p : ℕ} {ds : List (NewtonPoint K)} (h : ∀ d ∈ ds, d.Shape n p) :
    hvnR true (ds.map NewtonPoint.toPointData) =
      some (ds.map fun d => activeLagrange d.toPointData ++ zeroOut d.act d.cstr) ∧
    mmdR true (ds.map NewtonPoint.toPointData) =
      some (ds.map fun d => activeLagrange d.toPointData ++ zeroOut d.act d.cstr) := by
  have hr : ∀ d ∈ ds, scatter d.act (select d.act d.cstr) = some (zeroOut d.act d.cstr) := fun d hd =>
    Util.scatter_select _ _ ((h d hd).base.cstr.trans (h d hd).base.act.symm)
  constructor
  · unfold hvnR
    simp only [if_true]
    induction ds with
    | nil => rfl
    | cons d ds ih =>
      rw [List.map_cons, List.mapM_cons, ih (fun d hd => h d (by simp [hd])) (fun d hd => hr d (by simp [hd])), hvnRow,
        hr d (by simp)]
      rfl
  · unfold mmdR
    simp only [if_true]
    induction ds with
    | nil => rfl
    | cons d ds ih =>
      rw [List.map_cons, List.mapM_cons, ih (fun d hd => h d (by simp [hd])) (fun d hd => hr d (by simp [hd])),
        ← activeLagrange_length, scatter_prefix, hr d (by simp)]
      rfl

theorem pack_R {n p : ℕ} {ds : List (NewtonPoint K)} (h : ∀ d ∈ ds, d.Shape n p) :
    pack (ds.map fun d => activeLagrange d.toPointData ++ zeroOut d.act d.cstr) n (ds.map fun d => d.act) =
      some ((ds.map fun d => activeLagrange d.toPointData).flatten ++
        (ds.map fun d => select d.act d.cstr).flatten) := by
  have hl : ∀ d ∈ ds, (activeLagrange d.toPointData).length = n := fun d hd =>
    (activeLagrange_length _).trans (h d hd).base.grad
  unfold pack
  rw [if_pos]
  · congr 2
    · rw [List.map_map]
      congr 1
      refine List.map_congr_left fun d hd => ?_
      simp only [Function.comp_apply]
      rw [← hl d hd, List.take_left]
    · rw [List.zipWith_map, List.zipWith_self]
      congr 1
      refine List.map_congr_left fun d hd => ?_
      rw [← hl d hd, List.drop_left, select_zeroOut _ _ ((h d hd).base.cstr.trans (h d hd).base.act.symm)]
  · rw [List.map_map, List.map_map]
    refine List.map_congr_left fun d hd => ?_
    simp only [Function.comp_apply]
    rw [← hl d hd, List.drop_left]
    simp [zeroOut, (h d hd).base.act, (h d hd).base.cstr]

/-- The packed Newton system, point by point. -/
theorem newton_system_iff (curvature : Bool) {n p : ℕ} {Hess : List (List K)} {ds : List (NewtonPoint K)}
    (h : ∀ d ∈ ds, d.Shape n p) (hH : Hess.length = ds.length * n) (hHr : ∀ r ∈ Hess, r.length = ds.length * n)
    {S : List (List K)} (hS : S.length = ds.length) (hSr : ∀ r ∈ S, r.length = n + p) :
    (newtonMatrix curvature n Hess ds).map (dotL · ((S.map (List.take n)).flatten ++
        (List.zipWith (fun r m => select m (r.drop n)) S (ds.map fun d => d.act)).flatten)) =
      ((ds.map fun d => activeLagrange d.toPointData).flatten ++
        (ds.map fun d => select d.act d.cstr).flatten).map (-1 * ·) ↔
    ∀ i (hi : i < ds.length), (∀ v < n, primalPart curvature n Hess ds[i] (S.map (List.take n)).flatten
        (S.getD i []) i v = -(activeLagrange ds[i].toPointData).getD v 0) ∧
      ∀ k < p, ds[i].act.getD k false = true → dotL (ds[i].dH.getD k []) ((S.getD i []).take n) = -ds[i].cstr.getD k 0 := by
  rw [newtonMatrix_mul curvature h hH hHr hS hSr rfl, List.map_append]
  have hl : ∀ d ∈ ds, (activeLagrange d.toPointData).length = n := fun d hd =>
    (activeLagrange_length _).trans (h d hd).base.grad
  have hu1 : ∀ l ∈ ds.map fun d => activeLagrange d.toPointData, l.length = n := by
    intro l hl'
    obtain ⟨d, hd, rfl⟩ := List.mem_map.mp hl'
    exact hl d hd
  have hu : ∀ l ∈ List.zipWith (fun d (ri : List K × ℕ) => (List.range n).map fun v =>
      primalPart curvature n Hess d (S.map (List.take n)).flatten ri.1 ri.2 v) ds (S.zip (List.range ds.length)),
      l.length = n := by
    intro l hl
    obtain ⟨i, hi, rfl⟩ := List.mem_iff_getElem.mp hl
    rw [List.getElem_zipWith]
    simp
  have hlen1 := flatten_length_uniform _ hu
  have hlen2 := flatten_length_uniform _ hu1
  have hSg : ∀ i (hi : i < ds.length), S.getD i [] = S[i]'(by omega) := fun i hi => List.getD_eq_getElem _ _ _
  have key1 : ((List.zipWith (fun d (ri : List K × ℕ) => (List.range n).map fun v =>
      primalPart curvature n Hess d (S.map (List.take n)).flatten ri.1 ri.2 v) ds (S.zip (List.range ds.length))).flatten =
      (ds.map fun d => activeLagrange d.toPointData).flatten.map (-1 * ·)) ↔
      ∀ i (hi : i < ds.length), ∀ v < n, primalPart curvature n Hess ds[i] (S.map (List.take n)).flatten
        (S.getD i []) i v = -(activeLagrange ds[i].toPointData).getD v 0 := by
    have e1 : ∀ i (hi : i < ds.length), ∀ v < n, ((List.zipWith (fun d (ri : List K × ℕ) => (List.range n).map fun v =>
        primalPart curvature n Hess d (S.map (List.take n)).flatten ri.1 ri.2 v) ds
        (S.zip (List.range ds.length))).flatten).getD (i * n + v) 0 =
        primalPart curvature n Hess ds[i] (S.map (List.take n)).flatten (S.getD i []) i v := by
      intro i hi v hv
      rw [flatten_getD_uniform _ hu i v (by simp [hS, hi]) hv,
        List.getD_eq_getElem (List.zipWith _ _ _) _ (by simp [hS, hi]), List.getElem_zipWith, List.getElem_zip,
        List.getElem_range, List.getD_eq_getElem _ _ (by simpa using hv), List.getElem_map, List.getElem_range, hSg i hi]
    have e2 : ∀ i (hi : i < ds.length), ∀ v < n, (((ds.map fun d => activeLagrange d.toPointData).flatten.map
        (-1 * ·)).getD (i * n + v) 0 : K) = -(activeLagrange ds[i].toPointData).getD v 0 := by
      intro i hi v hv
      have hq : i * n + v < ds.length * n := by
        have : (i + 1) * n ≤ ds.length * n := Nat.mul_le_mul_right n hi
        rw [add_mul] at this; omega
      have := flatten_getD_uniform _ hu1 i v (by simpa using hi) hv (0 : K)
      rw [List.getD_eq_getElem (ds.map _) _ (by simpa using hi), List.getElem_map] at this
      rw [← this, List.getD_eq_getElem _ _ (by rw [List.length_map, hlen2]; simpa using hq), List.getElem_map,
        List.getD_eq_getElem _ _ (by rw [hlen2]; simpa using hq)]
      ring
    constructor
    · intro he i hi v hv
      rw [← e1 i hi v hv, he, e2 i hi v hv]
    · intro he
      refine ext_getD_uniform (0 : K) (N := ds.length) (n := n) (by rw [hlen1]; simp [hS])
        (by rw [List.length_map, hlen2, List.length_map]) fun i hi v hv => ?_
      rw [e1 i hi v hv, he i hi v hv, e2 i hi v hv]
  have key2 : ((List.zipWith (fun d r => (select d.act d.dH).map (dotL · (r.take n))) ds S).flatten =
      (ds.map fun d => select d.act d.cstr).flatten.map (-1 * ·)) ↔
      ∀ i (hi : i < ds.length), ∀ k < p, ds[i].act.getD k false = true →
        dotL (ds[i].dH.getD k []) ((S.getD i []).take n) = -ds[i].cstr.getD k 0 := by
    have e0 : (ds.map fun d => select d.act d.cstr).flatten.map (-1 * ·) =
        (ds.map fun d => select d.act (d.cstr.map (-1 * ·))).flatten := by
      rw [List.map_flatten, List.map_map]
      congr 1
      refine List.map_congr_left fun d hd => ?_
      simp only [Function.comp_apply]
      rw [select_map]
    have e1 : ∀ i (hi : i < ds.length), (select ds[i].act (ds[i].dH.map (dotL · ((S.getD i []).take n))) =
        select ds[i].act (ds[i].cstr.map (-1 * ·)) ↔ ∀ k < p, ds[i].act.getD k false = true →
          dotL (ds[i].dH.getD k []) ((S.getD i []).take n) = -ds[i].cstr.getD k 0) := by
      intro i hi
      have hd := (h _ (List.getElem_mem hi)).base
      rw [select_eq_iff _ _ _ (0 : K) (by rw [List.length_map, hd.dH, hd.act])
        (by rw [List.length_map, hd.cstr, hd.act]), hd.act]
      refine forall₂_congr fun k hk => imp_congr_right fun _ => ?_
      rw [List.getD_eq_getElem (List.map _ _) (0 : K) (by rw [List.length_map, hd.dH]; exact hk), List.getElem_map,
        List.getD_eq_getElem (List.map _ _) (0 : K) (by rw [List.length_map, hd.cstr]; exact hk), List.getElem_map,
        List.getD_eq_getElem ds[i].dH _ (by rw [hd.dH]; exact hk),
        List.getD_eq_getElem ds[i].cstr _ (by rw [hd.cstr]; exact hk)]
      rw [neg_one_mul]
    have hml : (List.zipWith (fun d r => (select d.act d.dH).map (dotL · (r.take n))) ds S).map List.length =
        (ds.map fun d => select d.act (d.cstr.map (-1 * ·))).map List.length := by
      apply List.ext_getElem (by simp [hS])
      intro i h1 h2
      have hi : i < ds.length := by simpa using h2
      have hd := (h _ (List.getElem_mem hi)).base
      simp only [List.getElem_map, List.getElem_zipWith, List.length_map]
      rw [select_length _ _ (hd.dH.trans hd.act.symm), select_length _ _ (by rw [List.length_map, hd.cstr, hd.act])]
    have e3 : ((List.zipWith (fun d r => (select d.act d.dH).map (dotL · (r.take n))) ds S).flatten =
        (ds.map fun d => select d.act (d.cstr.map (-1 * ·))).flatten) ↔
        List.zipWith (fun d r => (select d.act d.dH).map (dotL · (r.take n))) ds S =
        ds.map fun d => select d.act (d.cstr.map (-1 * ·)) :=
      ⟨fun he => List.eq_iff_flatten_eq.mpr ⟨he, hml⟩, fun he => by rw [he]⟩
    rw [e0, e3]
    constructor
    · intro he i hi
      rw [← e1 i hi]
      have := congrArg (fun l => l.getD i []) he
      rw [List.getD_eq_getElem (List.zipWith _ _ _) _ (by simp [hS, hi]), List.getElem_zipWith,
        List.getD_eq_getElem (ds.map _) _ (by simpa using hi), List.getElem_map] at this
      rw [select_map, hSg i hi]
      exact this
    · intro he
      apply List.ext_getElem (by simp [hS])
      intro i h1 h2
      have hi : i < ds.length := by simpa using h2
      have := (e1 i hi).mpr (he i hi)
      rw [select_map, hSg i hi] at this
      rw [List.getElem_zipWith, List.getElem_map]
      exact this
  constructor
  · intro he
    obtain ⟨a, b⟩ := List.append_inj he (by rw [hlen1, List.length_map, hlen2]; simp [hS])
    exact fun i hi => ⟨key1.mp a i hi, key2.mp b i hi⟩
  · intro he
    rw [key1.mpr fun i hi => (he i hi).1, key2.mpr fun i hi => (he i hi).2]

end Verif.Opt
