import Verif.HV.Total
import Verif.HV.Correct
import Verif.HV.SpecLemmas
import Mathlib.Data.List.GetD

/-!
# The hypervolume code with rounding

The model of `hvd/hypervolume.py` on numbers whose operations round. A number is a real, and a sum, a difference and a
product are rounded by a function `fl` whose relative error is at most `u` (for doubles `u = 2^-53`). Negation,
comparison and literals are exact. Overflow, underflow of products and NaN are not modelled.
-/

namespace Verif.HV

/-- The numbers. -/
structure Rnd (fl : ℝ → ℝ) where
  val : ℝ

/-- The contract of rounding: the relative error of an operation is at most `u`. -/
structure Rounding (u : ℝ) (fl : ℝ → ℝ) : Prop where
  nonneg : 0 ≤ u
  lt_one : u < 1
  err : ∀ x, |fl x - x| ≤ u * |x|

namespace Rnd

variable {fl : ℝ → ℝ}

theorem val_injective : Function.Injective (val : Rnd fl → ℝ) := fun a b h => by cases a; cases b; cases h; rfl

instance : Zero (Rnd fl) := ⟨⟨0⟩⟩
instance : One (Rnd fl) := ⟨⟨1⟩⟩
instance : Add (Rnd fl) := ⟨fun a b => ⟨fl (a.val + b.val)⟩⟩
instance : Sub (Rnd fl) := ⟨fun a b => ⟨fl (a.val - b.val)⟩⟩
instance : Mul (Rnd fl) := ⟨fun a b => ⟨fl (a.val * b.val)⟩⟩
instance : Neg (Rnd fl) := ⟨fun a => ⟨-a.val⟩⟩
instance : NatCast (Rnd fl) := ⟨fun n => ⟨n⟩⟩
noncomputable instance : LinearOrder (Rnd fl) := LinearOrder.lift' val val_injective

@[simp] theorem val_zero : (0 : Rnd fl).val = 0 := rfl
@[simp] theorem val_add (a b : Rnd fl) : (a + b).val = fl (a.val + b.val) := rfl
@[simp] theorem val_sub (a b : Rnd fl) : (a - b).val = fl (a.val - b.val) := rfl
@[simp] theorem val_mul (a b : Rnd fl) : (a * b).val = fl (a.val * b.val) := rfl
@[simp] theorem val_neg (a : Rnd fl) : (-a).val = -a.val := rfl
theorem val_le {a b : Rnd fl} : a ≤ b ↔ a.val ≤ b.val := Iff.rfl
theorem val_lt {a b : Rnd fl} : a < b ↔ a.val < b.val := by
  rw [lt_iff_not_ge, val_le, not_le]

end Rnd

/-! ### Relative errors -/

/-- `a` is `b ≥ 0` up to `k` factors between `1 - u` and `1 + u`. -/
def Near (u : ℝ) (k : ℕ) (a b : ℝ) : Prop := (1 - u) ^ k * b ≤ a ∧ a ≤ (1 + u) ^ k * b

namespace Near

variable {u : ℝ} {fl : ℝ → ℝ} {k m : ℕ} {a a' b b' : ℝ}

theorem refl (a : ℝ) : Near u 0 a a := by simp [Near]

theorem nonneg (h : Near u k a b) (hu1 : u < 1) (hb : 0 ≤ b) : 0 ≤ a :=
  (mul_nonneg (pow_nonneg (by linarith) k) hb).trans h.1

theorem mono (h : Near u k a b) (hu : 0 ≤ u) (hu1 : u < 1) (hb : 0 ≤ b) (hk : k ≤ m) : Near u m a b :=
  ⟨(mul_le_mul_of_nonneg_right (pow_le_pow_of_le_one (by linarith) (by linarith) hk) hb).trans h.1,
    h.2.trans (mul_le_mul_of_nonneg_right (pow_le_pow_right₀ (by linarith) hk) hb)⟩

theorem add (h : Near u k a b) (h' : Near u k a' b') : Near u k (a + a') (b + b') := by
  constructor
  · rw [mul_add]; exact add_le_add h.1 h'.1
  · rw [mul_add]; exact add_le_add h.2 h'.2

theorem mul (h : Near u k a b) (h' : Near u m a' b') (hu : 0 ≤ u) (hu1 : u < 1) (hb : 0 ≤ b) (hb' : 0 ≤ b') :
    Near u (k + m) (a * a') (b * b') := by
  have h1 : 0 ≤ (1 - u) ^ k := pow_nonneg (by linarith) k
  have h2 : 0 ≤ (1 - u) ^ m := pow_nonneg (by linarith) m
  have h3 : 0 ≤ (1 + u) ^ k := pow_nonneg (by linarith) k
  constructor
  · calc (1 - u) ^ (k + m) * (b * b') = ((1 - u) ^ k * b) * ((1 - u) ^ m * b') := by rw [pow_add]; ring
      _ ≤ a * a' := mul_le_mul h.1 h'.1 (mul_nonneg h2 hb') (h.nonneg hu1 hb)
  · calc a * a' ≤ ((1 + u) ^ k * b) * ((1 + u) ^ m * b') :=
          mul_le_mul h.2 h'.2 (h'.nonneg hu1 hb') (mul_nonneg h3 hb)
      _ = (1 + u) ^ (k + m) * (b * b') := by rw [pow_add]; ring

theorem trans (h : Near u k a b) (h' : Near u m b b') (hu : 0 ≤ u) (hu1 : u < 1) : Near u (k + m) a b' := by
  constructor
  · calc (1 - u) ^ (k + m) * b' = (1 - u) ^ k * ((1 - u) ^ m * b') := by rw [pow_add]; ring
      _ ≤ (1 - u) ^ k * b := mul_le_mul_of_nonneg_left h'.1 (pow_nonneg (by linarith) k)
      _ ≤ a := h.1
  · calc a ≤ (1 + u) ^ k * b := h.2
      _ ≤ (1 + u) ^ k * ((1 + u) ^ m * b') := mul_le_mul_of_nonneg_left h'.2 (pow_nonneg (by linarith) k)
      _ = (1 + u) ^ (k + m) * b' := by rw [pow_add]; ring

/-- A rounded non-negative number. -/
theorem round (hr : Rounding u fl) (h : Near u k a b) (hb : 0 ≤ b) : Near u (k + 1) (fl a) b := by
  have ha := h.nonneg hr.lt_one hb
  have he := abs_le.mp (hr.err a)
  rw [abs_of_nonneg ha] at he
  have hu := hr.nonneg
  have hu1 := hr.lt_one
  constructor
  · calc (1 - u) ^ (k + 1) * b = (1 - u) * ((1 - u) ^ k * b) := by rw [pow_succ]; ring
      _ ≤ (1 - u) * a := mul_le_mul_of_nonneg_left h.1 (by linarith)
      _ ≤ fl a := by linarith [he.1]
  · calc fl a ≤ (1 + u) * a := by linarith [he.2]
      _ ≤ (1 + u) * ((1 + u) ^ k * b) := mul_le_mul_of_nonneg_left h.2 (by linarith)
      _ = (1 + u) ^ (k + 1) * b := by rw [pow_succ]; ring

/-- A rounded number that is not positive. -/
theorem round_neg (hr : Rounding u fl) (h : Near u k (-a) b) (hb : 0 ≤ b) : Near u (k + 1) (-fl a) b := by
  have hn : Rounding u (fun x => -fl (-x)) := ⟨hr.nonneg, hr.lt_one, fun x => by
    have := hr.err (-x)
    rw [abs_neg] at this
    rw [← abs_neg]
    convert this using 2
    ring⟩
  have := h.round hn hb
  simpa using this

end Near

/-! ### The two-dimensional sweep -/

namespace Ctx

variable {u : ℝ} {fl : ℝ → ℝ} {X : Ctx ℝ} {c : ℕ → ℕ → Rnd fl}

theorem V_nonneg (d : ℕ) (A : Finset ℕ) : 0 ≤ X.V d A := by
  rw [← X.V_empty d]; exact X.V_mono d ∅ A (Finset.empty_subset A)

theorem split_le {d : ℕ} {S : Finset ℕ} (hd : d < X.D) (hS : S ⊆ X.N) {l r : List ℕ} {p q : ℕ}
    (h : l ++ q :: p :: r = X.L d S) : X.c q d ≤ X.c p d := by
  have hs := (X.sorted_G d hd).filter (fun z => decide (z ∈ S))
  have e : (X.G d).filter (fun z => decide (z ∈ S)) = l ++ q :: p :: r := h.symm
  rw [e, List.pairwise_append] at hs
  exact (List.pairwise_cons.mp hs.2.1).1 p (by simp)

theorem sweep2_near (hr : Rounding u fl) (hc : ∀ z i, (c z i).val = X.c z i) (hD : 1 < X.D) {S : Finset ℕ}
    (hS : S ⊆ X.N) {s : ML (Rnd fl)} (h0 : IsRing (s.next · 1) (s.prev · 1) (X.L 1 S)) :
    ∀ (r : List ℕ) (fuel : ℕ) (l : List ℕ) (q : ℕ) (hvol : ℝ) (hv h : Rnd fl) (k : ℕ), r.length ≤ fuel →
      l ++ q :: r = X.L 1 S → hvol = X.V 2 l.toFinset + X.V 1 l.toFinset * X.c q 1 → 0 ≤ hvol → Near u k hv.val hvol →
      2 ≤ k → h.val = -(X.V 1 (insert q l.toFinset)) →
      ∃ v, sweep2 c s fuel hv h q ((r ++ [0]).head (by simp)) = some v ∧ Near u (k + r.length + 1) v.val (X.V 2 S) := by
  have hu := hr.nonneg
  have hu1 := hr.lt_one
  intro r
  induction r with
  | nil =>
    intro fuel l q hvol hv h k _ hsplit he hpos hn hk hh
    have hqS : q ∈ S := by rw [← mem_L hD hS, ← hsplit]; simp
    unfold sweep2
    refine ⟨hv + h * c q 1, by simp, ?_⟩
    have hfin := slab_final hD hS hsplit he
    have hneg := X.neg q (hS hqS) 1 hD
    have hV := X.V_nonneg 1 (insert q l.toFinset)
    have ht : 0 ≤ X.V 1 (insert q l.toFinset) * -(X.c q 1) := mul_nonneg hV (by linarith)
    have h1 : Near u 1 (h * c q 1).val (X.V 1 (insert q l.toFinset) * -(X.c q 1)) := by
      rw [Rnd.val_mul, hh, hc]
      have e : -(X.V 1 (insert q l.toFinset)) * X.c q 1 = X.V 1 (insert q l.toFinset) * -(X.c q 1) := by ring
      rw [e]
      exact (Near.refl _).round hr ht
    have h2 := (hn.add (h1.mono hu hu1 ht (by omega : 1 ≤ k))).round hr (add_nonneg hpos ht)
    have e : hvol + X.V 1 (insert q l.toFinset) * -(X.c q 1) = X.V 2 S := by rw [← hfin]; ring
    rw [e] at h2
    exact h2
  | cons p r ih =>
    intro fuel l q hvol hv h k hf hsplit he hpos hn hk hh
    obtain ⟨fuel, rfl⟩ : ∃ f, fuel = f + 1 := ⟨fuel - 1, by simp at hf; omega⟩
    have hsplit' : (l ++ [q]) ++ p :: r = X.L 1 S := by rw [← hsplit]; simp
    have hpS : p ∈ S := by rw [← mem_L hD hS, ← hsplit]; simp
    have hp0 : p ≠ 0 := fun e => X.zero_notMem (e ▸ hS hpS)
    have hfin : (l ++ [q]).toFinset = insert q l.toFinset := by ext z; simp
    have hlN : (l ++ [q]).toFinset ⊆ X.N := split_sub hD hS hsplit'
    have hnext : s.next p 1 = (r ++ [0]).head (by simp) := by
      have := h0
      rw [← hsplit'] at this
      exact this.nbr.2.2.2
    have hhd : ((p :: r) ++ [0]).head (by simp) = p := rfl
    rw [hhd]
    unfold sweep2
    rw [if_neg hp0, hnext]
    have hle := split_le hD hS hsplit
    have hV := X.V_nonneg 1 (insert q l.toFinset)
    have ht : 0 ≤ X.V 1 (insert q l.toFinset) * (X.c p 1 - X.c q 1) := mul_nonneg hV (by linarith)
    have h1 : Near u 2 (h * (c q 1 - c p 1)).val (X.V 1 (insert q l.toFinset) * (X.c p 1 - X.c q 1)) := by
      have e1 : Near u 1 (-fl (X.c q 1 - X.c p 1)) (X.c p 1 - X.c q 1) := by
        refine Near.round_neg hr (k := 0) ?_ (by linarith)
        rw [neg_sub]
        exact Near.refl _
      have e2 := ((Near.refl (X.V 1 (insert q l.toFinset))).mul e1 hu hu1 hV (by linarith)).round hr ht
      rw [Rnd.val_mul, Rnd.val_sub, hh, hc, hc, neg_mul_comm]
      exact e2
    refine (ih fuel (l ++ [q]) p (hvol + X.V 1 (insert q l.toFinset) * (X.c p 1 - X.c q 1)) _ _ (k + 1)
      (by simp at hf; omega) hsplit' (by rw [slab_step hD hS p hsplit he, hfin]) (add_nonneg hpos ht)
      ((hn.add (h1.mono hu hu1 ht hk)).round hr (add_nonneg hpos ht)) (by omega) ?_).imp
      fun v hv => ⟨hv.1, by simpa [add_right_comm, add_assoc, add_comm, add_left_comm] using hv.2⟩
    have := V_one_insert (by omega) hlN ⟨q, by simp⟩ (hS hpS)
    rw [this, hfin]
    have e : c p 0 < h ↔ X.c p 0 < -(X.V 1 (insert q l.toFinset)) := by rw [Rnd.val_lt, hc, hh]
    by_cases hlt : c p 0 < h
    · rw [if_pos hlt, if_pos (e.mp hlt), hc]
    · rw [if_neg hlt, if_neg (fun h' => hlt (e.mpr h')), hh]

/-- `hvRecursive` in two objectives. -/
theorem hvRec_one_near (hr : Rounding u fl) (hc : ∀ z i, (c z i).val = X.c z i) (hD : 1 < X.D) {fuel : ℕ}
    (hfuel : X.N.card ≤ fuel) {S : Finset ℕ} {s : ML (Rnd fl)} (hS : S ⊆ X.N) (hne : S.Nonempty)
    (h0 : IsRing (s.next · 1) (s.prev · 1) (X.L 1 S)) :
    ∃ v, hvRec c fuel 1 S.card s = some (v, s) ∧ Near u (fuel + 2) v.val (X.V 2 S) := by
  obtain ⟨q, r, hl⟩ : ∃ q r, X.L 1 S = q :: r := by
    rcases h : X.L 1 S with _ | ⟨q, r⟩
    · exfalso
      have := length_L hD hS
      rw [h] at this
      exact hne.ne_empty (Finset.card_eq_zero.mp this.symm)
    · exact ⟨q, r, rfl⟩
  obtain ⟨n, hn⟩ : ∃ n, S.card = n + 1 := ⟨S.card - 1, by have := hne.card_pos; omega⟩
  have hqS : q ∈ S := by rw [← mem_L hD hS, hl]; simp
  have hq0 : q ≠ 0 := fun e => X.zero_notMem (e ▸ hS hqS)
  have h0' := h0
  rw [hl] at h0'
  have hnext : s.next q 1 = (r ++ [0]).head (by simp) := (IsRing.nbr (l₁ := []) h0').2.2.2
  have hlen : r.length + 1 ≤ fuel := by
    have h1 := length_L hD hS
    rw [hl] at h1
    have h2 := Finset.card_le_card hS
    simp at h1; omega
  obtain ⟨v, hv, hnear⟩ := sweep2_near hr hc hD hS h0 r fuel [] q 0 0 (c q 0) 2 (by omega) (by simp [hl])
    (by simp [X.V_empty]) le_rfl (by simp [Near]) le_rfl (by
      simp only [List.toFinset_nil]
      rw [show insert q (∅ : Finset ℕ) = {q} from rfl, V_one_singleton (by omega) (hS hqS), neg_neg, hc])
  refine ⟨v, ?_, hnear.mono hr.nonneg hr.lt_one (X.V_nonneg 2 S) (by omega)⟩
  rw [hn]
  simp [hvRec, h0'.first.1, hq0, hnext, hv]

/-- `hvRecursive` in one objective. -/
theorem hvRec_zero_near (hc : ∀ z i, (c z i).val = X.c z i) (hD : 0 < X.D) (fuel : ℕ) {S : Finset ℕ} {s : ML (Rnd fl)}
    (hS : S ⊆ X.N) (hne : S.Nonempty) (h0 : IsRing (s.next · 0) (s.prev · 0) (X.L 0 S)) :
    ∃ v, hvRec c fuel 0 S.card s = some (v, s) ∧ v.val = X.V 1 S := by
  obtain ⟨q, r, hl⟩ : ∃ q r, X.L 0 S = q :: r := by
    rcases h : X.L 0 S with _ | ⟨q, r⟩
    · exfalso
      have := length_L hD hS
      rw [h] at this
      exact hne.ne_empty (Finset.card_eq_zero.mp this.symm)
    · exact ⟨q, r, rfl⟩
  obtain ⟨n, hn⟩ : ∃ n, S.card = n + 1 := ⟨S.card - 1, by have := hne.card_pos; omega⟩
  have hqS : q ∈ S := by rw [← mem_L hD hS, hl]; simp
  have hq0 : q ≠ 0 := fun e => X.zero_notMem (e ▸ hS hqS)
  have h0' := h0
  rw [hl] at h0'
  have hfirst : s.next 0 0 = q := h0'.first.1
  refine ⟨-(c q 0), ?_, ?_⟩
  · rw [hn]
    simp only [hvRec, hfirst, hq0, if_false]
  rw [Rnd.val_neg, hc, V_eq_of_least 1 hS hqS, V_one_singleton (by omega) (hS hqS)]
  intro w hw i hi
  obtain rfl : i = 0 := by omega
  have hp := pairwise_c_L hD S
  rw [hl, List.pairwise_cons] at hp
  rw [← mem_L hD hS, hl] at hw
  rcases List.mem_cons.mp hw with rfl | hw
  · exact le_rfl
  · exact hp.1 w hw

/-- The lists without the volumes. -/
def lists (X : Ctx ℝ) : Lists := ⟨X.D, X.N, X.G, X.zero_notMem, X.mem_G, X.nodup_G⟩

/-! ### The level of three objectives -/

variable {S : Finset ℕ} {s₀ s : ML (Rnd fl)}

/-- Filling in the area of a node that is not marked. -/
theorem visit_near (hr : Rounding u fl) (hc : ∀ z i, (c z i).val = X.c z i) (hD : 2 < X.D) {fuel : ℕ}
    (hfuel : X.N.card ≤ fuel) (hS : S ⊆ X.N) {l r : List ℕ} {q : ℕ} (h : X.lists.Stage 2 S s₀ (l ++ [q]) r s)
    (hig : s.ignore q = 0) :
    ∃ s', visit (hvRec c fuel 1) 2 (l.length + 1) q s = some s' ∧ s'.next = s.next ∧ s'.prev = s.prev ∧
      (∀ z, z ≠ q → s'.ignore z = s.ignore z) ∧ Near u (fuel + 2) (s'.area q 2).val (X.V 2 (insert q l.toFinset)) := by
  have hfin : (l ++ [q]).toFinset = insert q l.toFinset := by ext z; simp
  have hcard : (l ++ [q]).toFinset.card = l.length + 1 := by
    rw [List.toFinset_card_of_nodup (Lists.split_nodup (X := X.lists) hD hS h.split).1]; simp
  obtain ⟨v, e, hn⟩ := hvRec_one_near (X := X) hr hc (by omega) hfuel (S := (l ++ [q]).toFinset) (s := s)
    (Lists.split_sub (X := X.lists) hD hS h.split) ⟨q, by simp⟩ (h.rings 1 (by omega))
  rw [hcard] at e
  rw [hfin] at hn
  unfold visit
  rw [if_neg (by omega), e]
  dsimp only
  split
  · exact ⟨_, rfl, rfl, rfl, fun z hz => by simp [set1, hz], by simpa [set2] using hn⟩
  · exact ⟨_, rfl, rfl, rfl, fun z hz => rfl, by simpa [set2] using hn⟩

theorem sweepLoop_near (hr : Rounding u fl) (hc : ∀ z i, (c z i).val = X.c z i) (hD : 2 < X.D) {n : ℕ}
    (hn : X.N.card ≤ n) (hS : S ⊆ X.N) (h0 : IsRing (s₀.next · 2) (s₀.prev · 2) (X.L 2 S)) :
    ∀ (r : List ℕ) (fuel : ℕ) (l : List ℕ) (q : ℕ) (hvol : ℝ) (hv : Rnd fl) (s : ML (Rnd fl)) (k : ℕ),
      r.length ≤ fuel → X.lists.Stage 2 S s₀ (l ++ [q]) r s → (∀ z ∈ r, s.ignore z = 0) →
      hvol = X.V 3 l.toFinset + X.V 2 l.toFinset * X.c q 2 → 0 ≤ hvol → Near u k hv.val hvol → n + 4 ≤ k →
      Near u (n + 2) (s.area q 2).val (X.V 2 (insert q l.toFinset)) →
      ∃ v s', sweepLoop c (hvRec c n 1) 2 fuel hv (l.length + 1) ((r ++ [0]).head (by simp)) q s = some (v, s') ∧
        Near u (k + r.length + 1) v.val (X.V 3 S) := by
  have hu := hr.nonneg
  have hu1 := hr.lt_one
  intro r
  induction r with
  | nil =>
    intro fuel l q hvol hv s k _ h _ he hpos hnear hk harea
    have hsplit : l ++ [q] = X.L 2 S := by have := h.split; rwa [List.append_nil] at this
    have hqS : q ∈ S := by rw [← mem_L hD hS, ← hsplit]; simp
    refine ⟨hv - s.area q 2 * c q 2, s, ?_, ?_⟩
    · unfold sweepLoop
      simp
    have hfin := slab_final hD hS hsplit he
    have hneg := X.neg q (hS hqS) 2 hD
    have hV := X.V_nonneg 2 (insert q l.toFinset)
    have hmc : 0 ≤ -(X.c q 2) := by linarith
    have ht : 0 ≤ X.V 2 (insert q l.toFinset) * -(X.c q 2) := mul_nonneg hV hmc
    have h1 : Near u (n + 3) (-(s.area q 2 * c q 2).val) (X.V 2 (insert q l.toFinset) * -(X.c q 2)) := by
      rw [Rnd.val_mul, hc]
      refine Near.round_neg hr (k := n + 2) ?_ ht
      rw [← mul_neg]
      simpa using harea.mul (Near.refl (-(X.c q 2))) hu hu1 hV hmc
    have h2 := (hnear.add (h1.mono hu hu1 ht (by omega : n + 3 ≤ k))).round hr (add_nonneg hpos ht)
    have e : hvol + X.V 2 (insert q l.toFinset) * -(X.c q 2) = X.V 3 S := by rw [← hfin]; ring
    rw [e, ← sub_eq_add_neg] at h2
    exact h2
  | cons p r ih =>
    intro fuel l q hvol hv s k hf h hig he hpos hnear hk harea
    obtain ⟨fuel, rfl⟩ : ∃ f, fuel = f + 1 := ⟨fuel - 1, by simp at hf; omega⟩
    have hsplit : l ++ q :: p :: r = X.L 2 S := by have := h.split; rw [← List.append_cons] at this; exact this
    have hpS : p ∈ S := by rw [← mem_L hD hS, ← hsplit]; simp
    have hp0 : p ≠ 0 := fun e => X.zero_notMem (e ▸ hS hpS)
    have hfin : (l ++ [q]).toFinset = insert q l.toFinset := by ext z; simp
    have hle := split_le hD hS hsplit
    have hV := X.V_nonneg 2 (insert q l.toFinset)
    have hmc : 0 ≤ X.c p 2 - X.c q 2 := by linarith
    have ht : 0 ≤ X.V 2 (insert q l.toFinset) * (X.c p 2 - X.c q 2) := mul_nonneg hV hmc
    have h1 := (h.congr (s' := { s with bounds := set1 s.bounds 2 (c p 2) }) rfl rfl).reinsert hD hS c
    set s1 := Verif.HV.reinsert c p 2 { s with bounds := set1 s.bounds 2 (c p 2) } with hs1
    have hnx := (h1.nbr hD hS h0).2
    set v1 := hv + s.area q 2 * (c p 2 - c q 2) with hv1
    have h2 := h1.congr (s' := { s1 with volume := set2 s1.volume p 2 v1 }) rfl rfl
    have hig1 : s1.ignore = s.ignore := by rw [hs1, reinsert_ignore]
    have hnd : p ∉ r := by
      have := (Lists.split_nodup (X := X.lists) hD hS h.split).2.1
      exact (List.nodup_cons.mp this).1
    obtain ⟨s2, e2, n2, p2, i2, a2⟩ := visit_near hr hc hD hn hS h2 (by
      show s1.ignore p = 0
      rw [hig1]; exact hig p (by simp))
    have hval : Near u (k + 1) v1.val (hvol + X.V 2 (insert q l.toFinset) * (X.c p 2 - X.c q 2)) := by
      rw [hv1, Rnd.val_add, Rnd.val_mul, Rnd.val_sub, hc, hc]
      have e1 := harea.mul ((Near.refl (X.c p 2 - X.c q 2)).round hr hmc) hu hu1 hV hmc
      exact (hnear.add ((e1.round hr ht).mono hu hu1 ht (by omega))).round hr (add_nonneg hpos ht)
    obtain ⟨v, s', e, hres⟩ := ih fuel (l ++ [q]) p _ v1 s2 (k + 1) (by simp at hf; omega) (h2.congr n2 p2)
      (fun z hz => by
        rw [i2 z (fun e => hnd (e ▸ hz))]
        show s1.ignore z = 0
        rw [hig1]; exact hig z (by simp [hz]))
      (by rw [slab_step hD hS p hsplit he, hfin]) (add_nonneg hpos ht) hval (by omega) a2
    refine ⟨v, s', ?_, by
      have : k + (p :: r).length + 1 = k + 1 + r.length + 1 := by simp; omega
      rw [this]; exact hres⟩
    have hhd : ((p :: r) ++ [0]).head (by simp) = p := rfl
    rw [hhd]
    unfold sweepLoop
    rw [if_neg hp0]
    dsimp only
    rw [← hv1, ← hs1, hnx]
    have hlen : (l ++ [q]).length + 1 = l.length + 1 + 1 := by simp
    rw [hlen] at e2 e
    rw [e2]
    exact e

/-- At the level of three objectives all nodes except one are taken out. -/
theorem removeLoop_all (hD : 2 < X.D) (hS : S ⊆ X.N) (h0 : IsRing (s₀.next · 2) (s₀.prev · 2) (X.L 2 S)) :
    ∀ (l r : List ℕ) (q : ℕ) (s : ML (Rnd fl)), X.lists.Stage 2 S s₀ (l ++ [q]) r s →
      (∀ z ∈ S, s.bounds 2 ≤ c z 2) →
      ∃ q' r' s', removeLoop c 2 (l.length + 1) ((r ++ [0]).head (by simp)) q s =
        some ⟨1, (r' ++ [0]).head (by simp), q', s'⟩ ∧ X.lists.Stage 2 S s₀ ([] ++ [q']) r' s' ∧
          s'.ignore = s.ignore := by
  intro l
  induction l using List.reverseRecOn with
  | nil =>
    intro r q s h _
    exact ⟨q, r, s, by simp [removeLoop], h, rfl⟩
  | append_singleton l a ih =>
    intro r q s h hb
    have hmem := Lists.split_mem (X := X.lists) hD hS h.split
    have hq0 : q ≠ 0 := fun e => X.zero_notMem (e ▸ hS ((hmem q).1 (Or.inl (by simp))))
    have haS := (hmem a).1 (Or.inl (by simp))
    have ha0 : a ≠ 0 := fun e => X.zero_notMem (e ▸ hS haS)
    have hpv : s.prev q 2 = a := by rw [(h.nbr hD hS h0).1]; simp
    have hlen : (l ++ [a]).length + 1 = l.length + 2 := by simp
    rw [hlen]
    obtain ⟨q', r', s', e, hst, hi⟩ := ih (q :: r) a (Verif.HV.remove c q 2 s) (h.remove hD hS c) (fun z hz => by
      rw [remove_bounds, if_neg (by omega)]; exact hb z hz)
    refine ⟨q', r', s', ?_, hst, by rw [hi, remove_ignore]⟩
    unfold removeLoop
    simp only [hq0, if_false, hpv, ha0]
    simp only [List.cons_append, List.head_cons] at e
    by_cases h1 : c q 2 > s.bounds 2
    · simp only [h1, if_true]; exact e
    · simp only [h1, if_false]
      have h2 : c a 2 ≥ s.bounds 2 := hb a haS
      simp only [h2, if_true]; exact e

/-- `hvRecursive` in three objectives. -/
theorem level_near (hr : Rounding u fl) (hc : ∀ z i, (c z i).val = X.c z i) (hD : 2 < X.D) (hS : S ⊆ X.N) {fuel : ℕ}
    (hfuel : X.N.card ≤ fuel) (hne : S.Nonempty) (hring : ∀ i ≤ 2, IsRing (s.next · i) (s.prev · i) (X.L i S))
    (hig : ∀ z, s.ignore z = 0) (hb : ∀ z ∈ S, s.bounds 2 ≤ c z 2) :
    ∃ v s', level c fuel (hvRec c fuel 1) 2 S.card s = some (v, s') ∧ Near u (2 * fuel + 4) v.val (X.V 3 S) := by
  have h0 := hring 2 le_rfl
  obtain ⟨l, q, hl⟩ : ∃ l q, X.L 2 S = l ++ [q] := by
    rcases List.eq_nil_or_concat' (X.L 2 S) with h | h
    · exfalso
      have := length_L hD hS
      rw [h] at this
      exact hne.ne_empty (Finset.card_eq_zero.mp this.symm)
    · exact h
  have hcS := Finset.card_le_card hS
  have hlen : S.card = l.length + 1 := by rw [← length_L hD hS, hl]; simp
  have h0' := h0
  rw [hl] at h0'
  have hlast : s.prev 0 2 = q := h0'.last.2
  set s1 : ML (Rnd fl) := { s with ignore := fun x => if x ∈ X.L 2 S ∧ s.ignore x < 2 then 0 else s.ignore x } with hs1
  have hreset : resetLoop 2 fuel (s.prev 0 2) s = some s1 := by
    have hch : List.IsChain (fun a b => s.next a 2 = b ∧ s.prev b 2 = a) (0 :: X.L 2 S) := by
      have : List.IsChain (fun a b => s.next a 2 = b ∧ s.prev b 2 = a) ((0 :: X.L 2 S) ++ [0]) := h0
      rw [List.isChain_append] at this
      exact this.1
    have := resetLoop_spec (K := Rnd fl) 2 (X.L 2 S) fuel s (by rw [length_L hD hS]; omega)
      (fun e => X.zero_notMem (hS ((mem_L hD hS).1 e))) (nodup_L hD S) hch
    rw [← this]
    congr 1
    rw [hlast]
    simp [hl]
  have hig1 : ∀ z, s1.ignore z = 0 := fun z => by simp [hs1, hig]
  have hst : X.lists.Stage 2 S s (l ++ [q]) [] s1 := by
    have hSe : (l ++ [q]).toFinset = S := by rw [← hl]; exact toFinset_L hD hS
    exact ⟨by rw [List.append_nil, ← hl]; rfl, fun a => rfl, fun a => rfl,
      fun i hi => by rw [hSe]; exact hring i (by omega), rfl, rfl⟩
  have hlast1 : s1.prev 0 2 = q := hlast
  obtain ⟨q', r', s2, e2, h2, i2⟩ := removeLoop_all (c := c) hD hS h0 l [] q s1 hst hb
  have hqS : q' ∈ S := (Lists.split_mem (X := X.lists) hD hS h2.split q').1 (Or.inl (by simp))
  have hq0 : q' ≠ 0 := fun e => X.zero_notMem (e ▸ hS hqS)
  have hrl : r'.length + 1 ≤ fuel := by
    have h3 := congrArg List.length h2.split
    have h4 : (X.lists.L 2 S).length = S.card := length_L hD hS
    rw [h4] at h3
    simp at h3
    omega
  unfold level
  rw [hreset]
  dsimp only
  have hhd : (([] : List ℕ) ++ [0]).head (by simp) = 0 := rfl
  rw [hhd] at e2
  rw [hlast1, hlen, e2]
  dsimp only
  rw [if_neg hq0, if_neg (by omega)]
  have h3 := h2.congr (s' := { initArea c 2 q' s2 with volume := set2 (initArea c 2 q' s2).volume q' 2 0 }) rfl rfl
  obtain ⟨s3, e3, n3, p3, i3, a3⟩ := visit_near hr hc hD hfuel hS h3 (by
    show s2.ignore q' = 0
    rw [i2, hig1])
  have hnd : q' ∉ r' := (Lists.split_nodup (X := X.lists) hD hS h2.split).2.2 q' (by simp)
  obtain ⟨v, s', e, hres⟩ := sweepLoop_near hr hc hD hfuel hS h0 r' fuel [] q' 0 0 s3 (fuel + 4) (by omega)
    (h3.congr n3 p3) (fun z hz => by
      rw [i3 z (fun e => hnd (e ▸ hz))]
      show s2.ignore z = 0
      rw [i2, hig1])
    (by simp [X.V_empty]) le_rfl (by simp [Near]) le_rfl a3
  refine ⟨v, s', ?_, hres.mono hr.nonneg hr.lt_one (X.V_nonneg 3 S) (by omega)⟩
  have e3' : visit (hvRec c fuel 1) 2 1 q'
      { initArea c 2 q' s2 with volume := set2 (initArea c 2 q' s2).volume q' 2 0 } = some s3 := e3
  rw [e3']
  exact e

end Ctx

/-! ### The whole computation -/

/-- The points handed to `preProcess` are the relevant ones minus the reference point, up to one rounding. -/
theorem relevantPoints_near {u : ℝ} {fl : ℝ → ℝ} (hr : Rounding u fl) (d : ℕ) (front : List (ℕ → Rnd fl))
    (ref : ℕ → Rnd fl) :
    ∃ f : (ℕ → Rnd fl) → (ℕ → Rnd fl), (∀ p, (∀ i < d, p i ≤ ref i) → ∀ i < d,
        Near u 1 (-(f p i).val) ((ref i).val - (p i).val)) ∧
      relevantPoints d front ref = (front.filter (fun p => weaklyDominates d p ref)).map f := by
  by_cases h : (List.range d).any (fun i => decide (ref i ≠ 0)) = true
  · refine ⟨fun p i => p i - ref i, fun p hp i hi => ?_, by simp only [relevantPoints, h, if_true]⟩
    have hle := Rnd.val_le.mp (hp i hi)
    rw [Rnd.val_sub]
    refine Near.round_neg hr (k := 0) ?_ (by linarith)
    rw [neg_sub]
    exact Near.refl _
  · refine ⟨fun p => p, ?_, by simp only [relevantPoints, h]; simp⟩
    intro p hp i hi
    have hle := Rnd.val_le.mp (hp i hi)
    simp at h
    rw [h i hi] at hle ⊢
    rw [Rnd.val_zero] at hle ⊢
    rw [zero_sub]
    exact (Near.refl _).mono hr.nonneg hr.lt_one (by linarith) (by omega)

/-- Moving every point by a relative error. -/
theorem hvol_near {u : ℝ} (hu : 0 ≤ u) (hu1 : u < 1) {d : ℕ} {α : Type*} {rel : List α}
    {f g : α → (ℕ → ℝ)}
    (h : ∀ p ∈ rel, ∀ i < d, g p i ≤ 0 ∧ Near u 1 (-(f p i)) (-(g p i))) :
    Near u d (Spec.hvol d (rel.map f) (fun _ => 0)) (Spec.hvol d (rel.map g) (fun _ => 0)) := by
  have key : ∀ s : ℝ, 0 < s → Spec.hvol d (rel.map (fun p i => s * g p i)) (fun _ => 0) =
      s ^ d * Spec.hvol d (rel.map g) (fun _ => 0) := by
    intro s hs
    have := Spec.hvol_scale (d := d) (P := rel.map g) (ref := fun _ => 0) (fun _ => s) (fun _ _ => hs)
    simpa [List.map_map, Function.comp_def] using this
  constructor
  · rw [← key (1 - u) (by linarith)]
    apply Spec.hvol_mono
    intro p hp _
    obtain ⟨a, ha, rfl⟩ := List.mem_map.mp hp
    refine ⟨f a, List.mem_map_of_mem ha, fun i hi => ?_⟩
    have := (h a ha i hi).2.1
    rw [pow_one] at this
    linarith
  · rw [← key (1 + u) (by linarith)]
    apply Spec.hvol_mono
    intro p hp _
    obtain ⟨a, ha, rfl⟩ := List.mem_map.mp hp
    refine ⟨fun i => (1 + u) * g a i, List.mem_map.mpr ⟨a, ha, rfl⟩, fun i hi => ?_⟩
    have := (h a ha i hi).2.2
    rw [pow_one] at this
    linarith

/-- The values of a point. -/
def vals {fl : ℝ → ℝ} (p : ℕ → Rnd fl) (i : ℕ) : ℝ := (p i).val

theorem cargoOf_vals {fl : ℝ → ℝ} (pts : List (ℕ → Rnd fl)) (z i : ℕ) :
    (cargoOf pts z i).val = cargoOf (pts.map vals) z i := by
  unfold cargoOf
  split
  · rfl
  · rcases lt_or_ge (z - 1) pts.length with hz | hz
    · rw [List.getD_eq_getElem pts _ hz, List.getD_eq_getElem (pts.map vals) _ (by simpa using hz), List.getElem_map]
      rfl
    · rw [List.getD_eq_default pts _ hz, List.getD_eq_default (pts.map vals) _ (by simpa using hz)]
      rfl

/-- `compute` with rounding, for up to three objectives. -/
theorem compute_near {u : ℝ} {fl : ℝ → ℝ} (hr : Rounding u fl) {argsort : List (Rnd fl) → List ℕ}
    (ha : IsArgsort argsort) {d : ℕ} (hd : 0 < d) (hd3 : d ≤ 3) (front : List (ℕ → Rnd fl)) (ref : ℕ → Rnd fl)
    (hrange : d = 3 → ∀ p ∈ front, (∀ i < d, p i ≤ ref i) → 2 * ((ref 2).val - (p 2).val) ≤ 10 ^ 308) :
    ∃ v, compute argsort d front ref = some v ∧
      Near u ((d - 1) * (front.length + 2) + d) v.val (Spec.hvol d (front.map vals) (vals ref)) := by
  have hu := hr.nonneg
  have hu1 := hr.lt_one
  obtain ⟨D, rfl⟩ : ∃ D, d = D + 1 := ⟨d - 1, by omega⟩
  obtain ⟨f, hf, hrel⟩ := relevantPoints_near hr (D + 1) front ref
  set rel := front.filter (fun p => weaklyDominates (D + 1) p ref) with hreldef
  set pts := rel.map f with hpts
  set ptsR := pts.map vals with hptsR
  have hmem : ∀ p ∈ rel, p ∈ front ∧ ∀ i < D + 1, p i ≤ ref i := by
    intro p hp
    rw [hreldef, List.mem_filter, weaklyDominates_iff] at hp
    exact hp
  have hlen : pts.length = rel.length := by simp [hpts]
  have hlenR : ptsR.length = pts.length := by simp [hptsR]
  have hlen' : pts.length ≤ front.length := by rw [hlen]; exact List.length_filter_le _ _
  have hcv : ∀ z i, (cargoOf pts z i).val = cargoOf ptsR z i := cargoOf_vals pts
  have hcargo : ∀ z ∈ nodeSet pts.length, ∃ p ∈ rel, ∀ i < D + 1,
      Near u 1 (-(cargoOf ptsR z i)) ((ref i).val - (p i).val) := by
    intro z hz
    obtain ⟨k, hk, rfl⟩ := mem_nodeSet.mp hz
    have hp : rel[k]'(by omega) ∈ rel := List.getElem_mem _
    refine ⟨_, hp, fun i hi => ?_⟩
    rw [← hcv]
    have e : cargoOf pts (k + 1) i = f (rel[k]'(by omega)) i := by
      simp [cargoOf, hpts, (by omega : k < rel.length)]
    rw [e]
    exact hf _ (hmem _ hp).2 i hi
  have hneg : ∀ z ∈ nodeSet pts.length, ∀ i < D + 1, cargoOf ptsR z i ≤ 0 := by
    intro z hz i hi
    obtain ⟨p, hp, h1⟩ := hcargo z hz
    have := (h1 i hi).nonneg hu1 (by linarith [Rnd.val_le.mp ((hmem p hp).2 i hi)])
    linarith
  obtain ⟨G, s, hpre, hG, hflag, harea, hb⟩ := preProcess_spec ha (cargoOf pts) (D + 1) pts.length
  have hGmem : ∀ i < D + 1, ∀ z, z ∈ G i ↔ z ∈ nodeSet pts.length := by
    intro i hi z
    rw [(hG i hi).1.mem_iff, nodeSet, List.mem_toFinset]
  let X : Ctx ℝ :=
    { c := cargoOf ptsR
      D := D + 1
      N := nodeSet pts.length
      G := G
      V := vol (cargoOf ptsR)
      zero_notMem := by intro h0; obtain ⟨k, -, hk⟩ := mem_nodeSet.mp h0; omega
      mem_G := hGmem
      nodup_G := fun i hi => (hG i hi).1.nodup_iff.mpr
        (List.nodup_range.map (fun a b h => by simpa using h))
      sorted_G := fun i hi => (hG i hi).2.1.imp (fun {a b} h => by
        have := Rnd.val_le.mp h
        rwa [hcv, hcv] at this)
      V_empty := vol_empty
      V_zero := vol_zero
      V_slab := fun d A x hd _ hx hA => vol_slab d A x (hneg x hx d hd) hA
      V_le := fun d A x hd _ hx hle => vol_le d A x (fun i hi => hneg x hx i (by omega)) hle
      V_dom := fun d A x _ _ => vol_dom d A x
      V_mono := fun d A B h => vol_mono d h
      neg := hneg
      triple := fun h => absurd h (by omega)
      tie := fun j h1 h2 => absurd h2 (by omega)
      null := fun h => absurd h (by omega) }
  have hcard : X.N.card = pts.length := card_nodeSet _
  have hshift : Near u (D + 1) (X.V (D + 1) X.N) (Spec.hvol (D + 1) (front.map vals) (vals ref)) := by
    have e1 : X.V (D + 1) X.N = Spec.hvol (D + 1) (rel.map (fun p => vals (f p))) (fun _ => 0) := by
      have h1 : X.V (D + 1) X.N = vol (cargoOf ptsR) (D + 1) (nodeSet ptsR.length) := by rw [hlenR]
      rw [h1, vol_nodeSet, hptsR, hpts, List.map_map]
      congr 1
    have e2 : Spec.hvol (D + 1) (front.map vals) (vals ref) =
        Spec.hvol (D + 1) (rel.map (fun p i => vals p i - vals ref i)) (fun _ => 0) := by
      rw [hvol_eq_relevant (D + 1) (front.map vals) (vals ref) (fun p i => p i - vals ref i) (fun _ _ _ => rfl)]
      congr 1
      rw [List.filter_map, List.map_map, hreldef]
      congr 1
    rw [e1, e2]
    apply hvol_near hu hu1
    intro p hp i hi
    have hle := Rnd.val_le.mp ((hmem p hp).2 i hi)
    refine ⟨by simp only [vals]; linarith, ?_⟩
    rw [neg_sub]
    exact hf p (hmem p hp).2 i hi
  have hpos := X.V_nonneg (D + 1) X.N
  have hspec : 0 ≤ Spec.hvol (D + 1) (front.map vals) (vals ref) := Spec.hvol_nonneg
  have hcomb : ∀ {v : ℝ} {k : ℕ}, Near u k v (X.V (D + 1) X.N) → k ≤ D * (front.length + 2) →
      Near u ((D + 1 - 1) * (front.length + 2) + (D + 1)) v (Spec.hvol (D + 1) (front.map vals) (vals ref)) := by
    intro v k h1 hk
    refine Near.mono (k := k + (D + 1)) ?_ hu hu1 hspec (by simp only [Nat.add_sub_cancel]; omega)
    exact h1.trans hshift hu hu1
  unfold compute
  simp only [hrel, hpre]
  rcases Nat.eq_zero_or_pos pts.length with h0 | h0
  · rw [h0]
    refine ⟨0, by rcases D with _ | _ | D <;> rfl, ?_⟩
    refine hcomb (k := 0) ?_ (Nat.zero_le _)
    have : X.N = ∅ := Finset.card_eq_zero.mp (by omega)
    rw [this, X.V_empty]
    exact Near.refl 0
  · have hNe : X.N.Nonempty := Finset.card_pos.mp (by omega)
    have hL : ∀ i < D + 1, X.L i X.N = G i := by
      intro i hi
      rw [Ctx.L, List.filter_eq_self]
      intro a ha
      simpa using (X.mem_G i hi a).1 ha
    have hring : ∀ i < D + 1, IsRing (s.next · i) (s.prev · i) (X.L i X.N) := by
      intro i hi
      rw [hL i hi]
      exact (hG i hi).2.2
    have hDcases : D = 0 ∨ D = 1 ∨ D = 2 := by omega
    rcases hDcases with rfl | rfl | rfl
    · obtain ⟨v, e, hn⟩ := Ctx.hvRec_zero_near (X := X) hcv (by show 0 < 0 + 1; omega) pts.length le_rfl hNe
        (hring 0 (by omega))
      rw [hcard] at e
      exact ⟨v, by rw [e], hcomb (k := 0) (by rw [hn]; exact Near.refl _) (by omega)⟩
    · obtain ⟨v, e, hn⟩ := Ctx.hvRec_one_near (X := X) hr hcv (by show 1 < 1 + 1; omega) hcard.le le_rfl hNe
        (hring 1 (by omega))
      rw [hcard] at e
      exact ⟨v, by rw [e], hcomb hn (by omega)⟩
    · obtain ⟨v, s', e, hn⟩ := Ctx.level_near (X := X) (s := s) hr hcv (by show 2 < 2 + 1; omega) le_rfl hcard.le hNe
        (fun i hi => hring i (by omega)) hflag (fun z hz => by
          rw [hb, Rnd.val_le, hcv]
          show -((10 ^ 308 : ℕ) : ℝ) ≤ _
          rw [Nat.cast_pow, Nat.cast_ofNat]
          obtain ⟨p, hp, h1⟩ := hcargo z hz
          have h2 := (h1 2 (by omega)).2
          have h3 := hrange rfl p (hmem p hp).1 (hmem p hp).2
          have h4 := Rnd.val_le.mp ((hmem p hp).2 2 (by omega))
          rw [pow_one] at h2
          generalize (10 : ℝ) ^ 308 = B at *
          nlinarith)
      rw [hcard] at e
      obtain ⟨m, hm⟩ : ∃ m, pts.length = m + 1 := ⟨pts.length - 1, by omega⟩
      refine ⟨v, ?_, hcomb hn (by omega)⟩
      have e' : hvRec (cargoOf pts) pts.length 2 pts.length s = some (v, s') := by
        rw [← e]
        conv_lhs => rw [show hvRec (cargoOf pts) pts.length 2 pts.length s =
          hvRec (cargoOf pts) pts.length 2 (m + 1) s by rw [← hm]]
        conv_rhs => rw [show level (cargoOf pts) pts.length (hvRec (cargoOf pts) pts.length 1) 2 pts.length s =
          level (cargoOf pts) pts.length (hvRec (cargoOf pts) pts.length 1) 2 (m + 1) s by rw [← hm]]
        rfl
      rw [e']

end Verif.HV
