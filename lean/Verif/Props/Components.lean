import Verif.Props.DpN
import Verif.Props.MMDN

/-!
# C71 and C72 with unsuitable reference sets

The iterations of `DpN` and of `MMDNewton` with matching raise if the reference set has several components one of which
is not closest to any point, or one component with fewer points than the approximation set.
-/

set_option linter.unusedSectionVars false

namespace Verif.Props

open Verif.Opt Verif.Ind Verif.Util Verif.HV

/-- A component of the reference set that is not closest to any of the points. -/
def Unused {P K : Type*} [LT K] (dist : P → P → K) (ref : List (List P)) (Y : List P) : Prop :=
  ∃ C ∈ ref, ∀ y ∈ Y, ∃ C' ∈ ref, ∃ r ∈ C', ∀ q ∈ C, dist r y < dist q y

section

variable {P K : Type*} [AddCommMonoid K] [LinearOrder K] [Zero P]

/-- Several components, one of which is not closest to any point: `linear_sum_assignment` raises. -/
theorem match_unused {env : MatchEnv P K} {S : RefSet P} {Y : List P} (h2 : 2 ≤ S.ref.length) (hi : S.yIdx = none)
    (hr : S.reMatch = true) (hu : Unused env.dist S.ref Y) : S.match env Y = none := by
  unfold RefSet.match
  rw [if_neg (by simp [hr])]
  cases hp : S.partition env Y with
  | none => rfl
  | some cp =>
    obtain ⟨c, parts⟩ := cp
    obtain ⟨h1, h3, -, -, h4⟩ := partition_spec hp
    obtain ⟨h5, -, h6⟩ := h4 (by omega) hi
    obtain ⟨C, hC, hn⟩ := hu
    obtain ⟨k, hk, rfl⟩ := List.getElem_of_mem hC
    have hkc : k < c.length := by omega
    obtain ⟨Yc, g1, g2⟩ := h3 k c[k] (List.getElem?_eq_getElem hkc)
    have he : c[k] = [] := by
      rw [List.eq_nil_iff_forall_not_mem]
      intro i hi
      have hiY : i < Y.length := by
        obtain ⟨-, hg⟩ := mapM_eq_some.mp g2
        obtain ⟨j, hj, rfl⟩ := List.getElem_of_mem hi
        have := hg j hj
        by_contra hlt
        rw [List.getElem?_eq_none (not_lt.mp hlt)] at this
        rw [List.getElem?_eq_getElem (by
          obtain ⟨hl, -⟩ := mapM_eq_some.mp g2
          omega)] at this
        simp at this
      obtain ⟨C1, e1, r, hr, hmin⟩ := label_spec (h6 k c[k] (List.getElem?_eq_getElem hkc) i Y[i] hi
        (List.getElem?_eq_getElem hiY))
      rw [List.getElem?_eq_getElem hk, Option.some.injEq] at e1
      subst e1
      obtain ⟨C', hC', r', hr', hlt⟩ := hn Y[i] (List.getElem_mem hiY)
      exact absurd (hmin C' hC' r' hr') (not_le.mpr (hlt r hr))
    have hYc : Yc = [] := by
      rw [he] at g2
      exact (Option.some.inj g2).symm
    subst hYc
    have hm : S.matchComponents env parts = none := by
      unfold RefSet.matchComponents
      rw [if_neg (by omega), if_neg (by omega), if_pos]
      rw [List.any_eq_true]
      exact ⟨[], List.mem_of_getElem? g1, rfl⟩
    rw [Option.bind_some, hm, Option.bind_none]

/-- One component with fewer points than the approximation set: the `assert` fails. -/
theorem match_few {env : MatchEnv P K} {S : RefSet P} {Y C : List P} (h1 : S.ref = [C]) (hr : S.reMatch = true)
    (hlt : C.length < Y.length) : S.match env Y = none := by
  unfold RefSet.match
  rw [if_neg (by simp [hr]), RefSet.partition, if_pos (by simp [h1])]
  dsimp only [Option.bind_some]
  rw [RefSet.matchComponents, if_neg (by simp [h1]), if_pos (by simp [h1])]
  simp [List.range_succ, RefSet.matchStep, h1, hlt]

end

section

variable {K : Type*} [Field K] [LinearOrder K] [IsStrictOrderedRing K] [Inhabited K]

theorem Dpn.images_eq {a : Dpn K} {N0 : ℕ} {t : State K} (ht : Usable a.p (a.p.nVar + a.p.nDual) N0 t) :
    t.Y.map pt = images a t.X := by
  rw [ht.sync.Y, List.map_map]; rfl

/-- C71: `DpN` raises if a component of the reference set is not closest to any point. -/
theorem C71_unused {a : Dpn K} {N : ℕ} {s : DpnState K} (hst : Usable a.p (a.p.nVar + a.p.nDual) N s.state)
    (h2 : 2 ≤ s.ref.ref.length) (hi : s.ref.yIdx = none) (hr : s.ref.reMatch = true)
    (hu : Unused a.env.dist s.ref.ref (images a s.state.X)) : a.iterate s = none := by
  unfold Dpn.iterate
  dsimp only
  rw [Dpn.images_eq hst]
  cases a.gdValue s.ref (images a s.state.X) with
  | none => rfl
  | some g => rw [Option.bind_some, Dpn.igdValue, match_unused h2 hi hr hu]; rfl

/-- C71: `DpN` raises if there are fewer reference points than points. -/
theorem C71_few {a : Dpn K} {N : ℕ} {s : DpnState K} (hst : Usable a.p (a.p.nVar + a.p.nDual) N s.state)
    {C : List (ℕ → K)} (h1 : s.ref.ref = [C]) (hr : s.ref.reMatch = true) (hlt : C.length < s.state.X.length) :
    a.iterate s = none := by
  unfold Dpn.iterate
  dsimp only
  rw [Dpn.images_eq hst]
  cases a.gdValue s.ref (images a s.state.X) with
  | none => rfl
  | some g => rw [Option.bind_some, Dpn.igdValue, match_few h1 hr (by simpa [images] using hlt)]; rfl

variable (K) in
/-- That every iteration returns: for all reference sets with one direction for each component and at least as many
points in all as the approximation set. -/
def C71Returns : Prop :=
  ∀ (a : Dpn K) (S : RefSet (ℕ → K)) (X0 : List (List K)) (s : DpnState K), a.Ok → X0 ≠ [] → S.ref ≠ [] →
    (∀ C ∈ S.ref, C ≠ []) → S.eta.length = S.ref.length → S.reMatch = true → S.matched = none →
    X0.length ≤ S.ref.flatten.length → a.start S X0 = some s → (a.iterate s).isSome

/-- Two components: `(0, 1)` and `(10, 10)`, both with the direction `(-1, -1)`. -/
def apartRef : RefSet (ℕ → ℚ) :=
  RefSet.new [[fun k => if k = 1 then 1 else 0], [fun _ => 10]] [fun _ => -1, fun _ => -1] none

/-- It does not hold: one point and two components. -/
theorem C71_violated : ¬ C71Returns ℚ := by
  intro h
  have hs : ((lineDpn .igd fun x : ℚ => x).start apartRef [[1 / 4]]).isSome := by decide +kernel
  obtain ⟨s, hs⟩ := Option.isSome_iff_exists.mp hs
  have := h _ apartRef [[1 / 4]] s (lineDpn_ok .igd fun x : ℚ => x) (by simp) (by simp [apartRef, RefSet.new])
    (by simp [apartRef, RefSet.new]) rfl rfl rfl (by simp [apartRef, RefSet.new]) hs
  have h2 : ((lineDpn .igd fun x : ℚ => x).start apartRef [[1 / 4]]).bind (fun s =>
      ((lineDpn .igd fun x : ℚ => x).iterate s).map fun s => s.state.X) = none := by decide +kernel
  rw [hs, Option.bind_some, Option.map_eq_none_iff] at h2
  rw [h2] at this
  simp at this

/-- The hypotheses of `C71_few`: two points and one reference point. -/
example : ((lineDpn .igd fun x : ℚ => x).start cornerRef [[1 / 4], [1 / 2]]).map (fun s =>
    (s.state.X.length, s.ref.ref.map List.length, ((lineDpn .igd fun x : ℚ => x).iterate s).isSome)) =
    some (2, [1], false) := by decide +kernel

/-- The hypothesis of `C71_unused` and `C72_unused` on the points. -/
example : Unused (fun y r : ℕ → ℚ => (y 0 - r 0) ^ 2 + (y 1 - r 1) ^ 2) apartRef.ref [fun _ => 1 / 2] := by
  refine ⟨[fun _ => 10], by simp [apartRef, RefSet.new], ?_⟩
  intro y hy
  obtain rfl : y = fun _ => 1 / 2 := by simpa using hy
  refine ⟨[fun k => if k = 1 then 1 else 0], by simp [apartRef, RefSet.new], _, List.mem_singleton.mpr rfl, ?_⟩
  intro q hq
  obtain rfl : q = fun _ => 10 := by simpa using hq
  norm_num

end

/-- C72: with matching, `MMDNewton` raises if a component of the reference set is not closest to any point. -/
theorem C72_unused {a : Mmdn} {N : ℕ} {s : MmdnState} (hst : Usable a.p (a.p.nVar + a.p.nDual) N s.state)
    (hm : a.matching = true) (h2 : 2 ≤ s.ref.ref.length) (hi : s.ref.yIdx = none) (hr : s.ref.reMatch = true)
    (hu : Unused a.env.dist s.ref.ref (mmdImages a s.state.X)) : a.iterate s = none := by
  unfold Mmdn.iterate
  dsimp only
  rw [Mmdn.images_eq hst, Mmdn.value, if_pos hm, match_unused h2 hi hr hu]
  rfl

/-- C72: with matching, `MMDNewton` raises if there are fewer reference points than points. -/
theorem C72_few_matching {a : Mmdn} {N : ℕ} {s : MmdnState} (hst : Usable a.p (a.p.nVar + a.p.nDual) N s.state)
    (hm : a.matching = true) {C : List (ℕ → ℝ)} (h1 : s.ref.ref = [C]) (hr : s.ref.reMatch = true)
    (hlt : C.length < s.state.X.length) : a.iterate s = none := by
  unfold Mmdn.iterate
  dsimp only
  rw [Mmdn.images_eq hst, Mmdn.value, if_pos hm, match_few h1 hr (by simpa [mmdImages] using hlt)]
  rfl

/-- The hypotheses of `C72_few_matching`: two points and one reference point. -/
example : ∃ s, (lineMmdn true).start highRef [[0], [1]] = some s ∧ (lineMmdn true).iterate s = none := by
  unfold Mmdn.start
  rw [if_pos (by simp [lineMmdn, lineFuncs])]
  obtain ⟨t, u1, u2, u3, -⟩ := Usable.update (lineMmdn_ok true).funcs
    (Nat.le_add_right (lineMmdn true).p.nVar (lineMmdn true).p.nDual) State.init (N0 := 2)
    (X := [[0], [1]].map fun x => (lineMmdn true).clipRow x ++ List.replicate (lineMmdn true).p.nDual 0) (by simp) (by simp)
    (by simp [lineMmdn, lineFuncs, Funcs.nDual, Mmdn.clipRow])
  rw [u1]
  exact ⟨_, rfl, C72_few_matching (N := 2) u3 rfl rfl rfl (by
    show 1 < t.X.length
    rw [u2]; simp)⟩

end Verif.Props
