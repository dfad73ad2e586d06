import Verif.Scripts.SplineFile
import Mathlib.Data.List.Basic
import Mathlib.Data.List.Forall2

/-!
# C89: reading splines
-/

namespace Verif.Props

open Verif.Scripts

variable {K : Type*}

/-! ## Specification -/

/-- A text of blanks. -/
def Blank (s : List Char) : Prop := ∀ c ∈ s, c.isWhitespace = true

/-- The text of a number: digits, signs, points and exponents. -/
def NumberText (s : List Char) : Prop := s ≠ [] ∧ ∀ c ∈ s, c ∈ "0123456789+-.eE".toList

/-- A cell with blanks around its content: nothing or a number. -/
inductive Cell (float : List Char → Option K) : List Char → Option K → Prop
  | empty {s : List Char} : Blank s → Cell float s none
  | number {s a t : List Char} {x : K} : Blank s → NumberText a → Blank t → float a = some x → Cell float (s ++ a ++ t) (some x)

/-- Cells separated by commas. -/
inductive Cells (float : List Char → Option K) : List Char → List (Option K) → Prop
  | one {s : List Char} {x : Option K} : Cell float s x → Cells float s [x]
  | comma {s t : List Char} {x : Option K} {xs : List (Option K)} : Cell float s x → Cells float t xs →
    Cells float (s ++ ',' :: t) (x :: xs)

/-- `float` ignores blanks at both ends. -/
def FloatStrips (float : List Char → Option K) : Prop :=
  ∀ s a t, Blank s → Blank t → NumberText a → float (s ++ a ++ t) = float a

/-- The lines of the control points: blank lines and lines with three numbers. -/
def PointLines (float : List Char → Option K) (lines : List (List Char)) (ps : List (List K)) : Prop :=
  ∃ rows : List (List (Option K)), List.Forall₂ (Cells float) lines rows ∧
    (∀ r ∈ rows, r = [none] ∨ ∃ x y z, r = [some x, some y, some z]) ∧
    ps = (rows.map (List.filterMap id)).filter fun r => r ≠ ([] : List K)

/-- The lines of the knots: any numbers in any lines. -/
def KnotLines (float : List Char → Option K) (lines : List (List Char)) (ks : List K) : Prop :=
  ∃ rows : List (List (Option K)), List.Forall₂ (Cells float) lines rows ∧ ks = (rows.map (List.filterMap id)).flatten

/-- A file with the spline `ps`, `ks`, degree `x`. The parts begin with lines `knot...` and `degree...`. -/
structure SplineFile (float : List Char → Option K) (header points knots degree : List (List Char)) (ps : List (List K))
    (ks : List K) (x : K) : Prop where
  points : PointLines float points ps
  knots : KnotLines float knots ks
  degree : ∃ b l b', degree = b ++ l :: b' ∧ (∀ s ∈ b, Blank s) ∧ (∀ s ∈ b', Blank s) ∧ Cell float l (some x)
  header : header = [] ∨ header = ["x,y,z".toList]

/-! ## Lemmas -/

/-- The characters of the cells. -/
def safe (c : Char) : Prop := c.isWhitespace = true ∨ c ∈ "0123456789+-.eE".toList ∨ c = ','

theorem not_white {c : Char} (h : c ∈ "0123456789+-.eE".toList) : c.isWhitespace = false ∧ c ≠ ',' := by
  have : ∀ c ∈ "0123456789+-.eE".toList, c.isWhitespace = false ∧ c ≠ ',' := by decide
  exact this c h

theorem blank_no_comma {s : List Char} (h : Blank s) : ',' ∉ s := fun hc => by
  have := h _ hc
  revert this
  decide

theorem cell_safe {float : List Char → Option K} {s : List Char} {x : Option K} (h : Cell float s x) :
    (∀ c ∈ s, safe c) ∧ ',' ∉ s := by
  cases h with
  | empty h => exact ⟨fun c hc => Or.inl (h c hc), blank_no_comma h⟩
  | number h1 h2 h3 h4 =>
    constructor
    · intro c hc
      rcases List.mem_append.mp hc with hc | hc
      · rcases List.mem_append.mp hc with hc | hc
        · exact Or.inl (h1 c hc)
        · exact Or.inr (Or.inl (h2.2 c hc))
      · exact Or.inl (h3 c hc)
    · intro hc
      rcases List.mem_append.mp hc with hc | hc
      · rcases List.mem_append.mp hc with hc | hc
        · exact blank_no_comma h1 hc
        · exact (not_white (h2.2 _ hc)).2 rfl
      · exact blank_no_comma h3 hc

theorem cells_safe {float : List Char → Option K} {s : List Char} {xs : List (Option K)} (h : Cells float s xs) :
    ∀ c ∈ s, safe c := by
  induction h with
  | one h => exact (cell_safe h).1
  | comma h _ ih =>
    intro c hc
    rcases List.mem_append.mp hc with hc | hc
    · exact (cell_safe h).1 c hc
    · rcases List.mem_cons.mp hc with rfl | hc
      · exact Or.inr (Or.inr rfl)
      · exact ih c hc

theorem splitComma_none {s : List Char} (h : ',' ∉ s) : splitComma s = [s] := by
  induction s with
  | nil => rfl
  | cons c s ih =>
    simp only [List.mem_cons, not_or] at h
    rw [splitComma, if_neg (fun e => h.1 e.symm), ih h.2]

theorem splitComma_append {s t : List Char} (h : ',' ∉ s) : splitComma (s ++ ',' :: t) = s :: splitComma t := by
  induction s with
  | nil => rfl
  | cons c s ih =>
    simp only [List.mem_cons, not_or] at h
    rw [List.cons_append, splitComma, if_neg (fun e => h.1 e.symm), ih h.2]

theorem splitComma_cells {float : List Char → Option K} {s : List Char} {xs : List (Option K)} (h : Cells float s xs) :
    List.Forall₂ (Cell float) (splitComma s) xs := by
  induction h with
  | one h =>
    rw [splitComma_none (cell_safe h).2]
    exact .cons h .nil
  | comma h _ ih =>
    rw [splitComma_append (cell_safe h).2]
    exact .cons h ih

/-- `str.lstrip` and `str.rstrip`. -/
def lstrip (s : List Char) : List Char := s.dropWhile Char.isWhitespace

def rstrip (s : List Char) : List Char := (s.reverse.dropWhile Char.isWhitespace).reverse

theorem strip_eq (s : List Char) : strip s = rstrip (lstrip s) := rfl

theorem dropWhile_all {p : Char → Bool} {s t : List Char} (h : ∀ c ∈ s, p c = true) : (s ++ t).dropWhile p = t.dropWhile p := by
  induction s with
  | nil => rfl
  | cons c s ih =>
    rw [List.cons_append, List.dropWhile_cons_of_pos (h c (by simp)), ih fun d hd => h d (by simp [hd])]

theorem dropWhile_stop {p : Char → Bool} {s t : List Char} {c : Char} (hc : p c = false) :
    (s ++ c :: t).dropWhile p = s.dropWhile p ++ c :: t := by
  induction s with
  | nil => simp [hc]
  | cons d s ih =>
    rw [List.cons_append, List.dropWhile_cons, List.dropWhile_cons]
    split
    · exact ih
    · rfl

theorem dropWhile_number {a t : List Char} (h : NumberText a) : (a ++ t).dropWhile Char.isWhitespace = a ++ t := by
  obtain ⟨h1, h2⟩ := h
  cases a with
  | nil => exact absurd rfl h1
  | cons c a =>
    rw [List.cons_append, List.dropWhile_cons_of_neg]
    simp [(not_white (h2 c (by simp))).1]

theorem number_reverse {a : List Char} (h : NumberText a) : NumberText a.reverse :=
  ⟨by simpa using h.1, fun c hc => h.2 c (by simpa using hc)⟩

theorem lstrip_cell {float : List Char → Option K} {s : List Char} {x : Option K} (h : Cell float s x) :
    Cell float (lstrip s) x := by
  unfold lstrip
  cases h with
  | empty h =>
    have := dropWhile_all (t := []) h
    rw [List.append_nil] at this
    rw [this]
    exact .empty (by simp [Blank])
  | number h1 h2 h3 h4 =>
    rw [List.append_assoc, dropWhile_all h1, dropWhile_number h2]
    exact Cell.number (s := []) (by simp [Blank]) h2 h3 h4

theorem rstrip_cell {float : List Char → Option K} {s : List Char} {x : Option K} (h : Cell float s x) :
    Cell float (rstrip s) x := by
  unfold rstrip
  cases h with
  | empty h =>
    have := dropWhile_all (s := s.reverse) (t := []) (p := Char.isWhitespace) fun c hc => h c (by simpa using hc)
    rw [List.append_nil] at this
    rw [this]
    exact .empty (by simp [Blank])
  | @number s a t x h1 h2 h3 h4 =>
    rw [List.reverse_append, List.reverse_append, dropWhile_all (fun c hc => h3 c (by simpa using hc)),
      dropWhile_number (number_reverse h2), List.reverse_append, List.reverse_reverse, List.reverse_reverse]
    have := Cell.number (t := []) h1 h2 (by simp [Blank]) h4
    rwa [List.append_nil] at this

theorem lstrip_cells {float : List Char → Option K} {s : List Char} {xs : List (Option K)} (h : Cells float s xs) :
    Cells float (lstrip s) xs := by
  cases h with
  | one h => exact .one (lstrip_cell h)
  | comma h ht =>
    unfold lstrip
    rw [dropWhile_stop (by decide)]
    exact .comma (lstrip_cell h) ht

theorem rstrip_cells {float : List Char → Option K} {s : List Char} {xs : List (Option K)} (h : Cells float s xs) :
    Cells float (rstrip s) xs := by
  induction h with
  | one h => exact .one (rstrip_cell h)
  | @comma s t x xs h _ ih =>
    have : rstrip (s ++ ',' :: t) = s ++ ',' :: rstrip t := by
      unfold rstrip
      rw [List.reverse_append, List.reverse_cons, List.append_assoc, List.singleton_append, dropWhile_stop (by decide)]
      simp
    rw [this]
    exact .comma h ih

theorem strip_cells {float : List Char → Option K} {s : List Char} {xs : List (Option K)} (h : Cells float s xs) :
    Cells float (strip s) xs := rstrip_cells (lstrip_cells h)

theorem strip_cell {float : List Char → Option K} {s : List Char} {x : Option K} (h : Cell float s x) :
    Cell float (strip s) x := rstrip_cell (lstrip_cell h)

theorem strip_blank {s : List Char} (h : Blank s) : strip s = [] := by
  have := dropWhile_all (t := []) h
  rw [List.append_nil] at this
  unfold strip
  rw [this]
  rfl

/-- A number has text after the blanks are removed. -/
theorem strip_number_ne {float : List Char → Option K} {s : List Char} {x : K} (h : Cell float s (some x)) : strip s ≠ [] := by
  intro h0
  have := strip_cell h
  rw [h0] at this
  generalize ht : ([] : List Char) = t at this
  cases this with
  | number h1 h2 h3 h4 =>
    have := congrArg List.length ht
    have hp := List.length_pos_of_ne_nil h2.1
    simp at this
    omega

theorem float_cell {float : List Char → Option K} (hf : FloatStrips float) {s : List Char} {x : K}
    (h : Cell float s (some x)) : float s = some x := by
  cases h with
  | number h1 h2 h3 h4 => rw [hf _ _ _ h1 h3 h2, h4]

/-- Lines of cells are no headers. -/
theorem no_header {l : List Char} (h : ∀ c ∈ l, safe c) (h0 : l ≠ []) :
    lower l ≠ "x,y,z".toList ∧ "knot".toList.isPrefixOf (lower l) = false ∧ "degree".toList.isPrefixOf (lower l) = false := by
  cases l with
  | nil => exact absurd rfl h0
  | cons c l =>
    have hc := h c (by simp)
    have key : c.toLower ≠ 'x' ∧ c.toLower ≠ 'k' ∧ c.toLower ≠ 'd' := by
      rcases hc with hc | hc | rfl
      · unfold Char.isWhitespace at hc
        simp only [Bool.or_eq_true, decide_eq_true_eq] at hc
        rcases hc with ((rfl | rfl) | rfl) | rfl <;> decide
      · have : ∀ c ∈ "0123456789+-.eE".toList, c.toLower ≠ 'x' ∧ c.toLower ≠ 'k' ∧ c.toLower ≠ 'd' := by decide
        exact this c hc
      · decide
    refine ⟨fun e => key.1 (List.cons.inj e).1, ?_, ?_⟩
    · simp [lower, List.isPrefixOf, key.2.1.symm]
    · simp [lower, List.isPrefixOf, key.2.2.symm]

theorem readKnots_cells {float : List Char → Option K} (hf : FloatStrips float) {ps : List (List Char)} {xs : List (Option K)}
    (h : List.Forall₂ (Cell float) ps xs) (ks : List K) : readKnots float ps ks = some (ks ++ xs.filterMap id) := by
  induction h generalizing ks with
  | nil => simp [readKnots]
  | @cons p x ps xs hp _ ih =>
    unfold readKnots
    cases x with
    | none =>
      have : strip p = [] := by
        cases hp with
        | empty h => exact strip_blank h
      rw [if_pos this, ih]
      simp
    | some x =>
      rw [if_neg (strip_number_ne hp), float_cell hf (strip_cell hp)]
      dsimp only
      rw [ih]
      simp

/-- The lines of control points. -/
theorem readPoints_lines {float : List Char → Option K} (hf : FloatStrips float) (toInt : K → Int) {lines : List (List Char)}
    {rows : List (List (Option K))} (h : List.Forall₂ (Cells float) lines rows)
    (hr : ∀ r ∈ rows, r = [none] ∨ ∃ x y z, r = [some x, some y, some z]) (num : ℕ) (rest : List (List Char)) (d : SplineData K) :
    readSpline float toInt num (lines ++ rest) .points d = readSpline float toInt (num + lines.length) rest .points
      { d with points := d.points ++ (rows.map (List.filterMap id)).filter fun r => r ≠ ([] : List K) } := by
  induction h generalizing num d with
  | nil => simp
  | @cons l r lines rows hl _ ih =>
    have ih := ih fun r hr' => hr r (by simp [hr'])
    rw [List.cons_append, readSpline.eq_def]
    dsimp only
    rcases hr r (by simp) with rfl | ⟨x, y, z, rfl⟩
    · have hb : strip l = [] := by
        cases hl with
        | one h => cases h with
          | empty h => exact strip_blank h
        | comma _ h => cases h
      rw [if_pos hb, ih]
      simp [Nat.add_assoc, Nat.add_comm 1]
    · have hs := strip_cells hl
      have hsp := splitComma_cells hs
      have hne : strip l ≠ [] := by
        intro e
        rw [e] at hsp
        simp [splitComma] at hsp
      obtain ⟨n1, n2, n3⟩ := no_header (cells_safe hs) hne
      rw [if_neg hne, if_neg (fun e => n1 e.2), if_neg (by rw [n2]; decide), if_neg (by rw [n3]; decide)]
      generalize hq : splitComma (strip l) = q at hsp
      cases hsp with
      | @cons p1 _ _ _ h1 hsp => cases hsp with
        | @cons p2 _ _ _ h2 hsp => cases hsp with
          | @cons p3 _ _ _ h3 hsp => cases hsp with
            | nil =>
              rw [if_pos (show [p1, p2, p3].length = 3 from rfl)]
              simp only [List.mapM_cons, List.mapM_nil, float_cell hf h1, float_cell hf h2, float_cell hf h3]
              simp only [Option.pure_def, Option.bind_eq_bind, Option.bind_some]
              rw [ih]
              simp [Nat.add_assoc, Nat.add_comm 1]

/-- The lines of knots. -/
theorem readKnots_lines {float : List Char → Option K} (hf : FloatStrips float) (toInt : K → Int) {lines : List (List Char)}
    {rows : List (List (Option K))} (h : List.Forall₂ (Cells float) lines rows) (num : ℕ) (rest : List (List Char))
    (d : SplineData K) :
    readSpline float toInt num (lines ++ rest) .knots d = readSpline float toInt (num + lines.length) rest .knots
      { d with knots := d.knots ++ (rows.map (List.filterMap id)).flatten } := by
  induction h generalizing num d with
  | nil => simp
  | @cons l r lines rows hl _ ih =>
    rw [List.cons_append, readSpline.eq_def]
    dsimp only
    have hs := strip_cells hl
    by_cases hne : strip l = []
    · have hsp := splitComma_cells hs
      rw [hne] at hsp
      have hr : r.filterMap id = [] := by
        have := readKnots_cells hf hsp []
        simp [splitComma, readKnots, strip] at this
        simpa using this
      rw [if_pos hne, ih, List.map_cons, List.flatten_cons, hr, List.nil_append]
      simp [Nat.add_assoc, Nat.add_comm 1]
    · obtain ⟨n1, n2, n3⟩ := no_header (cells_safe hs) hne
      rw [if_neg hne, if_neg (fun e => n1 e.2), if_neg (by rw [n2]; decide), if_neg (by rw [n3]; decide),
        readKnots_cells hf (splitComma_cells hs)]
      dsimp only
      rw [ih]
      simp [Nat.add_assoc, Nat.add_comm 1]

theorem readBlank_lines {float : List Char → Option K} (toInt : K → Int) {lines : List (List Char)}
    (h : ∀ s ∈ lines, Blank s) (num : ℕ) (rest : List (List Char)) (m : ReadMode) (d : SplineData K) :
    readSpline float toInt num (lines ++ rest) m d = readSpline float toInt (num + lines.length) rest m d := by
  induction lines generalizing num with
  | nil => simp
  | cons l lines ih =>
    rw [List.cons_append, readSpline.eq_def]
    dsimp only
    rw [if_pos (strip_blank (h l (by simp))), ih fun s hs => h s (by simp [hs])]
    simp [Nat.add_assoc, Nat.add_comm 1]

/-! ## C89 -/

/-- C89, for files with the header in the first line, or without: the spline is read. What is missing: blank lines before the
header, and an error for rows that are no points. -/
theorem C89_read_partial {float : List Char → Option K} (hf : FloatStrips float) (toInt : K → Int)
    {header points knots degree : List (List Char)} {ps : List (List K)} {ks : List K} {x : K}
    (h : SplineFile float header points knots degree ps ks x) :
    readBsplineCsv float toInt (header ++ points ++ "knots".toList :: knots ++ "degree".toList :: degree) =
      some ⟨ps, ks, some (toInt x)⟩ := by
  obtain ⟨⟨rows, hp, hr, rfl⟩, ⟨rows', hk, rfl⟩, ⟨b, l, b', rfl, hb, hb', hl⟩, hh⟩ := h
  have main : ∀ num d, readSpline float toInt num (points ++ "knots".toList :: (knots ++ "degree".toList :: (b ++ l :: b'))) .points d =
      some ⟨d.points ++ (rows.map (List.filterMap id)).filter fun r => r ≠ ([] : List K),
        d.knots ++ (rows'.map (List.filterMap id)).flatten, some (toInt x)⟩ := by
    intro num d
    rw [readPoints_lines hf toInt hp hr, readSpline.eq_def]
    dsimp only
    rw [if_neg (by decide), if_neg (fun e => absurd e.2 (by decide)), if_pos (by decide), readKnots_lines hf toInt hk, readSpline.eq_def]
    dsimp only
    rw [if_neg (by decide), if_neg (fun e => absurd e.2 (by decide)), if_neg (by decide), if_pos (by decide),
      readBlank_lines toInt hb, readSpline.eq_def]
    dsimp only
    have hs := strip_cell hl
    obtain ⟨n1, n2, n3⟩ := no_header (cell_safe hs).1 (strip_number_ne hl)
    rw [if_neg (strip_number_ne hl), if_neg (fun e => n1 e.2), if_neg (by rw [n2]; decide), if_neg (by rw [n3]; decide), float_cell hf hs]
    dsimp only
    have := readBlank_lines (float := float) toInt hb' (num + points.length + 1 + knots.length + 1 + b.length + 1) [] .degree
      (⟨d.points ++ (rows.map (List.filterMap id)).filter fun r => r ≠ ([] : List K),
        d.knots ++ (rows'.map (List.filterMap id)).flatten, some (toInt x)⟩)
    rw [List.append_nil] at this
    rw [this]
    rfl
  unfold readBsplineCsv
  simp only [List.append_assoc, List.cons_append]
  rcases hh with rfl | rfl
  · rw [List.nil_append, main]
    simp
  · rw [List.singleton_append, readSpline.eq_def]
    dsimp only
    rw [if_neg (by decide), if_pos (by decide), main]
    simp

/-- Decimal digits with blanks around them, as an example of `float`. -/
def digits (s : List Char) : Option ℕ :=
  if strip s ≠ [] ∧ (strip s).all Char.isDigit then some ((strip s).foldl (fun n c => 10 * n + (c.toNat - 48)) 0) else none

theorem strip_number {s a t : List Char} (h1 : Blank s) (h2 : NumberText a) (h3 : Blank t) : strip (s ++ a ++ t) = a := by
  unfold strip
  rw [List.append_assoc, dropWhile_all h1, dropWhile_number h2, List.reverse_append,
    dropWhile_all (fun c hc => h3 c (by simpa using hc))]
  have := dropWhile_number (t := []) (number_reverse h2)
  rw [List.append_nil] at this
  rw [this, List.reverse_reverse]

theorem floatStrips_digits : FloatStrips digits := by
  intro s a t h1 h3 h2
  have h := strip_number (s := []) (t := []) (by simp [Blank]) h2 (by simp [Blank])
  rw [List.append_nil, List.nil_append] at h
  unfold digits
  rw [strip_number h1 h2 h3, h]

theorem cell_digits {a : List Char} {x : ℕ} (h : NumberText a) (hx : digits a = some x) : Cell digits a (some x) := by
  have := Cell.number (s := []) (t := []) (by simp [Blank]) h (by simp [Blank]) hx
  rwa [List.append_nil, List.nil_append] at this

theorem cells_digits {a b c : List Char} {x y z : ℕ} (ha : NumberText a) (hx : digits a = some x) (hb : NumberText b)
    (hy : digits b = some y) (hc : NumberText c) (hz : digits c = some z) :
    Cells digits (a ++ ',' :: (b ++ ',' :: c)) [some x, some y, some z] :=
  .comma (cell_digits ha hx) (.comma (cell_digits hb hy) (.one (cell_digits hc hz)))

/-- A file with a header, two points with a blank line between them, three knots in two lines, and a degree. -/
theorem splineFile_example : SplineFile digits ["x,y,z".toList] ["1,2,0".toList, " ".toList, "3,4,0".toList]
    ["0, 5,".toList, "12".toList] [" ".toList, "3".toList] [[1, 2, 0], [3, 4, 0]] [0, 5, 12] 3 where
  points := ⟨[[some 1, some 2, some 0], [none], [some 3, some 4, some 0]],
    .cons (cells_digits (a := ['1']) (b := ['2']) (c := ['0']) ⟨by decide, by decide⟩ (by decide) ⟨by decide, by decide⟩
      (by decide) ⟨by decide, by decide⟩ (by decide))
    (.cons (.one (.empty (by unfold Blank; decide)))
    (.cons (cells_digits (a := ['3']) (b := ['4']) (c := ['0']) ⟨by decide, by decide⟩ (by decide) ⟨by decide, by decide⟩
      (by decide) ⟨by decide, by decide⟩ (by decide)) .nil)), by simp, by decide⟩
  knots := ⟨[[some 0, some 5, none], [some 12]],
    .cons (Cells.comma (s := ['0']) (t := [' ', '5', ',']) (cell_digits ⟨by decide, by decide⟩ (by decide))
      (Cells.comma (s := [' ', '5']) (t := []) (Cell.number (s := [' ']) (a := ['5']) (t := []) (by unfold Blank; decide)
        ⟨by decide, by decide⟩ (by simp [Blank]) (by decide)) (.one (.empty (by simp [Blank])))))
    (.cons (.one (cell_digits ⟨by decide, by decide⟩ (by decide))) .nil), by decide⟩
  degree := ⟨[" ".toList], "3".toList, [], rfl, by unfold Blank; decide, by simp, cell_digits ⟨by decide, by decide⟩ (by decide)⟩
  header := .inr rfl

/-- The hypotheses of `C89_read_partial`. -/
example : readBsplineCsv digits Int.ofNat (["x,y,z".toList] ++ ["1,2,0".toList, " ".toList, "3,4,0".toList] ++
    "knots".toList :: ["0, 5,".toList, "12".toList] ++ "degree".toList :: [" ".toList, "3".toList]) =
    some ⟨[[1, 2, 0], [3, 4, 0]], [0, 5, 12], some 3⟩ :=
  C89_read_partial floatStrips_digits Int.ofNat splineFile_example

/-- C89 in full, blank lines: as everywhere else, they may precede the header. -/
def C89Statement (K : Type) : Prop :=
  ∀ (float : List Char → Option K) (toInt : K → Int) (lead header points knots degree : List (List Char)) (ps : List (List K))
    (ks : List K) (x : K), FloatStrips float → (∀ s ∈ lead, Blank s) →
    SplineFile float header points knots degree ps ks x →
    readBsplineCsv float toInt (lead ++ (header ++ points ++ "knots".toList :: knots ++ "degree".toList :: degree)) =
      some ⟨ps, ks, some (toInt x)⟩

/-- C89 does not hold: after a blank line the header is taken for a point, and the function raises. -/
theorem C89_violated : ¬ C89Statement ℕ := by
  intro h
  have := h digits Int.ofNat [[]] _ _ _ _ _ _ _ floatStrips_digits (by simp [Blank]) splineFile_example
  have e : (readBsplineCsv digits Int.ofNat ([[]] ++ (["x,y,z".toList] ++ ["1,2,0".toList, " ".toList, "3,4,0".toList] ++
    "knots".toList :: ["0, 5,".toList, "12".toList] ++ "degree".toList :: [" ".toList, "3".toList]))).isNone = true := by
    decide +kernel
  rw [this] at e
  simp at e

/-- C89 in full, rows: every row of numbers before the knots is a point of the result, or the function raises. -/
def C89StatementRows (K : Type) : Prop :=
  ∀ (float : List Char → Option K) (toInt : K → Int) (points rest : List (List Char)) (rows : List (List K)) (d : SplineData K),
    FloatStrips float → List.Forall₂ (Cells float) points (rows.map (List.map some)) → (∀ r ∈ rows, r ≠ []) →
    readBsplineCsv float toInt (points ++ "knots".toList :: rest) = some d → rows = d.points

/-- C89 does not hold for rows: rows with two columns, all that is needed later, are dropped without an error. -/
theorem C89_violated_rows : ¬ C89StatementRows ℕ := by
  intro h
  have := h digits Int.ofNat ["1,2".toList] [] [[1, 2]] ⟨[], [], none⟩ floatStrips_digits
    (.cons (Cells.comma (s := ['1']) (t := ['2']) (cell_digits ⟨by decide, by decide⟩ (by decide))
      (.one (cell_digits ⟨by decide, by decide⟩ (by decide)))) .nil) (by simp) (by rfl)
  simp at this

/-- Values in the line of a section header are ignored: the file has one knot and the degree 3, the result none. -/
theorem C89_violated_inline : readBsplineCsv digits Int.ofNat ["1,2,0".toList, "knots,5".toList, "degree,3".toList] =
    some ⟨[[1, 2, 0]], [], none⟩ := by rfl

end Verif.Props
