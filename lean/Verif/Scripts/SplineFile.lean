import Mathlib.Tactic.TypeStar

/-!
# `read_bspline_csv` (examples/HVSS/utils.py 8-46, examples/subset_selection/utils.py 10-48)

A file is the list of its lines, a line the list of its characters. `float` and the truncation `int` are parameters. A
`ValueError` of `float` is `none`.
-/

namespace Verif.Scripts

/-- `str.strip` (utils.py 16 and 39). -/
def strip (s : List Char) : List Char := ((s.dropWhile Char.isWhitespace).reverse.dropWhile Char.isWhitespace).reverse

/-- `str.lower` (utils.py 21, 25 and 28), for ASCII letters. -/
def lower (s : List Char) : List Char := s.map Char.toLower

/-- `line.split(",")` (utils.py 33 and 37). -/
def splitComma : List Char → List (List Char)
  | [] => [[]]
  | c :: cs => if c = ',' then [] :: splitComma cs else
    match splitComma cs with
    | [] => [[c]]
    | p :: ps => (c :: p) :: ps

/-- The variable `mode` (utils.py 12). -/
inductive ReadMode
  | points
  | knots
  | degree
  deriving DecidableEq

/-- The variables `points`, `knots` and `degree` (utils.py 9-11). -/
structure SplineData (K : Type*) where
  points : List (List K)
  knots : List K
  degree : Option Int

/-- The loop over the cells of a line of knots (utils.py 38-40). -/
def readKnots {K : Type*} (float : List Char → Option K) : List (List Char) → List K → Option (List K)
  | [], ks => some ks
  | p :: ps, ks => if strip p = [] then readKnots float ps ks else
    match float (strip p) with
    | none => none
    | some k => readKnots float ps (ks ++ [k])

/-- The loop over the lines (utils.py 15-42); `num` is `line_num`. -/
def readSpline {K : Type*} (float : List Char → Option K) (toInt : K → Int) : Nat → List (List Char) → ReadMode → SplineData K →
    Option (SplineData K)
  | _, [], _, d => some d
  | num, l :: ls, mode, d =>
    let line := strip l
    if line = [] then readSpline float toInt (num + 1) ls mode d
    else if num = 0 ∧ lower line = "x,y,z".toList then readSpline float toInt (num + 1) ls mode d
    else if "knot".toList.isPrefixOf (lower line) then readSpline float toInt (num + 1) ls .knots d
    else if "degree".toList.isPrefixOf (lower line) then readSpline float toInt (num + 1) ls .degree d
    else
      match mode with
      | .points =>
        let parts := splitComma line
        if parts.length = 3 then
          match parts.mapM float with
          | none => none
          | some p => readSpline float toInt (num + 1) ls mode { d with points := d.points ++ [p] }
        else readSpline float toInt (num + 1) ls mode d
      | .knots =>
        match readKnots float (splitComma line) d.knots with
        | none => none
        | some ks => readSpline float toInt (num + 1) ls mode { d with knots := ks }
      | .degree =>
        match float line with
        | none => none
        | some x => readSpline float toInt (num + 1) ls mode { d with degree := some (toInt x) }

/-- `read_bspline_csv` (utils.py 8-46). -/
def readBsplineCsv {K : Type*} (float : List Char → Option K) (toInt : K → Int) (lines : List (List Char)) :
    Option (SplineData K) :=
  readSpline float toInt 0 lines .points ⟨[], [], none⟩

end Verif.Scripts
