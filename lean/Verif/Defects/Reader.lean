import Verif.Defects.Surface

/-!
# Model of `io/read_sidb_surface_defects.hpp`

The two regular expressions are modelled by the functions that search for their matches; `matchRow_iff` in `ReaderFacts` ties
the first one to its regular expression. Not modelled: the stack that the recursive regular expression matcher of some
standard libraries needs on long rows, and surfaces with more than `2^31` columns or rows.
-/
namespace Verif.Defects

open Verif.Cells Verif.Library Verif.Layouts

/-- `\s`. -/
def isWs (c : Char) : Bool := c = ' ' || c = '\t' || c = '\n' || c = '\x0b' || c = '\x0c' || c = '\r'
/-- `\d`. -/
def isDig (c : Char) : Bool := decide ('0'.toNat ≤ c.toNat) && decide (c.toNat ≤ '9'.toNat)
/-- `\s` or `\d`. -/
def isWd (c : Char) : Bool := isWs c || isDig c

/-- A match of `\[(?:\s*\d+\s*)+\]` at the beginning of the text, read_sidb_surface_defects.hpp:69: what stands between the
brackets, and what follows them. -/
def matchRow : List Char → Option (List Char × List Char)
  | '[' :: cs =>
    let body := cs.takeWhile isWd
    match cs.dropWhile isWd with
    | ']' :: rest => if body.any isDig then some (body, rest) else none
    | _ => none
  | _ => none

/-- All matches from left to right, read_sidb_surface_defects.hpp:102-104; the number bounds the steps of the search and is at
least the length of the text. -/
def search : Nat → List Char → List (List Char)
  | 0, _ => []
  | _ + 1, [] => []
  | n + 1, c :: cs =>
    match matchRow (c :: cs) with
    | some (body, rest) => body :: search n rest
    | none => search n cs

/-- The matches of `(\d+)`, read_sidb_surface_defects.hpp:70, 113-115: the longest runs of digits. -/
def runs : List Char → List Char → List (List Char)
  | acc, [] => if acc = [] then [] else [acc]
  | acc, c :: cs =>
    if isDig c then runs (acc ++ [c]) cs
    else if acc = [] then runs [] cs
    else acc :: runs [] cs

/-- The number a run of digits stands for. -/
def value (ds : List Char) : Nat := ds.foldl (fun n c => 10 * n + (c.toNat - '0'.toNat)) 0

/-- `INDEX_TO_DEFECT`, read_sidb_surface_defects.hpp:75-79. -/
def indexToDefect : List DefectType :=
  [.none, .db, .siVacancy, .dihydridePair, .singleDihydride, .oneByOne, .threeByOne, .siloxane, .raisedSi, .etchPit, .missingDimer]

/-- The exceptions: `missing_sidb_position_exception` with its row, `unsupported_defect_index_exception` with its index, and the
`std::out_of_range` of `std::stoi`. -/
inductive Err
  | missing (row : Nat)
  | unsupported (index : Nat)
  | outOfRange
deriving DecidableEq

/-- The surface and the largest column so far. -/
structure RState where
  surface : Surface CellPos
  maxX : Nat

/-- The loop over the indices of a row, read_sidb_surface_defects.hpp:129-144, from column `x` on. -/
def readRow (y : Nat) : Nat → List (List Char) → Surface CellPos → Except Err (Surface CellPos)
  | _, [], s => .ok s
  | x, ds :: l, s =>
    if value ds ≤ 2147483647 then
      match indexToDefect[value ds]? with
      | some t => readRow y (x + 1) l (s.assign (x, y, 0) (Defect.ofType t))
      | none => .error (.unsupported (value ds))
    else .error .outOfRange

/-- The loop over the rows, read_sidb_surface_defects.hpp:107-145, from row `y` on. -/
def readRows : Nat → List (List Char) → RState → Except Err RState
  | _, [], st => .ok st
  | y, body :: rows, st =>
    let ns := runs [] body
    if ns.length - 1 > st.maxX then
      match readRow y 0 ns st.surface with
      | .ok s => readRows (y + 1) rows ⟨s, ns.length - 1⟩
      | .error e => .error e
    else if ns.length - 1 < st.maxX then .error (.missing y)
    else
      match readRow y 0 ns st.surface with
      | .ok s => readRows (y + 1) rows ⟨s, st.maxX⟩
      | .error e => .error e

/-- `read_sidb_surface_defects`, read_sidb_surface_defects.hpp:90-192: the surface and its aspect ratio. -/
def readSurface (text : List Char) : Except Err (Surface CellPos × Dim) :=
  let rows := search text.length text
  match readRows 0 rows ⟨Surface.new [], 0⟩ with
  | .ok st => .ok (st.surface, ⟨st.maxX, if rows.isEmpty then 0 else rows.length - 1, 0⟩)
  | .error e => .error e

end Verif.Defects
