import Verif.Cells.Model

/-!
# Model of writing and reading FQCA files

`io/write_fqca_layout.hpp` and `io/read_fqca_layout.hpp`. Texts are lists of ASCII characters. A layout is given by its
observable functions; that a cell is a primary input (output) if and only if its type says so is property C41.
-/
namespace Verif.Io

open Verif.Cells

/-- A cell position. Coordinates are not truncated to the bit widths of the coordinate types. -/
structure Pos where
  x : Nat
  y : Nat
  z : Nat
deriving DecidableEq, Repr

/-- What the writer asks of a layout: its name, its aspect ratio and types, modes, names and clock numbers of cells. -/
structure Lyt where
  title : List Char
  dim : Pos
  ty : Pos → QcaType
  mode : Pos → QcaMode
  name : Pos → List Char
  clock : Pos → Nat

/-! ## Writer -/

/-- `alphabet_iterator`, write_fqca_layout.hpp:98. -/
def alphabet : List Char := "abcdefghijklmnopqrstuvwxyzABCDEFGHIJKLMNOPQRSTUVWXYZ".toList

/-- `std::to_string` and `fmt` on a number. -/
def number (n : Nat) : List Char := Nat.toDigits 10 n

/-- `write_header`, write_fqca_layout.hpp:129-134; `gen` is the version and the address of the repository, as in
line 48. -/
def header (gen : List Char) (L : Lyt) : List Char :=
  "[ ".toList ++ (if L.title = [] then [] else L.title ++ " - ".toList) ++ gen ++ " ]\n\n".toList

/-- `write_layer_separator`, write_fqca_layout.hpp:136-144. -/
def separator (L : Lyt) : List Char := (List.replicate (L.dim.x + 1) ['=', ' ']).flatten ++ ['\n']

/-- The condition for a designator, write_fqca_layout.hpp:154. -/
def Lyt.labelled (L : Lyt) (p : Pos) : Bool :=
  decide (L.name p ≠ [] ∨ L.ty p = .input ∨ L.ty p = .output)

/-- `write_cell`, write_fqca_layout.hpp:146-183: the text, the cell with its designator and the remaining designators.
`none` is the exception of line 126. -/
def writeCell (L : Lyt) (p : Pos) (a : List Char) : Option (List Char × List (Pos × Char) × List Char) :=
  if L.ty p = .empty then some ([' ', ' '], [], a)
  else if L.labelled p then
    match a with
    | [] => none
    | d :: a => some ([d, ' '], [(p, d)], a)
  else if L.ty p = .const0 then some (['-', ' '], [], a)
  else if L.ty p = .const1 then some (['+', ' '], [], a)
  else some (number (L.clock p) ++ [' '], [], a)

/-- `write_via_cell`, write_fqca_layout.hpp:185-199. -/
def writeVia (L : Lyt) (p : Pos) : List Char :=
  if L.mode p = .vertical then number (L.clock p) ++ [' '] else [' ', ' ']

/-- The loop over a row, write_fqca_layout.hpp:214-224, without vias. -/
def writeCells (L : Lyt) : List Pos → List Char → Option (List Char × List (Pos × Char) × List Char)
  | [], a => some ([], [], a)
  | p :: l, a =>
    match writeCell L p a with
    | none => none
    | some (o, ls, a) => (writeCells L l a).map fun r => (o ++ r.1, ls ++ r.2.1, r.2.2)

/-- The positions of a row. -/
def rowOf (X y z : Nat) : List Pos := (List.range (X + 1)).map fun x : Nat => ⟨x, y, z⟩

/-- The loop over the rows of layer `z`, write_fqca_layout.hpp:212-233, without vias. -/
def writeRows (L : Lyt) (z : Nat) : List Nat → List Char → Option (List Char × List (Pos × Char) × List Char)
  | [], a => some ([], [], a)
  | y :: l, a =>
    match writeCells L (rowOf L.dim.x y z) a with
    | none => none
    | some (o, ls, a) => (writeRows L z l a).map fun r => (o ++ '\n' :: r.1, ls ++ r.2.1, r.2.2)

/-- `via_layer_buffer`, write_fqca_layout.hpp:207, 222, 230. -/
def viaLayer (L : Lyt) (z : Nat) : List Char :=
  (List.range (L.dim.y + 1)).flatMap fun y => (rowOf L.dim.x y z).flatMap (writeVia L) ++ ['\n']

/-- The loop over the layers, write_fqca_layout.hpp:204-242. -/
def writeLayers (L : Lyt) (via : Bool) : List Nat → List Char → Option (List Char × List (Pos × Char) × List Char)
  | [], a => some ([], [], a)
  | z :: l, a =>
    match writeRows L z (List.range (L.dim.y + 1)) a with
    | none => none
    | some (o, ls, a) =>
      (writeLayers L via l a).map fun r =>
        (separator L ++ o ++ (if via ∧ z ≠ L.dim.z then separator L ++ viaLayer L z else []) ++ r.1, ls ++ r.2.1, r.2.2)

/-- `write_labeled_cell`, write_fqca_layout.hpp:248-275. -/
def writeLabelled (L : Lyt) (lc : Pos × Char) : List Char :=
  [lc.2, ':', '\n'] ++
  (if L.ty lc.1 = .input then "- input\n".toList else []) ++
  (if L.ty lc.1 = .output then "- output\n".toList else []) ++
  (if L.name lc.1 ≠ [] then "- label = \"".toList ++ L.name lc.1 ++ "\"\n".toList else []) ++
  "- clock = ".toList ++ number (L.clock lc.1) ++ "\n\n".toList

/-- `write_fqca_layout`, write_fqca_layout.hpp:77-88, 201-246, 277-283. -/
def write (gen : List Char) (L : Lyt) (via : Bool) : Option (List Char) :=
  (writeLayers L via (List.range (L.dim.z + 1)) alphabet).map fun r =>
    header gen L ++ r.1 ++ separator L ++ "\n\n$\n\n".toList ++ r.2.1.flatMap (writeLabelled L)

/-! ## Reader -/

/-- `std::getline` until the end of the file. -/
def splitLines : List Char → List (List Char)
  | [] => []
  | c :: l =>
    if c = '\n' then [] :: splitLines l
    else
      match splitLines l with
      | [] => [[c]]
      | m :: ms => (c :: m) :: ms

/-- `std::isspace` and `\s` of regular expressions. -/
def isSpace (c : Char) : Bool := c ∈ [' ', '\t', '\n', '\x0b', '\x0c', '\r']

/-- `regex_replace` of white space, read_fqca_layout.hpp:104. -/
def strip (l : List Char) : List Char := l.filter fun c => !isSpace c

/-- `RE_COMMENT`, read_fqca_layout.hpp:74, on a line without white space. -/
def isComment (t : List Char) : Bool := decide (2 ≤ t.length ∧ t.head? = some '[' ∧ t.getLast? = some ']')

/-- `RE_LAYER_SEPARATOR`, line 75. -/
def isSeparator (t : List Char) : Bool := !t.isEmpty && t.all fun c => decide (c = '=')

/-- `RE_CELL_DEFINITION_ID`, line 76. -/
def matchId : List Char → Option Char
  | [c, ':'] => if c.isAlphanum || c = '_' then some c else none
  | _ => none

/-- `RE_CELL_DEFINITION_LABEL`, line 77. -/
def matchLabel (t : List Char) : Option (List Char) :=
  let pre := "-label=\"".toList
  if pre.isPrefixOf t ∧ pre.length < t.length ∧ t.getLast? = some '"' then some (t.drop pre.length).dropLast else none

/-- `RE_CELL_DEFINITION_CLOCK`, line 78. -/
def matchClock (t : List Char) : Option Char :=
  let pre := "-clock=".toList
  if pre.isPrefixOf t then
    match t.drop pre.length with
    | [c] => if c.isDigit then some c else none
    | _ => none
  else none

/-- `RE_CELL_DEFINITION_NUMBER`, line 79. -/
def isNumber (t : List Char) : Bool :=
  let pre := "-number=".toList
  pre.isPrefixOf t && !(t.drop pre.length).isEmpty && (t.drop pre.length).all Char.isDigit

/-- One of the numbers in `RE_CELL_DEFINITION_OFFSET`, line 81: `-?\d*(?:\.\d+)?`. -/
def isDecimal (t : List Char) : Bool :=
  let t := if t.head? = some '-' then t.tail else t
  let t := t.dropWhile Char.isDigit
  match t with
  | [] => true
  | c :: t => decide (c = '.') && !t.isEmpty && t.all Char.isDigit

/-- `RE_CELL_DEFINITION_OFFSET`, lines 80-82. -/
def isOffset (t : List Char) : Bool :=
  let pre := "-offset=(".toList
  pre.isPrefixOf t && decide (t.getLast? = some ')') &&
    (match (t.drop pre.length).dropLast.splitOn ',' with
    | [a, b, c] => isDecimal a && isDecimal b && isDecimal c
    | _ => false)

/-- The exceptions, read_fqca_layout.hpp:23-63. -/
inductive Err
  | unsupported (c : Char)
  | undefinedLabel (c : Char)
  | unrecognized (line : Nat)
deriving DecidableEq, Repr

/-- The members of `read_fqca_layout_impl`, read_fqca_layout.hpp:231-249. Hash maps are functions. -/
structure Reader where
  cellDefs : Bool
  layer : Nat
  row : Nat
  mx : Pos
  cur : Pos
  labels : Char → Option Pos
  ty : Pos → QcaType
  mode : Pos → QcaMode
  name : Pos → List Char
  clock : Pos → Nat

/-- An empty layout with open clocking, clocked_layout.hpp:70. -/
def Reader.init : Reader :=
  ⟨false, 0, 0, ⟨0, 0, 0⟩, ⟨0, 0, 0⟩, fun _ => none, fun _ => .empty, fun _ => .normal, fun _ => [], fun _ => 0⟩

/-- Assignment. -/
def put {K V : Type} [DecidableEq K] (f : K → V) (k : K) (v : V) : K → V := fun j => if j = k then v else f j

/-- `to_clock_number`, read_fqca_layout.hpp:251-254; the new layout has four clocks. -/
def toClock (c : Char) : Nat := c.toNat % 4

/-- The end of `parse_cell`, read_fqca_layout.hpp:295-322. -/
def finishCell (p : Pos) (s : Reader) : Reader :=
  { s with
    mode := if p.z ≠ 0 then put s.mode p (if p.z % 2 = 0 then .crossover else .vertical) else s.mode
    mx := ⟨if p.x > s.mx.x then p.x else s.mx.x, if p.y > s.mx.y then p.y else s.mx.y,
      if p.z > s.mx.z then p.z else s.mx.z⟩ }

/-- `parse_cell`, read_fqca_layout.hpp:256-323. Assigning a type other than input and output to a cell that is neither
does not change the sets of inputs and outputs. -/
def parseCell (c : Char) (p : Pos) (s : Reader) : Except Err Reader :=
  if isSpace c then .ok s
  else if c.isDigit then .ok (finishCell p { s with ty := put s.ty p .normal, clock := put s.clock p (toClock c) })
  else if c.isAlpha then .ok (finishCell p { s with ty := put s.ty p .normal, labels := put s.labels c (some p) })
  else if c = '-' then .ok (finishCell p { s with ty := put s.ty p .const0 })
  else if c = '+' then .ok (finishCell p { s with ty := put s.ty p .const1 })
  else .error (.unsupported c)

/-- The layer of the cells, read_fqca_layout.hpp:139: `next_cell_layer - 1` on 64 bits. -/
def Reader.z (s : Reader) : Nat := if s.layer = 0 then 2 ^ 64 - 1 else s.layer - 1

/-- The loop over a line, read_fqca_layout.hpp:136-140. -/
def parseRow : List Char → Nat → Reader → Except Err Reader
  | [], _, s => .ok s
  | [c], x, s => parseCell c ⟨x, s.row, s.z⟩ s
  | c :: _ :: l, x, s =>
    match parseCell c ⟨x, s.row, s.z⟩ s with
    | .error e => .error e
    | .ok s => parseRow l (x + 1) s

/-- A line of the second section, read_fqca_layout.hpp:150-219. -/
def parseDef (n : Nat) (t : List Char) (s : Reader) : Except Err Reader :=
  if t = [] then .ok s
  else
    match matchId t with
    | some d =>
      match s.labels d with
      | some p => .ok { s with cur := p }
      | none => .error (.undefinedLabel d)
    | none =>
      if t = "-input".toList then .ok { s with ty := put s.ty s.cur .input }
      else if t = "-output".toList then .ok { s with ty := put s.ty s.cur .output }
      else
        match matchLabel t with
        | some l => .ok { s with name := put s.name s.cur l }
        | none =>
          match matchClock t with
          | some c => .ok { s with clock := put s.clock s.cur (toClock c) }
          | none =>
            if t = "-propagate".toList || isNumber t || isOffset t then .ok s else .error (.unrecognized n)

/-- The body of the loop over the lines, read_fqca_layout.hpp:103-221. -/
def parseLine (n : Nat) (line : List Char) (s : Reader) : Except Err Reader :=
  let t := strip line
  if line = [] then .ok s
  else if s.cellDefs then parseDef n t s
  else if isComment t then .ok s
  else if isSeparator t then .ok { s with row := 0, layer := s.layer + 1 }
  else if t = ['$'] then .ok { s with cellDefs := true }
  else
    match parseRow line 0 s with
    | .error e => .error e
    | .ok s => .ok { s with row := s.row + 1 }

/-- The loop over the lines, read_fqca_layout.hpp:101-222. -/
def parseLines : Nat → List (List Char) → Reader → Except Err Reader
  | _, [], s => .ok s
  | n, l :: ls, s =>
    match parseLine n l s with
    | .error e => .error e
    | .ok s => parseLines (n + 1) ls s

/-- `read_fqca_layout`, read_fqca_layout.hpp:98-228, 340-350: the layout takes the size of the largest position. -/
def read (title text : List Char) : Except Err Lyt :=
  match parseLines 1 (splitLines text) .init with
  | .error e => .error e
  | .ok s => .ok ⟨title, s.mx, s.ty, s.mode, s.name, s.clock⟩

end Verif.Io
