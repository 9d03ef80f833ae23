import Verif.Cells.Lemmas
import Verif.Defects.Reader

/-!
# Model of `io/write_sqd_layout.hpp` and `io/read_sqd_layout.hpp`

A file is the tree of its XML elements; tinyxml2 (external) turns texts into such trees. Texts and attributes are lists of
characters, integers are printed and parsed. Floating-point numbers are rational numbers, printed and parsed by `Dbl`, that
is `fmt` and `std::stod` (external). The block `program` of a file holds the version and the date and is ignored by the
reader: it is a parameter.
-/
namespace Verif.Sqd

open Verif.Coordinates Verif.Cells Verif.Defects

abbrev Text := List Char

/-- An XML element: its name, attributes, the text it begins with, and its child elements. -/
inductive Xml
  | node (tag : Text) (attrs : List (Text × Text)) (text : Option Text) (children : List Xml)

def Xml.tag : Xml → Text
  | .node t _ _ _ => t
/-- `GetText`. -/
def Xml.text : Xml → Option Text
  | .node _ _ x _ => x
def Xml.children : Xml → List Xml
  | .node _ _ _ c => c
/-- `Attribute`. -/
def Xml.attr (e : Xml) (n : Text) : Option Text :=
  match e with
  | .node _ a _ _ => find a n
/-- `FirstChildElement`. -/
def Xml.first (e : Xml) (t : Text) : Option Xml := e.children.find? (fun c => c.tag = t)
/-- The elements visited by `FirstChildElement` and `NextSiblingElement`. -/
def Xml.all (e : Xml) (t : Text) : List Xml := e.children.filter (fun c => c.tag = t)

/-- An element with a text only. -/
def leaf (t x : String) : Xml := .node t.toList [] (some x.toList) []

/-! ## Numbers -/

/-- `fmt::format("{}", i)` of an integer. -/
def showInt (i : Int) : Text := if i < 0 then '-' :: Nat.toDigits 10 i.natAbs else Nat.toDigits 10 i.natAbs

/-- `std::stoll`: white space, an optional sign and the longest run of digits; `none` if it throws. -/
def stoll (s : Text) : Option Int :=
  let s := s.dropWhile isWs
  let neg := s.head? = some '-'
  let s := if s.head? = some '-' ∨ s.head? = some '+' then s.tail else s
  let ds := s.takeWhile isDig
  if ds = [] then none
  else
    let v : Int := if neg then -(value ds : Int) else value ds
    if -9223372036854775808 ≤ v ∧ v ≤ 9223372036854775807 then some v else none

/-- Printing and parsing floating-point numbers. -/
structure Dbl where
  put : Rat → Text
  get : Text → Option Rat

/-! ## Coordinates -/

/-- The reasons for which reading ends early: `sqd_parsing_error`, an exception of the standard library for a malformed number,
and undefined behaviour (a null pointer where a text is expected, or an overflow of signed integers). -/
inductive Err
  | parsing
  | number
  | undefined
deriving DecidableEq

/-- What reader and writer know about coordinates. -/
structure Kind (C : Type) where
  /-- The attributes `n`, `m` and `l` of a position. -/
  put : C → Int × Int × Int
  /-- A position from its attributes. -/
  get : Int → Int → Int → Except Err C
  /-- `max_cell_pos` before the first position, read_sqd_layout.hpp:168. -/
  start : C
  /-- `update_bounding_box`, read_sqd_layout.hpp:175-189. -/
  widen : C → C → C
  /-- `initialize_dimension`, cartesian_layout.hpp:820-828, of `resize`, 157-160. -/
  fit : C → C

/-- The value of a 32-bit signed field that is initialised with a 64-bit integer. -/
def wrap32 (i : Int) : Int := i.bmod 4294967296

/-- SiQAD coordinates, write_sqd_layout.hpp:293-297, read_sqd_layout.hpp:258-263. The one-bit field takes the lowest bit. -/
def siqadKind : Kind Siqad where
  put c := (c.x, c.y, c.zi)
  get n m l := .ok (Siqad.mk3 (wrap32 n) (wrap32 m) (l % 2 != 0))
  start := Siqad.default
  widen b c := ⟨b.d, b.z || c.z, max b.y c.y, max b.x c.x⟩
  fit := Siqad.initializeDimension

/-- `dimer_to_cell`, read_sqd_layout.hpp:198-214, up to the constructor of the coordinate. -/
def dimer (n m l : Int) : Except Err (Int × Int) :=
  if n < 0 ∨ m < 0 then .error .parsing
  else if l < 0 ∨ l > 1 then .error .parsing
  else if m * 2 + l > 9223372036854775807 then .error .undefined
  else .ok (n, m * 2 + l)

/-- `to_siqad_coord` of an offset coordinate, coordinates.hpp:825-833: rows are not negative. -/
def offsetToSiqad (c : UCoord) : Siqad := Siqad.mk3 c.x.toNat (c.y.toNat / 2 : Nat) (c.y.toNat % 2 != 0)

/-- Offset coordinates, write_sqd_layout.hpp:298-306, read_sqd_layout.hpp:266. -/
def offsetKind : Kind UCoord where
  put c := ((offsetToSiqad c).x, (offsetToSiqad c).y, (offsetToSiqad c).zi)
  get n m l :=
    match dimer n m l with
    | .error e => .error e
    | .ok p => .ok (UCoord.mk3 (BitVec.ofInt 31 p.1) (BitVec.ofInt 31 p.2) 0)
  start := UCoord.default
  widen b c := ⟨b.d, if c.z > b.z then c.z else b.z, if c.y > b.y then c.y else b.y, if c.x > b.x then c.x else b.x⟩
  fit b := b

/-- Cube coordinates, write_sqd_layout.hpp:298-306, read_sqd_layout.hpp:266. -/
def cubeKind : Kind Cube where
  put c := ((toSiqadCoord c).x, (toSiqadCoord c).y, (toSiqadCoord c).zi)
  get n m l :=
    match dimer n m l with
    | .error e => .error e
    | .ok p => .ok (Cube.mk3 (wrap32 p.1) (wrap32 p.2) 0)
  start := Cube.default
  widen b c := ⟨b.d, max b.z c.z, max b.y c.y, max b.x c.x⟩
  fit b := b

/-! ## Layouts -/

/-- The lattice orientation of a layout type. -/
inductive Orient
  | si100
  | si111
deriving DecidableEq

/-- `parse_lat_type`, read_sqd_layout.hpp:223, 230. -/
def Orient.name : Orient → Text
  | .si100 => "Si(100) 2x1".toList
  | .si111 => "Si(111) 1x1".toList

/-- A layout: its cells, its defects and its aspect ratio. Layouts without the interface of defects have none. -/
structure Lay (C : Type) where
  cells : State C sidb
  defects : Surface C
  dim : C

/-! ## Writer -/

/-- The names of defect types, write_sqd_layout.hpp:166-180, 360-364. -/
def typeName : DefectType → Text
  | .none => "H-Si".toList
  | .db => "DB".toList
  | .siVacancy => "Vacancy".toList
  | .singleDihydride => "Single_Dihydride".toList
  | .dihydridePair => "Dihydride".toList
  | .oneByOne => "1By1".toList
  | .threeByOne => "3By1".toList
  | .siloxane => "Siloxane".toList
  | .raisedSi => "Raised_Silicon".toList
  | .missingDimer => "Missing_Dimer".toList
  | .etchPit => "Etch_Pit".toList
  | .stepEdge => "Step_Edge".toList
  | .gunk => "Gunk".toList
  | .arsenic => "Unknown".toList
  | .unknown => "Unknown".toList

/-- The position, write_sqd_layout.hpp:135. -/
def latcoord (p : Int × Int × Int) : Xml :=
  .node "latcoord".toList [("n".toList, showInt p.1), ("m".toList, showInt p.2.1), ("l".toList, showInt p.2.2)] none []

/-- The type of a dot, write_sqd_layout.hpp:262-291. -/
def dotType : SidbType → List Xml
  | .normal => []
  | .input => [leaf "type" "input"]
  | .output => [leaf "type" "output"]
  | .logic => [leaf "type" "logic"]
  | .empty => []

section Io
variable {C : Type} [DecidableEq C] (K : Kind C) (F : Dbl) (o : Orient) (iface : Bool)

/-- One dot, write_sqd_layout.hpp:138-143, 258-306. -/
def writeDot (s : State C sidb) (c : C) : Xml :=
  .node "dbdot".toList [] none
    ([leaf "layer_id" "2", latcoord (K.put c)] ++ dotType (s.getCellType c) ++ [leaf "color" "#ffc8c8c8"])

/-- The dots of a QCA cell, write_sqd_layout.hpp:309-356; their sublattice is 0, their color depends on the type of the cell. -/
def qcaDots (t : QcaType) (x y : Nat) : List (Nat × Nat) :=
  (if t ≠ .const1 then [(x * 14, y * 7), (x * 14 + 6, y * 7 + 3)] else []) ++
    (if t ≠ .const0 then [(x * 14 + 6, y * 7), (x * 14, y * 7 + 3)] else [])

/-- The dots of a QCA layout. -/
def qcaWrite (s : State UCoord qca) : List (Nat × Nat) :=
  s.cells.flatMap fun c => qcaDots (s.getCellType c) c.x.toNat c.y.toNat

/-- The electrical parameters, write_sqd_layout.hpp:157, 382-384. -/
def coulomb (d : Defect) : List Xml :=
  if d.isChargedType then
    [.node "coulomb".toList [("charge".toList, showInt d.charge), ("eps_r".toList, F.put d.epsilonR),
      ("lambda_tf".toList, F.put d.lambdaTf)] none []]
  else []

/-- One defect, write_sqd_layout.hpp:145-155, 366-400. -/
def writeDefect (p : C × Defect) : Xml :=
  .node "defect".toList [] none
    ([leaf "layer_id" "5", .node "incl_coords".toList [] none [latcoord (K.put p.1)]] ++ coulomb F p.2 ++
      [.node "property_map".toList [] none
        [.node "type_label".toList [] none [.node "val".toList [] (some (typeName p.2.type)) []]]])

/-- A layer definition without lattice vectors, write_sqd_layout.hpp:89-123. -/
def layerProp (name type : String) (role : List Xml) (zoffset zheight visible : String) (more : List Xml) : Xml :=
  .node "layer_prop".toList [] none
    ([leaf "name" name, leaf "type" type] ++ role ++ [leaf "zoffset" zoffset, leaf "zheight" zheight,
      leaf "visible" visible, leaf "active" "0"] ++ more)

/-- A vector with its components. -/
def vec (t x y : String) : Xml := .node t.toList [("x".toList, x.toList), ("y".toList, y.toList)] none []

/-- The lattice vectors, write_sqd_layout.hpp:63-70, 80-87. -/
def latVec : Orient → Xml
  | .si100 => .node "lat_vec".toList [] none
      [leaf "name" "Si(100) 2x1", vec "a1" "3.84" "0", vec "a2" "0" "7.68", leaf "N" "2", vec "b1" "0" "0", vec "b2" "0" "2.25"]
  | .si111 => .node "lat_vec".toList [] none
      [leaf "name" "Si(111) 1x1", vec "a1" "6.65" "0", vec "a2" "0" "3.84", leaf "N" "2", vec "b1" "0" "0",
        vec "b2" "3.3255" "1.92"]

/-- The layer definitions, write_sqd_layout.hpp:53-123, 201-220. -/
def layers : Xml :=
  .node "layers".toList [] none
    ([layerProp "Lattice" "Lattice" [leaf "role" "Design"] "0" "0" "1" [latVec o],
      layerProp "Screenshot Overlay" "Misc" [leaf "role" "Overlay"] "0" "0" "0" [],
      layerProp "Surface" "DB" [leaf "role" "Design"] "0" "0" "1" [],
      layerProp "Metal" "Electrode" [leaf "role" "Design"] "1000" "100" "1" []] ++
      if iface then [layerProp "Defects" "Defects" [] "0" "0" "1" []] else [])

/-- A layer of the design. -/
def layer (type : String) (content : List Xml) : Xml := .node "layer".toList [("type".toList, type.toList)] none content

/-- `write_sqd_layout`, write_sqd_layout.hpp:190-243: the root element. -/
def write (program : List Xml) (L : Lay C) : Xml :=
  .node "siqad".toList [] none
    [.node "program".toList [] none program, layers o iface,
      .node "design".toList [] none
        ([layer "Lattice" [], layer "Misc" [], layer "DB" (L.cells.cells.map (writeDot K L.cells))] ++
          (if iface then [layer "Defects" (L.defects.visited.map (writeDefect K F))] else []) ++ [layer "Electrode" []])]

/-! ## Reader -/

/-- A loop over elements that an exception ends; what happened before it persists. -/
def loop {σ α : Type} (f : σ → α → σ × Option Err) : σ → List α → σ × Option Err
  | s, [] => (s, none)
  | s, a :: as =>
    match f s a with
    | (s, none) => loop f s as
    | (s, some e) => (s, some e)

/-- `parse_latcoord`, read_sqd_layout.hpp:248-267, except for the bounding box. -/
def parseLat (e : Xml) : Except Err C :=
  match e.attr "n".toList, e.attr "m".toList, e.attr "l".toList with
  | some n, some m, some l =>
    match stoll n, stoll m, stoll l with
    | some n, some m, some l => K.get n m l
    | _, _, _ => .error .number
  | _, _, _ => .error .parsing

/-- `parse_dot_type`, read_sqd_layout.hpp:275-308. -/
def parseType : Option Xml → Except Err SidbType
  | none => .ok .normal
  | some e =>
    match e.text with
    | none => .error .parsing
    | some t =>
      if t = "input".toList then .ok .input
      else if t = "output".toList then .ok .output
      else if t = "normal".toList then .ok .normal
      else if t = "logic".toList then .ok .logic
      else .error .parsing

/-- `parse_db_dot`, read_sqd_layout.hpp:314-326; the order in which the two arguments are evaluated is unspecified in the code,
and matters only if both of them are malformed. -/
def parseDot (L : Lay C) (e : Xml) : Lay C × Option Err :=
  match e.first "latcoord".toList with
  | none => (L, some .parsing)
  | some x =>
    match parseLat K x with
    | .error r => (L, some r)
    | .ok c =>
      match parseType (e.first "type".toList) with
      | .error r => (L, some r)
      | .ok t => ({ L with cells := L.cells.assignCellType c t, dim := K.widen L.dim c }, none)

/-- `defect_name_to_type`, read_sqd_layout.hpp:337-351. -/
def nameToType : List (Text × DefectType) :=
  [("h-si".toList, .none), ("db".toList, .db), ("vacancy".toList, .siVacancy), ("single_dihydride".toList, .singleDihydride),
    ("dihydride".toList, .dihydridePair), ("1by1".toList, .oneByOne), ("3by1".toList, .threeByOne),
    ("siloxane".toList, .siloxane), ("raised_silicon".toList, .raisedSi), ("missing_dimer".toList, .missingDimer),
    ("etch_pit".toList, .etchPit), ("step_edge".toList, .stepEdge), ("gunk".toList, .gunk), ("unknown".toList, .unknown)]

/-- `parse_defect_label`, read_sqd_layout.hpp:334-359. -/
def parseLabel (t : Text) : DefectType := (find nameToType (t.map Char.toLower)).getD .unknown

/-- The positions of a defect, read_sqd_layout.hpp:376-387. -/
def parseCells : List Xml → Except Err (List C)
  | [] => .ok []
  | e :: es =>
    match parseLat K e with
    | .error r => .error r
    | .ok c =>
      match parseCells es with
      | .error r => .error r
      | .ok cs => .ok (c :: cs)

/-- read_sqd_layout.hpp:376-387. -/
def parseIncl (e : Xml) : Except Err (List C) :=
  match e.first "incl_coords".toList with
  | none => .ok []
  | some x =>
    match parseCells K (x.all "latcoord".toList) with
    | .error r => .error r
    | .ok [] => .error .parsing
    | .ok cs => .ok cs

/-- The type of a defect, read_sqd_layout.hpp:388-397. A label without text is a null pointer. -/
def parseDefectType (e : Xml) : Except Err DefectType :=
  match (e.first "property_map".toList).bind fun p => (p.first "type_label".toList).bind fun l => l.first "val".toList with
  | none => .ok .unknown
  | some v =>
    match v.text with
    | none => .error .undefined
    | some t => .ok (parseLabel t)

/-- The electrical parameters, read_sqd_layout.hpp:398-416. -/
def parseCoulomb (e : Xml) : Except Err (Int × Rat × Rat) :=
  match e.first "coulomb".toList with
  | none => .ok (0, 0, 0)
  | some x =>
    match x.attr "charge".toList, x.attr "eps_r".toList, x.attr "lambda_tf".toList with
    | some q, some r, some l =>
      match stoll q, F.get r, F.get l with
      | some q, some r, some l => .ok (q, r, l)
      | _, _, _ => .error .number
    | _, _, _ => .error .parsing

/-- `parse_defect`, read_sqd_layout.hpp:366-422. -/
def parseDefect (L : Lay C) (e : Xml) : Lay C × Option Err :=
  if iface then
    match parseIncl K e with
    | .error r => (L, some r)
    | .ok cs =>
      match parseDefectType e with
      | .error r => (L, some r)
      | .ok t =>
        match parseCoulomb F e with
        | .error r => (L, some r)
        | .ok (q, r, l) =>
          ({ L with
              defects := cs.foldl (fun s c => s.assign c ⟨t, q, r, l⟩) L.defects
              dim := cs.foldl K.widen L.dim }, none)
  else (L, none)

/-- One layer, read_sqd_layout.hpp:121-148. -/
def parseLayer (L : Lay C) (e : Xml) : Lay C × Option Err :=
  match e.attr "type".toList with
  | none => (L, some .parsing)
  | some t =>
    if t = "DB".toList then loop (parseDot K) L (e.all "dbdot".toList)
    else if t = "Defects".toList then loop (parseDefect K F iface) L (e.all "defect".toList)
    else (L, none)

/-- `parse_lat_type`, read_sqd_layout.hpp:221-241, of the text of the name of the lattice vectors, 102-112. -/
def latOk (v : Xml) : Bool :=
  let name := ((v.first "name".toList).bind Xml.text).getD "Si(100) 2x1".toList
  decide (name = o.name)

/-- `run`, read_sqd_layout.hpp:59-154, on the elements of the document, `none` if it is not an XML document. `L.dim` plays the
role of `max_cell_pos`; the target `L` is changed also if an exception ends the function, because its storage is shared, but
it is resized in the end only. -/
def read (doc : Option (List Xml)) (L : Lay C) : Lay C × Option Err :=
  match doc with
  | none => (L, some .parsing)
  | some es =>
    match es.find? (fun e => e.tag = "siqad".toList) with
    | none => (L, some .parsing)
    | some root =>
      match (root.first "layers".toList).bind fun l => (l.first "layer_prop".toList).bind fun p => p.first "lat_vec".toList with
      | none => (L, some .parsing)
      | some v =>
        if latOk o v then
          match root.first "design".toList with
          | none => (L, some .parsing)
          | some d =>
            match loop (parseLayer K F iface) { L with dim := K.start } (d.all "layer".toList) with
            | (L', none) => ({ L' with dim := K.fit L'.dim }, none)
            | (L', some r) => ({ L' with dim := L.dim }, some r)
        else (L, some .parsing)

/-- A new layout. -/
def Lay.new : Lay C := ⟨Cells.new, Surface.new [], K.start⟩

end Io
end Verif.Sqd
