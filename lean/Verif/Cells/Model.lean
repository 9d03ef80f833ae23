import Verif.Coordinates.Model

/-!
# Model of `layouts/cell_level_layout.hpp`, `layouts/obstruction_layout.hpp` and the layout conversions of
`utils/layout_utils.hpp`

Hash maps and hash sets are lists without repeated keys; their iteration order is unspecified in the code and nothing
proved here depends on it. Layouts are parametric in the coordinate type and in the technology.
-/
namespace Verif.Cells

open Verif.Coordinates

/-! ## Finite maps and sets -/

section Maps
variable {K V : Type} [DecidableEq K]

/-- `map.find(k)`. -/
def find (l : List (K × V)) (k : K) : Option V := (l.find? (fun p => p.1 = k)).map (·.2)
/-- `map.erase(k)`. -/
def erase (l : List (K × V)) (k : K) : List (K × V) := l.filter (fun p => p.1 ≠ k)
/-- `map[k] = v`. -/
def assign (l : List (K × V)) (k : K) (v : V) : List (K × V) := (k, v) :: erase l k
/-- `set.erase(k)`. -/
def setErase (l : List K) (k : K) : List K := l.filter (fun a => a ≠ k)
/-- `set.insert(k)`. -/
def setInsert (l : List K) (k : K) : List K := if k ∈ l then l else k :: l

end Maps

/-! ## Technologies -/

/-- What `cell_level_layout` uses of a technology. -/
structure Tech where
  CellType : Type
  [decType : DecidableEq CellType]
  CellMode : Type
  [decMode : DecidableEq CellMode]
  empty : CellType
  isEmpty : CellType → Bool
  isInput : CellType → Bool
  isOutput : CellType → Bool
  normalMode : CellMode
  isNormalMode : CellMode → Bool

instance (T : Tech) : DecidableEq T.CellType := T.decType
instance (T : Tech) : DecidableEq T.CellMode := T.decMode

/-- `qca_technology::cell_type`, cell_technologies.hpp:21-47. -/
inductive QcaType | empty | normal | input | output | const0 | const1
deriving DecidableEq, Repr
/-- `qca_technology::cell_mode`, cell_technologies.hpp:51-57; also `mol_qca_technology::cell_mode`, 262-270. -/
inductive QcaMode | normal | rotated | vertical | crossover
deriving DecidableEq, Repr
/-- `mol_qca_technology::cell_type`, cell_technologies.hpp:220-258. -/
inductive MolType | empty | normal1 | normal2 | normal3 | normal4 | input | output | const0 | const1
deriving DecidableEq, Repr
/-- `inml_technology::cell_type`, cell_technologies.hpp:503-541. -/
inductive InmlType
  | empty | normal | input | output | slantedUp | slantedDown | inverter | crosswire | coupler
deriving DecidableEq, Repr
/-- `sidb_technology::cell_type`, cell_technologies.hpp:707-729. -/
inductive SidbType | empty | normal | input | output | logic
deriving DecidableEq, Repr

/-- cell_technologies.hpp:16-207. -/
abbrev qca : Tech where
  CellType := QcaType
  CellMode := QcaMode
  empty := .empty
  isEmpty c := c = .empty
  isInput c := c = .input
  isOutput c := c = .output
  normalMode := .normal
  isNormalMode m := m = .normal

/-- cell_technologies.hpp:215-493. -/
abbrev molQca : Tech where
  CellType := MolType
  CellMode := QcaMode
  empty := .empty
  isEmpty c := c = .empty
  isInput c := c = .input
  isOutput c := c = .output
  normalMode := .normal
  isNormalMode m := m = .normal

/-- cell_technologies.hpp:498-697; `cell_mode` is an empty structure. -/
abbrev inml : Tech where
  CellType := InmlType
  CellMode := Unit
  empty := .empty
  isEmpty c := c = .empty
  isInput c := c = .input
  isOutput c := c = .output
  normalMode := ()
  isNormalMode _ := true

/-- cell_technologies.hpp:702-834; `cell_mode` is an empty structure. -/
abbrev sidb : Tech where
  CellType := SidbType
  CellMode := Unit
  empty := .empty
  isEmpty c := c = .empty
  isInput c := c = .input
  isOutput c := c = .output
  normalMode := ()
  isNormalMode _ := true

/-! ## Cell-level layouts -/

/-- `cell_level_layout_storage`, cell_level_layout.hpp:61-80. -/
structure State (C : Type) (T : Tech) where
  name : String
  tileX : Nat
  tileY : Nat
  types : List (C × T.CellType)
  modes : List (C × T.CellMode)
  names : List (C × String)
  inputs : List C
  outputs : List C

section Layout
variable {C : Type} [DecidableEq C] {T : Tech}

/-- A new layout, cell_level_layout.hpp:63-67, 97-103. -/
def new (name : String := "") (tileX tileY : Nat := 1) : State C T := ⟨name, tileX, tileY, [], [], [], [], []⟩

/-- `assign_cell_type`, cell_level_layout.hpp:163-186. -/
def State.assignCellType (s : State C T) (c : C) (ct : T.CellType) : State C T :=
  let s := { s with inputs := setErase s.inputs c, outputs := setErase s.outputs c }
  if T.isEmpty ct then { s with types := erase s.types c, modes := erase s.modes c }
  else
    let s := { s with types := assign s.types c ct }
    if T.isInput ct then { s with inputs := setInsert s.inputs c }
    else if T.isOutput ct then { s with outputs := setInsert s.outputs c }
    else s
/-- `get_cell_type`, cell_level_layout.hpp:193-201. -/
def State.getCellType (s : State C T) (c : C) : T.CellType := (find s.types c).getD T.empty
/-- `is_empty_cell`, cell_level_layout.hpp:242-245. -/
def State.isEmptyCell (s : State C T) (c : C) : Bool := T.isEmpty (s.getCellType c)
/-- `assign_cell_mode`, cell_level_layout.hpp:253-263. -/
def State.assignCellMode (s : State C T) (c : C) (m : T.CellMode) : State C T :=
  if T.isNormalMode m then { s with modes := erase s.modes c } else { s with modes := assign s.modes c m }
/-- `get_cell_mode`, cell_level_layout.hpp:270-278. A value-initialised `cell_mode` is `NORMAL` (0). -/
def State.getCellMode (s : State C T) (c : C) : T.CellMode := (find s.modes c).getD T.normalMode
/-- `assign_cell_name`, cell_level_layout.hpp:286-296. -/
def State.assignCellName (s : State C T) (c : C) (n : String) : State C T :=
  if n = "" then { s with names := erase s.names c } else { s with names := assign s.names c n }
/-- `get_cell_name`, cell_level_layout.hpp:303-311. -/
def State.getCellName (s : State C T) (c : C) : String := (find s.names c).getD ""
/-- `num_cells`, cell_level_layout.hpp:340-343. -/
def State.numCells (s : State C T) : Nat := s.types.length
/-- `is_empty`, cell_level_layout.hpp:349-352. -/
def State.isEmpty (s : State C T) : Bool := s.types.isEmpty
/-- `num_pis`, cell_level_layout.hpp:358-361. -/
def State.numPis (s : State C T) : Nat := s.inputs.length
/-- `num_pos`, cell_level_layout.hpp:367-370. -/
def State.numPos (s : State C T) : Nat := s.outputs.length
/-- `is_pi`, cell_level_layout.hpp:379-382. -/
def State.isPi (s : State C T) (c : C) : Bool := decide (c ∈ s.inputs)
/-- `is_po`, cell_level_layout.hpp:391-394. -/
def State.isPo (s : State C T) (c : C) : Bool := decide (c ∈ s.outputs)
/-- The cells visited by `foreach_cell`, cell_level_layout.hpp:471-478. -/
def State.cells (s : State C T) : List C := s.types.map (·.1)
/-- `get_cells_by_type`, cell_level_layout.hpp:209-225. -/
def State.cellsByType (s : State C T) (ty : T.CellType) : List C := s.cells.filter (fun c => s.getCellType c = ty)
/-- `num_cells_of_given_type`, cell_level_layout.hpp:232-235. -/
def State.numCellsOfType (s : State C T) (ty : T.CellType) : Nat := (s.cellsByType ty).length

/-- The mutating part of the interface. -/
inductive Op (C : Type) (T : Tech)
  | type (c : C) (ct : T.CellType)
  | mode (c : C) (m : T.CellMode)
  | name (c : C) (n : String)

/-- One call of the interface: `assign_cell_type`, `assign_cell_mode` or `assign_cell_name`, cell_level_layout.hpp:163-296. -/
def State.step (s : State C T) : Op C T → State C T
  | .type c ct => s.assignCellType c ct
  | .mode c m => s.assignCellMode c m
  | .name c n => s.assignCellName c n

/-- Run a history of operations. -/
def run (s : State C T) (ops : List (Op C T)) : State C T := ops.foldl State.step s

end Layout

/-! ## Obstructions -/

/-- `obstruction_layout_storage`, obstruction_layout.hpp:30-55. -/
structure Obst (C : Type) where
  coords : List C := []
  conns : List (C × C) := []

/-- What `is_obstructed_coordinate` and `is_obstructed_connection` ask the underlying layout: `!is_empty_tile(c)` or
`!is_empty_cell(c)` (neither for a layout that is neither gate-level nor cell-level), and
`is_incoming_signal(tgt, src)` and `is_outgoing_signal(src, tgt)` (gate-level layouts only). -/
structure Under (C : Type) where
  occupied : C → Bool
  incomingSignal : C → C → Bool
  outgoingSignal : C → C → Bool

section Obstruction
variable {C : Type} [DecidableEq C]

/-- The mutating interface of obstruction_layout.hpp:77-127. -/
inductive ObstOp (C : Type)
  | obstructCoordinate (c : C)
  | obstructConnection (src tgt : C)
  | clearCoordinate (c : C)
  | clearConnection (src tgt : C)
  | clearCoordinates
  | clearConnections

/-- obstruction_layout.hpp:77-127. -/
def Obst.step (o : Obst C) : ObstOp C → Obst C
  | .obstructCoordinate c => { o with coords := setInsert o.coords c }
  | .obstructConnection a b => { o with conns := setInsert o.conns (a, b) }
  | .clearCoordinate c => { o with coords := setErase o.coords c }
  | .clearConnection a b => { o with conns := setErase o.conns (a, b) }
  | .clearCoordinates => { o with coords := [] }
  | .clearConnections => { o with conns := [] }

/-- A history of calls, see `Obst.step`. -/
def Obst.run (o : Obst C) (ops : List (ObstOp C)) : Obst C := ops.foldl Obst.step o

/-- `is_obstructed_coordinate`, obstruction_layout.hpp:134-152. -/
def Obst.isObstructedCoordinate (o : Obst C) (u : Under C) (c : C) : Bool :=
  if (o.coords.count c) > 0 then true else u.occupied c

/-- `is_obstructed_connection`, obstruction_layout.hpp:160-176. -/
def Obst.isObstructedConnection (o : Obst C) (u : Under C) (src tgt : C) : Bool :=
  if (o.conns.count (src, tgt)) > 0 then true else u.incomingSignal tgt src || u.outgoingSignal src tgt

end Obstruction

/-! ## Layout conversions -/

/-- The coordinate operations the conversions use: components and the two-argument constructor
(coordinates.hpp:106-110, 376-381, 620-624: the third component is 0, the result is live). -/
structure Grid (C : Type) where
  x : C → Int
  y : C → Int
  mk2 : Int → Int → C
  /-- `std::numeric_limits<decltype(lyt.x())>::max()` -/
  max : Int

/-- `cube::coord_t`, coordinates.hpp:324-381. Components are not truncated to 32 bits. -/
def cubeGrid : Grid Cube := ⟨Cube.x, Cube.y, fun x y => Cube.mk3 x y 0, 2147483647⟩
/-- `siqad::coord_t`, coordinates.hpp:569-624. Components are not truncated to 32 bits. -/
def siqadGrid : Grid Siqad := ⟨Siqad.x, Siqad.y, fun x y => Siqad.mk3 x y false, 2147483647⟩
/-- `offset::ucoord_t`, coordinates.hpp:40-110. -/
def offsetGrid : Grid UCoord :=
  ⟨fun c => c.x.toNat, fun c => c.y.toNat, fun x y => UCoord.mk3 (BitVec.ofInt 31 x) (BitVec.ofInt 31 y) 0#1,
    18446744073709551615⟩

section Conversion
variable {C D : Type} [DecidableEq C] [DecidableEq D] {T : Tech}

/-- The loop all conversions share (layout_utils.hpp:291-297, 323-329, 452-458): copy type, mode and name of every
cell to its image. -/
def copyCells (f : C → D) (lyt : State C T) (new : State D T) : State D T :=
  lyt.cells.foldl (fun n c =>
    ((n.assignCellType (f c) (lyt.getCellType c)).assignCellMode (f c) (lyt.getCellMode c)).assignCellName (f c)
      (lyt.getCellName c)) new

/-- The offsets, layout_utils.hpp:263-277. -/
def offsets (g : Grid C) (cells : List C) : Int × Int :=
  cells.foldl (fun o c =>
    let o := if g.y c < o.2 then (o.1, g.y c) else o
    if g.x c < o.1 then (g.x c, o.2) else o) (g.max, g.max)

/-- `normalize_layout_coordinates`, layout_utils.hpp:258-300. Not modelled: the new aspect ratio. -/
def normalize (g : Grid C) (lyt : State C T) : State C T :=
  let o := offsets g lyt.cells
  copyCells (fun c => g.mk2 (g.x c - o.1) (g.y c - o.2)) lyt (new lyt.name lyt.tileX lyt.tileY)

/-- `convert_layout_to_siqad_coordinates`, layout_utils.hpp:310-391, for cell-level layouts without defects and charge
states. Not modelled: the new aspect ratio. -/
def convertToSiqad (lyt : State Cube T) : State Siqad T :=
  copyCells toSiqadCoord lyt (new lyt.name lyt.tileX lyt.tileY)

/-- `convert_layout_to_fiction_coordinates<sidb_100_cell_clk_lyt_cube>`, layout_utils.hpp:402-575, for cell-level
layouts without defects and charge states. Not modelled: the new aspect ratio. -/
def convertToCube (lyt : State Siqad T) : State Cube T :=
  copyCells toFictionCoord lyt (new lyt.name lyt.tileX lyt.tileY)

/-- `siqad::to_fiction_coord<offset::ucoord_t>`, coordinates.hpp:795-816: as for cube coordinates, with the components
truncated to 31 bits. -/
def toOffsetCoord (c : Siqad) : UCoord :=
  if !c.d then
    let y := if 2 * c.y + c.zi > int32Max then int32Max else if 2 * c.y + c.zi < int32Min then int32Min
      else c.y * 2 + c.zi
    UCoord.mk3 (BitVec.ofInt 31 c.x) (BitVec.ofInt 31 y) 0#1
  else UCoord.default

/-- `convert_layout_to_fiction_coordinates<sidb_100_cell_clk_lyt>` (offset coordinates), layout_utils.hpp:402-575: if a
cell has a negative component the layout is normalized first (422-441). The C++ function then calls itself, on a layout
without negative components. -/
def convertToOffset (lyt : State Siqad T) : State UCoord T :=
  let src := if lyt.cells.any (fun c => decide (c.x < 0) || decide (c.y < 0)) then normalize siqadGrid lyt else lyt
  copyCells toOffsetCoord src (new src.name src.tileX src.tileY)

end Conversion

end Verif.Cells
