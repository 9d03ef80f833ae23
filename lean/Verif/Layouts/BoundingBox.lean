import Verif.Cells.Model
import Verif.Defects.Analysis
import Verif.GateLevel.Model

/-!
# Model of `layouts/bounding_box.hpp`

Columns and rows are integers in the range of the coordinate type. `Limits` are the extreme values of that type that the
computation starts from.
-/
namespace Verif.BoundingBox

open Verif.Coordinates Verif.Cells Verif.Layouts

/-- `min` and `max` of a box; the layers are irrelevant. -/
structure Box where
  minX : Int
  minY : Int
  maxX : Int
  maxY : Int
deriving DecidableEq, Repr

/-- The values of `std::numeric_limits` as the coordinate fields hold them, bounding_box.hpp:126-129. -/
structure Limits where
  lo : Int
  hi : Int

/-- `offset::ucoord_t`: the largest 64-bit number, truncated to 31 bits, and zero. -/
def offsetLimits : Limits := ⟨0, 2147483647⟩
/-- `cube::coord_t`: 32-bit signed integers. -/
def cubeLimits : Limits := ⟨int32Min, int32Max⟩

/-- `update_min_max`, bounding_box.hpp:90-93. -/
def update (b : Box) (c : Int × Int) : Box := ⟨min b.minX c.1, min b.minY c.2, max b.maxX c.1, max b.maxY c.2⟩

/-- The box before the first update. -/
def start (l : Limits) : Box := ⟨l.hi, l.hi, l.lo, l.lo⟩

/-- `update_bounding_box`, bounding_box.hpp:50-164, of a cell-level layout with other than SiQAD coordinates; `pos` reads the
column and the row of a coordinate, `defects` are the positions of `foreach_sidb_defect`, `none` if the layout is no defect
surface. -/
def cellBox {C : Type} [DecidableEq C] {T : Tech} (l : Limits) (pos : C → Int × Int) (s : State C T) (defects : Option (List C)) : Box :=
  if s.isEmpty && (match defects with | none => true | some d => d.length == 0) then ⟨0, 0, 0, 0⟩
  else
    let b := (s.cells.filter (fun c => !s.isEmptyCell c)).foldl (fun b c => update b (pos c)) (start l)
    match defects with
    | none => b
    | some d => d.foldl (fun b c => update b (pos c)) b

/-- `is_empty`, gate_level_layout.hpp:616-619. -/
def gatesEmpty (s : GateLevel.State) : Bool := s.numGates + s.numWires == 0

/-- `update_bounding_box`, bounding_box.hpp:50-164, of a gate-level layout of aspect ratio `m`; `foreach_coordinate` visits the
coordinates within the aspect ratio. -/
def gateBox (m : Dim) (s : GateLevel.State) : Box :=
  if gatesEmpty s then ⟨0, 0, 0, 0⟩
  else
    ((Defects.tiles m).filter (fun t => !s.isEmptyTile t)).foldl (fun b t => update b ((t.x : Int), (t.y : Int))) (start offsetLimits)

/-- `min` and `max` of a SiQAD layout. -/
structure SiqadBox where
  min : Siqad
  max : Siqad
deriving DecidableEq

/-- `update_min_max` on SiQAD coordinates, bounding_box.hpp:74-87. The cube coordinates are always built with layer 0. -/
def updateSiqad (b : SiqadBox) (c : Siqad) : SiqadBox :=
  let k := toFictionCoord c
  let lo := toFictionCoord b.min
  let hi := toFictionCoord b.max
  ⟨toSiqadCoord { lo with x := min lo.x k.x, y := min lo.y k.y }, toSiqadCoord { hi with x := max hi.x k.x, y := max hi.y k.y }⟩

/-- The start, bounding_box.hpp:99-102. -/
def startSiqad : SiqadBox := ⟨Siqad.mk3 int32Max int32Max true, Siqad.mk3 int32Min int32Min false⟩

/-- `update_bounding_box`, bounding_box.hpp:50-122, of a layout with SiQAD coordinates. -/
def siqadBox {T : Tech} (s : State Siqad T) (defects : Option (List Siqad)) : SiqadBox :=
  if s.isEmpty && (match defects with | none => true | some d => d.length == 0) then ⟨Siqad.mk3 0 0 false, Siqad.mk3 0 0 false⟩
  else
    let b := s.cells.foldl updateSiqad startSiqad
    match defects with
    | none => b
    | some d =>
      let e := d.foldl updateSiqad b
      ⟨Siqad.mk3 (min b.min.x e.min.x) (min b.min.y e.min.y) (b.min.z && e.min.z),
        Siqad.mk3 (max b.max.x e.max.x) (max b.max.y e.max.y) (b.max.z || e.max.z)⟩

/-- `get_x_size` and `get_y_size`, bounding_box.hpp:162-163, 194-206. -/
def Box.xSize (b : Box) : Int := b.maxX - b.minX
/-- `get_y_size`, bounding_box.hpp:162-163, 194-206. -/
def Box.ySize (b : Box) : Int := b.maxY - b.minY
/-- `get_x_size` for SiQAD coordinates, bounding_box.hpp:162-163, 194-206. -/
def SiqadBox.xSize (b : SiqadBox) : Int := b.max.x - b.min.x
/-- `get_y_size` for SiQAD coordinates, bounding_box.hpp:162-163, 194-206. -/
def SiqadBox.ySize (b : SiqadBox) : Int := b.max.y - b.min.y

end Verif.BoundingBox
