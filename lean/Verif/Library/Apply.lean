import Verif.Library.QcaOneProps
import Verif.Library.BestagonProps
import Verif.Cells.Model
import Verif.Clocking.Model

/-!
# Applying a gate library

Model of `include/fiction/algorithms/physical_design/apply_gate_library.hpp` (static libraries), of
`relative_to_absolute_cell_position` (`utils/layout_utils.hpp`) and of the post-layout optimization of QCA ONE. Cell coordinates are
triples of unbounded natural numbers; in the code they are truncated to 31 bits. Not modelled: progress bars, the copying of the
clocking scheme and of defects, parameterized libraries.
-/
namespace Verif.Library

open Verif.Layouts Verif.Clocking

/-- The kinds of gate-level layouts, layouts/cartesian_layout.hpp, shifted_cartesian_layout.hpp, hexagonal_layout.hpp. -/
inductive Lay
  | cartesian
  | shifted (a : Hex.Arr)
  | hex (a : Hex.Arr)
  deriving DecidableEq

/-- Column, row and layer of a cell. -/
abbrev CellPos := Nat × Nat × Nat

/-- The horizontal shift of odd or even rows, layout_utils.hpp:97-112, 144-159; `static_cast<unsigned>(X / 2.0)` is `X / 2`. -/
def shiftX (a : Hex.Arr) (X : Nat) (t : Coord) : Nat :=
  match a with
  | .oddRow => if t.y % 2 = 1 then X / 2 else 0
  | .evenRow => if t.y % 2 = 0 then X / 2 else 0
  | _ => 0

/-- The vertical shift of odd or even columns, layout_utils.hpp:113-128, 160-175. -/
def shiftY (a : Hex.Arr) (Y : Nat) (t : Coord) : Nat :=
  match a with
  | .oddColumn => if t.x % 2 = 1 then Y / 2 else 0
  | .evenColumn => if t.x % 2 = 0 then Y / 2 else 0
  | _ => 0

/-- `relative_to_absolute_cell_position`, layout_utils.hpp:66-185. -/
def relToAbs (l : Lay) (X Y : Nat) (t : Coord) (r : Nat × Nat) : CellPos :=
  let c : CellPos :=
    match l with
    | .cartesian => (t.x * X, t.y * Y, t.z)
    | .shifted a => (t.x * X + shiftX a X t, t.y * Y + shiftY a Y t, t.z)
    | .hex a =>
      if a.pointy then (t.x * X + shiftX a X t, t.y * (Y * 3 / 4) + shiftY a Y t, t.z)
      else (t.x * (X * 3 / 4) + shiftX a X t, t.y * Y + shiftY a Y t, t.z)
  (c.1 + r.1, c.2.1 + r.2, c.2.2)

/-- `determine_aspect_ratio_for_cell_level_layout`, apply_gate_library.hpp:255-272: the largest column, row and layer. -/
def cellAspect (l : Lay) (X Y : Nat) (m : Dim) : CellPos :=
  let r := (X - 1, Y - 1)
  let oddX := if m.X ≠ 0 then 1 else 0
  let oddY := if m.Y ≠ 0 then 1 else 0
  (max (relToAbs l X Y ⟨m.X, 0, 0, false⟩ r).1 (relToAbs l X Y ⟨m.X, oddY, 0, false⟩ r).1,
    max (relToAbs l X Y ⟨0, m.Y, 0, false⟩ r).2.1 (relToAbs l X Y ⟨oddX, m.Y, 0, false⟩ r).2.1, m.Z)

section Apply
variable {X Y : Nat} {T : Cells.Tech}

/-- The body of the loop of `assign_gate`, apply_gate_library.hpp:232-244. -/
def putCell (s : Cells.State CellPos T) (pos : CellPos) (type : T.CellType) (name : String) : Cells.State CellPos T :=
  let s := if T.isEmpty type then s else s.assignCellType pos type
  if T.isInput type || T.isOutput type then s.assignCellName pos name else s

/-- `assign_gate`, apply_gate_library.hpp:221-247. -/
def assignGate (s : Cells.State CellPos T) (c : CellPos) (g : Gate X Y T.CellType) (name : String) : Cells.State CellPos T :=
  (List.finRange Y).foldl (fun s y =>
    (List.finRange X).foldl (fun s x => putCell s (c.1 + x.val, c.2.1 + y.val, c.2.2) (g y x) name) s) s

/-- `run_static_gate_library`, apply_gate_library.hpp:77-111, up to the post-layout optimization. `setUp t` is
`GateLibrary::set_up_gate(gate_lyt, t)`, with `none` if it throws; `name n` is `gate_lyt.get_name(n)`. -/
def applyLibrary (l : Lay) (gl : GateLevel.State) (setUp : Coord → Option (Gate X Y T.CellType)) (name : Nat → String) :
    Option (Cells.State CellPos T) :=
  (gl.allNodes.filter (fun n => !GateLevel.isConstant n)).foldlM (fun s n =>
    let t := gl.getTile n
    (setUp t).map (fun g => assignGate s (relToAbs l X Y t (0, 0)) g (name n))) (Cells.new "" X Y)

end Apply

/-! ## QCA ONE -/

namespace QcaOne

/-- `set_up_gate` of QCA ONE at a tile of a Cartesian layout. -/
def setUpAt (m : Dim) (cs : Scheme) (gl : GateLevel.State) (t : Coord) : Option (Gate 5 5 Cells.QcaType) :=
  match setUp (Tile.of m cs gl true t) with
  | some (.gate g) => some g
  | _ => none

/-- `adjacent_coordinates`, cartesian_layout.hpp:734-768, in a cell-level layout with largest column and row `d`. -/
def adjacentCells (d : CellPos) (c : CellPos) : List CellPos :=
  [(c.1, c.2.1 - 1, c.2.2), (if c.1 < d.1 then c.1 + 1 else c.1, c.2.1, c.2.2),
    (c.1, if c.2.1 < d.2.1 then c.2.1 + 1 else c.2.1, c.2.2), (c.1 - 1, c.2.1, c.2.2)].filter (fun e => e ≠ c)

/-- The body of the loop of `post_layout_optimization`, qca_one_library.hpp:122-143. -/
def viaStep (d : CellPos) (s : Cells.State CellPos Cells.qca) (c : CellPos) : Cells.State CellPos Cells.qca :=
  if c.2.2 > 0 then
    if s.isEmptyCell c then s
    else if ((adjacentCells d c).filter (fun a => !s.isEmptyCell a)).length ≤ 1 then
      (((s.assignCellMode c .vertical).assignCellType (c.1, c.2.1, 0) .normal).assignCellMode (c.1, c.2.1, 0) .vertical)
    else s
  else s

/-- `foreach_cell_position`, cell_level_layout.hpp: all coordinates of the layout (C03). -/
def positions (d : CellPos) : List CellPos :=
  (List.range (d.2.2 + 1)).flatMap (fun z => (List.range (d.2.1 + 1)).flatMap (fun y =>
    (List.range (d.1 + 1)).map (fun x => (x, y, z))))

/-- `post_layout_optimization`, qca_one_library.hpp:118-145. -/
def postLayout (d : CellPos) (s : Cells.State CellPos Cells.qca) : Cells.State CellPos Cells.qca :=
  (positions d).foldl (viaStep d) s

/-- `apply_gate_library<CellLyt, qca_one_library>`, apply_gate_library.hpp:294-318. -/
def apply (m : Dim) (cs : Scheme) (gl : GateLevel.State) (name : Nat → String) : Option (Cells.State CellPos Cells.qca) :=
  (applyLibrary .cartesian gl (setUpAt m cs gl) name).map (postLayout (cellAspect .cartesian 5 5 m))

end QcaOne

/-! ## Bestagon -/

namespace Bestagon

/-- The gate with normal cells at the given dots; all cells of the gates of the library are `'x'`. -/
def dotsGate (g : Dots) : Gate 60 46 Cells.SidbType := fun y x => if (x.val, y.val) ∈ g then .normal else .empty

/-- `set_up_gate` of the Bestagon library; `tile t` are the answers of the gate-level layout to its queries about `t`. -/
def setUpAt (tile : Coord → Tile) (t : Coord) : Option (Gate 60 46 Cells.SidbType) :=
  if t.d then none
  else
    match setUp (tile t) with
    | .gate g => some (dotsGate g)
    | _ => none

/-- `apply_gate_library<CellLyt, sidb_bestagon_library>`, apply_gate_library.hpp:294-318. -/
def apply (a : Hex.Arr) (gl : GateLevel.State) (tile : Coord → Tile) (name : Nat → String) : Option (Cells.State CellPos Cells.sidb) :=
  applyLibrary (.hex a) gl (setUpAt tile) name

end Bestagon

end Verif.Library
