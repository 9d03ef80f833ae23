/-!
# Model of `io/write_qcc_layout.hpp`

The check of pins and the items of the layout, for layouts with one layer of cells. Texts of XML elements, the entity and the header are
not modelled.
-/
namespace Verif.Qcc

/-- `inml_technology::cell_type`, cell_technologies.hpp. -/
inductive Ty
  | empty | normal | input | output | slantedUp | slantedDown | inverter | coupler | crosswire
  deriving DecidableEq

/-- A cell. -/
structure Cell where
  x : Nat
  y : Nat
  deriving DecidableEq

/-- A layout: its largest coordinates, its cells, clock numbers, inputs and outputs. -/
structure Layout where
  w : Nat
  h : Nat
  type : Cell → Ty
  clock : Cell → Nat
  pis : List Cell
  pos : List Cell

/-- The least coordinates of the bounding box, bounding_box.hpp:124-160. -/
def Layout.minX (L : Layout) : Nat :=
  ((List.range (L.w + 1)).find? fun x => (List.range (L.h + 1)).any fun y => decide (L.type ⟨x, y⟩ ≠ .empty)).getD 0

/-- The least coordinates of the bounding box, bounding_box.hpp:124-160. -/
def Layout.minY (L : Layout) : Nat :=
  ((List.range (L.h + 1)).find? fun y => (List.range (L.w + 1)).any fun x => decide (L.type ⟨x, y⟩ ≠ .empty)).getD 0

/-- `has_border_io_pins`, write_qcc_layout.hpp:170-198. -/
def Layout.accepted (L : Layout) : Bool :=
  L.pis.all (fun c => decide (c.x - L.minX = 0)) && L.pos.all (fun c => decide (c.x - L.minX = L.w))

/-- The cells to be skipped because of a cell, write_qcc_layout.hpp:290-319. -/
def covers (t : Ty) (c : Cell) : List Cell :=
  match t with
  | .slantedUp => [⟨c.x, c.y + 1⟩, ⟨c.x, c.y + 2⟩]
  | .slantedDown => [⟨c.x, c.y + 1⟩, ⟨c.x, c.y + 2⟩]
  | .coupler => [⟨c.x, c.y + 1⟩, ⟨c.x, c.y + 2⟩, ⟨c.x + 1, c.y⟩, ⟨c.x + 1, c.y + 2⟩]
  | .crosswire => [⟨c.x + 2, c.y⟩, ⟨c.x, c.y + 2⟩, ⟨c.x + 1, c.y + 1⟩, ⟨c.x + 2, c.y + 2⟩]
  | .inverter => [⟨c.x + 1, c.y⟩, ⟨c.x + 2, c.y⟩, ⟨c.x + 3, c.y⟩]
  | _ => []

/-- The order of the loops, write_qcc_layout.hpp:275-279. -/
def Layout.cells (L : Layout) : List Cell :=
  (List.range (L.h + 1)).flatMap fun y => (List.range (L.w + 1)).map fun x => ⟨x, y⟩

/-- The cells that are written as items, write_qcc_layout.hpp:271-339. -/
def Layout.scan (L : Layout) : List Cell → List Cell → List Cell
  | [], _ => []
  | c :: rest, skip =>
    if L.type c = .empty ∨ c ∈ skip then L.scan rest skip
    else c :: L.scan rest (skip ++ covers (L.type c) c)

/-- `COMPONENT_SELECTOR`, write_qcc_layout.hpp:88-93. -/
def component : Ty → Nat
  | .coupler => 1
  | .crosswire => 2
  | .slantedDown => 3
  | .inverter => 4
  | .slantedUp => 5
  | _ => 0

/-- An item of the layout. -/
structure Item where
  comp : Nat
  x : Nat
  y : Nat
  phase : Nat
  length : Option Nat
  deriving DecidableEq

/-- The item of a cell, write_qcc_layout.hpp:321-337. -/
def Layout.item (L : Layout) (c : Cell) : Item :=
  ⟨component (L.type c), c.x - L.minX, c.y - L.minY, L.clock c, if L.type c = .inverter then some 4 else none⟩

/-- `run`, write_qcc_layout.hpp:111-127: `none` is the exception. -/
def Layout.write (L : Layout) : Option (List Item) :=
  if L.accepted then some ((L.scan L.cells []).map L.item) else none

end Verif.Qcc
