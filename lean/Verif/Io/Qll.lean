/-!
# Model of `io/write_qll_layout.hpp`

The elements written for QCA layouts. iNML and molecular QCA layouts, the settings and the texts of XML elements are not modelled.
-/
namespace Verif.Qll

/-- `qca_technology::cell_type`, cell_technologies.hpp. -/
inductive Ty
  | empty | normal | input | output | const0 | const1
  deriving DecidableEq

/-- A cell. -/
structure Cell where
  x : Nat
  y : Nat
  z : Nat
  deriving DecidableEq

/-- A layout: its largest coordinates, the least coordinates of its bounding box, its cells, whether they are vias, their clock numbers and
names, its inputs and outputs. -/
structure Layout where
  w : Nat
  h : Nat
  d : Nat
  minX : Nat
  minY : Nat
  type : Cell → Ty
  vertical : Cell → Bool
  clock : Cell → Nat
  name : Cell → String
  pis : List Cell
  pos : List Cell

/-- What an element is: a cell with its phase, or a pin with its name and direction. -/
inductive Kind
  | item (phase : Nat)
  | pin (name : String) (direction : Nat)
  deriving DecidableEq

/-- An element without its identifier. -/
structure Body where
  kind : Kind
  x : Nat
  y : Nat
  layer : Nat
  deriving DecidableEq

/-- An element at the place of a cell relative to the bounding box, write_qll_layout.hpp:179-187. -/
def Layout.body (L : Layout) (k : Kind) (c : Cell) (layer : Nat) : Body := ⟨k, c.x - L.minX, c.y - L.minY, layer⟩

/-- The order of the loops, write_qll_layout.hpp:282-288. -/
def Layout.cells (L : Layout) : List Cell :=
  (List.range (L.d + 1)).flatMap fun z => (List.range (L.h + 1)).flatMap fun y => (List.range (L.w + 1)).map fun x => ⟨x, y, z⟩

/-- The elements of a cell in the loop, write_qll_layout.hpp:291-295, 353-379. -/
def Layout.inLoop (L : Layout) (c : Cell) : List Body :=
  if L.type c = .empty then [] else
    (match L.type c with
      | .normal => [L.body (.item (L.clock c)) c (c.z * 2)]
      | .const0 => [L.body (.pin "const0" 0) c (c.z * 2)]
      | .const1 => [L.body (.pin "const1" 0) c (c.z * 2)]
      | _ => []) ++
    if L.vertical c ∧ c.z ≠ L.d then [L.body (.item (L.clock c)) c (c.z * 2 + 1)] else []

/-- `write_pins`, write_qll_layout.hpp:264-274. -/
def Layout.pins (L : Layout) : List Body :=
  (L.pis.mergeSort fun a b => decide (a.y ≤ b.y)).map (fun c => L.body (.pin (L.name c) 0) c c.z) ++
  (L.pos.mergeSort fun a b => decide (a.y ≤ b.y)).map (fun c => L.body (.pin (L.name c) 1) c c.z)

/-- `write_layout`, write_qll_layout.hpp:276-421. -/
def Layout.bodies (L : Layout) : List Body := L.cells.flatMap L.inLoop ++ L.pins

/-- The elements with their identifiers: `cell_id` is 1 at first and incremented for each element, write_qll_layout.hpp:143. -/
def Layout.write (L : Layout) : List (Body × Nat) := L.bodies.zipIdx 1

end Verif.Qll
