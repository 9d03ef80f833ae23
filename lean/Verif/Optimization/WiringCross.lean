import Verif.Optimization.Wiring

/-!
# Model of wiring reduction next to crossings

`algorithms/physical_design/wiring_reduction.hpp`: the special cases for crossings and the layers of the new fan-ins.
-/
namespace Verif.Wiring

open Verif.Paths

/-- `has_northern_incoming_signal` of a ground tile, gate_level_layout.hpp:1359-1362. -/
def northAt (nodes : List Node) (t : Tile) : Bool := nodes.any fun n => n.tile == t && n.layer == 0 && n.fromNorth

/-- `has_western_incoming_signal` of a ground tile, gate_level_layout.hpp:1431-1434. -/
def westAt (nodes : List Node) (t : Tile) : Bool := nodes.any fun n => n.tile == t && n.layer == 0 && n.fromWest

/-- `is_single_wire`, wiring_reduction.hpp:421-426, see `wireAt`; coordinates that wrap around are those of no tile. -/
def singleWire (nodes : List Node) (c : Tile) (dx dy : Nat) : Bool :=
  decide (dx ≤ c.1) && decide (dy ≤ c.2) && wireAt nodes (c.1 - dx, c.2 - dy)

/-- `is_crossing`, wiring_reduction.hpp:433-438. -/
def isCrossing (nodes : List Node) (c : Tile) (dx dy : Nat) : Bool :=
  northAt nodes (c.1 - dx, c.2 - dy + 1) && westAt nodes (c.1 - dx + 1, c.2 - dy)

/-- The loop of the special case, wiring_reduction.hpp:562-597; the first argument bounds the number of iterations. In the
vertical case the last test looks at row `y - i`. -/
def crossLoop (dir : Dir) (nodes : List Node) (c : Tile) : Nat → Nat → Bool
  | 0, _ => false
  | fuel + 1, i =>
    if isCrossing nodes c 1 1 then true
    else match dir with
      | .horizontal =>
        if !singleWire nodes c 1 i || !singleWire nodes c 0 (i + 1) || !northAt nodes (c.1 - 1, c.2 - i + 1) ||
            !northAt nodes (c.1, c.2 - i) then false
        else if isCrossing nodes c 1 (i + 1) then true
        else crossLoop dir nodes c fuel (i + 1)
      | .vertical =>
        if !singleWire nodes c i 1 || !singleWire nodes c (i + 1) 0 || !westAt nodes (c.1 - i, c.2) ||
            !westAt nodes (c.1 - i + 1, c.2 - i) then false
        else if isCrossing nodes c (i + 1) 1 then true
        else crossLoop dir nodes c fuel (i + 1)

/-- The tile obstructed because of a node that two wires from a crossing lead to, wiring_reduction.hpp:547-611. -/
def Node.crossTile (dir : Dir) (nodes : List Node) (n : Node) : Option Tile :=
  if (n.layer == 1 || n.incoming == 2) && singleWire nodes n.tile 1 0 && singleWire nodes n.tile 0 1 &&
      crossLoop dir nodes n.tile (n.tile.1 + n.tile.2 + 1) 1 then
    match dir with
    | .horizontal => some (n.tile.1 - 1, n.tile.2)
    | .vertical => some (n.tile.1, n.tile.2 - 1)
  else none

/-- The cuts of one direction with all obstructions of `create_wiring_reduction_layout`, wiring_reduction.hpp:421-611. -/
def allCuts (q : Queue Tile Nat) (timeout : Nat → Bool) (dir : Dir) (w h : Nat) (nodes : List Node) :
    Option (Search × List Tile) :=
  cutsOf q timeout dir w h nodes fun t => nodes.any fun n => (n.crossTile dir nodes).any fun b => t == (b.1 + 1, b.2 + 1)

/-- The layer of `incoming_data_flow(t)[0]` of a ground tile, gate_level_layout.hpp:1141. -/
def incomingLayer (nodes : List Node) (t : Tile) : Nat :=
  match nodes.find? (fun n => n.tile == t && n.layer == 0) with
  | some n => n.sourceLayer
  | none => 0

/-- `walk` for the layer of the tile at its end, wiring_reduction.hpp:841-855, 903-917; the walk begins in the ground layer
(834, 896). -/
def walkLayer (S : Search) (nodes : List Node) (del : List Tile) : Nat → Tile → Nat
  | 0, _ => 0
  | o + 1, f =>
    match incomingOf nodes f with
    | none => 0
    | some s =>
      let p : Tile := tileAt S.dir (lane S.dir f) (pos S.dir f - 1)
      if pos S.dir f > 0 ∧ offsetMatrix S del f.2 f.1 ≠ offsetMatrix S del p.2 p.1 ∧ pos S.dir s ≠ pos S.dir f then
        walkLayer S nodes del o p
      else incomingLayer nodes f

/-- The layer of the new fan-in, wiring_reduction.hpp:813-861, 875-923, for a fan-in `f` in layer `z`. -/
def Search.newFaninLayer (S : Search) (nodes : List Node) (del : List Tile) (old f : Tile) (z : Nat) : Nat :=
  let offset := offsetMatrix S del old.2 old.1
  if pos S.dir f = pos S.dir old then z
  else
    let n : Tile := tileAt S.dir (lane S.dir f) (pos S.dir f + 1)
    if offsetMatrix S del n.2 n.1 ≠ offsetMatrix S del f.2 f.1 then walkLayer S nodes del offset f else z

end Verif.Wiring
