import Verif.GateLevel.Model

/-!
# Model of `algorithms/verification/design_rule_violations.hpp`

The numbers of violations and warnings; the textual reports are not modelled. Reports do not influence the counts.
-/
namespace Verif.Drv

open Verif.Layouts Verif.Clocking Verif.GateLevel

/-- `gate_level_drv_params`, design_rule_violations.hpp:31-86. -/
structure Params where
  unplacedNodes : Bool := true
  placedDeadNodes : Bool := true
  nonAdjacentConnections : Bool := true
  missingConnections : Bool := true
  crossingGates : Bool := true
  clockedDataFlow : Bool := true
  hasIo : Bool := true
  emptyIo : Bool := true
  ioPins : Bool := true
  borderIo : Bool := true

/-- The tiles visited by `foreach_tile` (in another order): all tiles within the aspect ratio, in all layers. -/
def tiles (m : Dim) : List Coord :=
  (List.range (m.X + 1)).flatMap fun x => (List.range (m.Y + 1)).flatMap fun y =>
    (List.range (m.Z + 1)).map fun z => ⟨x, y, z, false⟩

section
variable (m : Dim) (tp : Topo) (cs : Scheme) (s : State)

/-- `is_empty`, gate_level_layout.hpp:616-619; a sum of 32-bit numbers. -/
def layoutEmpty : Bool := s.numGates + s.numWires == 0

/-- `unplaced_nodes_check`, design_rule_violations.hpp:315-343. -/
def unplacedNodes : Nat :=
  if layoutEmpty s then 0 else s.allNodes.countP (fun n => !isConstant n && (s.getTile n).d)
/-- `placed_dead_nodes_check`, design_rule_violations.hpp:349-379. -/
def placedDeadNodes : Nat :=
  if layoutEmpty s then 0 else (tiles m).countP (fun t => !s.isEmptyTile t && s.isDead (s.getNode t))
/-- `non_adjacent_connections_check`, design_rule_violations.hpp:385-421. -/
def nonAdjacentConnections : Nat :=
  if layoutEmpty s then 0 else
    ((tiles m).map (fun t =>
      if s.isEmptyTile t then 0
      else (s.nodes (s.getNode t)).children.countP (fun c =>
        !Topo.isAdjacentElevationOf tp m t (s.getTile (s.getNode c))))).sum
/-- `missing_connections_check`, design_rule_violations.hpp:427-460, with `fanin_size` and `fanout_size`,
gate_level_layout.hpp:627-653. -/
def missingConnections : Nat :=
  if layoutEmpty s then 0 else
    (tiles m).countP (fun t =>
      !s.isEmptyTile t &&
        (((s.fanouts m tp cs true (s.getNode t)).length == 0 && !s.isPoTile t) ||
         ((s.fanins m tp cs true (s.getNode t)).length == 0 && !s.isPi (s.getNode t))))
/-- `crossing_gates_check`, design_rule_violations.hpp:466-492. -/
def crossingGates : Nat :=
  if layoutEmpty s then 0 else
    s.allWires.countP (fun w => isCrossingLayer (s.getTile w) && !s.isWireTile (Cart.below (s.getTile w)))
/-- `clocked_data_flow_check`, design_rule_violations.hpp:498-533. -/
def clockedDataFlow : Nat :=
  if layoutEmpty s then 0 else
    ((tiles m).map (fun t =>
      if s.isEmptyTile t then 0
      else (s.nodes (s.getNode t)).children.countP (fun c =>
        !isIncomingClocked cs t (s.getTile (s.getNode c))))).sum
/-- `has_io_check`, design_rule_violations.hpp:539-577. The counted numbers equal the specified ones, as both are sizes
of the same container. -/
def hasIo : Nat :=
  if layoutEmpty s then 0 else
    (if s.inputs.length = 0 then 1 else 0) + (if s.outputs.length = 0 then 1 else 0)
/-- `empty_io_check`, design_rule_violations.hpp:583-608. -/
def emptyIo : Nat :=
  if layoutEmpty s then 0 else
    s.inputs.countP (fun n => s.isEmptyTile (s.getTile n)) +
    s.outputs.countP (fun o => s.isEmptyTile (s.getTile (s.getNode o)))
/-- `io_pin_check`, design_rule_violations.hpp:614-639. -/
def ioPins : Nat :=
  if layoutEmpty s then 0 else
    s.inputs.countP (fun n => !s.isWire n) + s.outputs.countP (fun o => !s.isWire (s.getNode o))
/-- `is_at_any_border`, cartesian_layout.hpp:565-569, hexagonal_layout.hpp:727-731. -/
def isAtAnyBorder (t : Coord) : Bool :=
  Cart.isAtNorthernBorder t || Cart.isAtEasternBorder m t || Cart.isAtSouthernBorder m t || Cart.isAtWesternBorder t
/-- `border_io_check`, design_rule_violations.hpp:645-670. -/
def borderIo : Nat :=
  if layoutEmpty s then 0 else
    s.inputs.countP (fun n => !isAtAnyBorder m (s.getTile n)) +
    s.outputs.countP (fun o => !isAtAnyBorder m (s.getTile (s.getNode o)))

/-- `gate_level_drv_stats::drvs` after `gate_level_drvs`, design_rule_violations.hpp:138-199. -/
def drvs (ps : Params) : Nat :=
  (if ps.nonAdjacentConnections then nonAdjacentConnections m tp s else 0) +
  (if ps.missingConnections then missingConnections m tp cs s else 0) +
  (if ps.crossingGates then crossingGates s else 0) +
  (if ps.clockedDataFlow then clockedDataFlow m cs s else 0) +
  (if ps.hasIo then hasIo s else 0) +
  (if ps.emptyIo then emptyIo s else 0)

/-- `gate_level_drv_stats::warnings` after `gate_level_drvs`, design_rule_violations.hpp:138-199. -/
def warnings (ps : Params) : Nat :=
  (if ps.unplacedNodes then unplacedNodes s else 0) +
  (if ps.placedDeadNodes then placedDeadNodes m s else 0) +
  (if ps.ioPins then ioPins s else 0) +
  (if ps.borderIo then borderIo m s else 0)

end

end Verif.Drv
