import Verif.Library.Props
import Verif.GateLevel.Model

/-!
# Ports and tiles, as gate libraries see them

Models of `include/fiction/technology/cell_ports.hpp` and of the queries of `layouts/gate_level_layout.hpp` that the gate
libraries use.
-/
namespace Verif.Library

open Verif.Layouts Verif.Clocking Verif.GateLevel

/-- `port_position`, cell_ports.hpp:25-78, without the flags `pi` and `po`, which comparisons ignore and which are never
set in the libraries modelled here. -/
abbrev Port := Nat × Nat

/-- `operator<`, cell_ports.hpp:64-67. -/
def Port.lt (p q : Port) : Bool := decide (p.1 < q.1) || (p.1 == q.1 && decide (p.2 < q.2))

/-- `std::set::emplace`; a set is a sorted list without repetitions. -/
def emplace (p : Port) : List Port → List Port
  | [] => [p]
  | q :: l => if Port.lt p q then p :: q :: l else if Port.lt q p then q :: emplace p l else q :: l

/-- A `std::set` from the elements of a list. -/
def portSet (l : List Port) : List Port := l.foldl (fun s p => emplace p s) []

/-- `port_list`, cell_ports.hpp:187-232. -/
structure PortList where
  inp : List Port
  out : List Port
  deriving DecidableEq

/-- Which rotation is applied to a gate of a table. -/
inductive Rot | id | r90 | r180 | r270
  deriving DecidableEq

/-- The gate as rotated in a table, see `rotate90`, `rotate180` and `rotate270`. -/
def Rot.apply {N : Nat} {T : Type} (empty : T) : Rot → Gate N N T → Option (Gate N N T)
  | .id, g => some g
  | .r90, g => rotate90 empty g
  | .r180, g => some (rotate180 g)
  | .r270, g => rotate270 empty g

/-- An entry of a `port_gate_map`, e.g. qca_one_library.hpp:391-439. -/
structure Entry (N : Nat) (T : Type) where
  inp : List Port
  out : List Port
  rot : Rot
  base : Gate N N T

/-- The key of an entry of a `port_gate_map`, e.g. qca_one_library.hpp:391-439. -/
def Entry.ports {N : Nat} {T : Type} (e : Entry N T) : PortList := ⟨portSet e.inp, portSet e.out⟩

/-- What `set_up_gate` returns or throws: a gate, `unsupported_gate_orientation_exception` or
`unsupported_gate_type_exception`, fcn_gate_library.hpp:24-90. -/
inductive Outcome (N : Nat) (T : Type)
  | gate (g : Gate N N T)
  | unsupportedOrientation
  | unsupportedType

/-- `MAP.at(p)` with the exception handler, e.g. qca_one_library.hpp:105-108. `none`: the entry is undefined. -/
def lookup {N : Nat} {T : Type} (empty : T) (map : List (Entry N T)) (p : PortList) : Option (Outcome N T) :=
  match map.find? (fun e => e.ports = p) with
  | none => some .unsupportedOrientation
  | some e => (e.rot.apply empty e.base).map .gate

/-- The sides of a Cartesian tile. -/
inductive Side | north | east | south | west
  deriving DecidableEq

/-- The order in which `determine_port_routing` visits the sides, e.g. qca_one_library.hpp:153-187. -/
def sides : List Side := [.north, .east, .south, .west]

/-- What `set_up_gate` of the Cartesian libraries asks about a tile: the function of its node (2: wire, 3: inverter, 4: AND,
6: OR, 14: MAJ, gate_level_layout.hpp:881-956), the numbers of its fanins and fanouts, and the sides with incoming and
outgoing signals. -/
structure Tile where
  fn : Nat
  faninSize : Nat
  fanoutSize : Nat
  inc : Side → Bool
  out : Side → Bool

/-- `is_fanout`, gate_level_layout.hpp:964-967. -/
def Tile.isFanout (t : Tile) : Bool := t.fn == 2 && decide (t.fanoutSize > 1)

/-- `north`, `east`, `south`, `west`, cartesian_layout.hpp. -/
def Side.go (m : Dim) : Side → Coord → Coord
  | .north, c => Cart.north c
  | .east, c => Cart.east m c
  | .south, c => Cart.south m c
  | .west, c => Cart.west c

/-- `is_incoming_signal`, gate_level_layout.hpp:1331-1350. -/
def isIncomingSignal (m : Dim) (tp : Topo) (cs : Scheme) (s : State) (respect : Bool) (t sig : Coord) : Bool :=
  (s.fanins m tp cs respect (s.getNode t)).any (fun i => i == sig || Cart.above m i == sig || Cart.below i == sig)

/-- `is_outgoing_signal`, gate_level_layout.hpp:1468-1486. -/
def isOutgoingSignal (m : Dim) (tp : Topo) (cs : Scheme) (s : State) (respect : Bool) (t sig : Coord) : Bool :=
  ((s.fanouts m tp cs respect (s.getNode t)).map s.getTile).any
    (fun o => o == sig || Cart.above m o == sig || Cart.below o == sig)

/-- The tile `t` of a layout: `has_northern_incoming_signal` and so on, gate_level_layout.hpp:1358-1594; `fanin_size` and
`fanout_size`, lines 627-653. -/
def Tile.of (m : Dim) (cs : Scheme) (s : State) (respect : Bool) (t : Coord) : Tile where
  fn := (s.nodes (s.getNode t)).fn
  faninSize := (s.fanins m .cart cs respect (s.getNode t)).length
  fanoutSize := (s.fanouts m .cart cs respect (s.getNode t)).length
  inc d := isIncomingSignal m .cart cs s respect t (d.go m t)
  out d := isOutgoingSignal m .cart cs s respect t (d.go m t)

end Verif.Library
