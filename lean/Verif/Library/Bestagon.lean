import Verif.Library.Tile

/-!
# The Bestagon library

Model of `include/fiction/technology/sidb_bestagon_library.hpp`. The tables are generated from the code. A gate of 60 by 46 cells
is the list of the positions (column, row) of its silicon dangling bonds; all its other cells are empty.
-/
namespace Verif.Library.Bestagon

/-- A gate: the positions of its cells, all of which are `sidb_technology::cell_type::NORMAL`. -/
abbrev Dots := List (Nat × Nat)

/-- `STRAIGHT_WIRE`, sidb_bestagon_library.hpp:364-411. -/
def straightWire : Dots :=
  [(16, 6), (32, 6), (18, 8), (22, 10), (24, 12), (25, 17), (25, 20), (25, 25), (25, 28), (24, 32),
   (22, 34), (18, 36), (16, 38)]

/-- `MIRRORED_STRAIGHT_WIRE`, sidb_bestagon_library.hpp:413-460. -/
def mirroredStraightWire : Dots :=
  [(26, 6), (42, 6), (40, 8), (36, 10), (34, 12), (33, 17), (33, 20), (33, 25), (33, 28), (34, 32),
   (36, 34), (40, 36), (42, 38)]

/-- `DIAGONAL_WIRE`, sidb_bestagon_library.hpp:462-509. -/
def diagonalWire : Dots :=
  [(16, 6), (18, 8), (22, 10), (24, 12), (27, 16), (34, 16), (28, 19), (29, 26), (24, 29), (30, 29),
   (34, 32), (36, 34), (40, 36), (42, 38)]

/-- `MIRRORED_DIAGONAL_WIRE`, sidb_bestagon_library.hpp:511-558. -/
def mirroredDiagonalWire : Dots :=
  [(42, 6), (40, 8), (36, 10), (34, 12), (24, 16), (31, 16), (30, 19), (29, 26), (28, 29), (34, 29),
   (24, 32), (22, 34), (18, 36), (16, 38)]

/-- `STRAIGHT_INVERTER`, sidb_bestagon_library.hpp:560-607. -/
def straightInverter : Dots :=
  [(16, 6), (18, 8), (22, 10), (24, 12), (35, 12), (27, 18), (32, 18), (27, 22), (32, 22), (27, 26),
   (32, 26), (24, 32), (35, 32), (22, 34), (18, 36), (16, 38)]

/-- `MIRRORED_STRAIGHT_INVERTER`, sidb_bestagon_library.hpp:609-656. -/
def mirroredStraightInverter : Dots :=
  [(42, 6), (40, 8), (36, 10), (23, 12), (34, 12), (26, 18), (31, 18), (26, 22), (31, 22), (26, 26),
   (31, 26), (23, 32), (34, 32), (36, 34), (40, 36), (42, 38)]

/-- `DIAGONAL_INVERTER`, sidb_bestagon_library.hpp:658-705. -/
def diagonalInverter : Dots :=
  [(16, 6), (18, 8), (29, 8), (22, 10), (24, 12), (35, 12), (27, 20), (31, 20), (27, 24), (31, 24),
   (23, 32), (34, 32), (36, 34), (29, 36), (40, 36), (42, 38)]

/-- `MIRRORED_DIAGONAL_INVERTER`, sidb_bestagon_library.hpp:707-754. -/
def mirroredDiagonalInverter : Dots :=
  [(42, 6), (29, 8), (40, 8), (36, 10), (23, 12), (34, 12), (27, 20), (31, 20), (27, 24), (31, 24),
   (24, 32), (35, 32), (22, 34), (18, 36), (29, 36), (16, 38)]

/-- `CONJUNCTION`, sidb_bestagon_library.hpp:756-803. -/
def conjunction : Dots :=
  [(16, 6), (42, 6), (18, 8), (40, 8), (22, 10), (36, 10), (24, 12), (34, 12), (28, 20), (33, 20),
   (25, 21), (29, 24), (29, 28), (30, 30), (34, 32), (36, 34), (40, 36), (42, 38)]

/-- `MIRRORED_CONJUNCTION`, sidb_bestagon_library.hpp:805-852. -/
def mirroredConjunction : Dots :=
  [(16, 6), (42, 6), (18, 8), (40, 8), (22, 10), (36, 10), (24, 12), (34, 12), (25, 20), (30, 20),
   (33, 21), (29, 24), (29, 28), (28, 30), (24, 32), (22, 34), (18, 36), (16, 38)]

/-- `DISJUNCTION`, sidb_bestagon_library.hpp:854-901. -/
def disjunction : Dots :=
  [(16, 6), (42, 6), (18, 8), (40, 8), (22, 10), (36, 10), (24, 12), (34, 12), (27, 18), (32, 20),
   (27, 21), (29, 23), (29, 28), (30, 30), (34, 32), (36, 34), (40, 36), (42, 38)]

/-- `MIRRORED_DISJUNCTION`, sidb_bestagon_library.hpp:903-950. -/
def mirroredDisjunction : Dots :=
  [(16, 6), (42, 6), (18, 8), (40, 8), (22, 10), (36, 10), (24, 12), (34, 12), (31, 18), (26, 20),
   (31, 21), (29, 23), (29, 28), (28, 30), (24, 32), (22, 34), (18, 36), (16, 38)]

/-- `NEGATED_CONJUNCTION`, sidb_bestagon_library.hpp:952-999. -/
def negatedConjunction : Dots :=
  [(16, 6), (42, 6), (18, 8), (40, 8), (22, 10), (36, 10), (24, 12), (34, 12), (30, 21), (27, 23),
   (29, 28), (30, 30), (34, 32), (36, 34), (40, 36), (42, 38)]

/-- `MIRRORED_NEGATED_CONJUNCTION`, sidb_bestagon_library.hpp:1001-1048. -/
def mirroredNegatedConjunction : Dots :=
  [(16, 6), (42, 6), (18, 8), (40, 8), (22, 10), (36, 10), (24, 12), (34, 12), (28, 21), (31, 23),
   (29, 28), (28, 30), (24, 32), (22, 34), (18, 36), (16, 38)]

/-- `NEGATED_DISJUNCTION`, sidb_bestagon_library.hpp:1050-1097. -/
def negatedDisjunction : Dots :=
  [(16, 6), (42, 6), (18, 8), (40, 8), (22, 10), (36, 10), (24, 12), (34, 12), (28, 21), (28, 24),
   (29, 28), (30, 30), (34, 32), (36, 34), (40, 36), (42, 38)]

/-- `MIRRORED_NEGATED_DISJUNCTION`, sidb_bestagon_library.hpp:1099-1146. -/
def mirroredNegatedDisjunction : Dots :=
  [(16, 6), (42, 6), (18, 8), (40, 8), (22, 10), (36, 10), (24, 12), (34, 12), (30, 21), (30, 24),
   (29, 28), (28, 30), (24, 32), (22, 34), (18, 36), (16, 38)]

/-- `EXCLUSIVE_DISJUNCTION`, sidb_bestagon_library.hpp:1148-1195. -/
def exclusiveDisjunction : Dots :=
  [(16, 6), (42, 6), (18, 8), (40, 8), (22, 10), (36, 10), (24, 12), (34, 12), (26, 19), (30, 20),
   (28, 21), (27, 23), (29, 28), (30, 30), (34, 32), (36, 34), (40, 36), (42, 38)]

/-- `MIRRORED_EXCLUSIVE_DISJUNCTION`, sidb_bestagon_library.hpp:1197-1244. -/
def mirroredExclusiveDisjunction : Dots :=
  [(16, 6), (42, 6), (18, 8), (40, 8), (22, 10), (36, 10), (24, 12), (34, 12), (32, 19), (28, 20),
   (30, 21), (31, 23), (29, 28), (28, 30), (24, 32), (22, 34), (18, 36), (16, 38)]

/-- `NEGATED_EXCLUSIVE_DISJUNCTION`, sidb_bestagon_library.hpp:1246-1293. -/
def negatedExclusiveDisjunction : Dots :=
  [(16, 6), (42, 6), (18, 8), (40, 8), (22, 10), (36, 10), (24, 12), (34, 12), (28, 16), (25, 17),
   (29, 18), (25, 20), (32, 20), (29, 21), (27, 23), (33, 24), (29, 28), (30, 30), (34, 32), (36, 34),
   (40, 36), (42, 38)]

/-- `MIRRORED_NEGATED_EXCLUSIVE_DISJUNCTION`, sidb_bestagon_library.hpp:1295-1342. -/
def mirroredNegatedExclusiveDisjunction : Dots :=
  [(16, 6), (42, 6), (18, 8), (40, 8), (22, 10), (36, 10), (24, 12), (34, 12), (30, 16), (33, 17),
   (29, 18), (26, 20), (33, 20), (29, 21), (31, 23), (25, 24), (29, 28), (28, 30), (24, 32), (22, 34),
   (18, 36), (16, 38)]

/-- `FANOUT_1_2`, sidb_bestagon_library.hpp:1344-1391. -/
def fanout12 : Dots :=
  [(16, 6), (18, 8), (22, 10), (24, 12), (28, 14), (29, 16), (30, 22), (28, 24), (33, 24), (31, 25),
   (33, 27), (28, 28), (24, 32), (34, 32), (22, 34), (36, 34), (18, 36), (40, 36), (16, 38), (42, 38)]

/-- `MIRRORED_FANOUT_1_2`, sidb_bestagon_library.hpp:1393-1440. -/
def mirroredFanout12 : Dots :=
  [(42, 6), (40, 8), (36, 10), (34, 12), (30, 14), (29, 16), (28, 22), (25, 24), (30, 24), (27, 25),
   (25, 27), (30, 28), (24, 32), (34, 32), (22, 34), (36, 34), (18, 36), (40, 36), (16, 38), (42, 38)]

/-- `CROSSING_WIRE`, sidb_bestagon_library.hpp:1442-1489. -/
def crossingWire : Dots :=
  [(16, 6), (42, 6), (18, 8), (40, 8), (22, 10), (36, 10), (24, 12), (34, 12), (27, 19), (34, 21),
   (25, 23), (25, 25), (30, 27), (24, 28), (27, 28), (32, 28), (30, 29), (24, 32), (34, 32), (22, 34),
   (36, 34), (18, 36), (40, 36), (16, 38), (42, 38)]

/-- `HOURGLASS_DOUBLE_WIRE`, sidb_bestagon_library.hpp:1491-1538. -/
def hourglassDoubleWire : Dots :=
  [(16, 6), (42, 6), (18, 8), (40, 8), (22, 10), (36, 10), (24, 12), (34, 12), (24, 17), (34, 17),
   (20, 20), (38, 20), (21, 25), (37, 25), (24, 27), (34, 27), (24, 32), (34, 32), (22, 34), (36, 34),
   (18, 36), (40, 36), (16, 38), (42, 38)]

/-- `port_list<port_direction>`, cell_ports.hpp:187-232, of inputs at the north-west and the north-east and of outputs at the
south-west and the south-east. The library uses no other directions. -/
structure Ports where
  nw : Bool
  ne : Bool
  sw : Bool
  se : Bool
  deriving DecidableEq

/-- `WIRE_MAP`, sidb_bestagon_library.hpp:1548-1571. -/
def wireMap : List (Ports × Dots) :=
  [(⟨false, false, true, false⟩, straightWire),
   (⟨false, false, false, true⟩, diagonalWire),
   (⟨true, false, false, false⟩, diagonalWire),
   (⟨false, true, false, false⟩, mirroredStraightWire),
   (⟨true, false, true, false⟩, straightWire),
   (⟨false, true, false, true⟩, mirroredStraightWire),
   (⟨true, false, false, true⟩, diagonalWire),
   (⟨false, true, true, false⟩, mirroredDiagonalWire),
   (⟨false, false, false, false⟩, [])]

/-- `CROSSING_MAP`, sidb_bestagon_library.hpp:1575-1596. -/
def crossingMap : List ((Ports × Ports) × Dots) :=
  [((⟨true, false, true, false⟩, ⟨false, true, false, true⟩), hourglassDoubleWire),
   ((⟨false, true, false, true⟩, ⟨true, false, true, false⟩), hourglassDoubleWire),
   ((⟨true, false, false, true⟩, ⟨false, true, true, false⟩), crossingWire),
   ((⟨false, true, true, false⟩, ⟨true, false, false, true⟩), crossingWire)]

/-- `INVERTER_MAP`, sidb_bestagon_library.hpp:1600-1620. -/
def inverterMap : List (Ports × Dots) :=
  [(⟨true, false, true, false⟩, straightInverter),
   (⟨false, true, false, true⟩, mirroredStraightInverter),
   (⟨true, false, false, true⟩, diagonalInverter),
   (⟨false, true, true, false⟩, mirroredDiagonalInverter),
   (⟨false, false, true, false⟩, straightInverter),
   (⟨false, false, false, true⟩, diagonalInverter),
   (⟨true, false, false, false⟩, diagonalInverter),
   (⟨false, true, false, false⟩, mirroredStraightInverter)]

/-- `CONJUNCTION_MAP`, sidb_bestagon_library.hpp:1624-1630. -/
def conjunctionMap : List (Ports × Dots) :=
  [(⟨true, true, false, true⟩, conjunction),
   (⟨true, true, true, false⟩, mirroredConjunction)]

/-- `DISJUNCTION_MAP`, sidb_bestagon_library.hpp:1634-1640. -/
def disjunctionMap : List (Ports × Dots) :=
  [(⟨true, true, false, true⟩, disjunction),
   (⟨true, true, true, false⟩, mirroredDisjunction)]

/-- `NEGATED_CONJUNCTION_MAP`, sidb_bestagon_library.hpp:1644-1650. -/
def negatedConjunctionMap : List (Ports × Dots) :=
  [(⟨true, true, false, true⟩, negatedConjunction),
   (⟨true, true, true, false⟩, mirroredNegatedConjunction)]

/-- `NEGATED_DISJUNCTION_MAP`, sidb_bestagon_library.hpp:1654-1660. -/
def negatedDisjunctionMap : List (Ports × Dots) :=
  [(⟨true, true, false, true⟩, negatedDisjunction),
   (⟨true, true, true, false⟩, mirroredNegatedDisjunction)]

/-- `EXCLUSIVE_DISJUNCTION_MAP`, sidb_bestagon_library.hpp:1664-1670. -/
def exclusiveDisjunctionMap : List (Ports × Dots) :=
  [(⟨true, true, false, true⟩, exclusiveDisjunction),
   (⟨true, true, true, false⟩, mirroredExclusiveDisjunction)]

/-- `NEGATED_EXCLUSIVE_DISJUNCTION_MAP`, sidb_bestagon_library.hpp:1674-1680. -/
def negatedExclusiveDisjunctionMap : List (Ports × Dots) :=
  [(⟨true, true, false, true⟩, negatedExclusiveDisjunction),
   (⟨true, true, true, false⟩, mirroredNegatedExclusiveDisjunction)]

/-- `FANOUT_MAP`, sidb_bestagon_library.hpp:1684-1690. -/
def fanoutMap : List (Ports × Dots) :=
  [(⟨true, false, true, true⟩, fanout12),
   (⟨false, true, true, true⟩, mirroredFanout12)]

/-- `get_gate_ports`, sidb_bestagon_library.hpp:183-293. -/
def gatePorts : List (Dots × List Ports) :=
  [(straightWire, [⟨false, false, true, false⟩, ⟨true, false, true, false⟩]),
   (mirroredStraightWire, [⟨false, true, false, false⟩, ⟨false, true, false, true⟩]),
   (diagonalWire, [⟨true, false, false, false⟩, ⟨true, false, false, true⟩]),
   (mirroredDiagonalWire, [⟨false, true, true, false⟩]),
   (hourglassDoubleWire, [⟨true, true, true, true⟩]),
   (crossingWire, [⟨true, true, true, true⟩]),
   (straightInverter, [⟨false, false, true, false⟩, ⟨true, false, true, false⟩]),
   (mirroredStraightInverter, [⟨false, true, false, false⟩, ⟨false, true, false, true⟩]),
   (diagonalInverter, [⟨true, false, false, false⟩, ⟨true, false, false, true⟩]),
   (mirroredDiagonalInverter, [⟨false, true, true, false⟩]),
   (conjunction, [⟨true, true, false, true⟩]),
   (mirroredConjunction, [⟨true, true, true, false⟩]),
   (disjunction, [⟨true, true, false, true⟩]),
   (mirroredDisjunction, [⟨true, true, true, false⟩]),
   (negatedConjunction, [⟨true, true, false, true⟩]),
   (mirroredNegatedConjunction, [⟨true, true, true, false⟩]),
   (negatedDisjunction, [⟨true, true, false, true⟩]),
   (mirroredNegatedDisjunction, [⟨true, true, true, false⟩]),
   (exclusiveDisjunction, [⟨true, true, false, true⟩]),
   (mirroredExclusiveDisjunction, [⟨true, true, true, false⟩]),
   (negatedExclusiveDisjunction, [⟨true, true, false, true⟩]),
   (mirroredNegatedExclusiveDisjunction, [⟨true, true, true, false⟩]),
   (fanout12, [⟨true, false, true, true⟩]),
   (mirroredFanout12, [⟨false, true, true, true⟩])]

/-- `get_functional_implementations`, sidb_bestagon_library.hpp:158-174. A function is given by the number
`gate_level_layout` gives it, gate_level_layout.hpp:881-956. -/
def implementations : List (Nat × List Dots) :=
  [(2, [straightWire, mirroredStraightWire, diagonalWire, mirroredDiagonalWire, crossingWire, hourglassDoubleWire, fanout12, mirroredFanout12]),
   (3, [straightInverter, mirroredStraightInverter, diagonalInverter, mirroredDiagonalInverter]),
   (4, [conjunction, mirroredConjunction]),
   (6, [disjunction, mirroredDisjunction]),
   (5, [negatedConjunction, mirroredNegatedConjunction]),
   (7, [negatedDisjunction, mirroredNegatedDisjunction]),
   (12, [exclusiveDisjunction, mirroredExclusiveDisjunction]),
   (13, [negatedExclusiveDisjunction, mirroredNegatedExclusiveDisjunction])]

/-- What `determine_port_routing` asks about a tile: the function of its node, whether it is a primary input or output, the sides
with incoming and outgoing signals, and whether there are none. -/
structure Sig where
  fn : Nat
  io : Bool
  incNw : Bool
  incNe : Bool
  outSw : Bool
  outSe : Bool
  noInc : Bool
  noOut : Bool

/-- `determine_port_routing`, sidb_bestagon_library.hpp:306-359. -/
def ports (s : Sig) : Ports :=
  if s.io ∨ s.fn = 2 ∨ s.fn = 3 then ⟨s.incNw || s.noInc, s.incNe, s.outSw, s.outSe || s.noOut⟩
  else ⟨s.incNw || s.noInc, s.incNe || s.noInc, s.outSw, s.outSe || s.noOut⟩

/-- A tile: its signals, its number of fanouts, whether it is in the ground layer, and the signals of the wire above it, if
there is one. -/
structure Tile where
  sig : Sig
  fanoutSize : Nat
  ground : Bool
  above : Option Sig

/-- A gate, `unsupported_gate_orientation_exception` or `unsupported_gate_type_exception`. -/
inductive Outcome
  | gate (g : Dots)
  | unsupportedOrientation
  | unsupportedType
  deriving DecidableEq

/-- `MAP.at(p)` with the exception handler, sidb_bestagon_library.hpp:143-146. -/
def lookup {K : Type} [DecidableEq K] (map : List (K × Dots)) (p : K) : Outcome :=
  match map.find? (fun e => e.1 = p) with
  | none => .unsupportedOrientation
  | some e => .gate e.2

/-- `set_up_gate`, sidb_bestagon_library.hpp:49-149. -/
def setUp (t : Tile) : Outcome :=
  let p := ports t.sig
  if t.sig.fn = 2 ∧ t.fanoutSize = 2 then lookup fanoutMap p
  else if t.sig.fn = 2 then
    if t.ground then
      match t.above with
      | some a => lookup crossingMap (p, ports a)
      | none => lookup wireMap p
    else .gate []
  else if t.sig.fn = 3 then lookup inverterMap p
  else if t.sig.fn = 4 then lookup conjunctionMap p
  else if t.sig.fn = 6 then lookup disjunctionMap p
  else if t.sig.fn = 5 then lookup negatedConjunctionMap p
  else if t.sig.fn = 7 then lookup negatedDisjunctionMap p
  else if t.sig.fn = 12 then lookup exclusiveDisjunctionMap p
  else if t.sig.fn = 13 then lookup negatedExclusiveDisjunctionMap p
  else .unsupportedType

end Verif.Library.Bestagon
