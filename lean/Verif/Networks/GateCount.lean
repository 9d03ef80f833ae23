/-!
# Model of `algorithms/properties/count_gate_types.hpp`

Constants come first in `foreach_node`; nodes are given by what the tests read.
-/
namespace Verif.GateCount

/-- The counters of `count_gate_types_stats`, count_gate_types.hpp:25-27. -/
inductive Kind
  | fanout | buf | inv | and2 | or2 | nand2 | nor2 | xor2 | xnor2 | lt2 | gt2 | le2 | ge2 | and3 | xorAnd | orAnd | onehot
  | maj3 | gamble | dot | mux | andXor | other
  deriving DecidableEq

/-- A node: `data[1].h1`, its number of fan-outs, and whether it is an input or a constant. -/
structure Node where
  lit : Nat
  fanouts : Nat
  isPi : Bool
  isConst : Bool

/-- The tests that only read the number of the function: count_gate_types.hpp:114-201, 234-241, with gate_level_layout.hpp:898-956
and technology_network.hpp:271-334. -/
def commonTests : List (Kind × (Node → Bool)) :=
  [(.inv, fun n => n.lit == 3), (.and2, fun n => n.lit == 4), (.or2, fun n => n.lit == 6), (.nand2, fun n => n.lit == 5),
    (.nor2, fun n => n.lit == 7), (.xor2, fun n => n.lit == 12), (.xnor2, fun n => n.lit == 13), (.lt2, fun n => n.lit == 8),
    (.gt2, fun n => n.lit == 10), (.le2, fun n => n.lit == 11), (.ge2, fun n => n.lit == 9)]

/-- The tests for gate-level layouts, count_gate_types.hpp:98-273, with gate_level_layout.hpp:881-967. -/
def layoutTests : List (Kind × (Node → Bool)) :=
  [(.fanout, fun n => n.lit == 2 && decide (n.fanouts > 1)), (.buf, fun n => n.lit == 2)] ++ commonTests ++
    [(.maj3, fun n => n.lit == 14)]

/-- The tests for technology networks, count_gate_types.hpp:98-273, with technology_network.hpp:250-374. -/
def networkTests : List (Kind × (Node → Bool)) :=
  [(.fanout, fun n => (n.lit == 2 && !n.isPi) && decide (n.fanouts > 1)), (.buf, fun n => n.lit == 2 && !n.isPi)] ++ commonTests ++
    [(.and3, fun n => n.lit == 22), (.xorAnd, fun n => n.lit == 24), (.orAnd, fun n => n.lit == 26),
      (.onehot, fun n => n.lit == 28), (.maj3, fun n => n.lit == 14), (.gamble, fun n => n.lit == 31),
      (.dot, fun n => n.lit == 20), (.mux, fun n => n.lit == 16), (.andXor, fun n => n.lit == 32)]

/-- The counters. -/
abbrev Stats := Kind → Nat

/-- `++` for one counter. -/
def Stats.inc (s : Stats) (k : Kind) : Stats := fun k' => if k' = k then s k' + 1 else s k'

/-- The body of the loop, count_gate_types.hpp:89-286. -/
def visit (tests : List (Kind × (Node → Bool))) (s : Stats) (n : Node) : Stats :=
  if n.isConst then s
  else match tests.find? (fun t => t.2 n) with
    | some t => s.inc t.1
    | none => if n.isPi then s else s.inc .other

/-- `count_gate_types`, count_gate_types.hpp:306-322. -/
def count (tests : List (Kind × (Node → Bool))) (nodes : List Node) : Stats := nodes.foldl (visit tests) fun _ => 0

/-- The total of `report`, count_gate_types.hpp:66-69. -/
def total (s : Stats) : Nat :=
  s .fanout + s .buf + s .inv + s .and2 + s .or2 + s .nand2 + s .nor2 + s .xor2 + s .xnor2 + s .le2 + s .ge2 + s .gt2 + s .lt2 +
    s .and3 + s .xorAnd + s .orAnd + s .onehot + s .maj3 + s .gamble + s .dot + s .mux + s .andXor + s .other

end Verif.GateCount
