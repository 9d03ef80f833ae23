/-!
# Model of the relocation of gates by post-layout optimization

`algorithms/physical_design/post_layout_optimization.hpp`: which positions are tried for a gate and which one it moves to.
Whether a tile is empty and whether routing succeeds are arguments; the changes of wires and obstructions are not modelled.
-/
namespace Verif.Relocate

/-- Column and row of a tile; all tiles here are ground tiles. -/
abbrev Tile := Nat × Nat

/-- What `improve_gate_location` reads, post_layout_optimization.hpp:1080-1112: the largest column and row of the layout, the
gates that feed the gate and the sources of its incoming wires, its position, whether it is an input or an output, `max_non_po`
(509-518) and `max_gate_relocations` (449). `free` says that no other node is on either layer of a tile (885), `routes` that
paths to all fan-ins and fan-outs are found in an attempt (899-922), and `timeout` gives the results of `update_timeout`
(855-862). -/
structure Job where
  X : Nat
  Y : Nat
  fanins : List Tile
  incoming : List Tile
  old : Tile
  isPi : Bool
  isPo : Bool
  maxNonPo : Tile
  limit : Nat
  free : Tile → Bool
  routes : Nat → Tile → Bool
  timeout : Nat → Bool

/-- `min_x`, post_layout_optimization.hpp:1086-1094. -/
def Job.minX (J : Job) : Nat := J.fanins.foldl (fun m f => max m f.1) 0

/-- `min_y`, post_layout_optimization.hpp:1087-1094. -/
def Job.minY (J : Job) : Nat := J.fanins.foldl (fun m f => max m f.2) 0

/-- The test for better positions, post_layout_optimization.hpp:1170-1174. -/
def Job.candidate (J : Job) (t : Tile) : Bool :=
  decide (J.Y ≥ t.2) && decide (t.2 ≥ J.minY) && decide (J.X ≥ t.1) && decide (t.1 ≥ J.minX) &&
    decide (t.1 + t.2 ≤ J.old.1 + J.old.2) && (decide (t.1 + t.2 < J.old.1 + J.old.2) || decide (t.2 ≤ J.old.2)) &&
    (!J.isPi || (J.isPi && (t.1 == 0 || t.2 == 0))) &&
    !(J.isPo && ((decide (t.1 < J.maxNonPo.1) && decide (t.2 < J.maxNonPo.2)) || t.1 + t.2 == J.old.1 + J.old.2))

/-- The variables of the loop, post_layout_optimization.hpp:1150-1153; `back` says that `check_new_position` returned false. -/
structure St where
  cur : Tile
  attempts : Nat
  moved : Bool
  back : Bool
  timedOut : Bool
  queries : Nat
  deriving DecidableEq

/-- The condition of the inner `break`, post_layout_optimization.hpp:1162-1166. -/
def Job.stop (J : Job) (s : St) : Bool := s.moved || (decide (s.attempts ≥ J.limit) && !J.isPo) || s.timedOut

/-- `check_new_position`, post_layout_optimization.hpp:880-991. The gate is on its current tile, which is not empty. -/
def Job.check (J : Job) (s : St) (t : Tile) : St :=
  if J.free t && t != s.cur then
    if J.routes s.attempts t then { s with cur := t, attempts := s.attempts + 1, moved := true, back := t == J.old }
    else { s with cur := t, attempts := s.attempts + 1 }
  else s

/-- The body of the inner loop, post_layout_optimization.hpp:1168-1182. -/
def Job.visit (J : Job) (s : St) (t : Tile) : St :=
  let s := { s with timedOut := J.timeout s.queries, queries := s.queries + 1 }
  if J.candidate t then J.check s t else s

/-- The inner loop, post_layout_optimization.hpp:1158-1183. Having returned false, `check_new_position` has also set
`moved_gate`, so that the loops end. -/
def Job.inner (J : Job) : List Tile → St → St
  | [], s => s
  | t :: ts, s => if J.stop s then s else J.inner ts (J.visit s t)

/-- The tiles of the inner loop, post_layout_optimization.hpp:1158-1160. -/
def diagonal (k : Nat) : List Tile := (List.range (k + 1)).map fun x => (x, k - x)

/-- The outer loop, post_layout_optimization.hpp:1156-1189. -/
def Job.outer (J : Job) : List Nat → St → St
  | [], s => s
  | k :: ks, s =>
    let s' := J.inner (diagonal k) s
    if s'.moved || (decide (s'.attempts ≥ J.limit) && !J.isPo) then s' else J.outer ks s'

/-- The end of both loops, post_layout_optimization.hpp:1150-1189; timeouts of earlier gates end the search, too (613). -/
def Job.search (J : Job) (timedOut : Bool) : St :=
  J.outer (List.range (J.X + J.Y + 1)) ⟨J.old, 0, false, false, timedOut, 0⟩

/-- The test for direct connections, post_layout_optimization.hpp:1103-1112. -/
def Job.direct (J : Job) : Bool := J.fanins.any fun f => J.incoming.any fun i => i == f

/-- `improve_gate_location`, post_layout_optimization.hpp:1080-1201: the position of the gate afterwards and the result. Unless
the gate has moved, the old position is restored (1008-1064). -/
def Job.improve (J : Job) (timedOut : Bool) : Tile × Bool :=
  if J.direct then (J.old, false)
  else
    let s := J.search timedOut
    if s.back then (s.cur, false) else if s.moved then (s.cur, true) else (J.old, false)

/-- The error messages of `post_layout_optimization`. -/
inductive Msg
  | clocking
  | input
  | output
  deriving DecidableEq

/-- `post_layout_optimization`, post_layout_optimization.hpp:1234-1283: the messages and whether `run` is called. The `return`
statements in the lambda functions end these functions only (1255, 1269). -/
def entry (twoddwave : Bool) (pis pos : List Tile) (X Y : Nat) : List Msg × Bool :=
  if !twoddwave then ([.clocking], false)
  else
    ((pis.filter fun t => !(t.2 == 0 || t.1 == 0)).map (fun _ => Msg.input) ++
      (pos.filter fun t => !(t.1 == X || t.2 == Y)).map (fun _ => Msg.output), true)

end Verif.Relocate
