import Verif.Graphs.Coloring
import Verif.Paths.Model
import Verif.Paths.Yen
import Verif.Library.Tile

/-!
# Model of `algorithms/physical_design/color_routing.hpp`

With `algorithms/graph/generate_edge_intersection_graph.hpp` and `route_path` of `utils/routing_utils.hpp`.
-/
namespace Verif.PhysicalDesign.ColorRouting

open Verif.Layouts Verif.Clocking Verif.GateLevel Verif.Paths Verif.Graphs

abbrev Path := List Coord

/-! ## The layout as the path finders see it -/

/-- `is_crossable_wire`, routing_utils.hpp:150-185. `has_no_incoming_signal` and `has_no_outgoing_signal` are `fanin_size == 0` and
`fanout_size == 0`, gate_level_layout.hpp:1455-1461, 1591-1597. -/
def isCrossableWire (m : Dim) (tp : Topo) (cs : Scheme) (s : State) (src c : Coord) : Bool :=
  let n := s.getNode c
  if s.isWire n && !s.isPi n && !s.isPo n then
    if (s.fanins m tp cs true n).isEmpty || (s.fanouts m tp cs true n).isEmpty then false
    else isGroundLayer src || !Library.isIncomingSignal m tp cs s true c (s.getTile (s.getNode (Cart.below src)))
  else false

/-- `obstruction_layout{layout}` without further obstructions, obstruction_layout.hpp:134-176. -/
def routingLayout (m : Dim) (tp : Topo) (cs : Scheme) (s : State) : RLayout where
  tp := tp
  m := m
  scheme := some cs
  obstructed := fun c => !s.isEmptyTile c
  obstructedConn := fun a b => Library.isIncomingSignal m tp cs s true b a || Library.isOutgoingSignal m tp cs s true a b
  crossable := isCrossableWire m tp cs s

/-! ## The edge intersection graph -/

/-- The coordinates between the first and the last: `cbegin() + 1` to `cend() - 1`. (For a path of a single coordinate this range is
invalid in the code.) -/
def inner (p : Path) : List Coord := p.tail.dropLast

/-- `source() == other.source() && target() == other.target()`, generate_edge_intersection_graph.hpp:204, 228; routing_utils.hpp:56-64. -/
def sameEnds (p q : Path) : Bool := p.head? == q.head? && p.getLast? == q.getLast?

/-- `has_intersection_with`, generate_edge_intersection_graph.hpp:200-212. -/
def hasIntersectionWith (p other : Path) : Bool := sameEnds p other || (inner other).any fun c => p.contains c

/-- `find_first_two_of(...) != cend(other)`, stl_utils.hpp:40-54: two consecutive elements are also consecutive in the other
range. -/
def sharesTwo (p q : Path) : Bool := (p.zip p.tail).any fun e => (q.zip q.tail).contains e

/-- `has_overlap_with`, generate_edge_intersection_graph.hpp:224-236. -/
def hasOverlapWith (p other : Path) : Bool := sameEnds p other || sharesTwo other p

/-- generate_edge_intersection_graph.hpp:323-324. -/
def conflict (crossings : Bool) (p stored : Path) : Bool :=
  if crossings then hasOverlapWith p stored else hasIntersectionWith p stored

/-- The graph under construction, generate_edge_intersection_graph.hpp:56-76, 146-170, 265: the path with label `i` is `paths[i]`. -/
structure Eig where
  paths : List Path := []
  edges : List (Nat × Nat) := []
  cliques : List (List Nat) := []
  unroutable : Nat := 0

/-- The pairs of `connect_clique`, generate_edge_intersection_graph.hpp:298-307, for `n` labels starting with `base`. -/
def cliqueEdges (base n : Nat) : List (Nat × Nat) :=
  (List.range n).flatMap fun i => (List.range' (i + 1) (n - (i + 1))).map fun j => (base + i, base + j)

/-- One objective with its paths: generate_edge_intersection_graph.hpp:118-136, with `initiate_objective_nodes` (275-291),
`connect_clique` and `create_intersection_edges` (315-331). -/
def Eig.add (crossings : Bool) (e : Eig) (ps : List Path) : Eig :=
  let base := e.paths.length
  { paths := e.paths ++ ps
    edges := e.edges ++ cliqueEdges base ps.length ++
      ps.zipIdx.flatMap fun a => e.paths.zipIdx.filterMap fun b =>
        if conflict crossings a.1 b.1 then some (base + a.2, b.2) else none
    cliques := if ps.isEmpty then e.cliques else e.cliques ++ [List.range' base ps.length]
    unroutable := if ps.isEmpty then e.unroutable + 1 else e.unroutable }

/-- `run`, generate_edge_intersection_graph.hpp:94-144; the paths of the objectives are given. -/
def edgeIntersectionGraph (crossings : Bool) (cands : List (List Path)) : Eig := cands.foldl (Eig.add crossings) {}

/-- The paths of one objective, generate_edge_intersection_graph.hpp:104-116. -/
def candidates (q : Queue Coord Nat) (l : RLayout) (crossings : Bool) (pathLimit : Option Nat) (fuel : Nat) (obj : Coord × Coord) :
    Option (List Path) :=
  match pathLimit with
  | none => enumerateLayout l crossings obj.1 obj.2 fuel
  | some k => (yen q l ⟨[], []⟩ crossings obj.1 obj.2 k fuel).map Prod.fst

/-! ## Routing -/

/-- One wire segment of `route_path`, routing_utils.hpp:207-208. -/
def routeStep (m : Dim) (st : State × Coord) (c : Coord) : State × Coord :=
  let t := if st.1.isEmptyTile c then c else Cart.above m c
  (st.1.createGate m 2 [st.2] t, t)

/-- `route_path`, routing_utils.hpp:199-212. -/
def routePath (m : Dim) (s : State) (p : Path) : State :=
  let r := (inner p).foldl (routeStep m) (s, p.headD const0)
  r.1.connect r.2 (r.1.getNode (p.getLastD const0))

/-- `color_routing_params`, color_routing.hpp:28-51, without the crossings and the path limit. -/
structure Params where
  partialRouting : Bool := false
  sat : Bool := true
  partialSat : Bool := false

/-- What the environment contributes: the iteration order of the hash tables, the solver and the heuristic engine. -/
structure Env where
  vertexOrder : List Nat → List Nat
  edgeOrder : List (Nat × Nat) → List (Nat × Nat)
  frequencyOrder : List (Nat × Nat) → List (Nat × Nat)
  solve : Solver
  heuristic : Heuristic

/-- The graph in the iteration order of its hash tables. -/
def Eig.graph (e : Eig) (env : Env) : Graph :=
  ⟨env.vertexOrder (List.range e.paths.length), env.edgeOrder e.edges⟩

/-- The parameters of the coloring, color_routing.hpp:105-110. -/
def coloringParams (p : Params) (cliques : List (List Nat)) : Option SatParams :=
  if p.sat then some ⟨.ascending, cliques, !p.partialSat⟩ else none

/-- `run` and `conduct_routing`, color_routing.hpp:88-173: the return value, the paths that are routed in this order, and
`number_of_unsatisfied_objectives` (if it is written). -/
def plan (p : Params) (crossings : Bool) (cands : List (List Path)) (env : Env) : Outcome (Bool × List Path × Option Nat) :=
  let e := edgeIntersectionGraph crossings cands
  if !p.partialRouting && decide (e.unroutable > 0) then .returned (false, [], none)
  else
    match determineColoring (e.graph env) (coloringParams p e.cliques) env.frequencyOrder env.solve env.heuristic with
    | .returned r =>
      if !p.partialRouting && decide (r.colorFrequency ≠ e.cliques.length) then .returned (false, [], none)
      else if (e.graph env).vertices.any fun v => (r.at v).isNone then .broken
      else
        let chosen := (e.graph env).vertices.filter fun v => r.at v == some r.mostFrequent
        .returned (true, chosen.map fun v => e.paths.getD v [], some (cands.length - chosen.length))
    | _ => .broken

/-- `color_routing`, color_routing.hpp:88-173, on the layout `s`. -/
def colorRouting (m : Dim) (p : Params) (crossings : Bool) (cands : List (List Path)) (env : Env) (s : State) :
    Outcome (Bool × State) :=
  match plan p crossings cands env with
  | .returned r => .returned (r.1, r.2.1.foldl (routePath m) s)
  | _ => .broken

end Verif.PhysicalDesign.ColorRouting
