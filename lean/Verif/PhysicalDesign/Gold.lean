import Verif.PhysicalDesign.ColorRouting
import Verif.PhysicalDesign.Orthogonal

/-!
# Model of `algorithms/physical_design/graph_oriented_layout_design.hpp`

A vertex of a search space graph is a list of positions for the first nodes of `nodes_to_place`. `expand` builds the layout of a vertex
from scratch and either returns it (if all nodes are placed), drops the vertex, or determines the positions for the next node. All
search space graphs share the best costs found so far, and several threads may change them at any time; the outcome of a comparison
with them is therefore arbitrary here (`Verdict`), and so is the order in which vertices are expanded.

The network is a technology network without constant fanins. Names, statistics and priorities are omitted, and so is the relocation
of outputs that follows a solution (`post_layout_optimization` with `optimize_pos_only`). `none` and `Outcome.broken` stand for a
violated assertion or an access out of bounds.
-/
namespace Verif.PhysicalDesign.Gold

open Verif.Layouts Verif.Clocking Verif.GateLevel Verif.Networks Verif.Paths Verif.PhysicalDesign.ColorRouting Verif.PhysicalDesign.Ortho

/-- The parameters that matter for a single expansion: `planar`, `straight_inverters`, `num_vertex_expansions`,
graph_oriented_layout_design.hpp:93-170. -/
structure Params where
  planar : Bool := false
  straight : Bool := false
  limit : Nat := 4

/-- `pi_locations`, graph_oriented_layout_design.hpp:444-458. -/
inductive PiLocs
  | top
  | left
  | topAndLeft
  deriving DecidableEq

/-- The parts of `search_space_graph` that do not change, graph_oriented_layout_design.hpp:470-505; `lit` gives the literal under
which the layout stores the function of a node. -/
structure Space where
  N : Ntk
  order : List Nat
  lit : Nat → Nat
  piLocs : PiLocs

/-- The obstruction layout and `placement_info::node2pos`, graph_oriented_layout_design.hpp:742-760. -/
structure Lo where
  m : Dim
  s : State
  obs : List Coord
  pos : Nat → Coord

/-- `twoddwave_clocking<Lyt>()`, graph_oriented_layout_design.hpp:1844. -/
def scheme : Scheme := twoddwaveClocking .cart .four

/-- The layout as the path finder sees it, obstruction_layout.hpp:134-176. -/
def Lo.view (L : Lo) : RLayout :=
  { routingLayout L.m .cart scheme L.s with obstructed := fun c => L.obs.contains c || !L.s.isEmptyTile c }

/-- `obstruct_coordinate` for every element of a path. -/
def Lo.block (L : Lo) (p : List Coord) : Lo := { L with obs := L.obs ++ p }

/-- `layout.resize({layout.x() + k, layout.y() + k, 1})`. In non-planar layouts the depth is 1 anyway. In planar layouts the first such
call leaves the depth at 1 for the candidates that follow; the model tests paths to candidates with the depth the layout has. Without
crossings no path leaves the ground layer, so that both are the same. -/
def Lo.enlarge (L : Lo) (k : Nat) : Lo := { L with m := ⟨L.m.X + k, L.m.Y + k, 1⟩ }

/-- The drain of an enlarged layout: its last tile. -/
def Lo.drain (L : Lo) : Coord := ⟨L.m.X, L.m.Y, 0, false⟩

/-- `new_gate_location`, graph_oriented_layout_design.hpp:721-735. -/
inductive Loc
  | none
  | src
  | dest
  deriving DecidableEq

/-- The search of `check_path`, graph_oriented_layout_design.hpp:1199-1206. -/
def findPath (q : Queue Coord Nat) (ps : Params) (L : Lo) (src dst : Coord) : List Coord :=
  (aStarLayout q L.view (!ps.planar) unitCost twoddwaveDistance src dst ((L.m.X + 1) * ((L.m.Y + 1) * (L.m.Z + 1)) + 1)).getD []

/-- The test of `check_path` for inverters, graph_oriented_layout_design.hpp:1218-1221. -/
def isStraight (L : Lo) (src : Coord) (path : List Coord) : Bool :=
  let f := (L.s.fanins L.m .cart scheme true (L.s.getNode src)).headD const0
  let c := path.getD 1 const0
  (f.x == src.x && src.x == c.x) || (f.y == src.y && src.y == c.y)

/-- `check_path`, graph_oriented_layout_design.hpp:1188-1230. -/
def checkPath (q : Queue Coord Nat) (ps : Params) (L : Lo) (src dst : Coord) (loc : Loc) (straight : Bool) : List Coord :=
  if (L.s.isEmptyTile src && decide (loc = .src)) || (L.s.isEmptyTile dst && decide (loc = .dest)) || decide (loc = .none) then
    let path := findPath q ps L src dst
    if path.length < 2 then []
    else if !straight || isStraight L src path then path
    else []
  else []

/-- `ps.straight_inverters && layout.is_inv(layout.get_node(t))`; 3 is the literal of the inverter. -/
def bend (ps : Params) (L : Lo) (t : Coord) : Bool := ps.straight && (L.s.nodes (L.s.getNode t)).fn == 3

/-! ## Possible positions -/

/-- Groups of candidates are tested until there are enough positions. -/
def scan (limit : Nat) (check : Coord → Bool) : List (List Coord) → List Coord → List Coord
  | [], acc => acc
  | g :: gs, acc =>
    let acc := acc ++ g.filter check
    if limit ≤ acc.length then acc else scan limit check gs acc

/-- One more than the last number up to `k` that satisfies `p`, or 0, graph_oriented_layout_design.hpp:1278-1294. -/
def behindLast (p : Nat → Bool) : Nat → Nat
  | 0 => if p 0 then 1 else 0
  | k + 1 => if p (k + 1) then k + 2 else behindLast p k

/-- `get_possible_positions_pis`, graph_oriented_layout_design.hpp:1240-1358; `skip` is the number of tiles to skip between inputs: a
parameter or a random number, or 0 if the layout is empty. -/
def positionsPi (q : Queue Coord Nat) (ps : Params) (locs : PiLocs) (numPis skip : Nat) (L : Lo) : List Coord :=
  let L := L.enlarge (skip + 1)
  let minX := if skip = 0 then 0 else behindLast (fun x => !L.s.isEmptyTile ⟨x, 0, 0, false⟩) L.m.X
  let minY := if skip = 0 then 0 else behindLast (fun y => !L.s.isEmptyTile ⟨0, y, 0, false⟩) L.m.Y
  let check := fun t => !(checkPath q ps L t L.drain .src false).isEmpty
  let iterations := match locs with
    | .topAndLeft => max (L.m.X - minX) (L.m.Y - minY)
    | .top => L.m.X - minX
    | .left => L.m.Y - minY
  let limit := if locs = .topAndLeft then 2 * numPis else numPis
  scan limit check ((List.range iterations).map fun k =>
    (if locs ≠ .left ∧ minX + k < L.m.X ∧ skip ≤ k then [⟨minX + k, 0, 0, false⟩] else []) ++
    (if locs ≠ .top ∧ minY + k < L.m.Y ∧ skip ≤ k then [⟨0, minY + k, 0, false⟩] else [])) []

/-- `get_possible_positions_pos`, graph_oriented_layout_design.hpp:1369-1406. -/
def positionsPo (q : Queue Coord Nat) (ps : Params) (L : Lo) (pre : Coord) : List Coord :=
  let check := fun t => !(checkPath q ps L pre t .dest (bend ps L pre)).isEmpty
  (List.range (max (L.m.X - pre.x) (L.m.Y - pre.y) + 1)).flatMap fun k =>
    (if pre.x + k ≤ L.m.X then [(⟨pre.x + k, L.m.Y, 0, false⟩ : Coord)] else []).filter check ++
    (if pre.y + k < L.m.Y then [(⟨L.m.X, pre.y + k, 0, false⟩ : Coord)] else []).filter check

/-- The diagonal order of candidates, graph_oriented_layout_design.hpp:1449-1465, 1531-1547: those outside the layout are not tested. -/
def diagonal (m : Dim) (x0 y0 : Nat) : List (List Coord) :=
  (List.range (m.X + m.Y + 1)).flatMap fun k => (List.range (k + 1)).map fun x =>
    if y0 + (k - x) ≤ m.Y ∧ x0 + x ≤ m.X then [⟨x0 + x, y0 + (k - x), 0, false⟩] else []

/-- A path from the tile to the drain of the layout with one more row and column, graph_oriented_layout_design.hpp:1435-1443. -/
def drains (q : Queue Coord Nat) (ps : Params) (L : Lo) (t : Coord) : Bool :=
  !(checkPath q ps (L.enlarge 1) t (L.enlarge 1).drain .src false).isEmpty

/-- `get_possible_positions_single_fanin`, graph_oriented_layout_design.hpp:1417-1468. -/
def positionsOne (q : Queue Coord Nat) (ps : Params) (L : Lo) (pre : Coord) : List Coord :=
  scan ps.limit (fun t => !(checkPath q ps L pre t .dest (bend ps L pre)).isEmpty && drains q ps L t) (diagonal L.m pre.x pre.y) []

/-- `get_possible_positions_double_fanin`, graph_oriented_layout_design.hpp:1479-1550. The obstructions are removed again after every
test; those that were there before belong to tiles that are not empty. -/
def positionsTwo (q : Queue Coord Nat) (ps : Params) (L : Lo) (pre1 pre2 : Coord) : List Coord :=
  let minX := max pre1.x pre2.x + (if pre1.x = pre2.x then 1 else 0)
  let minY := max pre1.y pre2.y + (if pre1.y = pre2.y then 1 else 0)
  let check := fun t =>
    let p := checkPath q ps L pre1 t .dest (bend ps L pre1)
    !p.isEmpty && !(checkPath q ps (L.block p) pre2 t .dest (bend ps L pre2)).isEmpty && drains q ps (L.block p) t
  scan ps.limit check (diagonal L.m minX minY) []

/-- `get_possible_positions`, graph_oriented_layout_design.hpp:1562-1582, for the node `n`. -/
def positions (q : Queue Coord Nat) (ps : Params) (g : Space) (skip : Nat) (L : Lo) (n : Nat) : List Coord :=
  if (g.N.node n).isPi then positionsPi q ps g.piLocs g.N.pis.length skip L
  else if n ∈ g.N.pos then positionsPo q ps L (L.pos ((g.N.node n).fanins.getD 0 0))
  else match (g.N.node n).fanins with
    | [f] => positionsOne q ps L (L.pos f)
    | fs => positionsTwo q ps L (L.pos (fs.getD 0 0)) (L.pos (fs.getD 1 0))

/-- `valid_layout`, graph_oriented_layout_design.hpp:1593-1664, after the nodes `done` have been placed. -/
def validLayout (q : Queue Coord Nat) (ps : Params) (g : Space) (done : List Nat) (L : Lo) : Bool :=
  done.all fun n =>
    let t := L.pos n
    let k := L.s.getNode t
    let fo := (L.s.fanouts L.m .cart scheme true k).length
    let isFan := (g.N.node n).isBuf && decide (1 < g.N.fanoutSize n)
    let free := fun c : Coord => L.s.isEmptyTile c || (L.s.isEmptyTile ⟨c.x, c.y, 1, false⟩ && !L.view.obstructed ⟨c.x, c.y, 1, false⟩)
    let right : Coord := ⟨t.x + 1, t.y, 0, false⟩
    let bottom : Coord := ⟨t.x, t.y + 1, 0, false⟩
    let f := (L.s.fanins L.m .cart scheme true k).headD const0
    let dangling := (!L.s.isPo k && fo == 0) || (fo == 1 && isFan)
    (!dangling ||
      (!(checkPath q ps (L.enlarge 1) t (L.enlarge 1).drain .dest false).isEmpty &&
        (!bend ps L t || ((f.x != t.x || free bottom) && (f.y != t.y || free right))))) &&
    (!(fo == 0 && isFan) || (free right && free bottom))

/-! ## Placing and routing -/

/-- A network node taken for a signal of the layout, graph_oriented_layout_design.hpp:1784-1785: the number of the node is read as the
bits of a coordinate. -/
def asSignal (n : Nat) : Coord := ⟨n, 0, 0, false⟩

/-- The last part of `place_and_route`, graph_oriented_layout_design.hpp:1795-1796. -/
def Lo.finish (L : Lo) (n : Nat) (p : Coord) (s : State) (path : List Coord) : Lo :=
  { L with s := s, obs := L.obs ++ path ++ [⟨p.x, p.y, 0, false⟩, ⟨p.x, p.y, 1, false⟩], pos := fun k => if k = n then p else L.pos k }

/-- `layout.move_node(layout.get_node(position), position, {})`, graph_oriented_layout_design.hpp:1679, 1707. -/
def detach (m : Dim) (s : State) (p : Coord) : State := s.moveNode m (s.getNode p) p []

/-- `route_single_input_node`, graph_oriented_layout_design.hpp:1673-1690, for the node placed in `s`. -/
def route1 (q : Queue Coord Nat) (ps : Params) (L : Lo) (n : Nat) (p : Coord) (s : State) (pre : Coord) : Option Lo :=
  let s := detach L.m s p
  let path := checkPath q ps { L with s := s } pre p .none false
  if path = [] then none else some (L.finish n p (routePath L.m s path) path)

/-- `route_double_input_node`, graph_oriented_layout_design.hpp:1699-1728. -/
def route2 (q : Queue Coord Nat) (ps : Params) (L : Lo) (n : Nat) (p : Coord) (s : State) (pre1 pre2 : Coord) : Option Lo :=
  let s := detach L.m s p
  let path1 := checkPath q ps { L with s := s } pre1 p .none false
  if path1 = [] then none
  else
    let path2 := checkPath q ps ({ L with s := s }.block path1) pre2 p .none false
    if path2 = [] then none else some (L.finish n p (routePath L.m (routePath L.m s path1) path2) (path1 ++ path2))

/-- `place_and_route`, graph_oriented_layout_design.hpp:1740-1808, with `place` for one and two fanins,
placement_utils.hpp:122-264. -/
def placeAndRoute (q : Queue Coord Nat) (ps : Params) (g : Space) (L : Lo) (n : Nat) (p : Coord) : Option Lo :=
  if (g.N.node n).isPi then
    let m : Dim := ⟨max L.m.X p.x, max L.m.Y p.y, L.m.Z⟩
    some ({ L with m := m }.finish n p (L.s.moveNode m (2 + g.N.pis.idxOf n) p []) [])
  else match (g.N.node n).fanins with
    | [] => none
    | [f] =>
      if n ∈ g.N.pos then route1 q ps L n p (L.s.createPo L.m (L.pos f) p) (L.pos f)
      else (place1 L.m L.s (g.lit n) (L.pos f) p).bind fun s => route1 q ps L n p s (L.pos f)
    | f :: h :: _ => route2 q ps L n p (L.s.createGate L.m (g.lit n) [asSignal f, asSignal h] p) (L.pos f) (L.pos h)

/-- `adjust_layout_size`, graph_oriented_layout_design.hpp:1855-1866. -/
def adjust (g : Space) (L : Lo) (n : Nat) (p : Coord) : Lo :=
  if n ∈ g.N.pos then L
  else { L with m := ⟨if p.x = L.m.X then L.m.X + 1 else L.m.X, if p.y = L.m.Y then L.m.Y + 1 else L.m.Y, L.m.Z⟩ }

/-- `initialize_layout` and `reserve_input_nodes`, graph_oriented_layout_design.hpp:1841-1846, 1963-1967. -/
def start (ps : Params) (g : Space) : Lo :=
  let m : Dim := ⟨g.N.pis.length - 1, 0, if ps.planar then 0 else 1⟩
  ⟨m, reserve m g.N.pis.length GateLevel.init, [], fun _ => const0⟩

/-! ## Expanding a vertex -/

/-- What comparing the cost of the layout with the best cost yields at one position of the vertex: `!improve || cost <= best`
(graph_oriented_layout_design.hpp:2025), and, with values that are read again, `improve && cost >= best` (line 2138). -/
structure Verdict where
  accept : Bool
  prune : Bool

/-- The outcome of `expand`, graph_oriented_layout_design.hpp:1977-2156: a violated assertion, no successor, the next positions, or a
layout. -/
inductive Outcome
  | broken
  | dropped
  | next (ps : List Coord)
  | solution (L : Lo)

/-- The loop of `expand`, graph_oriented_layout_design.hpp:1977-2156, from position `idx` on. -/
def expandLoop (q : Queue Coord Nat) (ps : Params) (g : Space) (skip : Nat) (v : Nat → Verdict) : List Coord → Nat → Lo → Outcome
  | [], _, _ => .broken
  | p :: rest, idx, L =>
    let n := g.order.getD idx 0
    match placeAndRoute q ps g L n p with
    | none => .broken
    | some L =>
      if idx + 1 = g.order.length ∧ (v idx).accept = true then .solution L
      else if (v idx).prune then .dropped
      else
        let L := adjust g L n p
        if rest.isEmpty then
          if validLayout q ps g (g.order.take (idx + 1)) L then
            if idx + 1 < g.order.length then .next (positions q ps g skip L (g.order.getD (idx + 1) 0)) else .broken
          else .dropped
        else expandLoop q ps g skip v rest (idx + 1) L

/-- `expand`, graph_oriented_layout_design.hpp:1955-2159, for the vertex `vertex`. A solution is the layout before outputs are
relocated. -/
def expand (q : Queue Coord Nat) (ps : Params) (g : Space) (skip : Nat) (v : Nat → Verdict) (vertex : List Coord) : Outcome :=
  if vertex.isEmpty then
    if g.order.isEmpty then .broken else .next (positions q ps g skip (start ps g) (g.order.getD 0 0))
  else expandLoop q ps g skip v vertex 0 (start ps g)

/-- The vertices that can get onto the frontier of a search space graph, `process_ssg`, graph_oriented_layout_design.hpp:2166-2188:
extensions of expanded vertices by a possible position. -/
inductive Reached (q : Queue Coord Nat) (ps : Params) (g : Space) : List Coord → Prop
  | start : Reached q ps g []
  | next {vertex : List Coord} {skip : Nat} {v : Nat → Verdict} {l : List Coord} {p : Coord} (h : Reached q ps g vertex)
      (he : expand q ps g skip v vertex = .next l) (hp : p ∈ l) : Reached q ps g (vertex ++ [p])

end Verif.PhysicalDesign.Gold
