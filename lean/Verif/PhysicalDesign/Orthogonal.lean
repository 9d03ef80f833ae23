import Verif.GateLevel.Model
import Verif.Networks.Model

/-!
# Model of `algorithms/physical_design/orthogonal.hpp`

The network is a technology network without constant fanins (majority gates with a constant input are not modelled). `topo_view` is
used by its specification (`TopoOrder`): `foreach_node` visits the inputs and then the gates of `order`. `fanout_view` computes the
fanouts from all gates of the network, including those no output depends on. Names and statistics are omitted.

`lit` gives the literal under which the layout stores the function of a node (2 for buffers, 3 for inverters). `none` is a violated
assertion or an access out of bounds.
-/
namespace Verif.PhysicalDesign.Ortho

open Verif.Layouts Verif.Clocking Verif.GateLevel Verif.Networks

/-- `color_null`, `color_east`, `color_south`, orthogonal.hpp:82. -/
inductive Color
  | null
  | east
  | south
  deriving DecidableEq

/-- `opposite_color`, orthogonal.hpp:84-87. -/
def Color.opp : Color → Color
  | .east => .south
  | _ => .east

/-- The colors of edges, `edge_colors`, edge_color_view.hpp:56-64, 134: source, target. -/
abbrev EdgeColors := Nat → Nat → Color

/-- `paint_edge`, edge_color_view.hpp:80-83. -/
def EdgeColors.set (K : EdgeColors) (s t : Nat) (c : Color) : EdgeColors := fun a b => if a = s ∧ b = t then c else K a b

/-- `recursively_paint_edges`, orthogonal.hpp:91-122. The first argument bounds the depth of the recursion. -/
def paint (N : Ntk) : Nat → EdgeColors → Nat → Nat → Color → EdgeColors
  | 0, K, _, _, _ => K
  | f + 1, K, s, t, c =>
    if K s t ≠ .null then K
    else
      let K := K.set s t c
      let K := (N.fanouts s).foldl (fun K t' => if t' = t then K else paint N f K s t' c.opp) K
      (N.node t).fanins.foldl (fun K s' => if s' = s then K else paint N f K s' t c) K

/-- More than the number of edges, hence than the depth of any recursion. -/
def fuel (N : Ntk) : Nat := (N.nodes.map (fun x => x.fanins.length)).sum + 1

/-- The body of the loop of `east_south_edge_coloring`, orthogonal.hpp:136-161: edge colors and node colors. -/
def colorGate (N : Ntk) (st : EdgeColors × (Nat → Color)) (n : Nat) : EdgeColors × (Nat → Color) :=
  let fs := (N.node n).fanins
  let c : Color := if fs.any (fun f => decide (st.1 f n = .east)) then .east else .south
  let K := fs.foldl (fun K f => paint N (fuel N) K f n c) st.1
  if fs.all (fun f => decide (K f n = .east)) then (K, fun k => if k = n then .east else st.2 k)
  else if fs.all (fun f => decide (K f n = .south)) then (K, fun k => if k = n then .south else st.2 k)
  else (K, st.2)

/-- `east_south_edge_coloring`, orthogonal.hpp:125-170: `foreach_gate_reverse`. -/
def coloring (N : Ntk) (order : List Nat) : EdgeColors × (Nat → Color) :=
  order.reverse.foldl (colorGate N) (fun _ _ => .null, fun _ => .null)

/-- `is_eastern_po_orientation_available`, orthogonal.hpp:207-225: only the first fanout is considered. -/
def eastAvailable (N : Ntk) (col : Nat → Color) (n : Nat) : Bool :=
  match N.fanouts n with
  | [] => true
  | f :: _ => decide (col f ≠ .east)

/-- The body of the loop of `determine_layout_size`, orthogonal.hpp:237-278. -/
def sizeStep (N : Ntk) (col : Nat → Color) (p : Nat × Nat) (n : Nat) : Nat × Nat :=
  let p :=
    if (N.node n).isPi then (p.1 + ((N.fanouts n).filter (fun f => decide (col f = .south))).length, p.2)
    else match col n with
      | .east => (p.1 + 1, p.2)
      | .south => (p.1, p.2 + 1)
      | .null => (p.1 + 1, p.2 + 1)
  if n ∈ N.pos then (if eastAvailable N col n then (p.1 + 1, p.2) else (p.1, p.2 + 1)) else p

/-- `multi_output_nodes`, orthogonal.hpp:470-484: the outputs that have occurred before. -/
def multiOutputs : List Nat → List Nat → List Nat
  | _, [] => []
  | seen, p :: l => if p ∈ seen then p :: multiOutputs (seen ++ [p]) l else multiOutputs (seen ++ [p]) l

/-- `determine_layout_size`, orthogonal.hpp:228-290. Without inputs the code wraps around; here the result is 0. -/
def layoutSize (N : Ntk) (order : List Nat) (col : Nat → Color) : Dim :=
  let p := (N.pis ++ order).foldl (sizeStep N col) (0, N.pis.length - 1)
  ⟨p.1, p.2 + (multiOutputs [] N.pos).length, 1⟩

section Lyt
variable (m : Dim)

/-- The tile a wire segment is placed on, orthogonal.hpp:299-303. -/
def wireTile (s : State) (t : Coord) : Coord := if s.isEmptyTile t then t else Cart.above m t

/-- `k` segments of `wire_east`, orthogonal.hpp:293-309, from column `x` on in row `y`, starting at the signal `a`. -/
def wireE (y : Nat) : Nat → Nat → State → Coord → State × Coord
  | 0, _, s, a => (s, a)
  | k + 1, x, s, a =>
    let t := wireTile m s ⟨x, y, 0, false⟩
    wireE y k (x + 1) (s.createGate m 2 [a] t) t

/-- `wire_east`, orthogonal.hpp:293-309; of the destination only the column is used. -/
def wireEast (s : State) (src : Coord) (destX : Nat) : State × Coord := wireE m src.y (destX - (src.x + 1)) (src.x + 1) s src

/-- `k` segments of `wire_south`, orthogonal.hpp:312-328, from row `y` on in column `x`, starting at the signal `a`. -/
def wireS (x : Nat) : Nat → Nat → State → Coord → State × Coord
  | 0, _, s, a => (s, a)
  | k + 1, y, s, a =>
    let t := wireTile m s ⟨x, y, 0, false⟩
    wireS x k (y + 1) (s.createGate m 2 [a] t) t

/-- `wire_south`, orthogonal.hpp:312-328; of the destination only the row is used. -/
def wireSouth (s : State) (src : Coord) (destY : Nat) : State × Coord := wireS m src.x (destY - (src.y + 1)) (src.y + 1) s src

/-- The order of coordinates, coordinates.hpp:188-208: layer, row, column. -/
def before (a b : Coord) : Bool :=
  decide (a.z < b.z) || (a.z == b.z && (decide (a.y < b.y) || (a.y == b.y && decide (a.x < b.x))))

/-- `place` for one fanin, placement_utils.hpp:122-146: buffers and inverters only. -/
def place1 (s : State) (lit : Nat) (a t : Coord) : Option State := if lit = 2 ∨ lit = 3 then some (s.createGate m lit [a] t) else none

/-- `connect_and_place` for one fanin, orthogonal.hpp:345-359. -/
def connect1 (s : State) (t : Coord) (lit : Nat) (pre : Coord) : Option State :=
  if Cart.isWestwardsOf t pre then
    let w := wireEast m s pre t.x
    place1 m w.1 lit w.2 t
  else if Cart.isNorthwardsOf t pre then
    let w := wireSouth m s pre t.y
    place1 m w.1 lit w.2 t
  else none

/-- `connect_and_place` for two fanins, orthogonal.hpp:331-342, and `place` for two fanins, placement_utils.hpp:164-264. The order in
which the two wires are laid is unspecified in C++; here it is from left to right. -/
def connect2 (s : State) (t : Coord) (lit : Nat) (pre1 pre2 : Coord) : State :=
  let p := if before pre2 pre1 then (pre2, pre1) else (pre1, pre2)
  let w1 := wireSouth m s p.1 t.y
  let w2 := wireEast m w1.1 p.2 t.x
  w2.1.createGate m lit [w1.2, w2.2] t

/-- `reserve_input_nodes`, placement_utils.hpp:41-71: all inputs are created on the same tile and the last one is taken off it. -/
def reserve (k : Nat) (s : State) : State :=
  let s := (List.range k).foldl (fun s _ => s.createPi m ⟨0, 0, 0, false⟩) s
  s.moveNode m (s.getNode ⟨0, 0, 0, false⟩) const0 []

/-- The state of the main loop: the layout, `node2pos`, `latest_pos`. -/
structure Loop where
  lyt : State
  pos : Nat → Coord
  lx : Nat
  ly : Nat

/-- `node2pos[n] = t`, orthogonal.hpp:511-621. -/
def Loop.setPos (st : Loop) (n : Nat) (t : Coord) : Loop := { st with pos := fun k => if k = n then t else st.pos k }

variable (N : Ntk) (col : Nat → Color) (lit : Nat → Nat)

/-- The case of a primary input, orthogonal.hpp:509-530. -/
def stepPi (st : Loop) (n : Nat) : Loop :=
  let t : Coord := ⟨0, st.ly, 0, false⟩
  let lyt := st.lyt.moveNode m (2 + N.pis.idxOf n) t []
  let st := { st with lyt := lyt }.setPos n t
  let st :=
    match N.fanouts n with
    | [] => st
    | f :: _ =>
      if col f = Color.south then
        let w := wireEast m st.lyt t st.lx
        let l : Coord := ⟨st.lx, st.ly, 0, false⟩
        { ({ st with lyt := w.1.createGate m 2 [w.2] l }.setPos n l) with lx := st.lx + 1 }
      else st
  { st with ly := st.ly + 1 }

/-- The case of one fanin, orthogonal.hpp:532-557. -/
def stepOne (st : Loop) (n pre : Nat) : Option Loop :=
  let p := st.pos pre
  match col n with
  | .east =>
    let t : Coord := ⟨st.lx, p.y, 0, false⟩
    (connect1 m st.lyt t (lit n) p).map (fun l => { ({ st with lyt := l }.setPos n t) with lx := st.lx + 1 })
  | .south =>
    let t : Coord := ⟨p.x, st.ly, 0, false⟩
    (connect1 m st.lyt t (lit n) p).map (fun l => { ({ st with lyt := l }.setPos n t) with ly := st.ly + 1 })
  | .null => none

/-- The case of two fanins, orthogonal.hpp:558-622. -/
def stepTwo (st : Loop) (n pre1 pre2 : Nat) : Loop :=
  let p1 := st.pos pre1
  let p2 := st.pos pre2
  match col n with
  | .east =>
    let p := if p2.y < p1.y then (p2, p1) else (p1, p2)
    let t : Coord := ⟨st.lx, p.2.y, 0, false⟩
    let w := wireEast m st.lyt p.1 (t.x + 1)
    { ({ st with lyt := connect2 m w.1 t (lit n) w.2 p.2 }.setPos n t) with lx := st.lx + 1 }
  | .south =>
    let p := if p2.x > p1.x then (p2, p1) else (p1, p2)
    let t : Coord := ⟨p.1.x, st.ly, 0, false⟩
    let w := wireSouth m st.lyt p.2 (t.y + 1)
    { ({ st with lyt := connect2 m w.1 t (lit n) p.1 w.2 }.setPos n t) with ly := st.ly + 1 }
  | .null =>
    let p := if !st.lyt.isEmptyTile (Cart.east m p1) || !st.lyt.isEmptyTile (Cart.south m p2) then (p2, p1) else (p1, p2)
    let t : Coord := ⟨st.lx, st.ly, 0, false⟩
    let w1 := wireEast m st.lyt p.1 (t.x + 1)
    let w2 := wireSouth m w1.1 p.2 (t.y + 1)
    { ({ st with lyt := connect2 m w2.1 t (lit n) w1.2 w2.2 }.setPos n t) with lx := st.lx + 1, ly := st.ly + 1 }

/-- The body of the main loop, orthogonal.hpp:502-636; the first two fanins are used. -/
def stepNode (st : Loop) (n : Nat) : Option Loop :=
  let st' : Option Loop :=
    if (N.node n).isPi then some (stepPi m N col st n)
    else match (N.node n).fanins with
      | [f] => stepOne m col lit st n f
      | f :: g :: _ => some (stepTwo m col lit st n f g)
      | [] => none
  st'.map (fun st => if n ∈ N.pos ∧ (eastAvailable N col n = false ∨ n ∈ multiOutputs [] N.pos) then { st with ly := st.ly + 1 } else st)

/-- The body of the loop of `place_outputs`, orthogonal.hpp:387-429, for an output that is not constant: the layout and
`output_nodes`. -/
def placeOutput (pos : Nat → Coord) (st : State × List Nat) (p : Nat) : State × List Nat :=
  let n := pos p
  let multi := decide (p ∈ st.2)
  let w := if eastAvailable N col p = false ∨ multi then wireSouth m st.1 n (n.y + 2) else (st.1, n)
  let t := w.2
  let s :=
    if Cart.isAtEasternBorder m { t with x := t.x + 1 } && !multi then w.1.createPo m n { t with x := t.x + 1 }
    else
      let e := wireEast m w.1 t m.X
      e.1.createPo m e.2 { t with x := m.X }
  (s, st.2 ++ [p])

end Lyt

/-- `orthogonal_impl::run`, orthogonal.hpp:460-652, on a network without constant outputs. -/
def run (N : Ntk) (order : List Nat) (lit : Nat → Nat) : Option (Dim × State) :=
  let col := (coloring N order).2
  let m := layoutSize N order col
  ((N.pis ++ order).foldlM (stepNode m N col lit) ⟨reserve m N.pis.length init, fun _ => const0, 1, 0⟩).map (fun st =>
    (m, (N.pos.foldl (placeOutput m N col st.pos) (st.lyt, [])).1))

end Verif.PhysicalDesign.Ortho
