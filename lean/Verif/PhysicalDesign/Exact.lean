import Verif.PhysicalDesign.Orthogonal

/-!
# Model of `algorithms/physical_design/exact.hpp`

The SMT solver is not modelled: `Asg` is an arbitrary assignment of the variables, `sat` says whether it meets the constraints that the
code generates for one aspect ratio, `assign` builds the layout from it. The search over the aspect ratios is in ExactSearch.lean.

The constraints are those of a solver that is set up from scratch (exact.hpp:630-644) under the assumptions that it is called with. A
solver that is extended from a smaller aspect ratio has them too (exact.hpp:582-629), and further ones in `prevent_insufficiencies`.
The clocking scheme is regular. Constraints for border pins, straight inverters, synchronization elements, single technologies and
black lists are not modelled: they are added to those below, as are those of `utilize_hierarchical_information`, which require border
pins.

As in `Orthogonal.lean`, the network is a technology network and `topo_view` is used by its specification; `nodes` are the nodes that
`foreach_node` visits and `skip_const_or_io_node` (exact.hpp:673-676) does not skip with `io_pins`, which is the default: inputs, gates
and output nodes. Variables that the solver's model leaves open are false (exact.hpp:2713, 2758: `bool_value() == Z3_L_TRUE`).
-/
namespace Verif.PhysicalDesign.Exact

open Verif.Layouts Verif.Clocking Verif.GateLevel Verif.Networks

/-- The variables, exact.hpp:778-834: node on tile, edge on tile, connection of tiles, path between tiles, clock number of node. -/
structure Asg where
  tn : Coord → Nat → Bool
  te : Coord → Nat × Nat → Bool
  tc : Coord → Coord → Bool
  tp : Coord → Coord → Bool
  ncl : Nat → Nat → Bool

/-- `z3::atmost` -/
def atMost (l : List Bool) (k : Nat) : Bool := decide (l.count true ≤ k)
/-- `z3::atleast` -/
def atLeast (l : List Bool) (k : Nat) : Bool := decide (k ≤ l.count true)
/-- Both of them. -/
def exactly (l : List Bool) (k : Nat) : Bool := atLeast l k && atMost l k
/-- `z3::implies` -/
def imp (a b : Bool) : Bool := !a || b

/-- `foreach_ground_tile`: row by row. -/
def tiles (m : Dim) : List Coord := (List.range (m.Y + 1)).flatMap fun y : Nat => (List.range (m.X + 1)).map fun x : Nat => ⟨x, y, 0, false⟩

section
variable (N : Ntk)

/-- The fanins that are not constant, `skip_const_or_io_edge`, exact.hpp:684-687. -/
def sources (n : Nat) : List Nat := (N.node n).fanins.filter fun f => !(N.node f).isConst

/-- `foreach_edge`, network_utils.hpp:74-91, without the skipped edges. -/
def edges (nodes : List Nat) : List (Nat × Nat) := nodes.flatMap fun n => (sources N n).map fun f => (f, n)

/-- `foreach_outgoing_edge`, network_utils.hpp:104-115. -/
def outEdges (n : Nat) : List (Nat × Nat) := (N.fanouts n).map fun f => (n, f)

/-- `foreach_incoming_edge`, network_utils.hpp:128-140, without the skipped edges. -/
def inEdges (n : Nat) : List (Nat × Nat) := (sources N n).map fun f => (f, n)

/-- `network_in_degree`, exact.hpp:729-741. -/
def netIn (n : Nat) : Nat := (sources N n).length

/-- `network_out_degree`, exact.hpp:749-761. -/
def netOut (n : Nat) : Nat := (N.fanouts n).length

/-- `all_incoming_edge_paths`, network_utils.hpp:375-405; the first argument bounds the depth of the recursion. -/
def edgePaths : Nat → Nat → List (List (Nat × Nat))
  | 0, _ => []
  | f + 1, n =>
    if (N.node n).fanins.length = 0 then [[]]
    else (inEdges N n).flatMap fun e => (edgePaths f e.1).map fun p => p ++ [e]

end

section
variable (tp : Topo) (m : Dim) (cs : Scheme) (N : Ntk) (nodes : List Nat) (crossings : Bool) (A : Asg)

/-- `restrict_tile_elements`, exact.hpp:975-1050. -/
def tileElements (t : Coord) : Bool :=
  let tn := nodes.map (A.tn t)
  let te := (edges N nodes).map (A.te t)
  if crossings then atMost tn 1 && atMost te 2 && imp (atLeast tn 1) (atMost te 0) && imp (atLeast te 1) (atMost tn 0)
  else atMost (tn ++ te) 1

/-- `restrict_vertices`, exact.hpp:1054-1069. -/
def vertices (n : Nat) : Bool := exactly ((tiles m).map fun t => A.tn t n) 1

/-- The successor of the edge `e` on a tile, exact.hpp:1114-1143, 1238-1262; there is no constraint without outgoing zones. -/
def goesOn (t : Coord) (e : Nat × Nat) : Bool :=
  let l := outgoingClockedZones tp m cs t
  l.isEmpty || l.any fun u => (A.tn u e.2 || A.te u e) && A.tc t u

/-- The predecessor of the edge `e` on a tile, exact.hpp:1179-1209, 1284-1309. -/
def comesFrom (t : Coord) (e : Nat × Nat) : Bool :=
  let l := incomingClockedZones tp m cs t
  l.isEmpty || l.any fun u => (A.tn u e.1 || A.te u e) && A.tc u t

/-- `define_gate_fanout_tiles`, exact.hpp:1095-1154. -/
def gateFanout (t : Coord) : Bool := nodes.all fun n => imp (A.tn t n) ((outEdges N n).all (goesOn tp m cs A t))

/-- `define_gate_fanin_tiles`, exact.hpp:1159-1220. -/
def gateFanin (t : Coord) : Bool := nodes.all fun n => imp (A.tn t n) ((inEdges N n).all (comesFrom tp m cs A t))

/-- `define_wire_fanout_tiles`, exact.hpp:1225-1266. -/
def wireFanout (t : Coord) : Bool := (edges N nodes).all fun e => imp (A.te t e) (goesOn tp m cs A t e)

/-- `define_wire_fanin_tiles`, exact.hpp:1271-1313. -/
def wireFanin (t : Coord) : Bool := (edges N nodes).all fun e => imp (A.te t e) (comesFrom tp m cs A t e)

/-- `establish_sub_paths`, `establish_transitive_paths` and `eliminate_cycles`, exact.hpp:1319-1393, 2571-2576. -/
def noCycles : Bool :=
  isLinearScheme cs ||
    ((tiles m).all (fun t => (outgoingClockedZones tp m cs t).all fun u => imp (A.tc t u) (A.tp t u)) &&
      (tiles m).all (fun t1 => (tiles m).all fun t2 => decide (t1 = t2) || (tiles m).all fun t3 =>
        decide (t2 = t3) || imp (A.tp t1 t2 && A.tp t2 t3) (A.tp t1 t3)) &&
      (tiles m).all fun t => !A.tp t t)

/-- `prevent_insufficiencies`, exact.hpp:1568-1655, without updated tiles. -/
def sufficient (t : Coord) : Bool :=
  !(Cart.isAtEasternBorder m t || Cart.isAtSouthernBorder m t) ||
    (nodes.all (fun n => imp (decide (outDegree tp m cs t < netOut N n) || decide (inDegree tp m cs t < netIn N n)) (!A.tn t n)) &&
      (edges N nodes).all fun e => imp (decide (outDegree tp m cs t = 0) || decide (inDegree tp m cs t = 0)) (!A.te t e))

/-- `define_number_of_connections`, exact.hpp:1661-1793. -/
def connections (t : Coord) : Bool :=
  let acc := (outgoingClockedZones tp m cs t).map (A.tc t)
  let iacc := (incomingClockedZones tp m cs t).map fun u => A.tc u t
  let tn := nodes.map (A.tn t)
  let wg := (edges N nodes).map (A.te t)
  (nodes.all fun n => imp (A.tn t n) ((acc.isEmpty || exactly acc (netOut N n)) && (iacc.isEmpty || exactly iacc (netIn N n)))) &&
    (wg.isEmpty ||
      (imp (exactly wg 1) ((acc.isEmpty || exactly acc 1) && (iacc.isEmpty || exactly iacc 1)) &&
        (!crossings ||
          (if acc.length < 2 ∨ iacc.length < 2 then atMost wg 1
          else decide (wg.length < 2) || imp (exactly wg 2) (exactly acc 2 && exactly iacc 2))))) &&
    (decide (tn.length + wg.length ≤ 1) || (acc.isEmpty && iacc.isEmpty) || (atMost (tn ++ wg) 0 == atMost (acc ++ iacc) 0))

/-- `assign_pi_clockings`, exact.hpp:1398-1454; the constants have clock numbers as well. -/
def piClocks : Bool :=
  ([0, 1] ++ nodes).all (fun n => exactly ((List.range cs.numClocks).map (A.ncl n)) 1) &&
    N.pis.all fun n => (tiles m).all fun t => imp (A.tn t n) (A.ncl n (cs.clock t))

/-- `ncl_to_real`, exact.hpp:927-940. -/
def nclValue (n : Nat) : Nat := ((List.range cs.numClocks).find? (A.ncl n)).getD cs.numClocks

/-- `tile_ite_counters`, exact.hpp:949-969: the number of tiles of an edge. -/
def wires (e : Nat × Nat) : Nat := ((tiles m).map fun t => A.te t e).count true

/-- The length of a path, exact.hpp:1489-1515, without the offset: wires, and the clock number of the input. -/
def pathLength (p : List (Nat × Nat)) : Nat := (p.map fun e => (if (N.node e.1).isPi then nclValue cs A e.1 else 0) + wires m A e).sum

/-- `define_length`, exact.hpp:1474-1520: neighbouring lengths are equal; the offset is the difference of the numbers of edges to the
longest path. -/
def lengthsEqual (n : Nat) : Bool :=
  let ps := edgePaths N (N.size + 1) n
  let longest := (ps.map List.length).foldl max 0
  let ls : List Int := ps.map fun p => ((p.length : Int) - longest) + (pathLength m cs N A p : Int)
  (ls.zip (ls.drop 1)).all fun q => q.1 == q.2

/-- `assign_pi_clockings` and `global_synchronization`, exact.hpp:1398-1563, 2558-2562, without border pins. -/
def synchronized : Bool := piClocks m cs N nodes A && N.pos.all (lengthsEqual m cs N A)

/-- The constraints on which the function of the layout rests, `generate_smt_instance`, exact.hpp:2545-2605, without synchronization. -/
def satBase : Bool :=
  (tiles m).all (fun t => tileElements N nodes crossings A t && gateFanout tp m cs N nodes A t && gateFanin tp m cs N nodes A t &&
    wireFanout tp m cs N nodes A t && wireFanin tp m cs N nodes A t && sufficient tp m cs N nodes A t &&
    connections tp m cs N nodes crossings A t) &&
  nodes.all (vertices m A) && noCycles tp m cs A

/-- `generate_smt_instance`, exact.hpp:2545-2605. -/
def sat (desynchronize : Bool) : Bool := satBase tp m cs N nodes crossings A && (desynchronize || synchronized m cs N nodes A)

/-! ## Building the layout -/

/-- `branching_signal_container` with `k` branches, placement_utils.hpp:374-455, for every node. -/
abbrev Branches := Nat → List (Nat × Coord)

/-- `operator[]`, placement_utils.hpp:398-419; the default signal is dead. -/
def look (B : Branches) (n t : Nat) : Coord := (((B n).find? fun b => b.1 == t).map Prod.snd).getD const0

/-- `update_branch`, placement_utils.hpp:427-447: nothing happens if all branches are in use. -/
def branch (k : Nat) (B : Branches) (n t : Nat) (c : Coord) : Branches := fun i =>
  if i = n then
    if (B n).any (fun b => b.1 == t) then (B n).map fun b => if b.1 = t then (t, c) else b
    else if (B n).length < k then B n ++ [(t, c)] else B n
  else B i

/-- The layout under construction and `node2pos`. -/
structure St where
  lyt : State
  pos : Branches

/-- `route`, exact.hpp:2705-2732. The first argument bounds the depth of the recursion. -/
def route (e : Nat × Nat) : Nat → St → Coord → Option St
  | 0, _, _ => none
  | f + 1, st, t =>
    match (outgoingClockedZones tp m cs t).find? (fun u => A.te u e && A.tc t u) with
    | none => some st
    | some u =>
      let v := if st.lyt.isEmptyTile u then u else Cart.above m u
      route e f ⟨st.lyt.createGate m 2 [look st.pos e.1 e.2] v, branch tp.maxFanin st.pos e.1 e.2 v⟩ u

variable (lit : Nat → Nat)

/-- `place`, placement_utils.hpp:84-364; `none` is a violated assertion. -/
def place (st : St) (t : Coord) (n : Nat) : Option State :=
  let cs := (sources N n).map fun f => look st.pos f n
  if cs.length = 1 then if lit n = 2 ∨ lit n = 3 then some (st.lyt.createGate m (lit n) cs t) else none
  else if cs.length = 2 ∨ cs.length = 3 then some (st.lyt.createGate m (lit n) cs t)
  else none

/-- The fanouts of a node on the tile `t`, exact.hpp:2777-2793. -/
def fanOut (t : Coord) (n : Nat) (st : St) : Option St :=
  (N.fanouts n).foldlM (fun st u => route tp m cs A (n, u) ((tiles m).length + 1) { st with pos := branch tp.maxFanin st.pos n u t } t) st

/-- The body of the loop over the nodes, exact.hpp:2749-2803. -/
def stepNode (st : St) (n : Nat) : Option St :=
  match (tiles m).find? (fun t => A.tn t n) with
  | none => some st
  | some t =>
    if (N.node n).isPi then fanOut tp m cs N A t n { st with lyt := st.lyt.moveNode m (2 + N.pis.idxOf n) t [] }
    else if n ∈ N.pos then some st
    else
      match place m N lit st t n with
      | none => none
      | some l => fanOut tp m cs N A t n { st with lyt := l }

/-- The body of the loop over the outputs, exact.hpp:2807-2821, and `place_output`, exact.hpp:2661-2666; `none` is an access out of
bounds. -/
def stepPo (pos : Branches) (s : State) (p : Nat) : Option State :=
  ((tiles m).filter fun t => A.tn t p).foldlM (fun s t =>
    match sources N p with
    | [] => none
    | f :: _ => some (s.createPo m (look pos f p) t)) s

/-- `assign_layout`, exact.hpp:2739-2840, of a regular clocking scheme and without names and synchronization elements. -/
def assign : Option State :=
  match nodes.foldlM (stepNode tp m cs N A lit) ⟨Ortho.reserve m N.pis.length init, fun _ => []⟩ with
  | none => none
  | some st => N.pos.foldlM (stepPo m N A st.pos) st.lyt

end

end Verif.PhysicalDesign.Exact
