import Verif.Clocking.Model

/-!
# Model of `layouts/gate_level_layout.hpp`

Tiles and the signals they are cast to are identified (C01 shows the conversion to be a bijection), so a signal is a
`Coord`. Hash maps are partial functions. Nodes are indices; node data beyond `size` is meaningless. Not modelled: node
names, event callbacks, values and visited flags.
-/
namespace Verif.GateLevel

open Verif.Layouts Verif.Clocking

/-- `gate_level_layout_storage_node`, gate_level_layout.hpp:132-138: children, `data[1].h1` (the function literal), and
`data[0].h1` (31 bits of reference count, bit 31 is the dead flag). -/
structure Node where
  children : List Coord := []
  fn : Nat := 0
  h1 : BitVec 32 := 0

/-- gate_level_layout.hpp:104. Equal to the default-constructed tile. -/
def const0 : Coord := ⟨0, 0, 0, true⟩
/-- gate_level_layout.hpp:105. -/
def const1 : Coord := ⟨0, 0, 1, true⟩

/-- Storage, gate_level_layout.hpp:99-123, 149-151. -/
structure State where
  nodes : Nat → Node
  size : Nat
  inputs : List Nat
  outputs : List Coord
  tileNode : Coord → Option Nat
  nodeTile : Nat → Option Coord
  numGates : BitVec 32
  numWires : BitVec 32
  numCrossings : BitVec 32

/-- A freshly constructed layout, gate_level_layout.hpp:104-115, 162-171, 1719-1728. -/
def init : State where
  nodes := fun n => if n = 1 then { fn := 1 } else {}
  size := 2
  inputs := []
  outputs := []
  tileNode := fun t => if t = const0 then some 0 else if t = const1 then some 1 else none
  nodeTile := fun n => if n = 0 then some const0 else if n = 1 then some const1 else none
  numGates := 0
  numWires := 0
  numCrossings := 0

variable (m : Dim)

/-- gate_level_layout.hpp:666-684. -/
def State.getNode (s : State) (t : Coord) : Nat := (s.tileNode t).getD 0
/-- gate_level_layout.hpp:692-700. -/
def State.getTile (s : State) (n : Nat) : Coord := (s.nodeTile n).getD const0
/-- `(h1 >> 31) & 1`, gate_level_layout.hpp:709-712. -/
def State.isDead (s : State) (n : Nat) : Bool := (s.nodes n).h1.getLsbD 31
/-- gate_level_layout.hpp:248-251. -/
def isConstant (n : Nat) : Bool := decide (n ≤ 1)
/-- gate_level_layout.hpp:292-295. -/
def State.isPi (s : State) (n : Nat) : Bool := s.inputs.contains n
/-- gate_level_layout.hpp:317-321. -/
def State.isPo (s : State) (n : Nat) : Bool := s.outputs.any (fun p => s.getNode p == n)
/-- gate_level_layout.hpp:333-336. -/
def State.isPoTile (s : State) (t : Coord) : Bool := s.isPo (s.getNode t)
/-- gate_level_layout.hpp:871-874. -/
def State.isGate (s : State) (n : Nat) : Bool := decide ((s.nodes n).fn ≥ 2) && !s.isPi n
/-- gate_level_layout.hpp:881-891. -/
def State.isWire (s : State) (n : Nat) : Bool := (s.nodes n).fn == 2
/-- gate_level_layout.hpp:995-998. -/
def State.isWireTile (s : State) (t : Coord) : Bool := s.isWire (s.getNode t)
/-- gate_level_layout.hpp:1005-1008. -/
def State.isEmptyTile (s : State) (t : Coord) : Bool := s.getNode t == 0
/-- cartesian_layout.hpp:616-620, hexagonal_layout.hpp (same). -/
def isGroundLayer (t : Coord) : Bool := t.z == 0
/-- cartesian_layout.hpp:626-630. -/
def isCrossingLayer (t : Coord) : Bool := decide (t.z > 0)

/-- Assignment to a member of `strg->nodes[n]`, e.g. gate_level_layout.hpp:1783-1797. -/
def State.modNode (s : State) (n : Nat) (f : Node → Node) : State :=
  { s with nodes := fun k => if k = n then f (s.nodes k) else s.nodes k }

/-- gate_level_layout.hpp:1783-1789. -/
def State.kill (s : State) (n : Nat) : State :=
  if isConstant n then s else s.modNode n (fun d => { d with h1 := d.h1 ||| 0x80000000#32 })
/-- gate_level_layout.hpp:1791-1797. -/
def State.revive (s : State) (n : Nat) : State :=
  if isConstant n then s else s.modNode n (fun d => { d with h1 := d.h1 &&& ~~~0x80000000#32 })
/-- `strg->nodes[get_node(c)].data[0].h1++`. -/
def State.ref (s : State) (c : Coord) : State := s.modNode (s.getNode c) (fun d => { d with h1 := d.h1 + 1 })
/-- `strg->nodes[get_node(c)].data[0].h1--`. -/
def State.unref (s : State) (c : Coord) : State := s.modNode (s.getNode c) (fun d => { d with h1 := d.h1 - 1 })

/-- The change of the crossing counter when a wire appears on or disappears from `t`: gate_level_layout.hpp:809-819 and
1765-1774 evaluate the same two conditions. -/
def State.crossingsAt (s : State) (t : Coord) : BitVec 32 :=
  (if isCrossingLayer t && !s.isEmptyTile (Cart.below t) then 1 else 0) +
  (if isGroundLayer t && isCrossingLayer (Cart.above m t) && !s.isEmptyTile (Cart.above m t) then 1 else 0)

/-- Erases the first element satisfying `p` (`find_if` followed by `erase`). -/
def eraseFirst (p : Coord → Bool) : List Coord → List Coord
  | [] => []
  | a :: l => if p a then l else a :: eraseFirst p l

/-- `clear_tile`, gate_level_layout.hpp:795-842. -/
def State.clearTile (s : State) (t : Coord) : State :=
  match s.tileNode t with
  | none => s
  | some n =>
    let s1 :=
      if t.d then s
      else if s.isWire n then
        { s with numWires := s.numWires - 1
                 numCrossings := s.numCrossings - s.crossingsAt m t
                 outputs := eraseFirst (fun p => s.getNode p == n) s.outputs }
      else { s with numGates := s.numGates - 1 }
    let s2 := s1.kill n
    { s2 with nodeTile := fun k => if k = n then none else s2.nodeTile k
              tileNode := fun k => if k = t then none else s2.tileNode k }

/-- `assign_node`, gate_level_layout.hpp:1750-1781. -/
def State.assignNode (s : State) (t : Coord) (n : Nat) : State :=
  if t.d then s
  else
    let s1 := s.clearTile m t
    let s2 := { s1 with tileNode := fun k => if k = t then some n else s1.tileNode k
                        nodeTile := fun k => if k = n then some t else s1.nodeTile k }
    if s2.isWire n then
      { s2 with numWires := s2.numWires + 1, numCrossings := s2.numCrossings + s2.crossingsAt m t }
    else { s2 with numGates := s2.numGates + 1 }

/-- Appends a node (`strg->nodes.emplace_back`). -/
def State.push (s : State) (d : Node) : State :=
  { s with nodes := fun k => if k = s.size then d else s.nodes k, size := s.size + 1 }

/-- `create_pi`, gate_level_layout.hpp:258-268. -/
def State.createPi (s : State) (t : Coord) : State :=
  let n := s.size
  let s1 := s.push { fn := 2 }
  let s2 := { s1 with inputs := s1.inputs ++ [n] }
  s2.assignNode m t n

/-- `create_po`, gate_level_layout.hpp:270-284. -/
def State.createPo (s : State) (c t : Coord) : State :=
  let n := s.size
  let s1 := s.push { fn := 2 }
  let s2 := { s1 with outputs := s1.outputs ++ [t] }
  let s3 := s2.assignNode m t n
  (s3.ref c).modNode n (fun d => { d with children := d.children ++ [c] })

/-- `create_node_from_literal`, gate_level_layout.hpp:1808-1833; reached from `create_buf` … `create_maj` (454-517) and
`create_node` (519-529). -/
def State.createGate (s : State) (lit : Nat) (children : List Coord) (t : Coord) : State :=
  let n := s.size
  let s1 := s.push { children := children, fn := lit }
  let s2 := children.foldl State.ref s1
  s2.assignNode m t n

/-- `connect`, gate_level_layout.hpp:776-784. -/
def State.connect (s : State) (c : Coord) (n : Nat) : State :=
  if isConstant n then s else s.modNode n (fun d => { d with children := d.children ++ [c] })

/-- `move_node`, gate_level_layout.hpp:732-766. -/
def State.moveNode (s : State) (n : Nat) (t : Coord) (newChildren : List Coord) : State :=
  let oldT := s.getTile n
  let s1 := (s.nodes n).children.foldl State.unref s
  let s2 := s1.modNode n (fun d => { d with children := [] })
  let s5 :=
    if t = oldT then s2
    else
      let s3 := if t.d then s2 else { s2 with outputs := s2.outputs.map (fun p => if p = oldT then t else p) }
      let s4 := (s3.clearTile m oldT).assignNode m t n
      s4.revive n
  let s6 := s5.modNode n (fun d => { d with children := newChildren })
  newChildren.foldl State.ref s6

/-- The mutating part of the interface. -/
inductive Op
  | createPi (t : Coord)
  | createPo (c t : Coord)
  | createGate (lit : Nat) (children : List Coord) (t : Coord)
  | connect (c : Coord) (n : Nat)
  | move (n : Nat) (t : Coord) (children : List Coord)
  | clear (t : Coord)

/-- One call of the interface, see the definitions above. -/
def State.step (s : State) : Op → State
  | .createPi t => s.createPi m t
  | .createPo c t => s.createPo m c t
  | .createGate lit cs t => s.createGate m lit cs t
  | .connect c n => s.connect c n
  | .move n t cs => s.moveNode m n t cs
  | .clear t => s.clearTile m t

/-- What a caller has to respect: nodes passed in exist, and constants are not moved (the latter is not checked by the
code). -/
def Op.Valid (s : State) : Op → Prop
  | .connect _ n => n < s.size
  | .move n _ _ => 2 ≤ n ∧ n < s.size
  | _ => True

/-- Run a history of operations. -/
def run (s : State) (ops : List Op) : State := ops.foldl (State.step m) s

/-- Every operation of the history is valid in the state it is applied to. -/
def Valid : State → List Op → Prop
  | _, [] => True
  | s, op :: ops => op.Valid s ∧ Valid (s.step m op) ops

/-! ## Iteration -/

/-- `foreach_node`, gate_level_layout.hpp:1052-1058. -/
def State.allNodes (s : State) : List Nat := (List.range s.size).filter (fun n => !s.isDead n)
/-- `foreach_gate`, gate_level_layout.hpp:1067-1073. -/
def State.allGates (s : State) : List Nat :=
  (List.range s.size).filter (fun n => decide (2 ≤ n) && (s.isGate n && !s.isDead n))
/-- `foreach_wire`, gate_level_layout.hpp:1082-1088. -/
def State.allWires (s : State) : List Nat :=
  (List.range s.size).filter (fun n => decide (2 ≤ n) && (s.isWire n && !s.isDead n))

/-! ## Connections -/

/-- `is_adjacent_of`, cartesian_layout.hpp:431-434, hexagonal_layout.hpp. -/
def Topo.isAdjacentOf : Topo → Dim → Coord → Coord → Bool
  | .cart, m, a, b => Cart.isAdjacentOf m a b
  | .hex r, m, a, b => Hex.isAdjacentOf r m a b

/-- `is_adjacent_elevation_of`, cartesian_layout.hpp:443-447, hexagonal_layout.hpp (same). -/
def Topo.isAdjacentElevationOf (tp : Topo) (m : Dim) (a b : Coord) : Bool :=
  Topo.isAdjacentOf tp m a b || Topo.isAdjacentOf tp m (Cart.above m a) b || Topo.isAdjacentOf tp m (Cart.below a) b

/-- `foreach_fanin`, gate_level_layout.hpp:1101-1129. -/
def State.fanins (s : State) (tp : Topo) (cs : Scheme) (respect : Bool) (n : Nat) : List Coord :=
  if n ≤ 1 then []
  else
    let nt := s.getTile n
    ((s.nodes n).children.filter (fun c =>
      let ct := s.getTile (s.getNode c)
      Topo.isAdjacentElevationOf tp m nt ct && (!respect || isIncomingClocked cs nt ct))).map
      (fun c => s.getTile (s.getNode c))

/-- `is_child`, gate_level_layout.hpp:1842-1846. -/
def State.isChild (s : State) (n : Nat) (c : Coord) : Bool := (s.nodes n).children.contains c

/-- `foreach_fanout`, gate_level_layout.hpp:1166-1219. -/
def State.fanouts (s : State) (tp : Topo) (cs : Scheme) (respect : Bool) (n : Nat) : List Nat :=
  if n ≤ 1 then []
  else
    let nt := s.getTile n
    let zones := if respect then outgoingClockedZones tp m cs nt else tp.adjacent m nt
    zones.flatMap (fun out =>
      let cand := [out] ++ (if Cart.above m out ≠ out then [Cart.above m out] else []) ++
        (if Cart.below out ≠ out then [Cart.below out] else [])
      (cand.map s.getNode).filter (fun a => s.isChild a nt))

end Verif.GateLevel
