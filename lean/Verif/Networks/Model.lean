/-!
# Model of technology networks and of the network transformations

`networks/technology_network.hpp`, `networks/virtual_pi_network.hpp`,
`algorithms/network_transformation/{network_conversion,delete_virtual_pis,fanout_substitution,network_balancing}.hpp`
and `utils/network_utils.hpp`.

A technology network is a vector of nodes that are addressed by their index; nodes 0 and 1 are the
constants. A node's fanins exist when it is created, hence have smaller indices. There is no structural
hashing. A node function is an arbitrary Boolean function (the code stores a truth table in a cache and
its literal in the node). Node names and progress bars are omitted.

mockturtle's `topo_view` is used by its specification: `foreach_gate` visits the gates an output depends
on, each once, fanins first, in an arbitrary such order. `depth_view`, `fanout_view`,
`initialize_copy_network` and `cleanup_dangling` are modelled by what they compute.
-/
namespace Verif.Networks

/-- A node: constants and primary inputs, buffers (literal 2 that is no input,
technology_network.hpp:87-90, 250-253) and all other gates, technology_network.hpp:92-230. -/
inductive Node where
  | const (b : Bool)
  | pi (k : Nat)
  | buf (f : Nat)
  | gate (fn : List Bool → Bool) (fs : List Nat)

namespace Node

/-- `foreach_fanin` -/
def fanins : Node → List Nat
  | const _ => []
  | pi _ => []
  | buf f => [f]
  | gate _ fs => fs

/-- `is_constant` -/
def isConst : Node → Bool
  | const _ => true
  | _ => false

/-- `is_pi` -/
def isPi : Node → Bool
  | pi _ => true
  | _ => false

/-- `is_buf`, technology_network.hpp:250-253. -/
def isBuf : Node → Bool
  | buf _ => true
  | _ => false

/-- A node visited by `foreach_gate`. -/
def isGate : Node → Bool
  | buf _ => true
  | gate _ _ => true
  | _ => false

/-- The value of a node given the assignment of the inputs and the values of the other nodes. -/
def value (a : Nat → Bool) (v : Nat → Bool) : Node → Bool
  | const b => b
  | pi k => a k
  | buf f => v f
  | gate fn fs => fn (fs.map v)

/-- `clone_node(other, source, children)`, technology_network.hpp:232-237: the same function over other
fanins. -/
def withFanins (x : Node) (cs : List Nat) : Node :=
  match x with
  | const b => const b
  | pi k => pi k
  | buf _ => buf (cs.getD 0 0)
  | gate fn _ => gate fn cs

end Node

/-- `technology_network` storage: nodes and outputs. -/
structure Ntk where
  nodes : List Node
  pos : List Nat

namespace Ntk

/-- Number of nodes, `size()`. -/
def size (N : Ntk) : Nat := N.nodes.length

/-- The node with a given index. -/
def node (N : Ntk) (i : Nat) : Node := N.nodes.getD i (.const false)

/-- `_create_node`, technology_network.hpp:201-218: append a node and return its index. -/
def add (N : Ntk) (x : Node) : Ntk × Nat := ({ N with nodes := N.nodes ++ [x] }, N.nodes.length)

/-- `create_po` -/
def createPo (N : Ntk) (s : Nat) : Ntk := { N with pos := N.pos ++ [s] }

/-- `fanout_size`: the reference counter, incremented by `_create_node` (technology_network.hpp:211) for
every fanin and by `create_po`. -/
def fanoutSize (N : Ntk) (i : Nat) : Nat :=
  (N.nodes.map (fun x => x.fanins.count i)).sum + N.pos.count i

/-- `is_fanout`, technology_network.hpp:261-264. -/
def isFanout (N : Ntk) (i : Nat) : Bool := (N.node i).isBuf && decide (N.fanoutSize i > 1)

/-- The values of all nodes in creation order (simulation of the network; not part of the code). -/
def evalList (a : Nat → Bool) : List Node → List Bool :=
  fun l => l.foldl (fun vs x => vs ++ [x.value a (fun i => vs.getD i false)]) []

/-- Value of node `i` under the input assignment `a`. -/
def value (N : Ntk) (a : Nat → Bool) (i : Nat) : Bool := (evalList a N.nodes).getD i false

/-- Values of the outputs. -/
def outputs (N : Ntk) (a : Nat → Bool) : List Bool := N.pos.map (N.value a)

/-- Indices of the primary inputs, `foreach_pi`. -/
def pis (N : Ntk) : List Nat := (List.range N.size).filter (fun i => (N.node i).isPi)

/-- `mockturtle::initialize_copy_network`: the constants and one input per input of the source. -/
def initCopy (numPis : Nat) : Ntk :=
  ⟨[.const false, .const true] ++ (List.range numPis).map .pi, []⟩

/-- The map `old2new` returned by it. -/
def initMap (N : Ntk) (i : Nat) : Nat :=
  match N.node i with
  | .const b => if b then 1 else 0
  | .pi k => 2 + k
  | _ => 0

/-- A technology network as it results from calls of `create_pi`, `create_<gate>` and `create_po`. -/
structure WF (N : Ntk) (numPis : Nat) : Prop where
  consts : ∃ l, N.nodes = .const false :: .const true :: l ∧ ∀ x ∈ l, x.isConst = false
  fanins : ∀ i < N.size, ∀ f ∈ (N.node i).fanins, f < i
  pis : ∀ i, (N.node i).isPi = true → ∃ k < numPis, (N.node i) = .pi k
  pisAll : ∀ k < numPis, ∃ i < N.size, N.node i = .pi k
  pisInj : ∀ i j k, N.node i = .pi k → N.node j = .pi k → i = j
  pos : ∀ p ∈ N.pos, p < N.size

end Ntk

/-- Specification of the order in which `topo_view::foreach_gate` visits the gates: each once, only
gates, every gate after the gates it depends on, all gates the outputs depend on and no others. -/
structure TopoOrder (N : Ntk) (order : List Nat) : Prop where
  nodup : order.Nodup
  gates : ∀ g ∈ order, g < N.size ∧ (N.node g).isGate = true
  fanins : ∀ l g r, order = l ++ g :: r → ∀ f ∈ (N.node g).fanins, (N.node f).isGate = true → f ∈ l
  pos : ∀ p ∈ N.pos, (N.node p).isGate = true → p ∈ order
  needed : ∀ g ∈ order, g ∈ N.pos ∨ ∃ g' ∈ order, g ∈ (N.node g').fanins

/-! ## Fanout substitution -/

/-- fanout_substitution.hpp:40-54. The random draws are arbitrary: `rnd n i` is the `i`-th draw while the
tree of node `n` is generated, reduced to the current range. -/
inductive Strategy where
  | breadth
  | depth
  | random (rnd : Nat → Nat → Nat)

/-- fanout_substitution.hpp:35-72. -/
structure FanoutParams where
  strategy : Strategy
  degree : Nat
  threshold : Nat

/-- The state of `fanout_substitution_impl`: `substituted`, `old2new`, `available_fanouts`,
fanout_substitution.hpp:119-122, 202. -/
structure FanoutState where
  ntk : Ntk
  old2new : Nat → Nat
  avail : Nat → List Nat

/-- `num_fanouts`, fanout_substitution.hpp:223-226: `ceil(max(fanout_size - threshold, 0) / max(degree - 1, 1))`
(exact in `double` for 32-bit values). -/
def numFanouts (ps : FanoutParams) (fanoutSize : Nat) : Nat :=
  (fanoutSize - ps.threshold + (max (ps.degree - 1) 1) - 1) / max (ps.degree - 1) 1

/-- `generate_depth_tree`, fanout_substitution.hpp:290-300: remaining iterations, network, child, queue. -/
def depthTree : Nat → Ntk → Nat → List Nat → Ntk × List Nat
  | 0, N, _, q => (N, q)
  | k + 1, N, child, q =>
    let (N', b) := N.add (.buf child)
    depthTree k N' b (q ++ [b])

/-- `generate_breadth_tree`, fanout_substitution.hpp:309-326; `front` of an empty queue is undefined. -/
def breadthTree (degree : Nat) : Nat → Ntk → List Nat → Option (Ntk × List Nat)
  | 0, N, q => some (N, q)
  | _ + 1, _, [] => none
  | k + 1, N, c :: q =>
    let (N', b) := N.add (.buf c)
    breadthTree degree k N' (q ++ List.replicate degree b)

/-- `std::swap(v[i], v.back()); v.pop_back()`, fanout_substitution.hpp:351-352. -/
def swapPop (v : List Nat) (i : Nat) : List Nat := (v.set i (v.getLastD 0)).dropLast

/-- `generate_random_tree`, fanout_substitution.hpp:335-374; drawing from an empty range is undefined. -/
def randomTree (degree : Nat) (rnd : Nat → Nat) : Nat → Ntk → List Nat → Option (Ntk × List Nat)
  | 0, N, v => some (N, v)
  | k + 1, N, v =>
    if v.length = 0 then none
    else
      let i := rnd k % v.length
      let selected := v.getD i 0
      let (N', b) := N.add (.buf selected)
      randomTree degree rnd k N' (swapPop v i ++ List.replicate degree b)

/-- `generate_fanout_tree`, fanout_substitution.hpp:212-255. -/
def generateTree (ps : FanoutParams) (S : Ntk) (n : Nat) (st : FanoutState) : Option FanoutState :=
  if S.isFanout n && decide (S.fanoutSize n ≤ ps.degree) then some st
  else
    let k := numFanouts ps (S.fanoutSize n)
    let child := st.old2new n
    if k = 0 then some st
    else
      let res : Option (Ntk × List Nat) := match ps.strategy with
        | .depth => some (depthTree k st.ntk child [])
        | .breadth => breadthTree ps.degree k st.ntk [child]
        | .random rnd => randomTree ps.degree (rnd n) k st.ntk [child]
      res.map fun r => { st with ntk := r.1, avail := fun m => if m = n then r.2 else st.avail m }

/-- `get_fanout`, fanout_substitution.hpp:257-281. The queue is copied, so the state does not change;
running out of candidates is undefined (`front` of an empty queue). -/
def getFanout (ps : FanoutParams) (st : FanoutState) (n : Nat) : Option Nat :=
  let child := st.old2new n
  if st.ntk.fanoutSize child ≥ ps.threshold then
    if st.avail n = [] then some child
    else (st.avail n).find? (fun c => decide (st.ntk.fanoutSize c < ps.degree))
  else some child

/-- The children of a gate in the result, fanout_substitution.hpp:135-152. -/
def substChild (ps : FanoutParams) (S : Ntk) (st : FanoutState) (f : Nat) : Option Nat :=
  if (S.node f).isConst then some (st.old2new f) else getFanout ps st f

/-- The body of `foreach_gate`, fanout_substitution.hpp:132-164. -/
def substGate (ps : FanoutParams) (S : Ntk) (st : FanoutState) (n : Nat) : Option FanoutState :=
  match ((S.node n).fanins).mapM (substChild ps S st) with
  | none => none
  | some cs =>
    let (N', i) := st.ntk.add ((S.node n).withFanins cs)
    generateTree ps S n { st with ntk := N', old2new := fun m => if m = n then i else st.old2new m }

/-- The body of `foreach_po`, fanout_substitution.hpp:166-177 (technology networks have no complemented
signals). -/
def substPo (ps : FanoutParams) (st : FanoutState) (p : Nat) : Option FanoutState :=
  (getFanout ps st p).map fun c => { st with ntk := st.ntk.createPo c }

/-- `fanout_substitution`, fanout_substitution.hpp:116-183, on the network `S` obtained from
`convert_network`. -/
def fanoutSubstitution (ps : FanoutParams) (S : Ntk) (numPis : Nat) (order : List Nat) : Option Ntk :=
  let st : FanoutState := ⟨Ntk.initCopy numPis, S.initMap, fun _ => []⟩
  match S.pis.foldlM (fun st n => generateTree ps S n st) st with
  | none => none
  | some st1 =>
    match order.foldlM (substGate ps S) st1 with
    | none => none
    | some st2 =>
      match S.pos.foldlM (substPo ps) st2 with
      | none => none
      | some st3 => some st3.ntk

/-- `is_fanout_substituted`, fanout_substitution.hpp:383-417. -/
def isFanoutSubstituted (ps : FanoutParams) (N : Ntk) : Bool :=
  (List.range N.size).all fun n =>
    if (N.node n).isConst then true
    else if N.isFanout n then decide (N.fanoutSize n ≤ ps.degree)
    else decide (N.fanoutSize n ≤ ps.threshold)

/-! ## Balancing -/

/-- The level of a node given those of the other nodes: `mockturtle::depth_view` with unit costs. -/
def Node.level (v : Nat → Nat) : Node → Nat
  | const _ => 0
  | pi _ => 0
  | buf f => v f + 1
  | gate _ fs => (fs.map v).foldl max 0 + 1

namespace Ntk

/-- The levels of all nodes in creation order. -/
def levelList (l : List Node) : List Nat := l.foldl (fun vs x => vs ++ [x.level (fun i => vs.getD i 0)]) []

/-- Length of the longest path from a source to node `i`. -/
def level (N : Ntk) (i : Nat) : Nat := (levelList N.nodes).getD i 0

/-- The nodes the outputs depend on: nodes in descending order add their fanins if they are marked. -/
def cone (N : Ntk) : List Nat :=
  (List.range N.size).reverse.foldl (fun acc j => if j ∈ acc then acc ++ (N.node j).fanins else acc) N.pos

/-- `depth_view::level`: computed recursively from the outputs, zero for all other nodes. -/
def depthLevel (N : Ntk) (i : Nat) : Nat := if i ∈ N.cone then N.level i else 0

end Ntk

/-- `insert_buf_chain`, network_balancing.hpp:60-66. -/
def bufChain : Nat → Ntk → Nat → Ntk × Nat
  | 0, N, child => (N, child)
  | k + 1, N, child =>
    let (N', b) := N.add (.buf child)
    bufChain k N' b

/-- The body of `foreach_fanin`, network_balancing.hpp:80-95; `d` is the level of the gate. -/
def balanceChildren (S : Ntk) (old2new : Nat → Nat) (d : Nat) : List Nat → Ntk → Ntk × List Nat
  | [], N => (N, [])
  | f :: fs, N =>
    let (N1, c) :=
      if (S.node f).isConst then (N, old2new f) else bufChain (d - S.depthLevel f - 1) N (old2new f)
    let (N2, cs) := balanceChildren S old2new d fs N1
    (N2, c :: cs)

/-- The body of `foreach_gate`, network_balancing.hpp:74-99; state: `balanced`, `old2new`. -/
def balanceGate (S : Ntk) (st : Ntk × (Nat → Nat)) (n : Nat) : Ntk × (Nat → Nat) :=
  let (N1, cs) := balanceChildren S st.2 (S.depthLevel n) (S.node n).fanins st.1
  let (N2, i) := N1.add ((S.node n).withFanins cs)
  (N2, fun m => if m = n then i else st.2 m)

/-- The body of `foreach_po`, network_balancing.hpp:106-119. -/
def balancePo (unify : Bool) (S : Ntk) (maxLevel : Nat) (old2new : Nat → Nat) (N : Ntk) (p : Nat) : Ntk :=
  let (N', c) := if unify then bufChain (maxLevel - S.depthLevel p) N (old2new p) else (N, old2new p)
  N'.createPo c

/-- `network_balancing`, network_balancing.hpp:57-125, on the network `S` obtained from `convert_network`;
`*std::max_element` of an empty vector is undefined, even if `unify_outputs` is not set (line 103). -/
def networkBalancing (unify : Bool) (S : Ntk) (numPis : Nat) (order : List Nat) : Option Ntk :=
  let st := order.foldl (balanceGate S) (Ntk.initCopy numPis, S.initMap)
  if S.pos = [] then none
  else
    let maxLevel := (S.pos.map S.depthLevel).foldl max 0
    some (S.pos.foldl (balancePo unify S maxLevel st.2) st.1)

/-- `is_balanced`, network_balancing.hpp:142-179. `level(n) - level(fn) - 1 > 0` in unsigned arithmetic means
that the levels do not differ by exactly one. -/
def isBalanced (unify : Bool) (N : Ntk) : Bool :=
  ((List.range N.size).all fun n =>
    !(N.node n).isGate || (N.node n).fanins.all fun f =>
      (N.node f).isConst || decide (N.depthLevel n = N.depthLevel f + 1)) &&
  (!unify || ((N.pos.map N.depthLevel).zip (N.pos.map N.depthLevel).tail).all fun p => decide (p.1 = p.2))

/-! ## Inverse levels -/

/-- `fanouts`, network_utils.hpp:150-159: the nodes with fanin `n` (`fanout_view::foreach_fanout`; a node
listed twice makes no difference to its use below). -/
def Ntk.fanouts (N : Ntk) (n : Nat) : List Nat := (List.range N.size).filter fun j => decide (n ∈ (N.node j).fanins)

/-- `discovered` and `inv_levels`, network_utils.hpp:426-428. -/
structure InvState where
  disc : Nat → Bool
  lvl : Nat → Nat

/-- `inv_jdfs`, network_utils.hpp:441-465. The first argument bounds the recursion depth; it decreases
along fanins, so that the number of nodes suffices. -/
def invJdfs (N : Ntk) : Nat → Nat → InvState → InvState
  | 0, _, st => st
  | fuel + 1, n, st =>
    let fos := N.fanouts n
    if fos.all st.disc then
      let l := if fos = [] then 0 else max (st.lvl n) ((fos.map st.lvl).foldl max 0 + 1)
      let st1 : InvState :=
        ⟨fun m => if m = n then true else st.disc m, fun m => if m = n then l else st.lvl m⟩
      (N.node n).fanins.foldl (fun st f => if st.disc f then st else invJdfs N fuel f st) st1
    else st

/-- `inverse_levels`, network_utils.hpp:418-471. -/
def inverseLevels (N : Ntk) : Nat → Nat :=
  (N.pos.foldl (fun st p => invJdfs N N.size p st) ⟨fun _ => false, fun _ => 0⟩).lvl

/-! ## Virtual primary inputs -/

/-- A network with virtual inputs, virtual_pi_network.hpp:33-307: `real v = some r` if the node `v` is a
virtual copy of the input node `r` (`map_virtual_to_real_pi`, filled by `create_virtual_pi`, 150-159). -/
structure VNtk where
  ntk : Ntk
  real : Nat → Option Nat

/-- `foreach_real_pi`, virtual_pi_network.hpp:245-255. -/
def VNtk.realPis (V : VNtk) : List Nat := V.ntk.pis.filter fun i => (V.real i).isNone

/-- `old2new` after `initialize_copy_virtual_pi_network`, delete_virtual_pis.hpp:168-210: constants and real
inputs; all other nodes map to the default signal 0, which is the constant false. -/
def VNtk.initMap (V : VNtk) (i : Nat) : Nat :=
  match V.ntk.node i with
  | .const b => if b then 1 else 0
  | .pi _ => if (V.real i).isNone then 2 + V.realPis.idxOf i else 0
  | _ => 0

/-- The body of `foreach_gate`, delete_virtual_pis.hpp:41-125: virtual inputs are replaced by their real
ones. -/
def deleteGate (V : VNtk) (st : Ntk × (Nat → Nat)) (n : Nat) : Ntk × (Nat → Nat) :=
  let cs := (V.ntk.node n).fanins.map fun f => st.2 ((V.real f).getD f)
  let (N', i) := st.1.add ((V.ntk.node n).withFanins cs)
  (N', fun m => if m = n then i else st.2 m)

/-- `delete_virtual_pis`, delete_virtual_pis.hpp:35-140, 225-253; outputs are not redirected (127-134). -/
def deleteVirtualPis (V : VNtk) (order : List Nat) : Ntk :=
  if V.ntk.pis.all fun i => (V.real i).isNone then V.ntk
  else
    let st := order.foldl (deleteGate V) (Ntk.initCopy V.realPis.length, V.initMap)
    V.ntk.pos.foldl (fun N p => N.createPo (st.2 p)) st.1

/-! ## Network conversion -/

/-- A node of a network with complemented edges, such as an AIG or MIG; the second component of a fanin
tells whether it is complemented. -/
inductive XNode where
  | const (b : Bool)
  | pi (k : Nat)
  | gate (fn : List Bool → Bool) (fs : List (Nat × Bool))

/-- A network with complemented edges. -/
structure XNtk where
  nodes : List XNode
  pos : List (Nat × Bool)

namespace XNode

/-- `foreach_fanin` -/
def fanins : XNode → List (Nat × Bool)
  | const _ => []
  | pi _ => []
  | gate _ fs => fs

/-- A node visited by `foreach_gate`. -/
def isGate : XNode → Bool
  | gate _ _ => true
  | _ => false

/-- The value of a node. -/
def value (a : Nat → Bool) (v : Nat → Bool) : XNode → Bool
  | const b => b
  | pi k => a k
  | gate fn fs => fn (fs.map fun f => xor (v f.1) f.2)

end XNode

namespace XNtk

/-- Number of nodes. -/
def size (N : XNtk) : Nat := N.nodes.length

/-- The node with a given index. -/
def node (N : XNtk) (i : Nat) : XNode := N.nodes.getD i (.const false)

/-- The values of all nodes in creation order (not part of the code). -/
def evalList (a : Nat → Bool) (l : List XNode) : List Bool :=
  l.foldl (fun vs x => vs ++ [x.value a (fun i => vs.getD i false)]) []

/-- Value of node `i` under the input assignment `a`. -/
def value (N : XNtk) (a : Nat → Bool) (i : Nat) : Bool := (evalList a N.nodes).getD i false

/-- Values of the outputs. -/
def outputs (N : XNtk) (a : Nat → Bool) : List Bool := N.pos.map fun p => xor (N.value a p.1) p.2

/-- `mockturtle::initialize_copy_network` -/
def initMap (N : XNtk) (i : Nat) : Nat :=
  match N.node i with
  | .const b => if b then 1 else 0
  | .pi k => 2 + k
  | _ => 0

end XNtk

/-- `create_not`, technology_network.hpp:92-95: constants are folded. -/
def createNot (N : Ntk) (s : Nat) : Ntk × Nat :=
  match N.node s with
  | .const b => (N, if b then 0 else 1)
  | _ => N.add (.gate (fun l => !l.getD 0 false) [s])

/-- `gather_fanin_signals`, network_conversion.hpp:62-77. -/
def convertChildren (old2new : Nat → Nat) : List (Nat × Bool) → Ntk → Ntk × List Nat
  | [], N => (N, [])
  | f :: fs, N =>
    let (N1, c) := if f.2 then createNot N (old2new f.1) else (N, old2new f.1)
    let (N2, cs) := convertChildren old2new fs N1
    (N2, c :: cs)

/-- The body of `foreach_gate`, network_conversion.hpp:84-165. Each branch creates a node with the function of
the source node; n-ary gates, which the code splits into binary ones, are created as one node. -/
def convertGate (X : XNtk) (st : Ntk × (Nat → Nat)) (n : Nat) : Ntk × (Nat → Nat) :=
  match X.node n with
  | .gate fn fs =>
    let (N1, cs) := convertChildren st.2 fs st.1
    let (N2, i) := N1.add (.gate fn cs)
    (N2, fun m => if m = n then i else st.2 m)
  | _ => st

/-- The body of `foreach_po`, network_conversion.hpp:167-174. -/
def convertPo (old2new : Nat → Nat) (N : Ntk) (p : Nat × Bool) : Ntk :=
  let (N', c) := if p.2 then createNot N (old2new p.1) else (N, old2new p.1)
  N'.createPo c

/-- `convert_network`, network_conversion.hpp:56-180, from a network with complemented edges to a technology
network. -/
def convertNetwork (X : XNtk) (numPis : Nat) (order : List Nat) : Ntk :=
  let st := order.foldl (convertGate X) (Ntk.initCopy numPis, X.initMap)
  X.pos.foldl (convertPo st.2) st.1

/-! ## Virtual miter -/

/-- The copy of one gate. -/
def copyGate (S : Ntk) (st : Ntk × (Nat → Nat)) (n : Nat) : Ntk × (Nat → Nat) :=
  let (N', i) := st.1.add ((S.node n).withFanins ((S.node n).fanins.map st.2))
  (N', fun m => if m = n then i else st.2 m)

/-- The signals of the constants and inputs of a network that is copied over given inputs. -/
def copyMap (S : Ntk) (pis : List Nat) (i : Nat) : Nat :=
  match S.node i with
  | .const b => if b then 1 else 0
  | .pi k => pis.getD k 0
  | _ => 0

/-- `mockturtle::cleanup_dangling(ntk, dest, pis)`: copy the gates into `dest` over the given input signals
and return the signals of the outputs. -/
def copyInto (S : Ntk) (order : List Nat) (pis : List Nat) (N : Ntk) : Ntk × List Nat :=
  let st := order.foldl (copyGate S) (N, copyMap S pis)
  (st.1, S.pos.map st.2)

/-- `dest.create_xor` of the pairs of outputs, virtual_miter.hpp:127-130. -/
def xorPairs : List (Nat × Nat) → Ntk → Ntk × List Nat
  | [], N => (N, [])
  | p :: ps, N =>
    let (N1, x) := N.add (.gate (fun l => xor (l.getD 0 false) (l.getD 1 false)) [p.1, p.2])
    let (N2, xs) := xorPairs ps N1
    (N2, x :: xs)

/-- `virtual_miter`, virtual_miter.hpp:77-136, for networks without virtual inputs or after they have been
deleted: `nullopt` if the numbers of inputs or outputs differ. `create_nary_or` is one node; for no operands
it is the constant false (technology_network.hpp:183-187). -/
def virtualMiter (S1 S2 : Ntk) (k1 k2 : Nat) (order1 order2 : List Nat) : Option Ntk :=
  if k1 ≠ k2 ∨ S1.pos.length ≠ S2.pos.length then none
  else
    let pis := (List.range k1).map (2 + ·)
    let (N1, pos1) := copyInto S1 order1 pis (Ntk.initCopy k1)
    let (N2, pos2) := copyInto S2 order2 pis N1
    let (N3, xs) := xorPairs (pos1.zip pos2) N2
    if xs = [] then some (N3.createPo 0)
    else
      let (N4, o) := N3.add (.gate (fun l => l.any id) xs)
      some (N4.createPo o)

end Verif.Networks
