import Verif.Sidb.Model
import Mathlib.Data.List.Dedup

/-!
# Model of the construction of the ground state space and of *ClusterComplete*

`algorithms/simulation/sidb/ground_state_space.hpp`, `technology/sidb_cluster_hierarchy.hpp`,
`algorithms/simulation/sidb/clustercomplete.hpp` (single-threaded).

Potentials are exact rational numbers, as in `Verif.Sidb.Model`. The hierarchy is the outcome of a clustering
library and is an argument here: every binary tree over the SiDBs. Hash sets of clusters and of charge states are
lists; their iteration order is arbitrary (`Params.reorder`, `Params.reorderStates`).
-/
namespace Verif.Sidb.Gss

open Verif.Sidb

/-- `sidb_cluster` as a place in the hierarchy, sidb_cluster_hierarchy.hpp:996-1118: a single SiDB, the parent that
is given to the only SiDB of a layout (1229-1237), or two children. -/
inductive Cluster where
  | leaf (i : Nat)
  | one (i : Nat)
  | node (l r : Cluster)
  deriving DecidableEq, Repr

namespace Cluster

/-- `children`, sidb_cluster_hierarchy.hpp:1021. -/
def children : Cluster → List Cluster
  | leaf _ => []
  | one i => [leaf i]
  | node l r => [l, r]

/-- `sidbs`, sidb_cluster_hierarchy.hpp:1013, from left to right. The code lists them by their index; the order only
determines in which order they are put into ordered sets. -/
def sidbs : Cluster → List Nat
  | leaf i => [i]
  | one i => [i]
  | node l r => l.sidbs ++ r.sidbs

/-- `num_sidbs`, sidb_cluster_hierarchy.hpp:1104-1107. -/
def size (c : Cluster) : Nat := c.sidbs.length

/-- The number of clusters in the hierarchy below (and with) a cluster; it bounds iterations. -/
def count : Cluster → Nat
  | leaf _ => 1
  | one _ => 2
  | node l r => l.count + r.count + 1

/-- `get_parent` within a hierarchy, sidb_cluster_hierarchy.hpp:1066-1069, 1209-1211. -/
def parent? : Cluster → Cluster → Option Cluster
  | leaf _, _ => none
  | one i, c => if c = leaf i then some (one i) else none
  | node l r, c => if c = l ∨ c = r then some (node l r) else (l.parent? c).or (r.parent? c)

end Cluster

/-- The numbers of a multiset of charge states, `neg_count` and `pos_count`, sidb_cluster_hierarchy.hpp:592-601. As
64-bit words (644-647) they are compared by `neg` first. -/
structure Multiset where
  neg : Nat
  pos : Nat
  deriving DecidableEq, Repr

namespace Multiset

/-- `sidb_cluster_charge_state{cs}`, sidb_cluster_hierarchy.hpp:678-686. -/
def single : Charge → Multiset
  | .neg => ⟨1, 0⟩
  | .neu => ⟨0, 0⟩
  | .pos => ⟨0, 1⟩

/-- `operator+=`, sidb_cluster_hierarchy.hpp:714-719. -/
def add (a b : Multiset) : Multiset := ⟨a.neg + b.neg, a.pos + b.pos⟩

/-- The comparison of the words of two multisets. -/
def lt (a b : Multiset) : Bool := decide (a.neg < b.neg) || (decide (a.neg = b.neg) && decide (a.pos < b.pos))

/-- `singleton_multiset_conf_to_charge_state`, sidb_cluster_hierarchy.hpp:740-744. -/
def charge (m : Multiset) : Charge :=
  match (m.pos : Int) - (if 0 < m.neg then 1 else 0) with
  | -1 => .neg
  | 1 => .pos
  | _ => .neu

end Multiset

/-- `potential_projection`, sidb_cluster_hierarchy.hpp:751-811. -/
structure Proj where
  pot : Rat
  ms : Multiset
  deriving DecidableEq

/-- `operator<`, sidb_cluster_hierarchy.hpp:793-796. -/
def Proj.lt (a b : Proj) : Bool := decide (a.pot < b.pot) || (decide (a.pot = b.pot) && a.ms.lt b.ms)

/-- `add` to an ordered set, sidb_cluster_hierarchy.hpp:951-954. -/
def insertProj (p : Proj) : List Proj → List Proj
  | [] => [p]
  | q :: rest => if p.lt q then p :: q :: rest else if p = q then q :: rest else q :: insertProj p rest

/-- An ordered set with several elements. -/
def ordered (ps : List Proj) : List Proj := ps.foldl (fun acc p => insertProj p acc) []

/-- `get_bound<LOWER>().pot_val`, sidb_cluster_hierarchy.hpp:873-879; zero for an empty set, which the code does not
test for. -/
def lowest (o : List Proj) : Rat := (o.head?.map Proj.pot).getD 0

/-- `get_bound<UPPER>().pot_val`, sidb_cluster_hierarchy.hpp:880-884. -/
def highest (o : List Proj) : Rat := (o.getLast?.map Proj.pot).getD 0

/-- `get_pot_proj_for_m_conf<LOWER>(m).pot_val`, sidb_cluster_hierarchy.hpp:919-925; zero if there is none, which the
code does not test for. -/
def lowerFor (o : List Proj) (m : Multiset) : Rat := ((o.find? fun p => p.ms = m).map Proj.pot).getD 0

/-- `get_pot_proj_for_m_conf<UPPER>(m).pot_val`, sidb_cluster_hierarchy.hpp:926-933. -/
def upperFor (o : List Proj) (m : Multiset) : Rat := ((o.reverse.find? fun p => p.ms = m).map Proj.pot).getD 0

/-- `remove_m_conf`, sidb_cluster_hierarchy.hpp:939-945. -/
def without (o : List Proj) (m : Multiset) : List Proj := o.filter fun p => p.ms ≠ m

/-- `update_external_pot_projection_if_bound_removed`, ground_state_space.hpp:399-412, for the lower bound: by how much
it changes if a multiset is removed. `none` if there is no next bound: the code dereferences the end
(sidb_cluster_hierarchy.hpp:894-902). -/
def lowerShift (o : List Proj) (m : Multiset) : Option Rat :=
  match o.head? with
  | none => none
  | some h => if h.ms = m then (o.find? fun p => p.ms ≠ m).map fun q => q.pot - h.pot else some 0

/-- ground_state_space.hpp:399-412 for the upper bound, sidb_cluster_hierarchy.hpp:903-908. -/
def upperShift (o : List Proj) (m : Multiset) : Option Rat :=
  match o.getLast? with
  | none => none
  | some h => if h.ms = m then (o.reverse.find? fun p => p.ms ≠ m).map fun q => q.pot - h.pot else some 0

/-- An entry of a `potential_bounds_store`, sidb_cluster_hierarchy.hpp:352-468. -/
structure Bounds where
  lo : Rat
  up : Rat
  deriving DecidableEq

/-- `update`, sidb_cluster_hierarchy.hpp:419-423. -/
def Bounds.add (a b : Bounds) : Bounds := ⟨a.lo + b.lo, a.up + b.up⟩

/-- `update` with negated bounds, sidb_cluster_hierarchy.hpp:454-461. -/
def Bounds.sub (a b : Bounds) : Bounds := ⟨a.lo - b.lo, a.up - b.up⟩

/-- The sum of bounds. -/
def Bounds.sum (l : List Bounds) : Bounds := l.foldr Bounds.add ⟨0, 0⟩

/-- `sidb_charge_space_composition`, sidb_cluster_hierarchy.hpp:489-499: projector states, i.e. clusters with a
multiset, and potential bounds for every SiDB. -/
structure Composition where
  parts : List (Cluster × Multiset)
  bounds : Nat → Bounds

/-- `sidb_cluster_charge_state`, sidb_cluster_hierarchy.hpp:592-733. -/
structure ChargeState where
  ms : Multiset
  comps : List Composition

/-- `ground_state_space_params`, ground_state_space.hpp:40-62, the base of the simulation parameters and the iteration
orders of hash sets. -/
structure Params where
  base : Nat
  sizeLimit : Nat
  overlapLimit : Nat
  reorder : List Cluster → List Cluster
  reorderStates : List ChargeState → List ChargeState

/-- The contents of the clusters, sidb_cluster_hierarchy.hpp:1025-1044, and the clustering,
ground_state_space.hpp:1195. -/
structure State where
  clustering : List Cluster
  space : Cluster → List ChargeState
  projs : Cluster → Nat → List Proj
  recv : Cluster → Nat → Bounds
  complete : Cluster → Multiset → Nat → Bounds

/-! ## Initial clustering -/

/-- `sidb_charge_states_for_base_number`, sidb_charge_state.hpp:43-46. -/
def chargesOf (base : Nat) : List Charge := if base = 2 then [.neg, .neu] else [.neg, .neu, .pos]

/-- `-loc_ext_pot`, ground_state_space.hpp:277-288. -/
def selfPot (E : Env) (i : Nat) : Rat := -(E.ext i + E.defectPot i)

/-- The potential that a SiDB with charge `q` projects onto another one: `potential_projection_order`,
sidb_cluster_hierarchy.hpp:860-866, with `get_chargeless_potential_by_indices(i, j)`. -/
def project (E : Env) (i j : Nat) : Charge → Rat
  | .neg => E.pot i j
  | .neu => 0
  | .pos => -E.pot i j

/-- `potential_projection_order`, sidb_cluster_hierarchy.hpp:845-866, ground_state_space.hpp:287-298. The code has the
positive charge for base three only. -/
def leafProjs (E : Env) (base i j : Nat) : List Proj :=
  ordered ((if base = 3 then [Charge.pos, .neu, .neg] else [Charge.neu, .neg]).map fun q =>
    ⟨if j = i then selfPot E i else project E i j q, .single q⟩)

/-- `initialize_singleton_cluster_charge_space`, sidb_cluster_hierarchy.hpp:1083-1095 and 620-628. -/
def leafSpace (E : Env) (base i : Nat) : List ChargeState :=
  (chargesOf base).map fun q =>
    ⟨.single q, [⟨[(.leaf i, .single q)], fun j => if j = i then ⟨selfPot E i, selfPot E i⟩ else ⟨0, 0⟩⟩]⟩

/-- `get_local_potential_bounds` and the received potential of a single SiDB, ground_state_space.hpp:222-239, 279-285,
sidb_cluster_hierarchy.hpp:1097. -/
def leafRecv (E : Env) (base i : Nat) : Bounds :=
  let minLoc := E.fromScratch (fun _ => if base = 3 then .pos else .neu) i - E.defectPot i
  let maxLoc := E.fromScratch (fun _ => .neg) i - E.defectPot i
  ⟨-minLoc, -maxLoc⟩

/-- The single SiDBs of a hierarchy. -/
def leaves (t : Cluster) : List Cluster := t.sidbs.map .leaf

/-- `get_initial_clustering`, ground_state_space.hpp:258-310. -/
def initial (E : Env) (P : Params) (top : Cluster) : State where
  clustering := P.reorder (leaves top)
  space := fun c => match c with
    | .leaf i => leafSpace E P.base i
    | _ => []
  projs := fun c j => match c with
    | .leaf i => leafProjs E P.base i j
    | _ => []
  recv := fun c _ => match c with
    | .leaf i => leafRecv E P.base i
    | _ => ⟨0, 0⟩
  complete := fun _ _ _ => ⟨0, 0⟩

/-! ## Potential bound analysis -/

/-- `fail_onto_negative_charge`, ground_state_space.hpp:134, 177-181. -/
def failNeg (E : Env) (v : Rat) : Bool := decide (v > E.eps - E.muMinus)
/-- `fail_onto_positive_charge`, ground_state_space.hpp:137, 188-191. -/
def failPos (E : Env) (v : Rat) : Bool := decide (v < -E.eps - E.muPlus)
/-- `ub_fail_onto_neutral_charge`, ground_state_space.hpp:135, 198-201. -/
def ubFailNeu (E : Env) (v : Rat) : Bool := decide (v < -E.eps - E.muMinus)
/-- `lb_fail_onto_neutral_charge`, ground_state_space.hpp:136, 208-211. -/
def lbFailNeu (E : Env) (v : Rat) : Bool := decide (v > E.eps - E.muPlus)

/-- `emplace` into an ordered set of SiDBs. -/
def insertNat (x : Nat) : List Nat → List Nat
  | [] => [x]
  | y :: rest => if x < y then x :: y :: rest else if x = y then y :: rest else y :: insertNat x rest

/-- `witness_partitioning_state`, ground_state_space.hpp:463-500. -/
structure Witnesses where
  neg : List Nat
  pos : List Nat
  neu : List Nat
  reqNeg : Nat
  reqPos : Nat
  reqNeu : Nat
  deriving DecidableEq, Repr

/-- Decrement of a 64-bit word. -/
def dec (k : Nat) : Nat := if k = 0 then 2 ^ 64 - 1 else k - 1

/-- The inner loop of `omit_free_witnesses_and_count_overlap`, ground_state_space.hpp:519-532: the members of the set
that stay, and the required count. -/
def omitFree (a b : List Nat) : List Nat → Nat → List Nat × Nat
  | [], k => ([], k)
  | x :: rest, k =>
    if x ∉ a ∧ x ∉ b then omitFree a b rest (dec k)
    else let r := omitFree a b rest k; (x :: r.1, r.2)

/-- `omit_free_witnesses_and_count_overlap`, ground_state_space.hpp:507-536. -/
def omitWitnesses (w : Witnesses) : Nat × Witnesses :=
  let n := omitFree w.pos w.neu w.neg w.reqNeg
  let p := omitFree n.1 w.neu w.pos w.reqPos
  let z := omitFree n.1 p.1 w.neu w.reqNeu
  (((n.1 ++ p.1 ++ z.1).dedup).length, ⟨n.1, p.1, z.1, n.2, p.2, z.2⟩)

/-- The element after `x` of an ordered set. -/
def next (x : Nat) (s : List Nat) : Option Nat := s.find? fun y => x < y

/-- The loop of `find_valid_witness_partitioning<POSITIVE>`, ground_state_space.hpp:570-589: iterations, the element of
the iterator, the state. The first element is taken but that of the iterator is erased (573-575). -/
def posLoop (rec : Witnesses → Bool × Witnesses) : Nat → Option Nat → Witnesses → Bool × Witnesses
  | 0, _, w => (false, w)
  | _ + 1, none, w => (false, w)
  | k + 1, some it, w =>
    match w.pos.head? with
    | none => (false, w)
    | some x =>
      let r := rec { w with pos := w.pos.erase it, neu := w.neu.erase x }
      if r.1 then (true, r.2)
      else
        let w' := { r.2 with pos := insertNat x r.2.pos, neu := insertNat x r.2.neu }
        posLoop rec k (next x w'.pos) w'

/-- `find_valid_witness_partitioning<POSITIVE>`, ground_state_space.hpp:563-590, and for the neutral charge, 559-562. -/
def findPos : Nat → Witnesses → Bool × Witnesses
  | 0, w => (decide (w.neu.length ≥ w.reqNeu), w)
  | k + 1, w => posLoop (findPos k) w.pos.length w.pos.head? w

/-- The loop of `find_valid_witness_partitioning<NEGATIVE>`, ground_state_space.hpp:598-619. -/
def negLoop (rec : Witnesses → Bool × Witnesses) : Nat → Option Nat → Witnesses → Bool × Witnesses
  | 0, _, w => (false, w)
  | _ + 1, none, w => (false, w)
  | k + 1, some x, w =>
    let r := rec { w with neg := w.neg.erase x, pos := w.pos.erase x, neu := w.neu.erase x }
    if r.1 then (true, r.2)
    else
      let w' := { r.2 with neg := insertNat x r.2.neg, pos := insertNat x r.2.pos, neu := insertNat x r.2.neu }
      negLoop rec k (next x w'.neg) w'

/-- `find_valid_witness_partitioning<NEGATIVE>`, ground_state_space.hpp:591-620. -/
def findNeg : Nat → Witnesses → Bool × Witnesses
  | 0, w => findPos w.reqPos w
  | k + 1, w => negLoop (findNeg k) w.neg.length w.neg.head? w

/-- The SiDBs that witness the charge states of a multiset, ground_state_space.hpp:694-717 with `get_count`,
sidb_cluster_hierarchy.hpp:260-269. -/
def witnesses (E : Env) (c : Cluster) (m : Multiset) (b : Nat → Bounds) : Witnesses :=
  let neu := c.size - m.neg - m.pos
  let collect (p : Nat → Bool) : List Nat := (c.sidbs.filter p).foldl (fun s x => insertNat x s) []
  { neg := collect fun i => decide (m.neg ≠ 0) && !failNeg E (b i).lo
    pos := collect fun i => decide (m.pos ≠ 0) && !failPos E (b i).up
    neu := collect fun i => decide (neu ≠ 0) && (!ubFailNeu E (b i).up && !lbFailNeu E (b i).lo)
    reqNeg := m.neg, reqPos := m.pos, reqNeu := neu }

/-- `perform_potential_bound_analysis`, ground_state_space.hpp:689-739, for the given bounds on the potential that
the SiDBs of the cluster receive. -/
def analysis (E : Env) (P : Params) (c : Cluster) (m : Multiset) (b : Nat → Bounds) : Bool :=
  let w := witnesses E c m b
  if w.neg.length < w.reqNeg ∨ w.pos.length < w.reqPos ∨ w.neu.length < w.reqNeu then false
  else if c.size > P.sizeLimit then true
  else
    let r := omitWitnesses w
    if r.1 > P.overlapLimit then true
    else (findNeg r.2.reqNeg r.2).1

/-- `get_projector_state_bound`, ground_state_space.hpp:354-359, for both bounds. -/
def State.bound (s : State) (c : Cluster) (m : Multiset) (i : Nat) : Bounds :=
  ⟨lowerFor (s.projs c i) m, upperFor (s.projs c i) m⟩

/-- The potential bounds of a multiset, ground_state_space.hpp:661-668. -/
def State.multisetBounds (s : State) (c : Cluster) (m : Multiset) (i : Nat) : Bounds := (s.bound c m i).add (s.recv c i)

/-! ## Pruning -/

/-- The other clusters. -/
def State.others (s : State) (c : Cluster) : List Cluster := s.clustering.filter fun o => o ≠ c

/-- `handle_invalid_state`, ground_state_space.hpp:439-455, with `update_external_potential_projection`, 423-431. The
iterations of its loops concern different SiDBs; their updates are written at once. `none` if a bound is removed
and there is no other. -/
def handleInvalid (c : Cluster) (m : Multiset) (s : State) : Option State :=
  if ∀ o ∈ s.others c, ∀ i ∈ o.sidbs, (lowerShift (s.projs c i) m).isSome ∧ (upperShift (s.projs c i) m).isSome then
    some { s with
      projs := fun c' i =>
        if c' = c ∧ ∃ o ∈ s.others c, i ∈ o.sidbs then without (s.projs c i) m else s.projs c' i
      recv := fun o i =>
        if o ∈ s.others c ∧ i ∈ o.sidbs then
          (s.recv o i).add ⟨(lowerShift (s.projs c i) m).getD 0, (upperShift (s.projs c i) m).getD 0⟩
        else s.recv o i }
  else none

/-- The first loop of `check_charge_space`, ground_state_space.hpp:762-773: the state and the multisets to remove. -/
def checkStates (E : Env) (P : Params) (c : Cluster) : List Multiset → State → Option (State × List Multiset)
  | [], s => some (s, [])
  | m :: rest, s =>
    if analysis E P c m (s.multisetBounds c m) then checkStates E P c rest s
    else
      (handleInvalid c m s).bind fun s' => (checkStates E P c rest s').map fun r => (r.1, m :: r.2)

/-- `check_charge_space`, ground_state_space.hpp:749-781. -/
def checkSpace (E : Env) (P : Params) (c : Cluster) (s : State) : Option (State × Bool) :=
  if (s.space c).length = 1 then some (s, true)
  else
    (checkStates E P c ((s.space c).map ChargeState.ms) s).map fun r =>
      ({ r.1 with
          space := fun c' => if c' = c then (s.space c).filter fun x => x.ms ∉ r.2 else r.1.space c' },
        r.2.isEmpty)

/-- The loop of `update_charge_spaces`, ground_state_space.hpp:795-801. -/
def updateClusters (E : Env) (P : Params) (skip : Option Cluster) : List Cluster → State → Option (State × Bool)
  | [], s => some (s, true)
  | c :: rest, s =>
    if skip = some c then updateClusters E P skip rest s
    else
      (checkSpace E P c s).bind fun r => (updateClusters E P skip rest r.1).map fun q => (q.1, r.2 && q.2)

/-- `update_charge_spaces`, ground_state_space.hpp:790-804. -/
def updateSpaces (E : Env) (P : Params) (skip : Option Cluster) (s : State) : Option (State × Bool) :=
  updateClusters E P skip s.clustering s

/-- `while (!update_charge_spaces()) {}`, ground_state_space.hpp:156-157, with a bound on the number of iterations;
`none` if it is reached. -/
def fixpoint (E : Env) (P : Params) : Nat → State → Option State
  | 0, _ => none
  | k + 1, s => (updateSpaces E P none s).bind fun r => if r.2 then some r.1 else fixpoint E P k r.1

/-- The number of charge states of the clustering; it bounds the number of iterations above. -/
def State.total (s : State) : Nat := (s.clustering.map fun c => (s.space c).length).sum

/-! ## Merging -/

/-- The projector states of a composition, in all combinations, ground_state_space.hpp:1002-1012. -/
def combinations (s : State) : List Cluster → List (List (Cluster × Multiset))
  | [] => [[]]
  | c :: rest => (s.space c).flatMap fun x => (combinations s rest).map fun l => (c, x.ms) :: l

/-- The sum of the multisets, `m += m_part`, ground_state_space.hpp:1006. -/
def sumMs (parts : List (Cluster × Multiset)) : Multiset := parts.foldr (fun p m => p.2.add m) ⟨0, 0⟩

/-- The potential that projector states cause together, e.g. ground_state_space.hpp:943-947. -/
def State.partsBound (s : State) (parts : List (Cluster × Multiset)) (i : Nat) : Bounds :=
  .sum (parts.map fun q => s.bound q.1 q.2 i)

/-- The composition built by `verify_composition`, ground_state_space.hpp:933-950. -/
def composition (s : State) (p : Cluster) (parts : List (Cluster × Multiset)) : Composition :=
  ⟨parts, fun i => if i ∈ p.sidbs then s.partsBound parts i else ⟨0, 0⟩⟩

/-- `verify_composition`, ground_state_space.hpp:930-960 with 669-676. The bounds that an iteration does not set yet
belong to SiDBs of other projector states and are not read by it. -/
def verify (E : Env) (P : Params) (s : State) (p : Cluster) (parts : List (Cluster × Multiset)) : Bool :=
  parts.all fun q => analysis E P q.1 q.2 fun i => ((composition s p parts).bounds i).add (s.recv p i)

/-- Lines 986-995 of ground_state_space.hpp: the composition is added to its multiset. -/
def addComposition (m : Multiset) (x : Composition) : List ChargeState → List ChargeState
  | [] => [⟨m, [x]⟩]
  | y :: rest => if y.ms = m then ⟨m, y.comps ++ [x]⟩ :: rest else y :: addComposition m x rest

/-- `construct_merged_charge_state_space`, ground_state_space.hpp:976-1026. -/
def mergedSpace (E : Env) (P : Params) (s : State) (p : Cluster) : List ChargeState :=
  ((combinations s p.children).filter (verify E P s p)).foldl
    (fun acc parts => addComposition (sumMs parts) (composition s p parts) acc) []

/-- All compositions of a charge space with their multisets. -/
def allComps (sp : List ChargeState) : List (Multiset × Composition) := sp.flatMap fun x => x.comps.map fun y => (x.ms, y)

/-- `merge_pot_projection_bounds` for both bounds, ground_state_space.hpp:1039-1053, 1081-1082: the projections onto a
SiDB of another cluster. -/
def mergedProjs (s : State) (sp : List ChargeState) (i : Nat) : List Proj :=
  ordered (((allComps sp).map fun x => ⟨(s.partsBound x.2.parts i).lo, sumMs x.2.parts⟩) ++
    (allComps sp).map fun x => ⟨(s.partsBound x.2.parts i).up, sumMs x.2.parts⟩)

/-- `take_meet_of_potential_bounds<LOWER>` over the compositions, sidb_cluster_hierarchy.hpp:304-336,
ground_state_space.hpp:1102-1111; zero instead of an infinite value if there is none. -/
def meetLo : List Rat → Rat
  | [] => 0
  | [x] => x
  | x :: rest => min x (meetLo rest)

/-- The same for the upper bound. -/
def meetUp : List Rat → Rat
  | [] => 0
  | [x] => x
  | x :: rest => max x (meetUp rest)

/-- `compute_meets_for_internal_pot_bounds`, ground_state_space.hpp:1096-1117. -/
def internalProjs (sp : List ChargeState) (i : Nat) : List Proj :=
  ordered (sp.flatMap fun x =>
    [⟨meetLo (x.comps.map fun y => (y.bounds i).lo), x.ms⟩, ⟨meetUp (x.comps.map fun y => (y.bounds i).up), x.ms⟩])

/-- `compute_external_pot_bounds_for_saved_compositions`, ground_state_space.hpp:848-876, for one child. -/
def saveComps (s : State) (c : Cluster) : List ChargeState :=
  (s.space c).map fun x => { x with comps := x.comps.map fun y =>
    { y with bounds := fun i => if i ∈ c.sidbs then y.bounds i else (y.bounds i).add (s.partsBound y.parts i) } }

/-- The current bounds of a cluster on the potential it projects onto a SiDB, `get_projection_bound`,
ground_state_space.hpp:321-326. -/
def State.range (s : State) (c : Cluster) (i : Nat) : Bounds := ⟨lowest (s.projs c i), highest (s.projs c i)⟩

/-- `derive_children_received_bounds_without_siblings`, ground_state_space.hpp:885-918. -/
def derivedRecv (s : State) (p : Cluster) (i : Nat) : Bounds :=
  match p.children.find? fun c => i ∈ c.sidbs with
  | none => ⟨0, 0⟩
  | some c => (s.recv c i).sub (.sum ((p.children.filter fun o => o ≠ c).map fun o => s.range o i))

/-- Lines 1140-1149 of ground_state_space.hpp: the children leave the clustering, their bounds are written
(`write_children_pot_bounds_to_complete_store`, 813-836) and the parent receives what its children received. -/
def leaveChildren (s : State) (p : Cluster) : State where
  clustering := s.clustering.filter fun c => c ∉ p.children
  space := fun c => if c ∈ p.children then saveComps s c else s.space c
  projs := s.projs
  recv := fun c i => if c = p ∧ i ∈ p.sidbs then derivedRecv s p i else s.recv c i
  complete := fun c m i => if c ∈ p.children then s.bound c m i else s.complete c m i

/-- Lines 1159-1163 of ground_state_space.hpp for the charge space `sp` of the parent: `construct_merged_potential_projections`
(1072-1085, 1055-1063), the internal bounds, and the parent enters the clustering. -/
def enterParent (P : Params) (s : State) (p : Cluster) (sp : List ChargeState) : State where
  clustering := P.reorder (p :: s.clustering)
  space := fun c => if c = p then P.reorderStates sp else s.space c
  projs := fun c i =>
    if c = p then (if i ∈ p.sidbs then internalProjs sp i else mergedProjs s sp i) else s.projs c i
  recv := fun c i =>
    if c ∈ s.clustering ∧ i ∈ c.sidbs then
      (s.recv c i).add (Bounds.sub ⟨lowest (mergedProjs s sp i), highest (mergedProjs s sp i)⟩
        (.sum (p.children.map fun o => s.range o i)))
    else s.recv c i
  complete := s.complete

/-- The parent with the fewest SiDBs, ground_state_space.hpp:1134-1138: the first of them. -/
def smallest : List Cluster → Option Cluster
  | [] => none
  | p :: rest => match smallest rest with
    | none => some p
    | some q => if q.size < p.size then some q else some p

/-- `move_up_hierarchy` and the loop of `run`, ground_state_space.hpp:148-169, 1126-1169: after a merge the other
charge spaces are updated once; if that changed something, all of them until nothing changes (154-159). `none` if an
end is dereferenced or the bound on the number of iterations is reached. -/
def mergeLoop (E : Env) (P : Params) (top : Cluster) : Nat → State → Option State
  | 0, _ => none
  | k + 1, s =>
    if s.clustering = [top] then some s
    else
      match smallest (s.clustering.filterMap top.parent?) with
      | none => none
      | some p =>
        let s1 := leaveChildren s p
        let sp := mergedSpace E P s1 p
        if sp.isEmpty then some s1
        else
          (updateSpaces E P (some p) (enterParent P s1 p sp)).bind fun r =>
            if r.2 then mergeLoop E P top k r.1
            else (fixpoint E P (r.1.total + 1) r.1).bind fun s' => mergeLoop E P top k s'

/-- `ground_state_space`, ground_state_space.hpp:148-169, 1245-1260, for a layout with SiDBs. -/
def groundStateSpace (E : Env) (P : Params) (top : Cluster) : Option State :=
  let s := initial E P top
  (fixpoint E P (s.total + 1) s).bind fun s' => mergeLoop E P top (top.count + 1) s'

/-! ## ClusterComplete -/

/-- `sidb_clustering_state`, sidb_cluster_hierarchy.hpp:505-584. -/
structure Clustering where
  parts : List (Cluster × Multiset)
  bounds : Nat → Bounds

/-- One iteration of the inner loop of `meets_population_stability_criterion`, clustercomplete.hpp:363-383. -/
def countWitness (E : Env) (b : Bounds) (k : Nat × Nat × Nat) : Nat × Nat × Nat :=
  (if k.1 ≠ 0 ∧ !failNeg E b.lo then k.1 - 1 else k.1,
   if k.2.1 ≠ 0 ∧ !failPos E b.up then k.2.1 - 1 else k.2.1,
   if k.2.2 ≠ 0 ∧ !ubFailNeu E b.up ∧ !lbFailNeu E b.lo then k.2.2 - 1 else k.2.2)

/-- `meets_population_stability_criterion`, clustercomplete.hpp:353-393. -/
def meetsCriterion (E : Env) (x : Clustering) : Bool :=
  x.parts.all fun q => decide
    (q.1.sidbs.foldl (fun k i => countWitness E (x.bounds i) k)
      (q.2.neg, q.2.pos, q.1.size - q.2.neg - q.2.pos) = (0, 0, 0))

/-- `find_cluster_of_maximum_size`, clustercomplete.hpp:453-469: the first index. -/
def largest : List (Cluster × Multiset) → Nat
  | [] => 0
  | q :: rest =>
    if rest.any fun r => q.1.size < r.1.size then largest rest + 1 else 0

/-- `take_parent_out`, clustercomplete.hpp:479-495: the last projector state takes its place. -/
def takeOut (s : State) (x : Clustering) (k : Nat) (q : Cluster × Multiset) : Clustering where
  parts := (match x.parts.getLast? with
    | none => x.parts
    | some l => x.parts.set k l).dropLast
  bounds := fun i => (x.bounds i).sub (s.complete q.1 q.2 i)

/-- `add_composition`, clustercomplete.hpp:526-536. -/
def addParts (x : Clustering) (y : Composition) : Clustering where
  parts := x.parts ++ y.parts
  bounds := fun i => (x.bounds i).add (y.bounds i)

/-- The surface of `add_if_configuration_stability_is_met`, clustercomplete.hpp:404-420. -/
def surface (E : Env) (x : Clustering) : Cds where
  charge := fun i => match x.parts.find? fun q => q.1 = .leaf i with
    | some q => q.2.charge
    | none => .neg
  intPot := fun i => -(x.bounds i).lo - E.ext i
  valid := true
  index := 0
  base := 0
  maxIndex := 0

/-- `get_projector_state_compositions`, sidb_cluster_hierarchy.hpp:1157-1161. -/
def compsOf (s : State) (q : Cluster × Multiset) : List Composition :=
  match (s.space q.1).find? fun x => x.ms = q.2 with
  | some x => x.comps
  | none => []

/-- `add_physically_valid_charge_configurations`, clustercomplete.hpp:577-613, with a bound on the depth: the charge
distributions that are added. The code restores the clustering state after each composition (607-612); here it is
passed by value. -/
def unfold (E : Env) (s : State) : Nat → Clustering → List (List Charge)
  | 0, _ => []
  | k + 1, x =>
    if !meetsCriterion E x then []
    else if x.parts.length = E.n then
      if configurationStable E (surface E x) then [(surface E x).charges E.n] else []
    else
      match x.parts[largest x.parts]? with
      | none => []
      | some q => (compsOf s q).flatMap fun y => unfold E s k (addParts (takeOut s x (largest x.parts) q) y)

/-- `collect_physically_valid_charge_distributions_single_threaded`, clustercomplete.hpp:623-637. -/
def collect (E : Env) (s : State) (top : Cluster) : List (List Charge) :=
  (allComps (s.space top)).flatMap fun x => unfold E s top.count (addParts ⟨[], fun _ => ⟨0, 0⟩⟩ x.2)

/-- `clustercomplete` with one thread, clustercomplete.hpp:132-218: the charge distributions of the result. -/
def clusterComplete (E : Env) (P : Params) (top : Cluster) : Option (List (List Charge)) :=
  (groundStateSpace E P top).map fun s => collect E s top

end Verif.Sidb.Gss
