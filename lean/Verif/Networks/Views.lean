/-!
# Model of the views on networks

`networks/views/{static_depth_view,bfs_topo_view,mutable_rank_view}.hpp`. A network is given by its interface: numbered nodes, of which
some are constant or combinational inputs, fanins and outputs with complement flags. Register inputs are not modelled.
-/
namespace Verif.Views

/-- The interface of a logic network that the views use. A fanin or an output is a node and whether it is complemented. -/
structure Net where
  size : Nat
  /-- `is_constant` -/
  isConst : Nat → Bool
  /-- `is_ci` and `is_pi` -/
  isCi : Nat → Bool
  fanins : Nat → List (Nat × Bool)
  pos : List (Nat × Bool)

/-- Parameters: `depth_view_params`, static_depth_view.hpp:25-35, and the cost function. -/
structure Params where
  countComplements : Bool := false
  piCost : Bool := false
  cost : Nat → Nat := fun _ => 1

/-- What a complement costs, static_depth_view.hpp:363-366. -/
def Params.compl (ps : Params) (b : Bool) : Nat := if ps.countComplements && b then 1 else 0

/-! ## Depth view -/

/-- Visited nodes and the map `levels`; `none` means that there is no entry. -/
structure Lev where
  visited : List Nat
  levels : Nat → Option Nat

/-- `levels[n] = l`, static_depth_view.hpp:340-371. -/
def Lev.set (s : Lev) (n l : Nat) : Lev := { s with levels := fun m => if m = n then some l else s.levels m }

section
variable (N : Net) (ps : Params)

/-- `compute_levels(n)`, static_depth_view.hpp:340-371. The first argument bounds the depth of the recursion; `none` if it is exceeded. -/
def computeLevel : Nat → Lev → Nat → Option (Nat × Lev)
  | 0, _, _ => none
  | k + 1, s, n =>
    if n ∈ s.visited then some ((s.levels n).getD 0, s)
    else
      let s : Lev := { s with visited := n :: s.visited }
      if N.isConst n then some (0, s.set n 0)
      else if N.isCi n then
        let l := if ps.piCost then ps.cost n - 1 else 0
        some (l, s.set n l)
      else
        match (N.fanins n).foldl (fun acc f => acc.bind fun ls => (computeLevel k ls.2 f.1).map fun c =>
            (max ls.1 (c.1 + ps.compl f.2), c.2)) (some (0, s)) with
        | none => none
        | some (l, s) => some (l + ps.cost n, s.set n (l + ps.cost n))

/-- The levels and the depth, static_depth_view.hpp:376-402. -/
def computeLevels (fuel : Nat) : Option (Nat × Lev) :=
  N.pos.foldl (fun acc f => acc.bind fun ls => (computeLevel N ps fuel ls.2 f.1).map fun c =>
    (max ls.1 (c.1 + ps.compl f.2), c.2)) (some (0, ⟨[], fun _ => none⟩))

/-- `set_critical_path`, static_depth_view.hpp:431-452; the nodes of the map `crit_path`. An entry that line 446 creates is set to
true by the call that follows it. -/
def setCritical (levels : Nat → Option Nat) : Nat → List Nat → Nat → Option (List Nat)
  | 0, _, _ => none
  | k + 1, crit, n =>
    if !N.isConst n && !(ps.piCost && N.isCi n) then
      (N.fanins n).foldl (fun acc f => acc.bind fun crit =>
        if (levels f.1).getD 0 + (ps.cost n + ps.compl f.2) = (levels n).getD 0 ∧ f.1 ∉ crit then setCritical levels k crit f.1
        else some crit) (some (n :: crit))
    else some (n :: crit)

/-- The critical path, static_depth_view.hpp:404-412. -/
def criticalPath (fuel : Nat) (depth : Nat) (levels : Nat → Option Nat) : Option (List Nat) :=
  N.pos.foldl (fun acc f => acc.bind fun crit =>
    if (levels f.1).getD 0 = depth then setCritical N ps levels fuel crit f.1 else some crit) (some [])

/-- A `static_depth_view`: `depth()`, `level(n)`, which throws where this is `none`, and `is_on_critical_path`. -/
structure DepthView where
  depth : Nat
  level : Nat → Option Nat
  critical : List Nat

/-- `update_levels`, static_depth_view.hpp:294-303. -/
def depthView : Option DepthView :=
  match computeLevels N ps (N.size + 1) with
  | none => none
  | some (d, s) =>
    match criticalPath N ps (N.size + 1) d s.levels with
    | none => none
    | some crit => some ⟨d, s.levels, crit⟩

end

/-! ## Breadth-first order -/

/-- A gate, as visited by `foreach_gate`. -/
def Net.isGate (N : Net) (n : Nat) : Bool := !N.isConst n && !N.isCi n

/-- `foreach_fanout` of `mockturtle::fanout_view` (external library): the gates that read a node, each of them once even if it reads
the node several times. -/
def fanouts (N : Net) (n : Nat) : List Nat := (List.range N.size).filter fun c => N.isGate c && decide (n ∈ (N.fanins c).map Prod.fst)

/-- The variables of `update_bfs_topo`, bfs_topo_view.hpp:187-248. A node is marked as visited exactly when it is appended to
`topo_order`. -/
structure Bfs where
  order : List Nat
  queue : List Nat
  counts : Nat → Nat

/-- The body of the loop over fanouts, bfs_topo_view.hpp:232-246. -/
def Bfs.child (s : Bfs) (c : Nat) : Bfs :=
  if c ∈ s.order then s
  else
    let s := { s with counts := fun m => if m = c then s.counts c - 1 else s.counts m }
    if s.counts c = 0 then { s with order := s.order ++ [c], queue := s.queue ++ [c] } else s

/-- The loop, bfs_topo_view.hpp:227-247. -/
def bfsLoop (N : Net) : Nat → Bfs → Option (List Nat)
  | 0, _ => none
  | k + 1, s =>
    match s.queue with
    | [] => some s.order
    | n :: q => bfsLoop N k ((fanouts N n).foldl Bfs.child { s with queue := q })

/-- The constants, bfs_topo_view.hpp:196-207; both may be the same node. -/
def constNodes (c0 c1 : Nat) : List Nat := if c1 = c0 then [c0] else [c0, c1]

/-- The combinational inputs in the order of their creation. -/
def Net.cis (N : Net) : List Nat := (List.range N.size).filter N.isCi

/-- `topo_order` after `update_bfs_topo`, bfs_topo_view.hpp:187-248; `c0` and `c1` are the nodes of the constants. -/
def bfsOrder (N : Net) (c0 c1 : Nat) : Option (List Nat) :=
  let start := constNodes c0 c1 ++ N.cis.filter fun n => decide (n ∉ constNodes c0 c1)
  bfsLoop N (N.size + 1) ⟨start, start, fun n => (N.fanins n).length⟩

/-- The gates that `foreach_gate` visits, bfs_topo_view.hpp:161-167. -/
def bfsGates (N : Net) (c0 c1 : Nat) (order : List Nat) : List Nat := order.drop (1 + N.cis.length + if c1 ≠ c0 then 1 else 0)

/-! ## Ranks -/

/-- `ranks`, `rank_pos` and `max_rank_width`, mutable_rank_view.hpp:575-583. The levels and the depth are those of the depth view. -/
structure Ranks where
  ranks : List (List Nat)
  pos : Nat → Option Nat
  width : Nat

/-- `at_rank_position`, mutable_rank_view.hpp:321-327. -/
def Ranks.at (R : Ranks) (l i : Nat) : Option Nat := R.ranks[l]?.bind (·[i]?)

/-- `insert_in_rank`, mutable_rank_view.hpp:590-596 and 622-629; `none` if there is no such rank. -/
def Ranks.insert (R : Ranks) (l n : Nat) : Option Ranks :=
  match R.ranks[l]? with
  | none => none
  | some rank => some ⟨R.ranks.set l (rank ++ [n]), fun m => if m = n then some rank.length else R.pos m, max R.width (rank.length + 1)⟩

/-- `init_ranks`, mutable_rank_view.hpp:604-614. A node without a level ends the program: `level` throws and the method is `noexcept`. -/
def initRanks (N : Net) (V : DepthView) (R : Ranks) : Option Ranks :=
  (List.range N.size).foldl (fun acc n => acc.bind fun R => if N.isConst n then some R else (V.level n).bind fun l => R.insert l n) (some R)

/-- The constructor, mutable_rank_view.hpp:106-121. -/
def rankView (N : Net) : Option (DepthView × Ranks) :=
  (depthView N {}).bind fun V => (initRanks N V ⟨List.replicate (V.depth + 1) [], fun _ => none, 0⟩).map fun R => (V, R)

/-- `init_ranks` with given ranks and its constructor, mutable_rank_view.hpp:129-144, 636-649. -/
def rankViewOf (N : Net) (given : List (List Nat)) : Option (DepthView × Ranks) :=
  (depthView N {}).bind fun V => ((given.zipIdx.flatMap fun x => x.1.map fun n => (n, x.2)).foldl
    (fun acc x => acc.bind fun R => if N.isConst x.1 then some R else R.insert x.2 x.1)
    (some ⟨List.replicate (V.depth + 1) [], fun _ => none, 0⟩)).map fun R => (V, R)

/-- The loop that assigns positions, mutable_rank_view.hpp:273, 385. -/
def assign (pos : Nat → Option Nat) (rank : List Nat) : Nat → Option Nat :=
  rank.zipIdx.foldl (fun pos x m => if m = x.1 then some x.2 else pos m) pos

/-- `set_ranks`, mutable_rank_view.hpp:259-274; `none` if the assertion fails. -/
def Ranks.set (R : Ranks) (l : Nat) (nodes : List Nat) : Option Ranks :=
  match R.ranks[l]? with
  | none => none
  | some rank => if rank.isPerm nodes then some { R with ranks := R.ranks.set l nodes, pos := assign R.pos nodes } else none

/-- `set_all_ranks`, mutable_rank_view.hpp:281-289. -/
def Ranks.setAll (R : Ranks) (new : List (List Nat)) : Option Ranks :=
  if new.length = R.ranks.length then new.zipIdx.foldl (fun acc x => acc.bind fun R => R.set x.2 x.1) (some R) else none

/-- `swap`, mutable_rank_view.hpp:358-367; `none` if a level is missing or the assertion fails. -/
def Ranks.swap (V : DepthView) (R : Ranks) (a b : Nat) : Option Ranks :=
  match V.level a, V.level b with
  | some l, some l' =>
    if l = l' then
      let i := (R.pos a).getD 0
      let j := (R.pos b).getD 0
      match R.ranks[l]? with
      | none => none
      | some rank =>
        match rank[i]?, rank[j]? with
        | some x, some y => some { R with ranks := R.ranks.set l ((rank.set i y).set j x), pos := fun m => if m = b then some i else if m = a then some j else R.pos m }
        | _, _ => none
    else none
  | _, _ => none

/-- `sort_rank`, mutable_rank_view.hpp:378-386. `std::ranges::sort` is a stable sort here. -/
def Ranks.sort (R : Ranks) (l : Nat) (cmp : Nat → Nat → Bool) : Option Ranks :=
  match R.ranks[l]? with
  | none => none
  | some rank =>
    let rank := rank.mergeSort fun a b => !cmp b a
    some { R with ranks := R.ranks.set l rank, pos := assign R.pos rank }

/-- `update_ranks`, mutable_rank_view.hpp:542-550, for what the network is now. -/
def Ranks.update (N : Net) (R : Ranks) : Option (DepthView × Ranks) :=
  (depthView N {}).bind fun V => (initRanks N V ⟨List.replicate (V.depth + 1) [], fun _ => none, R.width⟩).map fun R => (V, R)

/-- The methods that change ranks. -/
inductive ROp where
  | set (l : Nat) (nodes : List Nat)
  | setAll (new : List (List Nat))
  | swap (a b : Nat)
  | sort (l : Nat) (cmp : Nat → Nat → Bool)
  | rearrangePis

/-- A call; `rearrange_pis` is mutable_rank_view.hpp:500-508. -/
def Ranks.step (N : Net) (V : DepthView) (R : Ranks) : ROp → Option Ranks
  | .set l nodes => R.set l nodes
  | .setAll new => R.setAll new
  | .swap a b => R.swap V a b
  | .sort l cmp => R.sort l cmp
  | .rearrangePis => R.set 0 N.cis

/-- A history of calls. -/
def Ranks.run (N : Net) (V : DepthView) (R : Ranks) (ops : List ROp) : Option Ranks := ops.foldl (fun acc op => acc.bind fun R => R.step N V op) (some R)

/-- `foreach_node`, mutable_rank_view.hpp:414-420. -/
def Ranks.nodes (R : Ranks) : List Nat := R.ranks.flatten

/-- What a loop visits whose function asks to stop by returning false (mockturtle's `foreach_element`). -/
def visitUntil (cont : Nat → Bool) : List Nat → List Nat
  | [] => []
  | n :: l => n :: (if cont n then visitUntil cont l else [])

/-- `foreach_node` with such a function, mutable_rank_view.hpp:414-420: the answer stops the loop over a rank only. -/
def Ranks.visited (cont : Nat → Bool) (R : Ranks) : List Nat := R.ranks.flatMap (visitUntil cont)

/-- `foreach_gate`, mutable_rank_view.hpp:430-455. -/
def Ranks.gates (N : Net) (R : Ranks) : List Nat := R.ranks.flatten.filter fun n => !N.isCi n

/-- `foreach_pi` and `foreach_ci`, mutable_rank_view.hpp:466-474, 519-527. Positions exist for all of them where this is used. -/
def Ranks.pis (N : Net) (R : Ranks) : List Nat := N.cis.mergeSort fun a b => decide ((R.pos a).getD 0 ≤ (R.pos b).getD 0)

/-- `check_validity`, mutable_rank_view.hpp:229-251; missing levels and positions count as wrong here, while they end the program there. -/
def Ranks.check (V : DepthView) (R : Ranks) : Bool :=
  R.ranks.zipIdx.all fun x => x.1.zipIdx.all fun y => decide (V.level y.1 = some x.2) && decide (R.pos y.1 = some y.2)

end Verif.Views
