import Verif.Clocking.Model
import Mathlib.Order.Nat

/-!
# Model of `algorithms/path_finding/a_star.hpp`, `enumerate_all_paths.hpp` and `utils/stl_utils.hpp`

The search algorithms are modelled over an arbitrary type `V` of coordinates; the part that depends on
the layout (neighbourhood, layers, obstructions) is the successor list `Problem.succs`, which
`RLayout.succs` below computes for the layouts of the library.
`Path` is a list of coordinates. A loop that might not terminate, or a `map::at` on a missing key,
is modelled by a fuel argument and the result `none`.
-/
namespace Verif.Paths

open Verif.Layouts Verif.Clocking

/-! ## The layout side -/

/-- What the path-finding algorithms ask of a layout: the underlying coordinate layout, its clocking
scheme if it is a clocked layout (`is_clocked_layout_v`), and the answers of the obstruction interface
(obstruction_layout.hpp:134-176) and of `is_crossable_wire` (routing_utils.hpp:150-185), which are
arbitrary here. Layout types without an obstruction interface answer `false`. -/
structure RLayout where
  tp : Topo
  m : Dim
  scheme : Option Scheme
  obstructed : Coord → Bool
  obstructedConn : Coord → Coord → Bool
  crossable : Coord → Coord → Bool

/-- The coordinates visited by `foreach_outgoing_clocked_zone` / `foreach_adjacent_coordinate`,
a_star.hpp:273-282, enumerate_all_paths.hpp:189-198. -/
def RLayout.neighbours (l : RLayout) (c : Coord) : List Coord :=
  match l.scheme with
  | some s => outgoingClockedZones l.tp l.m s c
  | none => l.tp.adjacent l.m c

/-- First part of `explore_successor`, a_star.hpp:194-236: the coordinate that is actually entered when
stepping from `cur` towards the neighbour `s`; `none` models the early `return`s. -/
def RLayout.resolve (l : RLayout) (crossings : Bool) (target cur s : Coord) : Option Coord :=
  let s := Cart.below s
  let entered : Option Coord :=
    if l.obstructed s && s != target then
      if crossings && (l.crossable cur s || Cart.above l.m s == target) then
        let a := Cart.above l.m s
        if a != s && (!l.obstructed a || a == target) then some a else none
      else none
    else some s
  match entered with
  | none => none
  | some s => if l.obstructedConn cur s then none else some s

/-- The coordinates that one call of `expand(current)` explores, a_star.hpp:192-236, in order. -/
def RLayout.succs (l : RLayout) (crossings : Bool) (target cur : Coord) : List Coord :=
  (l.neighbours cur).filterMap (l.resolve crossings target cur)

/-- First part of `explore_successor`, enumerate_all_paths.hpp:136-177. -/
def RLayout.resolveEnum (l : RLayout) (crossings : Bool) (target cur s : Coord) : Option Coord :=
  let s := Cart.below s
  let entered : Option Coord :=
    if l.obstructed s && s != target then
      if crossings && l.crossable cur s then
        let a := Cart.above l.m s
        if a != s && a != target && !l.obstructed a then some a else none
      else none
    else some s
  match entered with
  | none => none
  | some s => if l.obstructedConn cur s then none else some s

/-- The coordinates explored from `cur` by the path enumeration, enumerate_all_paths.hpp:136-198. -/
def RLayout.succsEnum (l : RLayout) (crossings : Bool) (target cur : Coord) : List Coord :=
  (l.neighbours cur).filterMap (l.resolveEnum crossings target cur)

/-! ## A* -/

section AStar

variable {V K : Type} [DecidableEq V]

/-- `std::priority_queue<coordinate_f, std::vector<coordinate_f>, std::greater<>>`, a_star.hpp:157-158,
stl_utils.hpp:63-126, as operations on the underlying vector; `top()` is `front()`. `update l v f` is
the effect of `it->f = f` on the entry of `v`, a_star.hpp:264. -/
structure Queue (V K : Type) where
  push : List (V × K) → V × K → List (V × K)
  pop : List (V × K) → List (V × K)
  update : List (V × K) → V → K → List (V × K)

/-- The arguments of `a_star`, a_star.hpp:400-406; `succs` stands for the layout and the parameters,
`dist` for the distance functor applied to the target. -/
structure Problem (V K : Type) where
  succs : V → List V
  cost : V → V → K
  dist : V → K
  source : V
  target : V

/-- The data members of `a_star_impl`, a_star.hpp:162-174. -/
structure St (V K : Type) where
  openList : List (V × K)
  closed : List V
  g : V → Option K
  cameFrom : V → Option V

variable [LinearOrder K] [Add K] [Zero K]

/-- The constructor, a_star.hpp:46-55. -/
def St.init (q : Queue V K) (P : Problem V K) : St V K :=
  { openList := q.push [] (P.source, 0), closed := [], g := fun _ => none, cameFrom := fun _ => none }

/-- `g`, a_star.hpp:300-308. -/
def St.gVal (st : St V K) (c : V) : K := (st.g c).getD 0

/-- `it->f = f` for the first entry found by `open_list.find`, a_star.hpp:247, 264; stl_utils.hpp:101-104. -/
def setFirst (v : V) (f : K) : List (V × K) → List (V × K)
  | [] => []
  | e :: l => if e.1 = v then (v, f) :: l else e :: setFirst v f l

/-- Second part of `explore_successor`, a_star.hpp:238-271. -/
def St.explore (q : Queue V K) (P : Problem V K) (cur : V) (st : St V K) (v : V) : St V K :=
  if v ∈ st.closed then st
  else
    let tentative := st.gVal cur + P.cost cur v
    let found := st.openList.any (fun e => e.1 == v)
    if found && decide (st.gVal v ≤ tentative) then st
    else
      let f := tentative + P.dist v
      { st with
        cameFrom := fun w => if w = v then some cur else st.cameFrom w
        g := fun w => if w = v then some tentative else st.g w
        openList := if found then q.update st.openList v f else q.push st.openList (v, f) }

/-- `expand`, a_star.hpp:192-283. -/
def St.expand (q : Queue V K) (P : Problem V K) (cur : V) (st : St V K) : St V K :=
  (P.succs cur).foldl (St.explore q P cur) st

/-- The loop of `reconstruct_path`, a_star.hpp:341-344, collecting the coordinates behind `acc` in
reverse order. -/
def walkBack (cameFrom : V → Option V) (source : V) : Nat → V → List V → Option (List V)
  | 0, _, _ => none
  | fuel + 1, cur, acc =>
    if cur = source then some (source :: acc)
    else match cameFrom cur with
      | none => none
      | some p => walkBack cameFrom source fuel p (cur :: acc)

/-- The main loop of `run`, a_star.hpp:70-87; the empty path means that no path was found. `n` bounds
the loop of `reconstruct_path`. -/
def loop (q : Queue V K) (P : Problem V K) (n : Nat) : Nat → St V K → Option (List V)
  | 0, _ => none
  | fuel + 1, st =>
    match st.openList with
    | [] => some []
    | (cur, _) :: _ =>
      let st1 := { st with openList := q.pop st.openList }
      if cur = P.target then walkBack st1.cameFrom P.source n P.target []
      else loop q P n fuel ({ st1 with closed := cur :: st1.closed }.expand q P cur)

/-- `a_star`, a_star.hpp:400-406; `fuel` bounds the number of iterations of either loop. -/
def aStar (q : Queue V K) (P : Problem V K) (fuel : Nat) : Option (List V) :=
  loop q P fuel fuel (St.init q P)

end AStar

/-- `a_star` on a layout. -/
def aStarLayout {K : Type} [LinearOrder K] [Add K] [Zero K] (q : Queue Coord K) (l : RLayout)
    (crossings : Bool) (cost : Coord → Coord → K) (dist : Coord → Coord → K) (source target : Coord)
    (fuel : Nat) : Option (List Coord) :=
  aStar q ⟨l.succs crossings target, cost, fun v => dist v target, source, target⟩ fuel

/-! ## The heap of libstdc++

`bits/stl_heap.h` (not part of the repository): the algorithms behind `std::priority_queue`. Moving a
hole through the array is written as a sequence of swaps, which leaves the same array. -/

section Heap

variable {E : Type} (gt : E → E → Bool)

/-- Exchange two positions. -/
def swapAt (l : List E) (i j : Nat) : List E :=
  match l[i]?, l[j]? with
  | some a, some b => (l.set i b).set j a
  | _, _ => l

/-- `std::__push_heap`: move the element at `i` up while its parent compares greater. -/
def siftUp : Nat → List E → Nat → List E
  | 0, l, _ => l
  | fuel + 1, l, i =>
    if i = 0 then l
    else match l[(i - 1) / 2]?, l[i]? with
      | some p, some v => if gt p v then siftUp fuel (swapAt l i ((i - 1) / 2)) ((i - 1) / 2) else l
      | _, _ => l

/-- First half of `std::__adjust_heap`: move the element at `i` down to a leaf along the smaller
children (the right one if neither is greater); returns the array and the position of the leaf. -/
def siftDown : Nat → List E → Nat → List E × Nat
  | 0, l, i => (l, i)
  | fuel + 1, l, i =>
    match l[2 * i + 1]?, l[2 * i + 2]? with
    | some a, some b =>
      let c := if gt b a then 2 * i + 1 else 2 * i + 2
      siftDown fuel (swapAt l i c) c
    | some _, none => (swapAt l i (2 * i + 1), 2 * i + 1)
    | _, _ => (l, i)

/-- `std::priority_queue::push`: `push_back` and `std::push_heap`. -/
def heapPush (l : List E) (e : E) : List E := siftUp gt (l.length + 1) (l ++ [e]) l.length

/-- `std::priority_queue::pop`: `std::pop_heap` (the last element replaces the first, sinks to a leaf
and rises again) and `pop_back`. -/
def heapPop : List E → List E
  | [] => []
  | _ :: rest =>
    match rest.getLast? with
    | none => []
    | some v =>
      let d := siftDown gt (rest.length + 1) (v :: rest.dropLast) 0
      siftUp gt (rest.length + 1) d.1 d.2

end Heap

/-- The queue of libstdc++ with the comparison of `coordinate_f`, a_star.hpp:119-158; the in-place
update does not restore the heap order. -/
def stdQueue (V K : Type) [DecidableEq V] [LinearOrder K] : Queue V K where
  push := heapPush (fun a b => decide (a.2 > b.2))
  pop := heapPop (fun a b => decide (a.2 > b.2))
  update := fun l v f => setFirst v f l

/-! ## Path enumeration -/

section Enum

variable {V : Type} [DecidableEq V]

/-- The data members `visited` and `collection`, enumerate_all_paths.hpp:76-80. -/
structure ESt (V : Type) where
  visited : List V
  collection : List (List V)

/-- `recursively_enumerate_all_paths`, enumerate_all_paths.hpp:123-204. The argument `p` is passed by
value. Fuel bounds the recursion depth. -/
def enumRec (succs : V → List V) (tgt : V) : Nat → V → List V → ESt V → Option (ESt V)
  | 0, _, _, _ => none
  | fuel + 1, src, p, st =>
    let st := { st with visited := src :: st.visited }
    let p := p ++ [src]
    let res : Option (ESt V) :=
      if src = tgt then some { st with collection := st.collection ++ [p] }
      else (succs src).foldl (fun (acc : Option (ESt V)) v =>
        acc.bind fun st => if v ∈ st.visited then some st else enumRec succs tgt fuel v p st) (some st)
    res.map fun st => { st with visited := st.visited.filter (fun w => w ≠ src) }

/-- `enumerate_all_paths`, enumerate_all_paths.hpp:240-247. -/
def enumerateAllPaths (succs : V → List V) (source target : V) (fuel : Nat) : Option (List (List V)) :=
  (enumRec succs target fuel source [] { visited := [], collection := [] }).map ESt.collection

end Enum

/-- `enumerate_all_paths` on a layout. -/
def enumerateLayout (l : RLayout) (crossings : Bool) (source target : Coord) (fuel : Nat) :
    Option (List (List Coord)) :=
  enumerateAllPaths (l.succsEnum crossings target) source target fuel

/-! ## Distances -/

/-- `manhattan_distance`, distance.hpp:34-39, on the `x` and `y` components as `int64_t`. -/
def manhattan (a b : Coord) : Nat := ((a.x : Int) - b.x).natAbs + ((a.y : Int) - b.y).natAbs

/-- `squared_euclidean_distance`, distance.hpp:79-86 (exact in `double` below `2^53`). -/
def squaredEuclidean (a b : Coord) : Nat :=
  (((a.x : Int) - b.x) * ((a.x : Int) - b.x) + ((a.y : Int) - b.y) * ((a.y : Int) - b.y)).toNat

/-- `twoddwave_distance`, distance.hpp:107-112. -/
def twoddwaveDistance (a b : Coord) : Nat :=
  if a.x ≤ b.x ∧ a.y ≤ b.y then manhattan a b else 4294967295

/-- `chebyshev_distance`, distance.hpp:130-135. -/
def chebyshev (a b : Coord) : Nat := max ((a.x : Int) - b.x).natAbs ((a.y : Int) - b.y).natAbs

/-- `unit_cost`, cost.hpp:29-33. -/
def unitCost (_ _ : Coord) : Nat := 1

/-- `a_star_distance`, a_star.hpp:425-443 for `uint64_t`: the default Manhattan heuristic, unit costs and
no crossings. -/
def aStarDistance (q : Queue Coord Nat) (l : RLayout) (source target : Coord) (fuel : Nat) : Option Nat :=
  (aStarLayout q l false unitCost manhattan source target fuel).map
    fun p => if p.length = 0 then 18446744073709551615 else p.length - 1

end Verif.Paths
