import Verif.Networks.Views

/-!
# Model of `algorithms/graph/mincross.hpp`

The network, its levels and its ranks are those of `Views`. `fanouts` lists the fanouts by their numbers, while
`mockturtle::fanout_view` lists them in the order of the ranks; all counts below are independent of that order. Numbers of
crossings are natural numbers (64-bit and 32-bit numbers in the code). The outcome `none` stands for a failed assertion, an
exception that leaves a `noexcept` function or an access beyond the end of a vector.
-/
namespace Verif.Mincross

open Verif.Views

/-- `mincross_params`, mincross.hpp:25-67. `converging cur best` is the comparison of floating-point numbers in mincross.hpp:167. -/
structure CrossParams where
  fixedPis : Bool := false
  optimize : Bool := true
  maxIter : Nat := 24
  minQuit : Nat := 8
  converging : Nat → Nat → Bool := fun cur best => decide (1000 * cur < 995 * best)
  initRefineMaxIters : Nat := 4

/-- `median_sorting`, mincross.hpp:126-130. -/
inductive Order
  | ascending
  | descending
deriving DecidableEq

/-- `std::ranges::sort` with a comparison; its result on incomparable elements is not specified. -/
abbrev SortFn := (Nat → Nat → Bool) → List Nat → List Nat

/-- The positions of nodes, as collected by the calls of `rank_position`. -/
def positions (R : Ranks) (ns : List Nat) : Option (List Nat) := ns.mapM R.pos

/-- The sources of a node that are not constant, mincross.hpp:471-491. -/
def sources (N : Net) (n : Nat) : List Nat := ((N.fanins n).map Prod.fst).filter (fun s => !N.isConst s)

/-- `count_crossings`, mincross.hpp:525-539. -/
def countCrossings (a b : List Nat) : Nat :=
  a.foldl (fun c x => b.foldl (fun c y => if x > y then c + 1 else c) c) 0

/-- `in_cross`, mincross.hpp:464-494. -/
def inCross (N : Net) (R : Ranks) (left right : Nat) : Option Nat :=
  (positions R (sources N left)).bind fun a => (positions R (sources N right)).map fun b => countCrossings a b

/-- `out_cross`, mincross.hpp:503-516. -/
def outCross (N : Net) (R : Ranks) (left right : Nat) : Option Nat :=
  (positions R (fanouts N left)).bind fun a => (positions R (fanouts N right)).map fun b => countCrossings a b

/-! ## Counting -/

/-- `total_crossings`, `penalty_array` and `max_pos` of `ncross`, mincross.hpp:546-551. -/
structure Cnt where
  total : Nat
  penalty : List Nat
  maxPos : Nat

/-- One node of a rank with the positions of its fanouts, mincross.hpp:567-579. -/
def Cnt.node (s : Cnt) (targets : List Nat) : Option Cnt :=
  let total := targets.foldl (fun t p => (List.range' (p + 1) (s.maxPos - p)).foldl (fun t k => t + s.penalty.getD k 0) t) s.total
  targets.foldlM (fun (s : Cnt) p =>
    if p < s.penalty.length then some { s with maxPos := max s.maxPos p, penalty := s.penalty.set p (s.penalty.getD p 0 + 1) } else none)
    { s with total := total }

/-- One rank, mincross.hpp:550-580. -/
def crossRank (N : Net) (R : Ranks) (total r : Nat) : Option Nat :=
  R.ranks[r]?.bind fun rank => R.ranks[r + 1]?.bind fun next =>
    (rank.foldlM (fun (s : Cnt) n => (positions R (fanouts N n)).bind s.node) ⟨total, List.replicate (next.length + 1) 0, 0⟩).map Cnt.total

/-- `ncross`, mincross.hpp:544-582. -/
def ncross (N : Net) (V : DepthView) (R : Ranks) : Option Nat := (List.range V.depth).foldlM (crossRank N R) 0

/-! ## Medians -/

/-- Insertion into a sorted list, see `sortNats`, mincross.hpp:292. -/
def insertSorted (x : Nat) : List Nat → List Nat
  | [] => [x]
  | y :: l => if x ≤ y then x :: y :: l else y :: insertSorted x l

/-- `std::ranges::sort` of positions, mincross.hpp:292; the result is unique. -/
def sortNats (l : List Nat) : List Nat := l.foldr insertSorted []

/-- The median of positions as a fraction, mincross.hpp:286-328; `none` is -1. The floating-point numbers of the code may be
rounded. -/
def medianOf (l : List Nat) : Option (Nat × Nat) :=
  let ps := sortNats l
  let at' := fun i => ps.getD i 0
  let j := ps.length
  if j = 0 then none
  else if j = 1 then some (at' 0, 1)
  else if j = 2 then some (at' 0 + at' 1, 2)
  else if j % 2 = 1 then some (at' (j / 2), 1)
  else
    let rm := j / 2
    let lm := rm - 1
    let lspan := at' lm - at' 0
    let rspan := at' (j - 1) - at' rm
    if lspan = rspan then some (at' lm + at' rm, 2) else some (at' lm * rspan + at' rm * lspan, lspan + rspan)

/-- The neighbours of a node in rank `r1` that `medians` considers, mincross.hpp:258-284. -/
def neighbours (N : Net) (V : DepthView) (r0 r1 n : Nat) : List Nat :=
  if r1 > r0 then (fanouts N n).filter (fun m => decide (V.level m = some r1))
  else (sources N n).filter (fun m => decide (V.level m = some r1))

/-- `medians`, mincross.hpp:248-330. The neighbours have positions where this is used. -/
def medians (N : Net) (V : DepthView) (R : Ranks) (r0 r1 n : Nat) : Option (Nat × Nat) :=
  medianOf ((neighbours N V r0 r1 n).filterMap R.pos)

/-- The comparison of `reorder`, mincross.hpp:347-360. -/
def before (order : Order) (med : Nat → Option (Nat × Nat)) (n1 n2 : Nat) : Bool :=
  match med n1, med n2 with
  | none, _ => false
  | some _, none => true
  | some m1, some m2 => if order = .descending then decide (m1.1 * m2.2 > m2.1 * m1.2) else decide (m1.1 * m2.2 < m2.1 * m1.2)

/-- `medians` and `reorder`, mincross.hpp:219-220, 338-365. -/
def reorder (sort : SortFn) (N : Net) (V : DepthView) (order : Order) (r other : Nat) (R : Ranks) : Option Ranks :=
  R.ranks[r]?.bind fun rank => R.set r (sort (before order (medians N V R r other)) rank)

/-! ## Transpositions -/

/-- The body of the loop in `transpose_step`, mincross.hpp:424-452, for the nodes `v` and `w` of the copy of the rank. -/
def transposePair (N : Net) (V : DepthView) (order : Order) (r : Nat) (s : Ranks × Nat) (v w : Nat) : Option (Ranks × Nat) :=
  (s.1.pos v).bind fun pv => (s.1.pos w).bind fun pw =>
    if pv < pw then
      ((if r > 0 then inCross N s.1 v w else some 0).bind fun i0 =>
      (if r > 0 then inCross N s.1 w v else some 0).bind fun i1 =>
      (if r + 1 < V.depth then outCross N s.1 v w else some 0).bind fun o0 =>
      (if r + 1 < V.depth then outCross N s.1 w v else some 0).bind fun o1 =>
        let c0 := i0 + o0
        let c1 := i1 + o1
        if c1 < c0 ∨ (c0 > 0 ∧ order = .descending ∧ c1 = c0) then (s.1.swap V v w).map fun R => (R, s.2 + (c0 - c1))
        else some s)
    else none

/-- `transpose_step`, mincross.hpp:413-455: the pairs are consecutive nodes of a copy of the rank that was made before the first
swap. -/
def transposeStep (N : Net) (V : DepthView) (order : Order) (r : Nat) (R : Ranks) : Option (Ranks × Nat) :=
  R.ranks[r]?.bind fun rank => (rank.zip rank.tail).foldlM (fun s p => transposePair N V order r s p.1 p.2) (R, 0)

/-- One level in the loop of `transpose`, mincross.hpp:384-395: ranks, candidates and `delta`. -/
def transposeLevel (ps : CrossParams) (N : Net) (V : DepthView) (order : Order) (s : Ranks × List Bool × Nat) (l : Nat) :
    Option (Ranks × List Bool × Nat) :=
  if l = 0 ∧ ps.fixedPis = true then some s
  else if s.2.1.getD l false then
    (transposeStep N V order l s.1).map fun x => (x.1, s.2.1.set l (decide (x.2 > 0)), s.2.2 + x.2)
  else some s

/-- The loop of `transpose`, mincross.hpp:378-403; the number is what is left of `MAX_TRANSPOSE_ITERATIONS`. -/
def transposeLoop (ps : CrossParams) (N : Net) (V : DepthView) (order : Order) : Nat → Ranks → List Bool → Option Ranks
  | 0, R, _ => some R
  | k + 1, R, cand =>
    ((List.range (V.depth + 1)).foldlM (transposeLevel ps N V order) (R, cand, 0)).bind fun x =>
      if x.2.2 < 1 then some x.1 else transposeLoop ps N V order k x.1 x.2.1

/-- `transpose`, mincross.hpp:372-404. -/
def transpose (ps : CrossParams) (N : Net) (V : DepthView) (order : Order) (R : Ranks) : Option Ranks :=
  transposeLoop ps N V order 1000 R (List.replicate (V.depth + 1) true)

/-! ## The search -/

/-- `mincross_step`, mincross.hpp:202-240. -/
def mincrossStep (sort : SortFn) (ps : CrossParams) (N : Net) (V : DepthView) (pass : Nat) (R : Ranks) : Option Ranks :=
  let order := if pass % 4 < 2 then Order.ascending else Order.descending
  (if pass % 2 = 0 then (List.range' 1 V.depth).foldlM (fun R r => reorder sort N V order r (r - 1) R) R
   else (List.range V.depth).reverse.foldlM
     (fun R r => if r = 0 ∧ ps.fixedPis = true then some R else reorder sort N V order r (r + 1) R) R).bind
  fun R => transpose ps N V order R

/-- The variables of `minimize_crossings`, mincross.hpp:137-147. -/
structure Search where
  R : Ranks
  cur : Nat
  best : Nat
  bestRanks : List (List Nat)

/-- The loop over the iterations of a pass, mincross.hpp:149-173; the first number is how many iterations are left. -/
def iterations (sort : SortFn) (ps : CrossParams) (N : Net) (V : DepthView) : Nat → Nat → Nat → Search → Option Search
  | 0, _, _, s => some s
  | k + 1, iter, trying, s =>
    if trying ≥ ps.minQuit ∨ s.cur = 0 then some s
    else
      (mincrossStep sort ps N V iter s.R).bind fun R => (ncross N V R).bind fun cur =>
        if cur ≤ s.best then
          iterations sort ps N V k (iter + 1) (if ps.converging cur s.best then 0 else trying + 1) ⟨R, cur, cur, R.ranks⟩
        else iterations sort ps N V k (iter + 1) (trying + 1) { s with R := R, cur := cur }

/-- The passes, mincross.hpp:144-181. -/
def passes (sort : SortFn) (ps : CrossParams) (N : Net) (V : DepthView) : List Nat → Search → Option Search
  | [], s => some s
  | p :: l, s =>
    (iterations sort ps N V (if p ≤ 1 then min ps.initRefineMaxIters ps.maxIter else ps.maxIter) 0 0 s).bind fun s =>
      (s.R.setAll s.bestRanks).bind fun R => if s.cur = 0 then some { s with R := R } else passes sort ps N V l { s with R := R }

/-- `minimize_crossings`, mincross.hpp:135-195: the ranks of `ntk` and of `fanout_ntk`. -/
def minimize (sort : SortFn) (ps : CrossParams) (N : Net) (V : DepthView) (R : Ranks) : Option (Ranks × Ranks) :=
  (ncross N V R).bind fun c => (passes sort ps N V [0, 1, 2] ⟨R, c, c, R.ranks⟩).bind fun s =>
    (if s.best > 0 then
      (transpose ps N V .ascending s.R).bind fun R => (ncross N V R).map fun cur =>
        if cur < s.best then (R, R.ranks) else (R, s.bestRanks)
     else some (s.R, s.bestRanks)).bind fun x =>
      (R.setAll x.2).bind fun R' => (x.1.setAll x.2).map fun F => (R', F)

/-- `mincross`, mincross.hpp:112-121, 627-645: the ranks of the returned network, and the reported number of crossings. -/
def mincross (sort : SortFn) (ps : CrossParams) (N : Net) (V : DepthView) (R : Ranks) : Option (Ranks × Nat) :=
  (if ps.optimize then minimize sort ps N V R else some (R, R)).bind fun x => (ncross N V x.2).map fun c => (x.1, c)

end Verif.Mincross
