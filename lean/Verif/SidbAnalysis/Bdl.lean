import Mathlib.Order.Defs.LinearOrder

/-!
# Model of the detection of BDL pairs and BDL wires

`algorithms/simulation/sidb/detect_bdl_pairs.hpp` and `detect_bdl_wires.hpp`. Cells are elements of any linearly ordered
type, distances of any linear order. The directions (ports) of wires are not modelled here.
-/
namespace Verif.SidbAnalysis.Bdl

/-- The types of SiDBs, cell_technologies.hpp:707-731, without `EMPTY`. -/
inductive Ty | normal | input | output | logic
deriving DecidableEq, Repr

/-- What the detection asks of a layout. -/
structure Lyt (α : Type) where
  cells : List α
  ty : α → Ty
  pis : List α
  pos : List α

/-- `bdl_pair`, detect_bdl_pairs.hpp:27-66. -/
structure Pair (α : Type) where
  type : Ty
  upper : α
  lower : α
deriving DecidableEq, Repr

variable {α K : Type} [LinearOrder α] [LinearOrder K]

/-- `bdl_pair::operator<`, detect_bdl_pairs.hpp:73-80. -/
def pairLt (p q : Pair α) : Bool :=
  if p.upper ≠ q.upper then decide (p.upper < q.upper) else decide (p.lower < q.lower)

/-- `bdl_pair::operator>`, detect_bdl_pairs.hpp:88-101. -/
def pairGt (p q : Pair α) : Bool := !(pairLt p q || decide (p = q))

/-- `equal_ignore_type`, detect_bdl_pairs.hpp:118-121. -/
def sameDots (p q : Pair α) : Bool := decide (p.upper = q.upper ∧ p.lower = q.lower)

/-- `compute_pairwise_dot_distances`, detect_bdl_pairs.hpp:249-263; the distance is recomputed on demand. -/
def dotPairs : List α → List (α × α)
  | [] => []
  | a :: l => l.map (fun b => (a, b)) ++ dotPairs l

/-- The loop over the sorted pairs of dots, detect_bdl_pairs.hpp:287-324. -/
def pairLoop (dist : α → α → K) (lo hi : K) : List (α × α) → List α → List (α × α)
  | [], _ => []
  | (a, b) :: l, paired =>
    if dist a b < lo then pairLoop dist lo hi l paired
    else if hi < dist a b then []
    else if a ∈ paired ∨ b ∈ paired then pairLoop dist lo hi l paired
    else (a, b) :: pairLoop dist lo hi l (a :: b :: paired)

/-- The pair for two dots, detect_bdl_pairs.hpp:309-319. -/
def mkPair (ty : α → Ty) (e : α × α) : Pair α := if e.2 < e.1 then ⟨ty e.1, e.2, e.1⟩ else ⟨ty e.1, e.1, e.2⟩

/-- Insertion into a sorted vector. -/
def insertPair (p : Pair α) : List (Pair α) → List (Pair α)
  | [] => [p]
  | q :: l => if pairLt q p then q :: insertPair p l else p :: q :: l

/-- `std::ranges::sort` of pairs, detect_bdl_pairs.hpp:327, detect_bdl_wires.hpp:206. -/
def sortPairs (l : List (Pair α)) : List (Pair α) := l.foldr insertPair []

/-- `pair_up_dots`, detect_bdl_pairs.hpp:209-330. `sort` is `std::ranges::sort` by distance, which is not stable. -/
def pairUp (sort : List (α × α) → List (α × α)) (dist : α → α → K) (lo hi : K) (ty : α → Ty) (dots : List α) :
    List (Pair α) :=
  sortPairs ((pairLoop dist lo hi (sort (dotPairs dots)) []).map (mkPair ty))

/-- The dots of a type, detect_bdl_pairs.hpp:335-368. -/
def dotsOf (L : Lyt α) : Ty → List α
  | .input => L.pis
  | .output => L.pos
  | t => L.cells.filter fun c => decide (L.ty c = t)

/-- `detect_bdl_pairs`, detect_bdl_pairs.hpp:193-389. -/
def detectPairs (sort : List (α × α) → List (α × α)) (dist : α → α → K) (lo hi : K) (L : Lyt α) :
    Option Ty → List (Pair α)
  | some t => pairUp sort dist lo hi L.ty (dotsOf L t)
  | none => pairUp sort dist lo hi L.ty (dotsOf L .input) ++ pairUp sort dist lo hi L.ty (dotsOf L .output) ++
      pairUp sort dist lo hi L.ty (dotsOf L .normal)

/-! ## Wires -/

/-- `find_bdl_neighbor_below`, detect_bdl_wires.hpp:570-589. `near` tells whether two dots are closer than the
threshold. -/
def isBelow (near : α → α → Bool) (g b : Pair α) : Bool :=
  near g.lower b.upper || (near g.upper b.lower && !sameDots g b && pairLt g b)

/-- `find_bdl_neighbor_above`, detect_bdl_wires.hpp:533-552. -/
def isAbove (near : α → α → Bool) (g b : Pair α) : Bool :=
  near g.lower b.upper || (near g.upper b.lower && !sameDots g b && pairGt g b)

/-- The inner loop of `detect_bdl_wires`, detect_bdl_wires.hpp:430-463: the pairs of the wire and the remaining pairs.
The first argument bounds the number of iterations. -/
def walk (near : α → α → Bool) : Nat → Pair α → List (Pair α) → List (Pair α) → Option (List (Pair α) × List (Pair α))
  | 0, _, _, _ => none
  | n + 1, cur, wire, rest =>
    match rest.find? (isBelow near cur) with
    | some b => walk near n b (insertPair b wire) (rest.erase b)
    | none =>
      match rest.find? (isAbove near cur) with
      | some b => walk near n b (insertPair b wire) (rest.erase b)
      | none => some (wire, rest)

/-- The outer loop of `detect_bdl_wires`, detect_bdl_wires.hpp:416-464. -/
def wireLoop (near : α → α → Bool) (fuel : Nat) : Nat → List (Pair α) → Option (List (List (Pair α)))
  | _, [] => some []
  | 0, _ :: _ => none
  | n + 1, p :: rest =>
    match walk near fuel p [p] rest with
    | none => none
    | some (w, rest) => (wireLoop near fuel n rest).map fun ws => w :: ws

/-- `std::set::insert` for pairs. -/
def setInsert (p : Pair α) : List (Pair α) → List (Pair α)
  | [] => [p]
  | q :: l => if pairLt p q then p :: q :: l else if pairLt q p then q :: setInsert p l else q :: l

/-- `aggregate_bdl_pairs`, detect_bdl_wires.hpp:678-693. -/
def aggregate (sort : List (α × α) → List (α × α)) (dist : α → α → K) (lo hi : K) (L : Lyt α) : List (Pair α) :=
  (detectPairs sort dist lo hi L (some .input) ++ detectPairs sort dist lo hi L (some .output) ++
    detectPairs sort dist lo hi L (some .normal)).foldl (fun s p => setInsert p s) []

/-- The pairs of the wires found by `detect_bdl_wires`, detect_bdl_wires.hpp:410-467. -/
def detectWires (sort : List (α × α) → List (α × α)) (dist : α → α → K) (lo hi : K) (thr : K) (L : Lyt α) :
    Option (List (List (Pair α))) :=
  let s := aggregate sort dist lo hi L
  wireLoop (fun a b => decide (dist a b < thr)) (s.length + 1) (s.length + 1) s

/-- `filter_wires` for inputs (`t`, with outputs as the opposite type `o`) or outputs, detect_bdl_wires.hpp:482-501 and
599-671. The assertion on the lengths of the wires is not modelled. -/
def filterWires (t o : Ty) (ws : List (List (Pair α))) : List (List (Pair α)) :=
  (ws.filter fun w => w.any fun p => decide (p.type = t)).map fun w =>
    if w.any (fun p => decide (p.type = o)) then w.filter fun p => decide (p.type ≠ o) else w

end Verif.SidbAnalysis.Bdl
