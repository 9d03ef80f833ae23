import Verif.Layouts.Model

/-!
# Model of `clocking_scheme.hpp` and `clocked_layout.hpp`

Clock zones are the unsigned offset coordinates of the underlying layout. Clock numbers and degrees
(`uint8_t`) are natural numbers; all values occurring here are far below 256 except the argument of
`override_clock_number`, which is reduced modulo the number of clocks.
-/
namespace Verif.Clocking

open Verif.Layouts

/-- The coordinate layout underneath: `cartesian_layout` or `hexagonal_layout` with an arrangement
(`shifted_cartesian_layout` derives from the latter). -/
inductive Topo | cart | hex (a : Hex.Arr)
deriving DecidableEq, Repr

/-- `Lyt::max_fanin_size`, cartesian_layout.hpp:64, hexagonal_layout.hpp:175. -/
def Topo.maxFanin : Topo → Nat
  | .cart => 3
  | .hex _ => 5

/-- `foreach_adjacent_coordinate`, cartesian_layout.hpp:754-768, hexagonal_layout.hpp:916-940. -/
def Topo.adjacent : Topo → Dim → Coord → List Coord
  | .cart, m, c => Cart.adjacentCoordinates m c
  | .hex a, m, c => Hex.adjacentCoordinates a m c

/-- A clocking scheme object, clocking_scheme.hpp:41-156. The `override` hash map is a partial function. -/
structure Scheme where
  name : String
  fn : Coord → Nat
  maxIn : Nat
  maxOut : Nat
  numClocks : Nat
  regular : Bool
  override : Coord → Option Nat := fun _ => none

/-- `operator()`, clocking_scheme.hpp:76-89. -/
def Scheme.clock (s : Scheme) (cz : Coord) : Nat :=
  if s.regular then s.fn cz
  else match s.override cz with
    | some n => n
    | none => s.fn cz

/-- `override_clock_number`, clocking_scheme.hpp:116-121. -/
def Scheme.overrideClockNumber (s : Scheme) (cz : Coord) (cn : Nat) : Scheme :=
  { s with regular := false
           override := fun k => if k = cz then some (cn % s.numClocks) else s.override k }

/-- Two-dimensional `cutout[row][column]`. -/
def look (t : List (List Nat)) (r c : Nat) : Nat := (t.getD r []).getD c 0

/-- A clock function `cutout[cz.y % p][cz.x % q]`. -/
def byRow (t : List (List Nat)) (p q : Nat) (cz : Coord) : Nat := look t (cz.y % p) (cz.x % q)
/-- A clock function `cutout[cz.x % p][cz.y % q]`. -/
def byCol (t : List (List Nat)) (p q : Nat) (cz : Coord) : Nat := look t (cz.x % p) (cz.y % q)

/-- `num_clks`, clocking_scheme.hpp:176-186. -/
inductive NumClks | three | four
deriving DecidableEq, Repr

/-- clocking_scheme.hpp:197-219. -/
def openClocking (t : Topo) : NumClks → Scheme
  | .three => ⟨"OPEN", fun _ => 0, t.maxFanin, t.maxFanin, 3, false, fun _ => none⟩
  | .four => ⟨"OPEN", fun _ => 0, t.maxFanin, t.maxFanin, 4, false, fun _ => none⟩

/-- clocking_scheme.hpp:234-235. -/
def columnar3 : List (List Nat) := [[0, 1, 2], [0, 1, 2], [0, 1, 2]]
/-- clocking_scheme.hpp:243-244. -/
def columnar4 : List (List Nat) := [[0, 1, 2, 3], [0, 1, 2, 3], [0, 1, 2, 3], [0, 1, 2, 3]]
/-- clocking_scheme.hpp:229-266. -/
def columnarClocking (t : Topo) : NumClks → Scheme
  | .three => ⟨"COLUMNAR", byRow columnar3 3 3, min t.maxFanin 3, 2, 3, true, fun _ => none⟩
  | .four => ⟨"COLUMNAR", byRow columnar4 4 4, min t.maxFanin 3, 2, 4, true, fun _ => none⟩

/-- clocking_scheme.hpp:281-282. -/
def row3 : List (List Nat) := [[0, 0, 0], [1, 1, 1], [2, 2, 2]]
/-- clocking_scheme.hpp:290-291. -/
def row4 : List (List Nat) := [[0, 0, 0, 0], [1, 1, 1, 1], [2, 2, 2, 2], [3, 3, 3, 3]]
/-- clocking_scheme.hpp:276-312. -/
def rowClocking (t : Topo) : NumClks → Scheme
  | .three => ⟨"ROW", byRow row3 3 3, min t.maxFanin 3, 2, 3, true, fun _ => none⟩
  | .four => ⟨"ROW", byRow row4 4 4, min t.maxFanin 3, 2, 4, true, fun _ => none⟩

/-- clocking_scheme.hpp:327-328. -/
def twoDD3 : List (List Nat) := [[0, 1, 2], [1, 2, 0], [2, 0, 1]]
/-- clocking_scheme.hpp:336-337. -/
def twoDD4 : List (List Nat) := [[0, 1, 2, 3], [1, 2, 3, 0], [2, 3, 0, 1], [3, 0, 1, 2]]
/-- clocking_scheme.hpp:322-359. -/
def twoddwaveClocking (t : Topo) : NumClks → Scheme
  | .three => ⟨"2DDWAVE", byRow twoDD3 3 3, min t.maxFanin 2, 2, 3, true, fun _ => none⟩
  | .four => ⟨"2DDWAVE", byRow twoDD4 4 4, min t.maxFanin 2, 2, 4, true, fun _ => none⟩

/-- clocking_scheme.hpp:373-379. -/
def odd3 : List (List Nat) := [[0, 1, 2], [1, 2, 0], [1, 2, 0], [2, 0, 1], [2, 0, 1], [0, 1, 2]]
/-- clocking_scheme.hpp:381-387. -/
def even3 : List (List Nat) := [[0, 1, 2], [0, 1, 2], [1, 2, 0], [1, 2, 0], [2, 0, 1], [2, 0, 1]]
/-- clocking_scheme.hpp:389-397. -/
def odd4 : List (List Nat) :=
  [[0, 1, 2, 3], [1, 2, 3, 0], [1, 2, 3, 0], [2, 3, 0, 1], [2, 3, 0, 1], [3, 0, 1, 2], [3, 0, 1, 2], [0, 1, 2, 3]]
/-- clocking_scheme.hpp:399-407. -/
def even4 : List (List Nat) :=
  [[0, 1, 2, 3], [0, 1, 2, 3], [1, 2, 3, 0], [1, 2, 3, 0], [2, 3, 0, 1], [2, 3, 0, 1], [3, 0, 1, 2], [3, 0, 1, 2]]

/-- The eight lambdas of clocking_scheme.hpp:411-433. -/
def hexFn : Hex.Arr → NumClks → Coord → Nat
  | .oddRow, .three => byRow odd3 6 3
  | .oddRow, .four => byRow odd4 8 4
  | .evenRow, .three => byRow even3 6 3
  | .evenRow, .four => byRow even4 8 4
  | .oddColumn, .three => byCol odd3 6 3
  | .oddColumn, .four => byCol odd4 8 4
  | .evenColumn, .three => byCol even3 6 3
  | .evenColumn, .four => byCol even4 8 4

/-- Number of clocks selected by a `num_clks` value. -/
def NumClks.val : NumClks → Nat
  | .three => 3
  | .four => 4

/-- clocking_scheme.hpp:369-541. On a non-hexagonal layout the fall-back ignores `n`. -/
def twoddwaveHexClocking (t : Topo) (n : NumClks) : Scheme :=
  match t with
  | .hex a => ⟨"2DDWAVEHEX", hexFn a n, min t.maxFanin 2, 2, n.val, true, fun _ => none⟩
  | .cart => twoddwaveClocking t .four

/-- clocking_scheme.hpp:557-561. -/
def useTable : List (List Nat) := [[0, 1, 2, 3], [3, 2, 1, 0], [2, 3, 0, 1], [1, 0, 3, 2]]
/-- clocking_scheme.hpp:550-569. -/
def useClocking (t : Topo) : Scheme := ⟨"USE", byRow useTable 4 4, min t.maxFanin 2, 2, 4, true, fun _ => none⟩
/-- clocking_scheme.hpp:586-590. -/
def resTable : List (List Nat) := [[3, 0, 1, 2], [0, 1, 0, 3], [1, 2, 3, 0], [0, 3, 2, 1]]
/-- clocking_scheme.hpp:579-598. -/
def resClocking (t : Topo) : Scheme := ⟨"RES", byRow resTable 4 4, min t.maxFanin 3, 3, 4, true, fun _ => none⟩
/-- clocking_scheme.hpp:615-619. -/
def esrTable : List (List Nat) := [[3, 0, 1, 2], [0, 1, 2, 3], [1, 2, 3, 0], [0, 3, 2, 1]]
/-- clocking_scheme.hpp:608-627. -/
def esrClocking (t : Topo) : Scheme := ⟨"ESR", byRow esrTable 4 4, min t.maxFanin 3, 3, 4, true, fun _ => none⟩
/-- clocking_scheme.hpp:644-648. -/
def cfeTable : List (List Nat) := [[0, 1, 0, 1], [3, 2, 3, 2], [0, 1, 0, 1], [3, 2, 3, 2]]
/-- clocking_scheme.hpp:637-656. -/
def cfeClocking (t : Topo) : Scheme := ⟨"CFE", byRow cfeTable 4 4, min t.maxFanin 3, 3, 4, true, fun _ => none⟩
/-- clocking_scheme.hpp:672-676. -/
def rippleTable : List (List Nat) := [[0, 1, 2, 3], [3, 2, 1, 0], [0, 1, 2, 3], [3, 2, 1, 0]]
/-- clocking_scheme.hpp:665-684. -/
def rippleClocking (t : Topo) : Scheme :=
  ⟨"RIPPLE", byRow rippleTable 4 4, min t.maxFanin 3, 3, 4, true, fun _ => none⟩
/-- clocking_scheme.hpp:701-705. -/
def srsTable : List (List Nat) := [[1, 0, 3, 2], [2, 3, 0, 1], [3, 2, 3, 0], [0, 1, 2, 1]]
/-- clocking_scheme.hpp:694-713. -/
def srsClocking (t : Topo) : Scheme := ⟨"SRS", byRow srsTable 4 4, min t.maxFanin 3, 3, 4, true, fun _ => none⟩
/-- clocking_scheme.hpp:729-735. -/
def bancsTable : List (List Nat) := [[0, 1, 2], [2, 1, 0], [2, 0, 1], [1, 0, 2], [1, 2, 0], [0, 2, 1]]
/-- clocking_scheme.hpp:722-743. -/
def bancsClocking (t : Topo) : Scheme := ⟨"BANCS", byRow bancsTable 6 3, min t.maxFanin 2, 2, 3, true, fun _ => none⟩

/-- clocking_scheme.hpp:770-776. -/
def isLinearScheme (s : Scheme) : Bool := ["COLUMNAR", "ROW", "2DDWAVE", "2DDWAVEHEX"].any (fun n => s.name == n)

/-- The table `scheme_lookup`, clocking_scheme.hpp:806-828. -/
def schemeLookup (t : Topo) : List (List Char × Scheme) :=
  [("OPEN".toList, openClocking t .four), ("OPEN3".toList, openClocking t .three),
   ("OPEN4".toList, openClocking t .four),
   ("COLUMNAR".toList, columnarClocking t .four), ("COLUMNAR3".toList, columnarClocking t .three),
   ("COLUMNAR4".toList, columnarClocking t .four),
   ("ROW".toList, rowClocking t .four), ("ROW3".toList, rowClocking t .three), ("ROW4".toList, rowClocking t .four),
   ("2DDWAVE".toList, twoddwaveClocking t .four), ("2DDWAVE3".toList, twoddwaveClocking t .three),
   ("2DDWAVE4".toList, twoddwaveClocking t .four),
   ("2DDWAVEHEX".toList, twoddwaveHexClocking t .four), ("2DDWAVEHEX3".toList, twoddwaveHexClocking t .three),
   ("2DDWAVEHEX4".toList, twoddwaveHexClocking t .four),
   ("USE".toList, useClocking t), ("RES".toList, resClocking t), ("ESR".toList, esrClocking t),
   ("CFE".toList, cfeClocking t), ("RIPPLE".toList, rippleClocking t), ("SRS".toList, srsClocking t),
   ("BANCS".toList, bancsClocking t)]

/-- `get_clocking_scheme`, clocking_scheme.hpp:804-840. Names are byte sequences; `std::toupper` is
taken in the "C" locale (ASCII letters only), as `Char.toUpper`. -/
def getClockingScheme (t : Topo) (name : List Char) : Option Scheme :=
  ((schemeLookup t).find? (fun p => p.1 == name.map Char.toUpper)).map (·.2)

/-! ## `clocked_layout` on a fixed scheme -/

/-- clocked_layout.hpp:200-209. -/
def isIncomingClocked (s : Scheme) (cz1 cz2 : Coord) : Bool :=
  if cz1 = cz2 then false else (s.clock cz2 + 1) % s.numClocks == s.clock cz1

/-- clocked_layout.hpp:218-227. -/
def isOutgoingClocked (s : Scheme) (cz1 cz2 : Coord) : Bool :=
  if cz1 = cz2 then false else (s.clock cz1 + 1) % s.numClocks == s.clock cz2

/-- clocked_layout.hpp:239-266. -/
def incomingClockedZones (t : Topo) (m : Dim) (s : Scheme) (cz : Coord) : List Coord :=
  (t.adjacent m cz).filter (isIncomingClocked s cz)

/-- clocked_layout.hpp:273-300. -/
def outgoingClockedZones (t : Topo) (m : Dim) (s : Scheme) (cz : Coord) : List Coord :=
  (t.adjacent m cz).filter (isOutgoingClocked s cz)

/-- clocked_layout.hpp:311-317. -/
def inDegree (t : Topo) (m : Dim) (s : Scheme) (cz : Coord) : Nat := (incomingClockedZones t m s cz).length
/-- clocked_layout.hpp:324-330. -/
def outDegree (t : Topo) (m : Dim) (s : Scheme) (cz : Coord) : Nat := (outgoingClockedZones t m s cz).length
/-- clocked_layout.hpp:337-340. -/
def degree (t : Topo) (m : Dim) (s : Scheme) (cz : Coord) : Nat := inDegree t m s cz + outDegree t m s cz

/-! ## Layout objects and sharing

A layout object owns a storage block (`clocked_layout_storage`, clocked_layout.hpp:48-55) which holds
a `shared_ptr` to the scheme. A layout handle is the id of its storage block (`strg`). The heap therefore has two levels: storage blocks point to scheme objects. -/

/-- Heap: storage block id ↦ scheme id, scheme id ↦ scheme object, and two allocation counters. -/
structure Heap where
  storage : Nat → Nat
  scheme : Nat → Scheme
  nextStorage : Nat
  nextScheme : Nat

/-- `clocked_layout(ar, scheme)`, clocked_layout.hpp:81-86 via 50-52. -/
def Heap.create (h : Heap) (s : Scheme) : Heap × Nat :=
  ({ storage := fun i => if i = h.nextStorage then h.nextScheme else h.storage i
     scheme := fun i => if i = h.nextScheme then s else h.scheme i
     nextStorage := h.nextStorage + 1, nextScheme := h.nextScheme + 1 }, h.nextStorage)

/-- `clone`, clocked_layout.hpp:113-119: the storage block is copied, the scheme pointer inside is shared. -/
def Heap.clone (h : Heap) (l : Nat) : Heap × Nat :=
  ({ h with storage := fun i => if i = h.nextStorage then h.storage l else h.storage i
            nextStorage := h.nextStorage + 1 }, h.nextStorage)

/-- `replace_clocking_scheme`, clocked_layout.hpp:129-132. -/
def Heap.replace (h : Heap) (l : Nat) (s : Scheme) : Heap :=
  { h with storage := fun i => if i = l then h.nextScheme else h.storage i
           scheme := fun i => if i = h.nextScheme then s else h.scheme i
           nextScheme := h.nextScheme + 1 }

/-- `assign_clock_number`, clocked_layout.hpp:139-142. -/
def Heap.assign (h : Heap) (l : Nat) (cz : Coord) (cn : Nat) : Heap :=
  { h with scheme := fun i => if i = h.storage l then (h.scheme i).overrideClockNumber cz cn else h.scheme i }

/-- `get_clock_number`, clocked_layout.hpp:149-152. -/
def Heap.getClockNumber (h : Heap) (l : Nat) (cz : Coord) : Nat := (h.scheme (h.storage l)).clock cz

/-- `is_regularly_clocked`, clocked_layout.hpp:168-171. -/
def Heap.isRegularlyClocked (h : Heap) (l : Nat) : Bool := (h.scheme (h.storage l)).regular

/-- `num_clocks`, clocked_layout.hpp:159-162. -/
def Heap.numClocks (h : Heap) (l : Nat) : Nat := (h.scheme (h.storage l)).numClocks

/-- An operation on a layout. -/
inductive Op
  | assign (l : Nat) (cz : Coord) (cn : Nat)
  | replace (l : Nat) (s : Scheme)

/-- One call of the interface, see `Heap.assign` and `Heap.replace`. -/
def Heap.step (h : Heap) : Op → Heap
  | .assign l cz cn => h.assign l cz cn
  | .replace l s => h.replace l s

/-- A history of calls, see `Heap.step`. -/
def Heap.run (h : Heap) (ops : List Op) : Heap := ops.foldl Heap.step h

end Verif.Clocking
