import Verif.Clocking.Model

/-!
# Model of `synchronization_element_layout.hpp`

The map is keyed by the 64-bit words of coordinates, which determine the coordinates (C01); here the coordinates are the keys.
-/
namespace Verif.Clocking.Sync

open Verif.Layouts Verif.Clocking

/-- `se_map`, synchronization_element_layout.hpp:47-52, as a list of entries. -/
abbrev SeMap := List (Coord × Nat)

/-- `assign_synchronization_element`, synchronization_element_layout.hpp:129-139. -/
def SeMap.assign (m : SeMap) (cz : Coord) (se : Nat) : SeMap :=
  if se = 0 then m.filter (fun e => e.1 != cz) else (cz, se) :: m.filter (fun e => e.1 != cz)

/-- `is_synchronization_element`, synchronization_element_layout.hpp:146-154. -/
def SeMap.isSe (m : SeMap) (cz : Coord) : Bool :=
  match m.find? (fun e => e.1 == cz) with
  | some e => e.2 != 0
  | none => false

/-- `get_synchronization_element`, synchronization_element_layout.hpp:161-169. -/
def SeMap.get (m : SeMap) (cz : Coord) : Nat :=
  match m.find? (fun e => e.1 == cz) with
  | some e => e.2
  | none => 0

/-- `num_se`, synchronization_element_layout.hpp:301-304. -/
def SeMap.numSe (m : SeMap) : Nat := m.length

/-- Storage blocks; a layout object is the number of its block (`strg`), so that copies of an object are the same number. -/
structure Heap where
  block : Nat → SeMap
  next : Nat

/-- The calls that change layouts: a constructor (synchronization_element_layout.hpp:64-104), `clone` (110-116) and
`assign_synchronization_element` (129-139). -/
inductive Op
  | create
  | clone (l : Nat)
  | assign (l : Nat) (cz : Coord) (se : Nat)

/-- One call, see `Op`. -/
def Heap.step (h : Heap) : Op → Heap
  | .create => ⟨fun i => if i = h.next then [] else h.block i, h.next + 1⟩
  | .clone l => ⟨fun i => if i = h.next then h.block l else h.block i, h.next + 1⟩
  | .assign l cz se => { h with block := fun i => if i = l then (h.block i).assign cz se else h.block i }

/-- A history of calls that begins without layouts. -/
def run (ops : List Op) : Heap := ops.foldl Heap.step ⟨fun _ => [], 0⟩

/-- `is_incoming_clocked`, synchronization_element_layout.hpp:181-191. -/
def isIncoming (s : Scheme) (m : SeMap) (cz1 cz2 : Coord) : Bool :=
  if cz1 = cz2 then false else isIncomingClocked s cz1 cz2 || m.isSe cz1 || m.isSe cz2

/-- `is_outgoing_clocked`, synchronization_element_layout.hpp:203-213. -/
def isOutgoing (s : Scheme) (m : SeMap) (cz1 cz2 : Coord) : Bool :=
  if cz1 = cz2 then false else isOutgoingClocked s cz1 cz2 || m.isSe cz1 || m.isSe cz2

/-- `incoming_clocked_zones`, synchronization_element_layout.hpp:226-254. -/
def incomingZones (t : Topo) (d : Dim) (s : Scheme) (m : SeMap) (cz : Coord) : List Coord :=
  (t.adjacent d cz).filter (isIncoming s m cz)

/-- `outgoing_clocked_zones`, synchronization_element_layout.hpp:262-290. -/
def outgoingZones (t : Topo) (d : Dim) (s : Scheme) (m : SeMap) (cz : Coord) : List Coord :=
  (t.adjacent d cz).filter (isOutgoing s m cz)

/-- `in_degree`, synchronization_element_layout.hpp:312-318. -/
def inDegree (t : Topo) (d : Dim) (s : Scheme) (m : SeMap) (cz : Coord) : Nat := (incomingZones t d s m cz).length

/-- `out_degree`, synchronization_element_layout.hpp:326-332. -/
def outDegree (t : Topo) (d : Dim) (s : Scheme) (m : SeMap) (cz : Coord) : Nat := (outgoingZones t d s m cz).length

/-- `degree`, synchronization_element_layout.hpp:340-345. -/
def degree (t : Topo) (d : Dim) (s : Scheme) (m : SeMap) (cz : Coord) : Nat :=
  let clockDegree := Clocking.degree t d s cz
  let seDegree := inDegree t d s m cz + outDegree t d s m cz
  if seDegree > clockDegree then clockDegree else seDegree

end Verif.Clocking.Sync
