import Verif.GateLevel.Model
import Verif.TruthTables.Model

/-!
# Model of writing and reading FGL files

`io/write_fgl_layout.hpp` and `io/read_fgl_layout.hpp`. A file is the tree of its XML elements: numbers are numbers, except
for clock numbers, whose text matters; texts are lists of characters. tinyxml2 (external) reports no text for an element
that has only white space; texts with markup are not modelled. Statistics of the generator are omitted.
-/
namespace Verif.Fgl

open Verif.Layouts Verif.Clocking Verif.GateLevel Verif.TruthTables

/-- A gate-level layout: name, aspect ratio, clocking scheme, storage, `fn_cache` and `node_names`
(gate_level_layout.hpp:99-123). -/
structure Lyt where
  title : List Char
  dim : Dim
  cs : Scheme
  st : State
  cache : Cache
  name : Nat → List Char

/-- The element `gate`, write_fgl_layout.hpp:64-80. -/
structure Rec where
  id : Nat
  type : List Char
  name : List Char
  loc : Coord
  incoming : List Coord
deriving DecidableEq, Repr

/-- The element `fgl`, write_fgl_layout.hpp:34-63. -/
structure File where
  title : List Char
  topology : List Char
  size : Dim
  scheme : List Char
  zones : Option (List (Nat × Nat × List Char))
  gates : List Rec

/-! ## Hexadecimal truth tables -/

/-- The number of hexadecimal digits of a table. -/
def numDigits (vars : Nat) : Nat := if vars < 2 then 1 else 2 ^ (vars - 2)

/-- The lowest `d` hexadecimal digits, the most significant first. -/
def hexDigits : Nat → Nat → List Char
  | 0, _ => []
  | d + 1, w => hexDigits d (w / 16) ++ [Nat.digitChar (w % 16)]

/-- `kitty::to_hex` (external library). -/
def toHex (t : TT) : List Char := hexDigits (numDigits t.vars) t.word

/-- The value of a hexadecimal digit; `none` if `std::isxdigit` is false. -/
def hexVal (c : Char) : Option Nat :=
  if '0' ≤ c ∧ c ≤ '9' then some (c.toNat - '0'.toNat)
  else if 'a' ≤ c ∧ c ≤ 'f' then some (c.toNat - 'a'.toNat + 10)
  else if 'A' ≤ c ∧ c ≤ 'F' then some (c.toNat - 'A'.toNat + 10)
  else none

/-- read_fgl_layout.hpp:509-510, 606-607, 641-642, 657. -/
def isHex (s : List Char) : Bool := s.all fun c => (hexVal c).isSome

/-- `kitty::create_from_hex_string` (external library) on a table of `k` variables; `none` if the number of digits is wrong,
which is asserted not to happen. -/
def fromHex (k : Nat) (s : List Char) : Option TT :=
  if s.length = numDigits k then some ⟨k, (s.foldl (fun a c => 16 * a + (hexVal c).getD 0) 0) % 2 ^ 2 ^ k⟩ else none

/-! ## Writer -/

/-- write_fgl_layout.hpp:101-144. Shifted Cartesian layouts are not distinguished. -/
def topologyName : Topo → List Char
  | .cart => "cartesian".toList
  | .hex .oddRow => "odd_row_hex".toList
  | .hex .evenRow => "even_row_hex".toList
  | .hex .oddColumn => "odd_column_hex".toList
  | .hex .evenColumn => "even_column_hex".toList

/-- The coordinates that are written of a tile. -/
def plain (t : Coord) : Coord := { t with d := false }

/-- The clock zones, write_fgl_layout.hpp:155-164. -/
def writeZones (m : Dim) (cs : Scheme) : List (Nat × Nat × List Char) :=
  (List.range (m.X + 1)).flatMap fun x : Nat => (List.range (m.Y + 1)).map fun y : Nat =>
    (x, y, Nat.toDigits 10 (cs.clock ⟨x, y, 0, false⟩))

/-- The element of a primary input, write_fgl_layout.hpp:177-184. -/
def writePi (L : Lyt) (id n : Nat) : Rec := ⟨id, "PI".toList, L.name n, plain (L.st.getTile n), []⟩

/-- The hexadecimal function of a node, as in write_fgl_layout.hpp:210-212. -/
def hexOf (L : Lyt) (n : Nat) : List Char :=
  match L.cache.lookup (L.st.nodes n).fn with
  | some t => toHex t
  | none => []

/-- Type and name of a gate, write_fgl_layout.hpp:192-309, by the number of its incoming signals. -/
def typeOf (L : Lyt) (n k : Nat) : List Char :=
  let fn := (L.st.nodes n).fn
  if k = 1 then
    if L.st.isPo n then "PO".toList
    else if fn = 2 then "BUF".toList
    else if fn = 3 then "INV".toList
    else hexOf L n
  else if k = 2 then
    if fn = 4 then "AND".toList
    else if fn = 5 then "NAND".toList
    else if fn = 6 then "OR".toList
    else if fn = 7 then "NOR".toList
    else if fn = 12 then "XOR".toList
    else if fn = 13 then "XNOR".toList
    else if fn = 8 then "LT".toList
    else if fn = 10 then "GT".toList
    else if fn = 11 then "LE".toList
    else if fn = 9 then "GE".toList
    else hexOf L n
  else if k = 3 then
    if fn = 14 then "MAJ".toList
    else hexOf L n
  else hexOf L n

/-- The element of a gate, write_fgl_layout.hpp:188-312. -/
def writeGate (tp : Topo) (L : Lyt) (id n : Nat) : Rec :=
  let t := L.st.getTile n
  let signals := L.st.fanins L.dim tp L.cs true (L.st.getNode t)
  ⟨id, typeOf L n signals.length, if signals.length = 1 ∧ L.st.isPo n then L.name n else [], plain t, signals.map plain⟩

/-- The loops over inputs and gates, write_fgl_layout.hpp:171-312. `order` is the order in which `topo_view` (external) visits the
gates. -/
def writeGates (tp : Topo) (L : Lyt) (order : List Nat) : List Rec :=
  L.st.inputs.mapIdx (writePi L) ++ order.mapIdx fun i n => writeGate tp L (L.st.inputs.length + i) n

/-- `write_fgl_layout`, write_fgl_layout.hpp:90-316. -/
def write (tp : Topo) (L : Lyt) (order : List Nat) : File where
  title := L.title
  topology := topologyName tp
  size := L.dim
  scheme := L.cs.name.toList
  zones := if L.cs.regular then none else some (writeZones L.dim L.cs)
  gates := writeGates tp L order

/-! ## Reader -/

/-- White space to tinyxml2. -/
def isSpace (c : Char) : Bool := c ∈ [' ', '\t', '\n', '\x0b', '\x0c', '\r']

/-- `GetText` is `nullptr`. -/
def blank (s : List Char) : Bool := s.all isSpace

/-- The clocking scheme, read_fgl_layout.hpp:252-325; `none` is `fgl_parsing_error`. The clock number is the code of the first
character of its text, line 294. -/
def readClocking (tp : Topo) (F : File) : Option Scheme :=
  if blank F.scheme then none
  else
    match getClockingScheme tp F.scheme with
    | none => none
    | some cs =>
      match F.zones with
      | some zs =>
        if zs.any fun z => blank z.2.2 then none
        else some (zs.foldl (fun cs z => cs.overrideClockNumber ⟨z.1, z.2.1, 0, false⟩ ((z.2.2.head?.getD ' ').toNat % 256)) cs)
      | none => if F.scheme ∈ ["OPEN".toList, "OPEN3".toList, "OPEN4".toList] then none else some cs

/-- A gate can be read, read_fgl_layout.hpp:334-456: types are not empty, inputs and outputs have names. -/
def Rec.readable (r : Rec) : Bool :=
  !blank r.type && (!(decide (r.type = "PI".toList) || decide (r.type = "PO".toList)) || !blank r.name)

/-- `make_signal(get_node(t))`, read_fgl_layout.hpp:486, 533, 630, 666. -/
def signal (R : Lyt) (t : Coord) : Coord := R.st.getTile (R.st.getNode t)

/-- `create_pi` with a name, gate_level_layout.hpp:258-268. -/
def Lyt.pi (R : Lyt) (name : List Char) (t : Coord) : Lyt :=
  { R with st := R.st.createPi R.dim t, name := fun n => if n = R.st.size then name else R.name n }

/-- `create_po` with a name, gate_level_layout.hpp:270-284. -/
def Lyt.po (R : Lyt) (c : Coord) (name : List Char) (t : Coord) : Lyt :=
  { R with st := R.st.createPo R.dim c t, name := fun n => if n = R.st.size then name else R.name n }

/-- `create_buf` … `create_maj`, gate_level_layout.hpp:454-517. -/
def Lyt.gate (R : Lyt) (lit : Nat) (cs : List Coord) (t : Coord) : Lyt := { R with st := R.st.createGate R.dim lit cs t }

/-- `create_node` from a hexadecimal function, read_fgl_layout.hpp:514-516, 611-613, 646-648, 661-671, and
gate_level_layout.hpp:519-529. -/
def Lyt.custom (R : Lyt) (type : List Char) (cs : List Coord) (t : Coord) : Option Lyt :=
  if isHex type then
    match fromHex cs.length type with
    | none => none
    | some f => some (({ R with cache := (R.cache.insert f).1 } : Lyt).gate (R.cache.insert f).2 cs t)
  else none

/-- The body of the loop over the gates, read_fgl_layout.hpp:462-680. -/
def place (R : Lyt) (r : Rec) : Option Lyt :=
  let t := r.loc
  match r.incoming.map (signal R) with
  | [] => if r.type = "PI".toList then some (R.pi r.name t) else none
  | [a] =>
    if r.type = "PO".toList then some (R.po a r.name t)
    else if r.type = "BUF".toList then some (R.gate 2 [a] t)
    else if r.type = "INV".toList then some (R.gate 3 [a] t)
    else R.custom r.type [a] t
  | [a, b] =>
    if r.type = "AND".toList then some (R.gate 4 [a, b] t)
    else if r.type = "NAND".toList then some (R.gate 5 [a, b] t)
    else if r.type = "OR".toList then some (R.gate 6 [a, b] t)
    else if r.type = "NOR".toList then some (R.gate 7 [a, b] t)
    else if r.type = "XOR".toList then some (R.gate 12 [a, b] t)
    else if r.type = "XNOR".toList then some (R.gate 13 [a, b] t)
    else if r.type = "LT".toList then some (R.gate 8 [a, b] t)
    else if r.type = "LE".toList then some (R.gate 11 [a, b] t)
    else if r.type = "GT".toList then some (R.gate 10 [a, b] t)
    else if r.type = "GE".toList then some (R.gate 9 [a, b] t)
    else R.custom r.type [a, b] t
  | [a, b, c] =>
    if r.type = "MAJ".toList then some (R.gate 14 [a, b, c] t)
    else R.custom r.type [a, b, c] t
  | l => R.custom r.type l t

/-- The loop over the gates, read_fgl_layout.hpp:462-680. -/
def placeAll : List Rec → Lyt → Option Lyt
  | [], R => some R
  | r :: l, R =>
    match place R r with
    | none => none
    | some R => placeAll l R

/-- `read_fgl_layout`, read_fgl_layout.hpp:70-684, into a new layout of the topology `tp` with the name `title`; `none` is
`fgl_parsing_error`. `std::sort` is a stable sort here. -/
def read (tp : Topo) (title : List Char) (F : File) : Option Lyt :=
  if F.topology ≠ topologyName tp then none
  else
    match readClocking tp F with
    | none => none
    | some cs =>
      if F.gates.all Rec.readable then
        placeAll (F.gates.mergeSort fun a b => decide (a.id ≤ b.id))
          ⟨if blank F.title then title else F.title, F.size, cs, init, layoutCache, fun _ => []⟩
      else none

end Verif.Fgl
