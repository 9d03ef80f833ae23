/-!
# Model of `include/fiction/layouts/coordinates.hpp`

Three coordinate types.  `UCoord` is bit-precise (the C++ type is a 64-bit bit field and the
properties are about packing and wrap-around); `Cube` and `Siqad` use unbounded integers for the
`int32_t` fields, theorems state ranges where the C++ type would overflow.
-/
namespace Verif.Coordinates

/-- `offset::ucoord_t`, coordinates.hpp:48-66: bit fields `d:1, z:1, y:31, x:31`. -/
structure UCoord where
  d : BitVec 1
  z : BitVec 1
  y : BitVec 31
  x : BitVec 31
deriving DecidableEq, Repr

namespace UCoord

/-- Default constructor, coordinates.hpp:72-77 (dead, all zero). -/
def default : UCoord := ⟨1#1, 0#1, 0#31, 0#31⟩

/-- Three-argument constructor, coordinates.hpp:88-94.  The `static_cast`s to the bit-field types
truncate; the model takes already truncated arguments. -/
def mk3 (x y : BitVec 31) (z : BitVec 1) : UCoord := ⟨0#1, z, y, x⟩

/-- Constructor from a 64-bit word, coordinates.hpp:120-125. The initialisation of a bit field
truncates to the low bits (`setWidth`). -/
def ofWord (t : BitVec 64) : UCoord where
  d := (t >>> 63).setWidth 1
  z := ((t <<< 1) >>> 63).setWidth 1
  y := ((t <<< 2) >>> 33).setWidth 31
  x := ((t <<< 33) >>> 33).setWidth 31

/-- `explicit operator uint64_t`, coordinates.hpp:136-139. -/
def toWord (c : UCoord) : BitVec 64 :=
  ((((((c.d.setWidth 64) <<< 1) ||| c.z.setWidth 64) <<< 31) ||| c.y.setWidth 64) <<< 31) ||| c.x.setWidth 64

/-- `is_dead`, coordinates.hpp:145-148. -/
def isDead (c : UCoord) : Bool := c.d != 0#1

/-- `get_dead`, coordinates.hpp:154-157: OR with the word of a default-constructed coordinate. -/
def getDead (c : UCoord) : UCoord := ofWord (c.toWord ||| default.toWord)

/-- `wrap`, coordinates.hpp:168-193. -/
def wrap (c ar : UCoord) : UCoord :=
  let c := if c.x > ar.x then { c with x := 0#31, y := c.y + 1#31 } else c
  let c := if c.y > ar.y then
      if c.z = 1#1 then ar.getDead else { c with y := 0#31, z := 1#1 }
    else c
  if c.z > ar.z then ar.getDead else c

/-- `operator==`, coordinates.hpp:204-207. -/
def eqb (a b : UCoord) : Bool := a.d == b.d && a.z == b.z && a.y == b.y && a.x == b.x
/-- `operator==(uint64_t)`, coordinates.hpp:214-217. -/
def eqWord (a : UCoord) (w : BitVec 64) : Bool := a.toWord == w
/-- `operator!=`, coordinates.hpp:224-227. -/
def neb (a b : UCoord) : Bool := !(eqb a b)
/-- `operator<`, coordinates.hpp:235-256. -/
def ltb (a b : UCoord) : Bool :=
  if a.z < b.z then true
  else if a.z = b.z then
    if a.y < b.y then true
    else if a.y = b.y then decide (a.x < b.x)
    else false
  else false
/-- `operator>`, coordinates.hpp:264-267. -/
def gtb (a b : UCoord) : Bool := ltb b a
/-- `operator<=`, coordinates.hpp:275-278. -/
def leb (a b : UCoord) : Bool := !(gtb a b)
/-- `operator>=`, coordinates.hpp:286-289. -/
def geb (a b : UCoord) : Bool := !(ltb a b)

/-- `coord_iterator::operator++`, coordinates.hpp:976-990; `++coord.x` wraps modulo `2^31`. -/
def iterNext (ar c : UCoord) : UCoord :=
  if neb c ar then wrap { c with x := c.x + 1#31 } ar else c.getDead

/-- `coord_iterator` constructor, coordinates.hpp:958-970; the `std::max` with zero is the identity
on unsigned fields. -/
def iterStart (ar start : UCoord) : UCoord := wrap start ar

end UCoord

/-- `cube::coord_t`, coordinates.hpp:324-342. -/
structure Cube where
  d : Bool
  z : Int
  y : Int
  x : Int
deriving DecidableEq, Repr

namespace Cube

/-- Three-argument constructor, coordinates.hpp:363-369. -/
def mk3 (x y z : Int) : Cube := ⟨false, z, y, x⟩
/-- Default constructor, coordinates.hpp:329, 348-352. -/
def default : Cube := ⟨true, 0, 0, 0⟩
/-- `get_dead`, coordinates.hpp:402-407. -/
def getDead (c : Cube) : Cube := { c with d := true }

/-- `wrap`, coordinates.hpp:418-436. -/
def wrap (c ar : Cube) : Cube :=
  let c := if c.x > ar.x then { c with x := 0, y := c.y + 1 } else c
  let c := if c.y > ar.y then { c with y := 0, z := c.z + 1 } else c
  if c.z > ar.z then ar.getDead else c

/-- `operator==`, coordinates.hpp:443-446. -/
def eqb (a b : Cube) : Bool := a.d == b.d && a.z == b.z && a.y == b.y && a.x == b.x
/-- `operator!=`, coordinates.hpp:453-456. -/
def neb (a b : Cube) : Bool := !(eqb a b)
/-- `operator<`, coordinates.hpp:464-485. -/
def ltb (a b : Cube) : Bool :=
  if a.z < b.z then true
  else if a.z = b.z then
    if a.y < b.y then true
    else if a.y = b.y then decide (a.x < b.x)
    else false
  else false
/-- `operator>`, coordinates.hpp:493-496. -/
def gtb (a b : Cube) : Bool := ltb b a
/-- `operator<=`, coordinates.hpp:504-507. -/
def leb (a b : Cube) : Bool := !(gtb a b)
/-- `operator>=`, coordinates.hpp:515-518. -/
def geb (a b : Cube) : Bool := !(ltb a b)
/-- `operator+`, coordinates.hpp:525-528 (the result is always live). -/
def add (a b : Cube) : Cube := mk3 (a.x + b.x) (a.y + b.y) (a.z + b.z)
/-- `operator-`, coordinates.hpp:535-538. -/
def sub (a b : Cube) : Cube := mk3 (a.x - b.x) (a.y - b.y) (a.z - b.z)

/-- `coord_iterator::operator++`, coordinates.hpp:976-990. -/
def iterNext (ar c : Cube) : Cube :=
  if neb c ar then wrap { c with x := c.x + 1 } ar else c.getDead

/-- `coord_iterator` constructor, coordinates.hpp:958-970. -/
def iterStart (ar start : Cube) : Cube :=
  wrap { start with x := max start.x 0, y := max start.y 0, z := max start.z 0 } ar

end Cube

/-- `siqad::coord_t`, coordinates.hpp:569-587; `z` is a one-bit field, modelled as `Bool`. -/
structure Siqad where
  d : Bool
  z : Bool
  y : Int
  x : Int
deriving DecidableEq, Repr

namespace Siqad

/-- Three-argument constructor, coordinates.hpp:608-614. -/
def mk3 (x y : Int) (z : Bool) : Siqad := ⟨false, z, y, x⟩
/-- Default constructor, coordinates.hpp:574, 593-597. -/
def default : Siqad := ⟨true, false, 0, 0⟩
/-- `get_dead`, coordinates.hpp:647-652. -/
def getDead (c : Siqad) : Siqad := { c with d := true }

/-- The numerical value of the one-bit field `z`. -/
def zi (c : Siqad) : Int := if c.z then 1 else 0

/-- `wrap`, coordinates.hpp:663-681. -/
def wrap (c ar : Siqad) : Siqad :=
  let c := if c.x > ar.x then { c with x := 0, y := c.y + c.zi, z := !c.z } else c
  let c := if c.zi > ar.zi then ar.getDead else c
  if c.y > ar.y then ar.getDead else c

/-- `operator==`, coordinates.hpp:688-691. -/
def eqb (a b : Siqad) : Bool := a.d == b.d && a.z == b.z && a.y == b.y && a.x == b.x
/-- `operator!=`, coordinates.hpp:698-701. -/
def neb (a b : Siqad) : Bool := !(eqb a b)
/-- `operator<`, coordinates.hpp:709-722. -/
def ltb (a b : Siqad) : Bool :=
  if a.y ≠ b.y then decide (a.y < b.y)
  else if a.z ≠ b.z then decide (a.zi < b.zi)
  else decide (a.x < b.x)
/-- `operator>`, coordinates.hpp:730-733. -/
def gtb (a b : Siqad) : Bool := ltb b a
/-- `operator<=`, coordinates.hpp:741-744. -/
def leb (a b : Siqad) : Bool := !(gtb a b)
/-- `operator>=`, coordinates.hpp:752-755. -/
def geb (a b : Siqad) : Bool := !(ltb a b)
/-- `operator+`, coordinates.hpp:762-765. -/
def add (a b : Siqad) : Siqad :=
  mk3 (a.x + b.x) (a.y + b.y + (if a.z && b.z then 1 else 0)) (a.z ^^ b.z)
/-- `operator-`, coordinates.hpp:772-775; the difference of the two bits is truncated to one bit,
which is exclusive or. -/
def sub (a b : Siqad) : Siqad :=
  mk3 (a.x - b.x) (a.y - b.y - (if !a.z && b.z then 1 else 0)) (a.z ^^ b.z)

/-- `coord_iterator::operator++`, coordinates.hpp:976-990. -/
def iterNext (ar c : Siqad) : Siqad :=
  if neb c ar then wrap { c with x := c.x + 1 } ar else c.getDead

/-- `coord_iterator` constructor, coordinates.hpp:958-970. -/
def iterStart (ar start : Siqad) : Siqad :=
  wrap { start with x := max start.x 0, y := max start.y 0 } ar

/-- `cartesian_layout::initialize_dimension`, cartesian_layout.hpp:820-828: a SiQAD aspect ratio
always gets `z = 1` (and is live). -/
def initializeDimension (ar : Siqad) : Siqad := mk3 ar.x ar.y true

end Siqad

/-- `std::numeric_limits<int32_t>::max()`. -/
def int32Max : Int := 2147483647
/-- `std::numeric_limits<int32_t>::min()`. -/
def int32Min : Int := -2147483648

/-- `siqad::to_fiction_coord<cube::coord_t>`, coordinates.hpp:795-816.  The comparison is made in
`double`, in which all the values involved are exact. -/
def toFictionCoord (c : Siqad) : Cube :=
  if !c.d then
    if 2 * c.y + c.zi > int32Max then Cube.mk3 c.x int32Max 0
    else if 2 * c.y + c.zi < int32Min then Cube.mk3 c.x int32Min 0
    else Cube.mk3 c.x (c.y * 2 + c.zi) 0
  else Cube.default

/-- `siqad::to_siqad_coord<cube::coord_t>`, coordinates.hpp:825-833.  `%` and `/` truncate toward
zero; the one-bit field takes the lowest bit of the third argument. -/
def toSiqadCoord (c : Cube) : Siqad :=
  if c.y ≥ 0 then
    Siqad.mk3 c.x ((c.y - c.y.tmod 2).tdiv 2) (c.y.tmod 2 != 0)
  else
    Siqad.mk3 c.x ((c.y + c.y.tmod 2).tdiv 2) (if c.y.tmod 2 = 0 then false else true)

/-- `offset_to_cube_coord`, coordinates.hpp:848-860. -/
def offsetToCubeCoord (c : UCoord) : Cube :=
  if c.isDead then Cube.default else Cube.mk3 c.x.toNat c.y.toNat c.z.toNat

/-- `integral_abs`, math_utils.hpp:43 (on `Int`). -/
def integralAbs (n : Int) : Nat := n.natAbs

/-- `area` for `cube::coord_t`, coordinates.hpp:869-879 (no 64-bit wrap-around). -/
def areaCube (c : Cube) : Nat := (integralAbs c.x + 1) * (integralAbs c.y + 1)
/-- `area` for `offset::ucoord_t`, coordinates.hpp:869-879. The product of two numbers of at most
`2^31` fits into 64 bits. -/
def areaU (c : UCoord) : Nat := (c.x.toNat + 1) * (c.y.toNat + 1)
/-- `area` for `siqad::coord_t`, coordinates.hpp:872-876. -/
def areaSiqad (c : Siqad) : Nat :=
  (integralAbs c.x + 1) * (2 * integralAbs c.y + integralAbs c.zi + 1)
/-- `volume` for `cube::coord_t`, coordinates.hpp:888-898. -/
def volumeCube (c : Cube) : Nat :=
  (integralAbs c.x + 1) * (integralAbs c.y + 1) * (integralAbs c.z + 1)
/-- `volume` for `offset::ucoord_t`, coordinates.hpp:888-898. -/
def volumeU (c : UCoord) : Nat := (c.x.toNat + 1) * (c.y.toNat + 1) * (c.z.toNat + 1)

/-- A C++ range loop `for (it = cur; it != stop; ++it) visit(*it)`, with `++` given by `step`
(cartesian_layout.hpp:660-682 via `coord_iterator::operator!=`, coordinates.hpp:1006-1014).
`none` means that the loop did not finish within the given number of iterations. -/
def rangeLoop {α : Type} [DecidableEq α] (step : α → α) (stop : α) : Nat → α → Option (List α)
  | fuel, cur =>
    if cur = stop then some [] else
      match fuel with
      | 0 => none
      | fuel + 1 => (rangeLoop step stop fuel (step cur)).map (cur :: ·)

/-- `cartesian_layout::coordinates`/`foreach_coordinate`, cartesian_layout.hpp:660-682: a dead start
means `(0,0)`, a dead stop means the end of the layout. -/
def coordinatesU (ar start stop : UCoord) (fuel : Nat) : Option (List UCoord) :=
  rangeLoop (UCoord.iterNext ar)
    (UCoord.iterStart ar (if stop.isDead then ar.getDead else stop)) fuel
    (UCoord.iterStart ar (if start.isDead then UCoord.mk3 0 0 0 else start))

/-- `cartesian_layout::ground_coordinates`, cartesian_layout.hpp:692-722. -/
def groundCoordinatesU (ar start stop : UCoord) (fuel : Nat) : Option (List UCoord) :=
  coordinatesU (UCoord.mk3 ar.x ar.y 0) start stop fuel

/-- `coordinates` for cube coordinates, cartesian_layout.hpp:660-682. -/
def coordinatesCube (ar start stop : Cube) (fuel : Nat) : Option (List Cube) :=
  rangeLoop (Cube.iterNext ar)
    (Cube.iterStart ar (if stop.d then ar.getDead else stop)) fuel
    (Cube.iterStart ar (if start.d then Cube.mk3 0 0 0 else start))

/-- `coordinates` for SiQAD coordinates, cartesian_layout.hpp:660-682; `dim` is the aspect ratio
given by the user, which the layout normalises with `initialize_dimension`. -/
def coordinatesSiqad (dim start stop : Siqad) (fuel : Nat) : Option (List Siqad) :=
  let ar := Siqad.initializeDimension dim
  rangeLoop (Siqad.iterNext ar)
    (Siqad.iterStart ar (if stop.d then ar.getDead else stop)) fuel
    (Siqad.iterStart ar (if start.d then Siqad.mk3 0 0 false else start))

end Verif.Coordinates
