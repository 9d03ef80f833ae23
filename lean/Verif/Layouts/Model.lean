/-!
# Model of `cartesian_layout.hpp` and `hexagonal_layout.hpp`

Coordinates are the fields of `offset::ucoord_t` as natural numbers plus the dead flag.  All
operations modelled here keep in-bounds coordinates in bounds, so that the 31-bit fields cannot
wrap as long as the aspect ratio itself is representable; the one place where C++ relies on
wrap-around (`to_offset_coordinate` of a negative cube coordinate) is modelled with the modulus.
-/
namespace Verif.Layouts

/-- An offset coordinate, coordinates.hpp:48-66 (fields only). -/
structure Coord where
  x : Nat
  y : Nat
  z : Nat
  d : Bool := false
deriving DecidableEq, Repr

/-- Aspect ratio of a layout, cartesian_layout.hpp:60 / hexagonal_layout.hpp (storage `dimension`). -/
structure Dim where
  X : Nat
  Y : Nat
  Z : Nat
deriving DecidableEq, Repr

namespace Cart
variable (m : Dim)

/-- cartesian_layout.hpp:172-183. -/
def north (c : Coord) : Coord := if c.y = 0 then c else { c with y := c.y - 1 }
/-- cartesian_layout.hpp:192-204. -/
def northEast (c : Coord) : Coord :=
  if c.x = m.X ∨ c.y = 0 then c else { c with x := c.x + 1, y := c.y - 1 }
/-- cartesian_layout.hpp:212-226. -/
def east (c : Coord) : Coord :=
  if c.x > m.X then { c with d := true } else if c.x < m.X then { c with x := c.x + 1 } else c
/-- cartesian_layout.hpp:235-250. -/
def southEast (c : Coord) : Coord :=
  if c.x > m.X ∨ c.y > m.Y then { c with d := true }
  else if c.x < m.X ∧ c.y < m.Y then { c with x := c.x + 1, y := c.y + 1 } else c
/-- cartesian_layout.hpp:258-272. -/
def south (c : Coord) : Coord :=
  if c.y > m.Y then { c with d := true } else if c.y < m.Y then { c with y := c.y + 1 } else c
/-- cartesian_layout.hpp:281-296. -/
def southWest (c : Coord) : Coord :=
  if c.y > m.Y then { c with d := true }
  else if c.x > 0 ∧ c.y < m.Y then { c with x := c.x - 1, y := c.y + 1 } else c
/-- cartesian_layout.hpp:304-315. -/
def west (c : Coord) : Coord := if c.x = 0 then c else { c with x := c.x - 1 }
/-- cartesian_layout.hpp:324-336. -/
def northWest (c : Coord) : Coord :=
  if c.x = 0 ∨ c.y = 0 then c else { c with x := c.x - 1, y := c.y - 1 }
/-- cartesian_layout.hpp:344-358 (identical in hexagonal_layout.hpp:493-507). -/
def above (c : Coord) : Coord :=
  if c.z > m.Z then { c with d := true } else if c.z < m.Z then { c with z := c.z + 1 } else c
/-- cartesian_layout.hpp:366-377. -/
def below (c : Coord) : Coord := if c.z = 0 then c else { c with z := c.z - 1 }

/-- cartesian_layout.hpp:385-389. -/
def isNorthOf (c1 c2 : Coord) : Bool := c1 != c2 && north c1 == c2
/-- cartesian_layout.hpp:397-400. -/
def isEastOf (c1 c2 : Coord) : Bool := c1 != c2 && east m c1 == c2
/-- cartesian_layout.hpp:408-411. -/
def isSouthOf (c1 c2 : Coord) : Bool := c1 != c2 && south m c1 == c2
/-- cartesian_layout.hpp:419-423. -/
def isWestOf (c1 c2 : Coord) : Bool := c1 != c2 && west c1 == c2
/-- cartesian_layout.hpp:431-434. -/
def isAdjacentOf (c1 c2 : Coord) : Bool :=
  isNorthOf c1 c2 || isEastOf m c1 c2 || isSouthOf m c1 c2 || isWestOf c1 c2
/-- cartesian_layout.hpp:443-447. -/
def isAdjacentElevationOf (c1 c2 : Coord) : Bool :=
  isAdjacentOf m c1 c2 || isAdjacentOf m (above m c1) c2 || isAdjacentOf m (below c1) c2
/-- cartesian_layout.hpp:455-458. -/
def isAbove (c1 c2 : Coord) : Bool := c1 != c2 && above m c1 == c2
/-- cartesian_layout.hpp:466-469. -/
def isBelow (c1 c2 : Coord) : Bool := c1 != c2 && below c1 == c2
/-- cartesian_layout.hpp:477-481. -/
def isNorthwardsOf (c1 c2 : Coord) : Bool := c1.z == c2.z && decide (c1.y > c2.y) && c1.x == c2.x
/-- cartesian_layout.hpp:489-493. -/
def isEastwardsOf (c1 c2 : Coord) : Bool := c1.z == c2.z && c1.y == c2.y && decide (c1.x < c2.x)
/-- cartesian_layout.hpp:501-505. -/
def isSouthwardsOf (c1 c2 : Coord) : Bool := c1.z == c2.z && decide (c1.y < c2.y) && c1.x == c2.x
/-- cartesian_layout.hpp:513-517. -/
def isWestwardsOf (c1 c2 : Coord) : Bool := c1.z == c2.z && c1.y == c2.y && decide (c1.x > c2.x)
/-- cartesian_layout.hpp:524-527. -/
def isAtNorthernBorder (c : Coord) : Bool := c.y == 0
/-- cartesian_layout.hpp:534-537. -/
def isAtEasternBorder (c : Coord) : Bool := c.x == m.X
/-- cartesian_layout.hpp:544-547. -/
def isAtSouthernBorder (c : Coord) : Bool := c.y == m.Y
/-- cartesian_layout.hpp:554-557. -/
def isAtWesternBorder (c : Coord) : Bool := c.x == 0
/-- cartesian_layout.hpp:565-569. -/
def isAtAnyBorder (c : Coord) : Bool :=
  isAtNorthernBorder c || isAtEasternBorder m c || isAtSouthernBorder m c || isAtWesternBorder c
/-- cartesian_layout.hpp:640-643. -/
def isWithinBounds (c : Coord) : Bool := decide (c.x ≤ m.X) && decide (c.y ≤ m.Y) && decide (c.z ≤ m.Z)

/-- cartesian_layout.hpp:734-768: north, east, south, west; a direction is skipped if it returned `c`. -/
def adjacentCoordinates (c : Coord) : List Coord :=
  [north c, east m c, south m c, west c].filter (· != c)

/-- cartesian_layout.hpp:780-810. -/
def adjacentOppositeCoordinates (c : Coord) : List (Coord × Coord) :=
  [(north c, south m c), (east m c, west c)].filter (fun p => p.1 != c && p.2 != c)

end Cart

namespace Hex

/-- The four hexagonal arrangements, hexagonal_layout.hpp:74-134. -/
inductive Arr | oddRow | evenRow | oddColumn | evenColumn
deriving DecidableEq, Repr

/-- `pointy_top_hex` orientation for the row arrangements, hexagonal_layout.hpp:74, 94. -/
def Arr.pointy : Arr → Bool
  | .oddRow | .evenRow => true
  | .oddColumn | .evenColumn => false

/-- The constant `offset`, hexagonal_layout.hpp:1029-1032. -/
def Arr.off : Arr → Int
  | .oddRow | .oddColumn => -1
  | .evenRow | .evenColumn => 1

/-- A cube coordinate `(x, y, z)`; the dead flag plays no role here. -/
structure CubeC where
  x : Int
  y : Int
  z : Int
deriving DecidableEq, Repr

/-- `n & 1` on two's complement integers. -/
def bit0 (n : Int) : Int := n % 2

/-- `cube::coord_t::operator+`, coordinates.hpp:525-528. -/
def CubeC.add (a b : CubeC) : CubeC := ⟨a.x + b.x, a.y + b.y, a.z + b.z⟩

/-- `to_cube_coordinate`, hexagonal_layout.hpp:1024-1050. The 31-bit fields promote to `int`, the
division truncates toward zero. -/
def toCube (a : Arr) (c : Coord) : CubeC :=
  if a.pointy then
    let cx := (c.x : Int) - ((c.y : Int) + a.off * bit0 c.y).tdiv 2
    let cz := (c.y : Int)
    ⟨cx, -cx - cz, cz⟩
  else
    let cx := (c.x : Int)
    let cz := (c.y : Int) - ((c.x : Int) + a.off * bit0 c.x).tdiv 2
    ⟨cx, -cx - cz, cz⟩

/-- `static_cast` of a signed integer to a 31-bit unsigned field. -/
def cast31 (n : Int) : Nat := (n % 2147483648).toNat

/-- `to_offset_coordinate`, hexagonal_layout.hpp:1059-1083; the result is live and in the ground layer. -/
def toOffset (a : Arr) (q : CubeC) : Coord :=
  if a.pointy then
    { x := cast31 (q.x + (q.z + a.off * bit0 q.z).tdiv 2), y := cast31 q.z, z := 0 }
  else
    { x := cast31 q.x, y := cast31 (q.z + (q.x + a.off * bit0 q.x).tdiv 2), z := 0 }

/-- The offset coordinate one cube direction away, with the layer of `c`
(hexagonal_layout.hpp:929-932 and e.g. 350-352). -/
def move (a : Arr) (c : Coord) (dir : CubeC) : Coord :=
  { toOffset a ((toCube a c).add dir) with z := c.z }

/-- hexagonal_layout.hpp:920-921. -/
def cubeDirections : List CubeC :=
  [⟨1, -1, 0⟩, ⟨1, 0, -1⟩, ⟨0, 1, -1⟩, ⟨-1, 1, 0⟩, ⟨-1, 0, 1⟩, ⟨0, -1, 1⟩]

/-- hexagonal_layout.hpp:916-940 (and `adjacent_coordinates`, 896-904). -/
def adjacentCoordinates (a : Arr) (m : Dim) (c : Coord) : List Coord :=
  (cubeDirections.map (move a c)).filter (Cart.isWithinBounds m)

/-- hexagonal_layout.hpp:582-596. -/
def isAdjacentOf (a : Arr) (m : Dim) (c1 c2 : Coord) : Bool :=
  (adjacentCoordinates a m c1).any (· == c2)

/-- `is_within_bounds(n) ? n : c`. -/
def keep (m : Dim) (c n : Coord) : Coord := if Cart.isWithinBounds m n then n else c

/-- hexagonal_layout.hpp:348-355. -/
def northEast (a : Arr) (m : Dim) (c : Coord) : Coord := keep m c (move a c ⟨1, 0, -1⟩)
/-- hexagonal_layout.hpp:385-403. -/
def southEast (a : Arr) (m : Dim) (c : Coord) : Coord :=
  if a.pointy then keep m c (move a c ⟨0, -1, 1⟩) else keep m c (move a c ⟨1, -1, 0⟩)
/-- hexagonal_layout.hpp:433-440. -/
def southWest (a : Arr) (m : Dim) (c : Coord) : Coord := keep m c (move a c ⟨-1, 0, 1⟩)
/-- hexagonal_layout.hpp:467-485. -/
def northWest (a : Arr) (m : Dim) (c : Coord) : Coord :=
  if a.pointy then keep m c (move a c ⟨0, 1, -1⟩) else keep m c (move a c ⟨-1, 1, 0⟩)

/-- hexagonal_layout.hpp:956-1004; `north`, `south`, `east`, `west` (329-459) are those of the
Cartesian layout. -/
def adjacentOppositeCoordinates (a : Arr) (m : Dim) (c : Coord) : List (Coord × Coord) :=
  [(if a.pointy then (Cart.east m c, Cart.west c) else (Cart.north c, Cart.south m c)),
   (northEast a m c, southWest a m c), (northWest a m c, southEast a m c)].filter
    (fun p => p.1 != c && p.2 != c)

end Hex
end Verif.Layouts
