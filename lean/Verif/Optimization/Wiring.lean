import Verif.Paths.Model

/-!
# Model of the cuts of wiring reduction

`algorithms/physical_design/wiring_reduction.hpp`: the search for cuts, the list of tiles to delete, the offset matrix and the
new positions of the remaining tiles. The search never leaves the ground layer, so that coordinates are pairs (x, y).
-/
namespace Verif.Wiring

open Verif.Paths

/-- Column and row of a tile. -/
abbrev Tile := Nat × Nat

/-- `search_direction`, wiring_reduction.hpp:113-123. -/
inductive Dir where
  | horizontal
  | vertical
  deriving DecidableEq

/-- The column that a horizontal search crosses at a tile, the row for a vertical one. -/
def lane : Dir → Tile → Nat
  | .horizontal, c => c.1
  | .vertical, c => c.2

/-- The position of a tile within its lane. -/
def pos : Dir → Tile → Nat
  | .horizontal, c => c.2
  | .vertical, c => c.1

/-- The tile with the given lane and position. -/
def tileAt : Dir → Nat → Nat → Tile
  | .horizontal, a, b => (a, b)
  | .vertical, a, b => (b, a)

/-- `wiring_reduction_layout_type`, wiring_reduction.hpp:134-367: an obstruction layout with a search direction; `X` and `Y` are
the largest coordinates. -/
structure Search where
  dir : Dir
  X : Nat
  Y : Nat
  obs : Tile → Bool
  conn : Tile → Tile → Bool

/-- cartesian_layout.hpp:171-182. -/
def north (c : Tile) : Tile := if c.2 = 0 then c else (c.1, c.2 - 1)
/-- cartesian_layout.hpp:212-226, for coordinates within the layout. -/
def east (X : Nat) (c : Tile) : Tile := if c.1 < X then (c.1 + 1, c.2) else c
/-- cartesian_layout.hpp:258-272, for coordinates within the layout. -/
def south (Y : Nat) (c : Tile) : Tile := if c.2 < Y then (c.1, c.2 + 1) else c
/-- cartesian_layout.hpp:304-315. -/
def west (c : Tile) : Tile := if c.1 = 0 then c else (c.1 - 1, c.2)

/-- `foreach_adjacent_coordinate`, wiring_reduction.hpp:169-354. -/
def Search.adjacent (S : Search) (c : Tile) : List Tile :=
  (match S.dir with
  | .horizontal =>
    if c.1 = 0 then [east S.X (north c), east S.X c, east S.X (south S.Y c), south S.Y c]
    else if c.1 = S.X then [south S.Y c]
    else [east S.X (north c), east S.X c, east S.X (south S.Y c)]
  | .vertical =>
    if c.2 = 0 then [south S.Y (east S.X c), south S.Y c, south S.Y (west c), east S.X c]
    else if c.2 = S.Y then [east S.X c]
    else [south S.Y (east S.X c), south S.Y c, south S.Y (west c)]).filter (· ≠ c)

/-- The target of the search, wiring_reduction.hpp:1131-1132, 1147-1148. -/
def Search.target (S : Search) : Tile := (S.X, S.Y)

/-- The successors explored by A* without crossings, a_star.hpp:194-236. -/
def Search.succs (S : Search) (c : Tile) : List Tile :=
  (S.adjacent c).filter fun s => (!S.obs s || s == S.target) && !S.conn c s

/-- `get_path` from the upper left to the lower right corner, wiring_reduction.hpp:673-684, with the Manhattan distance and
unit costs. -/
def getPath (q : Queue Tile Nat) (S : Search) (fuel : Nat) : Option (List Tile) :=
  aStar q ⟨S.succs, fun _ _ => 1, fun v => (S.X - v.1) + (S.Y - v.2), (0, 0), S.target⟩ fuel

/-- `add_obstructions`, wiring_reduction.hpp:627-661. -/
def addObstructions (S : Search) : Search :=
  { S with obs := fun c => S.obs c || match S.dir with
      | .horizontal => (decide (1 ≤ c.1 ∧ c.1 ≤ S.X) && c.2 == 0) || (decide (c.1 < S.X) && c.2 == S.Y)
      | .vertical => (c.1 == 0 && decide (1 ≤ c.2 ∧ c.2 ≤ S.Y)) || (c.1 == S.X && decide (c.2 < S.Y)) }

/-- The condition of `update_to_delete_list`, wiring_reduction.hpp:705-706. -/
def Search.inner (S : Search) (c : Tile) : Bool :=
  match S.dir with
  | .horizontal => c.1 != 0 && c.1 != S.X
  | .vertical => c.2 != 0 && c.2 != S.Y

/-- `update_to_delete_list`, wiring_reduction.hpp:698-719. -/
def updateToDelete : List Tile → Search → List Tile → Search × List Tile
  | [], S, del => (S, del)
  | c :: p, S, del =>
    if S.inner c then
      updateToDelete p { S with obs := fun d => S.obs d || d == c } (del ++ [(c.1 - 1, c.2 - 1)])
    else updateToDelete p S del

/-- The search for cuts in one direction, wiring_reduction.hpp:1131-1150: `timeout i` says whether the time limit is reached
after `i` paths; `bound` and `fuel` bound the loop and A*. -/
def cutLoop (q : Queue Tile Nat) (fuel : Nat) (timeout : Nat → Bool) : Nat → Nat → Search → List Tile →
    Option (Search × List Tile)
  | 0, _, _, _ => none
  | bound + 1, i, S, del =>
    match getPath q S fuel with
    | none => none
    | some [] => some (S, del)
    | some (c :: p) =>
      let r := updateToDelete (c :: p) S del
      if timeout i then some r else cutLoop q fuel timeout bound (i + 1) r.1 r.2

/-- `offset_matrix`, wiring_reduction.hpp:723: row, then column. -/
abbrev Matrix := Nat → Nat → Nat

/-- The loop over the rows below a deleted tile, wiring_reduction.hpp:750-753. -/
def bumpRows (x y : Nat) : Nat → Matrix → Matrix
  | 0, m => m
  | i + 1, m => if i + 1 > y then bumpRows x y i (fun r k => if r = i + 1 ∧ k = x then m r k + 1 else m r k) else m

/-- The loop over the columns to the right of a deleted tile, wiring_reduction.hpp:757-760. -/
def bumpColumns (x y : Nat) : Nat → Matrix → Matrix
  | 0, m => m
  | i + 1, m => if i + 1 > x then bumpColumns x y i (fun r k => if r = y ∧ k = i + 1 then m r k + 1 else m r k) else m

/-- The body of the loop of `calculate_offset_matrix`, wiring_reduction.hpp:746-761. -/
def offsetStep (S : Search) (m : Matrix) (c : Tile) : Matrix :=
  match S.dir with
  | .horizontal => bumpRows c.1 c.2 S.Y m
  | .vertical => bumpColumns c.1 c.2 S.X m

/-- `calculate_offset_matrix`, wiring_reduction.hpp:738-765. -/
def offsetMatrix (S : Search) (del : List Tile) : Matrix := del.foldl (offsetStep S) fun _ _ => 0

/-- `determine_new_coord`, wiring_reduction.hpp:783-797; the subtraction is one of unsigned numbers, `none` if it wraps
around. -/
def newCoord (dir : Dir) (x y offset : Nat) : Option Tile :=
  match dir with
  | .horizontal => if offset ≤ y then some (x, y - offset) else none
  | .vertical => if offset ≤ x then some (x - offset, y) else none

/-- The new position of a tile, wiring_reduction.hpp:944-950. -/
def Search.moved (S : Search) (del : List Tile) (c : Tile) : Option Tile :=
  newCoord S.dir c.1 c.2 (offsetMatrix S del c.2 c.1)

/-- What `create_wiring_reduction_layout` asks about a node; `sourceLayer` is the layer of the only incoming signal. -/
structure Node where
  tile : Tile
  layer : Nat
  isPi : Bool
  isPo : Bool
  isWire : Bool
  fanouts : Nat
  incoming : Nat
  fromWest : Bool
  fromNorth : Bool
  toEast : Bool
  toSouth : Bool
  sourceLayer : Nat := 0
  deriving DecidableEq

/-- Whether the signal comes from the previous lane. -/
def Node.fromLane (dir : Dir) (n : Node) : Bool := match dir with | .horizontal => n.fromWest | .vertical => n.fromNorth
/-- Whether the signal comes from the previous position of the lane. -/
def Node.fromPos (dir : Dir) (n : Node) : Bool := match dir with | .horizontal => n.fromNorth | .vertical => n.fromWest
/-- Whether the signal goes to the next lane. -/
def Node.toLane (dir : Dir) (n : Node) : Bool := match dir with | .horizontal => n.toEast | .vertical => n.toSouth
/-- Whether the signal goes to the next position of the lane. -/
def Node.toPos (dir : Dir) (n : Node) : Bool := match dir with | .horizontal => n.toSouth | .vertical => n.toEast

/-- The condition for single inputs, wiring_reduction.hpp:459-463. -/
def Node.solid (dir : Dir) (n : Node) : Bool :=
  !n.isWire || n.fanouts != 1 || n.layer != 0 ||
    (n.fromWest && n.toEast && dir == .horizontal) || (n.fromNorth && n.toSouth && dir == .vertical)

/-- Whether the ground tile of a node is obstructed, wiring_reduction.hpp:411-415, 459-466, 533-545. -/
def Node.obstructs (dir : Dir) (n : Node) : Bool :=
  ((n.isPi || n.isPo) && n.layer == 0) || (n.incoming == 1 && n.solid dir) || n.incoming == 2

/-- `create_wiring_reduction_layout` with offsets 1 and `add_obstructions`, wiring_reduction.hpp:384-616, 1116-1117, for a
layout with largest coordinates `w` and `h`. The obstructed connections `conn` and the tiles `extra` obstructed in the special
cases (478-492, 516-528, 547-611) are arbitrary here. -/
def searchLayout (dir : Dir) (w h : Nat) (nodes : List Node) (extra : Tile → Bool) (conn : Tile → Tile → Bool) : Search :=
  addObstructions
    { dir := dir, X := w + 2, Y := h + 2
      obs := fun c => extra c || nodes.any fun n => n.obstructs dir && c == (n.tile.1 + 1, n.tile.2 + 1)
      conn := conn }

/-- The cuts of one direction, wiring_reduction.hpp:1116-1150: the search layout at the end and the tiles to delete. -/
def cuts (q : Queue Tile Nat) (timeout : Nat → Bool) (dir : Dir) (w h : Nat) (nodes : List Node) (extra : Tile → Bool)
    (conn : Tile → Tile → Bool) : Option (Search × List Tile) :=
  cutLoop q ((w + 3) * (h + 3) + 1) timeout (w + h + 3) 0 (searchLayout dir w h nodes extra conn) []

/-! ## Connections -/

/-- `is_wire_tile` in the ground layer. The lambda `is_single_wire` (wiring_reduction.hpp:421-426) comes down to it: a misplaced
parenthesis makes it ask whether a truth value is a fan-out, which the constant nodes 0 and 1 are not. -/
def wireAt (nodes : List Node) (t : Tile) : Bool := nodes.any fun n => n.tile == t && n.layer == 0 && n.isWire

/-- `has_western_incoming_signal` (`has_northern_incoming_signal` for a vertical search) of a ground tile. -/
def fromLaneAt (dir : Dir) (nodes : List Node) (t : Tile) : Bool :=
  nodes.any fun n => n.tile == t && n.layer == 0 && n.fromLane dir

/-- The loop of the special case of bent wires, wiring_reduction.hpp:484-491 and, with rows and columns exchanged, 520-527:
the first tile before position `b` whose signal comes from the previous lane. -/
def bendBefore (dir : Dir) (nodes : List Node) (a : Nat) : Nat → Option Tile
  | 0 => none
  | b + 1 =>
    if wireAt nodes (tileAt dir a b) then
      if fromLaneAt dir nodes (tileAt dir a b) then some (tileAt dir a b) else bendBefore dir nodes a b
    else none

/-- The tile that a bent wire obstructs, wiring_reduction.hpp:470-528; from north to east for a horizontal search, from west to
south for a vertical one. -/
def Node.bendTile (dir : Dir) (nodes : List Node) (n : Node) : Option Tile :=
  if n.incoming == 1 && !n.solid dir && n.fromPos dir && n.toLane dir then
    bendBefore dir nodes (lane dir n.tile) (pos dir n.tile)
  else none

/-- The tile that the only incoming signal comes from. -/
def Node.source (n : Node) : Tile := if n.fromWest then (n.tile.1 - 1, n.tile.2) else (n.tile.1, n.tile.2 - 1)

/-- Whether the connection between two ground tiles of the search layout is obstructed because of a node,
wiring_reduction.hpp:451-456, 470-515, 538-542. A wire that turns has only one turn, so that the order of the cases does not
matter. -/
def Node.blocks (dir : Dir) (n : Node) (u v : Tile) : Bool :=
  let c : Tile := (n.tile.1 + 1, n.tile.2 + 1)
  (n.incoming == 1 && n.layer == 0 && n.sourceLayer == 0 && u == (n.source.1 + 1, n.source.2 + 1) && v == c) ||
  (n.incoming == 1 && !n.solid dir && n.fromPos dir && n.toLane dir && u == c && v == (c.1 + 1, c.2 + 1)) ||
  (n.incoming == 1 && !n.solid dir && n.fromLane dir && n.toPos dir && (u.1 + 1, u.2 + 1) == c && v == c) ||
  (n.incoming == 2 && n.layer == 0 && (u == (c.1 - 1, c.2) || u == (c.1, c.2 - 1)) && v == c)

/-- The cuts of one direction with the obstructions of all nodes; `other` are the tiles obstructed because of crossings
(wiring_reduction.hpp:547-611). -/
def cutsOf (q : Queue Tile Nat) (timeout : Nat → Bool) (dir : Dir) (w h : Nat) (nodes : List Node) (other : Tile → Bool) :
    Option (Search × List Tile) :=
  cuts q timeout dir w h nodes
    (fun t => other t || nodes.any fun n => (n.bendTile dir nodes).any fun b => t == (b.1 + 1, b.2 + 1))
    (fun u v => nodes.any fun n => n.blocks dir u v)

/-- `incoming_data_flow(t)[0]` of a ground tile; `none` if there is no signal. -/
def incomingOf (nodes : List Node) (t : Tile) : Option Tile :=
  match nodes.find? (fun n => n.tile == t && n.layer == 0) with
  | some n => if n.incoming == 0 then none else some n.source
  | none => none

/-- The loop over deleted wires, wiring_reduction.hpp:841-855 and, with rows and columns exchanged, 903-917: the tile and the
excess offset; the first argument is the number of iterations left. -/
def walk (S : Search) (nodes : List Node) (del : List Tile) : Nat → Tile → Nat → Option (Tile × Nat)
  | 0, f, e => some (f, e)
  | o + 1, f, e =>
    match incomingOf nodes f with
    | none => none
    | some s =>
      let p : Tile := tileAt S.dir (lane S.dir f) (pos S.dir f - 1)
      if pos S.dir f > 0 ∧ offsetMatrix S del f.2 f.1 ≠ offsetMatrix S del p.2 p.1 ∧ pos S.dir s ≠ pos S.dir f then
        walk S nodes del o p (e + 1)
      else some (s, e + 1)

/-- A tile moved up by `offset` and down by `excess`; `none` if the number wraps around. -/
def Search.lift (S : Search) (f : Tile) (offset excess : Nat) : Option Tile :=
  if offset ≤ pos S.dir f + excess then some (tileAt S.dir (lane S.dir f) (pos S.dir f + excess - offset)) else none

/-- `adjust_tile_horizontal_search_dir` and `adjust_tile_vertical_search_dir`, wiring_reduction.hpp:813-861, 875-923, which are
the same with rows and columns exchanged: the place that the signal from the fan-in `f` of a tile comes from. -/
def Search.newFanin (S : Search) (nodes : List Node) (del : List Tile) (old f : Tile) : Option Tile :=
  let offset := offsetMatrix S del old.2 old.1
  if pos S.dir f = pos S.dir old then S.lift f offset 0
  else
    let n : Tile := tileAt S.dir (lane S.dir f) (pos S.dir f + 1)
    if offsetMatrix S del n.2 n.1 ≠ offsetMatrix S del f.2 f.1 then
      match walk S nodes del offset f 0 with
      | some (r, e) => S.lift r offset e
      | none => none
    else S.lift f offset 0

end Verif.Wiring
