import Verif.Defects.Surface

/-!
# Model of `affected_sidbs`, `all_affected_sidbs` and of `technology/sidb_surface_analysis.hpp`

Cell positions are offset coordinates: columns and rows are 31-bit fields. A computation that overflows the type `int` has
undefined behavior, which is the outcome `none` here, and so is the termination of the program by an exception that leaves a
`noexcept` function.
-/
namespace Verif.Defects

open Verif.Cells Verif.Library Verif.Layouts

/-- The number of values of a column or row of an offset coordinate, coordinates.hpp:61-65. -/
def fieldSize : Nat := 2147483648

/-- The value a 31-bit field takes when it is initialised with an integer, coordinates.hpp:88-94. -/
def toField (n : Int) : Nat := (n % 2147483648).toNat

/-- The values of a loop `for (auto i = a - e; i <= a + e; ++i)`, sidb_defect_surface.hpp:295-299. -/
def around (a e : Nat) : List Int := (List.range (2 * e + 1)).map (fun i : Nat => (a : Int) - (e : Int) + (i : Int))

/-- `is_within_bounds`, cartesian_layout.hpp:640-643, hexagonal_layout.hpp:802-805. -/
def within (m : Dim) (p : CellPos) : Bool := decide (p.1 ≤ m.X) && decide (p.2.1 ≤ m.Y) && decide (p.2.2 ≤ m.Z)

/-- `affected_sidbs`, sidb_defect_surface.hpp:282-310, on a surface with aspect ratio `m`. Bit fields of 31 bits are promoted
to `int`, so that the upper ends of the loops overflow if they exceed `2^31 - 1`. -/
def affected (m : Dim) (s : Surface CellPos) (c : CellPos) (charged neutral : Option (Nat × Nat)) : Option (List CellPos) :=
  let d := s.get c
  if d.type ≠ .none then
    let e := extent d charged neutral
    if c.1 + e.1 < fieldSize ∧ c.2.1 + e.2 < fieldSize then
      some ((around c.2.1 e.2).foldl (fun acc y => (around c.1 e.1).foldl (fun acc x =>
        let p : CellPos := (toField x, toField y, c.2.2)
        if within m p then setInsert acc p else acc) acc) [])
    else none
  else some []

/-- The conversion of a pair of 64-bit distances to a pair of 16-bit ones by which `all_affected_sidbs` passes its arguments
on, sidb_defect_surface.hpp:324-335. -/
def narrow (o : Option (Nat × Nat)) : Option (Nat × Nat) := o.map (fun p => (p.1 % 65536, p.2 % 65536))

/-- `all_affected_sidbs`, sidb_defect_surface.hpp:323-339. -/
def allAffected (m : Dim) (s : Surface CellPos) (charged neutral : Option (Nat × Nat)) : Option (List CellPos) :=
  s.visited.foldlM (fun acc p => (affected m s p.1 (narrow charged) (narrow neutral)).map (fun l => l.foldl setInsert acc)) []

section Analysis
variable {X Y : Nat} {Fn Pl : Type} [DecidableEq Fn]

/-- `surface_black_list`, sidb_surface_analysis.hpp:36-39. -/
abbrev BlackList (Fn Pl : Type) := List (Coord × List (Fn × List Pl))

/-- `black_list[t][fun].push_back(port)`, sidb_surface_analysis.hpp:122. -/
def BlackList.push (bl : BlackList Fn Pl) (t : Coord) (f : Fn) (p : Pl) : BlackList Fn Pl :=
  let inner := (find bl t).getD []
  assign bl t (assign inner f ((find inner f).getD [] ++ [p]))

/-- What the black list holds for a function on a tile; `none` if there is no entry. -/
def BlackList.entry (bl : BlackList Fn Pl) (t : Coord) (f : Fn) : Option (List Pl) := (find bl t).bind (fun i => find i f)

/-- The loops over the cells of a gate, sidb_surface_analysis.hpp:101-136: is one of its SiDBs at an affected position? -/
def hit (l : Lay) (aff : List CellPos) (t : Coord) (g : Gate X Y SidbType) : Bool :=
  (List.finRange Y).any (fun y => (List.finRange X).any (fun x =>
    g y x != .empty && decide (relToAbs l X Y t (x.val, y.val) ∈ aff)))

/-- `analyze_gate`, sidb_surface_analysis.hpp:90-138. `ports g` is `gate_ports.at(gate)`, which throws if there is no entry. -/
def analyzeGate (l : Lay) (aff : List CellPos) (ports : Gate X Y SidbType → Option (List Pl)) (t : Coord)
    (bl : BlackList Fn Pl) (it : Fn × List (Gate X Y SidbType)) : Option (BlackList Fn Pl) :=
  it.2.foldlM (fun bl g =>
    if hit l aff t g then (ports g).map (fun ps => ps.foldl (fun bl p => bl.push t it.1 p) bl) else some bl) bl

/-- The tiles of a layout in the order of `foreach_tile`. -/
def tiles (m : Dim) : List Coord :=
  (List.range (m.Z + 1)).flatMap (fun z => (List.range (m.Y + 1)).flatMap (fun y =>
    (List.range (m.X + 1)).map (fun x => ⟨x, y, z, false⟩)))

/-- `sidb_surface_analysis`, sidb_surface_analysis.hpp:59-153, for a gate-level layout of aspect ratio `gm` on a surface of
aspect ratio `m`. `impls` is `get_functional_implementations()`. -/
def analysis (l : Lay) (gm m : Dim) (s : Surface CellPos) (impls : List (Fn × List (Gate X Y SidbType)))
    (ports : Gate X Y SidbType → Option (List Pl)) (charged neutral : Option (Nat × Nat)) : Option (BlackList Fn Pl) :=
  (allAffected m s charged neutral).bind (fun aff =>
    (tiles gm).foldlM (fun bl t => impls.foldlM (analyzeGate l aff ports t) bl) [])

end Analysis
end Verif.Defects
