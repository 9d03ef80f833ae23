import Verif.GateLevel.Model

/-!
# Model of `algorithms/physical_design/hexagonalization.hpp`

The default parameters: input and output pins are not extended to the borders. Names and statistics are omitted. Coordinates are
unbounded (31 bits in the code); a negative column would wrap around in the code and is 0 here, which `Hexable.col_nonneg` shows not to
occur. Literals stand for functions, as in the model of gate-level layouts. `none` is a violated assertion or an access out of bounds.
-/
namespace Verif.PhysicalDesign.Hexa

open Verif.Layouts Verif.Clocking Verif.GateLevel

/-- `std::ceil` of half an integer. -/
def ceilHalf (a : Int) : Int := -((-a) / 2)

/-- The column `to_hex` yields, hexagonalization.hpp:177-197, for a layout of height `h`:
`x + ceil(floor(h / 2) - (x + y) / 2)`; the doubles are exact. -/
def toHexX (h : Nat) (t : Coord) : Int := t.x + ceilHalf (2 * ((h / 2 : Nat) : Int) - ((t.x + t.y : Nat) : Int))

/-- `to_hex` with the column shifted by the offset, hexagonalization.hpp:486-487, 571-572, 583-588, 603-608, 634-637. -/
def hexTile (h : Nat) (off : Int) (t : Coord) : Coord := ⟨(toHexX h t - off).toNat, t.x + t.y, t.z, false⟩

/-- The tiles of a diagonal, hexagonalization.hpp:345-352. -/
def diagonal (w h d : Nat) : List Coord :=
  (List.range h).filterMap (fun row => if row ≤ d ∧ d - row < w then some ⟨d - row, h - 1 - row, 0, false⟩ else none)

/-- The column of the first diagonal that is not empty, hexagonalization.hpp:337-362. -/
def firstColumn (s : State) (w h : Nat) : List Nat → Int
  | [] => 0
  | d :: ds =>
    match (diagonal w h d).filter (fun t => !s.isEmptyTile t) with
    | [] => firstColumn s w h ds
    | l => l.foldl (fun o t => max o (toHexX h t)) 0

/-- `get_offset`, hexagonalization.hpp:328-398, without pin extension: `offset_to_subtract` (`offset_to_add` is 0). -/
def getOffset (m : Dim) (s : State) : Int := firstColumn s (m.X + 1) (m.Y + 1) (List.range (m.Y + 1 + (m.X + 1) - 1))

/-- The state of the conversion: `hex_layout`, `x_max`, `y_max`. -/
structure St where
  lyt : State
  xmax : Nat
  ymax : Nat

/-- The update of `x_max` and `y_max`, hexagonalization.hpp:491-492, 574-575, 639-640. -/
def St.see (st : St) (t : Coord) : St := { st with xmax := max t.x st.xmax, ymax := max t.y st.ymax }

section
variable (m : Dim) (cs : Scheme) (s : State) (mh : Dim) (f : Coord → Coord)

/-- The signal of a fanin, hexagonalization.hpp:583-591, 611-612, 643: `make_signal(get_node(f(c)))`. -/
def signal (lyt : State) (c : Coord) : Coord := lyt.getTile (lyt.getNode (f c))

/-- The body of the loop over the inputs, hexagonalization.hpp:480-503. -/
def stepPi (st : St) (n : Nat) : St :=
  let t := f (s.getTile n)
  { st with lyt := st.lyt.createPi mh t }.see t

/-- The body of the loop over the tiles, hexagonalization.hpp:550-617, and `place`, placement_utils.hpp:121-264. -/
def stepTile (st : St) (t : Coord) : Option St :=
  if s.isEmptyTile t then some st
  else
    let n := s.getNode t
    if s.isPi n then some st
    else
      let st := st.see (f t)
      match s.fanins m .cart cs true n with
      | [a] =>
        if s.isPo n then some st
        else if (s.nodes n).fn = 2 ∨ (s.nodes n).fn = 3 then
          some { st with lyt := st.lyt.createGate mh (s.nodes n).fn [signal f st.lyt a] (f t) }
        else none
      | [a, b] => some { st with lyt := st.lyt.createGate mh (s.nodes n).fn [signal f st.lyt a, signal f st.lyt b] (f t) }
      | _ => some st

/-- The tiles of the layout in the order of hexagonalization.hpp:540-553. -/
def tiles : List Coord :=
  (List.range (m.X + 1 + (m.Y + 1) - 1)).flatMap (fun k =>
    (List.range (k + 1)).flatMap (fun x =>
      if k - x < m.Y + 1 ∧ x < m.X + 1 then (List.range (m.Z + 1)).map (fun z => ⟨x, k - x, z, false⟩) else []))

/-- The body of the loop over the outputs, hexagonalization.hpp:623-655. -/
def stepPo (st : St) (p : Coord) : Option St :=
  let t := s.getTile (s.getNode p)
  match s.fanins m .cart cs true (s.getNode t) with
  | [] => none
  | c :: _ => some ({ st with lyt := st.lyt.createPo mh (signal f st.lyt c) (f t) }.see (f t))

end

/-- `hexagonalization`, hexagonalization.hpp:410-441, 451-455, 480-655, 976-981, 1029-1036, on the layout `s` of the dimension `m`:
the dimension of the hexagonal layout and its content. -/
def hexagonalization (m : Dim) (cs : Scheme) (s : State) : Option (Dim × State) :=
  let h := m.Y + 1
  let f := hexTile h (getOffset m s)
  let mh : Dim := ⟨(toHexX h ⟨m.X, 0, 0, false⟩).toNat, m.X + m.Y, m.Z⟩
  let st := s.inputs.foldl (stepPi s mh f) ⟨init, 0, 0⟩
  match (tiles m).foldlM (stepTile m cs s mh f) st with
  | none => none
  | some st =>
    match s.outputs.foldlM (stepPo m cs s mh f) st with
    | none => none
    | some st => some (⟨st.xmax, st.ymax, m.Z⟩, st.lyt)

end Verif.PhysicalDesign.Hexa
