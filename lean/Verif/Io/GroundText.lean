import Verif.Sidb.ChargeText

/-!
# Model of `io/write_location_and_ground_state.hpp`

Energies are rational numbers; rounding to six decimal places is an argument that gives the rounded energy as a multiple of `1e-6`.
The formatting of positions and of indices is an argument as well.
-/
namespace Verif.GroundText

open Verif.ChargeText

/-- A charge distribution with SiDBs at positions of type `P`: its energy, its SiDBs and their charges. -/
structure Dist (P : Type) where
  energy : Rat
  sidbs : List P
  charge : P → State

/-- Formatting and comparison: rounding (math_utils.hpp:29-34), coordinates with three decimal places
(write_location_and_ground_state.hpp:74-75), `GS_{}` (63), and the order of cells (70). -/
structure Format (P : Type) where
  round : Rat → Int
  xy : P → List Char × List Char
  index : Nat → List Char
  le : P → P → Bool

/-- The least energy of a list of distributions that begins with one of energy `e`, minimum_energy.hpp:27-41. -/
def least {P : Type} (e : Rat) : List (Dist P) → Rat
  | [] => e
  | d :: rest => least (if d.energy < e then d.energy else e) rest

/-- The ground states, write_location_and_ground_state.hpp:42-54: the error margin of `1e-6` is one unit of rounding. -/
def groundStates {P : Type} (F : Format P) : List (Dist P) → List (Dist P)
  | [] => []
  | d :: rest => (d :: rest).filter fun x => decide ((F.round x.energy - F.round (least d.energy rest)).natAbs < 1)

/-- `fmt::format("{}", charge_state_to_sign(...))`, write_location_and_ground_state.hpp:78. -/
def signText (s : State) : List Char := if toSign s = -1 then ['-', '1'] else if toSign s = 1 then ['1'] else ['0']

/-- A line: each value is followed by a semicolon, write_location_and_ground_state.hpp:59-65, 75-80. -/
def line : List (List Char) → List Char
  | [] => ['\n']
  | v :: rest => v ++ ';' :: line rest

/-- The names of the columns of ground states, write_location_and_ground_state.hpp:61-64. -/
def columns {P : Type} (F : Format P) : Nat → List (Dist P) → List (List Char)
  | _, [] => []
  | i, _ :: rest => ('G' :: 'S' :: '_' :: F.index i) :: columns F (i + 1) rest

/-- The lines of SiDBs, write_location_and_ground_state.hpp:72-81. -/
def lines {P : Type} (F : Format P) (gs : List (Dist P)) : List P → List Char
  | [] => []
  | c :: rest => line ((F.xy c).1 :: (F.xy c).2 :: gs.map (fun d => signText (d.charge c))) ++ lines F gs rest

/-- `run`, write_location_and_ground_state.hpp:40-83. -/
def run {P : Type} (F : Format P) (dists : List (Dist P)) : List Char :=
  match groundStates F dists with
  | [] => []
  | g :: rest =>
    line ("x [nm]".toList :: " y [nm]".toList :: columns F 0 (g :: rest)) ++ lines F (g :: rest) (g.sidbs.mergeSort F.le)

end Verif.GroundText
