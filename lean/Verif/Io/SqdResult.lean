import Verif.Sidb.ChargeText

/-!
# Model of `io/write_sqd_sim_result.hpp`

The values that are written, without the text of the XML elements around them; engine information and parameters are not modelled.
-/
namespace Verif.SqdResult

open Verif.ChargeText

/-- A charge distribution surface. -/
structure Surface (P : Type) where
  energy : Rat
  valid : Bool
  cells : List P
  charge : P → State

/-- A `dist` element, write_sqd_sim_result.hpp:71-72. -/
structure DistElem where
  energy : Rat
  count : Nat
  valid : Nat
  stateCount : Nat
  charges : List Char

/-- `obtain_ordered_cells`, write_sqd_sim_result.hpp:154-175. -/
def orderedCells {P : Type} (le : P → P → Bool) : List (Surface P) → List P
  | [] => []
  | s :: _ => s.cells.mergeSort le

/-- The positions of the `dbdot` elements, `write_physical_locations`, write_sqd_sim_result.hpp:218-231. -/
def dots {P Q : Type} (le : P → P → Bool) (position : P → Q) (ss : List (Surface P)) : List Q := (orderedCells le ss).map position

/-- The element of a surface, write_sqd_sim_result.hpp:256-273. -/
def element {P : Type} (cells : List P) (s : Surface P) : DistElem :=
  ⟨s.energy, 1, if s.valid then 1 else 0, 3, text (cells.map s.charge)⟩

/-- `write_electron_distributions`, write_sqd_sim_result.hpp:236-276; a stable sort stands for `std::ranges::sort`. -/
def elements {P : Type} (le : P → P → Bool) (ss : List (Surface P)) : List DistElem :=
  (ss.mergeSort (fun a b => decide (a.energy ≤ b.energy))).map (element (orderedCells le ss))

end Verif.SqdResult
