import Verif.Io.Qcc

/-!
# Model of `technology/magcad_magnet_count.hpp`
-/
namespace Verif.Qcc

/-- The types of the cells that are not empty, in the order of `foreach_cell`. -/
def Layout.magnets (L : Layout) : List Ty := (L.cells.map L.type).filter fun t => decide (t ≠ .empty)

/-- `magcad_magnet_count`, magcad_magnet_count.hpp:23-43. `num_cells` is the number of cells that are not empty. -/
def Layout.magnetCount (L : Layout) : Nat :=
  L.magnets.length + (L.magnets.filter fun t => decide (t = .inverter)).length / 4

end Verif.Qcc
