import Verif.Io.Qcc

/-!
# Model of `io/write_qll_layout.hpp` for iNML layouts

Layouts have one layer of cells. The settings and the texts of XML elements are not modelled.
-/
namespace Verif.Qcc

/-- An element of the layout: an item for a magnet, or a pin with its name, its direction and its place. -/
inductive Elem
  | item (i : Item)
  | pin (name : String) (direction : Nat) (x y : Nat)
  deriving DecidableEq

/-- `write_pins`, write_qll_layout.hpp:264-274, with the sorting of 161-177. -/
def Layout.qllPins (L : Layout) (name : Cell → String) : List Elem :=
  (L.pis.mergeSort fun a b => decide (a.y ≤ b.y)).map (fun c => .pin (name c) 0 (c.x - L.minX) (c.y - L.minY)) ++
  (L.pos.mergeSort fun a b => decide (a.y ≤ b.y)).map (fun c => .pin (name c) 1 (c.x - L.minX) (c.y - L.minY))

/-- `run` and `write_layout`, write_qll_layout.hpp:113-132, 276-351, 417-418. The loop, the check of pins and the table of components are the same as in
write_qcc_layout.hpp (189-217, 94-98). `none` is the exception. The number of an element is its identifier. -/
def Layout.qll (L : Layout) (name : Cell → String) : Option (List (Elem × Nat)) :=
  if L.accepted then some (((L.scan L.cells []).map (fun c => Elem.item (L.item c)) ++ L.qllPins name).zipIdx 1) else none

end Verif.Qcc
