import Mathlib.Algebra.Order.Field.Rat

/-!
# Model of `technology/area.hpp`

Numbers are rational instead of `double`.
-/
namespace Verif.Area

/-- `area_params`, area.hpp:23-42. -/
structure Params where
  width : ℚ
  height : ℚ
  hspace : ℚ
  vspace : ℚ

/-- `area_stats::width`, area.hpp:92, 122. `x` is the largest column of the layout, or the size of the bounding box. -/
def width (p : Params) (x : Nat) : ℚ := ((x + 1 : Nat) : ℚ) * p.width + (x : ℚ) * p.hspace

/-- `area_stats::height`, area.hpp:93, 123. -/
def height (p : Params) (y : Nat) : ℚ := ((y + 1 : Nat) : ℚ) * p.height + (y : ℚ) * p.vspace

/-- `area`, area.hpp:85-102, 114-132. -/
def area (p : Params) (x y : Nat) : ℚ := width p x * height p y

end Verif.Area
