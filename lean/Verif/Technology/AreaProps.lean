import Verif.Technology.Area
import Mathlib.Tactic.Linarith
import Mathlib.Tactic.Ring
import Mathlib.Tactic.Push
import Mathlib.Tactic.NormNum
import Mathlib.Order.Bounds.Basic

/-!
# C120: area of cell layouts

## Specification
-/
namespace Verif.Area

/-- Dimensions are positive and spaces are not negative. -/
structure Params.Sound (p : Params) : Prop where
  width : 0 < p.width
  height : 0 < p.height
  hspace : 0 ≤ p.hspace
  vspace : 0 ≤ p.vspace

/-- The left end of a cell in the i-th column: that of the one before, its width and the space. -/
def left (p : Params) : Nat → ℚ
  | 0 => 0
  | i + 1 => left p i + p.width + p.hspace

/-- The top end of a cell in the j-th row. -/
def top (p : Params) : Nat → ℚ
  | 0 => 0
  | j + 1 => top p j + p.height + p.vspace

/-- The point is covered by a cell of the first `x + 1` columns and `y + 1` rows. -/
def Covered (p : Params) (x y : Nat) (a b : ℚ) : Prop :=
  ∃ i j, i ≤ x ∧ j ≤ y ∧ left p i ≤ a ∧ a ≤ left p i + p.width ∧ top p j ≤ b ∧ b ≤ top p j + p.height

/-! ## Lemmas -/

theorem left_eq (p : Params) : ∀ i, left p i = (i : ℚ) * (p.width + p.hspace)
  | 0 => by simp [left]
  | i + 1 => by
    rw [left, left_eq p i]
    push_cast
    ring

theorem top_eq (p : Params) : ∀ i, top p i = (i : ℚ) * (p.height + p.vspace)
  | 0 => by simp [top]
  | i + 1 => by
    rw [top, top_eq p i]
    push_cast
    ring

theorem width_eq (p : Params) (x : Nat) : width p x = left p x + p.width := by
  rw [left_eq, width]
  push_cast
  ring

theorem height_eq (p : Params) (y : Nat) : height p y = top p y + p.height := by
  rw [top_eq, height]
  push_cast
  ring

theorem left_mono (p : Params) (h : p.Sound) {i x : Nat} (hi : i ≤ x) : 0 ≤ left p i ∧ left p i ≤ left p x := by
  have h1 := h.width
  have h2 := h.hspace
  rw [left_eq, left_eq]
  have : (i : ℚ) ≤ x := by exact_mod_cast hi
  have h0 : (0 : ℚ) ≤ i := by exact_mod_cast Nat.zero_le i
  exact ⟨mul_nonneg h0 (by linarith), mul_le_mul_of_nonneg_right this (by linarith)⟩

theorem top_mono (p : Params) (h : p.Sound) {i x : Nat} (hi : i ≤ x) : 0 ≤ top p i ∧ top p i ≤ top p x := by
  have h1 := h.height
  have h2 := h.vspace
  rw [top_eq, top_eq]
  have : (i : ℚ) ≤ x := by exact_mod_cast hi
  have h0 : (0 : ℚ) ≤ i := by exact_mod_cast Nat.zero_le i
  exact ⟨mul_nonneg h0 (by linarith), mul_le_mul_of_nonneg_right this (by linarith)⟩

/-! ## Theorems -/

/-- C120. Width and height are those of the smallest rectangle that contains all cells: each point of a cell is in it, and both of its opposite corners are
points of cells. -/
theorem C120_extent (p : Params) (h : p.Sound) (x y : Nat) :
    (∀ a b, Covered p x y a b → 0 ≤ a ∧ a ≤ width p x ∧ 0 ≤ b ∧ b ≤ height p y) ∧ Covered p x y 0 0 ∧ Covered p x y (width p x) (height p y) := by
  have hw := h.width
  have hh := h.height
  refine ⟨?_, ⟨0, 0, Nat.zero_le _, Nat.zero_le _, ?_⟩, ⟨x, y, Nat.le_refl _, Nat.le_refl _, ?_⟩⟩
  · rintro a b ⟨i, j, hi, hj, h1, h2, h3, h4⟩
    have h5 := left_mono p h hi
    have h6 := top_mono p h hj
    rw [width_eq, height_eq]
    refine ⟨?_, ?_, ?_, ?_⟩ <;> linarith
  · simp only [left, top]
    refine ⟨?_, ?_, ?_, ?_⟩ <;> linarith
  · rw [width_eq, height_eq]
    refine ⟨?_, ?_, ?_, ?_⟩ <;> linarith

/-- C120. The area is that of this rectangle, and is positive. -/
theorem C120_area (p : Params) (h : p.Sound) (x y : Nat) :
    area p x y = (left p x + p.width) * (top p y + p.height) ∧ 0 < area p x y := by
  have e : area p x y = (left p x + p.width) * (top p y + p.height) := by rw [area, width_eq, height_eq]
  refine ⟨e, ?_⟩
  rw [e]
  have h1 := h.width
  have h2 := h.height
  have h5 := left_mono p h (Nat.le_refl x)
  have h6 := top_mono p h (Nat.le_refl y)
  exact mul_pos (by linarith) (by linarith)

/-- C120. The area of a bounding box is at most that of its layout. -/
theorem C120_box (p : Params) (h : p.Sound) (x y x' y' : Nat) (hx : x' ≤ x) (hy : y' ≤ y) : area p x' y' ≤ area p x y := by
  rw [(C120_area p h x y).1, (C120_area p h x' y').1]
  have h1 := h.width
  have h2 := h.height
  have h5 := left_mono p h hx
  have h6 := top_mono p h hy
  exact mul_le_mul (by linarith) (by linarith) (by linarith) (by linarith)

/-! ## Examples -/

/-- QCA cells. -/
def qca : Params := ⟨18, 18, 2, 2⟩

example : qca.Sound := by constructor <;> norm_num [qca]

example : area qca 4 4 = 98 * 98 := by norm_num [area, width, height, qca]

end Verif.Area
