import Mathlib.Data.Nat.Digits.Defs

/-!
# What the text of a matrix of defects looks like

Independent of the model of the reader.
-/
namespace Verif.Defects

/-- One of the characters `0` to `9`. -/
def Digit (c : Char) : Prop := ∃ d < 10, c = Nat.digitChar d

/-- A blank, a horizontal or vertical tabulator, a line feed, a form feed or a carriage return. -/
def White (c : Char) : Prop := c ∈ [' ', '\t', '\n', '\x0b', '\x0c', '\r']

/-- `ds` are decimal digits of the number `n`, the most significant one first, possibly with leading zeros. -/
def Numeral (n : Nat) (ds : List Char) : Prop :=
  ∃ digits : List Nat, digits ≠ [] ∧ (∀ d ∈ digits, d < 10) ∧ ds = digits.map Nat.digitChar ∧ Nat.ofDigits 10 digits.reverse = n

/-- A row: numbers separated by white space, with white space around them. -/
inductive RowText : List Nat → List Char → Prop
  | nil (w : List Char) (hw : ∀ c ∈ w, White c) : RowText [] w
  | cons (w ds rest : List Char) (n : Nat) (ns : List Nat) (hw : ∀ c ∈ w, White c) (hn : Numeral n ds)
      (hsep : ∀ c, rest.head? = some c → White c) (hr : RowText ns rest) : RowText (n :: ns) (w ++ ds ++ rest)

/-- A matrix: its rows in brackets, with anything but digits before, between and after them. -/
inductive MatrixText : List (List Nat) → List Char → Prop
  | nil (gap : List Char) (hg : ∀ c ∈ gap, ¬ Digit c) : MatrixText [] gap
  | cons (gap body rest : List Char) (row : List Nat) (rows : List (List Nat)) (hg : ∀ c ∈ gap, ¬ Digit c) (hne : row ≠ [])
      (hb : RowText row body) (hr : MatrixText rows rest) : MatrixText (row :: rows) (gap ++ '[' :: (body ++ ']' :: rest))

end Verif.Defects
