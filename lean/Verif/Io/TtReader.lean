/-!
# Model of `io/tt_reader.hpp`

The input is a list of words without white space. The parser of hexadecimal numbers (`kitty::create_from_hex_string`) is not
modelled: results are the digits and the number of variables it is given.
-/
namespace Verif.TtReader

/-- A reader: `elements` and `pos`, tt_reader.hpp:97-101. -/
structure Reader where
  elements : List (List Char)
  pos : Nat

/-- What `next` gives; `undefined` is an access outside of the vector, and `thrown` the exception of `substr`. -/
inductive Result
  | nullopt
  | table (vars : Nat) (digits : List Char)
  | undefined
  | thrown
  deriving DecidableEq

/-- The constructor and `read`, tt_reader.hpp:37-53, 86-92; a file that cannot be opened gives no words. -/
def Reader.open (words : List (List Char)) : Reader := ⟨words, 0⟩

/-- `next`, tt_reader.hpp:59-78; differences of 64-bit numbers wrap around. -/
def Reader.next (r : Reader) : Result × Reader :=
  if r.pos ≥ (r.elements.length + 2 ^ 64 - 1) % 2 ^ 64 then (.nullopt, r)
  else match r.elements[r.pos]? with
    | none => (.undefined, r)
    | some w =>
      if w.length < 2 then (.thrown, r)
      else
        let table := w.drop 2
        (.table (Nat.log2 (table.length * 4)) table, { r with pos := r.pos + 2 })

/-- The results of the first calls of `next`. -/
def Reader.results (r : Reader) : Nat → List Result
  | 0 => []
  | n + 1 => r.next.1 :: r.next.2.results n

end Verif.TtReader
