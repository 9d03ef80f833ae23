/-!
# Model of `io/csv_writer.hpp`

Values are the characters that the stream writes for them.
-/
namespace Verif.Csv

/-- `write_line`, csv_writer.hpp:54-77: what is written for a list of values. -/
def writeLine : List (List Char) → List Char
  | [] => ['\n']
  | [a] => a ++ ['\n']
  | a :: b :: rest => a ++ ',' :: writeLine (b :: rest)

/-- What successive calls of `write_line` write. -/
def write : List (List (List Char)) → List Char
  | [] => []
  | l :: lines => writeLine l ++ write lines

end Verif.Csv
