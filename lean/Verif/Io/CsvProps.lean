import Verif.Io.Csv
import Mathlib.Data.List.Basic

/-!
# C108: delimited data

## Specification
-/
namespace Verif.Csv

/-- Reading of delimited data: the text is cut at the ends of lines, after the last of which nothing follows, and each line at its
commas. -/
def readBack (text : List Char) : List (List (List Char)) := (text.splitOn '\n').dropLast.map (fun l => l.splitOn ',')

/-! ## Lemmas -/

theorem intercalate_cons_cons (x : Char) (a b : List Char) (l : List (List Char)) :
    [x].intercalate (a :: b :: l) = a ++ x :: [x].intercalate (b :: l) := by
  simp [List.intercalate, List.intersperse]

theorem writeLine_eq : ∀ l : List (List Char), writeLine l = [','].intercalate l ++ ['\n']
  | [] => by simp [writeLine, List.intercalate]
  | [a] => by simp [writeLine, List.intercalate]
  | a :: b :: l => by rw [writeLine, writeLine_eq (b :: l), intercalate_cons_cons]; simp

theorem write_eq : ∀ lines : List (List (List Char)),
    write lines = ['\n'].intercalate (lines.map (fun l => [','].intercalate l) ++ [[]])
  | [] => by simp [write, List.intercalate]
  | l :: lines => by
    rw [write, write_eq lines, writeLine_eq, List.map_cons, List.cons_append]
    cases lines with
    | nil => rw [List.map_nil, List.nil_append, intercalate_cons_cons]; simp
    | cons m lines => rw [List.map_cons, List.cons_append, intercalate_cons_cons]; simp

theorem mem_intercalate {c x : Char} : ∀ {l : List (List Char)}, c ∈ [x].intercalate l → c = x ∨ ∃ a ∈ l, c ∈ a
  | [], h => by simp [List.intercalate] at h
  | [a], h => by
    have : c ∈ a := by simpa [List.intercalate] using h
    exact Or.inr ⟨a, by simp, this⟩
  | a :: b :: l, h => by
    rw [intercalate_cons_cons] at h
    rcases List.mem_append.1 h with h | h
    · exact Or.inr ⟨a, by simp, h⟩
    · rcases List.mem_cons.1 h with h | h
      · exact Or.inl h
      · rcases mem_intercalate h with h | ⟨d, hd, h⟩
        · exact Or.inl h
        · exact Or.inr ⟨d, List.mem_cons_of_mem _ hd, h⟩

theorem split_lines (lines : List (List (List Char))) (hn : ∀ l ∈ lines, ∀ a ∈ l, '\n' ∉ a) :
    (write lines).splitOn '\n' = lines.map (fun l => [','].intercalate l) ++ [[]] := by
  rw [write_eq, List.splitOn_intercalate]
  · intro t ht hc
    rcases List.mem_append.1 ht with ht | ht
    · obtain ⟨l, hl, rfl⟩ := List.mem_map.1 ht
      rcases mem_intercalate hc with h | ⟨a, ha, h⟩
      · exact absurd h (by decide)
      · exact hn l hl a ha h
    · rw [List.mem_singleton] at ht
      rw [ht] at hc
      cases hc
  · simp

/-! ## Theorems -/

/-- C108. If no value contains a comma or the end of a line, and each line has a value, reading what was written gives all values of
all lines in order. -/
theorem C108_roundtrip (lines : List (List (List Char))) (he : ∀ l ∈ lines, l ≠ [])
    (hn : ∀ l ∈ lines, ∀ a ∈ l, '\n' ∉ a) (hc : ∀ l ∈ lines, ∀ a ∈ l, ',' ∉ a) : readBack (write lines) = lines := by
  unfold readBack
  rw [split_lines lines hn, List.dropLast_concat, List.map_map]
  conv_rhs => rw [← List.map_id lines]
  refine List.map_congr_left fun l hl => ?_
  exact List.splitOn_intercalate ',' (hc l hl) (he l hl)

/-- C108. Each call writes one line, whatever commas its values contain, also if it has no values. -/
theorem C108_lines (lines : List (List (List Char))) (hn : ∀ l ∈ lines, ∀ a ∈ l, '\n' ∉ a) :
    (readBack (write lines)).length = lines.length := by
  unfold readBack
  rw [split_lines lines hn, List.dropLast_concat, List.length_map, List.length_map]

/-- C108. Without values only the end of the line is written. -/
theorem C108_empty : writeLine [] = ['\n'] := rfl

/-- C108. Commas in values are not escaped: different values give the same text. -/
theorem C108_false_comma : write [[['a', ',', 'b']]] = write [[['a'], ['b']]] := by decide +kernel

/-! ## Examples -/

/-- Two lines. -/
def sample : List (List (List Char)) := [[['N', 'a'], ['A']], [['B', 'o', 'b'], [], ['2']]]

example : write sample = ['N', 'a', ',', 'A', '\n', 'B', 'o', 'b', ',', ',', '2', '\n'] := by decide +kernel

example : (∀ l ∈ sample, l ≠ []) ∧ (∀ l ∈ sample, ∀ a ∈ l, '\n' ∉ a) ∧ ∀ l ∈ sample, ∀ a ∈ l, ',' ∉ a := by decide +kernel

end Verif.Csv
