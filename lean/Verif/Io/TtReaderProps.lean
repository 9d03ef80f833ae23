import Verif.Io.TtReader
import Mathlib.Data.List.Basic

/-!
# C107: reading of truth tables

## Specification
-/
namespace Verif.TtReader

/-- A line of a file: a truth table with its number of variables, at least two, as `2 ^ (vars - 2)` hexadecimal digits, and an
expression. -/
structure Line where
  vars : Nat
  digits : List Char
  expression : List Char

/-- The number of digits is right. -/
def Line.Valid (l : Line) : Prop := 2 ≤ l.vars ∧ l.digits.length = 2 ^ (l.vars - 2)

/-- The words of a file. -/
def words (lines : List Line) : List (List Char) := lines.flatMap fun l => ['0' :: 'x' :: l.digits, l.expression]

/-! ## Lemmas -/

theorem words_length (lines : List Line) : (words lines).length = 2 * lines.length := by
  induction lines with
  | nil => rfl
  | cons l lines ih =>
    unfold words at ih ⊢
    rw [List.flatMap_cons, List.length_append, ih]
    simp only [List.length_cons, List.length_nil]
    omega

theorem words_drop (done rest : List Line) (l : Line) (tail : List (List Char)) :
    (words (done ++ l :: rest) ++ tail)[2 * done.length]? = some ('0' :: 'x' :: l.digits) := by
  have hl := words_length (done ++ l :: rest)
  rw [List.length_append, List.length_cons] at hl
  rw [List.getElem?_append_left (by omega)]
  unfold words
  rw [List.flatMap_append]
  have h := words_length done
  unfold words at h
  rw [List.getElem?_append_right (by omega), h, Nat.sub_self, List.flatMap_cons]
  rfl

theorem log2_digits {l : Line} (h : l.Valid) : Nat.log2 (l.digits.length * 4) = l.vars := by
  rw [h.2, show (4 : Nat) = 2 ^ 2 from rfl, ← Nat.pow_add, Nat.sub_add_cancel h.1, Nat.log2_two_pow]

theorem take_nullopt (t : List Result) (n : Nat) :
    (t ++ List.replicate n Result.nullopt).take n = (t ++ List.replicate (n + 1) Result.nullopt).take n := by
  rw [List.take_append, List.take_append, List.take_replicate, List.take_replicate,
    show min (n - t.length) n = min (n - t.length) (n + 1) by omega]

theorem results_from (lines : List Line) (tail : List (List Char)) (ht : tail.length ≤ 1)
    (hs : 2 * lines.length + tail.length < 2 ^ 64) (hne : 0 < 2 * lines.length + tail.length) (hv : ∀ l ∈ lines, l.Valid) :
    ∀ (n : Nat) (done rest : List Line), lines = done ++ rest →
      Reader.results ⟨words lines ++ tail, 2 * done.length⟩ n =
        (rest.map (fun l : Line => Result.table l.vars l.digits) ++ List.replicate n Result.nullopt).take n
  | 0, _, _, _ => by simp [Reader.results]
  | n + 1, done, rest, he => by
    have hm : ((words lines ++ tail).length + 2 ^ 64 - 1) % 2 ^ 64 = 2 * lines.length + tail.length - 1 := by
      rw [List.length_append, words_length]
      omega
    rw [Reader.results]
    cases rest with
    | nil =>
      have hd : done.length = lines.length := by rw [he, List.append_nil]
      have hn : Reader.next ⟨words lines ++ tail, 2 * done.length⟩ = (.nullopt, ⟨words lines ++ tail, 2 * done.length⟩) := by
        unfold Reader.next
        dsimp only
        rw [hm, if_pos (by omega)]
      rw [hn]
      dsimp only
      rw [results_from lines tail ht hs hne hv n done [] he]
      simp [List.replicate_succ]
    | cons l rest =>
      have hd : done.length < lines.length := by rw [he, List.length_append, List.length_cons]; omega
      have hn : Reader.next ⟨words lines ++ tail, 2 * done.length⟩ =
          (.table l.vars l.digits, ⟨words lines ++ tail, 2 * (done ++ [l]).length⟩) := by
        unfold Reader.next
        dsimp only
        rw [hm, if_neg (by omega)]
        have hw : (words lines ++ tail)[2 * done.length]? = some ('0' :: 'x' :: l.digits) := by
          rw [he]
          exact words_drop done rest l tail
        rw [hw]
        have := log2_digits (hv l (by rw [he]; simp))
        simp [this, Nat.mul_add]
      rw [hn]
      dsimp only
      rw [results_from lines tail ht hs hne hv n (done ++ [l]) rest (by rw [he, List.append_assoc]; rfl)]
      rw [List.map_cons, List.cons_append, List.take_succ_cons]
      exact congrArg (List.cons _) (take_nullopt _ n)

/-! ## Theorems -/

/-- C107. For a file with at least one line, the calls of `next` give the truth tables of the lines in order, each with its number
of variables, and then nothing. Missing: empty files, for which this is false, see C107_false_empty, and tables of fewer than two
variables, see C107_false_vars. -/
theorem C107_tables_partial (lines : List Line) (hs : 2 * lines.length < 2 ^ 64) (hne : lines ≠ []) (hv : ∀ l ∈ lines, l.Valid)
    (n : Nat) : (Reader.open (words lines)).results n =
      (lines.map (fun l : Line => Result.table l.vars l.digits) ++ List.replicate n Result.nullopt).take n := by
  have h := results_from lines [] (by simp) (by simpa using hs) (by have := List.length_pos_of_ne_nil hne; omega) hv n [] lines rfl
  rwa [List.append_nil] at h

/-- C107. A truth table without an expression at the end of a file is not read; the tables before it are. -/
theorem C107_incomplete (lines : List Line) (w : List Char) (hs : 2 * lines.length + 1 < 2 ^ 64) (hv : ∀ l ∈ lines, l.Valid)
    (n : Nat) : (Reader.open (words lines ++ [w])).results n =
      (lines.map (fun l : Line => Result.table l.vars l.digits) ++ List.replicate n Result.nullopt).take n :=
  results_from lines [w] (by simp) (by simpa using hs) (by simp) hv n [] lines rfl

/-- C107. For an empty file, or one that cannot be opened, `next` accesses an element that does not exist. -/
theorem C107_false_empty : (Reader.open (words [])).results 1 = [.undefined] := by decide +kernel

/-- C107. The truth table of a function of one variable is read as one of two variables. -/
theorem C107_false_vars : (Reader.open (words [⟨1, ['2'], ['a']⟩])).results 1 = [.table 2 ['2']] := by decide +kernel

/-! ## Examples -/

/-- Two lines. -/
def sample : List Line := [⟨2, ['8'], ['a', 'b']⟩, ⟨3, ['e', '8'], ['m']⟩]

example : sample ≠ [] ∧ 2 * sample.length < 2 ^ 64 := by decide

example : ∀ l ∈ sample, l.Valid := by unfold Line.Valid; decide

example : (Reader.open (words sample)).results 3 = [.table 2 ['8'], .table 3 ['e', '8'], .nullopt] := by decide +kernel

end Verif.TtReader
