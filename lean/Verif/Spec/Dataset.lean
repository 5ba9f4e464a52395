import Verif.Model.Strings

/-!
Specification side of data files: text files as lists of lines, comma separated tables, codes by first appearance.
-/

namespace FastPGM.Spec

open FastPGM

/-- The text with the given lines, each followed by a newline (character 10). -/
def textOf (lines : List Str) : Str := lines.flatMap (fun l => l ++ [10])

/-- The lines of a text: the pieces between newlines; a newline at the very end starts no further line. -/
def linesOf : Str → List Str
  | [] => []
  | c :: cs =>
    if c = 10 then [] :: linesOf cs
    else match linesOf cs with
      | [] => [[c]]
      | l :: ls => (c :: l) :: ls

/-- The lines that are followed by a newline. -/
def completeLines : Str → List Str
  | [] => []
  | c :: cs =>
    if c = 10 then [] :: completeLines cs
    else match completeLines cs with
      | [] => []
      | l :: ls => (c :: l) :: ls

/-- A row of cells written with commas (character 44) between them. -/
def csvLine (cells : List Str) : Str := List.intercalate [44] cells

/-- The cell contains neither a comma nor a newline. -/
def CleanCell (c : Str) : Prop := 44 ∉ c ∧ 10 ∉ c

/-- A row of `n` clean cells. -/
def CleanRow (n : Nat) (r : List Str) : Prop := r.length = n ∧ ∀ c ∈ r, CleanCell c

/-- The string without its trailing characters of value below 33 (space and control characters; `char` is signed). -/
def dropBlanks (s : Str) : Str := (s.reverse.dropWhile (fun c => c < 33)).reverse

/-- The text of cell `j` of a row: blanks at the end of the line, that is of the last cell, do not count. -/
def cellText (r : List Str) (j : Nat) : Str := if j + 1 = r.length then dropBlanks (r.getD j []) else r.getD j []

/-- Column `j` of a table. -/
def column (table : List (List Str)) (j : Nat) : List Str := table.map (fun r => cellText r j)

/-- The distinct entries of a list in the order of their first appearance. -/
def firstSeen : List Str → List Str
  | [] => []
  | x :: xs => x :: (firstSeen xs).filter (fun y => y ≠ x)

/-- The value a row of (variable, value) pairs gives to variable `i`: the last one listed, 0 if there is none. -/
def lastValue (row : List (Int × Int)) (i : Nat) : Int :=
  match (row.filter (fun p => p.1 = (i : Int))).getLast? with
  | some p => p.2
  | none => 0

/-- A data file: header, rows and possibly no newline after the last row (which is then not empty). -/
inductive CsvFile (names : List Str) (T : List (List Str)) : Str → Prop
  | newline : CsvFile names T (textOf (csvLine names :: T.map csvLine))
  | open_ (T' : List (List Str)) (r : List Str) : T = T' ++ [r] → csvLine r ≠ [] →
      CsvFile names T (textOf (csvLine names :: T'.map csvLine) ++ csvLine r)

/-- The row gives each of the variables `0`, ..., `n - 1` exactly one value, in any order. -/
def CompleteRow (n : Nat) (row : List (Int × Int)) : Prop :=
  (row.map (fun p => p.1)).Perm ((List.range n).map (fun i : Nat => (i : Int)))

/-- A number that fits in a C++ `int`. -/
def IntRange (i : Int) : Prop := -2147483648 ≤ i ∧ i ≤ 2147483647

end FastPGM.Spec
