import Verif.Spec.Text
/-!
# Independent specification of the written files: a text as a table of cells
-/
namespace Seldon.Spec

/-- The lines of a text; a line break at the very end does not begin another line. -/
def lines (text : List Char) : List (List Char) :=
  if (split '\n' text).getLast? = some [] then (split '\n' text).dropLast else split '\n' text

/-- Without the blanks in front. -/
def trim (t : List Char) : List Char := t.dropWhile (fun c => c = ' ')

/-- The cells of a line: separated by commas, blanks in front of a cell do not count. -/
def cells (line : List Char) : List (List Char) := (split ',' line).map trim

/-- A text as a table. -/
def table (text : List Char) : List (List (List Char)) := (lines text).map cells

/-- The decimal numeral of an integer. -/
def numeral (i : Int) : List Char :=
  if 0 ≤ i then Nat.toDigits 10 i.toNat else '-' :: Nat.toDigits 10 (-i).toNat

/-- The text of a number: no blank, comma or line break in it. -/
def Plain (t : List Char) : Prop := ∀ c ∈ t, c ≠ ' ' ∧ c ≠ ',' ∧ c ≠ '\n'

end Seldon.Spec
