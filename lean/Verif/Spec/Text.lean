import Verif.Model.Text
import Mathlib.Data.Nat.Digits.Defs
/-!
# Independent specification of text files: lines, columns
-/
namespace Seldon.Spec

/-- The pieces of a text between separators `c` (at least one piece, possibly empty). -/
def split (c : Char) : List Char → List (List Char)
  | [] => [[]]
  | x :: xs =>
    if x = c then [] :: split c xs
    else match split c xs with
      | [] => [[x]]
      | h :: t => (x :: h) :: t

/-- Pieces put together again with separators in between. -/
def join (c : Char) : List (List Char) → List Char
  | [] => []
  | [l] => l
  | l :: l' :: ls => l ++ c :: join c (l' :: ls)

/-- The lines of a data file that count: those before the first empty line which do not start with `#`. -/
def dataLines (contents : List Char) : List (List Char) :=
  ((split '\n' contents).takeWhile (fun l => l ≠ [])).filter (fun l => l.head? ≠ some '#')

/-- Run an action over a list, in order, stopping at the first failure. -/
def each {α σ : Type} (f : α → σ → Res σ) : List α → σ → Res σ
  | [], s => .ok s
  | a :: l, s => do
    let s ← f a s
    each f l s

end Seldon.Spec

namespace Seldon.Spec

/-- A line without its first column (the whole line if there is only one). -/
def afterFirstColumn (line : List Char) : List Char :=
  match split ',' line with
  | _ :: c :: cs => join ',' (c :: cs)
  | _ => line

end Seldon.Spec

namespace Seldon.Spec
variable {F : Type}

/-- The text begins with the decimal number `k`: white space, perhaps a sign, and the longest run of digits that follows; anything may come after. -/
def BeginsWith (t : List Char) (k : Int) : Prop :=
  ∃ blanks sign digits rest : List Char, t = blanks ++ sign ++ digits ++ rest ∧
    (∀ c ∈ blanks, c ∈ [' ', '\t', '\n', '\x0b', '\x0c', '\r']) ∧ (sign = [] ∨ sign = ['+'] ∨ sign = ['-']) ∧
    digits ≠ [] ∧ (∀ c ∈ digits, '0' ≤ c ∧ c ≤ '9') ∧ (∀ c, rest.head? = some c → ¬ ('0' ≤ c ∧ c ≤ '9')) ∧
    k = (if sign = ['-'] then -1 else 1) * ((Nat.ofDigits 10 (digits.reverse.map (fun c => c.toNat - 48)) : Nat) : Int)

/-- Apply an action to all members of a list, in order, stopping at the first failure. -/
def all {α β : Type} (f : α → Res β) : List α → Res (List β)
  | [] => .ok []
  | a :: l => do
    let b ← f a
    let bs ← all f l
    .ok (b :: bs)

/-- How many of the columns after the second one are neighbour indices, if the second column says `n`: the first `n`.  (A negative `n` should not occur;
-1 and -2 make all the columns weights, other negative numbers make them all indices.) -/
def indexColumns (n : Int) (available : Nat) : Nat :=
  if 0 ≤ n then n.toNat else if n = -1 ∨ n = -2 then 0 else available

/-- The neighbours and weights in one line of a network file: index of the agent (ignored), number of neighbours, neighbours, weights.  A negative neighbour
becomes a huge index. -/
def networkLine (integer : List Char → Res Int) (real : List Char → Res F) (line : List Char) : Res (List Nat × List F) :=
  match split ',' line with
  | _ :: c :: cs => do
    let n ← integer c
    let ks ← all integer (cs.take (indexColumns n cs.length))
    let ws ← all real (cs.drop (indexColumns n cs.length))
    .ok (ks.map (fun k => (k % (2 ^ 64 : Int)).toNat), ws)
  | _ => .ok ([], [])

end Seldon.Spec
