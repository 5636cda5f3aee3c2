import Verif.Model.Network
/-!
# Model of the text primitives: `std::string` searching, `std::stoi`, `fmt::format`, and `include/util/misc.hpp`
-/
namespace Seldon
namespace Text

/-- `std::string::npos` (64-bit `size_t`).
Used e.g. at misc.hpp:55, network_generation.hpp:177, 209. -/
def npos : Nat := 2 ^ 64 - 1

/-- `a + b` on `size_t`.
E.g. misc.hpp:49-50. -/
def addSz (a b : Nat) : Nat := (a + b) % 2 ^ 64

/-- `a - b` on `size_t` (`b < 2^64`).
E.g. agent_io.hpp:82, network_generation.hpp:183. -/
def subSz (a b : Nat) : Nat := (a + 2 ^ 64 - b) % 2 ^ 64

/-- `s.find( c, pos )`.
Called at misc.hpp:49, activity_agent.hpp:36, agent_io.hpp:76, 95, network_generation.hpp:176, 207. -/
def find (s : List Char) (c : Char) (pos : Nat) : Nat :=
  match (s.drop pos).findIdx? (· == c) with
  | some i => pos + i
  | none => npos

/-- `s.substr( pos, count )`: throws `std::out_of_range` if `pos > s.size()`.
Called at misc.hpp:50, activity_agent.hpp:38-51, agent_io.hpp:82, 96, network_generation.hpp:183, 213. -/
def substr (s : List Char) (pos count : Nat) : Res (List Char) :=
  if s.length < pos then .error (.exn "out_of_range") else .ok ((s.drop pos).take count)

/-- `isspace` in the C locale.
Inside `stoi`: network_generation.hpp:220. -/
def isSpace (c : Char) : Bool :=
  c == ' ' || c == '\t' || c == '\n' || c == '\x0b' || c == '\x0c' || c == '\r'

/-- `isdigit`.
Inside `stoi`: network_generation.hpp:220. -/
def isDigit (c : Char) : Bool := '0' ≤ c && c ≤ '9'

/-- Value of a digit character.
Inside `stoi`: network_generation.hpp:220. -/
def digitVal (c : Char) : Nat := c.toNat - '0'.toNat

/-- Value of a sequence of digits.
Inside `stoi`: network_generation.hpp:220. -/
def digitsVal (ds : List Char) : Nat := ds.foldl (fun a c => a * 10 + digitVal c) 0

/-- The part of `std::stoi` after white space and sign: at least one digit, then the value must fit into an `int`.
Inside `stoi`: network_generation.hpp:220. -/
def stoiDigits (neg : Bool) (s : List Char) : Res Int :=
  let ds := s.takeWhile isDigit
  if ds = [] then .error (.exn "invalid_argument")
  else
    let v : Int := if neg then -(digitsVal ds : Int) else (digitsVal ds : Int)
    if v < -(2 ^ 31) ∨ 2 ^ 31 ≤ v then .error (.exn "out_of_range") else .ok v

/-- `std::stoi( s )` (`strtol` in base 10 with `int` range check; trailing characters are ignored).
Called at network_generation.hpp:220, 226, discrete_vector_agent.hpp:46. -/
def stoi (s : List Char) : Res Int :=
  match s.dropWhile isSpace with
  | '-' :: s => stoiDigits true s
  | '+' :: s => stoiDigits false s
  | s => stoiDigits false s

/-- The character of a digit.
Inside `fmt`: network_io.hpp:53. -/
def digitChar (n : Nat) : Char := Char.ofNat ('0'.toNat + n)

/-- Decimal digits, most significant first (`fuel > n` suffices).
Inside `fmt`: network_io.hpp:53. -/
def decimalAux : Nat → Nat → List Char
  | 0, _ => []
  | f + 1, n => if n < 10 then [digitChar n] else decimalAux f (n / 10) ++ [digitChar (n % 10)]

/-- `fmt::format( "{}", n )` for an unsigned integer.
Called at network_io.hpp:53, 66, simulation.hpp:124-125. -/
def decimal (n : Nat) : List Char := decimalAux (n + 1) n

/-- `fmt::format( "{}", i )` for a signed integer.
Called at discrete_vector_agent.hpp:26, 29. -/
def fmtInt : Int → List Char
  | .ofNat n => decimal n
  | .negSucc n => '-' :: decimal (n + 1)

/-- Right alignment `{:>w}` (ASCII text: one column per character).
Called at network_io.hpp:53, 66, 77-86, agent_io.hpp:60. -/
def padLeft (w : Nat) (s : List Char) : List Char := List.replicate (w - s.length) ' ' ++ s

/-- `fmt::format( "{}", x )` of a `double` and `std::stod`: not modelled further, see `Lawful` and `Survives`.
Called at network_io.hpp:77-86, simple_agent.hpp:19, 32, network_generation.hpp:231. -/
structure Double (F : Type) where
  fmt : F → List Char
  stod : List Char → Res F

/-- What the code relies on about `std::stod`: leading blanks are skipped and parsing stops at a comma
(in the C locale a comma is never part of a number).
Relied on at network_generation.hpp:231, activity_agent.hpp:38-51. -/
structure Double.Lawful {F : Type} (T : Double F) : Prop where
  blank : ∀ s, T.stod (' ' :: s) = T.stod s
  comma : ∀ s r, ',' ∉ s → T.stod (s ++ ',' :: r) = T.stod s

/-- "The number `x` survives text formatting": it is written without commas or line breaks and read back unchanged.
Relied on at network_io.hpp:77-86, simple_agent.hpp:19, 32. -/
structure Double.Survives {F : Type} (T : Double F) (x : F) : Prop where
  clean : ∀ c ∈ T.fmt x, c ≠ ',' ∧ c ≠ '\n'
  read : T.stod (T.fmt x) = .ok x

/-- misc.hpp:42-60 `parse_comma_separated_list( str, callback )`.  `posCur` is an `int` (`auto pos_cur = -1`): the result of
`find` is narrowed to 32 bits when stored, and `pos_cur + 1` is widened to `size_t`.  The second argument of `substr` is
the *position* of the next comma, as in the code.  `fuel` bounds the rounds of `while( true )`. -/
def parseList {σ : Type} (str : List Char) (cb : Nat → List Char → σ → Res σ) : Nat → Nat → Int → σ → Res σ
  | 0, _, _, _ => .error .fuel
  | fuel + 1, idxEntry, posCur, s => do
    let posNext := find str ',' (Network.toSize (posCur + 1))
    let sub ← substr str (Network.toSize (posCur + 1)) posNext
    let s ← cb idxEntry sub s
    if posNext = npos then .ok s
    else parseList str cb fuel (idxEntry + 1) (Network.toInt32 posNext) s

/-- `parse_comma_separated_list` from the start (`int idx_entry = 0; auto pos_cur = -1;`).
misc.hpp:43-61. -/
def parseCommaSeparatedList {σ : Type} (str : List Char) (cb : Nat → List Char → σ → Res σ) (s : σ) : Res σ :=
  parseList str cb (str.length + 1) 0 (-1) s

/-- The line loop shared by agent_io.hpp:70-99 and network_generation.hpp:169-196: find the end of the line, cut it out,
stop at an empty line, skip comment lines, otherwise run `body line end_of_line`. -/
def readLines {σ : Type} (contents : List Char) (body : List Char → Nat → σ → Res σ) : Nat → Nat → σ → Res σ
  | 0, _, _ => .error .fuel
  | fuel + 1, startOfLine, s => do
    let endOfLine := find contents '\n' startOfLine
    let finished := endOfLine = npos
    let line ← substr contents startOfLine (subSz endOfLine startOfLine)
    let startOfLine := addSz endOfLine 1
    match line with
    | [] => .ok s
    | c :: _ =>
      if c = '#' then
        if finished then .ok s else readLines contents body fuel startOfLine s
      else do
        let s ← body line endOfLine s
        if finished then .ok s else readLines contents body fuel startOfLine s

end Text
end Seldon
