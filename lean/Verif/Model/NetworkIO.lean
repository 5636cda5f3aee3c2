import Verif.Model.Text
/-!
# Model of `include/network_io.hpp` and of `generate_from_file` in `include/network_generation.hpp`

Files are modelled by their contents; failures of the file system are not modelled.
-/
namespace Seldon.NetworkIO
open Seldon Text
variable {A F : Type}

/-- network_io.hpp:24-29: the row of agent `i` in the dot file.  `buffer.size() - 1` is a `size_t`. -/
def dotRow (i : Nat) (buffer : List Nat) : Res (List Char) := do
  let row := decimal i ++ " <- {".toList
  let row ← loop (subSz buffer.length 1) (fun k row => do
      let b ← rd buffer k
      .ok (row ++ decimal b ++ ", ".toList)) row
  let b ← rd buffer (subSz buffer.length 1)
  .ok (row ++ decimal b ++ "}\n".toList)

/-- network_io.hpp:12-36 `network_to_dot_file`. -/
def toDot (N : Network A F) : Res (List Char) := do
  let s ← loop N.nAgents (fun i s => do
      let buffer ← N.getNeighbours i
      let row ← dotRow i buffer
      .ok (s ++ row)) "digraph G {\n".toList
  .ok (s ++ "}\n".toList)

/-- network_io.hpp:46. -/
def header : List Char := "# idx_agent, n_neighbours_in, indices_neighbours_in[...], weights_in[...]\n".toList

/-- network_io.hpp:69-87: the weights of a row; `last` tells whether this is the last agent. -/
def weightsText (T : Double F) (last : Bool) (ws : List F) (row : List Char) : Res (List Char) :=
  loop ws.length (fun k row => do
      let w ← rd ws k
      if k = subSz ws.length 1 then
        if last then .ok (row ++ padLeft 25 (T.fmt w)) else .ok (row ++ padLeft 25 (T.fmt w) ++ "\n".toList)
      else .ok (row ++ padLeft 25 (T.fmt w) ++ ", ".toList)) row

/-- network_io.hpp:50-89: the row of agent `i` among `n`. -/
def networkRow (T : Double F) (n i : Nat) (ns : List Nat) (ws : List F) : Res (List Char) := do
  let row := padLeft 5 (decimal i) ++ ", ".toList ++ padLeft 5 (decimal ns.length)
  let row := if ns = [] then row ++ "\n".toList else row ++ ", ".toList
  let row := row ++ ns.flatMap (fun j => padLeft 5 (decimal j) ++ ", ".toList)
  weightsText T (decide (i = subSz n 1)) ws row

/-- network_io.hpp:38-92 `network_to_file`. -/
def toFile (T : Double F) (N : Network A F) : Res (List Char) :=
  loop N.nAgents (fun i s => do
      let ns ← N.getNeighbours i
      let ws ← N.getWeights i
      let row ← networkRow T N.nAgents i ns ws
      .ok (s ++ row)) header

/-- Loop state of the column loop: the back rows of `neighbour_list` and `weight_list`, `idx_column`, `n_neighbours`.
network_generation.hpp:199-236. -/
structure Columns (F : Type) where
  ns : List Nat
  ws : List F
  idx : Nat
  n : Nat

/-- network_generation.hpp:217-235: processing one column.  `std::stoi` results are converted to `size_t`. -/
def column (T : Double F) (sub : List Char) (c : Columns F) : Res (Columns F) := do
  let c ← if c.idx = 1 then do
      let v ← stoi sub
      .ok { c with n := Network.toSize v }
    else if c.idx ≥ 2 ∧ c.idx < addSz 2 c.n then do
      let v ← stoi sub
      .ok { c with ns := c.ns ++ [Network.toSize v] }
    else if c.idx ≥ addSz 2 c.n then do
      let w ← T.stod sub
      .ok { c with ws := c.ws ++ [w] }
    else .ok c
  .ok { c with idx := c.idx + 1 }

/-- network_generation.hpp:202-236: the column loop of one line. -/
def columns (T : Double F) (line : List Char) : Nat → Nat → Columns F → Res (Columns F)
  | 0, _, _ => .error .fuel
  | fuel + 1, start, c => do
    let endOfColumn := find line ',' start
    let sub ← substr line start (subSz endOfColumn start)
    let c ← column T sub c
    if endOfColumn = npos then .ok c else columns T line fuel (addSz endOfColumn 1) c

/-- network_generation.hpp:198-236: one non-comment line: append a row to both lists. -/
def parseLine (T : Double F) (line : List Char) (_endOfLine : Nat) (s : List (List Nat) × List (List F)) :
    Res (List (List Nat) × List (List F)) := do
  let c ← columns T line (line.length + 1) 0 { ns := [], ws := [], idx := 0, n := 0 }
  .ok (s.1 ++ [c.ns], s.2 ++ [c.ws])

/-- network_generation.hpp:160-240 `generate_from_file`, given the contents of the file. -/
def fromFile [Inhabited A] (T : Double F) (contents : List Char) : Res (Network A F) := do
  let s ← readLines contents (parseLine T) (contents.length + 1) 0 ([], [])
  .ok (Network.ofLists s.1 s.2 .incoming)

end Seldon.NetworkIO
