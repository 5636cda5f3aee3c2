import Verif.Model.Basic
/-!
# Model of `include/network.hpp`
-/
namespace Seldon

/-- network.hpp:34-38 `enum class EdgeDirection`. -/
inductive EdgeDirection where
  | incoming
  | outgoing
  deriving DecidableEq, Repr

/-- network.hpp:30-31, 43, 309-311: the data members of `class Network`.
`neighbours`/`weights` are the private `neighbour_list`/`weight_list`. -/
structure Network (A W : Type) where
  agents     : List A
  neighbours : List (List Nat)
  weights    : List (List W)
  direction  : EdgeDirection
  deriving DecidableEq, Repr

namespace Network
variable {A W : Type}

/-- network.hpp:47-52 `Network( size_t n_agents )`; `_direction{}` is the first enumerator, `Incoming`. -/
def ofSize [Inhabited A] (n : Nat) : Network A W where
  agents     := List.replicate n default
  neighbours := List.replicate n []
  weights    := List.replicate n []
  direction  := .incoming

/-- network.hpp:54-59 `Network( std::vector<AgentT> agents )`. -/
def ofAgents (agents : List A) : Network A W where
  agents     := agents
  neighbours := List.replicate agents.length []
  weights    := List.replicate agents.length []
  direction  := .incoming

/-- network.hpp:61-69 `Network( neighbour_list, weight_list, direction )`: default-constructed agents, one per
neighbour row. -/
def ofLists [Inhabited A] (neighbours : List (List Nat)) (weights : List (List W)) (d : EdgeDirection) :
    Network A W where
  agents     := List.replicate neighbours.length default
  neighbours := neighbours
  weights    := weights
  direction  := d

/-- network.hpp:74-77 `n_agents()`. -/
def nAgents (N : Network A W) : Nat := N.agents.length

/-- Conversion of an integer to a 32-bit `int` (C++20: modular).
Implicit at network.hpp:83-95, simulation.hpp:43-64. -/
def toInt32 (x : Int) : Int := x.bmod (2 ^ 32)

/-- Conversion of an integer to `size_t` (64 bit, modular).
Implicit at network.hpp:83-95, network_generation.hpp:217-227. -/
def toSize (x : Int) : Nat := (x % (2 ^ 64 : Int)).toNat

/-- network.hpp:83-95 `n_edges( agent_idx )`.  Without argument the `transform_reduce` accumulator has the type of
its initial value `0`, i.e. `int`; each partial sum is converted back to `int`, and the result to `size_t`. -/
def nEdges (N : Network A W) (i : Option Nat) : Res Nat :=
  match i with
  | some i => do
    let row ← rd N.neighbours i
    .ok row.length
  | none => .ok (toSize (N.neighbours.foldl (fun acc row => toInt32 (acc + row.length)) 0))

/-- network.hpp:119-127 `get_neighbours( agent_idx )`. -/
def getNeighbours (N : Network A W) (i : Nat) : Res (List Nat) := rd N.neighbours i

/-- network.hpp:132-140 `get_weights( agent_idx )`. -/
def getWeights (N : Network A W) (i : Nat) : Res (List W) := rd N.weights i

/-- A mutating member function: the network after the call (also when it throws) and how the call ended.
network.hpp:145-311. -/
abbrev Effect (A W : Type) := Network A W × Res Unit

/-- network.hpp:145-152 `set_weights( agent_idx, weights )`. -/
def setWeights (N : Network A W) (i : Nat) (ws : List W) : Effect A W :=
  match rd N.neighbours i with
  | .error e => (N, .error e)
  | .ok row =>
    if row.length ≠ ws.length then
      (N, .error (.exn "runtime_error"))
    else
      match wr N.weights i ws with
      | .error e  => (N, .error e)
      | .ok wgt' => ({ N with weights := wgt' }, .ok ())

/-- network.hpp:157-163 `set_neighbours_and_weights( agent_idx, buffer_neighbours, weight )`. -/
def setNeighboursConst (N : Network A W) (i : Nat) (ns : List Nat) (w : W) : Effect A W :=
  match wr N.neighbours i ns with
  | .error e => (N, .error e)
  | .ok nbr' =>
    match wr N.weights i (List.replicate ns.length w) with
    | .error e  => ({ N with neighbours := nbr' }, .error e)
    | .ok wgt' => ({ N with neighbours := nbr', weights := wgt' }, .ok ())

/-- network.hpp:168-179 `set_neighbours_and_weights( agent_idx, buffer_neighbours, buffer_weights )`. -/
def setNeighbours (N : Network A W) (i : Nat) (ns : List Nat) (ws : List W) : Effect A W :=
  if ns.length ≠ ws.length then
    (N, .error (.exn "runtime_error"))
  else
    match wr N.neighbours i ns with
    | .error e => (N, .error e)
    | .ok nbr' =>
      match wr N.weights i ws with
      | .error e  => ({ N with neighbours := nbr' }, .error e)
      | .ok wgt' => ({ N with neighbours := nbr', weights := wgt' }, .ok ())

/-- network.hpp:184-188 `push_back_neighbour_and_weight( i, j, w )`. -/
def pushBack (N : Network A W) (i j : Nat) (w : W) : Effect A W :=
  match N.neighbours[i]? with
  | none => (N, .error .ub)
  | some row =>
    match N.weights[i]? with
    | none => ({ N with neighbours := N.neighbours.set i (row ++ [j]) }, .error .ub)
    | some wrow =>
      ({ N with neighbours := N.neighbours.set i (row ++ [j]), weights := N.weights.set i (wrow ++ [w]) }, .ok ())

/-- A write `get_neighbours( i )[k] = v` through the mutable span (network.hpp:124-127). -/
def pokeNeighbour (N : Network A W) (i k v : Nat) : Effect A W :=
  match rd N.neighbours i with
  | .error e => (N, .error e)
  | .ok row =>
    match wr row k v with
    | .error e => (N, .error e)
    | .ok row' => ({ N with neighbours := N.neighbours.set i row' }, .ok ())

/-- A write `get_weights( i )[k] = w` through the mutable span (network.hpp:137-140). -/
def pokeWeight (N : Network A W) (i k : Nat) (w : W) : Effect A W :=
  match rd N.weights i with
  | .error e => (N, .error e)
  | .ok row =>
    match wr row k w with
    | .error e => (N, .error e)
    | .ok row' => ({ N with weights := N.weights.set i row' }, .ok ())

/-- network.hpp:232-243 `switch_direction_flag()`. -/
def switchDirectionFlag (N : Network A W) : Network A W :=
  { N with direction := match N.direction with | .incoming => .outgoing | .outgoing => .incoming }

/-- network.hpp:213-216: the body of the inner loop of `toggle_incoming_outgoing`: copy the `k`-th entry of row `i`
into the transposed lists `t = (neighbour_list_transpose, weight_list_transpose)`. -/
def toggleStep (N : Network A W) (i k : Nat) (t : List (List Nat) × List (List W)) :
    Res (List (List Nat) × List (List W)) := do
  let row ← rd N.neighbours i
  let neighbour ← rd row k
  let wrow ← rd N.weights i
  let weight ← rd wrow k
  let trow ← rd t.1 neighbour
  let nt ← wr t.1 neighbour (trow ++ [i])
  let twrow ← rd t.2 neighbour
  let wt ← wr t.2 neighbour (twrow ++ [weight])
  .ok (nt, wt)

/-- network.hpp:204-225 `toggle_incoming_outgoing()`. -/
def toggle (N : Network A W) : Res (Network A W) := do
  let n := N.nAgents
  let t ← loop n (fun i t => do
      let row ← rd N.neighbours i
      loop row.length (fun k t => toggleStep N i k t) t)
    (List.replicate n [], List.replicate n [])
  .ok (switchDirectionFlag { N with neighbours := t.1, weights := t.2 })

/-- network.hpp:194-198 `transpose()`. -/
def transpose (N : Network A W) : Res (Network A W) := do
  let N' ← toggle N
  .ok (switchDirectionFlag N')

/-- Loop state of `remove_double_counting`: `weights_copy`, `neighbours_copy`, `last_neighbour_index`
(network.hpp:258-259, 272). -/
structure MergeState (W : Type) where
  weightsCopy    : List W
  neighboursCopy : List Nat
  last           : Option Nat

/-- network.hpp:275-288: the body of the merge loop for position `i` of the sorting permutation. -/
def mergeStep [Add W] (neighbours : List Nat) (weights : List W) (sorting : List Nat) (i : Nat)
    (s : MergeState W) : Res (MergeState W) := do
  let sortIdx ← rd sorting i
  let cur ← rd neighbours sortIdx
  let w ← rd weights sortIdx
  if s.last ≠ some cur then
    .ok { weightsCopy := s.weightsCopy ++ [w], neighboursCopy := s.neighboursCopy ++ [cur], last := some cur }
  else do
    let b ← back s.weightsCopy
    .ok { s with weightsCopy := s.weightsCopy.dropLast ++ [b + w] }

/-- `std::sort` with comparator `keys[i1] < keys[i2]` on the indices `0 .. keys.size()-1`
(network.hpp:264-270): any function returning a permutation of the indices with non-decreasing keys. -/
structure SortSpec (sort : List Nat → List Nat) : Prop where
  perm   : ∀ keys, (sort keys).Perm (List.range keys.length)
  sorted : ∀ keys, (sort keys).Pairwise (fun a b => keys.getD a 0 ≤ keys.getD b 0)

/-- network.hpp:248-294 `remove_double_counting()`, for a given behaviour of `std::sort`. -/
def removeDoubleCounting [Add W] (sort : List Nat → List Nat) (N : Network A W) : Res (Network A W) :=
  loop N.nAgents (fun i M => do
      let neighbours ← rd M.neighbours i
      let weights ← rd M.weights i
      let sorting := sort neighbours
      let s ← loop neighbours.length (mergeStep neighbours weights sorting)
        { weightsCopy := [], neighboursCopy := [], last := none }
      let wgt' ← wr M.weights i s.weightsCopy
      let nbr' ← wr M.neighbours i s.neighboursCopy
      .ok { M with weights := wgt', neighbours := nbr' })
    N

/-- network.hpp:299-306 `clear()`: empties all rows, keeps the agents and the direction. -/
def clear (N : Network A W) : Network A W :=
  { N with weights := N.weights.map (fun _ => []), neighbours := N.neighbours.map (fun _ => []) }

end Network
end Seldon
