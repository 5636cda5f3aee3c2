import Verif.Model.Network
/-!
# Model of `include/connectivity.hpp` (class `TarjanConnectivityAlgo`)
-/
namespace Seldon.Tarjan
open Seldon

/-- connectivity.hpp:25-39: the data members that change.  `stack` is stored top first: `stack.push_back( v )` is
`v :: stack`, `stack.back()` is the head. -/
structure St where
  num       : List Nat
  lowest    : List Nat
  visited   : List Bool
  processed : List Bool
  stack     : List Nat
  counter   : Nat
  sccs      : List (List Nat)
  deriving DecidableEq, Repr

/-- connectivity.hpp:82-97: pop the stack down to and including `v`, collecting the vertices; `back()` of an empty
stack is undefined behaviour.  Returns the component and the remaining stack. -/
def popScc (v : Nat) (stack : List Nat) (scc : List Nat) : Res (List Nat × List Nat) :=
  match stack with
  | []      => .error .ub
  | x :: st => if x = v then .ok (scc ++ [x], st) else popScc v st (scc ++ [x])

/-- connectivity.hpp:55-75: the body of the loop over the neighbours `u` of `v`; `rec` is the recursive call. -/
def edgeStep (rec : Nat → St → Res St) (v : Nat) (s : St) (u : Nat) : Res St :=
  if u = v then .ok s
  else do
    let vis ← rd s.visited u
    if vis = false then do
      let s' ← rec u s
      let lv ← rd s'.lowest v
      let lu ← rd s'.lowest u
      let lowest ← wr s'.lowest v (min lv lu)
      .ok { s' with lowest := lowest }
    else do
      let pr ← rd s.processed u
      if pr = false then do
        let lv ← rd s.lowest v
        let nu ← rd s.num u
        let lowest ← wr s.lowest v (min lv nu)
        .ok { s with lowest := lowest }
      else .ok s

/-- connectivity.hpp:42-51: entering vertex `v`. -/
def enter (v : Nat) (s : St) : Res St := do
  let num ← wr s.num v s.counter
  let nv ← rd num v
  let lowest ← wr s.lowest v nv
  let visited ← wr s.visited v true
  .ok { s with num := num, lowest := lowest, visited := visited, counter := s.counter + 1, stack := v :: s.stack }

/-- connectivity.hpp:77-104: after the loop over the neighbours. -/
def finish (v : Nat) (s : St) : Res St := do
  let processed ← wr s.processed v true
  let lv ← rd s.lowest v
  let nv ← rd s.num v
  if lv = nv then do
    let (scc, st) ← popScc v s.stack []
    .ok { s with processed := processed, stack := st, sccs := s.sccs ++ [scc] }
  else .ok { s with processed := processed }

/-- connectivity.hpp:42-105 `depth_first_search( v )`, with recursion depth bounded by `fuel`. -/
def dfs (adj : List (List Nat)) (fuel : Nat) (v : Nat) (s : St) : Res St :=
  match fuel with
  | 0 => .error .fuel
  | fuel + 1 => do
    let s1 ← enter v s
    let row ← rd adj v
    let s2 ← row.foldlM (edgeStep (dfs adj fuel) v) s1
    finish v s2

/-- connectivity.hpp:13-21: initial state. -/
def init (n : Nat) : St where
  num := List.replicate n 0
  lowest := List.replicate n 0
  visited := List.replicate n false
  processed := List.replicate n false
  stack := []
  counter := 0
  sccs := []

/-- connectivity.hpp:109-121 `run()`. -/
def run (adj : List (List Nat)) (fuel : Nat) : Res St :=
  loop adj.length (fun i s => do
      let vis ← rd s.visited i
      if vis = false then dfs adj fuel i s else .ok s)
    (init adj.length)

/-- network.hpp:108-114 `strongly_connected_components()`: the adjacency list is the neighbour list.  `fuel` bounds the
recursion depth (the number of nested `depth_first_search` calls). -/
def scc {A W : Type} (N : Network A W) (fuel : Nat) : Res (List (List Nat)) := do
  let s ← run N.neighbours fuel
  .ok s.sccs

end Seldon.Tarjan
