import Verif.Spec.Graph
/-!
# Specification: histories of public operations on a `Network`
-/
namespace Seldon.Spec
variable {A W : Type}

/-- A call of a public mutator of `class Network` (network.hpp:97-306). -/
inductive Op (A W : Type) where
  | setAgent (i : Nat) (a : A)
  | setWeights (i : Nat) (ws : List W)
  | setNeighboursConst (i : Nat) (ns : List Nat) (w : W)
  | setNeighbours (i : Nat) (ns : List Nat) (ws : List W)
  | pushBack (i j : Nat) (w : W)
  | pokeNeighbour (i k v : Nat)
  | pokeWeight (i k : Nat) (w : W)
  | switchDirectionFlag
  | toggle
  | transpose
  | removeDoubleCounting (sort : List Nat → List Nat)
  | clear

/-- Outcome of an operation that produces a whole new network. -/
def ofRes (N : Network A W) : Res (Network A W) → Network.Effect A W
  | .ok N'   => (N', .ok ())
  | .error e => (N, .error e)

/-- Executing one call. -/
def Op.exec [Add W] (N : Network A W) : Op A W → Network.Effect A W
  | .setAgent i a => ofRes N ((wr N.agents i a).map fun ag => { N with agents := ag })
  | .setWeights i ws => N.setWeights i ws
  | .setNeighboursConst i ns w => N.setNeighboursConst i ns w
  | .setNeighbours i ns ws => N.setNeighbours i ns ws
  | .pushBack i j w => N.pushBack i j w
  | .pokeNeighbour i k v => N.pokeNeighbour i k v
  | .pokeWeight i k w => N.pokeWeight i k w
  | .switchDirectionFlag => (N.switchDirectionFlag, .ok ())
  | .toggle => ofRes N N.toggle
  | .transpose => ofRes N N.transpose
  | .removeDoubleCounting sort => ofRes N (N.removeDoubleCounting sort)
  | .clear => (N.clear, .ok ())

/-- The caller's side of the contract: agent indices and neighbour indices below `n_agents()`, positions inside the
span; nothing is required about the sizes of the buffers. -/
def Op.InRange (N : Network A W) : Op A W → Prop
  | .setAgent i _ => i < N.nAgents
  | .setWeights i _ => i < N.nAgents
  | .setNeighboursConst i ns _ => i < N.nAgents ∧ ∀ j ∈ ns, j < N.nAgents
  | .setNeighbours i ns _ => i < N.nAgents ∧ ∀ j ∈ ns, j < N.nAgents
  | .pushBack i j _ => i < N.nAgents ∧ j < N.nAgents
  | .pokeNeighbour i k v => i < N.nAgents ∧ k < (N.neighbours.getD i []).length ∧ v < N.nAgents
  | .pokeWeight i k _ => i < N.nAgents ∧ k < (N.weights.getD i []).length
  | .removeDoubleCounting sort => Network.SortSpec sort
  | .switchDirectionFlag | .toggle | .transpose | .clear => True

/-- `N'` is reachable from `N` by a history of in-range calls (a caller may go on after an exception). -/
inductive Reach [Add W] (N : Network A W) : Network A W → Prop where
  | start : Reach N N
  | step {N'} (op : Op A W) : Reach N N' → op.InRange N' → Reach N (op.exec N').1

end Seldon.Spec
