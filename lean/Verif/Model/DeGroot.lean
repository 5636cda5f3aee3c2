import Verif.Model.Tarjan
import Verif.Model.AgentIO
/-!
# Model of `include/model.hpp`, `include/models/DeGroot.hpp` and `src/models/DeGroot.cpp`
-/
namespace Seldon

/-- model.hpp:46-47: the private members of `Model<AgentT>` (the counter is a `size_t`; wrap-around after 2^64 iterations
is not modelled). -/
structure Counter where
  maxIterations : Option Nat
  nIterations : Nat
  deriving DecidableEq, Repr

namespace Counter

/-- model.hpp:19-22 `initialize_iterations`. -/
def reset (c : Counter) : Counter := { c with nIterations := 0 }

/-- model.hpp:24-27 `iteration`. -/
def tick (c : Counter) : Counter := { c with nIterations := c.nIterations + 1 }

/-- model.hpp:34-44 `finished`. -/
def finished (c : Counter) : Bool :=
  match c.maxIterations with
  | some m => decide (m ≤ c.nIterations)
  | none => false

end Counter

/-- DeGroot.hpp:24-27: the members of `DeGrootModel` (the network is held by reference; here it is part of the state). -/
structure DeGroot (F : Type) where
  counter : Counter
  tol : F
  maxDiff : Option F
  network : Network (SimpleAgent F) F
  copy : List (SimpleAgent F)

namespace DeGroot
variable {F : Type}

/-- DeGroot.cpp:24-27 and DeffuantModel.cpp:12-15: `agents[i].data.opinion = double( i ) / double( agents.size() )`. -/
def spread [NatCast F] [Div F] (agents : List (SimpleAgent F)) : Res (List (SimpleAgent F)) :=
  loop agents.length (fun i as => do
      let _ ← rd as i
      wr as i ⟨(i : F) / (agents.length : F)⟩) agents

/-- DeGroot.cpp:9-28: the constructor.  The second component tells whether the warning about the number of strongly
connected components is printed.  `max_iterations` (an `optional<int>`) is converted to `optional<size_t>`. -/
def create [NatCast F] [Div F] (maxIterations : Option Int) (tol : F) (network : Network (SimpleAgent F) F) : Res (DeGroot F × Bool) := do
  let copy := network.agents
  let comps ← Tarjan.scc network network.neighbours.length
  let warn := decide (comps.length ≠ 1)
  let agents ← spread network.agents
  .ok ({ counter := ⟨maxIterations.map Network.toSize, 0⟩, tol := tol, maxDiff := none, network := { network with agents := agents }, copy := copy }, warn)

section
variable [Zero F] [Add F] [Mul F] [Sub F] [Neg F] [LT F] [DecidableLT F]

/-- DeGroot.cpp:42-47: `agents_current_copy[i].data.opinion += weight * network.agents[j_index].data.opinion`. -/
def addTerm (agents : List (SimpleAgent F)) (ns : List Nat) (ws : List F) (i j : Nat) (copy : List (SimpleAgent F)) :
    Res (List (SimpleAgent F)) := do
  let jIndex ← rd ns j
  let weight ← rd ws j
  let cur ← rd copy i
  let other ← rd agents jIndex
  wr copy i ⟨cur.opinion + weight * other.opinion⟩

/-- DeGroot.cpp:37-48: the new opinion of agent `i` is computed in the copy. -/
def updateCopy (N : Network (SimpleAgent F) F) (i : Nat) (copy : List (SimpleAgent F)) : Res (List (SimpleAgent F)) := do
  let ns ← N.getNeighbours i
  let ws ← N.getWeights i
  let copy ← wr copy i ⟨0⟩
  loop ns.length (fun j copy => addTerm N.agents ns ws i j copy) copy

/-- DeGroot.cpp:52-58: track the largest change and write the copy back; the state is `(max_opinion_diff, agents)`. -/
def writeBack (copy : List (SimpleAgent F)) (i : Nat) (s : F × List (SimpleAgent F)) : Res (F × List (SimpleAgent F)) := do
  let old ← rd s.2 i
  let new ← rd copy i
  let agents ← wr s.2 i new
  .ok (cmax s.1 (cabs (old.opinion - new.opinion)), agents)

/-- DeGroot.cpp:30-59 `iteration()`. -/
def iteration (s : DeGroot F) : Res (DeGroot F) := do
  let n := s.network.agents.length
  let copy ← loop n (fun i copy => updateCopy s.network i copy) s.copy
  let r ← loop n (fun i r => writeBack copy i r) (0, s.network.agents)
  .ok { s with counter := s.counter.tick, maxDiff := some r.1, network := { s.network with agents := r.2 }, copy := copy }

/-- DeGroot.cpp:61-70 `finished()`. -/
def finished (s : DeGroot F) : Bool :=
  let converged := match s.maxDiff with
    | some d => decide (d < s.tol)
    | none => false
  s.counter.finished || converged

/-- model.hpp:19-22: `DeGrootModel` does not override `initialize_iterations`, so `max_opinion_diff` is kept. -/
def reset (s : DeGroot F) : DeGroot F := { s with counter := s.counter.reset }

end
end DeGroot
end Seldon
