import Verif.Model.DeGroot
import Verif.Model.NetworkGen
import Verif.Model.Text
/-!
# Model of `include/models/DeffuantModel.hpp`, `src/models/DeffuantModel.cpp`, `src/models/DeffuantModelVector.cpp`
-/
namespace Seldon

/-- DeffuantModel.hpp:104-108: the members of `DeffuantModelAbstract<AgentT>` (network and generator, held by reference,
are part of the state). -/
structure Deffuant (A F G : Type) where
  counter : Counter
  threshold : F
  mu : F
  useNetwork : Bool
  network : Network A F
  gen : G

namespace Deffuant
variable {A F G : Type}

/-- DeffuantModel.hpp:26-44: the constructor.  `isqrt n` stands for `size_t( std::sqrt( n ) )`. -/
def create [Inhabited A] [Zero F] (isqrt : Nat → Nat) (maxIterations : Option Int) (threshold mu : F) (useNetwork : Bool)
    (network : Network A F) (g : G) : Res (Deffuant A F G) :=
  if useNetwork then
    let nEdge := isqrt network.nAgents
    if nEdge * nEdge ≠ network.nAgents then .error (.exn "runtime_error")
    else do
      let lattice ← NetworkGen.lattice nEdge 0
      .ok ⟨⟨maxIterations.map Network.toSize, 0⟩, threshold, mu, useNetwork, lattice, g⟩
  else .ok ⟨⟨maxIterations.map Network.toSize, 0⟩, threshold, mu, useNetwork, network, g⟩

/-- DeffuantModel.hpp:46-75 `select_interacting_agent_pair`. -/
def selectPair (r : Rng G F) (s : Deffuant A F G) : Res (List Nat × Deffuant A F G) :=
  if s.useNetwork = false then do
    let (pair, g) ← Draw.drawUnique r none 2 s.network.nAgents [] s.gen
    .ok (pair, { s with gen := g })
  else do
    let (agent1, g) := r.int 0 (Text.subSz s.network.nAgents 1) s.gen
    let neighbours ← s.network.getNeighbours agent1
    let (idx, g) := r.int 0 (Text.subSz neighbours.length 1) g
    let agent2 ← rd neighbours idx
    .ok ([agent1, agent2], { s with gen := g })

/-- DeffuantModel.hpp:85-92: one interaction, given the update rule on the agents at two indices. -/
def interact (r : Rng G F) (update : Nat → Nat → Deffuant A F G → Res (Deffuant A F G)) (s : Deffuant A F G) :
    Res (Deffuant A F G) := do
  let (pair, s) ← selectPair r s
  let a ← rd pair 0
  let _ ← rd s.network.agents a
  let b ← rd pair 1
  let _ ← rd s.network.agents b
  update a b s

/-- DeffuantModel.hpp:77-94 `iteration()`. -/
def iteration (r : Rng G F) (update : Nat → Nat → Deffuant A F G → Res (Deffuant A F G)) (s : Deffuant A F G) :
    Res (Deffuant A F G) :=
  loop s.network.nAgents (fun _ s => interact r update s) { s with counter := s.counter.tick }

/-- model.hpp:34-44 (not overridden). -/
def finished (s : Deffuant A F G) : Bool := s.counter.finished

/-- model.hpp:19-22 (not overridden). -/
def reset (s : Deffuant A F G) : Deffuant A F G := { s with counter := s.counter.reset }

/-! ## scalar opinions -/

/-- DeffuantModel.cpp:9-16 `initialize_agents` (SimpleAgent). -/
def initializeAgents [NatCast F] [Div F] (s : Deffuant (SimpleAgent F) F G) : Res (Deffuant (SimpleAgent F) F G) := do
  let agents ← DeGroot.spread s.network.agents
  .ok { s with network := { s.network with agents := agents } }

/-- DeffuantModel.cpp:18-29 `update_rule( agents[a], agents[b] )`; the two references may denote the same agent. -/
def updateRule [Add F] [Mul F] [Sub F] [Zero F] [Neg F] [LT F] [DecidableLT F] (a b : Nat) (s : Deffuant (SimpleAgent F) F G) :
    Res (Deffuant (SimpleAgent F) F G) := do
  let x ← rd s.network.agents a
  let y ← rd s.network.agents b
  let diff := x.opinion - y.opinion
  if cabs diff < s.threshold then do
    let agents ← wr s.network.agents a ⟨x.opinion - s.mu * diff⟩
    let y ← rd agents b
    let agents ← wr agents b ⟨y.opinion + s.mu * diff⟩
    .ok { s with network := { s.network with agents := agents } }
  else .ok s

/-! ## binary vectors -/

/-- DeffuantModelVector.cpp:20-24: fill one opinion vector with draws from `{0,1}`. -/
def drawBits (r : Rng G F) : Nat → G → List Int × G
  | 0, g => ([], g)
  | n + 1, g =>
    let (d, g) := r.int 0 1 g
    let (ds, g) := drawBits r n g
    ((d : Int) :: ds, g)

/-- DeffuantModelVector.cpp:12-26 `initialize_agents( dim )`. -/
def initializeVectors (r : Rng G F) (dim : Nat) (s : Deffuant DiscreteVectorAgent F G) : Res (Deffuant DiscreteVectorAgent F G) := do
  let t ← loop s.network.agents.length (fun i (t : List DiscreteVectorAgent × G) => do
      let _ ← rd t.1 i
      let (bits, g) := drawBits r dim t.2
      let agents ← wr t.1 i ⟨bits⟩
      .ok (agents, g)) (s.network.agents, s.gen)
  .ok { s with network := { s.network with agents := t.1 }, gen := t.2 }

/-- DeffuantModelVector.cpp:43-58: one position; the state is the list of agents and the generator.  The two references
may denote the same agent.  `dist_convince( gen )` is only drawn when `idx_selected == 0` (short-circuit). -/
def convince [LT F] [DecidableLT F] (r : Rng G F) (mu : F) (a b k : Nat) (t : List DiscreteVectorAgent × G) :
    Res (List DiscreteVectorAgent × G) := do
  let x ← rd t.1 a
  let y ← rd t.1 b
  let xk ← rd x.opinion k
  let yk ← rd y.opinion k
  if xk ≠ yk then do
    let (sel, g) := r.int 0 1 t.2
    if sel = 0 then do
      let (u, g) := r.unit g
      if mu < u then do
        let op ← wr x.opinion k yk
        let agents ← wr t.1 a ⟨op⟩
        .ok (agents, g)
      else do
        let op ← wr y.opinion k xk
        let agents ← wr t.1 b ⟨op⟩
        .ok (agents, g)
    else do
      let op ← wr y.opinion k xk
      let agents ← wr t.1 b ⟨op⟩
      .ok (agents, g)
  else .ok t

/-- DeffuantModelVector.cpp:28-61 `update_rule( agents[a], agents[b] )`. -/
def updateVector [LT F] [DecidableLT F] [IntCast F] (r : Rng G F) (a b : Nat) (s : Deffuant DiscreteVectorAgent F G) :
    Res (Deffuant DiscreteVectorAgent F G) := do
  let x ← rd s.network.agents a
  let y ← rd s.network.agents b
  let dim := x.opinion.length
  let distance ← hamming x.opinion y.opinion
  if (distance : F) < s.threshold then do
    let t ← loop dim (fun k t => convince r s.mu a b k t) (s.network.agents, s.gen)
    .ok { s with network := { s.network with agents := t.1 }, gen := t.2 }
  else .ok s

end Deffuant
end Seldon
