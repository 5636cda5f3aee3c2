import Verif.Model.Distributions
import Verif.Model.Simulation
/-!
# Model of `include/models/ActivityDrivenModel.hpp`, `src/models/ActivityDrivenModel.cpp`,
`include/models/InertialModel.hpp`, `src/models/InertialModel.cpp`
-/
namespace Seldon

/-- What the template `ActivityDrivenModelAbstract<AgentT>` uses of the agent data (activity_agent.hpp:9-14,
inertial_agent.hpp:13-19). -/
class ActiveAgent (A : Type) (F : outParam Type) where
  opinion : A → F
  activity : A → F
  reluctance : A → F
  setOpinion : F → A → A
  setActivity : F → A → A
  setReluctance : F → A → A

instance {F : Type} : ActiveAgent (ActivityAgent F) F where
  opinion a := a.opinion
  activity a := a.activity
  reluctance a := a.reluctance
  setOpinion x a := { a with opinion := x }
  setActivity x a := { a with activity := x }
  setReluctance x a := { a with reluctance := x }

instance {F : Type} : ActiveAgent (InertialAgent F) F where
  opinion a := a.opinion
  activity a := a.activity
  reluctance a := a.reluctance
  setOpinion x a := { a with opinion := x }
  setActivity x a := { a with activity := x }
  setReluctance x a := { a with reluctance := x }

/-- config_parser.hpp:62-85 `ActivityDrivenSettings`, copied into the members at ActivityDrivenModel.hpp:29-52. -/
structure ActivitySettings (F : Type) where
  maxIterations : Option Int
  dt : F
  m : Int
  eps : F
  gamma : F
  alpha : F
  homophily : F
  reciprocity : F
  K : F
  meanActivities : Bool
  meanWeights : Bool
  nBots : Nat
  botM : List Int
  botActivity : List F
  botOpinion : List F
  botHomophily : List F
  useReluctances : Bool
  reluctanceMean : F
  reluctanceSigma : F
  reluctanceEps : F
  covarianceFactor : F

/-- The members of `ActivityDrivenModelAbstract<AgentT>`: parameters, network, `contact_prob_list`, generator.  The integration
buffers and `reciprocal_edge_buffer` are completely rewritten before they are read, so they are local to the functions below.
ActivityDrivenModel.hpp:66-121. -/
structure Activity (A F G : Type) where
  counter : Counter
  p : ActivitySettings F
  network : Network A F
  contactProb : List (List F)
  gen : G

namespace Activity
variable {A F G : Type}

/-- ActivityDrivenModel.hpp:307-311 `bot_present() && i < n_bots`. -/
def isBot (p : ActivitySettings F) (i : Nat) : Bool := decide (0 < p.nBots) && decide (i < p.nBots)

section
variable [ActiveAgent A F]

/-! ## initial agents -/

section
variable [Zero F] [One F] [Sub F] [Mul F] [Add F] [Div F] [Neg F] [NatCast F]

/-- `std::uniform_real_distribution<>( -1, 1 )( gen )`, computed as `u * ( b - a ) + a` from a draw `u` in `[0,1)`.
ActivityDrivenModel.hpp:129-130. -/
def drawOpinion (r : Rng G F) (g : G) : F × G :=
  let (u, g) := r.unit g
  (u * (1 - -1) + -1, g)

/-- ActivityDrivenModel.hpp:126-139: the initial data of one agent. -/
def initialAgent (o : MathOps F) (r : Rng G F) (p : ActivitySettings F) (a : A) (g : G) : A × G :=
  let (x, g) := drawOpinion r g
  let a := ActiveAgent.setOpinion x a
  let (res, g) := Dist.copula o r p.covarianceFactor (Dist.powerLawInverse o p.eps p.gamma)
    (Dist.truncatedInverse o p.reluctanceMean p.reluctanceSigma p.reluctanceEps) g
  let a := ActiveAgent.setActivity res.1 a
  let a := if p.useReluctances then ActiveAgent.setReluctance res.2 a else a
  let a := if p.meanActivities then ActiveAgent.setActivity (Dist.powerLawMean o p.eps p.gamma) a else a
  (a, g)

/-- ActivityDrivenModel.hpp:124-139: the loop over the agents. -/
def drawAgents (o : MathOps F) (r : Rng G F) (p : ActivitySettings F) (agents : List A) (g : G) : Res (List A × G) :=
  loop agents.length (fun i (t : List A × G) => do
      let a ← rd t.1 i
      let (a, g) := initialAgent o r p a t.2
      let agents ← wr t.1 i a
      .ok (agents, g)) (agents, g)

end

/-- ActivityDrivenModel.hpp:141-148: opinions and activities of the bots. -/
def initBots (p : ActivitySettings F) (agents : List A) : Res (List A) :=
  loop p.nBots (fun i agents => do
      let a ← rd agents i
      let x ← rd p.botOpinion i
      let v ← rd p.botActivity i
      wr agents i (ActiveAgent.setActivity v (ActiveAgent.setOpinion x a))) agents

/-- ActivityDrivenModel.hpp:56-61: with `mean_weights` the network is replaced by a fully connected one (weights 0, the
default of `generate_fully_connected`), keeping the agents. -/
def meanNetwork [Inhabited A] [Zero F] (p : ActivitySettings F) (N : Network A F) : Res (Network A F) :=
  if p.meanWeights then do
    let M : Network A F ← NetworkGen.fullyConnected N.nAgents 0
    .ok { M with agents := N.agents }
  else .ok N

/-- ActivityDrivenModel.hpp:27-62: the constructor (and InertialModel.cpp:12-17). -/
def create [Inhabited A] [Zero F] [One F] [Sub F] [Mul F] [Add F] [Div F] [Neg F] [NatCast F] (o : MathOps F) (r : Rng G F)
    (p : ActivitySettings F) (N : Network A F) (g : G) : Res (Activity A F G) := do
  let contactProb := List.replicate N.nAgents []
  let (agents, g) ← drawAgents o r p N.agents g
  let agents ← initBots p agents
  let N ← meanNetwork p { N with agents := agents }
  .ok ⟨⟨p.maxIterations.map Network.toSize, 0⟩, p, N, contactProb, g⟩

/-! ## network update -/

/-- ActivityDrivenModel.hpp:186-191, 270-274: the number of contacts of agent `i`, as converted to `size_t` by the call. -/
def contactsWanted (p : ActivitySettings F) (i : Nat) : Res Nat :=
  if isBot p i then do
    let m ← rd p.botM i
    .ok (Network.toSize m)
  else .ok (Network.toSize p.m)

/-- ActivityDrivenModel.hpp:153-159: the homophily of agent `i`.  (The code reads it inside the callback, i.e. only if the
weight of another agent is asked for; here it is read beforehand.) -/
def homophilyOf (p : ActivitySettings F) (i : Nat) : Res F :=
  if isBot p i then rd p.botHomophily i else .ok p.homophily

section
variable [Zero F] [One F] [Sub F] [Mul F] [Add F] [Div F] [Neg F] [NatCast F] [LT F] [LE F] [DecidableLT F] [DecidableLE F]

/-- ActivityDrivenModel.hpp:151-167 `homophily_weight( i, j )`, given the homophily `h` of agent `i`.  Only called for
existing agents (`0` otherwise). -/
def weight (o : MathOps F) (h : F) (agents : List A) (i j : Nat) : F :=
  if j = i then 0
  else match agents[i]?, agents[j]? with
    | some a, some b =>
      o.pow (cmax (1 / ((10 ^ 10 : Nat) : F)) (cabs (ActiveAgent.opinion a - ActiveAgent.opinion b))) (-h)
    | _, _ => 0

/-- State of `update_network_probabilistic`: the network, `contacted_agents`, `reciprocal_edge_buffer`, the generator.
ActivityDrivenModel.hpp:169-181. -/
structure Contacting (A F G : Type) where
  network : Network A F
  contacted : List Nat
  edges : List (Nat × Nat)
  gen : G

/-- ActivityDrivenModel.hpp:186-205: agent `i` is activated.  (`contacted_agents` is declared outside the loop, so the
reservoir sampling gets the previous contents.) -/
def contact (o : MathOps F) (pick : List (Nat × F) → Nat) (r : Rng G F) (p : ActivitySettings F) (i : Nat) (t : Contacting A F G)
    (g : G) : Res (Contacting A F G) := do
  let m ← contactsWanted p i
  let h ← homophilyOf p i
  let (c, g) ← Reservoir.sample o.toOps pick r m t.network.nAgents (weight o h t.network.agents i) t.contacted g
  let N ← (t.network.setNeighboursConst i c 1).run
  .ok ⟨N, c, t.edges ++ c.map (fun j => (i, j)), g⟩

/-- ActivityDrivenModel.hpp:177-211: one agent: activation test, then contacts or an empty row. -/
def activate (o : MathOps F) (pick : List (Nat × F) → Nat) (r : Rng G F) (p : ActivitySettings F) (i : Nat) (t : Contacting A F G) :
    Res (Contacting A F G) := do
  let (u, g) := r.unit t.gen
  let a ← rd t.network.agents i
  if u < ActiveAgent.activity a then contact o pick r p i t g
  else do
    let N ← (t.network.setNeighboursConst i [] 0).run
    .ok { t with network := N, gen := g }

/-- ActivityDrivenModel.hpp:220-230: one outgoing edge of agent `i`.  The loop runs over a span into row `i`; pushing to the
same row would invalidate it. -/
def reciprocateEdge (r : Rng G F) (reciprocity : F) (edges : List (Nat × Nat)) (i k : Nat) (t : Network A F × G) :
    Res (Network A F × G) := do
  let row ← rd t.1.neighbours i
  let j ← rd row k
  if (j, i) ∈ edges then .ok t
  else do
    let (u, g) := r.unit t.2
    if u < reciprocity then
      if j = i then .error .ub
      else do
        let N ← (t.1.pushBack j i 1).run
        .ok (N, g)
    else .ok (t.1, g)

/-- ActivityDrivenModel.hpp:217-230: all outgoing edges of agent `i`. -/
def reciprocate (r : Rng G F) (reciprocity : F) (edges : List (Nat × Nat)) (i : Nat) (t : Network A F × G) : Res (Network A F × G) := do
  let row ← t.1.getNeighbours i
  loop row.length (fun k t => reciprocateEdge r reciprocity edges i k t) t

/-- ActivityDrivenModel.hpp:169-234 `update_network_probabilistic()`. -/
def updateProbabilistic (o : MathOps F) (pick : List (Nat × F) → Nat) (r : Rng G F) (s : Activity A F G) : Res (Activity A F G) := do
  let n := s.network.nAgents
  let t ← loop n (fun i t => activate o pick r s.p i t) ⟨s.network.switchDirectionFlag, [], [], s.gen⟩
  let (N, g) ← loop n (fun i t' => reciprocate r s.p.reciprocity t.edges i t') (t.network, t.gen)
  let N ← N.toggle
  .ok { s with network := N, gen := g }

/-- ActivityDrivenModel.hpp:241-245: set all weights and contact probabilities to zero. -/
def resetMean (i : Nat) (t : Network A F × List (List F)) : Res (Network A F × List (List F)) := do
  let zeros := List.replicate t.1.nAgents (0 : F)
  let N ← (t.1.setWeights i zeros).run
  let P ← wr t.2 i zeros
  .ok (N, P)

/-- ActivityDrivenModel.hpp:247-253 `probability_helper`: `Σ_{i=1}^m ( (-ω)^(i+1) + ω ) / ( ω + 1 )`. -/
def probabilityHelper (o : MathOps F) (omega : F) (m : Nat) : Res F :=
  loop m (fun i p => .ok (p + (o.powNat (-omega) (i + 1 + 1) + omega) / (omega + 1))) 0

/-- ActivityDrivenModel.hpp:260-264. -/
def normalization (w : Nat → F) (n : Nat) : Res F := loop n (fun k acc => .ok (acc + w k)) 0

/-- ActivityDrivenModel.hpp:276-283: the contact probabilities of agent `i`. -/
def contactRow (o : MathOps F) (w : Nat → F) (norm activity : F) (m n i : Nat) (P : List (List F)) : Res (List (List F)) :=
  loop n (fun j P => do
      let q ← probabilityHelper o (w j / norm) m
      let row ← rd P i
      let row ← wr row j (activity * q)
      wr P i row) P

/-- ActivityDrivenModel.hpp:255-284: one agent. -/
def contactProbs (o : MathOps F) (p : ActivitySettings F) (agents : List A) (i : Nat) (P : List (List F)) : Res (List (List F)) := do
  let h ← homophilyOf p i
  let norm ← normalization (weight o h agents i) agents.length
  let m ← contactsWanted p i
  let a ← rd agents i
  contactRow o (weight o h agents i) norm (cmax 1 (ActiveAgent.activity a)) m agents.length i P

/-- A read-modify-write `network.get_weights( i )[k] += x`.
ActivityDrivenModel.hpp:293-302. -/
def addWeight (N : Network A F) (i k : Nat) (x : F) : Res (Network A F) := do
  let row ← N.getWeights i
  let w ← rd row k
  (N.pokeWeight i k (w + x)).run

/-- ActivityDrivenModel.hpp:289-302: the weights from the contact probabilities of the pair `(i, j)`. -/
def meanPair (reciprocity : F) (P : List (List F)) (i j : Nat) (N : Network A F) : Res (Network A F) := do
  let rowI ← rd P i
  let pij ← rd rowI j
  let rowJ ← rd P j
  let pji ← rd rowJ i
  let N ← addWeight N j i pij
  addWeight N i j ((1 - pji) * reciprocity * pij)

/-- ActivityDrivenModel.hpp:236-305 `update_network_mean()`. -/
def updateMean (o : MathOps F) (s : Activity A F G) : Res (Activity A F G) := do
  let n := s.network.nAgents
  let (N, P) ← loop n (fun i t => resetMean i t) (s.network, s.contactProb)
  let P ← loop n (fun i P => contactProbs o s.p N.agents i P) P
  let N ← loop n (fun i N => loop n (fun j N => meanPair s.p.reciprocity P i j N) N) N
  .ok { s with network := N, contactProb := P }

/-- ActivityDrivenModel.hpp:313-324 `update_network()`. -/
def updateNetwork (o : MathOps F) (pick : List (Nat × F) → Nat) (r : Rng G F) (s : Activity A F G) : Res (Activity A F G) :=
  if s.p.meanWeights = false then updateProbabilistic o pick r s else updateMean o s

/-! ## integration -/

/-- ActivityDrivenModel.hpp:340-345: the contribution of the `j`-th neighbour to the slope of agent `i`. -/
def slopeTerm (o : MathOps F) (p : ActivitySettings F) (agents : List A) (ns : List Nat) (ws : List F) (opinion : Nat → Res F)
    (i j : Nat) (k : List F) : Res (List F) := do
  let jIndex ← rd ns j
  let cur ← rd k i
  let a ← rd agents i
  let w ← rd ws j
  let y ← opinion jIndex
  wr k i (cur + 1 / ActiveAgent.reluctance a * p.K * w * o.tanh (p.alpha * y))

/-- ActivityDrivenModel.hpp:326-349 `get_euler_slopes( k_buffer, opinion )`.  All entries of the resized buffer are overwritten,
so it is modelled as a fresh vector. -/
def eulerSlopes (o : MathOps F) (p : ActivitySettings F) (N : Network A F) (opinion : Nat → Res F) : Res (List F) :=
  loop N.nAgents (fun i k => do
      let ns ← N.getNeighbours i
      let ws ← N.getWeights i
      let x ← opinion i
      let k ← wr k i (-x)
      loop ns.length (fun j k => slopeTerm o p N.agents ns ws opinion i j k) k)
    (List.replicate N.nAgents 0)

/-- ActivityDrivenModel.cpp:20: the opinion callback of the first stage. -/
def opinionAt (N : Network A F) (i : Nat) : Res F := do
  let a ← rd N.agents i
  .ok (ActiveAgent.opinion a)

/-- ActivityDrivenModel.cpp:23, 26, 29: the opinion callbacks of the later stages, `x_i + h * k_i`. -/
def opinionShifted (N : Network A F) (h : F) (k : List F) (i : Nat) : Res F := do
  let a ← rd N.agents i
  let ki ← rd k i
  .ok (ActiveAgent.opinion a + h * ki)

/-- ActivityDrivenModel.cpp:32-39: the update of one agent. -/
def rkUpdate (dt : F) (k1 k2 k3 k4 : List F) (i : Nat) (agents : List A) : Res (List A) := do
  let a ← rd agents i
  let k1 ← rd k1 i
  let k2 ← rd k2 i
  let k3 ← rd k3 i
  let k4 ← rd k4 i
  wr agents i (ActiveAgent.setOpinion
    (ActiveAgent.opinion a + dt * (k1 + ((2 : Nat) : F) * k2 + ((2 : Nat) : F) * k3 + k4) / ((6 : Nat) : F)) a)

/-- ActivityDrivenModel.cpp:41-47, InertialModel.cpp:68-74: the bots get their opinions back. -/
def resetBots (p : ActivitySettings F) (agents : List A) : Res (List A) :=
  loop p.nBots (fun i agents => do
      let a ← rd agents i
      let x ← rd p.botOpinion i
      wr agents i (ActiveAgent.setOpinion x a)) agents

/-- ActivityDrivenModel.cpp:18-47: the Runge-Kutta step and the bots. -/
def rkStep (o : MathOps F) (p : ActivitySettings F) (N : Network A F) : Res (List A) := do
  let half : F := 1 / ((2 : Nat) : F)
  let k1 ← eulerSlopes o p N (opinionAt N)
  let k2 ← eulerSlopes o p N (opinionShifted N (half * p.dt) k1)
  let k3 ← eulerSlopes o p N (opinionShifted N (half * p.dt) k2)
  let k4 ← eulerSlopes o p N (opinionShifted N p.dt k3)
  let agents ← loop N.nAgents (fun i agents => rkUpdate p.dt k1 k2 k3 k4 i agents) N.agents
  resetBots p agents

/-- ActivityDrivenModel.cpp:11-48 `iteration()`. -/
def iteration (o : MathOps F) (pick : List (Nat × F) → Nat) (r : Rng G F) (s : Activity A F G) : Res (Activity A F G) := do
  let s ← updateNetwork o pick r { s with counter := s.counter.tick }
  let agents ← rkStep o s.p s.network
  .ok { s with network := { s.network with agents := agents } }

end
end

/-- model.hpp:34-44 (not overridden). -/
def finished (s : Activity A F G) : Bool := s.counter.finished

/-- model.hpp:19-22 (not overridden). -/
def reset (s : Activity A F G) : Activity A F G := { s with counter := s.counter.reset }

end Activity

/-! ## inertial model -/

namespace Inertial
variable {F G : Type} [Zero F] [One F] [Sub F] [Mul F] [Add F] [Div F] [Neg F] [NatCast F] [LT F] [LE F] [DecidableLT F] [DecidableLE F]

/-- InertialModel.hpp:20-38: the members of `InertialModel`. -/
structure _root_.Seldon.Inertial (F G : Type) where
  base : Activity (InertialAgent F) F G
  friction : F

/-- InertialModel.cpp:26-34: the position update of one agent. -/
def movePosition (dt friction : F) (drift : List F) (i : Nat) (agents : List (InertialAgent F)) : Res (List (InertialAgent F)) := do
  let a ← rd agents i
  let d ← rd drift i
  let acceleration := d - friction * a.velocity
  wr agents i { a with opinion := a.opinion + a.velocity * dt + 1 / ((2 : Nat) : F) * acceleration * dt * dt }

/-- InertialModel.cpp:44-55: the velocity update of one agent. -/
def moveVelocity (dt friction : F) (drift driftNext : List F) (i : Nat) (agents : List (InertialAgent F)) : Res (List (InertialAgent F)) := do
  let a ← rd agents i
  let d ← rd drift i
  let d' ← rd driftNext i
  let v := a.velocity + 1 / ((2 : Nat) : F) * dt * (d - friction * a.velocity + d')
  wr agents i { a with velocity := v / (1 + 1 / ((2 : Nat) : F) * friction * dt) }

/-- InertialModel.cpp:21-56, 64-74: `calc_position`, `calc_velocity` and the bots. -/
def verletStep (o : MathOps F) (p : ActivitySettings F) (friction : F) (N : Network (InertialAgent F) F) : Res (List (InertialAgent F)) := do
  let drift ← Activity.eulerSlopes o p N (Activity.opinionAt N)
  let agents ← loop N.nAgents (fun i agents => movePosition p.dt friction drift i agents) N.agents
  let N := { N with agents := agents }
  let driftNext ← Activity.eulerSlopes o p N (Activity.opinionAt N)
  let agents ← loop N.nAgents (fun i agents => moveVelocity p.dt friction drift driftNext i agents) N.agents
  Activity.resetBots p agents

/-- InertialModel.cpp:58-75 `iteration()`. -/
def iteration (o : MathOps F) (pick : List (Nat × F) → Nat) (r : Rng G F) (s : Inertial F G) : Res (Inertial F G) := do
  let b ← Activity.updateNetwork o pick r { s.base with counter := s.base.counter.tick }
  let agents ← verletStep o b.p s.friction b.network
  .ok { s with base := { b with network := { b.network with agents := agents } } }

/-- model.hpp:34-44 (not overridden). -/
def finished (s : Inertial F G) : Bool := s.base.counter.finished

/-- model.hpp:19-22 (not overridden). -/
def reset (s : Inertial F G) : Inertial F G := { s with base := s.base.reset }

end Inertial

/-- `ActivityDrivenModel` as a `Model<ActivityAgent>`.
model.hpp:11-51, ActivityDrivenModel.hpp:64-71. -/
def Activity.machine {A F G : Type} [ActiveAgent A F] [Zero F] [One F] [Sub F] [Mul F] [Add F] [Div F] [Neg F] [NatCast F] [LT F] [LE F]
    [DecidableLT F] [DecidableLE F] (o : MathOps F) (pick : List (Nat × F) → Nat) (r : Rng G F) : Machine A F (Activity A F G) where
  network s := s.network
  nIterations s := s.counter.nIterations
  reset := Activity.reset
  iteration := Activity.iteration o pick r
  finished := Activity.finished

/-- `InertialModel` as a `Model<InertialAgent>`.
model.hpp:11-51, InertialModel.hpp:20-40. -/
def Inertial.machine {F G : Type} [Zero F] [One F] [Sub F] [Mul F] [Add F] [Div F] [Neg F] [NatCast F] [LT F] [LE F]
    [DecidableLT F] [DecidableLE F] (o : MathOps F) (pick : List (Nat × F) → Nat) (r : Rng G F) : Machine (InertialAgent F) F (Inertial F G) where
  network s := s.base.network
  nIterations s := s.base.counter.nIterations
  reset := Inertial.reset
  iteration := Inertial.iteration o pick r
  finished := Inertial.finished

end Seldon
