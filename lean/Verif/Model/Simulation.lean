import Verif.Model.Deffuant
import Verif.Model.NetworkIO
/-!
# Model of `Simulation::run` in `include/simulation.hpp`

Files are modelled by the sequence of (name, contents) written; for standard output and the order of effects see `Model/Effects`.
-/
namespace Seldon

/-- model.hpp:11-48: the virtual interface of `Model<AgentT>`, together with the network it works on (held by reference). -/
structure Machine (A F S : Type) where
  network : S → Network A F
  nIterations : S → Nat
  reset : S → S
  iteration : S → Res S
  finished : S → Bool

/-- config_parser.hpp:32-42 `OutputSettings`. -/
structure OutputSettings where
  nOutputAgents : Option Nat := none
  nOutputNetwork : Option Nat := none
  printProgress : Bool := false
  outputInitial : Bool := true
  startOutput : Nat := 1
  startNumberingFrom : Nat := 0
  deriving DecidableEq, Repr

/-- One file written: its name (relative to the output directory) and its contents.
simulation.hpp:120-166. -/
structure FileWrite where
  name : List Char
  contents : List Char
  deriving DecidableEq, Repr

namespace Simulation
variable {A F S : Type}

/-- simulation.hpp:125, 153. -/
def opinionsName (k : Nat) : List Char := "opinions_".toList ++ Text.decimal k ++ ".txt".toList

/-- simulation.hpp:124, 161. -/
def networkName (k : Nat) : List Char := "network_".toList ++ Text.decimal k ++ ".txt".toList

/-- How the files are rendered: number formatting and the agent format.
simulation.hpp:120-166. -/
structure Render (A F : Type) where
  text : Text.Double F
  agents : AgentIO.Format A

/-- simulation.hpp:126, 154: `agents_to_file`. -/
def writeOpinions (R : Render A F) (N : Network A F) (k : Nat) (tr : List FileWrite) : Res (List FileWrite) := do
  let contents ← AgentIO.toFile R.agents N.agents
  .ok (tr ++ [⟨opinionsName k, contents⟩])

/-- simulation.hpp:122-124, 162: `network_to_file`. -/
def writeNetwork (R : Render A F) (N : Network A F) (k : Nat) (tr : List FileWrite) : Res (List FileWrite) := do
  let contents ← NetworkIO.toFile R.text N
  .ok (tr ++ [⟨networkName k, contents⟩])

/-- simulation.hpp:150-151, 158-159: `n.has_value() && n_iterations >= start && n_iterations % n.value() == 0`
(`% 0` is undefined behaviour). -/
def due (n : Option Nat) (start k : Nat) : Res Bool :=
  match n with
  | none => .ok false
  | some n =>
    if start ≤ k then
      if n = 0 then .error .ub else .ok (decide (k % n = 0))
    else .ok false

/-- simulation.hpp:149-155. -/
def outputOpinions (R : Render A F) (o : OutputSettings) (N : Network A F) (k : Nat) (tr : List FileWrite) : Res (List FileWrite) := do
  let b ← due o.nOutputAgents o.startOutput k
  if b then writeOpinions R N (k + o.startNumberingFrom) tr else .ok tr

/-- simulation.hpp:157-163. -/
def outputNetwork (R : Render A F) (o : OutputSettings) (N : Network A F) (k : Nat) (tr : List FileWrite) : Res (List FileWrite) := do
  let b ← due o.nOutputNetwork o.startOutput k
  if b then writeNetwork R N (k + o.startNumberingFrom) tr else .ok tr

/-- simulation.hpp:149-163: the output after an iteration. -/
def output (R : Render A F) (o : OutputSettings) (N : Network A F) (k : Nat) (tr : List FileWrite) : Res (List FileWrite) := do
  let tr ← outputOpinions R o N k tr
  outputNetwork R o N k tr

/-- simulation.hpp:132-164: the `while` loop; `fuel` bounds the number of rounds. -/
def runLoop (M : Machine A F S) (R : Render A F) (o : OutputSettings) : Nat → S × List FileWrite → Res (S × List FileWrite)
  | 0, t => if M.finished t.1 then .ok t else .error .fuel
  | fuel + 1, t =>
    if M.finished t.1 then .ok t
    else do
      let s ← M.iteration t.1
      let tr ← output R o (M.network s) (M.nIterations s) t.2
      runLoop M R o fuel (s, tr)

/-- simulation.hpp:120-127: the initial output. -/
def initialOutput (R : Render A F) (o : OutputSettings) (N : Network A F) : Res (List FileWrite) :=
  if o.outputInitial then do
    let tr ← writeNetwork R N o.startNumberingFrom []
    writeOpinions R N o.startNumberingFrom tr
  else .ok []

/-- simulation.hpp:108-174 `run( output_dir_path )`: the final state and the files written, in order. -/
def run (M : Machine A F S) (R : Render A F) (o : OutputSettings) (fuel : Nat) (s : S) : Res (S × List FileWrite) := do
  let tr ← initialOutput R o (M.network s)
  runLoop M R o fuel (M.reset s, tr)

end Simulation

/-- `DeGrootModel` as a `Model<SimpleAgent>` (DeGroot.hpp:13-28). -/
def DeGroot.machine {F : Type} [Zero F] [Add F] [Mul F] [Sub F] [Neg F] [LT F] [DecidableLT F] :
    Machine (SimpleAgent F) F (DeGroot F) where
  network s := s.network
  nIterations s := s.counter.nIterations
  reset := DeGroot.reset
  iteration := DeGroot.iteration
  finished := DeGroot.finished

/-- `DeffuantModelAbstract<AgentT>` as a `Model<AgentT>` (DeffuantModel.hpp:19-109), for the given update rule. -/
def Deffuant.machine {A F G : Type} (r : Rng G F) (update : Nat → Nat → Deffuant A F G → Res (Deffuant A F G)) :
    Machine A F (Deffuant A F G) where
  network s := s.network
  nIterations s := s.counter.nIterations
  reset := Deffuant.reset
  iteration := Deffuant.iteration r update
  finished := Deffuant.finished

end Seldon
