import Verif.Model.Config
/-!
# Model of `include/model_factory.hpp`, the construction of `Simulation` in `include/simulation.hpp`, and `src/main.cpp`

What is computed from given file contents.  Printing, the creation of the output directory and the order of all effects are in `Model/Effects`.
Command line parsing (argparse) is not modelled.
-/
namespace Seldon

/-- The agent types the program uses (main.cpp:62-93). -/
inductive AgentKind where
  | simple
  | activity
  | inertial
  | vector
  deriving DecidableEq, Repr

/-- The C++ type of each kind: `DeGrootModel::AgentT` and `DeffuantModel::AgentT` are `SimpleAgent`, etc.
DeGroot.hpp:15, DeffuantModel.hpp:23, ActivityDrivenModel.hpp:23, InertialModel.hpp:23, main.cpp:63-97. -/
abbrev Agent (F : Type) : AgentKind → Type
  | .simple => SimpleAgent F
  | .activity => ActivityAgent F
  | .inertial => InertialAgent F
  | .vector => DiscreteVectorAgent

/-- A `std::unique_ptr<Model<AgentT>>` together with the network and generator it refers to.
simulation.hpp:33-41, model_factory.hpp:33-116. -/
inductive ModelState (F G : Type) : AgentKind → Type where
  | deGroot (s : DeGroot F) : ModelState F G .simple
  | deffuant (s : Deffuant (SimpleAgent F) F G) : ModelState F G .simple
  | activity (s : Activity (ActivityAgent F) F G) : ModelState F G .activity
  | inertial (s : Inertial F G) : ModelState F G .inertial
  | vector (s : Deffuant DiscreteVectorAgent F G) : ModelState F G .vector

/-- Everything the program takes from outside.
main.cpp:15-101, simulation.hpp:96-106. -/
structure Env (F G : Type) where
  /-- distributions -/
  rng : Rng G F
  /-- `std::mt19937( seed )` -/
  seed : Int → G
  /-- `std::random_device()()` -/
  fresh : Int
  /-- mathematical functions -/
  math : MathOps F
  /-- which of several smallest elements a priority queue returns -/
  pick : List (Nat × F) → Nat
  /-- `size_t( std::sqrt( n ) )` -/
  isqrt : Nat → Nat
  /-- reading and printing of floating point numbers -/
  text : Text.Double F
  /-- the file system: contents of the readable files -/
  files : String → Option (List Char)
  /-- the TOML parser; `none` for a syntax error -/
  toml : List Char → Option (Config.Doc F)
  /-- conversions of TOML values -/
  convert : Config.Convert F

namespace Program
variable {F G : Type}

/-- Default-constructed agents. -/
instance [Zero F] [One F] {k : AgentKind} : Inhabited (Agent F k) :=
  match k with
  | .simple => ⟨(default : SimpleAgent F)⟩
  | .activity => ⟨(default : ActivityAgent F)⟩
  | .inertial => ⟨(default : InertialAgent F)⟩
  | .vector => ⟨(default : DiscreteVectorAgent)⟩

/-- The text format of each agent type (agent_io.hpp and the specialisations in agents/). -/
def format [Zero F] [One F] (T : Text.Double F) : (k : AgentKind) → AgentIO.Format (Agent F k)
  | .simple => AgentIO.simple T
  | .activity => AgentIO.activity T
  | .inertial => AgentIO.inertial T
  | .vector => AgentIO.vector

/-- util/misc.hpp `get_file_contents`: throws if the file cannot be read. -/
def getFileContents (env : Env F G) (file : String) : Res (List Char) :=
  match env.files file with
  | some contents => .ok contents
  | none => .error (.exn "runtime_error")

/-- simulation.hpp:46-49: the file on the command line takes precedence. -/
def networkFile (cli file : Option String) : Option String :=
  match cli with
  | some f => some f
  | none => file

/-- simulation.hpp:42-64 `create_network`.  `n_agents` goes through an `int`. -/
def createNetwork [Zero F] [One F] [Add F] [Div F] (env : Env F G) (k : AgentKind) (options : Config.Options F) (cli : Option String) (g : G) :
    Res (Network (Agent F k) F × G) :=
  match networkFile cli options.network.file with
  | some file => do
    let contents ← getFileContents env file
    let N ← NetworkIO.fromFile env.text contents
    .ok (N, g)
  | none => NetworkGen.nConnections env.rng (Network.toSize (Network.toInt32 options.network.nAgents)) options.network.nConnections true g

/-- model_factory.hpp:45-46 etc. -/
def incompatible {α : Type} : Res α := .error (.exn "Incompatible agent and model type!")

/-- `std::get` of the wrong alternative.
model_factory.hpp:38, 55, 72, 88, 106. -/
def badVariant {α : Type} : Res α := .error (.exn "bad_variant_access")

/-- model_factory.hpp:33-48 `create_model_degroot`. -/
def createDeGroot [NatCast F] [Div F] : (k : AgentKind) → Network (Agent F k) F → Config.ModelSettings F → Res (ModelState F G k)
  | .simple, N, .deGroot s => do
    let (m, _) ← DeGroot.create s.maxIterations s.tol N
    .ok (.deGroot m)
  | .simple, _, _ => badVariant
  | _, _, _ => incompatible

section
variable [Zero F] [One F] [Sub F] [Mul F] [Add F] [Div F] [Neg F] [NatCast F]

/-- model_factory.hpp:50-66 `create_model_activity_driven`. -/
def createActivity (env : Env F G) : (k : AgentKind) → Network (Agent F k) F → Config.ModelSettings F → G → Res (ModelState F G k)
  | .activity, N, .activity s, g => do
    let m ← Activity.create (A := ActivityAgent F) env.math env.rng s N g
    .ok (.activity m)
  | .activity, _, _, _ => badVariant
  | _, _, _, _ => incompatible

/-- model_factory.hpp:68-83 `create_model_activity_driven_inertial`. -/
def createInertial (env : Env F G) : (k : AgentKind) → Network (Agent F k) F → Config.ModelSettings F → G → Res (ModelState F G k)
  | .inertial, N, .inertial s, g => do
    let m ← Activity.create (A := InertialAgent F) env.math env.rng s.base N g
    .ok (.inertial ⟨m, s.friction⟩)
  | .inertial, _, _, _ => badVariant
  | _, _, _, _ => incompatible

/-- model_factory.hpp:85-99 `create_model_deffuant`. -/
def createDeffuant (env : Env F G) : (k : AgentKind) → Network (Agent F k) F → Config.ModelSettings F → G → Res (ModelState F G k)
  | .simple, N, .deffuant s, g => do
    let m ← Deffuant.create (A := SimpleAgent F) env.isqrt s.maxIterations s.threshold s.mu s.useNetwork N g
    let m ← Deffuant.initializeAgents m
    .ok (.deffuant m)
  | .simple, _, _, _ => badVariant
  | _, _, _, _ => incompatible

/-- model_factory.hpp:101-116 `create_model_deffuant_vector`. -/
def createDeffuantVector (env : Env F G) : (k : AgentKind) → Network (Agent F k) F → Config.ModelSettings F → G → Res (ModelState F G k)
  | .vector, N, .deffuant s, g => do
    let m ← Deffuant.create (A := DiscreteVectorAgent) env.isqrt s.maxIterations s.threshold s.mu s.useNetwork N g
    let m ← Deffuant.initializeVectors env.rng s.dim m
    .ok (.vector m)
  | .vector, _, _, _ => badVariant
  | _, _, _, _ => incompatible

/-- simulation.hpp:66-88: the first part of `create_model`. -/
def chooseModel (env : Env F G) (k : AgentKind) (options : Config.Options F) (N : Network (Agent F k) F) (g : G) : Res (ModelState F G k) :=
  match options.model with
  | .deGroot => createDeGroot k N options.settings
  | .activityDriven => createActivity env k N options.settings g
  | .activityDrivenInertial => createInertial env k N options.settings g
  | .deffuant =>
    match options.settings with
    | .deffuant s =>
      if s.useBinaryVector then createDeffuantVector env k N options.settings g
      else createDeffuant env k N options.settings g
    | _ => badVariant

end

/-- simulation.hpp:92: `network.agents = ...` (the model refers to the network of the simulation). -/
def setAgents {k : AgentKind} : ModelState F G k → List (Agent F k) → ModelState F G k
  | .deGroot s, as => .deGroot { s with network := { s.network with agents := as } }
  | .deffuant s, as => .deffuant { s with network := { s.network with agents := as } }
  | .activity s, as => .activity { s with network := { s.network with agents := as } }
  | .inertial s, as => .inertial { s with base := { s.base with network := { s.base.network with agents := as } } }
  | .vector s, as => .vector { s with network := { s.network with agents := as } }

/-- simulation.hpp:90-93: the agents file replaces the agents. -/
def replaceAgents [Zero F] [One F] (env : Env F G) {k : AgentKind} (cli : Option String) (m : ModelState F G k) : Res (ModelState F G k) :=
  match cli with
  | none => .ok m
  | some file => do
    let contents ← getFileContents env file
    let agents ← AgentIO.fromFile (format env.text k) contents
    .ok (setAgents m agents)

section
variable [Zero F] [One F] [Sub F] [Mul F] [Add F] [Div F] [Neg F] [NatCast F]

/-- simulation.hpp:96-106: the constructor of `Simulation<AgentT>`. -/
def construct (env : Env F G) (k : AgentKind) (options : Config.Options F) (cliNetwork cliAgents : Option String) : Res (ModelState F G k) := do
  let (N, g) ← createNetwork env k options cliNetwork (env.seed options.rngSeed)
  let m ← chooseModel env k options N g
  replaceAgents env cliAgents m

variable [IntCast F] [LT F] [LE F] [DecidableLT F] [DecidableLE F]

/-- The network of a model.
simulation.hpp:33-41. -/
def network {k : AgentKind} : ModelState F G k → Network (Agent F k) F
  | .deGroot s => s.network
  | .deffuant s => s.network
  | .activity s => s.network
  | .inertial s => s.base.network
  | .vector s => s.network

/-- The virtual calls of `Model<AgentT>` (model.hpp:11-48), dispatched to the model that was created. -/
def machine (env : Env F G) (k : AgentKind) : Machine (Agent F k) F (ModelState F G k) where
  network := network
  nIterations
    | .deGroot s => s.counter.nIterations
    | .deffuant s => s.counter.nIterations
    | .activity s => s.counter.nIterations
    | .inertial s => s.base.counter.nIterations
    | .vector s => s.counter.nIterations
  reset
    | .deGroot s => .deGroot s.reset
    | .deffuant s => .deffuant s.reset
    | .activity s => .activity s.reset
    | .inertial s => .inertial s.reset
    | .vector s => .vector s.reset
  iteration
    | .deGroot s => s.iteration.map .deGroot
    | .deffuant s => (s.iteration env.rng Deffuant.updateRule).map .deffuant
    | .activity s => (s.iteration env.math env.pick env.rng).map .activity
    | .inertial s => (s.iteration env.math env.pick env.rng).map .inertial
    | .vector s => (s.iteration env.rng (Deffuant.updateVector env.rng)).map .vector
  finished
    | .deGroot s => s.finished
    | .deffuant s => s.finished
    | .activity s => s.finished
    | .inertial s => s.finished
    | .vector s => s.finished

/-- How files are rendered.
simulation.hpp:120-166. -/
def render (env : Env F G) (k : AgentKind) : Simulation.Render (Agent F k) F where
  text := env.text
  agents := format env.text k

/-- main.cpp:63-97: construct the simulation with agents of kind `k` and run it. -/
def simulate (env : Env F G) (k : AgentKind) (options : Config.Options F) (cliNetwork cliAgents : Option String) (fuel : Nat) :
    Res (ModelState F G k × List FileWrite) := do
  let m ← construct env k options cliNetwork cliAgents
  Simulation.run (machine env k) (render env k) options.output fuel m

end

/-- main.cpp:60-95: the agent type chosen for the model. -/
def agentKind (options : Config.Options F) : Res AgentKind :=
  match options.model with
  | .deGroot => .ok .simple
  | .activityDriven => .ok .activity
  | .activityDrivenInertial => .ok .inertial
  | .deffuant =>
    match options.settings with
    | .deffuant s => if s.useBinaryVector then .ok .vector else .ok .simple
    | _ => badVariant

/-- main.cpp:19-25: the command line arguments. -/
structure Args where
  configFile : String
  output : Option String := none
  agents : Option String := none
  network : Option String := none

/-- main.cpp:41: the output directory. -/
def Args.outputDir (a : Args) : String :=
  match a.output with
  | some d => d
  | none => "./output"

/-- config_parser.cpp:113-114: `toml::parse_file` throws if the file cannot be read or parsed. -/
def readConfig (env : Env F G) (file : String) : Res (Config.Doc F) :=
  match (env.files file).bind env.toml with
  | some doc => .ok doc
  | none => .error (.exn "parse_error")

/-- main.cpp:15-101: the files written to the output directory. -/
def main [Zero F] [One F] [Sub F] [Mul F] [Add F] [Div F] [Neg F] [NatCast F] [IntCast F] [LT F] [LE F] [DecidableLT F] [DecidableLE F]
    (env : Env F G) (args : Args) (fuel : Nat) : Res (List FileWrite) := do
  let doc ← readConfig env args.configFile
  let options ← Config.parse env.convert env.fresh doc
  Config.validate options
  let k ← agentKind options
  let (_, files) ← simulate env k options args.network args.agents fuel
  .ok files

end Program
end Seldon
