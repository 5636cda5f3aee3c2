import Verif.Model.Console
import Verif.Model.Program
/-!
# Model of `src/main.cpp` with its effects, in the order in which they happen

`Model/Program` describes what is computed from given file contents.  Here the program is a process acting on a disk: it creates the output
directory, reads its input files at the time the code reads them, prints, and writes files, and what it did before it failed (or before it was
stopped) stays done.  Printed durations are a parameter.  A file whose text cannot be produced (undefined behaviour) is treated as not opened.
-/
namespace Seldon

/-- What the program does to the outside.
* `print`  : text to standard output (main.cpp:43-59, simulation.hpp:116-173)
* `error`  : text to standard error (main.cpp:32)
* `mkdir`  : `create_directories` (main.cpp:48)
* `read`   : a file is read (misc.hpp:13-32, config_parser.cpp:114)
* `write`  : a file is opened with `trunc`, its contents are written, and it is closed (network_io.hpp:38-92, agent_io.hpp:39-63) -/
inductive Event where
  | print (text : List Char)
  | error (text : List Char)
  | mkdir (dir : String)
  | read (path : String)
  | write (path : String) (contents : List Char)
  deriving DecidableEq, Repr

/-- Contents of the files on disk.
The files read at misc.hpp:13-32 and written at agent_io.hpp:41-62, network_io.hpp:40-91. -/
abbrev Disk := String → Option (List Char)

/-- The operating system, as far as the program can see it.
main.cpp:26-48, agent_io.hpp:41-42, network_io.hpp:40-41, simulation.hpp:136-147. -/
structure World where
  /-- argparse: the arguments, or the message of the exception it throws -/
  arguments : List String → Except (List Char) Program.Args
  /-- the file that a path leads to -/
  resolve : String → String
  /-- `create_directories` does not throw -/
  canCreate : String → Bool
  /-- the path can be opened for writing -/
  canWrite : String → Bool
  /-- the printed duration of an iteration, and of the whole run -/
  duration : Nat → List Char
  total : List Char

/-- The disk after an event.  Opening a file for writing is not checked by the code: if it fails nothing is written, silently.
agent_io.hpp:41-42, network_io.hpp:40-41. -/
def Disk.step (W : World) (d : Disk) : Event → Disk
  | .write path contents => if W.canWrite path then fun x => if x = W.resolve path then some contents else d x else d
  | _ => d

/-- The disk after a sequence of events.
The effects of main.cpp:15-101 in their order. -/
def Disk.replay (W : World) (d : Disk) (t : List Event) : Disk := t.foldl (Disk.step W) d

/-- A computation with effects: from the disk at its start to the events it causes and its result.  The events stay done if it fails.
main.cpp:15-101. -/
def Proc (α : Type) := Disk → List Event × Res α

namespace Proc
variable {α β : Type}

/-- Sequencing of statements.
main.cpp:15-101. -/
def bind (W : World) (p : Proc α) (f : α → Proc β) : Proc β := fun d =>
  match p d with
  | (t, .error e) => (t, .error e)
  | (t, .ok a) => match f a (d.replay W t) with
    | (t', r) => (t ++ t', r)

/-- A computation without effects.
The functions modelled in `Model/Program`, called from main.cpp:15-101. -/
def lift (r : Res α) : Proc α := fun _ => ([], r)

/-- A single event.
fmt::print at main.cpp:43-59, create_directories at main.cpp:48, closing of a file at agent_io.hpp:62. -/
def event (e : Event) : Proc Unit := fun _ => ([e], .ok ())

/-- Text to standard output, line by line.
config_parser.cpp:264-344. -/
def printAll (ls : List (List Char)) : Proc Unit := fun _ => (ls.map .print, .ok ())

/-- misc.hpp:13-32 `get_file_contents`: reads the disk, throws if there is no such file. -/
def readFile (W : World) (path : String) : Proc (List Char) := fun d =>
  ([.read path], match d (W.resolve path) with
    | some contents => .ok contents
    | none => .error (.exn "runtime_error"))

end Proc

namespace Effects
variable {F G A S : Type}

/-- `output_dir_path / fs::path( name )` for a relative `name`.
simulation.hpp:124-126, 154, 162. -/
def join (dir : String) (name : List Char) : String :=
  if dir.toList = [] ∨ dir.toList.getLast? = some '/' then String.ofList (dir.toList ++ name) else String.ofList (dir.toList ++ '/' :: name)

/-- agent_io.hpp:38-63 `agents_to_file`, called at simulation.hpp:126, 154. -/
def writeOpinions (W : World) (R : Simulation.Render A F) (dir : String) (N : Network A F) (k : Nat) : Proc Unit :=
  Proc.bind W (Proc.lift (AgentIO.toFile R.agents N.agents)) fun contents =>
  Proc.event (.write (join dir (Simulation.opinionsName k)) contents)

/-- network_io.hpp:37-92 `network_to_file`, called at simulation.hpp:122-124, 162. -/
def writeNetwork (W : World) (R : Simulation.Render A F) (dir : String) (N : Network A F) (k : Nat) : Proc Unit :=
  Proc.bind W (Proc.lift (NetworkIO.toFile R.text N)) fun contents =>
  Proc.event (.write (join dir (Simulation.networkName k)) contents)

/-- simulation.hpp:149-155. -/
def outputOpinions (W : World) (R : Simulation.Render A F) (dir : String) (o : OutputSettings) (N : Network A F) (k : Nat) : Proc Unit :=
  Proc.bind W (Proc.lift (Simulation.due o.nOutputAgents o.startOutput k)) fun b =>
  if b then writeOpinions W R dir N (k + o.startNumberingFrom) else Proc.lift (.ok ())

/-- simulation.hpp:157-163. -/
def outputNetwork (W : World) (R : Simulation.Render A F) (dir : String) (o : OutputSettings) (N : Network A F) (k : Nat) : Proc Unit :=
  Proc.bind W (Proc.lift (Simulation.due o.nOutputNetwork o.startOutput k)) fun b =>
  if b then writeNetwork W R dir N (k + o.startNumberingFrom) else Proc.lift (.ok ())

/-- simulation.hpp:144-146: the progress line. -/
def progressLine (W : World) (k : Nat) : List Char :=
  "Iteration ".toList ++ Text.decimal k ++ "   iter_time = ".toList ++ W.duration k ++ " \n".toList

/-- simulation.hpp:141-147. -/
def progress (W : World) (o : OutputSettings) (k : Nat) : Proc Unit :=
  if o.printProgress then Proc.event (.print (progressLine W k)) else Proc.lift (.ok ())

/-- simulation.hpp:132-164: the `while` loop; `fuel` bounds the number of rounds. -/
def runLoop (W : World) (M : Machine A F S) (R : Simulation.Render A F) (dir : String) (o : OutputSettings) : Nat → S → Proc S
  | 0, s => if M.finished s then Proc.lift (.ok s) else Proc.lift (.error .fuel)
  | fuel + 1, s =>
    if M.finished s then Proc.lift (.ok s)
    else
      Proc.bind W (Proc.lift (M.iteration s)) fun s =>
      Proc.bind W (progress W o (M.nIterations s)) fun _ =>
      Proc.bind W (outputOpinions W R dir o (M.network s) (M.nIterations s)) fun _ =>
      Proc.bind W (outputNetwork W R dir o (M.network s) (M.nIterations s)) fun _ =>
      runLoop W M R dir o fuel s

/-- simulation.hpp:120-127: the initial output. -/
def initialOutput (W : World) (R : Simulation.Render A F) (dir : String) (o : OutputSettings) (N : Network A F) : Proc Unit :=
  if o.outputInitial then
    Proc.bind W (writeNetwork W R dir N o.startNumberingFrom) fun _ =>
    writeOpinions W R dir N o.startNumberingFrom
  else Proc.lift (.ok ())

/-- simulation.hpp:116-118: the lines at the start of a run. -/
def startLines : List (List Char) :=
  ["-----------------------------------------------------------------\n".toList, "Starting simulation\n".toList,
   "-----------------------------------------------------------------\n".toList]

/-- simulation.hpp:169-173: the lines at the end of a run. -/
def endLines (W : World) (k : Nat) : List (List Char) :=
  ["-----------------------------------------------------------------\n".toList,
   "Finished after ".toList ++ Text.decimal k ++ " iterations, total time = ".toList ++ W.total ++ "\n".toList,
   "=================================================================\n".toList]

/-- simulation.hpp:108-174 `run( output_dir_path )`. -/
def run (W : World) (M : Machine A F S) (R : Simulation.Render A F) (dir : String) (o : OutputSettings) (fuel : Nat) (s : S) : Proc Unit :=
  Proc.bind W (Proc.printAll startLines) fun _ =>
  Proc.bind W (initialOutput W R dir o (M.network s)) fun _ =>
  Proc.bind W (runLoop W M R dir o fuel (M.reset s)) fun s =>
  Proc.printAll (endLines W (M.nIterations s))

section
variable [Zero F] [One F] [Add F] [Div F]

/-- simulation.hpp:42-64 `create_network`. -/
def createNetwork (W : World) (env : Env F G) (k : AgentKind) (options : Config.Options F) (cli : Option String) (g : G) :
    Proc (Network (Agent F k) F × G) :=
  match Program.networkFile cli options.network.file with
  | some file =>
    Proc.bind W (Proc.readFile W file) fun contents =>
    Proc.bind W (Proc.lift (NetworkIO.fromFile env.text contents)) fun N =>
    Proc.lift (.ok (N, g))
  | none => Proc.lift
    (NetworkGen.nConnections env.rng (Network.toSize (Network.toInt32 options.network.nAgents)) options.network.nConnections true g)

end

/-- DeGroot.cpp:21. -/
def warningLine (n : Nat) : List Char :=
  "WARNING: You have ".toList ++ Text.decimal n ++ " strongly connected components in your network!\n".toList

/-- DeGroot.cpp:17-22: the warning printed by the constructor of `DeGrootModel`. -/
def warning (W : World) {k : AgentKind} (options : Config.Options F) (N : Network (Agent F k) F) : Proc Unit :=
  match options.model, options.settings, k with
  | .deGroot, .deGroot _, .simple =>
    Proc.bind W (Proc.lift (Tarjan.scc N N.neighbours.length)) fun comps =>
    if comps.length ≠ 1 then Proc.event (.print (warningLine comps.length)) else Proc.lift (.ok ())
  | _, _, _ => Proc.lift (.ok ())

section
variable [Zero F] [One F] [Sub F] [Mul F] [Add F] [Div F] [Neg F] [NatCast F]

/-- simulation.hpp:66-88: the first part of `create_model`. -/
def chooseModel (W : World) (env : Env F G) (k : AgentKind) (options : Config.Options F) (N : Network (Agent F k) F) (g : G) :
    Proc (ModelState F G k) :=
  Proc.bind W (warning W options N) fun _ =>
  Proc.lift (Program.chooseModel env k options N g)

/-- simulation.hpp:90-93: the agents file replaces the agents. -/
def replaceAgents (W : World) (env : Env F G) {k : AgentKind} (cli : Option String) (m : ModelState F G k) : Proc (ModelState F G k) :=
  match cli with
  | none => Proc.lift (.ok m)
  | some file =>
    Proc.bind W (Proc.readFile W file) fun contents =>
    Proc.bind W (Proc.lift (AgentIO.fromFile (Program.format env.text k) contents)) fun agents =>
    Proc.lift (.ok (Program.setAgents m agents))

/-- simulation.hpp:96-106: the constructor of `Simulation<AgentT>`. -/
def construct (W : World) (env : Env F G) (k : AgentKind) (options : Config.Options F) (cliNetwork cliAgents : Option String) :
    Proc (ModelState F G k) :=
  Proc.bind W (createNetwork W env k options cliNetwork (env.seed options.rngSeed)) fun (N, g) =>
  Proc.bind W (chooseModel W env k options N g) fun m =>
  replaceAgents W env cliAgents m

/-- config_parser.cpp:113-114: `toml::parse_file`. -/
def readConfig (W : World) (env : Env F G) (file : String) : Proc (Config.Doc F) := fun d =>
  ([.read file], match (d (W.resolve file)).bind env.toml with
    | some doc => .ok doc
    | none => .error (.exn "parse_error"))

/-- main.cpp:43-46: the first lines. -/
def bannerLines (args : Program.Args) : List (List Char) :=
  ["=================================================================\n".toList,
   "Using input file: ".toList ++ args.configFile.toList ++ "\n".toList,
   "Output directory path set to: ".toList ++ args.outputDir.toList ++ "\n".toList]

/-- main.cpp:54-61: the announcement of the input files. -/
def inputLines (args : Program.Args) : List (List Char) :=
  (match args.network with | some f => ["Reading network from file ".toList ++ f.toList ++ "\n".toList] | none => []) ++
  (match args.agents with | some f => ["Reading agents from file ".toList ++ f.toList ++ "\n".toList] | none => [])

/-- main.cpp:48: `create_directories` throws if the directory cannot be created. -/
def createDirectories (W : World) (dir : String) : Proc Unit :=
  if W.canCreate dir then Proc.event (.mkdir dir) else Proc.lift (.error (.exn "filesystem_error"))

variable [IntCast F] [LT F] [LE F] [DecidableLT F] [DecidableLE F]

/-- main.cpp:37-100, after the arguments have been parsed. -/
def mainWith (W : World) (env : Env F G) (args : Program.Args) (fuel : Nat) : Proc Unit :=
  Proc.bind W (Proc.printAll (bannerLines args)) fun _ =>
  Proc.bind W (createDirectories W args.outputDir) fun _ =>
  Proc.bind W (readConfig W env args.configFile) fun doc =>
  Proc.bind W (Proc.lift (Config.parse env.convert env.fresh doc)) fun options =>
  Proc.bind W (Proc.lift (Config.validate options)) fun _ =>
  Proc.bind W (Proc.printAll (Console.settings env.text options)) fun _ =>
  Proc.bind W (Proc.printAll (inputLines args)) fun _ =>
  Proc.bind W (Proc.lift (Program.agentKind options)) fun k =>
  Proc.bind W (construct W env k options args.network args.agents) fun m =>
  run W (Program.machine env k) (Program.render env k) args.outputDir options.output fuel m

/-- main.cpp:15-101: the exit code, for given arguments. -/
def main (W : World) (env : Env F G) (argv : List String) (fuel : Nat) : Proc Nat :=
  match W.arguments argv with
  | .error message => Proc.bind W (Proc.event (.error message)) fun _ => Proc.lift (.ok 1)
  | .ok args => Proc.bind W (mainWith W env args fuel) fun _ => Proc.lift (.ok 0)

end
end Effects
end Seldon
