import Verif.Model.Effects
import Verif.Spec.Run
/-!
# Independent specification: what a process leaves behind, also when it is stopped
-/
namespace Seldon.Spec

/-- The files written by a sequence of events: paths and contents, in order. -/
def writes (t : List Event) : List (String × List Char) := t.filterMap fun e => match e with | .write p c => some (p, c) | _ => none

/-- The text printed to standard output, in order. -/
def printed (t : List Event) : List (List Char) := t.filterMap fun e => match e with | .print s => some s | _ => none

/-- The files read, in order. -/
def reads (t : List Event) : List String := t.filterMap fun e => match e with | .read p => some p | _ => none

/-- `AfterKill W d t d'`: a process that started on disk `d` and would cause the events `t` is killed at some point, and leaves disk `d'`. It may be
killed between two events, or while it writes a file: then some part of the contents, from the beginning, has reached the disk (none of it right
after the file was opened with `trunc`). -/
inductive AfterKill (W : World) (d : Disk) (t : List Event) : Disk → Prop where
  | between (a b : List Event) (h : t = a ++ b) : AfterKill W d t (d.replay W a)
  | during (a b : List Event) (path : String) (contents part : List Char) (h : t = a ++ .write path contents :: b) (hp : part <+: contents)
      (hw : W.canWrite path = true) :
      AfterKill W d t (fun x => if x = W.resolve path then some part else d.replay W a x)

/-- The file written under `path` is the wanted file `q` in directory `dir`. -/
def FulfilsIn {A F : Type} (R : Simulation.Render A F) (dir : String) (w : String × List Char) (q : Wanted A F) : Prop :=
  w.1 = Effects.join dir (fileName q.kind q.number) ∧
  match q.kind with
  | .opinions => AgentIO.toFile R.agents q.net.agents = .ok w.2
  | .network => NetworkIO.toFile R.text q.net = .ok w.2

/-- `st 0, ..., st K` are states of a run that has made `K` iterations (and may go on). -/
structure IsRunSoFar {A F S : Type} (M : Machine A F S) (s0 : S) (K : Nat) (st : Nat → S) : Prop where
  start : st 0 = s0
  going : ∀ k, k < K → M.finished (st k) = false
  step : ∀ k, k < K → M.iteration (st k) = .ok (st (k + 1))

/-- How a run ended that has made `K` iterations, with or without all files that are wanted up to then.
* `done`       : the model is finished, and everything has been written
* `failed`     : the next iteration fails
* `going`      : the number of steps looked at is used up, the run goes on
* `unwritable` : the text of a file cannot be produced, or an output interval is 0 -/
inductive Ended {A F S : Type} (M : Machine A F S) (R : Simulation.Render A F) (o : OutputSettings) (fuel K : Nat) (st : Nat → S) (complete : Prop) :
    Res Unit → Prop where
  | done (h : M.finished (st K) = true) (hc : complete) : Ended M R o fuel K st complete (.ok ())
  | failed (e : Fault) (h : M.finished (st K) = false) (hi : M.iteration (st K) = .error e) (hc : complete) : Ended M R o fuel K st complete (.error e)
  | going (h : M.finished (st K) = false) (hk : K = fuel) (hc : complete) : Ended M R o fuel K st complete (.error .fuel)
  | unwritable (e : Fault)
      (h : (K = 0 ∧ Simulation.initialOutput R o (M.network (st 0)) = .error e) ∨ (0 < K ∧ Simulation.output R o (M.network (st K)) K [] = .error e)) :
      Ended M R o fuel K st complete (.error e)

/-- Disk `d'` differs from `d` by the files `whole`, which are complete, and possibly one more file, of which only a part is there. -/
structure LeftBehind (W : World) (d d' : Disk) (whole cut : List (String × List Char)) : Prop where
  one : cut.length ≤ 1
  complete : ∀ w ∈ whole, d' (W.resolve w.1) = some w.2
  part : ∀ w ∈ cut, ∃ c, c <+: w.2 ∧ d' (W.resolve w.1) = some c
  others : ∀ x, (∀ w ∈ whole ++ cut, W.resolve w.1 ≠ x) → d' x = d x

/-- A line of text. -/
def textLine (parts : List (List Char)) : List Char := parts.flatten ++ ['\n']

/-- A horizontal rule. -/
def rule (c : Char) : List Char := textLine [List.replicate 65 c]

/-- The first lines. -/
def firstLines (args : Program.Args) : List (List Char) :=
  [rule '=', textLine ["Using input file: ".toList, args.configFile.toList], textLine ["Output directory path set to: ".toList, args.outputDir.toList]]

/-- The input files given on the command line. -/
def announced (args : Program.Args) : List (List Char) :=
  args.network.toList.map (fun f => textLine ["Reading network from file ".toList, f.toList]) ++
  args.agents.toList.map (fun f => textLine ["Reading agents from file ".toList, f.toList])

/-- The heading of a run. -/
def heading : List (List Char) := [rule '-', textLine ["Starting simulation".toList], rule '-']

/-- The progress line of iteration `k`. -/
def progressText (W : World) (k : Nat) : List Char :=
  textLine ["Iteration ".toList, Text.decimal k, "   iter_time = ".toList, W.duration k, " ".toList]

/-- The warning of the DeGroot model. -/
def warningText (n : Nat) : List Char :=
  textLine ["WARNING: You have ".toList, Text.decimal n, " strongly connected components in your network!".toList]

/-- The last lines: printed only by a run that completes. -/
def closingLines (W : World) (K : Nat) : Res Unit → List (List Char)
  | .ok _ => [rule '-', textLine ["Finished after ".toList, Text.decimal K, " iterations, total time = ".toList, W.total], rule '=']
  | .error _ => []

/-- What the program sees of the disk `d`. -/
def _root_.Seldon.Effects.onDisk {F G : Type} (W : World) (env : Env F G) (d : Disk) : Env F G := { env with files := fun p => d (W.resolve p) }

/-- The names in the output directory are different files, and can be written. -/
structure GoodDirectory (W : World) (dir : String) : Prop where
  create : W.canCreate dir = true
  write : ∀ name, W.canWrite (Effects.join dir name) = true
  separate : ∀ a b, W.resolve (Effects.join dir a) = W.resolve (Effects.join dir b) → a = b

/-- The input on disk `d` is accepted, with these options, and this simulation is constructed from it. -/
structure Begins {F G : Type} [Zero F] [One F] [Sub F] [Mul F] [Add F] [Div F] [Neg F] [NatCast F] [IntCast F] [LT F] [LE F] [DecidableLT F]
    [DecidableLE F] (W : World) (env : Env F G) (args : Program.Args) (d : Disk) (options : Config.Options F) (k : AgentKind)
    (m : ModelState F G k) : Prop where
  parsed : ∃ doc, Program.readConfig (Effects.onDisk W env d) args.configFile = .ok doc ∧ Config.parse env.convert env.fresh doc = .ok options
  valid : Config.validate options = .ok ()
  kind : Program.agentKind options = .ok k
  constructed : Program.construct (Effects.onDisk W env d) k options args.network args.agents = .ok m

end Seldon.Spec
