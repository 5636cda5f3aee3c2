import Verif.Props.Crash
import Verif.Props.Config
import Verif.Spec.Console
/-!
# Property C80: the console output
-/
set_option linter.unusedSectionVars false
namespace Seldon
open Spec Effects
variable {A F G S α β : Type}

/-- The warning of the DeGroot model about the strongly connected components, if there is one. -/
def Spec.Warned {k : AgentKind} (options : Config.Options F) (N : Network (Agent F k) F) (lines : List (List Char)) : Prop :=
  (options.model = .deGroot → ∃ comps, Tarjan.scc N N.neighbours.length = .ok comps ∧
    lines = if comps.length = 1 then [] else [warningText comps.length]) ∧
  (options.model ≠ .deGroot → lines = [])

section
variable [Zero F] [One F] [Sub F] [Mul F] [Add F] [Div F] [Neg F] [NatCast F] [IntCast F] [LT F] [LE F] [DecidableLT F] [DecidableLE F]
variable {W : World} {env : Env F G} {args : Program.Args} {d d' : Disk}

omit [Zero F] [One F] [Sub F] [Mul F] [Add F] [Div F] [Neg F] [NatCast F] [IntCast F] [LT F] [LE F] [DecidableLT F] [DecidableLE F] in
theorem Effects.warningLine_eq (n : Nat) : warningLine n = warningText n := by
  unfold warningLine warningText textLine
  have e : " strongly connected components in your network!\n".toList = " strongly connected components in your network!".toList ++ ['\n'] := rfl
  rw [e]
  simp only [List.flatten_cons, List.flatten_nil, List.append_assoc, List.append_nil]
theorem Effects.bannerLines_eq (args : Program.Args) : bannerLines args = firstLines args := by simp [bannerLines, firstLines, rule, textLine, List.replicate]
theorem Effects.inputLines_eq (args : Program.Args) : inputLines args = announced args := by
  unfold inputLines announced
  cases args.network <;> cases args.agents <;> simp [textLine]
theorem Effects.startLines_eq : startLines = heading := by simp [startLines, heading, rule, textLine, List.replicate]
theorem Effects.progressLine_eq (W : World) (k : Nat) : progressLine W k = progressText W k := by
  unfold progressLine progressText textLine
  have e : " \n".toList = " ".toList ++ ['\n'] := rfl
  rw [e]
  simp only [List.flatten_cons, List.flatten_nil, List.append_assoc, List.append_nil]

theorem Effects.readThen_events (W : World) (file : String) (f : List Char → Res α) (g : α → Res β) (d : Disk) :
    (Proc.bind W (Proc.readFile W file) (fun contents => Proc.bind W (Proc.lift (f contents)) fun x => Proc.lift (g x)) d).1 = [.read file] := by
  cases ed : d (W.resolve file) with
  | none =>
    have hr : Proc.readFile W file d = ([.read file], .error (.exn "runtime_error")) := by unfold Proc.readFile; rw [ed]
    rw [Proc.bind_error hr]
  | some contents =>
    have hr : Proc.readFile W file d = ([.read file], .ok contents) := by unfold Proc.readFile; rw [ed]
    rw [Proc.bind_ok hr, Proc.lift_bind]
    cases f contents with
    | error x => rfl
    | ok N => rfl

theorem Effects.createNetwork_events (W : World) (env : Env F G) (k : AgentKind) (options : Config.Options F) (cli : Option String) (g : G) (d : Disk) :
    (createNetwork W env k options cli g d).1 = (Program.networkFile cli options.network.file).toList.map .read := by
  unfold createNetwork
  cases Program.networkFile cli options.network.file with
  | none => rfl
  | some file => exact readThen_events W file _ _ d

theorem Effects.replaceAgents_events (W : World) (env : Env F G) {k : AgentKind} (cli : Option String) (m : ModelState F G k) (d : Disk) :
    (replaceAgents W env cli m d).1 = cli.toList.map .read := by
  unfold replaceAgents
  cases cli with
  | none => rfl
  | some file => exact readThen_events W file _ _ d

theorem Effects.reads_map (l : List String) : reads (l.map .read) = l ∧ printed (l.map .read) = [] ∧ writes (l.map .read) = [] := by
  induction l with
  | nil => exact ⟨rfl, rfl, rfl⟩
  | cons a l ih =>
    refine ⟨?_, ih.2.1, ih.2.2⟩
    show a :: reads (l.map .read) = _
    rw [ih.1]

/-- A process is its events and its result. -/
theorem Effects.Quiet.eq {p : Proc α} {r : Res α} (h : Quiet p d r) : p d = ((p d).1, r) := Prod.ext rfl h.2

theorem Effects.warning_trace {k : AgentKind} {options : Config.Options F} (hm : Matching options) (hk : Program.agentKind options = .ok k)
    (N : Network (Agent F k) F) (hs : options.model = .deGroot → ∃ comps, Tarjan.scc N N.neighbours.length = .ok comps) (d : Disk) :
    ∃ t, warning W options N d = (t, .ok ()) ∧ writes t = [] ∧ reads t = [] ∧ Warned options N (printed t) := by
  by_cases hd : options.model = .deGroot
  · obtain ⟨comps, hc⟩ := hs hd
    have hk' : k = .simple := by
      unfold Program.agentKind at hk
      rw [hd] at hk
      exact (Except.ok.inj hk).symm
    subst hk'
    obtain ⟨s, hset⟩ : ∃ s, options.settings = .deGroot s := by
      unfold Matching at hm
      rw [hd] at hm
      cases e : options.settings with
      | deGroot s => exact ⟨s, rfl⟩
      | activity s => rw [e] at hm; exact hm.elim
      | inertial s => rw [e] at hm; exact hm.elim
      | deffuant s => rw [e] at hm; exact hm.elim
    have hw : warning W options N d = ((if comps.length ≠ 1 then Proc.event (.print (warningLine comps.length)) else Proc.lift (.ok ())) d) := by
      unfold warning
      rw [hd, hset]
      show (Proc.bind W (Proc.lift (Tarjan.scc N N.neighbours.length)) fun comps =>
        if comps.length ≠ 1 then Proc.event (.print (warningLine comps.length)) else Proc.lift (.ok ())) d = _
      rw [Proc.lift_bind, hc]
    rw [hw]
    by_cases h1 : comps.length = 1
    · rw [if_neg (by simpa using h1)]
      exact ⟨[], rfl, rfl, rfl, fun _ => ⟨comps, hc, by rw [if_pos h1]; rfl⟩, fun h => absurd hd h⟩
    · rw [if_pos h1]
      exact ⟨[.print (warningLine comps.length)], rfl, rfl, rfl, fun _ => ⟨comps, hc, by rw [if_neg h1, ← warningLine_eq]; rfl⟩, fun h => absurd hd h⟩
  · have hw : warning W options N d = ([], .ok ()) := by
      unfold warning
      revert hd
      cases options.model <;> intro hd <;> first | exact absurd rfl hd | (cases options.settings <;> cases k <;> rfl)
    exact ⟨[], hw, rfl, rfl, fun h => absurd h hd, fun _ => rfl⟩

theorem Program.createDeGroot_scc {s : Config.DeGrootSettings F} {N : Network (SimpleAgent F) F} {m : ModelState F G .simple}
    (h : Program.createDeGroot (G := G) .simple N (.deGroot s) = .ok m) : ∃ comps, Tarjan.scc N N.neighbours.length = .ok comps := by
  cases e : Tarjan.scc N N.neighbours.length with
  | ok comps => exact ⟨comps, rfl⟩
  | error x =>
    have hc : DeGroot.create s.maxIterations s.tol N = .error x := by
      unfold DeGroot.create
      rw [e]; rfl
    have h' : (do let (m, _) ← DeGroot.create s.maxIterations s.tol N; .ok (ModelState.deGroot m) : Res (ModelState F G .simple)) = .ok m := h
    rw [hc] at h'
    cases h'

theorem Program.chooseModel_scc {k : AgentKind} {options : Config.Options F} (hm : Matching options) (hk : Program.agentKind options = .ok k)
    {N : Network (Agent F k) F} {g : G} {m : ModelState F G k} (h : Program.chooseModel env k options N g = .ok m) (hd : options.model = .deGroot) :
    ∃ comps, Tarjan.scc N N.neighbours.length = .ok comps := by
  have hk' : k = .simple := by
    unfold Program.agentKind at hk
    rw [hd] at hk
    exact (Except.ok.inj hk).symm
  subst hk'
  obtain ⟨s, hset⟩ : ∃ s, options.settings = .deGroot s := by
    unfold Matching at hm
    rw [hd] at hm
    cases e : options.settings with
    | deGroot s => exact ⟨s, rfl⟩
    | activity s => rw [e] at hm; exact hm.elim
    | inertial s => rw [e] at hm; exact hm.elim
    | deffuant s => rw [e] at hm; exact hm.elim
  unfold Program.chooseModel at h
  rw [hd, hset] at h
  exact Program.createDeGroot_scc h

/-- The construction of the simulation: it reads the network and the agents file, in this order, writes nothing, and prints at most the warning. -/
theorem Effects.construct_trace {k : AgentKind} {options : Config.Options F} (hm : Matching options) (hk : Program.agentKind options = .ok k)
    {cliN cliA : Option String} {m : ModelState F G k} (h : Program.construct (onDisk W env d) k options cliN cliA = .ok m) :
    ∃ t N g, construct W env k options cliN cliA d = (t, .ok m) ∧
      Program.createNetwork (onDisk W env d) k options cliN (env.seed options.rngSeed) = .ok (N, g) ∧ writes t = [] ∧
      reads t = (Program.networkFile cliN options.network.file).toList ++ cliA.toList ∧ Warned options N (printed t) := by
  unfold Program.construct at h
  obtain ⟨⟨N, g⟩, h1, h⟩ := Res.bind_eq_ok.mp h
  obtain ⟨m1, h2, h3⟩ := Res.bind_eq_ok.mp h
  have q1 := createNetwork_quiet W env k options cliN (env.seed options.rngSeed) d
  have q3 := replaceAgents_quiet W env cliA m1 d
  have h1' : Program.createNetwork (onDisk W env d) k options cliN (env.seed options.rngSeed) = .ok (N, g) := h1
  rw [h1'] at q1
  rw [h3] at q3
  rw [chooseModel_onDisk] at h2
  obtain ⟨t2, w1, w2, w3, w4⟩ := warning_trace (W := W) hm hk N (Program.chooseModel_scc hm hk h2) d
  have e2 : chooseModel W env k options N g d = (t2, .ok m1) := by
    unfold chooseModel
    rw [Proc.bind_ok w1]
    show (t2 ++ [], Program.chooseModel env k options N g) = _
    rw [List.append_nil, h2]
  refine ⟨(createNetwork W env k options cliN (env.seed options.rngSeed) d).1 ++ (t2 ++ (replaceAgents W env cliA m1 d).1), N, g, ?_, h1', ?_, ?_, ?_⟩
  · unfold construct
    rw [Proc.bind_ok q1.eq, Disk.replay_quiet W q1.1]
    show ((createNetwork W env k options cliN (env.seed options.rngSeed) d).1 ++
      (Proc.bind W (chooseModel W env k options N g) (fun m => replaceAgents W env cliA m) d).1,
      (Proc.bind W (chooseModel W env k options N g) (fun m => replaceAgents W env cliA m) d).2) = _
    rw [Proc.bind_ok e2, Disk.replay_quiet W w2, q3.2]
  · rw [writes_append, writes_append, q1.1, w2, q3.1]; rfl
  · rw [reads_append, reads_append, createNetwork_events, replaceAgents_events, w3, (reads_map _).1, (reads_map _).1]; rfl
  · rw [printed_append, printed_append, createNetwork_events, replaceAgents_events, (reads_map _).2.1, (reads_map _).2.1, List.nil_append, List.append_nil]
    exact w4

/-- The events of a process that begins a simulation. -/
theorem Effects.mainWith_trace {options : Config.Options F} {k : AgentKind} {m : ModelState F G k} (hc : W.canCreate args.outputDir = true)
    (h : Begins W env args d options k m) (fuel : Nat) :
    ∃ t N g, construct W env k options args.network args.agents d = (t, .ok m) ∧
      Program.createNetwork (onDisk W env d) k options args.network (env.seed options.rngSeed) = .ok (N, g) ∧ writes t = [] ∧
      reads t = (Program.networkFile args.network options.network.file).toList ++ args.agents.toList ∧ Warned options N (printed t) ∧
      mainWith W env args fuel d =
        ((bannerLines args).map .print ++ ([.mkdir args.outputDir] ++ ([.read args.configFile] ++ ((Console.settings env.text options).map .print ++
          ((inputLines args).map .print ++ (t ++
          (run W (Program.machine env k) (Program.render env k) args.outputDir options.output fuel m d).1))))),
          (run W (Program.machine env k) (Program.render env k) args.outputDir options.output fuel m d).2) := by
  obtain ⟨⟨doc, hd, hp⟩, hv, hk, hcon⟩ := h
  have hm := C55_matching hp
  obtain ⟨t, N, g, h1, h2, h3, h4, h5⟩ := construct_trace hm hk hcon
  refine ⟨t, N, g, h1, h2, h3, h4, h5, ?_⟩
  have e1 : createDirectories W args.outputDir d = ([.mkdir args.outputDir], .ok ()) := by
    unfold createDirectories
    rw [if_pos hc]; rfl
  have e2 : readConfig W env args.configFile d = ([.read args.configFile], .ok doc) := by
    have := readConfig_quiet W env args.configFile d
    rw [hd] at this
    exact this.eq
  unfold mainWith
  rw [Proc.print_bind, Proc.bind_ok e1, Disk.replay_quiet W rfl, Proc.bind_ok e2, Disk.replay_quiet W rfl, hp, Proc.lift_bind]
  dsimp only
  rw [hv, Proc.lift_bind]
  dsimp only
  rw [Proc.print_bind, Proc.print_bind, hk, Proc.lift_bind]
  dsimp only
  rw [Proc.bind_ok h1, Disk.replay_quiet W h3]

/-- C80: the console.  A process that begins a simulation prints the configuration file and output directory, then the settings (the random seed first), the
input files, possibly the warning, then — after each of the `K` iterations made, if asked for — a progress line with the number of the iteration, and at the end
the number of iterations.  It reads the configuration file, the network file and the agents file, in this order, and nothing else. -/
theorem C80_transcript {options : Config.Options F} {k : AgentKind} {m : ModelState F G k} (hc : W.canCreate args.outputDir = true)
    (h : Begins W env args d options k m) (fuel : Nat) :
    ∃ (K : Nat) (st : Nat → ModelState F G k) (N : Network (Agent F k) F) (g : G) (warn : List (List Char)) (complete : Prop),
      IsRunSoFar (Program.machine env k) ((Program.machine env k).reset m) K st ∧
      Ended (Program.machine env k) (Program.render env k) options.output fuel K st complete (mainWith W env args fuel d).2 ∧
      Program.createNetwork (onDisk W env d) k options args.network (env.seed options.rngSeed) = .ok (N, g) ∧ Warned options N warn ∧
      printed (mainWith W env args fuel d).1 =
        firstLines args ++ Console.settings env.text options ++ announced args ++ warn ++ heading ++
        (if options.output.printProgress then (List.range K).map (fun i => progressText W (i + 1)) else []) ++
        closingLines W K (mainWith W env args fuel d).2 ∧
      reads (mainWith W env args fuel d).1 =
        [args.configFile] ++ (Program.networkFile args.network options.network.file).toList ++ args.agents.toList := by
  obtain ⟨t, N, g, -, h2, h3, h4, h5, e⟩ := mainWith_trace hc h fuel
  obtain ⟨K, st, ws, g1, g2, g3, g4, -, g6, g7⟩ := run_history (machine_counts env k) (machine_network env k) W (Program.render env k) args.outputDir
    options.output fuel m d
  refine ⟨K, st, N, g, printed t, _, g1, by rw [e]; exact g6, h2, h5, ?_, ?_⟩
  · rw [e]
    dsimp only
    rw [printed_append, printed_print, printed_append, printed_append, printed_append, printed_print, printed_append, printed_print, printed_append, g7]
    have z1 : printed [Event.mkdir args.outputDir] = [] := rfl
    have z2 : printed [Event.read args.configFile] = [] := rfl
    rw [z1, z2, List.nil_append, List.nil_append]
    unfold progressLines
    simp only [List.append_assoc, Nat.zero_add, bannerLines_eq, inputLines_eq, startLines_eq, progressLine_eq]
  · rw [e]
    dsimp only
    rw [reads_append, reads_print, reads_append, reads_append, reads_append, reads_print, reads_append, reads_print, reads_append, g4, h4, List.append_nil, List.append_assoc]
    rfl

theorem Text.decimal_ne_dash (n : Nat) (l : List Char) : Text.decimal n ≠ '-' :: l := by
  intro h
  exact (Text.decimal_mem (n := n) (c := '-') (by rw [h]; exact List.mem_cons_self)).2.2.1 rfl

theorem Text.fmtInt_inj {a b : Int} (h : Text.fmtInt a = Text.fmtInt b) : a = b := by
  cases a with
  | ofNat a =>
    cases b with
    | ofNat b => rw [Simulation.decimal_inj h]
    | negSucc b => exact absurd h (Text.decimal_ne_dash a _)
  | negSucc a =>
    cases b with
    | ofNat b => exact absurd h.symm (Text.decimal_ne_dash b _)
    | negSucc b =>
      have := Simulation.decimal_inj (List.cons.inj h).2
      congr 1; omega

theorem Console.seedLine_inj {a b : Int} (h : Console.seedLine a = Console.seedLine b) : a = b := by
  unfold Console.seedLine at h
  rw [List.append_assoc, List.append_assoc] at h
  exact Text.fmtInt_inj (List.append_cancel_right (List.append_cancel_left h))

/-- A configuration file in which `rng_seed` is set to `z`. -/
def Spec.withSeed (z : Int) (doc : Config.Doc F) : Config.Doc F := fun s k => if s = "simulation" ∧ k = "rng_seed" then some (.int z) else doc s k

theorem Config.parse_withSeed {c : Config.Convert F} (hc : c.Lawful) {z : Int} (h1 : -2 ^ 31 ≤ z) (h2 : z < 2 ^ 31) (fresh : Int) (doc : Config.Doc F)
    (hn : (doc "simulation" "rng_seed").bind c.int = none ∨ (doc "simulation" "rng_seed").bind c.int = some z) :
    Config.parse c fresh (withSeed z doc) = Config.parse c z doc := by
  have e : ∀ s k, (s = "simulation" ∧ k = "rng_seed" → False) → withSeed z doc s k = doc s k := by
    intro s k h
    unfold withSeed
    rw [if_neg h]
  have es : ∀ s, s ≠ "simulation" → withSeed z doc s = doc s := by
    intro s hs
    funext k
    exact e s k (fun h => hs h.1)
  have em : withSeed z doc "simulation" "model" = doc "simulation" "model" := e _ _ (by decide)
  have eseed : Config.setIf c.int (withSeed z doc "simulation" "rng_seed") fresh = z := by
    unfold withSeed Config.setIf
    rw [if_pos ⟨rfl, rfl⟩]
    rw [Option.bind_some, hc.int z h1 h2]
  have eseed' : Config.setIf c.int (doc "simulation" "rng_seed") z = z := by
    unfold Config.setIf
    rcases hn with h | h <;> rw [h]
  unfold Config.parse
  rw [em, eseed, eseed']
  cases (doc "simulation" "model").bind c.str with
  | none => rfl
  | some ms =>
    dsimp only
    cases em2 : Config.modelOfString ms with
    | error x => rfl
    | ok model =>
      have hms : ms ≠ "simulation" := by
        intro h
        subst h
        revert em2
        unfold Config.modelOfString
        rw [if_neg (by decide), if_neg (by decide), if_neg (by decide), if_neg (by decide)]
        intro h; cases h
      have emod : Config.parseModel c (withSeed z doc) model ms = Config.parseModel c doc model ms := by
        unfold Config.parseModel
        rw [es "model" (by decide), es ms hms]
      have eout : Config.parseOutput c (withSeed z doc) = Config.parseOutput c doc := by
        unfold Config.parseOutput
        rw [es "io" (by decide)]
      have enet : Config.parseNetwork c (withSeed z doc) = Config.parseNetwork c doc := by
        unfold Config.parseNetwork
        rw [es "network" (by decide)]
      rw [Res.bind_ok, Res.bind_ok, emod, eout, enet]

theorem Config.parse_file {c : Config.Convert F} {fresh : Int} {doc : Config.Doc F} {o : Config.Options F} (h : Config.parse c fresh doc = .ok o) :
    o.network.file = none := by
  unfold Config.parse at h
  cases e : (doc "simulation" "model").bind c.str with
  | none => rw [e] at h; cases h
  | some ms =>
    rw [e] at h
    obtain ⟨model, -, h⟩ := Res.bind_eq_ok.mp h
    obtain ⟨st, -, h⟩ := Res.bind_eq_ok.mp h
    rw [← Except.ok.inj h]
    rfl

theorem Effects.readFile_congr {file : String} (h : d' (W.resolve file) = d (W.resolve file)) : Proc.readFile W file d' = Proc.readFile W file d := by
  unfold Proc.readFile
  rw [h]

/-- The construction depends only on the input files. -/
theorem Effects.construct_congr (fresh : Int) {k : AgentKind} {options : Config.Options F} (cliN cliA : Option String)
    (hN : ∀ p, Program.networkFile cliN options.network.file = some p → d' (W.resolve p) = d (W.resolve p))
    (hA : ∀ p, cliA = some p → d' (W.resolve p) = d (W.resolve p)) :
    construct W { env with fresh := fresh } k options cliN cliA d' = construct W env k options cliN cliA d := by
  unfold construct
  refine bind_quiet2 ?_ (createNetwork_quiet W _ k options cliN _ d').1 fun r _ => bind_quiet2 ?_ (chooseModel_quiet W _ k options r.1 r.2 d').1 fun m _ => ?_
  · unfold createNetwork
    cases e : Program.networkFile cliN options.network.file with
    | none => rfl
    | some file => exact bind_quiet2 (readFile_congr (hN file e)) rfl fun contents _ => bind_quiet2 rfl rfl fun N _ => rfl
  · unfold chooseModel
    refine bind_quiet2 ?_ (warning_world W W options r.1 d' d).2 fun _ _ => ?_
    · exact (warning_world W W options r.1 d' d).1
    · show (([] : List Event), Program.chooseModel { env with fresh := fresh } k options r.1 r.2) = ([], Program.chooseModel env k options r.1 r.2)
      congr 1
  · unfold replaceAgents
    cases e : cliA with
    | none => rfl
    | some file => exact bind_quiet2 (readFile_congr (hA file e)) rfl fun contents _ => bind_quiet2 rfl rfl fun as _ => rfl

/-- C80: a run whose seed came from `std::random_device` can be repeated from its console output.  Put the printed seed into the configuration file as
`rng_seed`, leave the other input files as they are: whatever `std::random_device` returns the next time, the program does exactly the same — it prints the
same, reads the same, writes the same files with the same contents, and ends in the same way. -/
theorem C80_reproduce (hconv : env.convert.Lawful) {doc : Config.Doc F} {text' : List Char} (fresh : Int)
    (h1 : -2 ^ 31 ≤ env.fresh) (h2 : env.fresh < 2 ^ 31)
    (hdoc : Program.readConfig (onDisk W env d) args.configFile = .ok doc) (hseed : (doc "simulation" "rng_seed").bind env.convert.int = none)
    (hd' : d' (W.resolve args.configFile) = some text') (ht' : env.toml text' = some (withSeed env.fresh doc))
    (hsame : ∀ p, args.network = some p ∨ args.agents = some p → d' (W.resolve p) = d (W.resolve p)) (fuel : Nat) :
    mainWith W { env with fresh := fresh } args fuel d' = mainWith W env args fuel d := by
  have hp := Config.parse_withSeed hconv h1 h2 fresh doc (.inl hseed)
  have r1 : readConfig W env args.configFile d = ([.read args.configFile], .ok doc) := by
    have := readConfig_quiet W env args.configFile d
    rw [hdoc] at this
    exact this.eq
  have r2 : readConfig W { env with fresh := fresh } args.configFile d' = ([.read args.configFile], .ok (withSeed env.fresh doc)) := by
    unfold readConfig
    rw [hd']
    show (_, match env.toml text' with | some doc => _ | none => _) = _
    rw [ht']
  unfold mainWith
  refine bind_quiet2 rfl (writes_print _) fun _ _ => bind_quiet2 ?_ ?_ fun _ _ => ?_
  · unfold createDirectories; split <;> rfl
  · unfold createDirectories; split <;> rfl
  · rw [Proc.bind_ok r2, Proc.bind_ok r1, Disk.replay_quiet W rfl, Disk.replay_quiet W rfl]
    refine congrArg (fun x : List Event × Res Unit => ([Event.read args.configFile] ++ x.1, x.2)) ?_
    refine bind_quiet2 ?_ rfl fun options ho => bind_quiet2 rfl rfl fun _ _ => bind_quiet2 rfl (writes_print _) fun _ _ =>
      bind_quiet2 rfl (writes_print _) fun _ _ => bind_quiet2 rfl rfl fun k _ => bind_quiet2 ?_ ?_ fun m _ => ?_
    · show (([] : List Event), Config.parse env.convert fresh (withSeed env.fresh doc)) = ([], Config.parse env.convert env.fresh doc)
      rw [hp]
    · have ho' : Config.parse env.convert fresh (withSeed env.fresh doc) = .ok options := congrArg Prod.snd ho
      have hfile := Config.parse_file ho'
      refine construct_congr fresh args.network args.agents (fun p hp => hsame p (.inl ?_)) (fun p hp => hsame p (.inr hp))
      rw [hfile] at hp
      unfold Program.networkFile at hp
      cases e : args.network with
      | none => rw [e] at hp; cases hp
      | some f => rw [e] at hp; exact hp
    · exact (construct_quiet W _ k options args.network args.agents d').1
    · exact run_blind (W := W) (W' := W) rfl rfl _ _ _ _ _ _ d' d

/-- C80: the fourth line printed is the seed, and shows it: different seeds give different lines. -/
theorem C80_seed {options : Config.Options F} {k : AgentKind} {m : ModelState F G k} (hc : W.canCreate args.outputDir = true)
    (h : Begins W env args d options k m) (fuel : Nat) :
    (printed (mainWith W env args fuel d).1)[3]? = some (Console.seedLine options.rngSeed) ∧
    ∀ z, (printed (mainWith W env args fuel d).1)[3]? = some (Console.seedLine z) → z = options.rngSeed := by
  have key : (printed (mainWith W env args fuel d).1)[3]? = some (Console.seedLine options.rngSeed) := by
    obtain ⟨K, st, N, g, warn, complete, -, -, -, -, hp, -⟩ := C80_transcript hc h fuel
    rw [hp]
    unfold firstLines Console.settings
    rfl
  exact ⟨key, fun z hz => Console.seedLine_inj (Option.some.inj (hz.symm.trans key))⟩

end

/-! ### The printed settings -/

/-- A list without its separators. -/
theorem Console.separated_inj : ∀ {l l' : List (List Char)}, (∀ x ∈ l, ',' ∉ x) → (∀ x ∈ l', ',' ∉ x) → (∀ x ∈ l, x ≠ []) → (∀ x ∈ l', x ≠ []) →
    Console.separated l = Console.separated l' → l = l' := by
  have cut : ∀ {x y r s : List Char}, ',' ∉ x → ',' ∉ y → x ++ ',' :: r = y ++ ',' :: s → x = y ∧ r = s := by
    intro x
    induction x with
    | nil =>
      intro y r s _ hy h
      cases y with
      | nil => exact ⟨rfl, (List.cons.inj h).2⟩
      | cons c y => obtain rfl := (List.cons.inj h).1; exact absurd List.mem_cons_self hy
    | cons c x ih =>
      intro y r s hx hy h
      cases y with
      | nil => obtain rfl := (List.cons.inj h).1; exact absurd List.mem_cons_self hx
      | cons c' y =>
        obtain ⟨h1, h2⟩ := List.cons.inj h
        obtain ⟨h3, h4⟩ := ih (fun hc => hx (List.mem_cons_of_mem _ hc)) (fun hc => hy (List.mem_cons_of_mem _ hc)) h2
        exact ⟨by rw [h1, h3], h4⟩
  intro l
  induction l with
  | nil =>
    intro l' _ _ _ h4 h
    match l' with
    | [] => rfl
    | [x] => exact absurd h.symm (h4 x (by simp))
    | x :: y :: l' =>
      have h : [] = x ++ ", ".toList ++ Console.separated (y :: l') := h
      have := congrArg List.length h
      simp at this
  | cons a l ih =>
    intro l' h1 h2 h3 h4 h
    match l, l' with
    | [], [] => exact absurd h (h3 a (by simp))
    | [], [x] => rw [show a = x from h]
    | [], x :: y :: l' =>
      have h : a = x ++ ", ".toList ++ Console.separated (y :: l') := h
      exact absurd (by rw [h]; simp) (h1 a (by simp))
    | b :: l, [] =>
      have h : a ++ ", ".toList ++ Console.separated (b :: l) = [] := h
      have := congrArg List.length h
      simp at this
    | b :: l, [x] =>
      have h : a ++ ", ".toList ++ Console.separated (b :: l) = x := h
      exact absurd (by rw [← h]; simp) (h2 x (by simp))
    | b :: l, x :: y :: l' =>
      have h : a ++ ", ".toList ++ Console.separated (b :: l) = x ++ ", ".toList ++ Console.separated (y :: l') := h
      rw [List.append_assoc, List.append_assoc] at h
      obtain ⟨e1, e2⟩ := cut (h1 a (by simp)) (h2 x (by simp)) h
      rw [e1, ih (fun z hz => h1 z (List.mem_cons_of_mem _ hz)) (fun z hz => h2 z (List.mem_cons_of_mem _ hz))
        (fun z hz => h3 z (List.mem_cons_of_mem _ hz)) (fun z hz => h4 z (List.mem_cons_of_mem _ hz)) (List.cons.inj e2).2]

/-- A format that can be read back from a list. -/
structure Console.Clear {γ : Type} (f : γ → List Char) (P : γ → Prop) : Prop where
  inj : ∀ a b, P a → P b → f a = f b → a = b
  comma : ∀ a, P a → ',' ∉ f a
  nonempty : ∀ a, P a → f a ≠ []

theorem Console.ofList_inj {γ : Type} {f : γ → List Char} {P : γ → Prop} (hf : Console.Clear f P) {l l' : List γ} (h1 : ∀ x ∈ l, P x) (h2 : ∀ x ∈ l', P x)
    (h : Console.ofList f l = Console.ofList f l') : l = l' := by
  unfold Console.ofList at h
  rw [List.append_assoc, List.append_assoc] at h
  replace h := List.append_cancel_right (List.append_cancel_left h)
  have := Console.separated_inj (by simpa using fun x hx => hf.comma x (h1 x hx)) (by simpa using fun x hx => hf.comma x (h2 x hx))
    (by simpa using fun x hx => hf.nonempty x (h1 x hx)) (by simpa using fun x hx => hf.nonempty x (h2 x hx)) h
  clear h
  induction l generalizing l' with
  | nil =>
    cases l' with
    | nil => rfl
    | cons b l' => cases this
  | cons a l ih =>
    cases l' with
    | nil => cases this
    | cons b l' =>
      rw [List.map_cons, List.map_cons] at this
      obtain ⟨e1, e2⟩ := List.cons.inj this
      rw [hf.inj a b (h1 a (by simp)) (h2 b (by simp)) e1,
        ih (fun x hx => h1 x (List.mem_cons_of_mem _ hx)) (fun x hx => h2 x (List.mem_cons_of_mem _ hx)) e2]

theorem Console.ofOption_inj {γ : Type} {f : γ → List Char} (hf : ∀ a b, f a = f b → a = b) {x y : Option γ}
    (h : Console.ofOption f x = Console.ofOption f y) : x = y := by
  cases x with
  | none =>
    cases y with
    | none => rfl
    | some b => exact absurd (List.cons.inj h).1 (by decide)
  | some a =>
    cases y with
    | none => exact absurd (List.cons.inj h).1 (by decide)
    | some b =>
      have h : "optional(".toList ++ f a ++ ")".toList = "optional(".toList ++ f b ++ ")".toList := h
      rw [List.append_assoc, List.append_assoc] at h
      rw [hf a b (List.append_cancel_right (List.append_cancel_left h))]

theorem Console.ofBool_inj {x y : Bool} (h : Console.ofBool x = Console.ofBool y) : x = y := by
  cases x <;> cases y <;> first | rfl | (revert h; decide)

theorem Console.line_inj {key : String} {v v' : List Char} {tail : String} (h : Console.line key v tail = Console.line key v' tail) : v = v' := by
  unfold Console.line at h
  simp only [List.append_assoc] at h
  have h := List.append_cancel_left (List.append_cancel_left h)
  rw [← List.append_assoc, ← List.append_assoc] at h
  exact List.append_cancel_right (List.append_cancel_right h)

/-- A number that can be read from its text, which is not empty. -/
def Spec.Legible (T : Text.Double F) (x : F) : Prop := T.Survives x ∧ T.fmt x ≠ []

theorem Console.clear_fmt (T : Text.Double F) : Console.Clear T.fmt (Legible T) where
  inj a b ha hb h := by
    have h1 := ha.1.read
    rw [h, hb.1.read] at h1
    exact (Except.ok.inj h1).symm
  comma a ha hc := (ha.1.clean _ hc).1 rfl
  nonempty a ha := ha.2

theorem Console.clear_int : Console.Clear Text.fmtInt (fun _ => True) where
  inj _ _ _ _ h := Text.fmtInt_inj h
  comma _ _ hc := (Text.fmtInt_mem hc).1 rfl
  nonempty a _ := by
    cases a with
    | ofNat n => exact Text.decimal_ne n
    | negSucc n => exact List.cons_ne_nil _ _

/-- The numbers in the settings of the activity-driven model. -/
def Spec.activityNumbers (s : ActivitySettings F) : List F :=
  [s.dt, s.eps, s.gamma, s.alpha, s.homophily, s.reciprocity, s.K, s.reluctanceMean, s.reluctanceSigma, s.reluctanceEps, s.covarianceFactor] ++
  s.botOpinion ++ s.botActivity ++ s.botHomophily

/-- The numbers in the settings of a model. -/
def Spec.settingsNumbers : Config.ModelSettings F → List F
  | .deGroot s => [s.tol]
  | .deffuant s => [s.threshold, s.mu]
  | .activity s => activityNumbers s
  | .inertial s => s.friction :: activityNumbers s.base

/-- The same settings, except possibly for the settings of bots without bots, and for the settings of reluctances without reluctances. -/
structure Spec.SameActivity (s t : ActivitySettings F) : Prop where
  maxIterations : s.maxIterations = t.maxIterations
  dt : s.dt = t.dt
  m : s.m = t.m
  eps : s.eps = t.eps
  gamma : s.gamma = t.gamma
  alpha : s.alpha = t.alpha
  homophily : s.homophily = t.homophily
  reciprocity : s.reciprocity = t.reciprocity
  K : s.K = t.K
  meanActivities : s.meanActivities = t.meanActivities
  meanWeights : s.meanWeights = t.meanWeights
  nBots : s.nBots = t.nBots
  useReluctances : s.useReluctances = t.useReluctances
  bots : 0 < s.nBots → s.botOpinion = t.botOpinion ∧ s.botM = t.botM ∧ s.botActivity = t.botActivity ∧ s.botHomophily = t.botHomophily
  reluctances : s.useReluctances = true → s.reluctanceMean = t.reluctanceMean ∧ s.reluctanceSigma = t.reluctanceSigma ∧
    s.reluctanceEps = t.reluctanceEps ∧ s.covarianceFactor = t.covarianceFactor

/-- The same model with the same settings, as far as they are used. -/
def Spec.SameSettings : Config.ModelSettings F → Config.ModelSettings F → Prop
  | .deGroot s, .deGroot t => s = t
  | .deffuant s, .deffuant t => s = t
  | .activity s, .activity t => SameActivity s t
  | .inertial s, .inertial t => SameActivity s.base t.base ∧ s.friction = t.friction
  | _, _ => False

theorem Console.activityLines_inj {T : Text.Double F} {s t : ActivitySettings F} (hs : ∀ x ∈ activityNumbers s, Legible T x)
    (ht : ∀ x ∈ activityNumbers t, Legible T x) {r r' : List (List Char)} (h : Console.activityLines T s ++ r = Console.activityLines T t ++ r') :
    SameActivity s t ∧ r = r' := by
  have num : ∀ {x y : F}, x ∈ activityNumbers s → y ∈ activityNumbers t → T.fmt x = T.fmt y → x = y :=
    fun hx hy e => (Console.clear_fmt T).inj _ _ (hs _ hx) (ht _ hy) e
  unfold Console.activityLines at h
  simp only [List.cons_append, List.nil_append, List.append_assoc, List.cons.injEq] at h
  obtain ⟨h1, h2, h3, h4, h5, h6, h7, h8, h9, h10, h11, h12, h⟩ := h
  have eb : s.nBots = t.nBots := Simulation.decimal_inj (Console.line_inj h12)
  have hbots : (0 < s.nBots → s.botOpinion = t.botOpinion ∧ s.botM = t.botM ∧ s.botActivity = t.botActivity ∧ s.botHomophily = t.botHomophily) ∧
      Console.line "use_reluctances " (Console.ofBool s.useReluctances) ::
        ((if s.useReluctances then [Console.line "reluctance_mean " (T.fmt s.reluctanceMean), Console.line "reluctance_sigma " (T.fmt s.reluctanceSigma),
          Console.line "reluctance_eps " (T.fmt s.reluctanceEps), Console.line "covariance_factor " (T.fmt s.covarianceFactor)] else []) ++ r) =
      Console.line "use_reluctances " (Console.ofBool t.useReluctances) ::
        ((if t.useReluctances then [Console.line "reluctance_mean " (T.fmt t.reluctanceMean), Console.line "reluctance_sigma " (T.fmt t.reluctanceSigma),
          Console.line "reluctance_eps " (T.fmt t.reluctanceEps), Console.line "covariance_factor " (T.fmt t.covarianceFactor)] else []) ++ r') := by
    rw [← eb] at h
    by_cases hb : 0 < s.nBots
    · rw [if_pos hb, if_pos hb] at h
      simp only [List.cons_append, List.nil_append, List.cons.injEq] at h
      obtain ⟨b1, b2, b3, b4, h⟩ := h
      refine ⟨fun _ => ⟨?_, ?_, ?_, ?_⟩, by simpa using h⟩
      · exact Console.ofList_inj (Console.clear_fmt T) (fun x hx => hs x (by simp [activityNumbers, hx])) (fun x hx => ht x (by simp [activityNumbers, hx]))
          (Console.line_inj b1)
      · exact Console.ofList_inj Console.clear_int (fun _ _ => trivial) (fun _ _ => trivial) (Console.line_inj b2)
      · exact Console.ofList_inj (Console.clear_fmt T) (fun x hx => hs x (by simp [activityNumbers, hx])) (fun x hx => ht x (by simp [activityNumbers, hx]))
          (Console.line_inj b3)
      · exact Console.ofList_inj (Console.clear_fmt T) (fun x hx => hs x (by simp [activityNumbers, hx])) (fun x hx => ht x (by simp [activityNumbers, hx]))
          (Console.line_inj b4)
    · rw [if_neg hb, if_neg hb] at h
      exact ⟨fun h => absurd h hb, by simpa using h⟩
  obtain ⟨hbots, h⟩ := hbots
  obtain ⟨h13, h⟩ := List.cons.inj h
  have er : s.useReluctances = t.useReluctances := Console.ofBool_inj (Console.line_inj h13)
  have hrel : (s.useReluctances = true → s.reluctanceMean = t.reluctanceMean ∧ s.reluctanceSigma = t.reluctanceSigma ∧
      s.reluctanceEps = t.reluctanceEps ∧ s.covarianceFactor = t.covarianceFactor) ∧ r = r' := by
    rw [← er] at h
    by_cases hb : s.useReluctances = true
    · rw [if_pos hb, if_pos hb] at h
      simp only [List.cons_append, List.nil_append, List.cons.injEq] at h
      obtain ⟨b1, b2, b3, b4, h⟩ := h
      exact ⟨fun _ => ⟨num (by simp [activityNumbers]) (by simp [activityNumbers]) (Console.line_inj b1),
        num (by simp [activityNumbers]) (by simp [activityNumbers]) (Console.line_inj b2),
        num (by simp [activityNumbers]) (by simp [activityNumbers]) (Console.line_inj b3),
        num (by simp [activityNumbers]) (by simp [activityNumbers]) (Console.line_inj b4)⟩, h⟩
    · rw [if_neg hb, if_neg hb] at h
      exact ⟨fun h => absurd h hb, h⟩
  exact ⟨⟨Console.ofOption_inj (fun _ _ => Text.fmtInt_inj) (Console.line_inj h1),
    num (by simp [activityNumbers]) (by simp [activityNumbers]) (Console.line_inj h2), Text.fmtInt_inj (Console.line_inj h3),
    num (by simp [activityNumbers]) (by simp [activityNumbers]) (Console.line_inj h4), num (by simp [activityNumbers]) (by simp [activityNumbers]) (Console.line_inj h5),
    num (by simp [activityNumbers]) (by simp [activityNumbers]) (Console.line_inj h6), num (by simp [activityNumbers]) (by simp [activityNumbers]) (Console.line_inj h7),
    num (by simp [activityNumbers]) (by simp [activityNumbers]) (Console.line_inj h8), num (by simp [activityNumbers]) (by simp [activityNumbers]) (Console.line_inj h9),
    Console.ofBool_inj (Console.line_inj h10), Console.ofBool_inj (Console.line_inj h11), eb, er, hbots, hrel.1⟩, hrel.2⟩

/-- The printed settings determine the settings. -/
theorem Console.settings_inj {T : Text.Double F} {o o' : Config.Options F} (hm : Matching o) (hm' : Matching o') (hn : o.modelString = modelName o.model)
    (hn' : o'.modelString = modelName o'.model) (hl : ∀ x ∈ settingsNumbers o.settings, Legible T x) (hl' : ∀ x ∈ settingsNumbers o'.settings, Legible T x)
    (h : Console.settings T o = Console.settings T o') :
    o.rngSeed = o'.rngSeed ∧ o.model = o'.model ∧ SameSettings o.settings o'.settings ∧ o.network.nAgents = o'.network.nAgents ∧
    o.network.nConnections = o'.network.nConnections ∧ o.output = o'.output := by
  unfold Console.settings at h
  simp only [List.cons_append, List.nil_append, List.cons.injEq] at h
  obtain ⟨h1, -, h2, h⟩ := h
  have es : o.modelString = o'.modelString := String.toList_injective (Console.line_inj h2)
  have em : o.model = o'.model := by
    rw [hn, hn'] at es
    revert es
    cases o.model <;> cases o'.model <;> first | (intro _; rfl) | (intro h; exact absurd h (by decide))
  have hset : SameSettings o.settings o'.settings ∧
      ["[Network]\n".toList, Console.line "n_agents " (Text.decimal o.network.nAgents), Console.line "n_connections " (Text.decimal o.network.nConnections),
        "[Output]\n".toList, Console.line "n_output_agents  " (Console.ofOption Text.decimal o.output.nOutputAgents),
        Console.line "n_output_network " (Console.ofOption Text.decimal o.output.nOutputNetwork),
        Console.line "print_progress " (Console.ofBool o.output.printProgress), Console.line "output_initial " (Console.ofBool o.output.outputInitial),
        Console.line "start_output " (Text.decimal o.output.startOutput), Console.line "start_numbering_from " (Text.decimal o.output.startNumberingFrom)] =
      ["[Network]\n".toList, Console.line "n_agents " (Text.decimal o'.network.nAgents), Console.line "n_connections " (Text.decimal o'.network.nConnections),
        "[Output]\n".toList, Console.line "n_output_agents  " (Console.ofOption Text.decimal o'.output.nOutputAgents),
        Console.line "n_output_network " (Console.ofOption Text.decimal o'.output.nOutputNetwork),
        Console.line "print_progress " (Console.ofBool o'.output.printProgress), Console.line "output_initial " (Console.ofBool o'.output.outputInitial),
        Console.line "start_output " (Text.decimal o'.output.startOutput), Console.line "start_numbering_from " (Text.decimal o'.output.startNumberingFrom)] := by
    unfold Matching at hm hm'
    rw [← em] at hm'
    clear h1 h2 hn hn' es em
    revert hm hm' hl hl' h
    cases o.settings with
    | deGroot s =>
      cases o'.settings with
      | deGroot t =>
        intro _ _ hl hl' h
        unfold Console.modelLines at h
        simp only [List.cons_append, List.nil_append, List.cons.injEq] at h
        obtain ⟨a, b, h⟩ := h
        refine ⟨?_, by simpa using h⟩
        obtain ⟨s1, s2⟩ := s
        obtain ⟨t1, t2⟩ := t
        have e1 : s1 = t1 := Console.ofOption_inj (fun _ _ => Text.fmtInt_inj) (Console.line_inj a)
        have e2 : s2 = t2 := (Console.clear_fmt T).inj _ _ (hl _ (by simp [settingsNumbers])) (hl' _ (by simp [settingsNumbers])) (Console.line_inj b)
        show (⟨s1, s2⟩ : Config.DeGrootSettings F) = ⟨t1, t2⟩
        rw [e1, e2]
      | deffuant t => cases o.model <;> intro a b _ _ _ <;> first | exact a.elim | exact b.elim
      | activity t => cases o.model <;> intro a b _ _ _ <;> first | exact a.elim | exact b.elim
      | inertial t => cases o.model <;> intro a b _ _ _ <;> first | exact a.elim | exact b.elim
    | deffuant s =>
      cases o'.settings with
      | deffuant t =>
        intro _ _ hl hl' h
        unfold Console.modelLines at h
        simp only [List.cons_append, List.nil_append, List.cons.injEq] at h
        obtain ⟨a1, a2, a3, a4, a5, a6, h⟩ := h
        refine ⟨?_, by simpa using h⟩
        obtain ⟨s1, s2, s3, s4, s5, s6⟩ := s
        obtain ⟨t1, t2, t3, t4, t5, t6⟩ := t
        have e1 : s1 = t1 := Console.ofOption_inj (fun _ _ => Text.fmtInt_inj) (Console.line_inj a1)
        have e2 : s2 = t2 := (Console.clear_fmt T).inj _ _ (hl _ (by simp [settingsNumbers])) (hl' _ (by simp [settingsNumbers])) (Console.line_inj a2)
        have e3 : s3 = t3 := (Console.clear_fmt T).inj _ _ (hl _ (by simp [settingsNumbers])) (hl' _ (by simp [settingsNumbers])) (Console.line_inj a3)
        have e4 : s4 = t4 := Console.ofBool_inj (Console.line_inj a4)
        have e5 : s5 = t5 := Console.ofBool_inj (Console.line_inj a5)
        have e6 : s6 = t6 := Simulation.decimal_inj (Console.line_inj a6)
        show (⟨s1, s2, s3, s4, s5, s6⟩ : Config.DeffuantSettings F) = ⟨t1, t2, t3, t4, t5, t6⟩
        rw [e1, e2, e3, e4, e5, e6]
      | deGroot t => cases o.model <;> intro a b _ _ _ <;> first | exact a.elim | exact b.elim
      | activity t => cases o.model <;> intro a b _ _ _ <;> first | exact a.elim | exact b.elim
      | inertial t => cases o.model <;> intro a b _ _ _ <;> first | exact a.elim | exact b.elim
    | activity s =>
      cases o'.settings with
      | activity t =>
        intro _ _ hl hl' h
        exact Console.activityLines_inj hl hl' h
      | deGroot t => cases o.model <;> intro a b _ _ _ <;> first | exact a.elim | exact b.elim
      | deffuant t => cases o.model <;> intro a b _ _ _ <;> first | exact a.elim | exact b.elim
      | inertial t => cases o.model <;> intro a b _ _ _ <;> first | exact a.elim | exact b.elim
    | inertial s =>
      cases o'.settings with
      | inertial t =>
        intro _ _ hl hl' h
        unfold Console.modelLines at h
        simp only [List.append_assoc] at h
        obtain ⟨h3, h4⟩ := Console.activityLines_inj (fun x hx => hl x (List.mem_cons_of_mem _ hx)) (fun x hx => hl' x (List.mem_cons_of_mem _ hx)) h
        obtain ⟨h5, h6⟩ := List.cons.inj h4
        exact ⟨⟨h3, (Console.clear_fmt T).inj _ _ (hl _ (by simp [settingsNumbers])) (hl' _ (by simp [settingsNumbers])) (Console.line_inj h5)⟩, h6⟩
      | deGroot t => cases o.model <;> intro a b _ _ _ <;> first | exact a.elim | exact b.elim
      | deffuant t => cases o.model <;> intro a b _ _ _ <;> first | exact a.elim | exact b.elim
      | activity t => cases o.model <;> intro a b _ _ _ <;> first | exact a.elim | exact b.elim
  obtain ⟨hset, h⟩ := hset
  simp only [List.cons.injEq] at h
  obtain ⟨-, n1, n2, -, p1, p2, p3, p4, p5, p6, -⟩ := h
  refine ⟨Console.seedLine_inj h1, em, hset, Simulation.decimal_inj (Console.line_inj n1), Simulation.decimal_inj (Console.line_inj n2), ?_⟩
  have q1 := Console.ofOption_inj (fun _ _ => Simulation.decimal_inj) (Console.line_inj p1)
  have q2 := Console.ofOption_inj (fun _ _ => Simulation.decimal_inj) (Console.line_inj p2)
  have q3 := Console.ofBool_inj (Console.line_inj p3)
  have q4 := Console.ofBool_inj (Console.line_inj p4)
  have q5 := Simulation.decimal_inj (Console.line_inj p5)
  have q6 := Simulation.decimal_inj (Console.line_inj p6)
  revert q1 q2 q3 q4 q5 q6
  cases o.output
  cases o'.output
  rintro rfl rfl rfl rfl rfl rfl
  rfl

/-- A parsed configuration has the name of its model. -/
theorem Config.parse_modelString [Zero F] [One F] [Neg F] [NatCast F] [IntCast F] [Sub F] [Mul F] [Add F] [Div F] {c : Config.Convert F} {fresh : Int}
    {tbl : Config.Doc F} {o : Config.Options F} (h : Config.parse c fresh tbl = .ok o) : o.modelString = modelName o.model := by
  unfold Config.parse at h
  split at h
  · cases h
  · next n _ =>
    obtain ⟨m, hm, h⟩ := Res.bind_eq_ok.mp h
    obtain ⟨s, -, h⟩ := Res.bind_eq_ok.mp h
    cases h
    exact Config.modelOfString_ok hm

/-- C80: the log documents the run.  If the settings of two configurations — that may come from different files, and with different results of
`std::random_device` — are printed alike, then the seeds, the models, their settings (as far as they are used), the size of the generated network and the
output settings are the same. -/
theorem C80_log [Zero F] [One F] [Neg F] [NatCast F] [IntCast F] [Sub F] [Mul F] [Add F] [Div F] {c : Config.Convert F} {T : Text.Double F}
    {fresh fresh' : Int} {tbl tbl' : Config.Doc F} {o o' : Config.Options F} (hp : Config.parse c fresh tbl = .ok o) (hp' : Config.parse c fresh' tbl' = .ok o')
    (hl : ∀ x ∈ settingsNumbers o.settings, Legible T x) (hl' : ∀ x ∈ settingsNumbers o'.settings, Legible T x)
    (h : Console.settings T o = Console.settings T o') :
    o.rngSeed = o'.rngSeed ∧ o.model = o'.model ∧ SameSettings o.settings o'.settings ∧ o.network.nAgents = o'.network.nAgents ∧
    o.network.nConnections = o'.network.nConnections ∧ o.output = o'.output :=
  Console.settings_inj (C55_matching hp) (C55_matching hp') (Config.parse_modelString hp) (Config.parse_modelString hp') hl hl' h

theorem Console.ofBool_text (T : Text.Double F) (b : Bool) : Console.ofBool b = (Value.bool b).text T := by cases b <;> rfl
theorem Console.ofOptInt_text (T : Text.Double F) (x : Option Int) : Console.ofOption Text.fmtInt x = (Value.optInt x).text T := by cases x <;> rfl
theorem Console.ofOptNat_text (T : Text.Double F) (x : Option Nat) : Console.ofOption Text.decimal x = (Value.optNat x).text T := by cases x <;> rfl

theorem Console.separated_eq : ∀ l : List (List Char), Console.separated l = (List.intersperse ", ".toList l).flatten
  | [] => rfl
  | [x] => by simp [Console.separated]
  | x :: y :: l => by
    rw [Console.separated, Console.separated_eq (y :: l)]
    simp

theorem Console.ofNumbers_text (T : Text.Double F) (l : List F) : Console.ofList T.fmt l = (Value.numbers l).text T := by
  unfold Console.ofList; rw [Console.separated_eq]; rfl
theorem Console.ofInts_text (T : Text.Double F) (l : List Int) : Console.ofList Text.fmtInt l = (Value.ints l).text T := by
  unfold Console.ofList; rw [Console.separated_eq]; rfl

theorem Console.shows_line (T : Text.Double F) {key : String} {v : List Char} {tail : String} {name : String} {value : Value F} (a b : Nat)
    (hk : key.toList = name.toList ++ List.replicate (a + 1) ' ') (hv : v = value.text T) (ht : tail.toList = List.replicate b ' ') :
    Shows T (Console.line key v tail) (name, value) := by
  refine ⟨a, b, ?_⟩
  unfold Console.line
  rw [hk, hv, ht]
  simp [List.replicate]

theorem Console.activity_shows (T : Text.Double F) (s : ActivitySettings F) : List.Forall₂ (Shows T) (Console.activityLines T s) (activityTable s) := by
  unfold Console.activityLines activityTable
  refine List.rel_append (List.rel_append (List.rel_append ?_ ?_) ?_) ?_
  · refine .cons (shows_line T 0 0 rfl (ofOptInt_text T _) rfl) (.cons (shows_line T 0 1 rfl rfl rfl) (.cons (shows_line T 0 1 rfl rfl rfl)
      (.cons (shows_line T 0 1 rfl rfl rfl) (.cons (shows_line T 0 1 rfl rfl rfl) (.cons (shows_line T 0 1 rfl rfl rfl) (.cons (shows_line T 0 1 rfl rfl rfl)
      (.cons (shows_line T 0 1 rfl rfl rfl) (.cons (shows_line T 0 1 rfl rfl rfl) (.cons (shows_line T 0 1 rfl (ofBool_text T _) rfl)
      (.cons (shows_line T 0 1 rfl (ofBool_text T _) rfl) (.cons (shows_line T 10 0 rfl rfl rfl) .nil)))))))))))
  · by_cases h : s.nBots = 0
    · rw [if_pos h, if_neg (by omega)]; exact .nil
    · rw [if_neg h, if_pos (by omega)]
      exact .cons (shows_line T 4 0 rfl (ofNumbers_text T _) rfl) (.cons (shows_line T 11 0 rfl (ofInts_text T _) rfl)
        (.cons (shows_line T 1 0 rfl (ofNumbers_text T _) rfl) (.cons (shows_line T 0 0 rfl (ofNumbers_text T _) rfl) .nil)))
  · exact .cons (shows_line T 0 0 rfl (ofBool_text T _) rfl) .nil
  · by_cases h : s.useReluctances = true
    · rw [if_pos h, if_pos h]
      exact .cons (shows_line T 0 0 rfl rfl rfl) (.cons (shows_line T 0 0 rfl rfl rfl) (.cons (shows_line T 0 0 rfl rfl rfl)
        (.cons (shows_line T 0 0 rfl rfl rfl) .nil)))
    · rw [if_neg h, if_neg h]; exact .nil

/-- C80: what the printed settings say.  The first line is the seed; then, in three sections, one line for each setting, with its name and its value, and
nothing else.  (Settings of bots and reluctances are printed only if they are used.) -/
theorem C80_shows (T : Text.Double F) (o : Config.Options F) :
    ∃ m n p : List (List Char),
      Console.settings T o = ("Random seed: ".toList ++ Text.fmtInt o.rngSeed ++ ['\n']) ::
        "[Model]\n".toList :: m ++ "[Network]\n".toList :: n ++ "[Output]\n".toList :: p ∧
      List.Forall₂ (Shows T) m (("type", .name o.modelString) :: modelTable o.settings) ∧
      List.Forall₂ (Shows T) n (networkTable o.network) ∧ List.Forall₂ (Shows T) p (outputTable o.output) := by
  refine ⟨Console.line "type " o.modelString.toList :: Console.modelLines T o.settings,
    [Console.line "n_agents " (Text.decimal o.network.nAgents), Console.line "n_connections " (Text.decimal o.network.nConnections)],
    [ Console.line "n_output_agents  " (Console.ofOption Text.decimal o.output.nOutputAgents),
      Console.line "n_output_network " (Console.ofOption Text.decimal o.output.nOutputNetwork),
      Console.line "print_progress " (Console.ofBool o.output.printProgress),
      Console.line "output_initial " (Console.ofBool o.output.outputInitial),
      Console.line "start_output " (Text.decimal o.output.startOutput),
      Console.line "start_numbering_from " (Text.decimal o.output.startNumberingFrom) ], ?_, ?_, ?_, ?_⟩
  · unfold Console.settings Console.seedLine
    simp
  · refine .cons (Console.shows_line T 0 0 rfl rfl rfl) ?_
    cases o.settings with
    | deGroot s => exact .cons (Console.shows_line T 0 0 rfl (Console.ofOptInt_text T _) rfl) (.cons (Console.shows_line T 0 0 rfl rfl rfl) .nil)
    | deffuant s =>
      exact .cons (Console.shows_line T 0 0 rfl (Console.ofOptInt_text T _) rfl) (.cons (Console.shows_line T 0 0 rfl rfl rfl)
        (.cons (Console.shows_line T 0 0 rfl rfl rfl) (.cons (Console.shows_line T 0 0 rfl (Console.ofBool_text T _) rfl)
        (.cons (Console.shows_line T 0 0 rfl (Console.ofBool_text T _) rfl) (.cons (Console.shows_line T 0 0 rfl rfl rfl) .nil)))))
    | activity s => exact Console.activity_shows T s
    | inertial s => exact List.rel_append (Console.activity_shows T s.base) (.cons (Console.shows_line T 0 0 rfl rfl rfl) .nil)
  · exact .cons (Console.shows_line T 0 0 rfl rfl rfl) (.cons (Console.shows_line T 0 0 rfl rfl rfl) .nil)
  · exact .cons (Console.shows_line T 1 0 rfl (Console.ofOptNat_text T _) rfl) (.cons (Console.shows_line T 0 0 rfl (Console.ofOptNat_text T _) rfl)
      (.cons (Console.shows_line T 0 0 rfl (Console.ofBool_text T _) rfl) (.cons (Console.shows_line T 0 0 rfl (Console.ofBool_text T _) rfl)
      (.cons (Console.shows_line T 0 0 rfl rfl rfl) (.cons (Console.shows_line T 0 0 rfl rfl rfl) .nil)))))

end Seldon
