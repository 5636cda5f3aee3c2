import Verif.Props.Console
import Batteries.Lean.Except
/-!
# Properties C79, C80: continuing from what a stopped run left on disk, and examples
-/
set_option linter.unusedSectionVars false
namespace Seldon
open Spec Effects
variable {F G : Type}

section
variable [Zero F] [One F] [Sub F] [Mul F] [Add F] [Div F] [Neg F] [NatCast F] [IntCast F] [LT F] [LE F] [DecidableLT F] [DecidableLE F]
variable {W : World} {env : Env F G} {args : Program.Args} {d d' : Disk} {options : Config.Options F}

/-- C79: what a stopped run left behind can be used to continue.  If both files of a state — the network `N` — were complete (C79_kill says which are), the
program started with them begins with the network `N` and its agents. -/
theorem C79_restart {whole cut : List (String × List Char)} (hL : LeftBehind W d d' whole cut) {dir : String} {i : Nat}
    {N : Network (Agent F (kindOf options)) F} {wn wo : String × List Char} (hwn : wn ∈ whole) (hwo : wo ∈ whole)
    (hn : FulfilsIn (Program.render env (kindOf options)) dir wn ⟨.network, i, N⟩)
    (ho : FulfilsIn (Program.render env (kindOf options)) dir wo ⟨.opinions, i, N⟩) (hsn : wn.2.length < 2 ^ 64 - 1) (hso : wo.2.length < 2 ^ 64 - 1)
    (he : env.Safe) (hT : env.text.Lawful)
    (hc : ∃ doc, Program.readConfig (onDisk W env d') args.configFile = .ok doc ∧ Config.parse env.convert env.fresh doc = .ok options)
    (hv : Config.validate options = .ok ()) (hk : KeepsEdges options) (hN : Transportable env.text N)
    (ha : Restorable env.text (kindOf options) N.agents) (hs : SaneFor options N.agents.length) (hw : W.canCreate args.outputDir = true)
    (h1 : args.network = some (join dir (fileName .network i))) (h2 : args.agents = some (join dir (fileName .opinions i))) :
    ∃ m : ModelState F G (kindOf options), Begins W env args d' options (kindOf options) m ∧ Program.network m = { N with direction := .incoming } ∧
      ∀ fuel, (mainWith W env args fuel d').2 =
        (Simulation.run (Program.machine env (kindOf options)) (Program.render env (kindOf options)) options.output fuel m).map (fun _ => ()) := by
  have hd1 : d' (W.resolve (join dir (fileName .network i))) = some wn.2 := by rw [← hn.1]; exact hL.complete wn hwn
  have hd2 : d' (W.resolve (join dir (fileName .opinions i))) = some wo.2 := by rw [← ho.1]; exact hL.complete wo hwo
  obtain ⟨m, g1, -, g3, g4⟩ := C66_restart (env := onDisk W env d') (args := args) (options := options) ⟨he.rng, he.pick, he.isqrt⟩ hT hc hv hk hN ha hs
    ⟨_, wn.2, h1, hd1, hn.2, hsn⟩ ⟨_, wo.2, h2, hd2, ho.2, hso⟩
  obtain ⟨doc, hr, hp⟩ := hc
  have hkind : Program.agentKind options = .ok (kindOf options) := C56_kind (C55_matching hp)
  refine ⟨m, ⟨⟨doc, hr, hp⟩, hv, hkind, g1⟩, g3, fun fuel => ?_⟩
  rw [(C79_refines hw fuel d').1, g4 fuel]
  show ((Simulation.run (Program.machine env (kindOf options)) (Program.render env (kindOf options)) options.output fuel m).map (·.2)).map (fun _ => ()) = _
  cases Simulation.run (Program.machine env (kindOf options)) (Program.render env (kindOf options)) options.output fuel m <;> rfl

/-- C79: files are only written directly inside the output directory: each path is the directory as given, a separator if there is none, and the name of an
opinions or network file. -/
theorem C79_inside (hc : W.canCreate args.outputDir = true) (fuel : Nat) (d : Disk) : ∀ w ∈ writes (mainWith W env args fuel d).1,
    ∃ (sep : List Char) (kind : FileKind) (n : Nat), w.1.toList = args.outputDir.toList ++ sep ++ fileName kind n ∧
      (sep = [] ∨ sep = ['/']) ∧ (args.outputDir.toList = [] → sep = []) ∧
      (args.outputDir.toList ≠ [] → (args.outputDir.toList ++ sep).getLast? = some '/') ∧
      (args.outputDir.toList.getLast? = some '/' → sep = []) := by
  rcases C79_history (env := env) hc fuel d with ⟨h, -⟩ | ⟨options, k, m, K, st, ws, -, -, -, -, h, -⟩
  · rw [h]; intro w hw; cases hw
  · generalize writes (mainWith W env args fuel d).1 = l at h
    intro w hw
    obtain ⟨q, hq⟩ : ∃ q, FulfilsIn (Program.render env k) args.outputDir w q := by
      clear * - h hw
      induction h with
      | nil => cases hw
      | cons hq _ ih =>
        rcases List.mem_cons.mp hw with rfl | hw
        · exact ⟨_, hq⟩
        · exact ih hw
    have hq := hq.1
    unfold Effects.join at hq
    split at hq
    · rename_i hj
      refine ⟨[], q.kind, q.number, by rw [hq, String.toList_ofList, List.append_nil], .inl rfl, fun _ => rfl, fun hne => ?_, fun _ => rfl⟩
      rw [List.append_nil]
      exact hj.resolve_left hne
    · rename_i hj
      refine ⟨['/'], q.kind, q.number, by rw [hq, String.toList_ofList, List.append_assoc]; rfl, .inr rfl, fun h0 => absurd (.inl h0) hj,
        fun _ => List.getLast?_append_of_ne_nil _ (by decide), fun h0 => absurd (.inr h0) hj⟩

end

/-! ### Examples -/

/-- A world in which every path leads to its own file and everything can be written. -/
def World.plain : World := ⟨fun _ => .error [], id, fun _ => true, fun _ => true, fun _ => ['1', 's'], ['2', 's']⟩

theorem World.plain_good (dir : String) : GoodDirectory World.plain dir := ⟨rfl, fun _ => rfl, fun _ _ h => join_inj h⟩

/-- A disk with nothing but a configuration file. -/
def confDisk : Disk := fun f => if f = "conf.toml" then some [] else none

theorem plain_completes : (mainWith World.plain (Env.sample Config.deGrootDoc) ⟨"conf.toml", none, none, none⟩ 5 confDisk).2 = .ok () := by decide +kernel

theorem plain_writes : (writes (mainWith World.plain (Env.sample Config.deGrootDoc) ⟨"conf.toml", none, none, none⟩ 5 confDisk).1).length = 3 := by
  decide +kernel

-- the run is killed while a file is written: the hypotheses of C79_kill are met, and the file is there, empty
example : ∃ d' file, AfterKill World.plain confDisk (mainWith World.plain (Env.sample Config.deGrootDoc) ⟨"conf.toml", none, none, none⟩ 5 confDisk).1 d' ∧
    d' file = some [] := by
  have h := plain_writes
  rcases e : writes (mainWith World.plain (Env.sample Config.deGrootDoc) ⟨"conf.toml", none, none, none⟩ 5 confDisk).1 with _ | ⟨⟨p, c⟩, l⟩
  · rw [e] at h; cases h
  have hw : (p, c) ∈ writes (mainWith World.plain (Env.sample Config.deGrootDoc) ⟨"conf.toml", none, none, none⟩ 5 confDisk).1 := by
    rw [e]; exact List.mem_cons_self ..
  clear e h
  obtain ⟨e, he, hpc⟩ := List.mem_filterMap.mp hw
  obtain ⟨a, b, hab⟩ := List.append_of_mem he
  cases e with
  | write p' c' =>
    cases hpc
    exact ⟨_, p, .during a b p c [] hab (List.nil_prefix) rfl, if_pos rfl⟩
  | print _ => cases hpc
  | error _ => cases hpc
  | mkdir _ => cases hpc
  | read _ => cases hpc

-- the hypotheses of C79_restart are met: `network_4.txt` and `opinions_4.txt` are complete, `opinions_5.txt` is not
example : ∃ (d' : Disk) (m : ModelState ℚ Nat .simple) (net agents : List Char), Begins World.plain (Env.withFiles Config.deGrootDoc net agents)
    ⟨"conf.toml", none, some "out/opinions_4.txt", some "out/network_4.txt"⟩ d' Config.deGrootOptions .simple m ∧ Program.network m = savedNet := by
  obtain ⟨net, hn⟩ := Simulation.network_toFile_total ratText savedNet_wf
  obtain ⟨agents, ha⟩ := Simulation.agents_toFile_total (AgentIO.simple ratText) savedNet.agents
  have hn' : net.length < 2 ^ 64 - 1 := by
    have : (NetworkIO.toFile ratText savedNet).map (fun t => decide (t.length < 2 ^ 64 - 1)) = .ok true := by decide +kernel
    rw [hn] at this
    simpa [Except.map] using this
  have ha' : agents.length < 2 ^ 64 - 1 := by
    have : (AgentIO.toFile (AgentIO.simple ratText) savedNet.agents).map (fun t => decide (t.length < 2 ^ 64 - 1)) = .ok true := by decide +kernel
    rw [ha] at this
    simpa [Except.map] using this
  have n1 : join "out" (fileName .network 4) = "out/network_4.txt" := by decide +kernel
  have n2 : join "out" (fileName .opinions 4) = "out/opinions_4.txt" := by decide +kernel
  let d' : Disk := fun x => if x = "out/opinions_5.txt" then some [] else if x = "out/network_4.txt" then some net else
    if x = "out/opinions_4.txt" then some agents else confDisk x
  have hL : LeftBehind World.plain confDisk d' [("out/network_4.txt", net), ("out/opinions_4.txt", agents)] [("out/opinions_5.txt", agents)] := by
    refine ⟨le_rfl, ?_, ?_, ?_⟩
    · intro w hw
      rcases List.mem_cons.mp hw with rfl | hw
      · rfl
      · cases List.mem_singleton.mp hw; rfl
    · intro w hw
      cases List.mem_singleton.mp hw
      exact ⟨[], List.nil_prefix, rfl⟩
    · intro x hx
      have h1 := hx _ (List.mem_cons_self ..)
      have h2 := hx _ (List.mem_cons_of_mem _ (List.mem_cons_self ..))
      have h3 := hx _ (List.mem_cons_of_mem _ (List.mem_cons_of_mem _ (List.mem_cons_self ..)))
      show (if x = _ then _ else if x = _ then _ else if x = _ then _ else _) = _
      rw [if_neg (fun h => h3 h.symm), if_neg (fun h => h1 h.symm), if_neg (fun h => h2 h.symm)]
  obtain ⟨m, h1, h2, -⟩ := C79_restart (env := Env.withFiles Config.deGrootDoc net agents) (options := Config.deGrootOptions) (N := savedNet) (i := 4)
    (args := ⟨"conf.toml", none, some "out/opinions_4.txt", some "out/network_4.txt"⟩) (dir := "out") hL
    (List.mem_cons_self ..) (List.mem_cons_of_mem _ (List.mem_cons_self ..)) ⟨n1.symm, hn⟩ ⟨n2.symm, ha⟩ hn' ha' (Env.withFiles_safe _ _ _) ratText_lawful
    ⟨_, rfl, by with_unfolding_all rfl⟩ (by decide +kernel) trivial savedNet_transportable savedNet_restorable
    ⟨⟨by decide, by decide⟩, fun s hs => (by cases hs), fun s hs => (by cases hs)⟩ rfl (congrArg some n1.symm) (congrArg some n2.symm)
  exact ⟨d', m, net, agents, h1, h2⟩

/-- The sample run begins a simulation. -/
theorem plain_begins : ∃ options k m, Begins World.plain (Env.sample Config.deGrootDoc) ⟨"conf.toml", none, none, none⟩ confDisk options k m := by
  rcases C79_history (W := World.plain) (env := Env.sample Config.deGrootDoc) (args := ⟨"conf.toml", none, none, none⟩) rfl 5 confDisk with
    ⟨-, e, h, -⟩ | ⟨options, k, m, -, -, -, h, -⟩
  · rw [plain_completes] at h; cases h
  · exact ⟨options, k, m, h⟩

-- the hypotheses of C80_transcript and C80_seed are met
example : ∃ options : Config.Options ℚ,
    (printed (mainWith World.plain (Env.sample Config.deGrootDoc) ⟨"conf.toml", none, none, none⟩ 5 confDisk).1)[3]? =
      some (Console.seedLine options.rngSeed) := by
  obtain ⟨options, k, m, h⟩ := plain_begins
  exact ⟨options, (C80_seed rfl h 5).1⟩

-- the hypotheses of C80_reproduce are met: the second configuration file has the printed seed, the random device now returns 99
example (doc : Config.Doc ℚ) (h : doc "simulation" "rng_seed" = none) (fuel : Nat) :
    let env : Env ℚ Nat := { Env.sample doc with toml := fun t => if t = [] then some doc else some (withSeed 7 doc) }
    mainWith World.plain { env with fresh := 99 } ⟨"conf.toml", none, none, none⟩ fuel (fun f => if f = "conf.toml" then some ['7'] else none) =
    mainWith World.plain env ⟨"conf.toml", none, none, none⟩ fuel confDisk := by
  intro env
  exact C80_reproduce (env := env) (doc := doc) (text' := ['7']) Config.strict_lawful 99 (show (-2 : ℤ) ^ 31 ≤ 7 by decide) (show (7 : ℤ) < 2 ^ 31 by decide) rfl (by rw [h]; rfl) rfl rfl
    (fun p hp => by rcases hp with hp | hp <;> cases hp) fuel

-- the hypotheses of C80_log are met
example {c : Config.Convert ℚ} {tbl tbl' : Config.Doc ℚ} {o : Config.Options ℚ} (hp : Config.parse c 7 tbl = .ok Config.deGrootOptions)
    (hp' : Config.parse c 8 tbl' = .ok o) (ho : ∀ x ∈ settingsNumbers o.settings, Legible ratText x)
    (h : Console.settings ratText Config.deGrootOptions = Console.settings ratText o) : Config.deGrootOptions.rngSeed = o.rngSeed :=
  (C80_log hp hp' (fun x hx => by
    have : x = ((1 : Int) : ℚ) := by
      rw [Int.cast_one]
      exact List.mem_singleton.mp hx
    rw [this]
    exact ⟨ratText_survives (by decide) (by decide), by decide +kernel⟩) ho h).1

end Seldon
