import Verif.Lemmas.Unused
import Verif.Props.Restart
import Verif.Props.RunActivity
/-!
# Property C81: what is printed determines what is done
-/
set_option linter.unusedSectionVars false
namespace Seldon
open Spec Effects
variable {F G : Type}

/-- The settings of a model, without values that are not used. -/
def Config.ModelSettings.used [Zero F] : Config.ModelSettings F → Config.ModelSettings F
  | .activity s => .activity s.used
  | .inertial s => .inertial { s with base := s.base.used }
  | s => s

theorem Config.ModelSettings.used_eq [Zero F] : ∀ {s t : Config.ModelSettings F}, SameSettings s t → s.used = t.used
  | .deGroot s, .deGroot t, h => congrArg Config.ModelSettings.deGroot h
  | .deffuant s, .deffuant t, h => congrArg Config.ModelSettings.deffuant h
  | .activity s, .activity t, h => congrArg Config.ModelSettings.activity (ActivitySettings.used_eq h)
  | .inertial ⟨s, f⟩, .inertial ⟨t, f'⟩, h => by
    obtain ⟨h1, h2⟩ := h
    have h1 : SameActivity s t := h1
    have h2 : f = f' := h2
    show Config.ModelSettings.inertial ⟨s.used, f⟩ = .inertial ⟨t.used, f'⟩
    rw [ActivitySettings.used_eq h1, h2]
  | .deGroot _, .deffuant _, h | .deGroot _, .activity _, h | .deGroot _, .inertial _, h
  | .deffuant _, .deGroot _, h | .deffuant _, .activity _, h | .deffuant _, .inertial _, h
  | .activity _, .deGroot _, h | .activity _, .deffuant _, h | .activity _, .inertial _, h
  | .inertial _, .deGroot _, h | .inertial _, .deffuant _, h | .inertial _, .activity _, h => h.elim

/-- The options, without values that are not used. -/
def Config.Options.used [Zero F] (o : Config.Options F) : Config.Options F := { o with settings := o.settings.used }

/-- A model, without values that are not used. -/
def ModelState.erase [Zero F] {k : AgentKind} : ModelState F G k → ModelState F G k
  | .activity s => .activity (Activity.erase s)
  | .inertial s => .inertial (Inertial.erase s)
  | .deGroot s => .deGroot s
  | .deffuant s => .deffuant s
  | .vector s => .vector s

section
variable [Zero F] [One F] [Sub F] [Mul F] [Add F] [Div F] [Neg F] [NatCast F] [IntCast F] [LT F] [LE F] [DecidableLT F] [DecidableLE F]
variable {W : World} {env : Env F G} {args : Program.Args} {d d' : Disk}

theorem Program.agentKind_used (o : Config.Options F) : Program.agentKind o.used = Program.agentKind o := by
  unfold Program.agentKind
  show (match o.model with | _ => _) = _
  rcases o with ⟨m, ms, seed, out, st, net⟩
  cases m <;> cases st <;> rfl

theorem Program.chooseModel_used (env : Env F G) (k : AgentKind) (o : Config.Options F) (N : Network (Agent F k) F) (g : G) :
    Program.chooseModel env k o.used N g = (Program.chooseModel env k o N g).map ModelState.erase := by
  rcases o with ⟨m, ms, seed, out, st, net⟩
  cases k with
  | simple =>
    cases m with
    | deGroot =>
      cases st with
      | deGroot s =>
        show (do let (m, _) ← DeGroot.create s.maxIterations s.tol N; Except.ok (ModelState.deGroot m)) =
          Except.map ModelState.erase (do let (m, _) ← DeGroot.create s.maxIterations s.tol N; Except.ok (ModelState.deGroot m))
        cases DeGroot.create s.maxIterations s.tol N <;> rfl
      | deffuant s => rfl
      | activity s => rfl
      | inertial s => rfl
    | activityDriven => cases st <;> rfl
    | activityDrivenInertial => cases st <;> rfl
    | deffuant =>
      cases st with
      | deffuant s =>
        show (if s.useBinaryVector then Program.createDeffuantVector env .simple N (.deffuant s) g else Program.createDeffuant env .simple N (.deffuant s) g) =
          Except.map ModelState.erase (if s.useBinaryVector then Program.createDeffuantVector env .simple N (.deffuant s) g else
            Program.createDeffuant env .simple N (.deffuant s) g)
        split
        · rfl
        · show (do let m ← Deffuant.create (A := SimpleAgent F) env.isqrt s.maxIterations s.threshold s.mu s.useNetwork N g
                   let m ← Deffuant.initializeAgents m; Except.ok (ModelState.deffuant m)) =
            Except.map ModelState.erase (do
                   let m ← Deffuant.create (A := SimpleAgent F) env.isqrt s.maxIterations s.threshold s.mu s.useNetwork N g
                   let m ← Deffuant.initializeAgents m; Except.ok (ModelState.deffuant m))
          cases Deffuant.create (A := SimpleAgent F) env.isqrt s.maxIterations s.threshold s.mu s.useNetwork N g with
          | error e => rfl
          | ok m =>
            rw [Res.bind_ok]
            cases Deffuant.initializeAgents m <;> rfl
      | deGroot s => rfl
      | activity s => rfl
      | inertial s => rfl
  | activity =>
    cases m with
    | activityDriven =>
      cases st with
      | activity s =>
        show (do let m ← Activity.create (A := ActivityAgent F) env.math env.rng s.used N g; Except.ok (ModelState.activity m)) =
          Except.map ModelState.erase (do let m ← Activity.create (A := ActivityAgent F) env.math env.rng s N g; Except.ok (ModelState.activity m))
        rw [Activity.create_used]
        cases Activity.create (A := ActivityAgent F) env.math env.rng s N g <;> rfl
      | deffuant s => rfl
      | deGroot s => rfl
      | inertial s => rfl
    | deGroot => cases st <;> rfl
    | activityDrivenInertial => cases st <;> rfl
    | deffuant =>
      cases st with
      | deffuant s =>
        show (if s.useBinaryVector then Program.createDeffuantVector env .activity N (.deffuant s) g else
          Program.createDeffuant env .activity N (.deffuant s) g) =
          Except.map ModelState.erase (if s.useBinaryVector then Program.createDeffuantVector env .activity N (.deffuant s) g else
            Program.createDeffuant env .activity N (.deffuant s) g)
        split <;> rfl
      | deGroot s => rfl
      | activity s => rfl
      | inertial s => rfl
  | inertial =>
    cases m with
    | activityDrivenInertial =>
      cases st with
      | inertial s =>
        show (do let m ← Activity.create (A := InertialAgent F) env.math env.rng s.base.used N g; Except.ok (ModelState.inertial ⟨m, s.friction⟩)) =
          Except.map ModelState.erase (do let m ← Activity.create (A := InertialAgent F) env.math env.rng s.base N g
                                          Except.ok (ModelState.inertial ⟨m, s.friction⟩))
        rw [Activity.create_used]
        cases Activity.create (A := InertialAgent F) env.math env.rng s.base N g <;> rfl
      | deffuant s => rfl
      | deGroot s => rfl
      | activity s => rfl
    | deGroot => cases st <;> rfl
    | activityDriven => cases st <;> rfl
    | deffuant =>
      cases st with
      | deffuant s =>
        show (if s.useBinaryVector then Program.createDeffuantVector env .inertial N (.deffuant s) g else
          Program.createDeffuant env .inertial N (.deffuant s) g) =
          Except.map ModelState.erase (if s.useBinaryVector then Program.createDeffuantVector env .inertial N (.deffuant s) g else
            Program.createDeffuant env .inertial N (.deffuant s) g)
        split <;> rfl
      | deGroot s => rfl
      | activity s => rfl
      | inertial s => rfl
  | vector =>
    cases m with
    | deGroot => cases st <;> rfl
    | activityDriven => cases st <;> rfl
    | activityDrivenInertial => cases st <;> rfl
    | deffuant =>
      cases st with
      | deffuant s =>
        show (if s.useBinaryVector then Program.createDeffuantVector env .vector N (.deffuant s) g else
          Program.createDeffuant env .vector N (.deffuant s) g) =
          Except.map ModelState.erase (if s.useBinaryVector then Program.createDeffuantVector env .vector N (.deffuant s) g else
            Program.createDeffuant env .vector N (.deffuant s) g)
        split
        · show (do let m ← Deffuant.create (A := DiscreteVectorAgent) env.isqrt s.maxIterations s.threshold s.mu s.useNetwork N g
                   let m ← Deffuant.initializeVectors env.rng s.dim m; Except.ok (ModelState.vector m)) =
            Except.map ModelState.erase (do
                   let m ← Deffuant.create (A := DiscreteVectorAgent) env.isqrt s.maxIterations s.threshold s.mu s.useNetwork N g
                   let m ← Deffuant.initializeVectors env.rng s.dim m; Except.ok (ModelState.vector m))
          cases Deffuant.create (A := DiscreteVectorAgent) env.isqrt s.maxIterations s.threshold s.mu s.useNetwork N g with
          | error e => rfl
          | ok m =>
            rw [Res.bind_ok]
            cases Deffuant.initializeVectors env.rng s.dim m <;> rfl
        · rfl
      | deGroot s => rfl
      | activity s => rfl
      | inertial s => rfl

theorem Effects.warning_used (W : World) {k : AgentKind} (o : Config.Options F) (N : Network (Agent F k) F) : warning W o.used N = warning W o N := by
  rcases o with ⟨m, ms, seed, out, st, net⟩
  cases m <;> cases st <;> cases k <;> rfl

theorem Program.setAgents_erase {k : AgentKind} (m : ModelState F G k) (as : List (Agent F k)) :
    Program.setAgents m.erase as = (Program.setAgents m as).erase := by
  cases m <;> rfl

theorem Effects.replaceAgents_erase (W : World) (env : Env F G) {k : AgentKind} (cli : Option String) (m : ModelState F G k) (d : Disk) :
    replaceAgents W env cli m.erase d = mapResult ModelState.erase (replaceAgents W env cli m d) := by
  unfold replaceAgents
  cases cli with
  | none => rfl
  | some file =>
    refine bind_same d fun c d => bind_same d fun as d => ?_
    rw [Program.setAgents_erase]
    rfl

theorem Effects.construct_used (W : World) (env : Env F G) (k : AgentKind) (o : Config.Options F) (cliN cliA : Option String) (d : Disk) :
    construct W env k o.used cliN cliA d = mapResult ModelState.erase (construct W env k o cliN cliA d) := by
  unfold construct
  refine bind_same d fun r d => bind_mapResult (e := ModelState.erase) d ?_ fun m d => replaceAgents_erase W env cliA m d
  unfold chooseModel
  rw [warning_used]
  refine bind_same d fun _ d => ?_
  rw [Program.chooseModel_used]
  rfl

theorem Program.machine_erase (env : Env F G) (k : AgentKind) : (Program.machine env k).Copies (Program.machine env k) ModelState.erase where
  network s := by cases s <;> rfl
  nIterations s := by cases s <;> rfl
  reset s := by cases s <;> rfl
  finished s := by cases s <;> rfl
  iteration s := by
    cases s with
    | deGroot s =>
      show Except.map _ (DeGroot.iteration s) = Except.map _ (Except.map _ (DeGroot.iteration s))
      cases DeGroot.iteration s <;> rfl
    | deffuant s =>
      show Except.map _ (Deffuant.iteration env.rng Deffuant.updateRule s) = Except.map _ (Except.map _ (Deffuant.iteration env.rng Deffuant.updateRule s))
      cases Deffuant.iteration env.rng Deffuant.updateRule s <;> rfl
    | vector s =>
      show Except.map _ (Deffuant.iteration env.rng (Deffuant.updateVector env.rng) s) =
        Except.map _ (Except.map _ (Deffuant.iteration env.rng (Deffuant.updateVector env.rng) s))
      cases Deffuant.iteration env.rng (Deffuant.updateVector env.rng) s <;> rfl
    | activity s =>
      show Except.map _ (Activity.iteration env.math env.pick env.rng (Activity.erase s)) =
        Except.map _ (Except.map _ (Activity.iteration env.math env.pick env.rng s))
      rw [Activity.iteration_erase]
      cases Activity.iteration env.math env.pick env.rng s <;> rfl
    | inertial s =>
      show Except.map _ (Inertial.iteration env.math env.pick env.rng (Inertial.erase s)) =
        Except.map _ (Except.map _ (Inertial.iteration env.math env.pick env.rng s))
      rw [Inertial.iteration_erase]
      cases Inertial.iteration env.math env.pick env.rng s <;> rfl

theorem Console.activityLines_used (T : Text.Double F) (s : ActivitySettings F) : Console.activityLines T s.used = Console.activityLines T s := by
  unfold Console.activityLines
  by_cases hb : 0 < s.nBots
  · have e1 : s.used.botOpinion = s.botOpinion := if_neg (by omega)
    have e2 : s.used.botM = s.botM := if_neg (by omega)
    have e3 : s.used.botActivity = s.botActivity := if_neg (by omega)
    have e4 : s.used.botHomophily = s.botHomophily := if_neg (by omega)
    rw [e1, e2, e3, e4]
    by_cases hr : s.useReluctances = true
    · have f1 : s.used.reluctanceMean = s.reluctanceMean := if_pos hr
      have f2 : s.used.reluctanceSigma = s.reluctanceSigma := if_pos hr
      have f3 : s.used.reluctanceEps = s.reluctanceEps := if_pos hr
      have f4 : s.used.covarianceFactor = s.covarianceFactor := if_pos hr
      rw [f1, f2, f3, f4]; rfl
    · rw [if_neg hr, if_neg (show ¬ s.used.useReluctances = true from hr)]; rfl
  · rw [if_neg hb, if_neg (show ¬ 0 < s.used.nBots from hb)]
    by_cases hr : s.useReluctances = true
    · have f1 : s.used.reluctanceMean = s.reluctanceMean := if_pos hr
      have f2 : s.used.reluctanceSigma = s.reluctanceSigma := if_pos hr
      have f3 : s.used.reluctanceEps = s.reluctanceEps := if_pos hr
      have f4 : s.used.covarianceFactor = s.covarianceFactor := if_pos hr
      rw [f1, f2, f3, f4]; rfl
    · rw [if_neg hr, if_neg (show ¬ s.used.useReluctances = true from hr)]; rfl

theorem Console.settings_used (T : Text.Double F) (o : Config.Options F) : Console.settings T o.used = Console.settings T o := by
  have e : Console.modelLines T o.settings.used = Console.modelLines T o.settings := by
    cases o.settings with
    | deGroot s => rfl
    | deffuant s => rfl
    | activity s => exact Console.activityLines_used T s
    | inertial s =>
      show Console.activityLines T s.base.used ++ _ = Console.activityLines T s.base ++ _
      rw [Console.activityLines_used]
  unfold Console.settings
  show _ ++ Console.modelLines T o.settings.used ++ _ = _
  rw [e]; rfl

/-- C81: settings that are not used — those of bots if there are none, those of reluctances if they are switched off — have no influence whatever.  Two
processes that begin with the same arguments and the same network and agents files, and whose configuration files agree in the seed used, the model, the size
of the network, the output settings, and the settings that are used, do exactly the same: they print the same, write the same files with the same contents, and
end in the same way. -/
theorem C81_unused {fresh : Int} {o o' : Config.Options F} {k k' : AgentKind} {m : ModelState F G k} {m' : ModelState F G k'}
    (hc : W.canCreate args.outputDir = true) (h : Begins W env args d o k m) (h' : Begins W { env with fresh := fresh } args d' o' k' m')
    (hseed : o.rngSeed = o'.rngSeed) (hmodel : o.model = o'.model) (hset : SameSettings o.settings o'.settings)
    (hn : o.network.nAgents = o'.network.nAgents ∧ o.network.nConnections = o'.network.nConnections) (hout : o.output = o'.output)
    (hsame : ∀ p, args.network = some p ∨ args.agents = some p → d' (W.resolve p) = d (W.resolve p)) (fuel : Nat) :
    mainWith W { env with fresh := fresh } args fuel d' = mainWith W env args fuel d := by
  obtain ⟨doc, -, hp⟩ := h.parsed
  obtain ⟨doc', -, hp'⟩ := h'.parsed
  have hu : o.used = o'.used := by
    have e1 : o.modelString = o'.modelString := by rw [Config.parse_modelString hp, Config.parse_modelString hp', hmodel]
    have e2 : o.network = o'.network := by
      have f1 := Config.parse_file hp
      have f2 := Config.parse_file hp'
      revert hn f1 f2
      rcases o.network with ⟨a, b, c⟩
      rcases o'.network with ⟨a', b', c'⟩
      rintro ⟨h1, h2⟩ f1 f2
      dsimp only at h1 h2 f1 f2
      rw [h1, h2, f1, f2]
    unfold Config.Options.used
    rw [hmodel, e1, hseed, hout, e2, Config.ModelSettings.used_eq hset]
  have hk : k = k' := by
    have e1 := h.kind
    have e2 := h'.kind
    rw [← Program.agentKind_used, hu, Program.agentKind_used, e2] at e1
    exact (Except.ok.inj e1).symm
  subst hk
  obtain ⟨t, -, -, g1, -, -, -, -, e⟩ := mainWith_trace hc h fuel
  obtain ⟨t', -, -, g1', -, -, -, -, e'⟩ := mainWith_trace (env := { env with fresh := fresh }) hc h' fuel
  have hcon : construct W { env with fresh := fresh } k o' args.network args.agents d' = construct W env k o' args.network args.agents d := by
    refine construct_congr fresh args.network args.agents (fun p hp2 => hsame p (.inl ?_)) (fun p hp2 => hsame p (.inr hp2))
    rw [Config.parse_file hp'] at hp2
    revert hp2
    cases args.network with
    | none => intro h; cases h
    | some f => intro h; exact h
  rw [hcon] at g1'
  have u1 := construct_used W env k o args.network args.agents d
  have u2 := construct_used W env k o' args.network args.agents d
  rw [g1] at u1
  rw [g1', ← hu, u1] at u2
  have et : t = t' := congrArg Prod.fst u2
  have em : m.erase = m'.erase := Except.ok.inj (congrArg Prod.snd u2)
  have hs : Console.settings env.text o = Console.settings env.text o' := by
    rw [← Console.settings_used, hu, Console.settings_used]
  have hr : run W (Program.machine env k) (Program.render env k) args.outputDir o.output fuel m d =
      run W (Program.machine { env with fresh := fresh } k) (Program.render { env with fresh := fresh } k) args.outputDir o'.output fuel m' d' := by
    show _ = run W (Program.machine env k) (Program.render env k) args.outputDir o'.output fuel m' d'
    rw [← hout, ← run_copies (Program.machine_erase env k), em, run_copies (Program.machine_erase env k)]
    exact run_blind (W := W) (W' := W) rfl rfl _ _ _ _ _ _ d d'
  rw [e, e', ← hr, ← et]
  show _ = (List.map Event.print (bannerLines args) ++ ([Event.mkdir args.outputDir] ++ ([Event.read args.configFile] ++
    (List.map Event.print (Console.settings env.text o) ++ _))), _)
  rw [hs]

/-- C81: the log determines the run.  Two processes that begin with the same arguments and the same network and agents files — but perhaps with different
configuration files and different results of `std::random_device` — and print the same settings do exactly the same. -/
theorem C81_log {fresh : Int} {o o' : Config.Options F} {k k' : AgentKind} {m : ModelState F G k} {m' : ModelState F G k'}
    (hc : W.canCreate args.outputDir = true) (h : Begins W env args d o k m) (h' : Begins W { env with fresh := fresh } args d' o' k' m')
    (hl : ∀ x ∈ settingsNumbers o.settings, Legible env.text x) (hl' : ∀ x ∈ settingsNumbers o'.settings, Legible env.text x)
    (hlog : Console.settings env.text o = Console.settings env.text o')
    (hsame : ∀ p, args.network = some p ∨ args.agents = some p → d' (W.resolve p) = d (W.resolve p)) (fuel : Nat) :
    mainWith W { env with fresh := fresh } args fuel d' = mainWith W env args fuel d := by
  obtain ⟨doc, -, hp⟩ := h.parsed
  obtain ⟨doc', -, hp'⟩ := h'.parsed
  obtain ⟨a, b, c, e1, e2, e3⟩ := C80_log hp hp' hl hl' hlog
  exact C81_unused hc h h' a b c ⟨e1, e2⟩ e3 hsame fuel

end
/-! ## concrete cases -/

section
open Program

theorem begins_of_main {F G : Type} [Zero F] [One F] [Sub F] [Mul F] [Add F] [Div F] [Neg F] [NatCast F] [IntCast F] [LT F] [LE F] [DecidableLT F]
    [DecidableLE F] {W : World} {env : Env F G} {args : Program.Args} {d : Disk} {o : Config.Options F} {fuel : Nat} {tr : List FileWrite}
    (ha : Accepted (onDisk W env d) args o) (h : Program.main (onDisk W env d) args fuel = .ok tr) : ∃ k m, Begins W env args d o k m := by
  obtain ⟨doc, hd, hp⟩ := ha.config
  unfold Program.main at h
  rw [hd, Res.bind_ok, hp, Res.bind_ok, ha.valid, Res.bind_ok] at h
  obtain ⟨k, hk, h⟩ := Res.bind_eq_ok.mp h
  obtain ⟨r, hr, -⟩ := Res.bind_eq_ok.mp h
  unfold Program.simulate at hr
  obtain ⟨m, hm, -⟩ := Res.bind_eq_ok.mp hr
  exact ⟨k, m, ⟨doc, hd, hp⟩, ha.valid, hk, hm⟩

/-- As `Config.activityDoc`, with a mean of the reluctances, although these are switched off. -/
def Config.idleDoc : Config.Doc ℚ := fun s k =>
  if s = "ActivityDriven" ∧ k = "reluctance_mean" then some (.float 5) else Config.activityDoc s k

/-- What is read from this file. -/
def Config.idleOptions : Config.Options ℚ :=
  { Config.activityOptions with settings := .activity { Config.activitySettings with reluctanceMean := 5 } }

/-- Two configuration files. -/
def Env.twoDocs : Env ℚ Nat := { Env.sample Config.activityDoc with toml := fun t => if t = [] then some Config.activityDoc else some Config.idleDoc }

/-- A directory with the second one. -/
def idleDisk : Disk := fun f => if f = "conf.toml" then some ['5'] else none

-- the hypotheses of C81_unused are met: a model with a bot but without reluctances, and two values of the mean reluctance
example (fuel : Nat) : mainWith World.plain Env.twoDocs ⟨"conf.toml", none, none, none⟩ fuel idleDisk =
    mainWith World.plain Env.twoDocs ⟨"conf.toml", none, none, none⟩ fuel confDisk := by
  have h1 : Accepted (onDisk World.plain Env.twoDocs confDisk) ⟨"conf.toml", none, none, none⟩ Config.activityOptions :=
    ⟨⟨_, rfl, by with_unfolding_all rfl⟩, by decide +kernel, rfl, rfl, by decide⟩
  have h2 : Accepted (onDisk World.plain Env.twoDocs idleDisk) ⟨"conf.toml", none, none, none⟩ Config.idleOptions :=
    ⟨⟨_, rfl, by with_unfolding_all rfl⟩, by decide +kernel, rfl, rfl, by decide⟩
  have hs := (Env.sample_lawful Config.activityDoc).safe
  obtain ⟨_, _, hr, -⟩ := C59_activity (env := onDisk World.plain Env.twoDocs confDisk) ⟨hs.rng, hs.pick, hs.isqrt⟩ h1 ⟨by decide, by decide⟩ rfl
    activitySettings_sane (K := 4) rfl (by decide) (fuel := 4) (le_refl 4)
  obtain ⟨_, _, hr', -⟩ := C59_activity (env := onDisk World.plain Env.twoDocs idleDisk) ⟨hs.rng, hs.pick, hs.isqrt⟩ h2 ⟨by decide, by decide⟩ rfl
    ⟨activitySettings_sane.m, activitySettings_sane.bots, activitySettings_sane.botM⟩ (K := 4) rfl (by decide) (fuel := 4) (le_refl 4)
  obtain ⟨k, m, b⟩ := begins_of_main h1 hr
  obtain ⟨k', m', b'⟩ := begins_of_main h2 hr'
  exact C81_unused (fresh := Env.twoDocs.fresh) rfl b b' rfl rfl
    ⟨rfl, rfl, rfl, rfl, rfl, rfl, rfl, rfl, rfl, rfl, rfl, rfl, rfl, fun _ => ⟨rfl, rfl, rfl, rfl⟩, fun h => by cases h⟩ ⟨rfl, rfl⟩ rfl
    (fun p hp => by rcases hp with hp | hp <;> cases hp) fuel

end
end Seldon
