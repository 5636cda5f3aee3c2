import Verif.Props.Accepted
import Verif.Lemmas.NoUB
import Verif.Props.IO
/-!
# Properties C65, C66: the program with network and agents files
-/
set_option linter.unusedSectionVars false
namespace Seldon
open Spec Simulation Program NetworkGen
variable {F G A S : Type}

/-- A model that may throw, but has no undefined behaviour. -/
theorem run_noUB {M : Machine A F S} (I : S → Prop) (keep : ∀ s, I s → I (M.reset s))
    (step : ∀ s, I s → NoUB (M.iteration s) ∧ ∀ t, M.iteration s = .ok t → I t)
    (wf : ∀ s, I s → WF (M.network s)) (R : Render A F) {o : OutputSettings} (h1 : o.nOutputAgents ≠ some 0) (h2 : o.nOutputNetwork ≠ some 0)
    (fuel : Nat) {s : S} (hs : I s) : NoUB (Simulation.run M R o fuel s) := by
  have key : ∀ (fuel : Nat) (s : S) (tr : List FileWrite), I s → NoUB (Simulation.runLoop M R o fuel (s, tr)) := by
    intro fuel
    induction fuel with
    | zero =>
      intro s tr _
      unfold Simulation.runLoop
      split
      · exact NoUB.ok _
      · exact NoUB.fuel
    | succ fuel ih =>
      intro s tr hs
      unfold Simulation.runLoop
      split
      · exact NoUB.ok _
      · refine (step s hs).1.bind (fun t ht => ?_)
        have hI := (step s hs).2 t ht
        obtain ⟨tr', htr⟩ := output_total (renderable_of_wf R (wf t hI)) h1 h2 (M.nIterations t) tr
        rw [htr, Res.bind_ok]
        exact ih t tr' hI
  obtain ⟨tr0, h0⟩ := initialOutput_total (renderable_of_wf R (wf s hs)) o
  unfold Simulation.run
  rw [h0, Res.bind_ok]
  exact key fuel _ tr0 (keep s hs)

section
variable [Zero F] [One F] [Sub F] [Mul F] [Add F] [Div F] [Neg F] [NatCast F] [IntCast F] [LT F] [LE F] [DecidableLT F] [DecidableLE F]
variable {env : Env F G} {args : Args} {options : Config.Options F}

/-- The program is started with a configuration file that is parsed to `options` and accepted. The network has `n < 2^31` agents: that many are generated,
or the network file, if it can be read at all, has `n` rows with as many weights as neighbours and all indices less than `n`.  The agents file, if there
is one and it can be read, has `n` agents. -/
structure Started (env : Env F G) (args : Args) (options : Config.Options F) (n : Nat) : Prop where
  config : ∃ doc, readConfig env args.configFile = .ok doc ∧ Config.parse env.convert env.fresh doc = .ok options
  valid : Config.validate options = .ok ()
  size : n < 2 ^ 31
  generated : args.network = none → options.network.nAgents = n
  network : ∀ file text N, args.network = some file → env.files file = some text →
    NetworkIO.fromFile (A := Agent F (kindOf options)) env.text text = .ok N → WF N ∧ N.agents.length = n
  agents : ∀ file text as, args.agents = some file → env.files file = some text →
    AgentIO.fromFile (format env.text (kindOf options)) text = .ok as → as.length = n

/-- What is missing from `validate_settings`, for a network with `n` agents. -/
structure Spec.SaneFor (options : Config.Options F) (n : Nat) : Prop where
  output : options.output.nOutputAgents ≠ some 0 ∧ options.output.nOutputNetwork ≠ some 0
  activity : ∀ s, options.settings = .activity s → SaneContacts s n
  inertial : ∀ s, options.settings = .inertial s → SaneContacts s.base n

theorem Started.matching {n : Nat} (h : Started env args options n) : Matching options := by
  obtain ⟨doc, -, hp⟩ := h.config
  exact C55_matching hp

theorem Started.validModel {n : Nat} (h : Started env args options n) : 0 < options.output.startOutput ∧ ValidModel options.settings :=
  (C53_validate options h.matching).1.mp h.valid

theorem Started.noFile {n : Nat} (h : Started env args options n) : options.network.file = none := by
  obtain ⟨doc, -, hp⟩ := h.config
  unfold Config.parse at hp
  split at hp
  · cases hp
  · obtain ⟨m, hm, hp⟩ := Res.bind_eq_ok.mp hp
    obtain ⟨st, hst, hp⟩ := Res.bind_eq_ok.mp hp
    cases hp; rfl

/-- The states from which iterations are safe. -/
def Program.Sound : {k : AgentKind} → ModelState F G k → Prop
  | _, .deGroot s => s.Ready
  | _, .deffuant s => s.Ready
  | _, .activity s => s.Sound
  | _, .inertial s => s.base.Sound
  | _, .vector s => s.Ready

theorem Program.Sound.wf {k : AgentKind} {m : ModelState F G k} (h : Program.Sound m) : WF (Program.network m) := by
  cases m
  · exact DeGroot.Ready.wf h
  · exact Deffuant.Ready.wf h
  · exact Activity.Sound.wf h
  · exact Activity.Sound.wf h
  · exact Deffuant.Ready.wf h

theorem Program.Sound.reset (env : Env F G) {k : AgentKind} {m : ModelState F G k} (h : Program.Sound m) :
    Program.Sound ((machine env k).reset m) := by
  cases m with
  | deGroot s => exact DeGroot.Ready.reset h
  | deffuant s =>
    have h : s.Ready := h
    exact show (Deffuant.reset s).Ready from ⟨h.wf, h.size, h.rows⟩
  | activity s => exact Activity.Sound.reset h
  | inertial s => exact Activity.Sound.reset (s := s.base) h
  | vector s =>
    have h : s.Ready := h
    exact show (Deffuant.reset s).Ready from ⟨h.wf, h.size, h.rows⟩

theorem Program.Sound.step (he : env.Safe) {k : AgentKind} {m : ModelState F G k} (h : Program.Sound m) :
    NoUB ((machine env k).iteration m) ∧ ∀ t, (machine env k).iteration m = .ok t → Program.Sound t := by
  cases m with
  | deGroot s =>
    obtain ⟨t, ht, hr, -⟩ := C29_iteration (s := s) h
    show NoUB (s.iteration.map ModelState.deGroot) ∧ ∀ t, s.iteration.map ModelState.deGroot = .ok t → _
    rw [ht]
    exact ⟨NoUB.ok _, fun u hu => by cases hu; exact hr⟩
  | deffuant s =>
    obtain ⟨t, ht, hF⟩ := Deffuant.iteration_safe he.rng (s := s) h
    show NoUB ((s.iteration env.rng Deffuant.updateRule).map ModelState.deffuant) ∧
      ∀ t, (s.iteration env.rng Deffuant.updateRule).map ModelState.deffuant = .ok t → _
    rw [ht]
    exact ⟨NoUB.ok _, fun u hu => by cases hu; exact hF.ready h⟩
  | activity s =>
    obtain ⟨t, ht, hr, -⟩ := Activity.Sound.step (o := env.math) he.pick env.rng (s := s) h
    show NoUB ((s.iteration env.math env.pick env.rng).map ModelState.activity) ∧
      ∀ t, (s.iteration env.math env.pick env.rng).map ModelState.activity = .ok t → _
    rw [ht]
    exact ⟨NoUB.ok _, fun u hu => by cases hu; exact hr⟩
  | inertial s =>
    obtain ⟨t, ht, hr, -⟩ := Inertial.step (o := env.math) he.pick env.rng (s := s) h
    show NoUB ((s.iteration env.math env.pick env.rng).map ModelState.inertial) ∧
      ∀ t, (s.iteration env.math env.pick env.rng).map ModelState.inertial = .ok t → _
    rw [ht]
    exact ⟨NoUB.ok _, fun u hu => by cases hu; exact hr⟩
  | vector s =>
    obtain ⟨h1, h2⟩ := Deffuant.iterationVector_noUB he.rng (s := s) h
    show NoUB ((s.iteration env.rng (Deffuant.updateVector env.rng)).map ModelState.vector) ∧
      ∀ t, (s.iteration env.rng (Deffuant.updateVector env.rng)).map ModelState.vector = .ok t → _
    refine ⟨h1.map _, fun u hu => ?_⟩
    cases e : s.iteration env.rng (Deffuant.updateVector env.rng) with
    | error f => rw [e] at hu; cases hu
    | ok t => rw [e] at hu; cases hu; exact (h2 t e).ready h

theorem WF.agents {N : Network A F} (h : WF N) {l : List A} (hl : l.length = N.agents.length) : WF ({ N with agents := l } : Network A F) :=
  ⟨by rw [hl]; exact h.rows, by rw [hl]; exact h.wrows, h.lengths, by rw [hl]; exact h.range⟩

theorem Program.Sound.setAgents {k : AgentKind} {m : ModelState F G k} (h : Program.Sound m) {l : List (Agent F k)}
    (hl : l.length = (Program.network m).agents.length) : Program.Sound (Program.setAgents m l) := by
  cases m with
  | deGroot s =>
    have h : s.Ready := h
    have hl : l.length = s.network.agents.length := hl
    exact show DeGroot.Ready { s with network := { s.network with agents := l } } from ⟨WF.agents h.wf hl, by
      show s.copy.length = l.length; rw [hl]; exact h.copy⟩
  | deffuant s =>
    have h : s.Ready := h
    have hl : l.length = s.network.agents.length := hl
    exact show Deffuant.Ready { s with network := { s.network with agents := l } } from ⟨WF.agents h.wf hl, by
      show l.length < 2 ^ 64; rw [hl]; exact h.size, h.rows⟩
  | activity s =>
    rcases h with h | ⟨h, hw⟩
    · exact Or.inl ⟨WF.agents h.wf hl, h.incoming, by show Activity.ContactsFit s.p l.length; rw [hl]; exact h.fit, h.botOpinion, h.probabilistic⟩
    · exact Or.inr ⟨h.agents hl, WF.agents hw hl⟩
  | inertial s =>
    rcases h with h | ⟨h, hw⟩
    · exact Or.inl ⟨WF.agents h.wf hl, h.incoming, by show Activity.ContactsFit s.base.p l.length; rw [hl]; exact h.fit, h.botOpinion, h.probabilistic⟩
    · exact Or.inr ⟨h.agents hl, WF.agents hw hl⟩
  | vector s =>
    have h : s.Ready := h
    have hl : l.length = s.network.agents.length := hl
    exact show Deffuant.Ready { s with network := { s.network with agents := l } } from ⟨WF.agents h.wf hl, by
      show l.length < 2 ^ 64; rw [hl]; exact h.size, h.rows⟩

/-- The network the model is created with. -/
theorem Started.createNetwork {n : Nat} (he : env.Safe) (hd : ∀ s, NoUB (env.text.stod s)) (h : Started env args options n) (g : G) :
    NoUB (Program.createNetwork env (kindOf options) options args.network g) ∧
    ∀ N g', Program.createNetwork env (kindOf options) options args.network g = .ok (N, g') → WF N ∧ N.direction = .incoming ∧ N.agents.length = n := by
  obtain ⟨f1, f2, f3⟩ := C56_network_file env (kindOf options) options g
  cases e : args.network with
  | none =>
    have hn := h.generated e
    rw [f3 h.noFile (by rw [hn]; exact h.size)]
    obtain ⟨N, g', hN, hwf, hag, hin⟩ := nConnections_total (A := Agent F (kindOf options)) he.rng options.network.nAgents options.network.nConnections true g
    rw [hN]
    refine ⟨NoUB.ok _, fun N' g'' h' => ?_⟩
    cases h'
    exact ⟨hwf, hin, by rw [hag, List.length_replicate, hn]⟩
  | some file =>
    cases ef : env.files file with
    | none => rw [f2 file ef]; exact ⟨NoUB.exn _, fun _ _ h' => by cases h'⟩
    | some text =>
      rw [f1 file text ef]
      refine ⟨(NetworkIO.fromFile_noUB hd text).bind (fun _ _ => NoUB.ok _), fun N g' h' => ?_⟩
      obtain ⟨N1, h1, h2⟩ := Res.bind_eq_ok.mp h'
      cases h2
      obtain ⟨hwf, hlen⟩ := h.network file text N e ef h1
      exact ⟨hwf, NetworkIO.fromFile_incoming h1, hlen⟩

/-- The constructor of a Deffuant model. -/
theorem Deffuant.create_noUB [Inhabited A] {isqrt : Nat → Nat} (hs : ∀ L, L * L < 2 ^ 31 → isqrt (L * L) = L) (max : Option Int) (thr mu : F)
    (use : Bool) {N : Network A F} (hwf : WF N) (hn : N.agents.length < 2 ^ 31) (g : G) :
    NoUB (Deffuant.create isqrt max thr mu use N g) ∧ ∀ m, Deffuant.create isqrt max thr mu use N g = .ok m → m.Ready ∧
      m.network.agents.length = N.agents.length := by
  by_cases hsq : use = true → IsSquare N.agents.length
  · obtain ⟨m, h1, h2, -, -, h3, -⟩ := Deffuant.create_ready hs max thr mu hwf hn hsq g
    rw [h1]
    exact ⟨NoUB.ok _, fun m' h' => by cases h'; exact ⟨h2, h3⟩⟩
  · obtain ⟨hu, hsq⟩ := Classical.not_imp.mp hsq
    rw [hu, C38_throws isqrt max thr mu N g hsq]
    exact ⟨NoUB.exn _, fun m' h' => by cases h'⟩

/-- The model that is created. -/
theorem chooseModel_sound (he : env.Safe) (hm : Matching options) (hv : ValidModel options.settings) {n : Nat} (hs : SaneFor options n) (hn : n < 2 ^ 31)
    {N : Network (Agent F (kindOf options)) F} (hwf : WF N) (hin : N.direction = .incoming) (hlen : N.agents.length = n) (g : G) :
    NoUB (chooseModel env (kindOf options) options N g) ∧
    ∀ m, chooseModel env (kindOf options) options N g = .ok m → Program.Sound m ∧ (Program.network m).agents.length = n := by
  obtain ⟨c1, c2, c3, c4, c5⟩ := C56_compatible env options hm g
  cases e : options.settings with
  | deGroot s =>
    have hk : kindOf options = .simple := by unfold kindOf; rw [e]
    revert N
    rw [hk]
    intro N hwf hin hlen
    rw [c1 s e N]
    obtain ⟨m, comps, -, h1, h2, -, -, -, h6, -⟩ := C29_constructor (N := N) hwf s.maxIterations s.tol
    rw [h1, Res.bind_ok]
    exact ⟨NoUB.ok _, fun m' h' => by cases h'; exact ⟨h2, h6.trans hlen⟩⟩
  | deffuant s =>
    by_cases hb : s.useBinaryVector = true
    · have hk : kindOf options = .vector := by unfold kindOf; rw [e]; simp [hb]
      revert N
      rw [hk]
      intro N hwf hin hlen
      rw [c5 s e hb N]
      obtain ⟨h1, h2⟩ := Deffuant.create_noUB (A := DiscreteVectorAgent) he.isqrt s.maxIterations s.threshold s.mu s.useNetwork (N := N) hwf
        (by rw [hlen]; exact hn) g
      refine ⟨h1.bind (fun m1 hm1 => ?_), fun m hm => ?_⟩
      · obtain ⟨m, h3, -⟩ := Deffuant.initializeVectors_ok he.rng s.dim m1
        rw [h3, Res.bind_ok]; exact NoUB.ok _
      · obtain ⟨m1, hm1, hm⟩ := Res.bind_eq_ok.mp hm
        obtain ⟨m2, h3, hF, -⟩ := Deffuant.initializeVectors_ok he.rng s.dim m1
        rw [h3, Res.bind_ok] at hm
        cases hm
        obtain ⟨g1, g2⟩ := h2 m1 hm1
        exact ⟨hF.ready g1, hF.n.trans (g2.trans hlen)⟩
    · have hb : s.useBinaryVector = false := by simpa using hb
      have hk : kindOf options = .simple := by unfold kindOf; rw [e]; simp [hb]
      revert N
      rw [hk]
      intro N hwf hin hlen
      rw [c4 s e hb N]
      obtain ⟨h1, h2⟩ := Deffuant.create_noUB (A := SimpleAgent F) he.isqrt s.maxIterations s.threshold s.mu s.useNetwork (N := N) hwf
        (by rw [hlen]; exact hn) g
      refine ⟨h1.bind (fun m1 hm1 => ?_), fun m hm => ?_⟩
      · obtain ⟨m, h3, -⟩ := Deffuant.initializeAgents_safe (h2 m1 hm1).1
        rw [h3, Res.bind_ok]; exact NoUB.ok _
      · obtain ⟨m1, hm1, hm⟩ := Res.bind_eq_ok.mp hm
        obtain ⟨g1, g2⟩ := h2 m1 hm1
        obtain ⟨m2, h3, h4, -, -, -, h5⟩ := Deffuant.initializeAgents_safe g1
        rw [h3, Res.bind_ok] at hm
        cases hm
        refine ⟨h4, ?_⟩
        have := congrArg List.length h5
        simp only [opinions, List.length_map, List.length_range] at this
        exact this.trans (g2.trans hlen)
  | activity s =>
    have hk : kindOf options = .activity := by unfold kindOf; rw [e]
    revert N
    rw [hk]
    intro N hwf hin hlen
    rw [c2 s e N]
    rw [e] at hv
    obtain ⟨m, h1, h2, h3, h4, h5, -⟩ := Activity.create_sound (A := ActivityAgent F) env.math env.rng hv (N := N) hwf hin (by rw [hlen]; exact hn)
      (by rw [hlen]; exact hs.activity s e) g
    rw [h1, Res.bind_ok]
    exact ⟨NoUB.ok _, fun m' h' => by cases h'; exact ⟨h2, h5.trans hlen⟩⟩
  | inertial s =>
    have hk : kindOf options = .inertial := by unfold kindOf; rw [e]
    revert N
    rw [hk]
    intro N hwf hin hlen
    rw [c3 s e N]
    rw [e] at hv
    obtain ⟨m, h1, h2, h3, h4, h5, -⟩ := Activity.create_sound (A := InertialAgent F) env.math env.rng hv.2 (N := N) hwf hin (by rw [hlen]; exact hn)
      (by rw [hlen]; exact hs.inertial s e) g
    rw [h1, Res.bind_ok]
    exact ⟨NoUB.ok _, fun m' h' => by cases h'; exact ⟨h2, h5.trans hlen⟩⟩

/-- `main` constructs the model and runs it. -/
theorem Started.main_eq {n : Nat} (h : Started env args options n) (fuel : Nat) :
    main env args fuel = (do
      let t ← Program.createNetwork env (kindOf options) options args.network (env.seed options.rngSeed)
      let m ← chooseModel env (kindOf options) options t.1 t.2
      let m ← replaceAgents env args.agents m
      let r ← Simulation.run (machine env (kindOf options)) (render env (kindOf options)) options.output fuel m
      .ok r.2) := by
  obtain ⟨doc, hd, hp⟩ := h.config
  unfold main
  rw [hd, Res.bind_ok, hp, Res.bind_ok, h.valid, Res.bind_ok, C56_kind h.matching, Res.bind_ok]
  unfold simulate construct
  cases e : Program.createNetwork env (kindOf options) options args.network (env.seed options.rngSeed) with
  | error f => rfl
  | ok t =>
    show ((do let m ← (do let m ← chooseModel env (kindOf options) options t.1 t.2; replaceAgents env args.agents m); _) : Res _) >>= _ =
      (do let m ← chooseModel env (kindOf options) options t.1 t.2; _)
    cases e' : chooseModel env (kindOf options) options t.1 t.2 with
    | error f => rfl
    | ok m =>
      show ((do let m ← replaceAgents env args.agents m; _) : Res _) >>= _ = (do let m ← replaceAgents env args.agents m; _)
      cases e'' : replaceAgents env args.agents m with
      | error f => rfl
      | ok m' => rfl

/-- C65: whatever network and agents files are given on the command line, the program has no undefined behaviour, for every random outcome, every
floating-point arithmetic, and however long it runs: it returns, goes on, or ends with an exception.  This needs that the files, if they can be read,
describe the same number `n` of agents, that indices in the network file are in range, and that the settings that are not validated make sense. -/
theorem C65_safe {n : Nat} (he : env.Safe) (hd : ∀ s, env.text.stod s ≠ .error .ub) (h : Started env args options n) (hs : SaneFor options n) (fuel : Nat) :
    main env args fuel ≠ .error .ub := by
  rw [h.main_eq fuel]
  obtain ⟨hn1, hn2⟩ := h.createNetwork he hd (env.seed options.rngSeed)
  refine hn1.bind ?_
  rintro ⟨N, g⟩ hN
  obtain ⟨hwf, hin, hlen⟩ := hn2 N g hN
  obtain ⟨hc1, hc2⟩ := chooseModel_sound he h.matching h.validModel.2 hs h.size hwf hin hlen g
  refine hc1.bind (fun m hm => ?_)
  obtain ⟨hS, hml⟩ := hc2 m hm
  have hr : NoUB (replaceAgents env args.agents m) ∧ ∀ m', replaceAgents env args.agents m = .ok m' → Program.Sound m' := by
    cases e : args.agents with
    | none => exact ⟨NoUB.ok _, fun m' h' => by cases h'; exact hS⟩
    | some file =>
      unfold replaceAgents getFileContents
      dsimp only
      cases ef : env.files file with
      | none => exact ⟨NoUB.exn _, fun m' h' => by cases h'⟩
      | some text =>
        dsimp only
        rw [Res.bind_ok]
        refine ⟨(AgentIO.fromFile_noUB (AgentIO.format_noUB hd _) _).bind (fun _ _ => NoUB.ok _), fun m' h' => ?_⟩
        obtain ⟨as, h1, h2⟩ := Res.bind_eq_ok.mp h'
        cases h2
        exact hS.setAgents ((h.agents file text as e ef h1).trans hml.symm)
  refine hr.1.bind (fun m' hm' => ?_)
  refine (run_noUB Program.Sound (fun s hs => hs.reset env) (fun s hs => hs.step he) (fun s hs => hs.wf) _ hs.output.1 hs.output.2 fuel
    (hr.2 m' hm')).bind (fun _ _ => NoUB.ok _)

/-- C65: settings that are not valid make the program end with an exception, before any file is read or written. -/
theorem C65_rejected (hc : ∃ doc, readConfig env args.configFile = .ok doc ∧ Config.parse env.convert env.fresh doc = .ok options)
    (hv : ¬ Valid options) (fuel : Nat) : main env args fuel = .error (.exn "runtime_error") := by
  obtain ⟨doc, hd, hp⟩ := hc
  unfold main
  rw [hd, Res.bind_ok, hp, Res.bind_ok, (C53_validate options (C55_matching hp)).2 hv, Res.bind_error]

/-! ## the conditions are needed -/

/-- The network file of a network with more agents than rows cannot be written. -/
theorem toFile_too_many (T : Text.Double F) {N : Network A F} (hwf : WF N) {l : List A} (h : N.agents.length < l.length) :
    NetworkIO.toFile T ({ N with agents := l } : Network A F) = .error .ub := by
  unfold NetworkIO.toFile
  obtain ⟨c, hc, -⟩ := loop_inv (n := N.agents.length) (f := fun i s => do
      let ns ← Network.getNeighbours ({ N with agents := l } : Network A F) i
      let ws ← Network.getWeights ({ N with agents := l } : Network A F) i
      let row ← NetworkIO.networkRow T (Network.nAgents ({ N with agents := l } : Network A F)) i ns ws
      .ok (s ++ row)) (s := NetworkIO.header) (fun _ _ => True) trivial (by
      intro i t hi _
      unfold Network.getNeighbours Network.getWeights
      rw [rd_lt (by show i < N.neighbours.length; rw [hwf.rows]; exact hi), Res.bind_ok,
        rd_lt (by show i < N.weights.length; rw [hwf.wrows]; exact hi), Res.bind_ok]
      unfold NetworkIO.networkRow
      obtain ⟨c, hc⟩ := weightsText_total T (decide (i = Text.subSz l.length 1)) (N.weights[i]'(by rw [hwf.wrows]; exact hi))
        ((if N.neighbours[i]'(by rw [hwf.rows]; exact hi) = [] then
            Text.padLeft 5 (Text.decimal i) ++ ", ".toList ++ Text.padLeft 5 (Text.decimal (N.neighbours[i]'(by rw [hwf.rows]; exact hi)).length) ++ "\n".toList
          else Text.padLeft 5 (Text.decimal i) ++ ", ".toList ++ Text.padLeft 5 (Text.decimal (N.neighbours[i]'(by rw [hwf.rows]; exact hi)).length) ++ ", ".toList) ++
          (N.neighbours[i]'(by rw [hwf.rows]; exact hi)).flatMap (fun j => Text.padLeft 5 (Text.decimal j) ++ ", ".toList))
      refine ⟨t ++ c, ?_, trivial⟩
      have e : NetworkIO.weightsText T (decide (i = Text.subSz (Network.nAgents ({ N with agents := l } : Network A F)) 1)) _ _ = .ok c := hc
      rw [e, Res.bind_ok])
  refine loop_fail hc ?_ h
  unfold Network.getNeighbours
  have : rd N.neighbours N.agents.length = .error .ub := by
    unfold rd
    rw [List.getElem?_eq_none (by rw [hwf.rows])]
  rw [this, Res.bind_error]

/-- C65: the number of agents in the agents file is not compared with the network.  If the file has more agents than the network and the initial state
is to be written (the default), the program has undefined behaviour before the first iteration, for every model. -/
theorem C65_too_many_agents (hc : ∃ doc, readConfig env args.configFile = .ok doc ∧ Config.parse env.convert env.fresh doc = .ok options)
    (hv : Config.validate options = .ok ()) {N : Network (Agent F (kindOf options)) F} {g : G}
    (hN : Program.createNetwork env (kindOf options) options args.network (env.seed options.rngSeed) = .ok (N, g))
    {m : ModelState F G (kindOf options)} (hm : chooseModel env (kindOf options) options N g = .ok m) (hwf : WF (Program.network m))
    {file : String} {text : List Char} (hf : args.agents = some file) (ht : env.files file = some text) {as : List (Agent F (kindOf options))}
    (ha : AgentIO.fromFile (format env.text (kindOf options)) text = .ok as) (hlen : (Program.network m).agents.length < as.length)
    (ho : options.output.outputInitial = true) (fuel : Nat) : main env args fuel = .error .ub := by
  obtain ⟨doc, hd, hp⟩ := hc
  unfold main
  rw [hd, Res.bind_ok, hp, Res.bind_ok, hv, Res.bind_ok, C56_kind (C55_matching hp), Res.bind_ok]
  have hcon : construct env (kindOf options) options args.network args.agents = .ok (Program.setAgents m as) := by
    unfold construct
    rw [hN]
    show (do let m ← chooseModel env (kindOf options) options N g; replaceAgents env args.agents m) = _
    rw [hm, Res.bind_ok, hf]
    unfold replaceAgents getFileContents
    dsimp only
    rw [ht]
    dsimp only
    rw [Res.bind_ok, ha, Res.bind_ok]
  have hrun : Simulation.run (machine env (kindOf options)) (render env (kindOf options)) options.output fuel (Program.setAgents m as) = .error .ub := by
    have hnet : (machine env (kindOf options)).network (Program.setAgents m as) = { Program.network m with agents := as } :=
      (C56_agents_file env (kindOf options) options none file).2 m as
    unfold Simulation.run initialOutput writeNetwork
    rw [hnet, if_pos ho, toFile_too_many _ hwf hlen]
    rfl
  unfold simulate
  rw [hcon, Res.bind_ok, hrun]
  rfl

/-! ## C66: restarting from saved files -/

/-- "The agents survive text formatting": what C16 assumes, for each agent type. -/
def Spec.Restorable (T : Text.Double F) : (k : AgentKind) → List (Agent F k) → Prop
  | .simple, as => ∀ a ∈ (as : List (SimpleAgent F)), T.Survives a.opinion
  | .activity, as => (∀ a ∈ (as : List (ActivityAgent F)), T.Survives a.opinion ∧ T.Survives a.activity ∧ T.Survives a.reluctance) ∧
      ∀ a ∈ (as : List (ActivityAgent F)), (T.fmt a.opinion).length + (T.fmt a.activity).length + (T.fmt a.reluctance).length < 2 ^ 31
  | .inertial, as => (∀ a ∈ (as : List (InertialAgent F)),
        T.Survives a.opinion ∧ T.Survives a.velocity ∧ T.Survives a.activity ∧ T.Survives a.reluctance) ∧
      ∀ a ∈ (as : List (InertialAgent F)), (T.fmt a.opinion).length + (T.fmt a.velocity).length + (T.fmt a.activity).length +
        (T.fmt a.reluctance).length < 2 ^ 31 - 32
  | .vector, as => (∀ a ∈ (as : List DiscreteVectorAgent), a.opinion ≠ []) ∧
      (∀ a ∈ (as : List DiscreteVectorAgent), ∀ v ∈ a.opinion, -(2 ^ 31) ≤ v ∧ v < 2 ^ 31) ∧
      ∀ a ∈ (as : List DiscreteVectorAgent), (AgentIO.vectorToString a).length + 26 < 2 ^ 31

/-- The agents file given on the command line is one that `agents_to_file` wrote for the agents `as`. -/
def Spec.SavedAgents (env : Env F G) (args : Args) (k : AgentKind) (as : List (Agent F k)) : Prop :=
  ∃ file text, args.agents = some file ∧ env.files file = some text ∧ AgentIO.toFile (format env.text k) as = .ok text ∧ text.length < 2 ^ 64 - 1

/-- The network file given on the command line is one that `network_to_file` wrote for the network `N`. -/
def Spec.SavedNetwork (env : Env F G) (args : Args) (N : Network A F) : Prop :=
  ∃ file text, args.network = some file ∧ env.files file = some text ∧ NetworkIO.toFile env.text N = .ok text ∧ text.length < 2 ^ 64 - 1

/-- A network that `network_to_file` and `generate_from_file` transport (C15). -/
structure Spec.Transportable (T : Text.Double F) (N : Network A F) : Prop where
  wf : WF N
  size : N.agents.length < 2 ^ 31
  rows : ∀ row ∈ N.neighbours, row.length < 2 ^ 31
  weights : ∀ ws ∈ N.weights, ∀ w ∈ ws, T.Survives w

theorem Restorable_read {T : Text.Double F} (hT : T.Lawful) : ∀ {k : AgentKind} {as : List (Agent F k)} (_ : Restorable T k as) {text : List Char}
    (_ : AgentIO.toFile (format T k) as = .ok text) (_ : text.length < 2 ^ 64 - 1), AgentIO.fromFile (format T k) text = .ok as := by
  intro k as h text ht hl
  cases k with
  | simple => obtain ⟨t, h1, h2⟩ := C16_simple hT as h; obtain rfl := Except.ok.inj (h1.symm.trans ht); exact h2 hl
  | activity => obtain ⟨t, h1, h2⟩ := C16_activity hT as h.1 h.2; obtain rfl := Except.ok.inj (h1.symm.trans ht); exact h2 hl
  | inertial => obtain ⟨t, h1, h2⟩ := C16_inertial hT as h.1 h.2; obtain rfl := Except.ok.inj (h1.symm.trans ht); exact h2 hl
  | vector => obtain ⟨t, h1, h2⟩ := C16_vector_partial as h.1 h.2.1 h.2.2; obtain rfl := Except.ok.inj (h1.symm.trans ht); exact h2 hl

theorem Spec.Transportable.read [Inhabited A] {T : Text.Double F} (hT : T.Lawful) {N : Network A F} (h : Transportable T N) {text : List Char}
    (ht : NetworkIO.toFile T N = .ok text) (hl : text.length < 2 ^ 64 - 1) :
    NetworkIO.fromFile (A := A) T text = .ok ⟨List.replicate N.agents.length default, N.neighbours, N.weights, .incoming⟩ := by
  obtain ⟨t, h1, h2⟩ := C15_network_round_trip (A := A) hT h.wf (by have := h.size; omega) h.rows h.weights
  obtain rfl := Except.ok.inj (h1.symm.trans ht)
  obtain ⟨N', g1, g2, g3, g4, g5⟩ := h2 hl
  rw [g1]
  obtain ⟨a, b, c, d⟩ := N'
  simp only at g2 g3 g4 g5
  rw [g2, g3, g4, g5]

/-- The model keeps the edges of the network it is given: DeGroot; Deffuant without `use_network`; activity-driven without `mean_weights`. -/
def Spec.KeepsEdges (options : Config.Options F) : Prop :=
  match options.settings with
  | .deGroot _ => True
  | .deffuant s => s.useNetwork = false
  | .activity s => s.meanWeights = false
  | .inertial s => s.base.meanWeights = false

/-- Such a model is created with the edges of the network. -/
theorem chooseModel_edges (he : env.Safe) (hm : Matching options) (hv : ValidModel options.settings) {n : Nat} (hs : SaneFor options n)
    (hk : KeepsEdges options) {N : Network (Agent F (kindOf options)) F} (hwf : WF N) (hin : N.direction = .incoming) (hlen : N.agents.length = n) (g : G) :
    ∃ m, chooseModel env (kindOf options) options N g = .ok m ∧ (Program.network m).neighbours = N.neighbours ∧
      (Program.network m).weights = N.weights ∧ (Program.network m).direction = .incoming := by
  obtain ⟨c1, c2, c3, c4, c5⟩ := C56_compatible env options hm g
  unfold KeepsEdges at hk
  cases e : options.settings with
  | deGroot s =>
    have hk : kindOf options = .simple := by unfold kindOf; rw [e]
    revert N
    rw [hk]
    intro N hwf hin hlen
    rw [c1 s e N]
    obtain ⟨m, comps, -, h1, h2, h3, h4, h5, h6, -⟩ := C29_constructor (N := N) hwf s.maxIterations s.tol
    rw [h1, Res.bind_ok]
    exact ⟨_, rfl, h3, h4, h5.trans hin⟩
  | deffuant s =>
    rw [e] at hk
    have hu : s.useNetwork = false := hk
    by_cases hb : s.useBinaryVector = true
    · have hk : kindOf options = .vector := by unfold kindOf; rw [e]; simp [hb]
      revert N
      rw [hk]
      intro N hwf hin hlen
      rw [c5 s e hb N, hu]
      have hN : Deffuant.create (A := DiscreteVectorAgent) env.isqrt s.maxIterations s.threshold s.mu false N g = _ := C38_plain ..
      rw [hN, Res.bind_ok]
      obtain ⟨m, h3, hF, -⟩ := Deffuant.initializeVectors_ok he.rng s.dim
        (⟨⟨s.maxIterations.map Network.toSize, 0⟩, s.threshold, s.mu, false, N, g⟩ : Deffuant DiscreteVectorAgent F G)
      rw [h3, Res.bind_ok]
      exact ⟨_, rfl, hF.neighbours, hF.weights, hF.direction.trans hin⟩
    · have hb : s.useBinaryVector = false := by simpa using hb
      have hk : kindOf options = .simple := by unfold kindOf; rw [e]; simp [hb]
      revert N
      rw [hk]
      intro N hwf hin hlen
      rw [c4 s e hb N, hu]
      have hN : Deffuant.create (A := SimpleAgent F) env.isqrt s.maxIterations s.threshold s.mu false N g = _ := C38_plain ..
      rw [hN, Res.bind_ok]
      unfold Deffuant.initializeAgents
      rw [DeGroot.spread_eq, Res.bind_ok, Res.bind_ok]
      exact ⟨_, rfl, rfl, rfl, hin⟩
  | activity s =>
    rw [e] at hk hv
    have hmw : s.meanWeights = false := hk
    have hk : kindOf options = .activity := by unfold kindOf; rw [e]
    revert N
    rw [hk]
    intro N hwf hin hlen
    rw [c2 s e N]
    have hN := Activity.create_eq (A := ActivityAgent F) env.math env.rng (p := s) (N := N) g (by rw [hlen]; exact (hs.activity s e).bots) hv.botOpinion hv.botActivity
    rw [hN, Res.bind_ok]
    refine ⟨_, rfl, ?_, ?_, ?_⟩ <;> simp only [Program.network, hmw, Bool.false_eq_true, if_false]
    exact hin
  | inertial s =>
    rw [e] at hk hv
    have hmw : s.base.meanWeights = false := hk
    have hk : kindOf options = .inertial := by unfold kindOf; rw [e]
    revert N
    rw [hk]
    intro N hwf hin hlen
    rw [c3 s e N]
    have hN := Activity.create_eq (A := InertialAgent F) env.math env.rng (p := s.base) (N := N) g (by rw [hlen]; exact (hs.inertial s e).bots)
      hv.2.botOpinion hv.2.botActivity
    rw [hN, Res.bind_ok]
    refine ⟨_, rfl, ?_, ?_, ?_⟩ <;> simp only [Program.network, hmw, Bool.false_eq_true, if_false]
    exact hin

/-- C66: started with the files that `network_to_file` and `agents_to_file` wrote for a network (with numbers that survive formatting), the program
begins exactly with this network: same agents, same edges, same weights.  For every model that keeps the edges of its network, and every
floating-point arithmetic. -/
theorem C66_restart (he : env.Safe) (hT : env.text.Lawful)
    (hc : ∃ doc, readConfig env args.configFile = .ok doc ∧ Config.parse env.convert env.fresh doc = .ok options)
    (hv : Config.validate options = .ok ()) (hk : KeepsEdges options) {N : Network (Agent F (kindOf options)) F} (hN : Transportable env.text N)
    (ha : Restorable env.text (kindOf options) N.agents) (hs : SaneFor options N.agents.length) (h1 : SavedNetwork env args N)
    (h2 : SavedAgents env args (kindOf options) N.agents) :
    ∃ m, construct env (kindOf options) options args.network args.agents = .ok m ∧ Program.Sound m ∧
      Program.network m = { N with direction := .incoming } ∧
      ∀ fuel, main env args fuel =
        (Simulation.run (machine env (kindOf options)) (render env (kindOf options)) options.output fuel m).map (·.2) := by
  obtain ⟨nf, nt, e1, e2, e3, e4⟩ := h1
  obtain ⟨af, at', a1, a2, a3, a4⟩ := h2
  have hread := hN.read hT e3 e4
  have haread := Restorable_read hT ha a3 a4
  obtain ⟨doc, hd, hp⟩ := hc
  have hm := C55_matching hp
  have hvm := ((C53_validate options hm).1.mp hv).2
  have hcn : Program.createNetwork env (kindOf options) options args.network (env.seed options.rngSeed) =
      .ok (⟨List.replicate N.agents.length default, N.neighbours, N.weights, .incoming⟩, env.seed options.rngSeed) := by
    rw [e1, (C56_network_file env (kindOf options) options _).1 nf nt e2, hread, Res.bind_ok]
  have hwf : WF (⟨List.replicate N.agents.length default, N.neighbours, N.weights, .incoming⟩ : Network (Agent F (kindOf options)) F) :=
    ⟨by simpa using hN.wf.rows, by simpa using hN.wf.wrows, hN.wf.lengths, by simpa using hN.wf.range⟩
  obtain ⟨m, g1, g2, g3, g4⟩ := chooseModel_edges he hm hvm hs hk hwf rfl (by simp) (env.seed options.rngSeed)
  obtain ⟨hS, hl⟩ := (chooseModel_sound he hm hvm hs hN.size hwf rfl (by simp) (env.seed options.rngSeed)).2 m g1
  have hcon : construct env (kindOf options) options args.network args.agents = .ok (Program.setAgents m N.agents) := by
    unfold construct
    rw [hcn]
    show (do let m ← chooseModel env (kindOf options) options _ _; replaceAgents env args.agents m) = _
    rw [g1, Res.bind_ok, a1]
    unfold replaceAgents getFileContents
    dsimp only
    rw [a2]
    dsimp only
    rw [Res.bind_ok, haread, Res.bind_ok]
  refine ⟨_, hcon, hS.setAgents hl.symm, ?_, fun fuel => ?_⟩
  · rw [(C56_agents_file env (kindOf options) options none af).2 m N.agents, g2.symm, g3.symm, g4.symm]
  · unfold main
    rw [hd, Res.bind_ok, hp, Res.bind_ok, hv, Res.bind_ok, C56_kind hm, Res.bind_ok]
    unfold simulate
    rw [hcon, Res.bind_ok]
    cases Simulation.run (machine env (kindOf options)) (render env (kindOf options)) options.output fuel (Program.setAgents m N.agents) <;> rfl

/-- Two DeGroot models with the same network stay equal. -/
theorem DeGroot.same_networks {s t s' t' : DeGroot F} (hs : s.Ready) (ht : t.Ready) (h : s.network = t.network) (h1 : s.iteration = .ok s')
    (h2 : t.iteration = .ok t') : s'.network = t'.network := by
  obtain ⟨s1, e1, -, b1, c1, d1, l1, o1⟩ := C29_iteration hs
  obtain ⟨t1, e2, -, b2, c2, d2, l2, o2⟩ := C29_iteration ht
  obtain rfl := Except.ok.inj (e1.symm.trans h1)
  obtain rfl := Except.ok.inj (e2.symm.trans h2)
  have hag : s1.network.agents = t1.network.agents := by
    apply List.ext_getElem (by rw [l1, l2, h])
    intro i g1 g2
    have h1 := o1 i (by omega)
    have h2 := o2 i (by omega)
    rw [h, ← h2] at h1
    unfold opinionOf opinions at h1
    rw [getD_lt _ _ (by simpa using g1), getD_lt _ _ (by simpa using g2), List.getElem_map, List.getElem_map] at h1
    cases ea : s1.network.agents[i]; cases eb : t1.network.agents[i]
    rw [ea, eb] at h1
    simpa using h1
  rw [h] at b1 c1 d1
  cases e : s1.network; cases e' : t1.network
  simp only [e, e'] at hag b1 c1 d1 b2 c2 d2
  rw [hag, b1, c1, d1, b2, c2, d2]

/-- C66, DeGroot: take any completed run and the state it was in after any `j` iterations.  A run that is started from the files of this state goes through
exactly the states that the first run went through after it, as long as both go on (the iteration limit and the tolerance may be different); for every
floating-point arithmetic. -/
theorem C66_continue {s : Config.DeGrootSettings F} {fuel : Nat} {tr : List FileWrite} (he : env.Safe) (hT : env.text.Lawful)
    (h : Accepted env args options) (hs : options.settings = .deGroot s) (hmain : main env args fuel = .ok tr) :
    ∃ (K : Nat) (N : Nat → Network (SimpleAgent F) F), List.Forall₂ (Fulfils (render env .simple)) tr (wanted options.output N K) ∧
      ∀ j, j ≤ K → Transportable env.text (N j) → Restorable env.text .simple (N j).agents →
      ∀ (env' : Env F G) (args' : Args) (options' : Config.Options F) (s' : Config.DeGrootSettings F) (fuel' : Nat) (tr' : List FileWrite),
        env'.Safe → env'.text = env.text → (∃ doc, readConfig env' args'.configFile = .ok doc ∧ Config.parse env'.convert env'.fresh doc = .ok options') →
        Config.validate options' = .ok () → options'.settings = .deGroot s' → SavedNetwork env' args' (N j) →
        SavedAgents env' args' .simple (N j).agents → main env' args' fuel' = .ok tr' →
        ∃ (K' : Nat) (N' : Nat → Network (SimpleAgent F) F), List.Forall₂ (Fulfils (render env' .simple)) tr' (wanted options'.output N' K') ∧
          ∀ i, i ≤ K' → j + i ≤ K → N' i = N (j + i) := by
  obtain ⟨N0, g, m, hN0, hr, -, -, -, hlen, -, hnb, hnw, hin, hm⟩ := h.deGroot_safe he hs
  rw [hm] at hmain
  obtain ⟨⟨m1, tr1⟩, hrun, rfl⟩ : ∃ t, Simulation.run DeGroot.machine (render env .simple) options.output fuel m = .ok t ∧ t.2 = tr := by
    cases e : Simulation.run DeGroot.machine (render env .simple) options.output fuel m with
    | error f => rw [e] at hmain; cases hmain
    | ok t => rw [e] at hmain; cases hmain; exact ⟨t, rfl, rfl⟩
  obtain ⟨K, st, hrun, -, -, hfiles⟩ := C52_files (M := DeGroot.machine) DeGroot.counts (fun _ => rfl) hrun
  have hready : ∀ k, k ≤ K → (st k).Ready := fun k hk => (DeGroot.iterates_ready (IsRun.iterates hrun k hk) hr.reset).1
  have hdir : ∀ k, k ≤ K → (st k).network.direction = .incoming := by
    intro k
    induction k with
    | zero => intro _; rw [hrun.start]; exact hin
    | succ k ih =>
      intro hk
      obtain ⟨t, ht, -, -, -, hd, -⟩ := C29_iteration (hready k (by omega))
      obtain rfl := Except.ok.inj (ht.symm.trans (hrun.step k (by omega)))
      exact hd.trans (ih (by omega))
  refine ⟨K, fun k => (st k).network, hfiles, ?_⟩
  intro j hj hTr hRe env' args' options' s' fuel' tr' he' htext hc hv hs' hSN hSA hmain'
  have hk' : kindOf options' = .simple := by unfold kindOf; rw [hs']
  obtain ⟨m', hr', hnet', hm'⟩ : ∃ m' : DeGroot F, m'.Ready ∧ m'.network = (st j).network ∧
      ∀ fuel, main env' args' fuel = (Simulation.run DeGroot.machine (render env' .simple) options'.output fuel m').map (·.2) := by
    obtain ⟨nf, nt, e1, e2, e3, e4⟩ := hSN
    obtain ⟨af, at', a1, a2, a3, a4⟩ := hSA
    rw [← htext] at hTr hT hRe
    have hread := hTr.read hT e3 e4
    have haread := Restorable_read hT hRe a3 a4
    obtain ⟨doc, hd, hp⟩ := hc
    have hm := C55_matching hp
    have hwf : WF (⟨List.replicate (st j).network.agents.length default, (st j).network.neighbours, (st j).network.weights, .incoming⟩ :
        Network (SimpleAgent F) F) :=
      ⟨by simpa using hTr.wf.rows, by simpa using hTr.wf.wrows, hTr.wf.lengths, by simpa using hTr.wf.range⟩
    obtain ⟨m, comps, -, h1, h2, h3, h4, h5, h6, -⟩ := C29_constructor hwf s'.maxIterations s'.tol
    have hl : (st j).network.agents.length = m.network.agents.length := by rw [h6]; simp
    refine ⟨{ m with network := { m.network with agents := (st j).network.agents } }, ⟨WF.agents h2.wf hl, by
      show m.copy.length = (st j).network.agents.length; rw [hl]; exact h2.copy⟩, ?_, fun fuel => ?_⟩
    · have hd := hdir j hj
      simp only [h3, h4, h5]
      rw [← hd]
    · unfold main
      rw [hd, Res.bind_ok, hp, Res.bind_ok, hv, Res.bind_ok, C56_kind hm, Res.bind_ok, hk']
      have hcn : Program.createNetwork env' .simple options' args'.network (env'.seed options'.rngSeed) =
          .ok (⟨List.replicate (st j).network.agents.length default, (st j).network.neighbours, (st j).network.weights, .incoming⟩,
            env'.seed options'.rngSeed) := by
        rw [e1, (C56_network_file env' .simple options' _).1 nf nt e2]
        show (do let N ← NetworkIO.fromFile (A := SimpleAgent F) env'.text nt; _) = _
        rw [hread]
        exact Res.bind_ok _ _
      have hcm := (C56_compatible env' options' hm (env'.seed options'.rngSeed)).1 s' hs'
        ⟨List.replicate (st j).network.agents.length default, (st j).network.neighbours, (st j).network.weights, .incoming⟩
      rw [h1, Res.bind_ok] at hcm
      have hcon : construct env' .simple options' args'.network args'.agents =
          .ok (.deGroot { m with network := { m.network with agents := (st j).network.agents } }) := by
        unfold construct
        rw [hcn]
        show (do let m ← chooseModel env' .simple options' _ _; replaceAgents env' args'.agents m) = _
        rw [hcm, Res.bind_ok, a1]
        unfold replaceAgents getFileContents
        dsimp only
        rw [a2]
        dsimp only
        rw [Res.bind_ok, haread, Res.bind_ok]
        rfl
      unfold simulate
      rw [hcon, Res.bind_ok, (embeds_deGroot env').run]
      cases Simulation.run DeGroot.machine (render env' .simple) options'.output fuel
        { m with network := { m.network with agents := (st j).network.agents } } <;> rfl
  rw [hm'] at hmain'
  obtain ⟨⟨m2, tr2⟩, hrun', rfl⟩ : ∃ t, Simulation.run DeGroot.machine (render env' .simple) options'.output fuel' m' = .ok t ∧ t.2 = tr' := by
    cases e : Simulation.run DeGroot.machine (render env' .simple) options'.output fuel' m' with
    | error f => rw [e] at hmain'; cases hmain'
    | ok t => rw [e] at hmain'; cases hmain'; exact ⟨t, rfl, rfl⟩
  obtain ⟨K', st', hrun', -, -, hfiles'⟩ := C52_files (M := DeGroot.machine) DeGroot.counts (fun _ => rfl) hrun'
  have hready' : ∀ k, k ≤ K' → (st' k).Ready := fun k hk => (DeGroot.iterates_ready (IsRun.iterates hrun' k hk) hr'.reset).1
  refine ⟨K', fun k => (st' k).network, hfiles', ?_⟩
  intro i
  induction i with
  | zero =>
    intro _ _
    show (st' 0).network = (st (j + 0)).network
    rw [hrun'.start]
    exact hnet'
  | succ i ih =>
    intro hi hji
    exact DeGroot.same_networks (hready' i (by omega)) (hready (j + i) (by omega)) (ih (by omega) (by omega)) (hrun'.step i (by omega))
      (hrun.step (j + i) (by omega))

end

/-! ## concrete cases -/

/-- Rational numbers, of which the integers survive text formatting. -/
def ratText : Text.Double ℚ := ⟨fun q => Text.fmtInt q.num, fun s => Except.map (fun i : Int => (i : ℚ)) (Text.stoi s)⟩

theorem ratText_lawful : ratText.Lawful where
  blank s := by show Except.map _ (Text.stoi _) = _; rw [Text.stoi_blank]; rfl
  comma s r _ := by show Except.map _ (Text.stoi _) = _; rw [Text.stoi_comma]; rfl

theorem ratText_survives {i : Int} (h1 : -(2 ^ 31) ≤ i) (h2 : i < 2 ^ 31) : ratText.Survives (i : ℚ) where
  clean c hc := Text.fmtInt_mem (i := i) (by simpa [ratText] using hc)
  read := by
    show Except.map _ (Text.stoi (Text.fmtInt ((i : ℚ).num))) = _
    rw [Rat.num_intCast, Text.stoi_fmtInt h1 h2]; rfl

/-- The sample environment with three files. -/
def Env.withFiles (doc : Config.Doc ℚ) (net agents : List Char) : Env ℚ Nat :=
  { Env.sample doc with
    text := ratText
    files := fun f => if f = "conf.toml" then some [] else if f = "net.txt" then some net else if f = "agents.txt" then some agents else none }

theorem Env.withFiles_safe (doc : Config.Doc ℚ) (net agents : List Char) : (Env.withFiles doc net agents).Safe :=
  ⟨(Env.sample_lawful doc).safe.rng, (Env.sample_lawful doc).safe.pick, (Env.sample_lawful doc).safe.isqrt⟩

/-- The command line. -/
def fileArgs : Args := ⟨"conf.toml", none, some "agents.txt", some "net.txt"⟩

/-- Three agents. -/
def savedNet : Network (SimpleAgent ℚ) ℚ where
  agents := [⟨5⟩, ⟨-6⟩, ⟨7⟩]
  neighbours := [[1], [0, 2], []]
  weights := [[1], [2, -1], []]
  direction := .incoming

def savedNetText : List Char := "# three agents\n0, 1, 1, 1\n1, 2, 0, 2, 2, -1\n2, 0".toList
def savedAgentsText : List Char := "# idx, opinion\n0, 5\n1, -6\n2, 7\n".toList

theorem savedNet_wf : WF savedNet := ⟨rfl, rfl, by decide, by decide⟩

theorem savedNet_read : NetworkIO.fromFile (A := SimpleAgent ℚ) ratText savedNetText = .ok { savedNet with agents := [⟨0⟩, ⟨0⟩, ⟨0⟩] } := by
  decide +kernel

theorem savedAgents_read : AgentIO.fromFile (AgentIO.simple ratText) savedAgentsText = .ok savedNet.agents := by decide +kernel

-- the hypotheses of C65_safe are met: three agents come from the files although the configuration says four
example (fuel : Nat) : main (Env.withFiles Config.deGrootDoc savedNetText savedAgentsText) fileArgs fuel ≠ .error .ub := by
  have h : Started (Env.withFiles Config.deGrootDoc savedNetText savedAgentsText) fileArgs Config.deGrootOptions 3 := by
    refine ⟨⟨_, rfl, by with_unfolding_all rfl⟩, by decide +kernel, by decide, (by intro h; cases h), ?_, ?_⟩
    · intro file text N h1 h2 h3
      cases h1
      obtain rfl : savedNetText = text := Option.some.inj h2
      have h4 : NetworkIO.fromFile (A := SimpleAgent ℚ) ratText savedNetText = .ok N := h3
      rw [savedNet_read] at h4
      cases h4
      exact ⟨⟨rfl, rfl, by decide, by decide⟩, rfl⟩
    · intro file text as h1 h2 h3
      cases h1
      obtain rfl : savedAgentsText = text := Option.some.inj h2
      have h4 : AgentIO.fromFile (AgentIO.simple ratText) savedAgentsText = .ok as := h3
      rw [savedAgents_read] at h4
      cases h4
      rfl
  refine C65_safe (Env.withFiles_safe _ _ _) (fun s => ?_) h ⟨⟨by decide, by decide⟩, fun s hs => (by cases hs), fun s hs => (by cases hs)⟩ fuel
  exact NoUB.map _ (Text.stoi_noUB s)

-- an agents file with four agents for this network: the hypotheses of C65_too_many_agents are met
example (fuel : Nat) : main (Env.withFiles Config.deGrootDoc savedNetText "0, 1\n1, 2\n2, 3\n3, 4".toList) fileArgs fuel = .error .ub := by
  have hwf : WF ({ savedNet with agents := [⟨0⟩, ⟨0⟩, ⟨0⟩] } : Network (SimpleAgent ℚ) ℚ) := ⟨rfl, rfl, by decide, by decide⟩
  obtain ⟨m, comps, -, h1, h2, -, -, -, h6, -⟩ := C29_constructor hwf (some 3) 1
  have ha : AgentIO.fromFile (AgentIO.simple ratText) "0, 1\n1, 2\n2, 3\n3, 4".toList = .ok [⟨1⟩, ⟨2⟩, ⟨3⟩, ⟨4⟩] := by decide +kernel
  have hN : Program.createNetwork (Env.withFiles Config.deGrootDoc savedNetText "0, 1\n1, 2\n2, 3\n3, 4".toList) .simple Config.deGrootOptions
      (some "net.txt") 7 = .ok ({ savedNet with agents := [⟨0⟩, ⟨0⟩, ⟨0⟩] }, 7) := by
    rw [(C56_network_file _ .simple Config.deGrootOptions _).1 "net.txt" savedNetText rfl]
    show (do let N ← NetworkIO.fromFile (A := SimpleAgent ℚ) ratText savedNetText; _) = _
    rw [savedNet_read]
    exact Res.bind_ok _ _
  have hm : chooseModel (Env.withFiles Config.deGrootDoc savedNetText "0, 1\n1, 2\n2, 3\n3, 4".toList) .simple Config.deGrootOptions
      ({ savedNet with agents := [⟨0⟩, ⟨0⟩, ⟨0⟩] } : Network (SimpleAgent ℚ) ℚ) 7 = .ok (.deGroot m) := by
    rw [(C56_compatible (Env.withFiles Config.deGrootDoc savedNetText "0, 1\n1, 2\n2, 3\n3, 4".toList) Config.deGrootOptions trivial 7).1 ⟨some 3, 1⟩ rfl _]
    rw [h1, Res.bind_ok]
  refine C65_too_many_agents (options := Config.deGrootOptions) (args := fileArgs) ⟨_, rfl, by with_unfolding_all rfl⟩ (by decide +kernel) hN hm h2.wf
    (file := "agents.txt") rfl rfl ha ?_ rfl fuel
  show m.network.agents.length < 4
  rw [h6]
  decide

-- invalid settings: `start_output = 0`
example (fuel : Nat) : main (Env.sample (fun s k => if s = "io" ∧ k = "start_output" then some (.int 0) else Config.deGrootDoc s k))
    ⟨"conf.toml", none, none, none⟩ fuel = .error (.exn "runtime_error") :=
  C65_rejected (options := { Config.deGrootOptions with output := { Config.deGrootOptions.output with startOutput := 0 } })
    ⟨_, rfl, by with_unfolding_all rfl⟩ (fun h => absurd h.1 (by decide)) fuel

theorem savedNet_transportable : Transportable ratText savedNet where
  wf := savedNet_wf
  size := by decide
  rows := by decide
  weights := by
    intro ws hws w hw
    have : w = ((1 : Int) : ℚ) ∨ w = ((2 : Int) : ℚ) ∨ w = ((-1 : Int) : ℚ) := by
      simp [savedNet] at hws
      rcases hws with rfl | rfl | rfl <;> simp at hw
      · simp [hw]
      · rcases hw with rfl | rfl <;> simp
    rcases this with rfl | rfl | rfl <;> exact ratText_survives (by decide) (by decide)

theorem savedNet_restorable : Restorable ratText .simple savedNet.agents := by
  intro a ha
  have : a.opinion = ((5 : Int) : ℚ) ∨ a.opinion = ((-6 : Int) : ℚ) ∨ a.opinion = ((7 : Int) : ℚ) := by
    simp [savedNet] at ha
    rcases ha with rfl | rfl | rfl <;> simp
  rcases this with h | h | h <;> rw [h] <;> exact ratText_survives (by decide) (by decide)

-- the hypotheses of C66_restart are met
example : ∃ net agents, ∃ m, construct (Env.withFiles Config.deGrootDoc net agents) .simple Config.deGrootOptions (some "net.txt") (some "agents.txt") = .ok m ∧
    Program.network m = savedNet := by
  obtain ⟨net, hn⟩ := network_toFile_total ratText savedNet_wf
  obtain ⟨agents, ha⟩ := agents_toFile_total (AgentIO.simple ratText) savedNet.agents
  have hn' : net.length < 2 ^ 64 - 1 := by
    have : (NetworkIO.toFile ratText savedNet).map (fun t => decide (t.length < 2 ^ 64 - 1)) = .ok true := by decide +kernel
    rw [hn] at this
    simpa [Except.map] using this
  have ha' : agents.length < 2 ^ 64 - 1 := by
    have : (AgentIO.toFile (AgentIO.simple ratText) savedNet.agents).map (fun t => decide (t.length < 2 ^ 64 - 1)) = .ok true := by decide +kernel
    rw [ha] at this
    simpa [Except.map] using this
  obtain ⟨m, h1, -, h2, -⟩ := C66_restart (env := Env.withFiles Config.deGrootDoc net agents) (args := fileArgs) (options := Config.deGrootOptions)
    (Env.withFiles_safe _ _ _) ratText_lawful ⟨_, rfl, by with_unfolding_all rfl⟩ (by decide +kernel) trivial
    (N := savedNet) savedNet_transportable savedNet_restorable ⟨⟨by decide, by decide⟩, fun s hs => (by cases hs), fun s hs => (by cases hs)⟩
    ⟨"net.txt", net, rfl, rfl, hn, hn'⟩ ⟨"agents.txt", agents, rfl, rfl, ha, ha'⟩
  exact ⟨net, agents, m, h1, h2⟩

end Seldon
