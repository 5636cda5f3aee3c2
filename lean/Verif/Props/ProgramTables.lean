import Verif.Props.Tables
import Verif.Props.Files
import Verif.Props.RunActivity
/-!
# Property C112: every file a program writes is complete
-/
set_option linter.unusedSectionVars false
namespace Seldon
open Spec Simulation Program NetworkGen Tables
variable {F G A S : Type}

section
variable [Zero F] [One F]

/-- The columns of the file of agents. -/
def Spec.agentColumns : AgentKind → List (List Char)
  | .simple => words ["# idx_agent", "opinion"]
  | .activity => words ["# idx_agent", "opinion", "activity", "reluctance"]
  | .inertial => words ["# idx_agent", "opinion", "velocity", "activity", "reluctance"]
  | .vector => words ["# idx_agent", "agent_data[...]"]

/-- The cells of an agent after its index. -/
def Spec.agentCells (fmt : F → List Char) : (k : AgentKind) → Agent F k → List (List Char)
  | .simple, (a : SimpleAgent F) => [fmt a.opinion]
  | .activity, (a : ActivityAgent F) => [fmt a.opinion, fmt a.activity, fmt a.reluctance]
  | .inertial, (a : InertialAgent F) => [fmt a.opinion, fmt a.velocity, fmt a.activity, fmt a.reluctance]
  | .vector, (a : DiscreteVectorAgent) => if a.opinion = [] then [[]] else a.opinion.map numeral

/-- The complete table of the agents. -/
def Spec.agentRows (fmt : F → List Char) (k : AgentKind) (agents : List (Agent F k)) : List (List (List Char)) :=
  agentColumns k :: agents.mapIdx (fun i a => numeral i :: agentCells fmt k a)

/-- The complete table of the network. -/
def Spec.networkRows (fmt : F → List Char) (N : Network A F) : List (List (List Char)) :=
  words ["# idx_agent", "n_neighbours_in", "indices_neighbours_in[...]", "weights_in[...]"] ::
    (List.range N.agents.length).map (fun i : Nat => numeral i :: numeral (N.neighbours.getD i []).length ::
      ((N.neighbours.getD i []).map (fun j : Nat => numeral j) ++ (N.weights.getD i []).map fmt))

theorem Tables.agents_file (T : Text.Double F) (hT : ∀ x, Plain (T.fmt x)) (k : AgentKind) (agents : List (Agent F k)) {text : List Char}
    (h : AgentIO.toFile (format T k) agents = .ok text) : table text = agentRows T.fmt k agents := by
  cases k with
  | simple => obtain ⟨t, h1, h2⟩ := C110_simple T agents (fun a _ => hT _); obtain rfl := Except.ok.inj (h1.symm.trans h); exact h2
  | activity => obtain ⟨t, h1, h2⟩ := C110_activity T agents (fun a _ => ⟨hT _, hT _, hT _⟩); obtain rfl := Except.ok.inj (h1.symm.trans h); exact h2
  | inertial => obtain ⟨t, h1, h2⟩ := C110_inertial T agents (fun a _ => ⟨hT _, hT _, hT _, hT _⟩); obtain rfl := Except.ok.inj (h1.symm.trans h); exact h2
  | vector => obtain ⟨t, h1, h2⟩ := C110_vector agents; obtain rfl := Except.ok.inj (h1.symm.trans h); exact h2

end

/-- Every file written is rendered from a network with a given property. -/
def Spec.Rendered (R : Render A F) (J : Network A F → Prop) (w : FileWrite) : Prop :=
  ∃ number N, J N ∧ ((w.name = fileName .opinions number ∧ AgentIO.toFile R.agents N.agents = .ok w.contents) ∨
    (w.name = fileName .network number ∧ NetworkIO.toFile R.text N = .ok w.contents))

theorem rendered_of {R : Render A F} {J : Network A F → Prop} {ws : List FileWrite} {qs : List (Wanted A F)} (h : List.Forall₂ (Fulfils R) ws qs)
    (hq : ∀ q ∈ qs, J q.net) : ∀ w ∈ ws, Rendered R J w := by
  induction h with
  | nil => intro w hw; cases hw
  | @cons w q ws qs h1 _ ih =>
    intro w' hw'
    rcases List.mem_cons.mp hw' with rfl | hw'
    · refine ⟨q.number, q.net, hq q (by simp), ?_⟩
      obtain ⟨h2, h3⟩ := h1
      cases hk : q.kind with
      | opinions => rw [hk] at h2 h3; exact Or.inl ⟨h2, h3⟩
      | network => rw [hk] at h2 h3; exact Or.inr ⟨h2, h3⟩
    · exact ih (fun q hq' => hq q (List.mem_cons_of_mem _ hq')) w' hw'

/-- Along a run with an invariant `I`, every file is rendered from the network of a state with `I`. -/
theorem run_rendered {M : Machine A F S} (I : S → Prop) (J : Network A F → Prop) (keep : ∀ s, I s → I (M.reset s))
    (step : ∀ s, I s → ∀ t, M.iteration s = .ok t → I t) (net : ∀ s, I s → J (M.network s)) (R : Render A F) (o : OutputSettings)
    (fuel : Nat) {s : S} (hs : I s) {r : S × List FileWrite} (h : Simulation.run M R o fuel s = .ok r) : ∀ w ∈ r.2, Rendered R J w := by
  have key : ∀ (fuel : Nat) (s : S) (tr : List FileWrite), I s → (∀ w ∈ tr, Rendered R J w) → ∀ r, Simulation.runLoop M R o fuel (s, tr) = .ok r →
      ∀ w ∈ r.2, Rendered R J w := by
    intro fuel
    induction fuel with
    | zero =>
      intro s tr _ htr r h
      unfold Simulation.runLoop at h
      split at h
      · cases h; exact htr
      · cases h
    | succ fuel ih =>
      intro s tr hs htr r h
      unfold Simulation.runLoop at h
      split at h
      · cases h; exact htr
      · obtain ⟨t, ht, h⟩ := Res.bind_eq_ok.mp h
        obtain ⟨tr', htr', h⟩ := Res.bind_eq_ok.mp h
        have hI := step s hs t ht
        obtain ⟨ws, h1, h2⟩ := output_ok htr'
        refine ih t tr' hI (fun w hw => ?_) r h
        rw [h1] at hw
        rcases List.mem_append.mp hw with hw | hw
        · exact htr w hw
        · refine rendered_of h2 (fun q hq => ?_) w hw
          unfold wantedAt at hq
          rcases List.mem_append.mp hq with hq | hq <;> split at hq <;>
            first | (rw [List.mem_singleton.mp hq]; exact net t hI) | exact absurd hq (by simp)
  unfold Simulation.run at h
  obtain ⟨tr0, h0, h⟩ := Res.bind_eq_ok.mp h
  refine key fuel _ tr0 (keep s hs) (rendered_of (initialOutput_ok h0) (fun q hq => ?_)) r h
  unfold wantedInitially at hq
  split at hq
  · rcases List.mem_cons.mp hq with rfl | hq
    · exact net s hs
    · rw [List.mem_singleton.mp hq]; exact net s hs
  · cases hq

section
variable [Zero F] [One F] [Sub F] [Mul F] [Add F] [Div F] [Neg F] [NatCast F] [IntCast F] [LT F] [LE F] [DecidableLT F] [DecidableLE F]
variable {env : Env F G} {args : Args} {options : Config.Options F}

theorem Program.Sound.length (he : env.Safe) {k : AgentKind} {m : ModelState F G k} (h : Program.Sound m) {t : ModelState F G k}
    (ht : (machine env k).iteration m = .ok t) : (Program.network t).agents.length = (Program.network m).agents.length := by
  cases m with
  | deGroot s =>
    obtain ⟨u, hu, -, -, -, -, hl, -⟩ := C29_iteration (s := s) h
    have ht : s.iteration.map ModelState.deGroot = .ok t := ht
    rw [hu] at ht; cases ht; exact hl
  | deffuant s =>
    obtain ⟨u, hu, hF⟩ := Deffuant.iteration_safe he.rng (s := s) h
    have ht : (s.iteration env.rng Deffuant.updateRule).map ModelState.deffuant = .ok t := ht
    rw [hu] at ht; cases ht; exact hF.n
  | activity s =>
    have ht : (s.iteration env.math env.pick env.rng).map ModelState.activity = .ok t := ht
    cases e : s.iteration env.math env.pick env.rng with
    | error f => rw [e] at ht; cases ht
    | ok u => rw [e] at ht; cases ht; exact (Activity.iteration_frame e).1.traits.length
  | inertial s =>
    have ht : (s.iteration env.math env.pick env.rng).map ModelState.inertial = .ok t := ht
    cases e : s.iteration env.math env.pick env.rng with
    | error f => rw [e] at ht; cases ht
    | ok u => rw [e] at ht; cases ht; exact (Inertial.iteration_frame e).1.traits.length
  | vector s =>
    have ht : (s.iteration env.rng (Deffuant.updateVector env.rng)).map ModelState.vector = .ok t := ht
    cases e : s.iteration env.rng (Deffuant.updateVector env.rng) with
    | error f => rw [e] at ht; cases ht
    | ok u => rw [e] at ht; cases ht; exact ((Deffuant.iterationVector_noUB he.rng (s := s) h).2 u e).n

theorem Program.reset_network (env : Env F G) {k : AgentKind} (m : ModelState F G k) :
    Program.network ((machine env k).reset m) = Program.network m := by
  cases m <;> rfl

/-- A file that describes a network with `n` agents, completely: the table of `n` agents, or the table of a well-formed network of `n` agents. -/
def Spec.CompleteFile (fmt : F → List Char) (k : AgentKind) (n : Nat) (w : FileWrite) : Prop :=
  ∃ number, (w.name = fileName .opinions number ∧ ∃ agents : List (Agent F k), agents.length = n ∧ table w.contents = agentRows fmt k agents) ∨
    (w.name = fileName .network number ∧ ∃ N : Network (Agent F k) F, WF N ∧ N.agents.length = n ∧
      ((∀ row ∈ N.neighbours, row.length < 2 ^ 64 - 1) → table w.contents = networkRows fmt N))

/-- C112: whenever the program returns, every file that it has written is complete: a file of agents is a table with a row for each of the `n` agents,
a network file a table with a row for each of the `n` agents, and neighbours that are agents. -/
theorem C112_complete {n : Nat} (he : env.Safe) (hd : ∀ s, env.text.stod s ≠ .error .ub) (hT : ∀ x, Plain (env.text.fmt x))
    (h : Started env args options n) (hs : SaneFor options n) (fuel : Nat) {tr : List FileWrite} (hr : main env args fuel = .ok tr) :
    ∀ w ∈ tr, CompleteFile env.text.fmt (kindOf options) n w := by
  rw [h.main_eq fuel] at hr
  obtain ⟨⟨N, g⟩, hN, hr⟩ := Res.bind_eq_ok.mp hr
  obtain ⟨m, hm, hr⟩ := Res.bind_eq_ok.mp hr
  obtain ⟨m', hm', hr⟩ := Res.bind_eq_ok.mp hr
  obtain ⟨r, hrun, hr⟩ := Res.bind_eq_ok.mp hr
  cases hr
  obtain ⟨hwf, hin, hlen⟩ := (h.createNetwork he hd (env.seed options.rngSeed)).2 N g hN
  obtain ⟨hS, hml⟩ := (chooseModel_sound he h.matching h.validModel.2 hs h.size hwf hin hlen g).2 m hm
  have hm2 : Program.Sound m' ∧ (Program.network m').agents.length = n := by
    cases e : args.agents with
    | none =>
      rw [e] at hm'
      cases hm'; exact ⟨hS, hml⟩
    | some file =>
      rw [e] at hm'
      unfold replaceAgents getFileContents at hm'
      dsimp only at hm'
      cases ef : env.files file with
      | none => rw [ef] at hm'; cases hm'
      | some text =>
        rw [ef] at hm'
        dsimp only at hm'
        rw [Res.bind_ok] at hm'
        obtain ⟨as, h1, h2⟩ := Res.bind_eq_ok.mp hm'
        cases h2
        have hl := h.agents file text as e ef h1
        refine ⟨hS.setAgents (hl.trans hml.symm), ?_⟩
        have := (C56_agents_file env (kindOf options) options none file).2 m as
        exact (congrArg (fun N => N.agents.length) this).trans hl
  have key := run_rendered (M := machine env (kindOf options)) (fun s => Program.Sound s ∧ (Program.network s).agents.length = n)
    (fun N => WF N ∧ N.agents.length = n) (fun s hs => ⟨hs.1.reset env, by rw [Program.reset_network]; exact hs.2⟩)
    (fun s hs t ht => ⟨(hs.1.step he).2 t ht, (hs.1.length he ht).trans hs.2⟩) (fun s hs => ⟨hs.1.wf, hs.2⟩) _ _ fuel hm2 hrun
  intro w hw
  obtain ⟨number, N', ⟨hJ1, hJ2⟩, hc⟩ := key w hw
  refine ⟨number, ?_⟩
  rcases hc with ⟨h1, h2⟩ | ⟨h1, h2⟩
  · exact Or.inl ⟨h1, N'.agents, hJ2, agents_file env.text hT _ _ h2⟩
  · refine Or.inr ⟨h1, N', hJ1, hJ2, fun hrow => ?_⟩
    have hsz := h.size
    obtain ⟨t, g1, g2⟩ := C110_network env.text hJ1 (by omega) hrow (fun _ _ _ _ => hT _)
    obtain rfl := Except.ok.inj (g1.symm.trans h2)
    exact g2

end

/-- A program without files is started as well. -/
theorem Accepted.started [Zero F] [One F] [Sub F] [Mul F] [Add F] [Div F] [Neg F] [NatCast F] [IntCast F] [LT F] [LE F] [DecidableLT F] [DecidableLE F]
    {env : Env F G} {args : Args} {options : Config.Options F} (h : Accepted env args options) : Started env args options options.network.nAgents :=
  ⟨h.config, h.valid, h.size, fun _ => rfl, (fun _ _ _ h1 => by rw [h.noNetworkFile] at h1; cases h1), (fun _ _ _ h1 => by rw [h.noAgentsFile] at h1; cases h1)⟩

-- the hypotheses of C112_complete are met, and there is a program with bots that writes four files
example : ∃ tr, main (Env.sample Config.activityDoc) ⟨"conf.toml", none, none, none⟩ 4 = .ok tr ∧ tr.length = 4 ∧
    ∀ w ∈ tr, CompleteFile (F := ℚ) (fun _ => ['0']) .activity 5 w := by
  obtain ⟨N, tr, h, hf, -⟩ := C59_activity (Env.sample_lawful _).safe activityDoc_accepted ⟨by decide, by decide⟩ rfl activitySettings_sane (K := 4) rfl
    (by decide) (fuel := 4) (le_refl 4)
  refine ⟨tr, h, ?_, ?_⟩
  · rw [hf.length_eq]; rfl
  · exact C112_complete (Env.sample_lawful _).safe (fun _ h => by cases h) (fun _ c hc => by cases List.mem_singleton.mp hc; decide)
      activityDoc_accepted.started ⟨⟨by decide, by decide⟩, fun s hs => (by cases hs; exact activitySettings_sane), fun s hs => (by cases hs)⟩ 4 h

-- with files: three agents come from the files although the configuration says four, and whatever is written describes three agents
example (fuel : Nat) (tr : List FileWrite) (h : main (Env.withFiles Config.deGrootDoc savedNetText savedAgentsText) fileArgs fuel = .ok tr) :
    ∀ w ∈ tr, CompleteFile (F := ℚ) ratText.fmt .simple 3 w := by
  have hs : Started (Env.withFiles Config.deGrootDoc savedNetText savedAgentsText) fileArgs Config.deGrootOptions 3 := by
    refine ⟨⟨_, rfl, by with_unfolding_all rfl⟩, by decide +kernel, by decide, (by intro h; cases h), ?_, ?_⟩
    · intro file text N h1 h2 h3
      cases h1
      obtain rfl : savedNetText = text := Option.some.inj h2
      have h4 : NetworkIO.fromFile (A := SimpleAgent ℚ) ratText savedNetText = .ok N := h3
      rw [savedNet_read] at h4
      cases h4
      exact ⟨⟨rfl, rfl, by decide, by decide⟩, rfl⟩
    · intro file text as h1 h2 h3
      cases h1
      obtain rfl : savedAgentsText = text := Option.some.inj h2
      have h4 : AgentIO.fromFile (AgentIO.simple ratText) savedAgentsText = .ok as := h3
      rw [savedAgents_read] at h4
      cases h4
      rfl
  exact C112_complete (Env.withFiles_safe _ _ _) (fun s => NoUB.map _ (Text.stoi_noUB s)) (fun x => fmtInt_plain _) hs
    ⟨⟨by decide, by decide⟩, fun s hs => (by cases hs), fun s hs => (by cases hs)⟩ fuel h

end Seldon
