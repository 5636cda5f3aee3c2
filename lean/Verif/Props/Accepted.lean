import Verif.Props.RunDeffuant
import Verif.Props.RunDeGroot
import Verif.Props.RunActivity
/-!
# Property C54: accepted configurations and undefined behaviour

The property as stated is false; what is proved is that it holds under two conditions which `validate_settings` does not check, and that each of them is
needed.
-/
set_option linter.unusedSectionVars false
namespace Seldon
open Spec Simulation Program NetworkGen
variable {F G A S : Type}

/-- What is missing from `validate_settings`, for whatever model is chosen. -/
structure Spec.SaneSettings [Zero F] [One F] [Sub F] [Mul F] [Add F] [Div F] [Neg F] [NatCast F] (options : Config.Options F) : Prop where
  output : options.output.nOutputAgents ≠ some 0 ∧ options.output.nOutputNetwork ≠ some 0
  activity : ∀ s, options.settings = .activity s → SaneContacts s options.network.nAgents
  inertial : ∀ s, options.settings = .inertial s → SaneContacts s.base options.network.nAgents

section
variable [Zero F] [One F] [Sub F] [Mul F] [Add F] [Div F] [Neg F] [NatCast F] [IntCast F] [LT F] [LE F] [DecidableLT F] [DecidableLE F] {env : Env F G} {args : Args} {options : Config.Options F}

/-- C54 (part): accepted settings that also satisfy `SaneSettings` never lead to undefined behaviour, for every random outcome and however long the
program runs.  What is missing: `SaneSettings` is not enforced by `validate_settings`, see the theorems below. -/
theorem C54_safe_partial (he : env.Safe) (h : Accepted env args options) (hs : SaneSettings options) (fuel : Nat) :
    main env args fuel ≠ .error .ub := by
  have hout : SaneOutput options := ⟨hs.output.1, hs.output.2⟩
  cases e : options.settings with
  | deGroot s =>
    rcases C58_safe he h hout e fuel with ⟨tr, ht⟩ | ht <;> rw [ht] <;> simp
  | deffuant s =>
    by_cases hsq : s.useNetwork = true → IsSquare options.network.nAgents
    · by_cases hb : s.useBinaryVector = true
      · obtain ⟨m1, m, hi, hr, hmu, -, hmax, hlen, hd, hmain⟩ := h.deffuantVector he e hb hsq
        rw [hmain]
        rcases run_safe (M := Deffuant.machine env.rng (Deffuant.updateVector env.rng))
          (fun t => t.Ready ∧ (∀ x ∈ t.network.agents, x.opinion.length = s.dim))
          (fun s hs => ⟨⟨hs.1.wf, hs.1.size, hs.1.rows⟩, hs.2⟩) (by
            rintro t ⟨h1, h2⟩
            obtain ⟨u, hu⟩ := Deffuant.iterationVector_total (d := s.dim) he.rng h1 h2
            obtain ⟨hF, hd', -⟩ := Deffuant.iterationVector_inv (d := s.dim) h2 hu
            exact ⟨u, hu, hF.ready h1, hd'⟩) (fun s hs => hs.1.wf) (render env .vector) hout.agents hout.network fuel (s := m) ⟨hr, hd⟩ with ⟨t, ht⟩ | ht <;>
          rw [ht] <;> simp [Except.map]
      · have hb : s.useBinaryVector = false := by simpa using hb
        obtain ⟨m1, m, hi, hmu1, hr, hmu, -, hmax, ho, hmain⟩ := h.deffuant he e hb hsq
        rw [hmain]
        rcases run_safe (M := Deffuant.machine env.rng Deffuant.updateRule) (fun s => s.Ready)
          (fun s hs => ⟨hs.wf, hs.size, hs.rows⟩) (by
            intro s h1
            obtain ⟨t, ht, hF⟩ := Deffuant.iteration_safe he.rng h1
            exact ⟨t, ht, hF.ready h1⟩) (fun s hs => hs.wf) (render env .simple) hout.agents hout.network fuel (s := m) hr
          with ⟨t, ht⟩ | ht <;> rw [ht] <;> simp [Except.map]
    · simp only [Classical.not_imp] at hsq
      rw [C57_not_square he h e hsq.1 hsq.2 fuel]
      simp
  | activity s =>
    obtain ⟨m, hr, hp, hmax, hlen, hbots, hmain⟩ := h.activity he e (hs.activity s e)
    rw [hmain]
    rcases run_safe (M := Activity.machine env.math env.pick env.rng) Activity.Sound (fun s hs => hs.reset)
      (fun t ht => by obtain ⟨u, hu, h3, -⟩ := ht.step he.pick env.rng; exact ⟨u, hu, h3⟩) (fun s hs => hs.wf) (render env .activity) hout.agents
      hout.network fuel (s := m) hr with ⟨t, ht⟩ | ht <;> rw [ht] <;> simp [Except.map]
  | inertial s =>
    obtain ⟨m, hr, hp, -, hmax, hlen, hbots, hmain⟩ := h.inertial he e (hs.inertial s e)
    rw [hmain]
    rcases run_safe (M := Inertial.machine env.math env.pick env.rng) (fun s => s.base.Sound) (fun s hs => hs.reset)
      (fun t ht => by obtain ⟨u, hu, h3, -⟩ := Inertial.step he.pick env.rng ht; exact ⟨u, hu, h3⟩) (fun s hs => hs.wf) (render env .inertial)
      hout.agents hout.network fuel (s := m) hr with ⟨t, ht⟩ | ht <;> rw [ht] <;> simp [Except.map]

end

/-! ## the conditions are needed -/

/-- A run with an output interval of zero. -/
theorem Machine.Counted.zero {M : Machine A F S} {I : S → Prop} {N : Nat} (h : M.Counted I N) (R : Render A F) {o : OutputSettings}
    (h0 : o.nOutputAgents = some 0 ∨ o.nOutputNetwork = some 0) (hpos : 1 ≤ o.startOutput) (hN : o.startOutput ≤ N) {s : S} (hs : I s)
    {fuel : Nat} (hf : N ≤ fuel) : Simulation.run M R o fuel s = .error .ub := by
  obtain ⟨st, hrun, hI⟩ := C51_reaches h.counts I N h.keep h.step h.stop hs
  exact C52_zero_interval h.counts h0 (h.wf s hs) hrun.start hrun.going hrun.step (fun k hk => h.wf _ (hI k hk)) hN (by omega) hf

section
variable [Zero F] [One F] [Sub F] [Mul F] [Add F] [Div F] [Neg F] [NatCast F] [IntCast F] [LT F] [LE F] [DecidableLT F] [DecidableLE F] {env : Env F G} {args : Args} {options : Config.Options F}

/-- C54 is false: an accepted output interval of zero is undefined behaviour in every run that reaches the first output, for every random outcome. -/
theorem C54_zero_interval (he : env.Safe) (h : Accepted env args options)
    (h0 : options.output.nOutputAgents = some 0 ∨ options.output.nOutputNetwork = some 0) {K : Nat} (hK' : K < 2 ^ 31)
    (hstart : options.output.startOutput ≤ K) {fuel : Nat} (hf : K ≤ fuel) :
    (∀ s, options.settings = .deffuant s → (s.useNetwork = true → IsSquare options.network.nAgents) → s.maxIterations = some (K : Int) →
      main env args fuel = .error .ub) ∧
    (∀ s, options.settings = .activity s → SaneContacts s options.network.nAgents → s.maxIterations = some (K : Int) →
      main env args fuel = .error .ub) ∧
    (∀ s, options.settings = .inertial s → SaneContacts s.base options.network.nAgents → s.base.maxIterations = some (K : Int) →
      main env args fuel = .error .ub) := by
  have hpos : 1 ≤ options.output.startOutput := h.validModel.1
  refine ⟨fun s e hsq hK => ?_, fun s e hc hK => ?_, fun s e hc hK => ?_⟩
  · by_cases hb : s.useBinaryVector = true
    · obtain ⟨m1, m, hi, hr, hmu, -, hmax, hlen, hd, hmain⟩ := h.deffuantVector he e hb hsq
      have hmax' : m.counter.maxIterations = some K := by rw [hmax, hK, Option.map_some, toSize_nat hK']
      rw [hmain, (Deffuant.countedVector (F := F) he.rng s.dim K).zero (render env .vector) h0 hpos hstart (s := m) ⟨hr, hd, hmax'⟩ hf]
      rfl
    · obtain ⟨m1, m, hi, hmu1, hr, hmu, -, hmax, ho, hmain⟩ := h.deffuant he e (by simpa using hb) hsq
      have hmax' : m.counter.maxIterations = some K := by rw [hmax, hK, Option.map_some, toSize_nat hK']
      rw [hmain, (Deffuant.counted (F := F) he.rng K).zero (render env .simple) h0 hpos hstart (s := m) ⟨hr, hmax'⟩ hf]
      rfl
  · obtain ⟨m, hr, hp, hmax, hlen, hbots, hmain⟩ := h.activity he e hc
    have hmax' : m.counter.maxIterations = some K := by rw [hmax, hK, Option.map_some, toSize_nat hK']
    rw [hmain, (Activity.countedSound (A := ActivityAgent F) he.pick env.rng K).zero (render env .activity) h0 hpos hstart (s := m) ⟨hr, hmax'⟩ hf]
    rfl
  · obtain ⟨m, hr, hp, -, hmax, hlen, hbots, hmain⟩ := h.inertial he e hc
    have hmax' : m.base.counter.maxIterations = some K := by rw [hmax, hK, Option.map_some, toSize_nat hK']
    rw [hmain, (Inertial.countedSound he.pick env.rng K).zero (render env .inertial) h0 hpos hstart (s := m) ⟨hr, hmax'⟩ hf]
    rfl

/-- C54 is false: more bots than agents are undefined behaviour already in the constructor, for every random outcome. -/
theorem C54_too_many_bots {s : ActivitySettings F} (he : env.Safe) (h : Accepted env args options) (hs : options.settings = .activity s)
    (hn : options.network.nAgents < s.nBots) (fuel : Nat) : main env args fuel = .error .ub := by
  obtain ⟨N, g, hN, hwf, hag, -⟩ := nConnections_total (A := ActivityAgent F) he.rng options.network.nAgents options.network.nConnections true
    (env.seed options.rngSeed)
  have hlen : N.agents.length = options.network.nAgents := by rw [hag]; simp
  have hv : ValidActivity s := by have := h.validModel.2; rw [hs] at this; exact this
  have hk : kindOf options = .activity := by unfold kindOf; rw [hs]
  rw [h.main_eq fuel]
  rw [hk]
  have hN' : NetworkGen.nConnections (A := Agent F .activity) env.rng options.network.nAgents options.network.nConnections true
      (env.seed options.rngSeed) = .ok (N, g) := hN
  have hc := (C56_compatible env options h.matching g).2.1 s hs N
  rw [C61_too_many_bots env.math env.rng g (by rw [hlen]; exact hn) hv.botOpinion hv.botActivity] at hc
  rw [hN', Res.bind_ok]
  dsimp only
  rw [hc]
  rfl

end

section
variable [Field F] [LinearOrder F] [IsStrictOrderedRing F] {env : Env F G} {args : Args} {options : Config.Options F}

/-- An iteration in which agent 0 is activated and wants more contacts than there are agents. -/
theorem Activity.iteration_too_many_contacts [ActiveAgent A F] (o : MathOps F) {pick : List (Nat × F) → Nat} (hp : Reservoir.Pick.Valid pick) (r : Rng G F)
    {s : Activity A F G} {a : A} (ha : s.network.agents[0]? = some a) (hu : (r.unit s.gen).1 < ActiveAgent.activity a) (hmean : s.p.meanWeights = false)
    {k : Nat} (hk : Activity.contactsWanted s.p 0 = .ok k) (hn : s.network.agents.length < k) {h : F} (hh : Activity.homophilyOf s.p 0 = .ok h) :
    Activity.iteration o pick r s = .error .ub := by
  have hlen : 0 < s.network.agents.length := by
    rcases Nat.eq_zero_or_pos s.network.agents.length with h0 | h0
    · rw [List.getElem?_eq_none (by omega)] at ha; cases ha
    · exact h0
  have h1 : ∀ g, Activity.contact o pick r s.p 0 (⟨s.network.switchDirectionFlag, [], [], s.gen⟩ : Activity.Contacting A F G) g = .error .ub := by
    intro g
    unfold Activity.contact
    rw [hk, Res.bind_ok, hh, Res.bind_ok]
    rw [Reservoir.sample_too_many hp (by simpa [Network.nAgents, Network.switchDirectionFlag] using hn)]
    rfl
  have h2 : Activity.activate o pick r s.p 0 (⟨s.network.switchDirectionFlag, [], [], s.gen⟩ : Activity.Contacting A F G) = .error .ub := by
    unfold Activity.activate
    have e : rd (Network.switchDirectionFlag s.network).agents 0 = .ok a := by
      unfold rd; rw [show (Network.switchDirectionFlag s.network).agents = s.network.agents from rfl, ha]
    simp only [e, Res.bind_ok, if_pos hu]
    exact h1 _
  have h3 : Activity.updateProbabilistic o pick r { s with counter := s.counter.tick } = .error .ub := by
    unfold Activity.updateProbabilistic
    simp only
    rw [loop_fail (n := 0) (m := s.network.nAgents) rfl h2 hlen]
    rfl
  unfold Activity.iteration Activity.updateNetwork
  rw [if_pos hmean, h3]
  rfl

/-- C54 is false: a bot that is always active (the default of the parser) with more contacts than there are agents, or with a negative number of
contacts, is undefined behaviour in the first iteration, for every random outcome. -/
theorem C54_too_many_contacts {s : ActivitySettings F} (he : env.Lawful) (h : Accepted env args options) (hs : options.settings = .activity s)
    (hbots : 0 < s.nBots ∧ s.nBots ≤ options.network.nAgents) (hmean : s.meanWeights = false) (hmax : s.maxIterations ≠ some 0)
    (hrange : ∀ k, s.maxIterations = some k → -2 ^ 31 ≤ k ∧ k < 2 ^ 31) {v : F} (hact : s.botActivity[0]? = some v)
    (hv1 : 1 ≤ v) {k : Int} (hk : s.botM[0]? = some k) (hkr : -2 ^ 31 ≤ k ∧ k < 2 ^ 31) (hbad : k < 0 ∨ (options.network.nAgents : Int) < k)
    {fuel : Nat} (hf : 1 ≤ fuel) :
    main env args fuel = .error .ub := by
  obtain ⟨N, g, hN, hwf, hag, hin, -⟩ := nConnections_spec (A := ActivityAgent F) he.rng options.network.nAgents options.network.nConnections true
    (env.seed options.rngSeed)
  have hlen : N.agents.length = options.network.nAgents := by rw [hag]; simp
  have hv : ValidActivity s := by have := h.validModel.2; rw [hs] at this; exact this
  have hkk : kindOf options = .activity := by unfold kindOf; rw [hs]
  have hc := (C56_compatible env options h.matching g).2.1 s hs N
  have hcr := Activity.create_eq env.math env.rng (N := N) g (by rw [hlen]; exact hbots.2) hv.botOpinion hv.botActivity
  simp only [hmean, Bool.false_eq_true, if_false] at hcr
  generalize hm : (⟨⟨s.maxIterations.map Network.toSize, 0⟩, s, { N with agents := Activity.createdAgents env.math env.rng s N.agents g },
      List.replicate N.agents.length [], Activity.drawState env.math env.rng s N.agents g N.agents.length⟩ : Activity (ActivityAgent F) F G) = m at hcr
  have hcr' : Activity.create env.math env.rng s N g = .ok m := hcr
  have hmp : m.p = s := by rw [← hm]
  have hma : m.network.agents = Activity.createdAgents env.math env.rng s N.agents g := by rw [← hm]
  have hml : m.network.agents.length = options.network.nAgents := by rw [hma, Activity.createdAgents_length, hlen]
  have hmc : m.counter = ⟨s.maxIterations.map Network.toSize, 0⟩ := by rw [← hm]
  have hmw : WF m.network := by
    rw [← hm]
    refine ⟨?_, ?_, hwf.lengths, ?_⟩
    · simp only [Activity.createdAgents_length]; exact hwf.rows
    · simp only [Activity.createdAgents_length]; exact hwf.wrows
    · simp only [Activity.createdAgents_length]; exact hwf.range
  have ha : ∃ a, m.network.agents[0]? = some a ∧ ActiveAgent.activity a = v := by
    refine ⟨_, List.getElem?_eq_getElem (by omega), ?_⟩
    have h3 := hv.botActivity
    have : s.botActivity[0]'(by omega) = v := by
      rw [List.getElem?_eq_getElem (by omega)] at hact; exact Option.some.inj hact
    simp only [hma, Activity.createdAgents, List.getElem_mapIdx, hbots.1, if_true, LawfulActiveAgent.activity_setActivity]
    rw [getD_lt _ _ (by omega)]
    exact this
  obtain ⟨a, ha, hav⟩ := ha
  have hw : Activity.contactsWanted s 0 = .ok (Network.toSize k) := by
    unfold Activity.contactsWanted Activity.isBot
    have : rd s.botM 0 = .ok k := by unfold rd; rw [hk]
    simp [hbots.1, this]
  have hh : ∃ x, Activity.homophilyOf s 0 = .ok x := by
    have h3 := hv.botHomophily
    refine ⟨s.botHomophily[0]'(by omega), ?_⟩
    unfold Activity.homophilyOf Activity.isBot
    simp only [hbots.1, decide_true]
    exact rd_lt (by omega)
  obtain ⟨x, hx⟩ := hh
  have hbig : options.network.nAgents < Network.toSize k := by
    have := h.size
    unfold Network.toSize
    rcases hbad with hb | hb <;> omega
  have hit : Activity.iteration env.math env.pick env.rng m.reset = .error .ub := by
    refine Activity.iteration_too_many_contacts env.math he.pick env.rng (s := m.reset) (a := a) ha ?_ ?_ (k := Network.toSize k) ?_ ?_ (h := x) ?_
    · rw [hav]; exact lt_of_lt_of_le (he.rng.unit_lt_one _) hv1
    · show m.p.meanWeights = false; rw [hmp]; exact hmean
    · show Activity.contactsWanted m.p 0 = _; rw [hmp]; exact hw
    · show m.network.agents.length < _; rw [hml]; exact hbig
    · show Activity.homophilyOf m.p 0 = _; rw [hmp]; exact hx
  have hfin : Activity.finished m.reset = false := by
    show m.reset.counter.finished = false
    unfold Activity.reset
    simp only [hmc]
    unfold Counter.finished Counter.reset
    cases e : s.maxIterations with
    | none => rfl
    | some j =>
      have h1 := hrange j e
      have h2 : j ≠ 0 := fun hj => hmax (by rw [e, hj])
      simp only [Option.map_some]
      have : 0 < Network.toSize j := by unfold Network.toSize; omega
      simp; omega
  have hrun : Simulation.run (Activity.machine env.math env.pick env.rng) (render env .activity) options.output fuel m = .error .ub := by
    obtain ⟨fuel, rfl⟩ : ∃ f, fuel = f + 1 := ⟨fuel - 1, by omega⟩
    obtain ⟨tr, htr⟩ := initialOutput_total (renderable_of_wf (render env .activity) hmw) options.output
    unfold Simulation.run
    rw [show (Activity.machine env.math env.pick env.rng).network m = m.network from rfl, htr, Res.bind_ok]
    unfold runLoop
    simp only [Activity.machine, hfin, hit]
    rfl
  rw [h.main_eq fuel]
  rw [hkk]
  have hN' : NetworkGen.nConnections (A := Agent F .activity) env.rng options.network.nAgents options.network.nConnections true
      (env.seed options.rngSeed) = .ok (N, g) := hN
  rw [hcr', Res.bind_ok] at hc
  rw [hN', Res.bind_ok]
  dsimp only
  rw [hc, Res.bind_ok, (embeds_activity env).run, hrun]
  rfl

end

/-! ## concrete cases -/

-- the hypotheses of C54_safe_partial are met
example (fuel : Nat) : main (Env.sample Config.activityDoc) ⟨"conf.toml", none, none, none⟩ fuel ≠ .error .ub :=
  C54_safe_partial (Env.sample_lawful _).safe activityDoc_accepted
    ⟨⟨by decide, by decide⟩, fun s hs => by cases hs; exact activitySettings_sane, fun s hs => by cases hs⟩ fuel

/-- `n_output_agents = 0`. -/
def Config.zeroDoc : Config.Doc ℚ := fun s k =>
  if s = "io" ∧ k = "n_output_agents" then some (.int 0) else Config.deffuantDoc s k

example : main (Env.sample Config.zeroDoc) ⟨"conf.toml", none, none, none⟩ 5 = .error .ub := by
  have h : Accepted (Env.sample Config.zeroDoc) ⟨"conf.toml", none, none, none⟩
      { Config.deffuantOptions with output := { Config.deffuantOptions.output with nOutputAgents := some 0 } } :=
    ⟨⟨_, rfl, by with_unfolding_all rfl⟩, by decide +kernel, rfl, rfl, by decide⟩
  exact (C54_zero_interval (Env.sample_lawful _).safe h (.inl rfl) (K := 5) (by decide) (by decide) (le_refl 5)).1 _ rfl (fun _ => ⟨3, rfl⟩) rfl

/-- Five agents, one of them a bot with six contacts. -/
def Config.contactsDoc : Config.Doc ℚ := fun s k =>
  if s = "ActivityDriven" ∧ k = "bot_m" then some (.arr [.int 6]) else Config.activityDoc s k

example : main (Env.sample Config.contactsDoc) ⟨"conf.toml", none, none, none⟩ 4 = .error .ub := by
  have h : Accepted (Env.sample Config.contactsDoc) ⟨"conf.toml", none, none, none⟩
      { Config.activityOptions with settings := .activity { Config.activitySettings with botM := [6] } } :=
    ⟨⟨_, rfl, by with_unfolding_all rfl⟩, by decide +kernel, rfl, rfl, by decide⟩
  exact C54_too_many_contacts (Env.sample_lawful _) h rfl ⟨by decide, by decide⟩ rfl (by decide)
    (fun k hk => by obtain rfl : (4 : Int) = k := Option.some.inj hk; decide) (v := 1) rfl (le_refl _) (k := 6) rfl (by decide) (by decide) (by decide)

/-- Five agents and six bots. -/
def Config.botsDoc : Config.Doc ℚ := fun s k =>
  if s = "ActivityDriven" ∧ k = "n_bots" then some (.int 6)
  else if s = "ActivityDriven" ∧ k = "bot_m" then some (.arr (List.replicate 6 (.int 1)))
  else if s = "ActivityDriven" ∧ k = "bot_opinion" then some (.arr (List.replicate 6 (.float 1)))
  else Config.activityDoc s k

example (fuel : Nat) : main (Env.sample Config.botsDoc) ⟨"conf.toml", none, none, none⟩ fuel = .error .ub := by
  have h : Accepted (Env.sample Config.botsDoc) ⟨"conf.toml", none, none, none⟩
      { Config.activityOptions with settings := .activity { Config.activitySettings with
          nBots := 6, botM := List.replicate 6 1, botOpinion := List.replicate 6 1, botActivity := List.replicate 6 1,
          botHomophily := List.replicate 6 (Config.lit 1 2) } } :=
    ⟨⟨_, rfl, by with_unfolding_all rfl⟩, by decide +kernel, rfl, rfl, by decide⟩
  exact C54_too_many_bots (Env.sample_lawful _).safe h rfl (by decide) fuel

end Seldon
