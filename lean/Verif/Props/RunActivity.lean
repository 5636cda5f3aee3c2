import Verif.Props.Program
import Verif.Lemmas.Safety
import Batteries.Lean.Except
/-!
# Property C59: whole runs of the activity-driven models
-/
set_option linter.unusedSectionVars false
namespace Seldon
open Spec Simulation Program NetworkGen
variable {F G A : Type}
variable [Zero F] [One F] [Sub F] [Mul F] [Add F] [Div F] [Neg F] [NatCast F] [IntCast F] [LT F] [LE F] [DecidableLT F] [DecidableLE F]

/-- What `validate_settings` does not check: there are enough agents for the contacts and for the bots, and no bot has a negative number of
contacts. -/
structure SaneContacts (p : ActivitySettings F) (n : Nat) : Prop where
  m : p.m ≤ n
  bots : p.nBots ≤ n
  botM : ∀ i k, i < p.nBots → p.botM[i]? = some k → 0 ≤ k ∧ k ≤ n

/-- A state in which an iteration can take place, with either kind of network update. -/
def Activity.Sound [ActiveAgent A F] (s : Activity A F G) : Prop := s.Ready ∨ s.MeanReady ∧ WF s.network

theorem contactsOf_range {p : ActivitySettings F} (hv : ValidActivity p) {n : Nat} (hc : SaneContacts p n) (i : Nat) :
    0 ≤ contactsOf p i ∧ contactsOf p i ≤ n := by
  unfold contactsOf
  split
  · next hi =>
    have hb := hv.botM
    have := hc.botM i p.botM[i] hi (List.getElem?_eq_getElem (by omega))
    rw [getD_lt _ _ (by omega)]
    exact this
  · exact ⟨hv.m, hc.m⟩

/-- The constructor of the activity-driven models. -/
theorem Activity.create_sound [ActiveAgent A F] [LawfulActiveAgent A F] [Inhabited A] (o : MathOps F) (r : Rng G F) {p : ActivitySettings F}
    (hv : ValidActivity p) {N : Network A F} (hwf : WF N) (hin : N.direction = .incoming) (hn : N.agents.length < 2 ^ 31)
    (hc : SaneContacts p N.agents.length) (g : G) :
    ∃ s, Activity.create o r p N g = .ok s ∧ s.Sound ∧ s.p = p ∧ s.counter.maxIterations = p.maxIterations.map Network.toSize ∧
      s.network.agents.length = N.agents.length ∧
      ∀ i, i < p.nBots → ∃ a, s.network.agents[i]? = some a ∧ p.botOpinion[i]? = some (ActiveAgent.opinion a) ∧
        p.botActivity[i]? = some (ActiveAgent.activity a) := by
  have hbots : ∀ i, i < p.nBots → ∃ a, (Activity.createdAgents o r p N.agents g)[i]? = some a ∧ p.botOpinion[i]? = some (ActiveAgent.opinion a) ∧
      p.botActivity[i]? = some (ActiveAgent.activity a) := by
    intro i hi
    have h1 := hc.bots
    have h2 := hv.botOpinion
    have h3 := hv.botActivity
    refine ⟨_, List.getElem?_eq_getElem (by rw [Activity.createdAgents_length]; omega), ?_, ?_⟩
    · simp [Activity.createdAgents, hi, LawfulActiveAgent.opinion_setActivity, LawfulActiveAgent.opinion_setOpinion, show i < p.botOpinion.length by omega]
    · simp [Activity.createdAgents, hi, LawfulActiveAgent.activity_setActivity, show i < p.botActivity.length by omega]
  have hlen := Activity.createdAgents_length o r p N.agents g
  have hrange := contactsOf_range hv hc
  refine ⟨_, Activity.create_eq o r g hc.bots hv.botOpinion hv.botActivity, ?_⟩
  by_cases hm : p.meanWeights = true
  · simp only [if_pos hm]
    refine ⟨.inr ⟨⟨?_, ?_, rfl, ?_, ?_, hv.botM, hv.botHomophily, hv.botOpinion, fun i _ => (hrange i).1, fun i _ => ?_, hm⟩, ?_⟩,
      (by trivial), (by trivial), hlen, hbots⟩
    · simp only [hlen]
    · simp only [hlen, List.length_replicate]
    · simp only [hlen, List.length_replicate]
    · simp only [hlen]; exact hc.bots
    · have := (hrange i).2
      show contactsOf p i < 2 ^ 64
      omega
    · refine ⟨by simp only [hlen, List.length_replicate], by simp only [hlen, List.length_replicate], ?_, ?_⟩
      · intro i h h'
        simp
      · intro row hrow j hj
        simp only at hrow
        obtain rfl := List.eq_of_mem_replicate hrow
        simp only [hlen]
        exact List.mem_range.mp hj
  · simp only [if_neg hm]
    have hm' : p.meanWeights = false := by simpa using hm
    refine ⟨.inl ⟨⟨?_, ?_, hwf.lengths, ?_⟩, hin, ⟨?_, ?_, hv.botM, hv.botHomophily, fun i _ => (hrange i).1, fun i _ => ?_⟩, hv.botOpinion, hm'⟩,
      (by trivial), (by trivial), hlen, hbots⟩
    · simp only [hlen]; exact hwf.rows
    · simp only [hlen]; exact hwf.wrows
    · simp only [hlen]; exact hwf.range
    · simp only [hlen]; omega
    · simp only [hlen]; exact hc.bots
    · simp only [hlen]; exact (hrange i).2

/-- What all networks `N 0, ..., N K` of a run of an activity-driven model with `n` agents have in common: they are well-formed, activities and
reluctances never change, bots have their configured opinions and activities, and (unless mean-field weights are used) after each update all weights
are 1 and no edge is duplicated. -/
structure ActivityRun [ActiveAgent A F] (p : ActivitySettings F) (n K : Nat) (N : Nat → Network A F) : Prop where
  size : ∀ k, k ≤ K → (N k).agents.length = n
  wf : ∀ k, k ≤ K → WF (N k)
  activity : ∀ k, k ≤ K → (N k).agents.map ActiveAgent.activity = (N 0).agents.map ActiveAgent.activity
  reluctance : ∀ k, k ≤ K → (N k).agents.map ActiveAgent.reluctance = (N 0).agents.map ActiveAgent.reluctance
  bots : ∀ k, k ≤ K → ∀ i, i < p.nBots → ∃ a, (N k).agents[i]? = some a ∧ p.botOpinion[i]? = some (ActiveAgent.opinion a) ∧
    p.botActivity[i]? = some (ActiveAgent.activity a)
  simple : p.meanWeights = false → ∀ k, 1 ≤ k → k ≤ K → ∀ i, i < n → ((row (N k) i).map (·.1)).Nodup ∧ ∀ e ∈ row (N k) i, e.2 = 1
  full : p.meanWeights = true → ∀ k, k ≤ K → (N k).neighbours = List.replicate n (List.range n)

section
variable [ActiveAgent A F] [LawfulActiveAgent A F]

theorem Activity.mean_step (o : MathOps F) (pick : List (Nat × F) → Nat) (r : Rng G F) {s : Activity A F G} (h : Activity.MeanReady s) :
    ∃ t, Activity.iteration o pick r s = .ok t ∧ Activity.MeanReady t ∧ WF t.network := by
  obtain ⟨t, h1, h2, h3, h4, h5, -⟩ := Activity.updateMean_total o (s := { s with counter := s.counter.tick })
    ⟨h.rows, h.wrows, h.incoming, h.probs, h.bots, h.botM, h.botHomophily, h.botOpinion, h.nonneg, h.size, h.mean⟩
  simp only at h4 h5
  obtain ⟨l, h7, hl⟩ : ∃ l, Activity.rkStep o s.p t.network = .ok l ∧ l.length = t.network.agents.length :=
    ⟨_, Activity.rkStep_eq o s.p h3 (by rw [h4]; exact h.bots) h.botOpinion, by simp⟩
  refine ⟨{ t with network := { t.network with agents := l } }, ?_, h2.agents hl, ⟨?_, ?_, h3.lengths, ?_⟩⟩
  · unfold Activity.iteration Activity.updateNetwork
    rw [if_neg (by simp only [h.mean]; simp), h1, Res.bind_ok, h5, h7, Res.bind_ok]
  · simpa [hl] using h3.rows
  · simpa [hl] using h3.wrows
  · simpa [hl] using h3.range

theorem Inertial.mean_step (o : MathOps F) (pick : List (Nat × F) → Nat) (r : Rng G F) {s : Inertial F G} (h : Activity.MeanReady s.base) :
    ∃ t, Inertial.iteration o pick r s = .ok t ∧ Activity.MeanReady t.base ∧ WF t.base.network := by
  obtain ⟨t, h1, h2, h3, h4, h5, -⟩ := Activity.updateMean_total o (s := { s.base with counter := s.base.counter.tick })
    ⟨h.rows, h.wrows, h.incoming, h.probs, h.bots, h.botM, h.botHomophily, h.botOpinion, h.nonneg, h.size, h.mean⟩
  simp only at h4 h5
  obtain ⟨l, h7, hl⟩ : ∃ l, Inertial.verletStep o s.base.p s.friction t.network = .ok l ∧ l.length = t.network.agents.length :=
    ⟨_, Inertial.verletStep_eq o s.base.p s.friction h3 (by rw [h4]; exact h.bots) h.botOpinion, by simp⟩
  refine ⟨{ s with base := { t with network := { t.network with agents := l } } }, ?_, h2.agents hl, ⟨?_, ?_, h3.lengths, ?_⟩⟩
  · unfold Inertial.iteration Activity.updateNetwork
    rw [if_neg (by simp only [h.mean]; simp), h1, Res.bind_ok, h5, h7, Res.bind_ok]
  · simpa [hl] using h3.rows
  · simpa [hl] using h3.wrows
  · simpa [hl] using h3.range

theorem Activity.Sound.step {o : MathOps F} {pick : List (Nat × F) → Nat} (hp : Reservoir.Pick.Valid pick) (r : Rng G F)
    {s : Activity A F G} (h : s.Sound) : ∃ t, Activity.iteration o pick r s = .ok t ∧ t.Sound ∧
      (s.p.meanWeights = false → ∀ i, i < s.network.agents.length → ((row t.network i).map (·.1)).Nodup ∧ ∀ e ∈ row t.network i, e.2 = 1) := by
  rcases h with h | ⟨h, hw⟩
  · obtain ⟨_, _, _, t, ht, hf, -⟩ := C43_activity (o := o) hp r h
    exact ⟨t, ht, .inl (h.next hp ht), fun _ i hi => ⟨hf.nodup i, hf.ones i⟩⟩
  · obtain ⟨t, ht, hr, hw⟩ := Activity.mean_step o pick r h
    exact ⟨t, ht, .inr ⟨hr, hw⟩, fun hm => by rw [h.mean] at hm; cases hm⟩

theorem Activity.Sound.wf {s : Activity A F G} (h : s.Sound) : WF s.network := by
  rcases h with h | h
  · exact h.wf
  · exact h.2

theorem Activity.Sound.reset {s : Activity A F G} (h : s.Sound) : s.reset.Sound := by
  rcases h with h | ⟨h, hw⟩
  · exact .inl ⟨h.wf, h.incoming, h.fit, h.botOpinion, h.probabilistic⟩
  · exact .inr ⟨⟨h.rows, h.wrows, h.incoming, h.probs, h.bots, h.botM, h.botHomophily, h.botOpinion, h.nonneg, h.size, h.mean⟩, hw⟩

theorem Activity.countedSound {o : MathOps F} {pick : List (Nat × F) → Nat} (hp : Reservoir.Pick.Valid pick)
    (r : Rng G F) (K : Nat) : (Activity.machine (A := A) o pick r).Counted (fun s => s.Sound ∧ s.counter.maxIterations = some K) K where
  counts := Activity.counts (A := A) o pick r
  net _ := rfl
  keep _ hs := ⟨hs.1.reset, hs.2⟩
  step := by
    rintro s ⟨h1, h2⟩
    obtain ⟨t, ht, hs, -⟩ := h1.step hp r
    exact ⟨t, ht, hs, by rw [(Activity.iteration_frame ht).2.2]; exact h2⟩
  stop := by
    rintro s ⟨-, h2⟩
    simp [Activity.machine, Activity.finished, Counter.finished, h2]
  wf _ hs := hs.1.wf

/-- The parts of `ActivityRun` are kept by iterations. -/
theorem ActivityRun.of {p : ActivitySettings F} {n K : Nat} {b : Nat → Activity A F G} (hs : ∀ k, k ≤ K → (b k).Sound) (hp : ∀ k, k ≤ K → (b k).p = p)
    (hn : (b 0).network.agents.length = n)
    (hact : ∀ k, k ≤ K → (b k).network.agents.map ActiveAgent.activity = (b 0).network.agents.map ActiveAgent.activity)
    (hrel : ∀ k, k ≤ K → (b k).network.agents.map ActiveAgent.reluctance = (b 0).network.agents.map ActiveAgent.reluctance)
    (hbots0 : ∀ i, i < p.nBots → ∃ a, (b 0).network.agents[i]? = some a ∧ p.botOpinion[i]? = some (ActiveAgent.opinion a) ∧
        p.botActivity[i]? = some (ActiveAgent.activity a))
    (hbots : ∀ k, 0 < k → k ≤ K → ∀ i, i < p.nBots → ∃ a, (b k).network.agents[i]? = some a ∧ p.botOpinion[i]? = some (ActiveAgent.opinion a))
    (hsimple : p.meanWeights = false → ∀ k, 1 ≤ k → k ≤ K → ∀ i, i < n → ((row (b k).network i).map (·.1)).Nodup ∧ ∀ e ∈ row (b k).network i, e.2 = 1) :
    ActivityRun p n K (fun k => (b k).network) := by
  have hlen : ∀ k, k ≤ K → (b k).network.agents.length = n := by
    intro k hk
    have := congrArg List.length (hact k hk)
    simp only [List.length_map] at this
    rw [this, hn]
  refine ⟨hlen, fun k hk => (hs k hk).wf, hact, hrel, ?_, hsimple, ?_⟩
  · intro k hk i hi
    rcases Nat.eq_zero_or_pos k with rfl | hpos
    · exact hbots0 i hi
    · obtain ⟨a, h1, h2⟩ := hbots k hpos hk i hi
      obtain ⟨a0, g1, -, g3⟩ := hbots0 i hi
      refine ⟨a, h1, h2, ?_⟩
      have := congrArg (fun l => l[i]?) (hact k hk)
      simp only [List.getElem?_map, h1, g1, Option.map_some] at this
      rw [this]; exact g3
  · intro hm k hk
    rcases hs k hk with h | ⟨h, -⟩
    · have := h.probabilistic; rw [hp k hk, hm] at this; cases this
    · have := h.rows; rw [hlen k hk] at this; exact this

end

section
variable {env : Env F G} {args : Args} {options : Config.Options F}

/-- Everything before the run, with the agents the model starts with. -/
theorem Accepted.activity_created {s : ActivitySettings F} (he : env.Safe) (h : Accepted env args options) (hs : options.settings = .activity s)
    (hc : SaneContacts s options.network.nAgents) :
    ∃ m : Activity (ActivityAgent F) F G, m.Sound ∧ m.p = s ∧ m.counter.maxIterations = s.maxIterations.map Network.toSize ∧
      m.network.agents.length = options.network.nAgents ∧
      (∀ i, i < s.nBots → ∃ a, m.network.agents[i]? = some a ∧ s.botOpinion[i]? = some a.opinion ∧ s.botActivity[i]? = some a.activity) ∧
      (∃ g, m.network.agents = Activity.createdAgents env.math env.rng s (List.replicate options.network.nAgents default) g) ∧
      ∀ fuel, main env args fuel =
        (Simulation.run (Activity.machine env.math env.pick env.rng) (render env .activity) options.output fuel m).map (·.2) := by
  obtain ⟨N, g, hN, hwf, hag, hin⟩ := nConnections_total (A := ActivityAgent F) he.rng options.network.nAgents options.network.nConnections true
    (env.seed options.rngSeed)
  have hlen : N.agents.length = options.network.nAgents := by rw [hag]; simp
  have hv : ValidActivity s := by have := h.validModel.2; rw [hs] at this; exact this
  obtain ⟨m, h1, h2, h3, h4, h5, h6⟩ := Activity.create_sound env.math env.rng hv hwf hin (by rw [hlen]; exact h.size) (by rw [hlen]; exact hc) g
  have hagents : m.network.agents = Activity.createdAgents env.math env.rng s N.agents g := by
    have e := Activity.create_eq env.math env.rng (p := s) (N := N) g (by rw [hlen]; exact hc.bots) hv.botOpinion hv.botActivity
    rw [h1] at e
    rw [Except.ok.inj e]
    by_cases hm : s.meanWeights <;> simp [hm]
  refine ⟨m, h2, h3, h4, h5.trans hlen, h6, ⟨g, by rw [hagents, hag]⟩, fun fuel => ?_⟩
  have hk : kindOf options = .activity := by unfold kindOf; rw [hs]
  rw [h.main_eq fuel]
  rw [hk]
  have hN' : NetworkGen.nConnections (A := Agent F .activity) env.rng options.network.nAgents options.network.nConnections true
      (env.seed options.rngSeed) = .ok (N, g) := hN
  have hc := (C56_compatible env options h.matching g).2.1 s hs N
  rw [h1, Res.bind_ok] at hc
  rw [hN', Res.bind_ok]
  dsimp only
  rw [hc, Res.bind_ok, (embeds_activity env).run]
  cases Simulation.run (Activity.machine env.math env.pick env.rng) (render env .activity) options.output fuel m <;> rfl

/-- Everything before the run. -/
theorem Accepted.activity {s : ActivitySettings F} (he : env.Safe) (h : Accepted env args options) (hs : options.settings = .activity s)
    (hc : SaneContacts s options.network.nAgents) :
    ∃ m : Activity (ActivityAgent F) F G, m.Sound ∧ m.p = s ∧ m.counter.maxIterations = s.maxIterations.map Network.toSize ∧
      m.network.agents.length = options.network.nAgents ∧
      (∀ i, i < s.nBots → ∃ a, m.network.agents[i]? = some a ∧ s.botOpinion[i]? = some a.opinion ∧ s.botActivity[i]? = some a.activity) ∧
      ∀ fuel, main env args fuel =
        (Simulation.run (Activity.machine env.math env.pick env.rng) (render env .activity) options.output fuel m).map (·.2) := by
  obtain ⟨m, h1, h2, h3, h4, h5, -, h6⟩ := h.activity_created he hs hc
  exact ⟨m, h1, h2, h3, h4, h5, h6⟩

/-- `C59_activity`, with the states of the run. -/
theorem activity_states {s : ActivitySettings F} (he : env.Safe) (h : Accepted env args options) (hout : SaneOutput options)
    (hs : options.settings = .activity s) (hc : SaneContacts s options.network.nAgents) {K : Nat} (hK : s.maxIterations = some (K : Int))
    (hK' : K < 2 ^ 31) {fuel : Nat} (hf : K ≤ fuel) :
    ∃ (m : Activity (ActivityAgent F) F G) (st : Nat → Activity (ActivityAgent F) F G) (tr : List FileWrite), main env args fuel = .ok tr ∧
      List.Forall₂ (Fulfils (render env .activity)) tr (wanted options.output (fun k => (st k).network) K) ∧
      ActivityRun s options.network.nAgents K (fun k => (st k).network) ∧ m.Sound ∧ m.p = s ∧
      (∃ g, m.network.agents = Activity.createdAgents env.math env.rng s (List.replicate options.network.nAgents default) g) ∧
      ∀ k, k ≤ K → Iterates (Activity.iteration env.math env.pick env.rng) m.reset k (st k) := by
  obtain ⟨m, hr, hp, hmax, hlen, hbots, hcr, hmain⟩ := h.activity_created he hs hc
  have hmax' : m.counter.maxIterations = some K := by rw [hmax, hK, Option.map_some, toSize_nat hK']
  obtain ⟨st, tr, hrun, h0, hI, hfiles, hstep⟩ := (Activity.countedSound (A := ActivityAgent F) he.pick env.rng K).files (render env .activity)
    hout.agents hout.network (s := m) ⟨hr, hmax'⟩ hf
  have h42 : ∀ k, k ≤ K → _ := fun k hk => C42_activity (hI k hk).1
  have hnet0 : (st 0).network = m.network := by rw [h0]; rfl
  have hp' : ∀ k, k ≤ K → (st k).p = s := fun k hk => (h42 k hk).2.2.1.trans hp
  have hact : ∀ k, k ≤ K → (st k).network.agents.map ActiveAgent.activity = (st 0).network.agents.map ActiveAgent.activity := by
    intro k hk; rw [hnet0]; exact (h42 k hk).1
  have hlenk : ∀ k, k ≤ K → (st k).network.agents.length = options.network.nAgents := by
    intro k hk
    have := congrArg List.length (hact k hk)
    simp only [List.length_map, hnet0] at this
    rw [this, hlen]
  refine ⟨m, st, tr, by rw [hmain, hrun]; rfl, hfiles, ActivityRun.of (fun k hk => (hI k hk).2.1) hp' (hlenk 0 (by omega)) hact ?_ ?_ ?_ ?_,
    hr, hp, hcr, fun k hk => (hI k hk).1⟩
  · intro k hk; rw [hnet0]; exact (h42 k hk).2.1
  · rw [hnet0]; exact hbots
  · intro k hpos hk i hi
    have := (h42 k hk).2.2.2 hpos i
    rw [show (Machine.reset (Activity.machine env.math env.pick env.rng) m).p = s from hp] at this
    exact this hi
  · intro hm k h1 hk i hi
    obtain ⟨k, rfl⟩ : ∃ j, k = j + 1 := ⟨k - 1, by omega⟩
    obtain ⟨u, hu, -, hsim⟩ := (hI k (by omega)).2.1.step he.pick env.rng
    obtain rfl := Except.ok.inj (hu.symm.trans (hstep k (by omega)))
    exact hsim (by rw [hp' k (by omega)]; exact hm) i (by rw [hlenk k (by omega)]; exact hi)

/-- C59, activity-driven model: with an accepted configuration with `max_iterations = K`, enough agents and non-zero output intervals the whole
program completes for every random outcome; the files it writes are those wanted (C52) for `K` iterations with networks as described by
`ActivityRun`. -/
theorem C59_activity {s : ActivitySettings F} (he : env.Safe) (h : Accepted env args options) (hout : SaneOutput options)
    (hs : options.settings = .activity s) (hc : SaneContacts s options.network.nAgents) {K : Nat} (hK : s.maxIterations = some (K : Int))
    (hK' : K < 2 ^ 31) {fuel : Nat} (hf : K ≤ fuel) :
    ∃ (N : Nat → Network (ActivityAgent F) F) (tr : List FileWrite), main env args fuel = .ok tr ∧
      List.Forall₂ (Fulfils (render env .activity)) tr (wanted options.output N K) ∧ ActivityRun s options.network.nAgents K N := by
  obtain ⟨m, st, tr, h1, h2, h3, -⟩ := activity_states he h hout hs hc hK hK' hf
  exact ⟨_, tr, h1, h2, h3⟩

/-- C59: without `max_iterations` the program never ends, but it never fails either. -/
theorem C59_endless_activity {s : ActivitySettings F} (he : env.Safe) (h : Accepted env args options) (hout : SaneOutput options)
    (hs : options.settings = .activity s) (hc : SaneContacts s options.network.nAgents) (hK : s.maxIterations = none) (fuel : Nat) :
    main env args fuel = .error .fuel := by
  obtain ⟨m, hr, hp, hmax, hlen, hbots, hmain⟩ := h.activity he hs hc
  rw [hK, Option.map_none] at hmax
  have hstep : ∀ t : Activity (ActivityAgent F) F G, (t.Sound ∧ t.counter.maxIterations = none) →
      ∃ u, Activity.iteration env.math env.pick env.rng t = .ok u ∧ (u.Sound ∧ u.counter.maxIterations = none) := by
    rintro t ⟨h1, h2⟩
    obtain ⟨u, hu, h3, -⟩ := h1.step he.pick env.rng
    exact ⟨u, hu, h3, by rw [(Activity.iteration_frame hu).2.2]; exact h2⟩
  rw [hmain]
  rcases run_safe (M := Activity.machine env.math env.pick env.rng) (fun t => t.Sound ∧ t.counter.maxIterations = none)
    (fun s hs => ⟨hs.1.reset, hs.2⟩) hstep (fun s hs => hs.1.wf) (render env .activity) hout.agents hout.network fuel (s := m) ⟨hr, hmax⟩ with ⟨t, ht⟩ | ht
  · exact absurd ht (C51_never (fun t => t.Sound ∧ t.counter.maxIterations = none) (fun s hs => ⟨hs.1.reset, hs.2⟩)
      (fun s t hs ht => by obtain ⟨u, hu, hI⟩ := hstep s hs; obtain rfl := Except.ok.inj (hu.symm.trans ht); exact hI)
      (fun s hs => by show s.counter.finished = false; unfold Counter.finished; rw [hs.2]) _ _ fuel ⟨hr, hmax⟩ t)
  · rw [ht]; rfl

/-! ### inertial model -/

theorem Inertial.step {o : MathOps F} {pick : List (Nat × F) → Nat} (hp : Reservoir.Pick.Valid pick) (r : Rng G F)
    {s : Inertial F G} (h : s.base.Sound) : ∃ t, Inertial.iteration o pick r s = .ok t ∧ t.base.Sound ∧
      (s.base.p.meanWeights = false → ∀ i, i < s.base.network.agents.length →
        ((row t.base.network i).map (·.1)).Nodup ∧ ∀ e ∈ row t.base.network i, e.2 = 1) := by
  rcases h with h | ⟨h, hw⟩
  · obtain ⟨_, _, _, t, ht, hf, -⟩ := C43_inertial (o := o) hp r h
    exact ⟨t, ht, .inl (Inertial.ready_next hp h ht), fun _ i hi => ⟨hf.nodup i, hf.ones i⟩⟩
  · obtain ⟨t, ht, hr, hw⟩ := Inertial.mean_step o pick r h
    exact ⟨t, ht, .inr ⟨hr, hw⟩, fun hm => by rw [h.mean] at hm; cases hm⟩

theorem Inertial.countedSound {o : MathOps F} {pick : List (Nat × F) → Nat} (hp : Reservoir.Pick.Valid pick)
    (r : Rng G F) (K : Nat) : (Inertial.machine o pick r).Counted (fun s => s.base.Sound ∧ s.base.counter.maxIterations = some K) K where
  counts := Inertial.counts (F := F) o pick r
  net _ := rfl
  keep _ hs := ⟨hs.1.reset, hs.2⟩
  step := by
    rintro s ⟨h1, h2⟩
    obtain ⟨t, ht, hs, -⟩ := Inertial.step hp r h1
    exact ⟨t, ht, hs, by rw [(Inertial.iteration_frame ht).2.2.1]; exact h2⟩
  stop := by
    rintro s ⟨-, h2⟩
    simp [Inertial.machine, Inertial.finished, Counter.finished, h2]
  wf _ hs := hs.1.wf

/-- Everything before the run. -/
theorem Accepted.inertial {s : Config.InertialSettings F} (he : env.Safe) (h : Accepted env args options) (hs : options.settings = .inertial s)
    (hc : SaneContacts s.base options.network.nAgents) :
    ∃ m : Inertial F G, m.base.Sound ∧ m.base.p = s.base ∧ m.friction = s.friction ∧
      m.base.counter.maxIterations = s.base.maxIterations.map Network.toSize ∧ m.base.network.agents.length = options.network.nAgents ∧
      (∀ i, i < s.base.nBots → ∃ a, m.base.network.agents[i]? = some a ∧ s.base.botOpinion[i]? = some a.opinion ∧
        s.base.botActivity[i]? = some a.activity) ∧
      ∀ fuel, main env args fuel =
        (Simulation.run (Inertial.machine env.math env.pick env.rng) (render env .inertial) options.output fuel m).map (·.2) := by
  obtain ⟨N, g, hN, hwf, hag, hin⟩ := nConnections_total (A := InertialAgent F) he.rng options.network.nAgents options.network.nConnections true
    (env.seed options.rngSeed)
  have hlen : N.agents.length = options.network.nAgents := by rw [hag]; simp
  have hv : 0 ≤ s.friction ∧ ValidActivity s.base := by have := h.validModel.2; rw [hs] at this; exact this
  obtain ⟨m, h1, h2, h3, h4, h5, h6⟩ := Activity.create_sound env.math env.rng hv.2 hwf hin (by rw [hlen]; exact h.size) (by rw [hlen]; exact hc) g
  refine ⟨⟨m, s.friction⟩, h2, h3, rfl, h4, h5.trans hlen, h6, fun fuel => ?_⟩
  have hk : kindOf options = .inertial := by unfold kindOf; rw [hs]
  rw [h.main_eq fuel]
  rw [hk]
  have hN' : NetworkGen.nConnections (A := Agent F .inertial) env.rng options.network.nAgents options.network.nConnections true
      (env.seed options.rngSeed) = .ok (N, g) := hN
  have hc := (C56_compatible env options h.matching g).2.2.1 s hs N
  rw [h1, Res.bind_ok] at hc
  rw [hN', Res.bind_ok]
  dsimp only
  rw [hc, Res.bind_ok, (embeds_inertial env).run]
  cases Simulation.run (Inertial.machine env.math env.pick env.rng) (render env .inertial) options.output fuel ⟨m, s.friction⟩ <;> rfl

/-- C59, inertial model. -/
theorem C59_inertial {s : Config.InertialSettings F} (he : env.Safe) (h : Accepted env args options) (hout : SaneOutput options)
    (hs : options.settings = .inertial s) (hc : SaneContacts s.base options.network.nAgents) {K : Nat} (hK : s.base.maxIterations = some (K : Int))
    (hK' : K < 2 ^ 31) {fuel : Nat} (hf : K ≤ fuel) :
    ∃ (N : Nat → Network (InertialAgent F) F) (tr : List FileWrite), main env args fuel = .ok tr ∧
      List.Forall₂ (Fulfils (render env .inertial)) tr (wanted options.output N K) ∧ ActivityRun s.base options.network.nAgents K N := by
  obtain ⟨m, hr, hp, -, hmax, hlen, hbots, hmain⟩ := h.inertial he hs hc
  have hmax' : m.base.counter.maxIterations = some K := by rw [hmax, hK, Option.map_some, toSize_nat hK']
  obtain ⟨st, tr, hrun, h0, hI, hfiles, hstep⟩ := (Inertial.countedSound he.pick env.rng K).files (render env .inertial)
    hout.agents hout.network (s := m) ⟨hr, hmax'⟩ hf
  have h42 : ∀ k, k ≤ K → _ := fun k hk => C42_inertial (hI k hk).1
  have hnet0 : (st 0).base.network = m.base.network := by rw [h0]; rfl
  have hp' : ∀ k, k ≤ K → (st k).base.p = s.base := fun k hk => (h42 k hk).2.2.1.trans hp
  have hact : ∀ k, k ≤ K → (st k).base.network.agents.map ActiveAgent.activity = (st 0).base.network.agents.map ActiveAgent.activity := by
    intro k hk; rw [hnet0]; exact (h42 k hk).1
  have hlenk : ∀ k, k ≤ K → (st k).base.network.agents.length = options.network.nAgents := by
    intro k hk
    have := congrArg List.length (hact k hk)
    simp only [List.length_map, hnet0] at this
    rw [this, hlen]
  refine ⟨fun k => (st k).base.network, tr, by rw [hmain, hrun]; rfl, hfiles,
    ActivityRun.of (b := fun k => (st k).base) (fun k hk => (hI k hk).2.1) hp' (hlenk 0 (by omega)) hact ?_ ?_ ?_ ?_⟩
  · intro k hk; rw [hnet0]; exact (h42 k hk).2.1
  · rw [hnet0]; exact hbots
  · intro k hpos hk i hi
    have := (h42 k hk).2.2.2.2 hpos i
    rw [show (Machine.reset (Inertial.machine env.math env.pick env.rng) m).base.p = s.base from hp] at this
    exact this hi
  · intro hm k h1 hk i hi
    obtain ⟨k, rfl⟩ : ∃ j, k = j + 1 := ⟨k - 1, by omega⟩
    obtain ⟨u, hu, -, hsim⟩ := Inertial.step he.pick env.rng (hI k (by omega)).2.1
    obtain rfl := Except.ok.inj (hu.symm.trans (hstep k (by omega)))
    exact hsim (by rw [hp' k (by omega)]; exact hm) i (by rw [hlenk k (by omega)]; exact hi)

/-- C59: without `max_iterations` the program never ends, but it never fails either. -/
theorem C59_endless_inertial {s : Config.InertialSettings F} (he : env.Safe) (h : Accepted env args options) (hout : SaneOutput options)
    (hs : options.settings = .inertial s) (hc : SaneContacts s.base options.network.nAgents) (hK : s.base.maxIterations = none) (fuel : Nat) :
    main env args fuel = .error .fuel := by
  obtain ⟨m, hr, hp, -, hmax, hlen, hbots, hmain⟩ := h.inertial he hs hc
  rw [hK, Option.map_none] at hmax
  have hstep : ∀ t : Inertial F G, (t.base.Sound ∧ t.base.counter.maxIterations = none) →
      ∃ u, Inertial.iteration env.math env.pick env.rng t = .ok u ∧ (u.base.Sound ∧ u.base.counter.maxIterations = none) := by
    rintro t ⟨h1, h2⟩
    obtain ⟨u, hu, h3, -⟩ := Inertial.step he.pick env.rng h1
    exact ⟨u, hu, h3, by rw [(Inertial.iteration_frame hu).2.2.1]; exact h2⟩
  rw [hmain]
  rcases run_safe (M := Inertial.machine env.math env.pick env.rng) (fun t => t.base.Sound ∧ t.base.counter.maxIterations = none)
    (fun s hs => ⟨hs.1.reset, hs.2⟩) hstep (fun s hs => hs.1.wf) (render env .inertial) hout.agents hout.network fuel (s := m) ⟨hr, hmax⟩ with ⟨t, ht⟩ | ht
  · exact absurd ht (C51_never (fun t => t.base.Sound ∧ t.base.counter.maxIterations = none) (fun s hs => ⟨hs.1.reset, hs.2⟩)
      (fun s t hs ht => by obtain ⟨u, hu, hI⟩ := hstep s hs; obtain rfl := Except.ok.inj (hu.symm.trans ht); exact hI)
      (fun s hs => by show s.base.counter.finished = false; unfold Counter.finished; rw [hs.2]) _ _ fuel ⟨hr, hmax⟩ t)
  · rw [ht]; rfl

end

/-! ## concrete cases -/

/-- Five agents, one of them a bot that contacts two agents; the others contact three. -/
def Config.activityDoc : Config.Doc ℚ := fun s k =>
  if s = "simulation" ∧ k = "model" then some (.str "ActivityDriven")
  else if s = "network" ∧ k = "number_of_agents" then some (.int 5)
  else if s = "network" ∧ k = "connections_per_agent" then some (.int 1)
  else if s = "model" ∧ k = "max_iterations" then some (.int 4)
  else if s = "io" ∧ k = "n_output_network" then some (.int 2)
  else if s = "ActivityDriven" ∧ k = "m" then some (.int 3)
  else if s = "ActivityDriven" ∧ k = "n_bots" then some (.int 1)
  else if s = "ActivityDriven" ∧ k = "bot_m" then some (.arr [.int 2])
  else if s = "ActivityDriven" ∧ k = "bot_opinion" then some (.arr [.float 2])
  else none

/-- What is read for the model. -/
def Config.activitySettings : ActivitySettings ℚ where
  maxIterations := some 4
  dt := lit 1 100
  m := 3
  eps := lit 1 100
  gamma := lit 21 10
  alpha := lit 3 1
  homophily := lit 1 2
  reciprocity := lit 1 2
  K := lit 3 1
  meanActivities := false
  meanWeights := false
  nBots := 1
  botM := [2]
  botActivity := [1]
  botOpinion := [2]
  botHomophily := [lit 1 2]
  useReluctances := false
  reluctanceMean := lit 1 1
  reluctanceSigma := lit 1 4
  reluctanceEps := lit 1 100
  covarianceFactor := lit 0 1

/-- What is read from this file. -/
def Config.activityOptions : Config.Options ℚ where
  model := .activityDriven
  modelString := "ActivityDriven"
  rngSeed := 7
  output := { nOutputNetwork := some 2, nOutputAgents := none, printProgress := false, outputInitial := true, startOutput := 1, startNumberingFrom := 0 }
  settings := .activity Config.activitySettings
  network := ⟨none, 5, 1⟩

theorem activityDoc_accepted : Accepted (Env.sample Config.activityDoc) ⟨"conf.toml", none, none, none⟩ Config.activityOptions :=
  ⟨⟨_, rfl, by with_unfolding_all rfl⟩, by decide +kernel, rfl, rfl, by decide⟩

theorem activitySettings_sane : SaneContacts Config.activitySettings 5 where
  m := by decide
  bots := by decide
  botM i k hi hk := by
    obtain rfl : i = 0 := by have : i < 1 := hi; omega
    obtain rfl := Option.some.inj hk
    decide

-- the hypotheses of C59_activity are met: two initial files, and the networks after iterations 2 and 4
example : ∃ tr, main (Env.sample Config.activityDoc) ⟨"conf.toml", none, none, none⟩ 4 = .ok tr ∧ tr.length = 4 := by
  obtain ⟨N, tr, h, hf, -⟩ := C59_activity (Env.sample_lawful _).safe activityDoc_accepted ⟨by decide, by decide⟩ rfl activitySettings_sane (K := 4) rfl
    (by decide) (fuel := 4) (le_refl 4)
  refine ⟨tr, h, ?_⟩
  rw [hf.length_eq]
  rfl

/-- The same for the inertial model with mean-field weights. -/
def Config.inertialDoc : Config.Doc ℚ := fun s k =>
  if s = "simulation" ∧ k = "model" then some (.str "ActivityDrivenInertial")
  else if s = "ActivityDrivenInertial" ∧ k = "mean_weights" then some (.bool true)
  else if s = "ActivityDrivenInertial" then Config.activityDoc "ActivityDriven" k
  else Config.activityDoc s k

example : ∃ tr, main (Env.sample Config.inertialDoc) ⟨"conf.toml", none, none, none⟩ 4 = .ok tr := by
  have h : Accepted (Env.sample Config.inertialDoc) ⟨"conf.toml", none, none, none⟩
      { Config.activityOptions with
        model := .activityDrivenInertial
        modelString := "ActivityDrivenInertial"
        settings := .inertial ⟨{ Config.activitySettings with meanWeights := true }, 1⟩ } :=
    ⟨⟨_, rfl, by with_unfolding_all rfl⟩, by decide +kernel, rfl, rfl, by decide⟩
  obtain ⟨N, tr, h, -⟩ := C59_inertial (Env.sample_lawful _).safe h ⟨by decide, by decide⟩ rfl
    ⟨activitySettings_sane.m, activitySettings_sane.bots, activitySettings_sane.botM⟩ (K := 4) rfl (by decide) (fuel := 4) (le_refl 4)
  exact ⟨tr, h⟩

end Seldon
