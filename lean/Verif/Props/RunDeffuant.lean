import Verif.Props.Program
import Mathlib.Tactic.IntervalCases
import Batteries.Lean.Except
/-!
# Property C57: whole runs of the Deffuant models
-/
set_option linter.unusedSectionVars false
namespace Seldon
open Spec Simulation Program NetworkGen
variable {F G A : Type}

/-- The constructor of the Deffuant models, for a number of agents that is a square if the lattice is used. -/
theorem Deffuant.create_ready [Inhabited A] [Zero F] {isqrt : Nat → Nat} (hs : ∀ L, L * L < 2 ^ 31 → isqrt (L * L) = L) (max : Option Int) (thr mu : F)
    {use : Bool} {N : Network A F} (hwf : WF N) (hn : N.agents.length < 2 ^ 31) (hsq : use = true → IsSquare N.agents.length) (g : G) :
    ∃ m : Deffuant A F G, Deffuant.create isqrt max thr mu use N g = .ok m ∧ m.Ready ∧ m.threshold = thr ∧ m.mu = mu ∧
      m.network.agents.length = N.agents.length ∧ m.counter = ⟨max.map Network.toSize, 0⟩ := by
  cases use with
  | false =>
    exact ⟨_, C38_plain isqrt max thr mu N g, ⟨hwf, by show N.agents.length < 2 ^ 64; omega, by intro h; cases h⟩, rfl, rfl, rfl, rfl⟩
  | true =>
    obtain ⟨L, hL⟩ := hsq rfl
    obtain ⟨M, -, hlen, hc, hr⟩ := C38_square isqrt max thr mu N g hL (hs L (by omega))
    exact ⟨_, hc, hr (by omega), rfl, rfl, hlen, rfl⟩

section
variable [Zero F] [One F] [Sub F] [Mul F] [Add F] [Div F] [Neg F] [NatCast F] [IntCast F] [LT F] [LE F] [DecidableLT F] [DecidableLE F]

variable {env : Env F G} {args : Args} {options : Config.Options F} {s : Config.DeffuantSettings F}

/-- Everything before the run: the network is generated, the model is constructed with the initial opinions `i/n`. -/
theorem Accepted.deffuant (he : env.Safe) (h : Accepted env args options) (hs : options.settings = .deffuant s) (hb : s.useBinaryVector = false)
    (hsq : s.useNetwork = true → IsSquare options.network.nAgents) :
    ∃ m1 m : Deffuant (SimpleAgent F) F G, Deffuant.initializeAgents m1 = .ok m ∧ m1.mu = s.mu ∧ m.Ready ∧ m.mu = s.mu ∧ m.threshold = s.threshold ∧
      m.counter.maxIterations = s.maxIterations.map Network.toSize ∧
      opinions m.network.agents = (List.range options.network.nAgents).map (fun i : Nat => (i : F) / (options.network.nAgents : F)) ∧
      ∀ fuel, main env args fuel =
        (Simulation.run (Deffuant.machine env.rng Deffuant.updateRule) (render env .simple) options.output fuel m).map (·.2) := by
  obtain ⟨N, g, hN, hwf, hag, -⟩ := nConnections_total (A := SimpleAgent F) he.rng options.network.nAgents options.network.nConnections true
    (env.seed options.rngSeed)
  have hlen : N.agents.length = options.network.nAgents := by rw [hag]; simp
  obtain ⟨m1, h1, hr1, ht1, hmu1, hl1, hc1⟩ := Deffuant.create_ready (A := SimpleAgent F) he.isqrt s.maxIterations s.threshold s.mu (use := s.useNetwork) hwf
    (by rw [hlen]; exact h.size) (by rw [hlen]; exact hsq) g
  obtain ⟨m, h2, hr2, hmu2, ht2, hc2, ho2⟩ := Deffuant.initializeAgents_safe hr1
  refine ⟨m1, m, h2, hmu1, hr2, hmu2.trans hmu1, ht2.trans ht1, by rw [hc2, hc1], by rw [ho2, hl1, hlen], fun fuel => ?_⟩
  have hk : kindOf options = .simple := by unfold kindOf; rw [hs]; simp [hb]
  rw [h.main_eq fuel]
  rw [hk]
  have hN' : NetworkGen.nConnections (A := Agent F .simple) env.rng options.network.nAgents options.network.nConnections true
      (env.seed options.rngSeed) = .ok (N, g) := hN
  have hc := (C56_compatible env options h.matching g).2.2.2.1 s hs hb N
  rw [h1, Res.bind_ok, h2, Res.bind_ok] at hc
  rw [hN', Res.bind_ok]
  dsimp only
  rw [hc, Res.bind_ok, (embeds_deffuant env).run]
  cases Simulation.run (Deffuant.machine env.rng Deffuant.updateRule) (render env .simple) options.output fuel m <;> rfl

/-- C57: with `use_network` and a number of agents that is not a square, the program always ends with an exception before any file is written. -/
theorem C57_not_square (he : env.Safe) (h : Accepted env args options) (hs : options.settings = .deffuant s) (hu : s.useNetwork = true)
    (hsq : ¬ IsSquare options.network.nAgents) (fuel : Nat) : main env args fuel = .error (.exn "runtime_error") := by
  have key : ∀ (A : Type) [Inhabited A], ∃ (N : Network A F) (g : G), NetworkGen.nConnections env.rng options.network.nAgents options.network.nConnections true
      (env.seed options.rngSeed) = .ok (N, g) ∧ ∀ max thr mu, Deffuant.create env.isqrt max thr mu s.useNetwork N g = .error (.exn "runtime_error") := by
    intro A _
    obtain ⟨N, g, hN, hwf, hag, -⟩ := nConnections_total (A := A) he.rng options.network.nAgents options.network.nConnections true
      (env.seed options.rngSeed)
    refine ⟨N, g, hN, fun max thr mu => ?_⟩
    rw [hu]
    exact C38_throws env.isqrt max thr mu N g (by rw [hag]; simpa using hsq)
  rw [h.main_eq fuel]
  by_cases hb : s.useBinaryVector = true
  · have hk : kindOf options = .vector := by unfold kindOf; rw [hs]; simp [hb]
    rw [hk]
    obtain ⟨N, g, hN, hc⟩ := key DiscreteVectorAgent
    have hN' : NetworkGen.nConnections (A := Agent F .vector) env.rng options.network.nAgents options.network.nConnections true
      (env.seed options.rngSeed) = .ok (N, g) := hN
    have := (C56_compatible env options h.matching g).2.2.2.2 s hs hb N
    rw [hc, Res.bind_error] at this
    rw [hN', Res.bind_ok]
    dsimp only
    rw [this, Res.bind_error]
  · have hb : s.useBinaryVector = false := by simpa using hb
    have hk : kindOf options = .simple := by unfold kindOf; rw [hs]; simp [hb]
    rw [hk]
    obtain ⟨N, g, hN, hc⟩ := key (SimpleAgent F)
    have hN' : NetworkGen.nConnections (A := Agent F .simple) env.rng options.network.nAgents options.network.nConnections true
      (env.seed options.rngSeed) = .ok (N, g) := hN
    have := (C56_compatible env options h.matching g).2.2.2.1 s hs hb N
    rw [hc, Res.bind_error] at this
    rw [hN', Res.bind_ok]
    dsimp only
    rw [this, Res.bind_error]


/-- C57: without `max_iterations` the program never ends, but it never fails either, for every random outcome. -/
theorem C57_endless (he : env.Safe) (h : Accepted env args options) (hout : SaneOutput options) (hs : options.settings = .deffuant s)
    (hb : s.useBinaryVector = false) (hsq : s.useNetwork = true → IsSquare options.network.nAgents) (hK : s.maxIterations = none) (fuel : Nat) :
    main env args fuel = .error .fuel := by
  obtain ⟨m1, m, hi, hmu1, hr, hmu, -, hmax, ho, hmain⟩ := h.deffuant he hs hb hsq
  rw [hK, Option.map_none] at hmax
  have hstep : ∀ s : Deffuant (SimpleAgent F) F G, (s.Ready ∧ s.counter.maxIterations = none) → ∃ t, s.iteration env.rng Deffuant.updateRule = .ok t ∧
      (t.Ready ∧ t.counter.maxIterations = none) := by
    rintro s ⟨h1, h2⟩
    obtain ⟨t, ht, hF⟩ := Deffuant.iteration_safe he.rng h1
    exact ⟨t, ht, hF.ready h1, hF.max.trans h2⟩
  rw [hmain]
  rcases run_safe (M := Deffuant.machine env.rng Deffuant.updateRule) (fun s => s.Ready ∧ s.counter.maxIterations = none)
    (fun s hs => ⟨⟨hs.1.wf, hs.1.size, hs.1.rows⟩, hs.2⟩) hstep (fun s hs => hs.1.wf) (render env .simple) hout.agents hout.network fuel (s := m) ⟨hr, hmax⟩
    with ⟨t, ht⟩ | ht
  · exact absurd ht (C51_never (fun s => s.Ready ∧ s.counter.maxIterations = none) (fun s hs => ⟨⟨hs.1.wf, hs.1.size, hs.1.rows⟩, hs.2⟩)
      (fun s t hs ht => by obtain ⟨u, hu, hI⟩ := hstep s hs; obtain rfl := Except.ok.inj (hu.symm.trans ht); exact hI)
      (fun s hs => by show s.counter.finished = false; unfold Counter.finished; rw [hs.2]) _ _ fuel ⟨hr, hmax⟩ t)
  · rw [ht]; rfl

/-! ### binary vectors -/

/-- Everything before the run. -/
theorem Accepted.deffuantVector (he : env.Safe) (h : Accepted env args options) (hs : options.settings = .deffuant s) (hb : s.useBinaryVector = true)
    (hsq : s.useNetwork = true → IsSquare options.network.nAgents) :
    ∃ m1 m : Deffuant DiscreteVectorAgent F G, Deffuant.initializeVectors env.rng s.dim m1 = .ok m ∧ m.Ready ∧ m.mu = s.mu ∧ m.threshold = s.threshold ∧
      m.counter.maxIterations = s.maxIterations.map Network.toSize ∧ m1.network.agents.length = options.network.nAgents ∧
      (∀ x ∈ m.network.agents, x.opinion.length = s.dim) ∧
      ∀ fuel, main env args fuel =
        (Simulation.run (Deffuant.machine env.rng (Deffuant.updateVector env.rng)) (render env .vector) options.output fuel m).map (·.2) := by
  obtain ⟨N, g, hN, hwf, hag, -⟩ := nConnections_total (A := DiscreteVectorAgent) he.rng options.network.nAgents options.network.nConnections true
    (env.seed options.rngSeed)
  have hlen : N.agents.length = options.network.nAgents := by rw [hag]; simp
  obtain ⟨m1, h1, hr1, ht1, hmu1, hl1, hc1⟩ := Deffuant.create_ready (A := DiscreteVectorAgent) he.isqrt s.maxIterations s.threshold s.mu
    (use := s.useNetwork) hwf (by rw [hlen]; exact h.size) (by rw [hlen]; exact hsq) g
  obtain ⟨m, h2, hF, hc2, hd, -⟩ := Deffuant.initializeVectors_ok he.rng s.dim m1
  refine ⟨m1, m, h2, hF.ready hr1, hF.mu.trans hmu1, hF.threshold.trans ht1, by rw [hc2, hc1], hl1.trans hlen, hd, fun fuel => ?_⟩
  have hk : kindOf options = .vector := by unfold kindOf; rw [hs]; simp [hb]
  rw [h.main_eq fuel]
  rw [hk]
  have hN' : NetworkGen.nConnections (A := Agent F .vector) env.rng options.network.nAgents options.network.nConnections true
      (env.seed options.rngSeed) = .ok (N, g) := hN
  have hc := (C56_compatible env options h.matching g).2.2.2.2 s hs hb N
  rw [h1, Res.bind_ok, h2, Res.bind_ok] at hc
  rw [hN', Res.bind_ok]
  dsimp only
  rw [hc, Res.bind_ok, (embeds_vector env).run]
  cases Simulation.run (Deffuant.machine env.rng (Deffuant.updateVector env.rng)) (render env .vector) options.output fuel m <;> rfl

/-- C57, binary vectors: the whole program completes for every random outcome after `K = max_iterations` iterations; the files it writes are those
wanted for networks `N 0, ..., N K`, each with `n` agents whose opinions are vectors of `dim` zeros and ones. -/
theorem C57_vector (he : env.Safe) (h : Accepted env args options) (hout : SaneOutput options) (hs : options.settings = .deffuant s)
    (hb : s.useBinaryVector = true) (hsq : s.useNetwork = true → IsSquare options.network.nAgents) {K : Nat} (hK : s.maxIterations = some (K : Int))
    (hK' : K < 2 ^ 31) {fuel : Nat} (hf : K ≤ fuel) :
    ∃ (N : Nat → Network DiscreteVectorAgent F) (tr : List FileWrite), main env args fuel = .ok tr ∧
      List.Forall₂ (Fulfils (render env .vector)) tr (wanted options.output N K) ∧
      ∀ k, k ≤ K → (N k).agents.length = options.network.nAgents ∧
        ∀ a ∈ (N k).agents, a.opinion.length = s.dim ∧ ∀ v ∈ a.opinion, v = 0 ∨ v = 1 := by
  obtain ⟨m1, m, hi, hr, hmu, -, hmax, hlen, hd, hmain⟩ := h.deffuantVector he hs hb hsq
  have hmax' : m.counter.maxIterations = some K := by rw [hmax, hK, Option.map_some, toSize_nat hK']
  obtain ⟨st, tr, hrun, h0, hI, hfiles, -⟩ := (Deffuant.countedVector (F := F) he.rng s.dim K).files (render env .vector) hout.agents hout.network
    (s := m) ⟨hr, hd, hmax'⟩ hf
  refine ⟨fun k => (st k).network, tr, ?_, hfiles, fun k hk => ?_⟩
  · rw [hmain, hrun]; rfl
  · have hi' : Deffuant.initializeVectors env.rng s.dim (Deffuant.reset m1) = .ok (Deffuant.reset m) := by
      obtain ⟨ag, e, hi⟩ := Res.bind_eq_ok.mp hi
      obtain rfl := Except.ok.inj hi
      unfold Deffuant.initializeVectors
      exact Res.bind_eq_ok.mpr ⟨ag, e, rfl⟩
    obtain ⟨g1, g2⟩ := C39_binary he.rng hi' (hI k hk).1
    exact ⟨g1.trans hlen, g2⟩

/-- C57: binary vectors without `max_iterations`. -/
theorem C57_endless_vector (he : env.Safe) (h : Accepted env args options) (hout : SaneOutput options) (hs : options.settings = .deffuant s)
    (hb : s.useBinaryVector = true) (hsq : s.useNetwork = true → IsSquare options.network.nAgents) (hK : s.maxIterations = none) (fuel : Nat) :
    main env args fuel = .error .fuel := by
  obtain ⟨m1, m, hi, hr, hmu, -, hmax, hlen, hd, hmain⟩ := h.deffuantVector he hs hb hsq
  rw [hK, Option.map_none] at hmax
  have hstep : ∀ t : Deffuant DiscreteVectorAgent F G, (t.Ready ∧ (∀ x ∈ t.network.agents, x.opinion.length = s.dim) ∧ t.counter.maxIterations = none) →
      ∃ u, t.iteration env.rng (Deffuant.updateVector env.rng) = .ok u ∧
      (u.Ready ∧ (∀ x ∈ u.network.agents, x.opinion.length = s.dim) ∧ u.counter.maxIterations = none) := by
    rintro t ⟨h1, h2, h3⟩
    obtain ⟨u, hu⟩ := Deffuant.iterationVector_total (d := s.dim) he.rng h1 h2
    obtain ⟨hF, hd', -⟩ := Deffuant.iterationVector_inv (d := s.dim) h2 hu
    exact ⟨u, hu, hF.ready h1, hd', hF.max.trans h3⟩
  rw [hmain]
  rcases run_safe (M := Deffuant.machine env.rng (Deffuant.updateVector env.rng))
    (fun t => t.Ready ∧ (∀ x ∈ t.network.agents, x.opinion.length = s.dim) ∧ t.counter.maxIterations = none)
    (fun s hs => ⟨⟨hs.1.wf, hs.1.size, hs.1.rows⟩, hs.2⟩) hstep (fun s hs => hs.1.wf) (render env .vector) hout.agents hout.network fuel (s := m)
    ⟨hr, hd, hmax⟩ with ⟨t, ht⟩ | ht
  · exact absurd ht (C51_never (fun t => t.Ready ∧ (∀ x ∈ t.network.agents, x.opinion.length = s.dim) ∧ t.counter.maxIterations = none)
      (fun s hs => ⟨⟨hs.1.wf, hs.1.size, hs.1.rows⟩, hs.2⟩)
      (fun s t hs ht => by obtain ⟨u, hu, hI⟩ := hstep s hs; obtain rfl := Except.ok.inj (hu.symm.trans ht); exact hI)
      (fun s hs => by show s.counter.finished = false; unfold Counter.finished; rw [hs.2.2]) _ _ fuel ⟨hr, hd, hmax⟩ t)
  · rw [ht]; rfl

end

section
variable [Field F] [LinearOrder F] [IsStrictOrderedRing F] {env : Env F G} {args : Args} {options : Config.Options F} {s : Config.DeffuantSettings F}

/-- C57, scalar opinions: with an accepted configuration, non-zero output intervals and, with `use_network`, a square number of agents, the whole
program completes for every random outcome after `K = max_iterations` iterations; the files it writes are those wanted (C52) for networks
`N 0, ..., N K`, each with `n` agents with opinions in `[0, 1)` and the same sum of opinions; the opinions of `N 0` are `0, 1/n, 2/n, ...`. -/
theorem C57_scalar (he : env.Safe) (h : Accepted env args options) (hout : SaneOutput options) (hs : options.settings = .deffuant s)
    (hb : s.useBinaryVector = false) (hsq : s.useNetwork = true → IsSquare options.network.nAgents) {K : Nat} (hK : s.maxIterations = some (K : Int))
    (hK' : K < 2 ^ 31) {fuel : Nat} (hf : K ≤ fuel) :
    ∃ (N : Nat → Network (SimpleAgent F) F) (tr : List FileWrite), main env args fuel = .ok tr ∧
      List.Forall₂ (Fulfils (render env .simple)) tr (wanted options.output N K) ∧
      opinions (N 0).agents = (List.range options.network.nAgents).map (fun i : Nat => (i : F) / (options.network.nAgents : F)) ∧
      ∀ k, k ≤ K → (N k).agents.length = options.network.nAgents ∧ (∀ x ∈ opinions (N k).agents, 0 ≤ x ∧ x < 1) ∧
        (opinions (N k).agents).sum = (opinions (N 0).agents).sum := by
  obtain ⟨m1, m, hi, hmu1, hr, hmu, -, hmax, ho, hmain⟩ := h.deffuant he hs hb hsq
  have hv : ValidDeffuant s := by have := h.validModel.2; rw [hs] at this; exact this
  have hmax' : m.counter.maxIterations = some K := by rw [hmax, hK, Option.map_some, toSize_nat hK']
  obtain ⟨st, tr, hrun, h0, hI, hfiles, -⟩ := (Deffuant.counted (F := F) he.rng K).files (render env .simple) hout.agents hout.network
    (s := m) ⟨hr, hmax'⟩ hf
  have hst0 : (st 0).network = m.network := by rw [h0]; rfl
  have hlen : m.network.agents.length = options.network.nAgents := by
    have := congrArg List.length ho
    simpa [opinions] using this
  refine ⟨fun k => (st k).network, tr, ?_, hfiles, by simp only [hst0, ho], fun k hk => ?_⟩
  · rw [hmain, hrun]; rfl
  · have hit := (hI k hk).1
    have hi' : Deffuant.initializeAgents (Deffuant.reset m1) = .ok (Deffuant.reset m) := by
      obtain ⟨ag, e, hi⟩ := Res.bind_eq_ok.mp hi
      obtain rfl := Except.ok.inj hi
      unfold Deffuant.initializeAgents
      show (do let agents ← DeGroot.spread m1.network.agents; _) = _
      rw [e]; rfl
    refine ⟨?_, ?_, ?_⟩
    · rw [(Deffuant.iterates_schedule hit).1.n, ← hlen]; rfl
    · exact C34_default (s := Deffuant.reset m1) (by show 0 ≤ m1.mu; rw [hmu1]; exact hv.mu.1) (by show m1.mu ≤ 1; rw [hmu1]; exact hv.mu.2) hi' hit
    · show (opinions (st k).network.agents).sum = (opinions (st 0).network.agents).sum
      rw [C33_sum hit, h0]

end

/-! ## Concrete cases -/

/-- Nine agents on the 3 × 3 lattice, five iterations, opinions written after every second one. -/
def Config.deffuantDoc : Config.Doc ℚ := fun s k =>
  if s = "simulation" ∧ k = "model" then some (.str "Deffuant")
  else if s = "network" ∧ k = "number_of_agents" then some (.int 9)
  else if s = "network" ∧ k = "connections_per_agent" then some (.int 0)
  else if s = "model" ∧ k = "max_iterations" then some (.int 5)
  else if s = "io" ∧ k = "n_output_agents" then some (.int 2)
  else if s = "Deffuant" ∧ k = "use_network" then some (.bool true)
  else none

/-- What is read from this file. -/
def Config.deffuantOptions : Config.Options ℚ where
  model := .deffuant
  modelString := "Deffuant"
  rngSeed := 7
  output := { nOutputNetwork := none, nOutputAgents := some 2, printProgress := false, outputInitial := true, startOutput := 1, startNumberingFrom := 0 }
  settings := .deffuant ⟨some 5, 1 / (5 : Nat), 1 / (2 : Nat), true, false, 1⟩
  network := ⟨none, 9, 0⟩

theorem Config.deffuantDoc_parse : Config.parse Config.strict 7 Config.deffuantDoc = .ok Config.deffuantOptions := by
  with_unfolding_all rfl
theorem Config.deffuantOptions_valid : Config.validate Config.deffuantOptions = .ok () := by
  decide +kernel
theorem deffuantDoc_accepted : Accepted (Env.sample Config.deffuantDoc) ⟨"conf.toml", none, none, none⟩ Config.deffuantOptions where
  config := ⟨_, rfl, Config.deffuantDoc_parse⟩
  valid := Config.deffuantOptions_valid
  noNetworkFile := rfl
  noAgentsFile := rfl
  size := by decide

-- hypotheses of C57_scalar are met: four files are written (initial network, initial opinions, and the opinions after iterations 2 and 4)
example : ∃ tr, main (Env.sample Config.deffuantDoc) ⟨"conf.toml", none, none, none⟩ 5 = .ok tr ∧ tr.length = 4 := by
  obtain ⟨N, tr, h, hf, -⟩ := C57_scalar (Env.sample_lawful _).safe deffuantDoc_accepted ⟨by decide, by decide⟩ rfl rfl
    (fun _ => ⟨3, rfl⟩) (K := 5) rfl (by decide) (fuel := 5) (le_refl 5)
  refine ⟨tr, h, ?_⟩
  rw [hf.length_eq]
  rfl

/-- With eight agents `use_network` is refused. -/
def Config.eightDoc : Config.Doc ℚ := fun s k =>
  if s = "network" ∧ k = "number_of_agents" then some (.int 8) else Config.deffuantDoc s k

example : main (Env.sample Config.eightDoc) ⟨"conf.toml", none, none, none⟩ 5 = .error (.exn "runtime_error") := by
  have h : Accepted (Env.sample Config.eightDoc) ⟨"conf.toml", none, none, none⟩ { Config.deffuantOptions with network := ⟨none, 8, 0⟩ } :=
    ⟨⟨_, rfl, by with_unfolding_all rfl⟩, by decide +kernel, rfl, rfl, by decide⟩
  refine C57_not_square (Env.sample_lawful _).safe h rfl rfl ?_ 5
  rintro ⟨k, hk⟩
  have hk : 8 = k * k := hk
  have : k < 3 := by nlinarith
  interval_cases k <;> omega

/-- Three-bit opinions. -/
def Config.vectorDoc : Config.Doc ℚ := fun s k =>
  if s = "Deffuant" ∧ k = "binary_vector" then some (.bool true)
  else if s = "Deffuant" ∧ k = "dim" then some (.int 3) else Config.deffuantDoc s k

example : ∃ tr, main (Env.sample Config.vectorDoc) ⟨"conf.toml", none, none, none⟩ 5 = .ok tr := by
  have h : Accepted (Env.sample Config.vectorDoc) ⟨"conf.toml", none, none, none⟩
      { Config.deffuantOptions with settings := .deffuant ⟨some 5, 1 / (5 : Nat), 1 / (2 : Nat), true, true, 3⟩ } :=
    ⟨⟨_, rfl, by with_unfolding_all rfl⟩, by decide +kernel, rfl, rfl, by decide⟩
  obtain ⟨N, tr, h, -⟩ := C57_vector (Env.sample_lawful _).safe h ⟨by decide, by decide⟩ rfl rfl (fun _ => ⟨3, rfl⟩) (K := 5) rfl (by decide) (fuel := 5)
    (le_refl 5)
  exact ⟨tr, h⟩

end Seldon
