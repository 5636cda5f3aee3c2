import Verif.Lemmas.Program
import Mathlib.Algebra.Group.Even
/-!
# Properties C54, C56–C59: the whole program
-/
set_option linter.unusedSectionVars false
namespace Seldon
open Spec Simulation Program
variable {F G : Type}

/-! ## C56 -/

section
variable [Zero F] [One F] [Sub F] [Mul F] [Add F] [Div F] [Neg F] [NatCast F]

/-- The agent type that belongs to the options. -/
def Spec.kindOf (options : Config.Options F) : AgentKind :=
  match options.settings with
  | .deGroot _ => .simple
  | .activity _ => .activity
  | .inertial _ => .inertial
  | .deffuant s => if s.useBinaryVector then .vector else .simple

/-- C56: `main` chooses the agent type that belongs to the model. -/
theorem C56_kind {options : Config.Options F} (h : Matching options) : agentKind options = .ok (kindOf options) := by
  unfold Matching at h
  unfold agentKind kindOf
  split at h
  · next e1 e2 => simp only [e1, e2]
  · next s e1 e2 => simp only [e1, e2]; split <;> rfl
  · next e1 e2 => simp only [e1, e2]
  · next e1 e2 => simp only [e1, e2]
  · exact h.elim

/-- C56: with this agent type the constructor of the chosen model is called with the chosen settings, and the only thing that can go wrong is that
constructor; -/
theorem C56_compatible (env : Env F G) (options : Config.Options F) (h : Matching options) (g : G) :
    (∀ s, options.settings = .deGroot s → ∀ N : Network (SimpleAgent F) F, chooseModel env .simple options N g =
      (do let m ← DeGroot.create s.maxIterations s.tol N; .ok (.deGroot m.1))) ∧
    (∀ s, options.settings = .activity s → ∀ N : Network (ActivityAgent F) F, chooseModel env .activity options N g =
      (do let m ← Activity.create env.math env.rng s N g; .ok (.activity m))) ∧
    (∀ s, options.settings = .inertial s → ∀ N : Network (InertialAgent F) F, chooseModel env .inertial options N g =
      (do let m ← Activity.create env.math env.rng s.base N g; .ok (.inertial ⟨m, s.friction⟩))) ∧
    (∀ s, options.settings = .deffuant s → s.useBinaryVector = false → ∀ N : Network (SimpleAgent F) F, chooseModel env .simple options N g =
      (do let m ← Deffuant.create env.isqrt s.maxIterations s.threshold s.mu s.useNetwork N g
          let m ← m.initializeAgents
          .ok (.deffuant m))) ∧
    (∀ s, options.settings = .deffuant s → s.useBinaryVector = true → ∀ N : Network DiscreteVectorAgent F, chooseModel env .vector options N g =
      (do let m ← Deffuant.create env.isqrt s.maxIterations s.threshold s.mu s.useNetwork N g
          let m ← m.initializeVectors env.rng s.dim
          .ok (.vector m))) := by
  unfold Matching at h
  refine ⟨fun s e N => ?_, fun s e N => ?_, fun s e N => ?_, fun s e hb N => ?_, fun s e hb N => ?_⟩ <;> rw [e] at h <;>
    cases hm : options.model <;> simp only [hm] at h <;> unfold chooseModel <;> simp only [hm, e] <;> try rfl
  · rw [hb]; rfl
  · rw [hb]; rfl

/-- C56: any other agent type makes the factory throw, whatever the settings and the network are. -/
theorem C56_incompatible (env : Env F G) (options : Config.Options F) (h : Matching options) {k : AgentKind} (hk : k ≠ kindOf options)
    (N : Network (Agent F k) F) (g : G) : chooseModel env k options N g = .error (.exn "Incompatible agent and model type!") := by
  unfold Matching at h
  unfold kindOf at hk
  unfold chooseModel
  cases hs : options.settings <;> cases hm : options.model <;> simp only [hs, hm] at h hk ⊢
  · cases k <;> first | (exfalso; exact hk rfl) | rfl
  · cases k <;> first | (exfalso; exact hk rfl) | rfl
  · cases k <;> first | (exfalso; exact hk rfl) | rfl
  · split at hk
    · next hb => rw [if_pos hb]; cases k <;> first | (exfalso; exact hk rfl) | rfl
    · next hb => rw [if_neg hb]; cases k <;> first | (exfalso; exact hk rfl) | rfl

theorem toSize_toInt32 {n : Nat} (hn : n < 2 ^ 31) : Network.toSize (Network.toInt32 n) = n := by
  have h : Network.toInt32 (n : Int) = n := Config.toInt32_id (by omega) (by omega)
  rw [h]
  unfold Network.toSize
  omega

theorem toSize_nat {K : Nat} (h : K < 2 ^ 31) : Network.toSize (K : Int) = K := by
  unfold Network.toSize
  omega

/-- C56: a network file given on the command line is what the network is read from, whatever the options say; without any file the network is generated.
(The options never name a file: `C55_keys_partial`.) -/
theorem C56_network_file (env : Env F G) (k : AgentKind) (options : Config.Options F) (g : G) :
    (∀ file text, env.files file = some text → createNetwork env k options (some file) g =
      (do let N ← NetworkIO.fromFile env.text text; .ok (N, g))) ∧
    (∀ file, env.files file = none → createNetwork env k options (some file) g = .error (.exn "runtime_error")) ∧
    (options.network.file = none → options.network.nAgents < 2 ^ 31 → createNetwork env k options none g =
      NetworkGen.nConnections env.rng options.network.nAgents options.network.nConnections true g) := by
  refine ⟨fun file text h => ?_, fun file h => ?_, fun h hn => ?_⟩
  · have e : getFileContents env file = .ok text := by unfold getFileContents; rw [h]
    unfold createNetwork
    show (do let contents ← getFileContents env file; let N ← NetworkIO.fromFile env.text contents; .ok (N, g)) = _
    rw [e]
    exact Res.bind_ok _ _
  · simp only [createNetwork, networkFile, getFileContents, h]; rfl
  · unfold createNetwork networkFile
    rw [h, toSize_toInt32 hn]

/-- C56: an agents file replaces all agents after the model has been constructed, and nothing else. -/
theorem C56_agents_file (env : Env F G) (k : AgentKind) (options : Config.Options F) (net : Option String) (file : String) :
    construct env k options net (some file) = (do
      let m ← construct env k options net none
      let text ← getFileContents env file
      let agents ← AgentIO.fromFile (format env.text k) text
      .ok (setAgents m agents)) ∧
    ∀ (m : ModelState F G k) (agents : List (Agent F k)), network (setAgents m agents) = { network m with agents := agents } := by
  constructor
  · unfold construct
    cases h : createNetwork env k options net (env.seed options.rngSeed) with
    | error f => rfl
    | ok t =>
      cases h' : chooseModel env k options t.1 t.2 with
      | error f => show (do let m ← chooseModel env k options t.1 t.2; _) = (do let m ← (do let m ← chooseModel env k options t.1 t.2; _); _); rw [h']; rfl
      | ok m => show (do let m ← chooseModel env k options t.1 t.2; _) = (do let m ← (do let m ← chooseModel env k options t.1 t.2; _); _); rw [h']; rfl
  · intro m agents
    cases m <;> rfl

end

/-! ## accepted configurations -/

/-- What is assumed of the environment: distributions return values in their range, the priority queue returns an element, `std::sqrt` is exact
on (small) squares, `std::pow` with a natural exponent is the power. -/
structure Env.Lawful [Field F] [LinearOrder F] (env : Env F G) : Prop where
  rng : env.rng.Lawful
  pick : Reservoir.Pick.Valid env.pick
  isqrt : ∀ L, L * L < 2 ^ 31 → env.isqrt (L * L) = L
  powNat : ∀ x k, env.math.powNat x k = x ^ k

/-- What memory safety needs of the environment: integer draws in their range, the priority queue returns an element, `std::sqrt` is exact on (small)
squares.  Nothing is assumed of the floating-point numbers: `Zero F`, `Add F`, ... are arbitrary operations and `LT F` is an arbitrary decidable
relation, so this covers IEEE 754 with rounding, infinities and NaN. -/
structure Env.Safe (env : Env F G) : Prop where
  rng : env.rng.IntLawful
  pick : Reservoir.Pick.Valid env.pick
  isqrt : ∀ L, L * L < 2 ^ 31 → env.isqrt (L * L) = L

theorem Env.Lawful.safe [Field F] [LinearOrder F] {env : Env F G} (h : env.Lawful) : env.Safe := ⟨⟨h.rng.int_ge, h.rng.int_le⟩, h.pick, h.isqrt⟩

section
variable [Zero F] [One F] [Sub F] [Mul F] [Add F] [Div F] [Neg F] [NatCast F] [IntCast F] [LT F] [LE F] [DecidableLT F] [DecidableLE F]

/-- The program is started with a configuration file that is parsed to `options` and accepted, without network and agents files, with less than
2^31 agents. -/
structure Accepted (env : Env F G) (args : Args) (options : Config.Options F) : Prop where
  config : ∃ doc, readConfig env args.configFile = .ok doc ∧ Config.parse env.convert env.fresh doc = .ok options
  valid : Config.validate options = .ok ()
  noNetworkFile : args.network = none
  noAgentsFile : args.agents = none
  size : options.network.nAgents < 2 ^ 31

/-- The output intervals are not zero. -/
structure SaneOutput (options : Config.Options F) : Prop where
  agents : options.output.nOutputAgents ≠ some 0
  network : options.output.nOutputNetwork ≠ some 0

theorem Accepted.matching {env : Env F G} {args : Args} {options : Config.Options F} (h : Accepted env args options) : Matching options := by
  obtain ⟨doc, -, hp⟩ := h.config
  exact C55_matching hp

theorem Accepted.validModel {env : Env F G} {args : Args} {options : Config.Options F} (h : Accepted env args options) :
    0 < options.output.startOutput ∧ ValidModel options.settings :=
  (C53_validate options h.matching).1.mp h.valid

/-- `main` constructs the model on the generated network and runs it. -/
theorem Accepted.main_eq {env : Env F G} {args : Args} {options : Config.Options F} (h : Accepted env args options) (fuel : Nat) :
    main env args fuel = (do
      let t ← NetworkGen.nConnections env.rng options.network.nAgents options.network.nConnections true (env.seed options.rngSeed)
      let m ← chooseModel env (kindOf options) options t.1 t.2
      let r ← Simulation.run (machine env (kindOf options)) (render env (kindOf options)) options.output fuel m
      .ok r.2) := by
  obtain ⟨doc, hd, hp⟩ := h.config
  have hfile : options.network.file = none := by
    unfold Config.parse at hp
    split at hp
    · cases hp
    · obtain ⟨m, hm, hp⟩ := Res.bind_eq_ok.mp hp
      obtain ⟨st, hst, hp⟩ := Res.bind_eq_ok.mp hp
      cases hp; rfl
  unfold main
  rw [hd, Res.bind_ok, hp, Res.bind_ok, h.valid, Res.bind_ok, C56_kind h.matching, Res.bind_ok, h.noNetworkFile, h.noAgentsFile]
  unfold simulate construct
  rw [(C56_network_file env (kindOf options) options _).2.2 hfile h.size]
  cases e : NetworkGen.nConnections (A := Agent F (kindOf options)) env.rng options.network.nAgents options.network.nConnections true
      (env.seed options.rngSeed) with
  | error f => rfl
  | ok t =>
    show ((do let m ← (do let m ← chooseModel env (kindOf options) options t.1 t.2; _); _) : Res _) >>= _ = (do let m ← chooseModel env (kindOf options) options t.1 t.2; _)
    cases e' : chooseModel env (kindOf options) options t.1 t.2 with
    | error f => rfl
    | ok m => rfl

end

/-! ## a sample environment -/

/-- Every configuration file says `doc`; random numbers come from a counter. -/
def Env.sample (doc : Config.Doc ℚ) : Env ℚ Nat where
  rng := counterRng
  seed k := k.toNat
  fresh := 7
  math := ratOps
  pick := firstMin
  isqrt := Nat.sqrt
  text := ⟨fun _ => ['0'], fun _ => .ok 0⟩
  files f := if f = "conf.toml" then some [] else none
  toml _ := some doc
  convert := Config.strict

theorem Env.sample_lawful (doc : Config.Doc ℚ) : (Env.sample doc).Lawful where
  rng := counterRng_lawful
  pick := firstMin_valid
  isqrt L _ := Nat.sqrt_eq L
  powNat _ _ := rfl

end Seldon
