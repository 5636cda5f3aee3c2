import Verif.Model.Config
import Mathlib.Data.List.Forall2
/-!
# Independent specification: configuration files
-/
namespace Seldon.Spec
open Config
variable {F : Type}

/-- The settings belong to the chosen model. -/
def Matching (o : Options F) : Prop :=
  match o.model, o.settings with
  | .deGroot, .deGroot _ => True
  | .deffuant, .deffuant _ => True
  | .activityDriven, .activity _ => True
  | .activityDrivenInertial, .inertial _ => True
  | _, _ => False

section
variable [Zero F] [One F] [Neg F] [NatCast F] [LT F] [LE F]

/-- Valid parameters of the activity-driven models. -/
structure ValidActivity (s : ActivitySettings F) : Prop where
  dt : 0 < s.dt
  m : 0 ≤ s.m
  eps : 0 < s.eps
  gamma : ((2 : Nat) : F) < s.gamma
  alpha : 0 ≤ s.alpha
  reciprocity : 0 ≤ s.reciprocity
  reluctanceMean : 0 < s.reluctanceMean
  reluctanceSigma : 0 < s.reluctanceSigma
  reluctanceEps : 0 < s.reluctanceEps
  covariance : -1 ≤ s.covarianceFactor ∧ s.covarianceFactor ≤ 1
  botM : s.nBots ≤ s.botM.length
  botActivity : s.nBots ≤ s.botActivity.length
  botOpinion : s.nBots ≤ s.botOpinion.length
  botHomophily : s.nBots ≤ s.botHomophily.length

/-- Valid parameters of the Deffuant models. -/
structure ValidDeffuant (s : DeffuantSettings F) : Prop where
  threshold : 0 < s.threshold
  mu : 0 ≤ s.mu ∧ s.mu ≤ 1
  dim : 0 < s.dim
  scalar : s.useBinaryVector = false → s.dim = 1

/-- Valid parameters of the chosen model. -/
def ValidModel : ModelSettings F → Prop
  | .deGroot s => 0 ≤ s.tol
  | .activity s => ValidActivity s
  | .inertial s => 0 ≤ s.friction ∧ ValidActivity s.base
  | .deffuant s => ValidDeffuant s

/-- The options that should be accepted. -/
def Valid (o : Options F) : Prop := 0 < o.output.startOutput ∧ ValidModel o.settings

end

/-- `value` is what the file says under `[sec] key = ...` (converted by `conv`), or `dflt` if the file says nothing usable there. -/
def Says {α : Type} (tbl : Doc F) (sec key : String) (conv : Node F → Option α) (dflt value : α) : Prop :=
  (∀ n x, tbl sec key = some n → conv n = some x → value = x) ∧
  ((∀ n x, tbl sec key = some n → conv n ≠ some x) → value = dflt)

/-- The same for settings without default. -/
def SaysOptional {α : Type} (tbl : Doc F) (sec key : String) (conv : Node F → Option α) (value : Option α) : Prop :=
  (∀ n x, tbl sec key = some n → conv n = some x → value = some x) ∧
  ((∀ n x, tbl sec key = some n → conv n ≠ some x) → value = none)

/-- A list of numbers given as TOML array, whose elements may be floats and integers; `n` copies of the default if there is no array. -/
structure SaysFloats (c : Convert F) (tbl : Doc F) (sec key : String) (n : Nat) (dflt : F) (value : List F) : Prop where
  array : ∀ (es : List (Elem F)) (xs : List F), tbl sec key = some (.arr es) →
    List.Forall₂ (fun e x => e = .float x ∨ ∃ k, e = .int k ∧ x = c.ofInt k) es xs → value = xs
  absent : (∀ l, tbl sec key ≠ some (.arr l)) → value = List.replicate n dflt

/-- A list of integers given as TOML array, whose elements may be integers in the range of `int` and floats (which are truncated). -/
structure SaysInts (c : Convert F) (tbl : Doc F) (sec key : String) (n : Nat) (dflt : Int) (value : List Int) : Prop where
  array : ∀ (es : List (Elem F)) (ks : List Int), tbl sec key = some (.arr es) →
    List.Forall₂ (fun e k => (e = .int k ∧ -2 ^ 31 ≤ k ∧ k < 2 ^ 31) ∨ ∃ x, e = .float x ∧ c.trunc x = some k) es ks → value = ks
  absent : (∀ l, tbl sec key ≠ some (.arr l)) → value = List.replicate n dflt

/-- The keys of the example configuration files that are common to all models. -/
structure DocumentedCommon (c : Convert F) (fresh : Int) (tbl : Doc F) (o : Options F) : Prop where
  model : ∃ n, tbl "simulation" "model" = some n ∧ c.str n = some o.modelString
  seed : Says tbl "simulation" "rng_seed" c.int fresh o.rngSeed
  nOutputNetwork : SaysOptional tbl "io" "n_output_network" c.size o.output.nOutputNetwork
  nOutputAgents : SaysOptional tbl "io" "n_output_agents" c.size o.output.nOutputAgents
  printProgress : Says tbl "io" "print_progress" c.bool false o.output.printProgress
  outputInitial : Says tbl "io" "output_initial" c.bool true o.output.outputInitial
  startOutput : Says tbl "io" "start_output" c.size 1 o.output.startOutput
  startNumbering : Says tbl "io" "start_numbering_from" c.size 0 o.output.startNumberingFrom
  nAgents : Says tbl "network" "number_of_agents" c.size 200 o.network.nAgents
  nConnections : Says tbl "network" "connections_per_agent" c.size 10 o.network.nConnections

variable [Zero F] [One F] [NatCast F] [Div F]

/-- The keys of the activity-driven models, with the given default for the activity of bots. -/
structure DocumentedActivity (c : Convert F) (tbl : Doc F) (sec : String) (botActivityDefault : F) (s : ActivitySettings F) : Prop where
  maxIterations : SaysOptional tbl "model" "max_iterations" c.int s.maxIterations
  dt : Says tbl sec "dt" c.double (1 / (100 : Nat)) s.dt
  m : Says tbl sec "m" c.int 10 s.m
  eps : Says tbl sec "eps" c.double (1 / (100 : Nat)) s.eps
  gamma : Says tbl sec "gamma" c.double ((21 : Nat) / (10 : Nat)) s.gamma
  alpha : Says tbl sec "alpha" c.double (3 : Nat) s.alpha
  homophily : Says tbl sec "homophily" c.double (1 / (2 : Nat)) s.homophily
  reciprocity : Says tbl sec "reciprocity" c.double (1 / (2 : Nat)) s.reciprocity
  K : Says tbl sec "K" c.double (3 : Nat) s.K
  meanActivities : Says tbl sec "mean_activities" c.bool false s.meanActivities
  meanWeights : Says tbl sec "mean_weights" c.bool false s.meanWeights
  nBots : Says tbl sec "n_bots" c.size 0 s.nBots
  botM : SaysInts c tbl sec "bot_m" s.nBots s.m s.botM
  botActivity : SaysFloats c tbl sec "bot_activity" s.nBots botActivityDefault s.botActivity
  botOpinion : SaysFloats c tbl sec "bot_opinion" s.nBots 0 s.botOpinion
  botHomophily : SaysFloats c tbl sec "bot_homophily" s.nBots s.homophily s.botHomophily
  useReluctances : Says tbl sec "reluctances" c.bool false s.useReluctances
  reluctanceMean : Says tbl sec "reluctance_mean" c.double 1 s.reluctanceMean
  reluctanceSigma : Says tbl sec "reluctance_sigma" c.double (1 / (4 : Nat)) s.reluctanceSigma
  reluctanceEps : Says tbl sec "reluctance_eps" c.double (1 / (100 : Nat)) s.reluctanceEps
  covariance : Says tbl sec "covariance_factor" c.double 0 s.covarianceFactor

/-- The keys of the Deffuant models. -/
structure DocumentedDeffuant (c : Convert F) (tbl : Doc F) (s : DeffuantSettings F) : Prop where
  maxIterations : SaysOptional tbl "model" "max_iterations" c.int s.maxIterations
  threshold : Says tbl "Deffuant" "homophily_threshold" c.double (1 / (5 : Nat)) s.threshold
  mu : Says tbl "Deffuant" "mu" c.double (1 / (2 : Nat)) s.mu
  useNetwork : Says tbl "Deffuant" "use_network" c.bool false s.useNetwork
  useBinaryVector : Says tbl "Deffuant" "binary_vector" c.bool false s.useBinaryVector
  dim : Says tbl "Deffuant" "dim" c.size 1 s.dim

/-- The keys of the DeGroot model, with the given default for the tolerance. -/
structure DocumentedDeGroot (c : Convert F) (tbl : Doc F) (tolDefault : F) (s : DeGrootSettings F) : Prop where
  maxIterations : SaysOptional tbl "model" "max_iterations" c.int s.maxIterations
  tol : Says tbl "DeGroot" "convergence" c.double tolDefault s.tol

/-- The name of a model in the configuration file. -/
def modelName : Config.Model → String
  | .deGroot => "DeGroot"
  | .activityDriven => "ActivityDriven"
  | .activityDrivenInertial => "ActivityDrivenInertial"
  | .deffuant => "Deffuant"

/-- The parameters of the chosen model are those of the file, for the given defaults of the tolerance and the activity of bots. -/
def DocumentedModel (c : Convert F) (tbl : Doc F) (tolDefault botActivityDefault : F) : Config.Model → ModelSettings F → Prop
  | .deGroot, .deGroot s => DocumentedDeGroot c tbl tolDefault s
  | .deffuant, .deffuant s => DocumentedDeffuant c tbl s
  | .activityDriven, .activity s => DocumentedActivity c tbl "ActivityDriven" botActivityDefault s
  | .activityDrivenInertial, .inertial s => DocumentedActivity c tbl "ActivityDrivenInertial" botActivityDefault s.base ∧
      Says tbl "ActivityDrivenInertial" "friction_coefficient" c.double 1 s.friction
  | _, _ => False

end Seldon.Spec
