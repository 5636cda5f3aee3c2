import Verif.Model.Activity
/-!
# Model of `include/config_parser.hpp` and `src/config_parser.cpp`

The TOML parser (toml++) is not modelled: a parsed file is given as a function from section and key to a node, and the
conversions `node.value<T>()` are a parameter (`Convert`), of which only `Convert.Lawful` is assumed where stated.
`print_settings` (config_parser.cpp:264-344) is in `Model/Console`.
-/
namespace Seldon.Config

/-- An element of a TOML array, as far as config_parser.cpp:79-91 distinguishes them. -/
inductive Elem (F : Type) where
  | int (k : Int)
  | float (x : F)
  | other

/-- A TOML node.
The values read at config_parser.cpp:39-175 (toml++ itself is not modelled). -/
inductive Node (F : Type) where
  | int (k : Int)
  | float (x : F)
  | bool (b : Bool)
  | str (s : String)
  | arr (l : List (Elem F))
  | other

/-- A parsed TOML file: `tbl[section][key]`.
config_parser.cpp:109-175 (`tbl`). -/
abbrev Doc (F : Type) := String → String → Option (Node F)

/-- toml++ `node.value<T>()`, and the implicit conversions of array elements at config_parser.cpp:83-91. -/
structure Convert (F : Type) where
  /-- `value<double>()` -/
  double : Node F → Option F
  /-- `value<int>()` -/
  int : Node F → Option Int
  /-- `value<size_t>()` -/
  size : Node F → Option Nat
  /-- `value<bool>()` -/
  bool : Node F → Option Bool
  /-- `value<std::string>()` -/
  str : Node F → Option String
  /-- conversion of an `int64_t` to `double` -/
  ofInt : Int → F
  /-- conversion of a `double` to `int`; `none` where it is undefined behaviour -/
  trunc : F → Option Int

/-- What is known about the conversions of nodes of the right type.
toml++ semantics relied on at config_parser.cpp:39-175. -/
structure Convert.Lawful {F : Type} (c : Convert F) : Prop where
  double : ∀ x, c.double (.float x) = some x
  int : ∀ k, -2 ^ 31 ≤ k → k < 2 ^ 31 → c.int (.int k) = some k
  size : ∀ k : Nat, k < 2 ^ 63 → c.size (.int k) = some k
  bool : ∀ b, c.bool (.bool b) = some b
  str : ∀ s, c.str (.str s) = some s
  str_only : ∀ n s, c.str n = some s → n = .str s

/-- config_parser.hpp:24-30. -/
inductive Model where
  | deGroot
  | activityDriven
  | activityDrivenInertial
  | deffuant
  deriving DecidableEq, Repr

/-- config_parser.hpp:44-48. -/
structure DeGrootSettings (F : Type) where
  maxIterations : Option Int
  tol : F

/-- config_parser.hpp:50-60. -/
structure DeffuantSettings (F : Type) where
  maxIterations : Option Int
  threshold : F
  mu : F
  useNetwork : Bool
  useBinaryVector : Bool
  dim : Nat

/-- config_parser.hpp:87-90. -/
structure InertialSettings (F : Type) where
  base : ActivitySettings F
  friction : F

/-- config_parser.hpp:101-102 `ModelVariantT`. -/
inductive ModelSettings (F : Type) where
  | deGroot (s : DeGrootSettings F)
  | activity (s : ActivitySettings F)
  | inertial (s : InertialSettings F)
  | deffuant (s : DeffuantSettings F)

/-- config_parser.hpp:92-97. -/
structure NetworkSettings where
  file : Option String := none
  nAgents : Nat := 200
  nConnections : Nat := 10

/-- config_parser.hpp:99-109. -/
structure Options (F : Type) where
  model : Model
  modelString : String
  rngSeed : Int
  output : OutputSettings
  settings : ModelSettings F
  network : NetworkSettings

/-- config_parser.cpp:18-37 `model_string_to_enum`. -/
def modelOfString (s : String) : Res Model :=
  if s = "DeGroot" then .ok .deGroot
  else if s = "ActivityDriven" then .ok .activityDriven
  else if s = "Deffuant" then .ok .deffuant
  else if s = "ActivityDrivenInertial" then .ok .activityDrivenInertial
  else .error (.exn "runtime_error")

section
variable {F : Type}

/-- config_parser.cpp:39-45 `set_if_specified( opt, node )`, where `opt` holds `cur`. -/
def setIf {α : Type} (conv : Node F → Option α) (node : Option (Node F)) (cur : α) : α :=
  match node.bind conv with
  | some x => x
  | none => cur

/-- config_parser.cpp:77-92 with `options_array` a `std::vector<double>`. -/
def pushDoubles (c : Convert F) : List (Elem F) → List F
  | [] => []
  | .int k :: l => c.ofInt k :: pushDoubles c l
  | .float x :: l => x :: pushDoubles c l
  | .other :: l => pushDoubles c l

/-- config_parser.cpp:77-92 with `options_array` a `std::vector<int>` (an `int64_t` is reduced modulo 2^32). -/
def pushInts (c : Convert F) : List (Elem F) → Res (List Int)
  | [] => .ok []
  | .int k :: l => do
    let ks ← pushInts c l
    .ok (Network.toInt32 k :: ks)
  | .float x :: l =>
    match c.trunc x with
    | none => .error .ub
    | some k => do
      let ks ← pushInts c l
      .ok (k :: ks)
  | .other :: l => pushInts c l

/-- config_parser.cpp:73-97 for a `std::vector<double>`. -/
def botDoubles (c : Convert F) (node : Option (Node F)) (nBots : Nat) (dflt : F) : List F :=
  match node with
  | some (.arr l) => pushDoubles c l
  | _ => List.replicate nBots dflt

/-- config_parser.cpp:73-97 for a `std::vector<int>`. -/
def botInts (c : Convert F) (node : Option (Node F)) (nBots : Nat) (dflt : Int) : Res (List Int) :=
  match node with
  | some (.arr l) => pushInts c l
  | _ => .ok (List.replicate nBots dflt)

variable [Zero F] [One F] [NatCast F] [Div F]

/-- A decimal literal `a / b`.
The literals of config_parser.hpp:41-85. -/
def lit (a b : Nat) : F := (a : F) / (b : F)

/-- config_parser.cpp:47-107 `parse_activity_settings`, with the defaults of config_parser.hpp:62-85; `sec` is `tbl[model_string]`. -/
def parseActivity (c : Convert F) (sec : String → Option (Node F)) (maxIterations : Option (Node F)) : Res (ActivitySettings F) := do
  let m := setIf c.int (sec "m") 10
  let homophily := setIf c.double (sec "homophily") (lit 1 2)
  let nBots := setIf c.size (sec "n_bots") 0
  let botM ← botInts c (sec "bot_m") nBots m
  .ok {
    maxIterations := maxIterations.bind c.int
    dt := setIf c.double (sec "dt") (lit 1 100)
    m := m
    eps := setIf c.double (sec "eps") (lit 1 100)
    gamma := setIf c.double (sec "gamma") (lit 21 10)
    alpha := setIf c.double (sec "alpha") (lit 3 1)
    homophily := homophily
    reciprocity := setIf c.double (sec "reciprocity") (lit 1 2)
    K := setIf c.double (sec "K") (lit 3 1)
    meanActivities := setIf c.bool (sec "mean_activities") false
    meanWeights := setIf c.bool (sec "mean_weights") false
    nBots := nBots
    botM := botM
    botActivity := botDoubles c (sec "bot_activity") nBots 1
    botOpinion := botDoubles c (sec "bot_opinion") nBots 0
    botHomophily := botDoubles c (sec "bot_homophily") nBots homophily
    useReluctances := setIf c.bool (sec "reluctances") false
    reluctanceMean := setIf c.double (sec "reluctance_mean") (lit 1 1)
    reluctanceSigma := setIf c.double (sec "reluctance_sigma") (lit 1 4)
    reluctanceEps := setIf c.double (sec "reluctance_eps") (lit 1 100)
    covarianceFactor := setIf c.double (sec "covariance_factor") 0 }

/-- config_parser.cpp:118-124, defaults of config_parser.hpp:32-42. -/
def parseOutput (c : Convert F) (tbl : Doc F) : OutputSettings where
  nOutputNetwork := (tbl "io" "n_output_network").bind c.size
  nOutputAgents := (tbl "io" "n_output_agents").bind c.size
  printProgress := setIf c.bool (tbl "io" "print_progress") false
  outputInitial := setIf c.bool (tbl "io" "output_initial") true
  startOutput := setIf c.size (tbl "io" "start_output") 1
  startNumberingFrom := setIf c.size (tbl "io" "start_numbering_from") 0

/-- config_parser.cpp:134-167: the settings of the chosen model.  `DeGrootSettings()` value-initialises `convergence_tol` to 0. -/
def parseModel (c : Convert F) (tbl : Doc F) (model : Model) (modelString : String) : Res (ModelSettings F) :=
  match model with
  | .deGroot => .ok (.deGroot {
      maxIterations := (tbl "model" "max_iterations").bind c.int
      tol := setIf c.double (tbl modelString "convergence") 0 })
  | .deffuant => .ok (.deffuant {
      maxIterations := (tbl "model" "max_iterations").bind c.int
      threshold := setIf c.double (tbl modelString "homophily_threshold") (lit 2 10)
      mu := setIf c.double (tbl modelString "mu") (lit 1 2)
      useNetwork := setIf c.bool (tbl modelString "use_network") false
      useBinaryVector := setIf c.bool (tbl modelString "binary_vector") false
      dim := setIf c.size (tbl modelString "dim") 1 })
  | .activityDriven => do
    let s ← parseActivity c (tbl modelString) (tbl "model" "max_iterations")
    .ok (.activity s)
  | .activityDrivenInertial => do
    let s ← parseActivity c (tbl modelString) (tbl "model" "max_iterations")
    .ok (.inertial ⟨s, setIf c.double (tbl modelString "friction_coefficient") (lit 1 1)⟩)

/-- config_parser.cpp:169-172; `network_settings.file` is never set. -/
def parseNetwork (c : Convert F) (tbl : Doc F) : NetworkSettings where
  file := none
  nAgents := setIf c.size (tbl "network" "number_of_agents") 200
  nConnections := setIf c.size (tbl "network" "connections_per_agent") 10

/-- config_parser.cpp:109-175 `parse_config_file`, for the parsed table; `fresh` is the value of `std::random_device()()`
(config_parser.hpp:105). -/
def parse (c : Convert F) (fresh : Int) (tbl : Doc F) : Res (Options F) :=
  match (tbl "simulation" "model").bind c.str with
  | none => .error (.exn "runtime_error")
  | some modelString => do
    let model ← modelOfString modelString
    let settings ← parseModel c tbl model modelString
    .ok {
      model := model
      modelString := modelString
      rngSeed := setIf c.int (tbl "simulation" "rng_seed") fresh
      output := parseOutput c tbl
      settings := settings
      network := parseNetwork c tbl }

end

section
variable {F : Type} [Zero F] [One F] [Neg F] [NatCast F] [LT F] [LE F] [DecidableLT F] [DecidableLE F]

/-- config_parser.cpp:180-195 `check`. -/
def check (condition : Bool) : Res Unit := if condition then .ok () else .error (.exn "runtime_error")

/-- config_parser.cpp:206-230 `validate_activity`. -/
def validateActivity (s : ActivitySettings F) : Res Unit := do
  check (decide (0 < s.dt))
  check (decide (0 ≤ s.m))
  check (decide (0 < s.eps))
  check (decide (((2 : Nat) : F) < s.gamma))
  check (decide (0 ≤ s.alpha))
  check (decide (0 ≤ s.reciprocity))
  check (decide (0 < s.reluctanceMean))
  check (decide (0 < s.reluctanceSigma))
  check (decide (0 < s.reluctanceEps))
  check (decide (-1 ≤ s.covarianceFactor) && decide (s.covarianceFactor ≤ 1))
  check (decide (s.nBots ≤ s.botM.length))
  check (decide (s.nBots ≤ s.botActivity.length))
  check (decide (s.nBots ≤ s.botOpinion.length))
  check (decide (s.nBots ≤ s.botHomophily.length))

/-- config_parser.cpp:250-260. -/
def validateDeffuant (s : DeffuantSettings F) : Res Unit := do
  check (decide (0 < s.threshold))
  check (decide (0 ≤ s.mu) && decide (s.mu ≤ 1))
  check (decide (0 < s.dim))
  if s.useBinaryVector then .ok () else check (decide (s.dim = 1))

/-- config_parser.cpp:232-261: the checks for the chosen model; `std::get` throws if the settings are those of another model. -/
def validateModel (model : Model) (settings : ModelSettings F) : Res Unit :=
  match model, settings with
  | .activityDriven, .activity s => validateActivity s
  | .activityDrivenInertial, .inertial s => do
    check (decide (0 ≤ s.friction))
    validateActivity s.base
  | .deGroot, .deGroot s => check (decide (0 ≤ s.tol))
  | .deffuant, .deffuant s => validateDeffuant s
  | _, _ => .error (.exn "bad_variant_access")

/-- config_parser.cpp:197-262 `validate_settings` (`start_numbering_from >= 0` holds for every `size_t`). -/
def validate (options : Options F) : Res Unit := do
  check (decide (0 < options.output.startOutput))
  check (decide (0 ≤ options.output.startNumberingFrom))
  validateModel options.model options.settings

end
end Seldon.Config
