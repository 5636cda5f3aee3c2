import Verif.Model.Console
/-!
# Independent specification: the settings as a table from names to values
-/
namespace Seldon.Spec
variable {F : Type}

/-- Values as they are printed. -/
inductive Value (F : Type) where
  | number (x : F)
  | int (i : Int)
  | nat (n : Nat)
  | bool (b : Bool)
  | optInt (i : Option Int)
  | optNat (n : Option Nat)
  | numbers (l : List F)
  | ints (l : List Int)
  | name (s : String)

/-- The text of a value, given the text of floating-point numbers. -/
def Value.text (T : Text.Double F) : Value F → List Char
  | .number x => T.fmt x
  | .int i => Text.fmtInt i
  | .nat n => Text.decimal n
  | .bool true => "true".toList
  | .bool false => "false".toList
  | .optInt none => "none".toList
  | .optInt (some i) => "optional(".toList ++ Text.fmtInt i ++ ")".toList
  | .optNat none => "none".toList
  | .optNat (some n) => "optional(".toList ++ Text.decimal n ++ ")".toList
  | .numbers l => "[".toList ++ (List.intersperse ", ".toList (l.map T.fmt)).flatten ++ "]".toList
  | .ints l => "[".toList ++ (List.intersperse ", ".toList (l.map Text.fmtInt)).flatten ++ "]".toList
  | .name s => s.toList

/-- The settings of the activity-driven models, by name; bots and reluctances only if they are used. -/
def activityTable (s : ActivitySettings F) : List (String × Value F) :=
  [("max_iterations", .optInt s.maxIterations), ("dt", .number s.dt), ("m", .int s.m), ("eps", .number s.eps), ("gamma", .number s.gamma),
   ("alpha", .number s.alpha), ("homophily", .number s.homophily), ("reciprocity", .number s.reciprocity), ("K", .number s.K),
   ("mean_activities", .bool s.meanActivities), ("mean_weights", .bool s.meanWeights), ("n_bots", .nat s.nBots)] ++
  (if s.nBots = 0 then [] else
    [("Bot opinions", .numbers s.botOpinion), ("Bot m", .ints s.botM), ("Bot activity(s)", .numbers s.botActivity),
     ("Bot homophily(s)", .numbers s.botHomophily)]) ++
  [("use_reluctances", .bool s.useReluctances)] ++
  (if s.useReluctances then
    [("reluctance_mean", .number s.reluctanceMean), ("reluctance_sigma", .number s.reluctanceSigma), ("reluctance_eps", .number s.reluctanceEps),
     ("covariance_factor", .number s.covarianceFactor)]
   else [])

/-- The settings of the model, by name. -/
def modelTable : Config.ModelSettings F → List (String × Value F)
  | .deGroot s => [("max_iterations", .optInt s.maxIterations), ("convergence_tol", .number s.tol)]
  | .deffuant s =>
    [("max_iterations", .optInt s.maxIterations), ("homophily_threshold", .number s.threshold), ("mu", .number s.mu), ("use_network", .bool s.useNetwork),
     ("use_binary_vector", .bool s.useBinaryVector), ("dim", .nat s.dim)]
  | .activity s => activityTable s
  | .inertial s => activityTable s.base ++ [("friction_coefficient", .number s.friction)]

/-- The settings of the generated network, by name. -/
def networkTable (s : Config.NetworkSettings) : List (String × Value F) := [("n_agents", .nat s.nAgents), ("n_connections", .nat s.nConnections)]

/-- The output settings, by name. -/
def outputTable (s : OutputSettings) : List (String × Value F) :=
  [("n_output_agents", .optNat s.nOutputAgents), ("n_output_network", .optNat s.nOutputNetwork), ("print_progress", .bool s.printProgress),
   ("output_initial", .bool s.outputInitial), ("start_output", .nat s.startOutput), ("start_numbering_from", .nat s.startNumberingFrom)]

/-- A line that shows a setting: blanks, name, blanks, value, blanks, end of line. -/
def Shows (T : Text.Double F) (line : List Char) (p : String × Value F) : Prop :=
  ∃ a b : Nat, line = List.replicate 4 ' ' ++ p.1.toList ++ List.replicate (a + 1) ' ' ++ p.2.text T ++ List.replicate b ' ' ++ ['\n']

end Seldon.Spec
