import Verif.Model.Config
/-!
# Model of `print_settings` in `src/config_parser.cpp`: the text printed to the console
-/
namespace Seldon.Console
variable {F : Type}

/-- `fmt` of a `bool`.
Used at config_parser.cpp:282-283, 293, 327-328, 339-340. -/
def ofBool (b : Bool) : List Char := if b then "true".toList else "false".toList

/-- `fmt/std.h`: format of a `std::optional`.
Used at config_parser.cpp:273, 318, 324, 337-338. -/
def ofOption {α : Type} (f : α → List Char) : Option α → List Char
  | none => "none".toList
  | some a => "optional(".toList ++ f a ++ ")".toList

/-- The elements of a range, separated by commas.
Used at config_parser.cpp:287-290 through `fmt/ranges.h`. -/
def separated : List (List Char) → List Char
  | [] => []
  | [x] => x
  | x :: y :: l => x ++ ", ".toList ++ separated (y :: l)

/-- `fmt/ranges.h`: format of a `std::vector`.
Used at config_parser.cpp:287-290. -/
def ofList {α : Type} (f : α → List Char) (l : List α) : List Char := "[".toList ++ separated (l.map f) ++ "]".toList

/-- `fmt::print( "    <key> <value><tail>\n" )`, where `key` includes the blanks that follow it.
config_parser.cpp:273-343. -/
def line (key : String) (value : List Char) (tail : String := "") : List Char :=
  "    ".toList ++ key.toList ++ value ++ tail.toList ++ "\n".toList

/-- config_parser.cpp:271-300 `print_activity_settings`. -/
def activityLines (T : Text.Double F) (s : ActivitySettings F) : List (List Char) :=
  [ line "max_iterations " (ofOption Text.fmtInt s.maxIterations),
    line "dt " (T.fmt s.dt) " ",
    line "m " (Text.fmtInt s.m) " ",
    line "eps " (T.fmt s.eps) " ",
    line "gamma " (T.fmt s.gamma) " ",
    line "alpha " (T.fmt s.alpha) " ",
    line "homophily " (T.fmt s.homophily) " ",
    line "reciprocity " (T.fmt s.reciprocity) " ",
    line "K " (T.fmt s.K) " ",
    line "mean_activities " (ofBool s.meanActivities) " ",
    line "mean_weights " (ofBool s.meanWeights) " ",
    line "n_bots           " (Text.decimal s.nBots) ] ++
  (if 0 < s.nBots then
    [ line "Bot opinions     " (ofList T.fmt s.botOpinion),
      line "Bot m            " (ofList Text.fmtInt s.botM),
      line "Bot activity(s)  " (ofList T.fmt s.botActivity),
      line "Bot homophily(s) " (ofList T.fmt s.botHomophily) ]
  else []) ++
  [ line "use_reluctances " (ofBool s.useReluctances) ] ++
  (if s.useReluctances then
    [ line "reluctance_mean " (T.fmt s.reluctanceMean),
      line "reluctance_sigma " (T.fmt s.reluctanceSigma),
      line "reluctance_eps " (T.fmt s.reluctanceEps),
      line "covariance_factor " (T.fmt s.covarianceFactor) ]
  else [])

/-- config_parser.cpp:303-330: the settings of the model. -/
def modelLines (T : Text.Double F) : Config.ModelSettings F → List (List Char)
  | .activity s => activityLines T s
  | .inertial s => activityLines T s.base ++ [line "friction_coefficient " (T.fmt s.friction)]
  | .deGroot s => [line "max_iterations " (ofOption Text.fmtInt s.maxIterations), line "convergence_tol " (T.fmt s.tol)]
  | .deffuant s =>
    [ line "max_iterations " (ofOption Text.fmtInt s.maxIterations),
      line "homophily_threshold " (T.fmt s.threshold),
      line "mu " (T.fmt s.mu),
      line "use_network " (ofBool s.useNetwork),
      line "use_binary_vector " (ofBool s.useBinaryVector),
      line "dim " (Text.decimal s.dim) ]

/-- config_parser.cpp:266: the first line. -/
def seedLine (seed : Int) : List Char := "Random seed: ".toList ++ Text.fmtInt seed ++ "\n".toList

/-- config_parser.cpp:264-344 `print_settings`, line by line.  (The alternative of the variant agrees with `options.model`, C55; otherwise
`std::get` throws.) -/
def settings (T : Text.Double F) (o : Config.Options F) : List (List Char) :=
  [ seedLine o.rngSeed,
    "[Model]\n".toList,
    line "type " o.modelString.toList ] ++
  modelLines T o.settings ++
  [ "[Network]\n".toList,
    line "n_agents " (Text.decimal o.network.nAgents),
    line "n_connections " (Text.decimal o.network.nConnections),
    "[Output]\n".toList,
    line "n_output_agents  " (ofOption Text.decimal o.output.nOutputAgents),
    line "n_output_network " (ofOption Text.decimal o.output.nOutputNetwork),
    line "print_progress " (ofBool o.output.printProgress),
    line "output_initial " (ofBool o.output.outputInitial),
    line "start_output " (Text.decimal o.output.startOutput),
    line "start_numbering_from " (Text.decimal o.output.startNumberingFrom) ]

end Seldon.Console
