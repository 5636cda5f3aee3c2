import Verif.Model.Text
/-!
# Model of `include/agent_io.hpp` and of the agent types in `include/agents/`
-/
namespace Seldon
open Text
variable {F : Type}

/-- simple_agent.hpp:9-12. -/
structure SimpleAgent (F : Type) where
  opinion : F
  deriving DecidableEq, Repr

/-- activity_agent.hpp:9-14. -/
structure ActivityAgent (F : Type) where
  opinion : F
  activity : F
  reluctance : F
  deriving DecidableEq, Repr

/-- inertial_agent.hpp:13-19. -/
structure InertialAgent (F : Type) where
  opinion : F
  activity : F
  reluctance : F
  velocity : F
  deriving DecidableEq, Repr

/-- discrete_vector_agent.hpp:13-16. -/
structure DiscreteVectorAgent where
  opinion : List Int
  deriving DecidableEq, Repr

/-- simple_agent.hpp:11: default member initialiser. -/
instance [Zero F] : Inhabited (SimpleAgent F) := ⟨⟨0⟩⟩
/-- activity_agent.hpp:11-13: default member initialisers. -/
instance [Zero F] [One F] : Inhabited (ActivityAgent F) := ⟨⟨0, 0, 1⟩⟩
/-- inertial_agent.hpp:15-18: default member initialisers. -/
instance [Zero F] [One F] : Inhabited (InertialAgent F) := ⟨⟨0, 0, 1, 0⟩⟩
/-- discrete_vector_agent.hpp:15: default member initialiser. -/
instance : Inhabited DiscreteVectorAgent := ⟨⟨[]⟩⟩

namespace AgentIO

/-- The template specialisations for one agent type: `agent_to_string`, `agent_from_string`,
`agent_to_string_column_names`.
agent_io.hpp:15-30, simple_agent.hpp:16-39, activity_agent.hpp:18-61, inertial_agent.hpp:20-67, discrete_vector_agent.hpp:20-51. -/
structure Format (A : Type) where
  toString : A → List Char
  fromString : List Char → Res A
  columns : List (List Char)

/-- simple_agent.hpp:16-39. -/
def simple (T : Double F) : Format (SimpleAgent F) where
  toString a := T.fmt a.opinion
  fromString s := do
    let x ← T.stod s
    .ok ⟨x⟩
  columns := ["opinion".toList]

/-- activity_agent.hpp:32-57 `agent_from_string<ActivityAgent>`. -/
def activityFromString [Zero F] [One F] (T : Double F) (str : List Char) : Res (ActivityAgent F) := do
  let posComma := find str ',' 0
  let posNextComma := find str ',' (addSz posComma 1)
  let res : ActivityAgent F := default
  let sub ← substr str 0 posComma
  let x ← T.stod sub
  let res := { res with opinion := x }
  let res ← if posNextComma = npos then do
      let sub ← substr str (addSz posComma 1) str.length
      let x ← T.stod sub
      .ok { res with activity := x }
    else do
      let sub ← substr str (addSz posComma 1) posNextComma
      let x ← T.stod sub
      .ok { res with activity := x }
  if posNextComma ≠ npos then do
    let sub ← substr str (addSz posNextComma 1) str.length
    let x ← T.stod sub
    .ok { res with reluctance := x }
  else .ok res

/-- activity_agent.hpp:18-61. -/
def activity [Zero F] [One F] (T : Double F) : Format (ActivityAgent F) where
  toString a := T.fmt a.opinion ++ ", ".toList ++ T.fmt a.activity ++ ", ".toList ++ T.fmt a.reluctance
  fromString := activityFromString T
  columns := ["opinion".toList, "activity".toList, "reluctance".toList]

/-- inertial_agent.hpp:41-60: the callback. -/
def inertialCallback (T : Double F) (idx : Nat) (sub : List Char) (res : InertialAgent F) : Res (InertialAgent F) :=
  if idx = 0 then do
    let x ← T.stod sub
    .ok { res with opinion := x }
  else if idx = 1 then do
    let x ← T.stod sub
    .ok { res with velocity := x }
  else if idx = 2 then do
    let x ← T.stod sub
    .ok { res with activity := x }
  else if idx = 3 then do
    let x ← T.stod sub
    .ok { res with reluctance := x }
  else .ok res

/-- inertial_agent.hpp:20-67. -/
def inertial [Zero F] [One F] (T : Double F) : Format (InertialAgent F) where
  toString a := T.fmt a.opinion ++ ", ".toList ++ T.fmt a.velocity ++ ", ".toList ++ T.fmt a.activity ++ ", ".toList ++
    T.fmt a.reluctance
  fromString s := parseCommaSeparatedList s (inertialCallback T) default
  columns := ["opinion".toList, "velocity".toList, "activity".toList, "reluctance".toList]

/-- discrete_vector_agent.hpp:21-32 `agent_to_string<DiscreteVectorAgent>`. -/
def vectorToString (a : DiscreteVectorAgent) : List Char :=
  match a.opinion with
  | [] => []
  | x :: xs => xs.foldl (fun res y => res ++ ", ".toList ++ fmtInt y) (fmtInt x)

/-- discrete_vector_agent.hpp:44-51: the callback. -/
def vectorCallback (_idx : Nat) (sub : List Char) (res : DiscreteVectorAgent) : Res DiscreteVectorAgent := do
  let v ← stoi sub
  .ok ⟨res.opinion ++ [v]⟩

/-- discrete_vector_agent.hpp:20-53; the column names are those of the primary template, agent_io.hpp:33-36. -/
def vector : Format DiscreteVectorAgent where
  toString := vectorToString
  fromString s := parseCommaSeparatedList s vectorCallback default
  columns := ["agent_data[...]".toList]

/-- agent_io.hpp:48-53: the header line. -/
def header {A : Type} (fmt : Format A) : List Char :=
  fmt.columns.foldl (fun h col => h ++ (", ".toList ++ col)) "# idx_agent".toList ++ "\n".toList

/-- agent_io.hpp:38-62 `agents_to_file` (contents of the file). -/
def toFile {A : Type} (fmt : Format A) (agents : List A) : Res (List Char) :=
  loop agents.length (fun i s => do
      let a ← rd agents i
      .ok (s ++ (padLeft 5 (decimal i) ++ ", ".toList ++ padLeft 25 (fmt.toString a) ++ "\n".toList)))
    (header fmt)

/-- agent_io.hpp:93-97: one non-comment line. -/
def parseLine {A : Type} (fmt : Format A) (line : List Char) (endOfLine : Nat) (agents : List A) : Res (List A) := do
  let endOfFirstColumn := find line ',' 0
  let sub ← substr line (addSz endOfFirstColumn 1) endOfLine
  let a ← fmt.fromString sub
  .ok (agents ++ [a])

/-- agent_io.hpp:64-102 `agents_from_file`, given the contents of the file. -/
def fromFile {A : Type} (fmt : Format A) (contents : List Char) : Res (List A) :=
  readLines contents (parseLine fmt) (contents.length + 1) 0 []

end AgentIO
end Seldon
