import Verif.Spec.Graph
import Verif.Model.Activity
/-!
# Independent specification: who contacts whom in one update of the activity-driven network
-/
namespace Seldon.Spec
variable {A F G : Type}

/-- The number of contacts agent `i` makes when activated: `bot_m[i]` for the first `n_bots` agents, `m` for the others. -/
def contactsOf (p : ActivitySettings F) (i : Nat) : Int := if i < p.nBots then p.botM.getD i 0 else p.m

/-- The homophily of agent `i`: `bot_homophily[i]` for the first `n_bots` agents, `homophily` for the others. -/
def homophilyFor [Zero F] (p : ActivitySettings F) (i : Nat) : F := if i < p.nBots then p.botHomophily.getD i 0 else p.homophily

/-- Agent `a` is activated by the random number drawn in state `g`. -/
def Activated [ActiveAgent A F] [LT F] (r : Rng G F) (a : A) (g : G) : Prop := (r.unit g).1 < ActiveAgent.activity a

section
variable [ActiveAgent A F] [Zero F] [One F] [Sub F] [Mul F] [Add F] [Div F] [Neg F] [NatCast F] [LT F] [LE F] [DecidableLT F] [DecidableLE F]

/-- `gs i` is the state of the random number generator when it is agent `i`'s turn, `contacts i` is the list of agents it contacts,
`buf i` the contents of the contact buffer at that time.  Each agent first draws one number to see if it is activated; if so its
contacts are the reservoir sample of `contactsOf p i` agents with the homophily weights, otherwise it contacts nobody. -/
structure ContactPhase (o : MathOps F) (pick : List (Nat × F) → Nat) (r : Rng G F) (p : ActivitySettings F) (agents : List A)
    (gs : Nat → G) (buf contacts : Nat → List Nat) : Prop where
  empty : buf 0 = []
  active : ∀ i (h : i < agents.length), Activated r agents[i] (gs i) → buf (i + 1) = contacts i ∧
    Reservoir.sample o.toOps pick r (contactsOf p i).toNat agents.length (Activity.weight o (homophilyFor p i) agents i) (buf i)
      (r.unit (gs i)).2 = .ok (contacts i, gs (i + 1))
  passive : ∀ i (h : i < agents.length), ¬ Activated r agents[i] (gs i) → buf (i + 1) = buf i ∧ contacts i = [] ∧
    gs (i + 1) = (r.unit (gs i)).2

/-- The contacts `i → j` that are not mutual, in the order in which the agents are visited. -/
def oneWay (n : Nat) (contacts : Nat → List Nat) : List (Nat × Nat) :=
  (List.range n).flatMap (fun i => ((contacts i).filter (fun j => i ∉ contacts j)).map (fun j => (i, j)))

/-- One random number is drawn for each pair; the pairs whose number is below `reciprocity` are kept. -/
def keep (r : Rng G F) (reciprocity : F) : List (Nat × Nat) → G → List (Nat × Nat) × G
  | [], g => ([], g)
  | e :: l, g =>
    let rest := keep r reciprocity l (r.unit g).2
    (if (r.unit g).1 < reciprocity then e :: rest.1 else rest.1, rest.2)

end
end Seldon.Spec
