import Verif.Spec.Graph
import Verif.Model.AgentIO
import Mathlib.Algebra.Order.Group.Abs
import Mathlib.Algebra.Ring.Defs
/-!
# Independent specification: opinion dynamics
-/
namespace Seldon.Spec
variable {A F : Type}

/-- The opinions of a list of agents with scalar opinions. -/
def opinions (agents : List (SimpleAgent F)) : List F := agents.map (·.opinion)

/-- The opinion of agent `i` (0 if there is no such agent). -/
def opinionOf [Zero F] (agents : List (SimpleAgent F)) (i : Nat) : F := (opinions agents).getD i 0

/-- `Σ_j w_ij x_j` over the stored entries `(j, w_ij)` of agent `i`, in exact arithmetic. -/
def weightedSum [AddCommMonoid F] [Mul F] (N : Network A F) (x : Nat → F) (i : Nat) : F :=
  ((row N i).map (fun e => e.2 * x e.1)).sum

/-- The same sum evaluated from left to right starting from zero, for an arbitrary (e.g. rounded) addition and
multiplication. -/
def weightedSumLR [Zero F] [Add F] [Mul F] (N : Network A F) (x : Nat → F) (i : Nat) : F :=
  (row N i).foldl (fun acc e => acc + e.2 * x e.1) 0

/-- All weights are non-negative and every row sums to one. -/
structure RowStochastic [AddCommMonoid F] [One F] [LE F] (N : Network A F) : Prop where
  nonneg : ∀ i, i < N.agents.length → ∀ e ∈ row N i, 0 ≤ e.2
  sum    : ∀ i, i < N.agents.length → ((row N i).map (·.2)).sum = 1

/-- One Deffuant interaction of agents `a` and `b`: if their opinions differ by less than the threshold both move by
`mu` times the difference towards each other, otherwise nothing happens. -/
def meet [Ring F] [LinearOrder F] (threshold mu : F) (a b : Nat) (x : Nat → F) : Nat → F :=
  if |x a - x b| < threshold then
    fun i => if i = a then x a - mu * (x a - x b) else if i = b then x b + mu * (x a - x b) else x i
  else x

/-- A sequence of interactions. -/
def meetings [Ring F] [LinearOrder F] (threshold mu : F) (pairs : List (Nat × Nat)) (x : Nat → F) : Nat → F :=
  pairs.foldl (fun x p => meet threshold mu p.1 p.2 x) x

/-- Entry `j` of the opinion vector of agent `i` (`none` if there is no such agent or entry). -/
def entry (agents : List DiscreteVectorAgent) (i j : Nat) : Option Int := agents[i]?.bind (fun v => v.opinion[j]?)

end Seldon.Spec
