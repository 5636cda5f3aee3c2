import Verif.Model.Network
import Mathlib.Logic.Equiv.Basic
/-!
# Specification: another numbering of the agents
-/
namespace Seldon.Spec
variable {A W : Type}

/-- `ys` holds at position `σ i` what `xs` holds at position `i`. -/
def Relabelled (σ : Equiv.Perm ℕ) (xs ys : List A) : Prop := ys.length = xs.length ∧ ∀ i, ys[σ i]? = xs[i]?

/-- `M` is the network `N` with agent `i` called `σ i`: the same data, and the edges with the same weights in the same order. -/
structure RelabelledNetwork (σ : Equiv.Perm ℕ) (N M : Network A W) : Prop where
  agents : Relabelled σ N.agents M.agents
  neighbours : Relabelled σ (N.neighbours.map (List.map σ)) M.neighbours
  weights : Relabelled σ N.weights M.weights

end Seldon.Spec
