import Verif.Model.Network
import Mathlib.Data.Multiset.Bind
import Mathlib.Data.Multiset.Range
import Mathlib.Logic.Relation
import Mathlib.Algebra.BigOperators.Group.List.Basic
/-!
# Independent specification: what a `Network` means as a directed weighted multigraph
-/
namespace Seldon.Spec
variable {A W : Type}

/-- Well-formedness of a network: one neighbour row and one weight row per agent, equally long, all neighbour
indices in range. -/
structure WF (N : Network A W) : Prop where
  rows    : N.neighbours.length = N.agents.length
  wrows   : N.weights.length = N.agents.length
  lengths : ∀ i (h : i < N.neighbours.length) (h' : i < N.weights.length),
              (N.weights[i]).length = (N.neighbours[i]).length
  range   : ∀ row ∈ N.neighbours, ∀ j ∈ row, j < N.agents.length

/-- The (neighbour, weight) entries stored for agent `i`, in order. -/
def row (N : Network A W) (i : Nat) : List (Nat × W) :=
  (N.neighbours.getD i []).zip (N.weights.getD i [])

/-- A stored entry `(j, w)` in the row of `i` means an edge `j → i` of weight `w` when incoming edges are stored,
and `i → j` when outgoing edges are stored.  An edge is `(source, target, weight)`. -/
def edgeOf (d : EdgeDirection) (i : Nat) (e : Nat × W) : Nat × Nat × W :=
  match d with
  | .incoming => (e.1, i, e.2)
  | .outgoing => (i, e.1, e.2)

/-- The multiset of directed weighted edges of a network. -/
def edges (N : Network A W) : Multiset (Nat × Nat × W) :=
  (Multiset.range N.agents.length).bind fun i => ((row N i : List (Nat × W)) : Multiset (Nat × W)).map (edgeOf N.direction i)

/-- Reversing an edge. -/
def revEdge (e : Nat × Nat × W) : Nat × Nat × W := (e.2.1, e.1, e.2.2)

/-- The other direction flag. -/
def opposite : EdgeDirection → EdgeDirection
  | .incoming => .outgoing
  | .outgoing => .incoming

/-- Total weight stored for neighbour `j` in a row. -/
def weightOf [AddCommMonoid W] (L : List (Nat × W)) (j : Nat) : W :=
  ((L.filter (fun e => e.1 = j)).map (·.2)).sum

end Seldon.Spec

namespace Seldon.Spec

/-- There is a stored entry `b` in the row of `a`. -/
def Step (adj : List (List Nat)) (a b : Nat) : Prop := b ∈ adj.getD a []

/-- `b` can be reached from `a` along stored entries. -/
def Reaches (adj : List (List Nat)) : Nat → Nat → Prop := Relation.ReflTransGen (Step adj)

/-- Every stored index is a row index. -/
def InRange (adj : List (List Nat)) : Prop := ∀ row ∈ adj, ∀ j ∈ row, j < adj.length

/-- If `b` is stored in the row of `a` then `a` is stored in the row of `b`. -/
def Symmetric (adj : List (List Nat)) : Prop := ∀ a b, Step adj a b → Step adj b a

/-- Entries between agents that reach each other are stored in both rows. -/
def TwoWay (adj : List (List Nat)) : Prop := ∀ a b, Step adj a b → Reaches adj b a → Step adj b a

end Seldon.Spec

namespace Seldon.Spec

/-- Neighbours of site `c = x + L*y` on the periodic `L × L` lattice: `x ± 1` and `y ± 1` modulo `L`. -/
def latticeNeighbours (L c : Nat) : List Nat :=
  let x := c % L
  let y := c / L
  [(x + L - 1) % L + L * y, (x + 1) % L + L * y, x + L * ((y + L - 1) % L), x + L * ((y + 1) % L)]

end Seldon.Spec
