import Verif.Spec.Graph
import Mathlib.Algebra.BigOperators.Group.Finset.Basic
import Mathlib.Algebra.Order.Field.Basic
/-!
# Independent specification: contact probabilities and mean-field weights
-/
namespace Seldon.Spec
variable {F : Type} [Field F] [LinearOrder F]

/-- How much agent `i` (with opinions `x` and homophily exponent `h`) prefers to contact agent `j`: `max( |x_i - x_j|, 1e-10 )^(-h)`;
nothing for itself. -/
def preference (pow : F → F → F) (x : Nat → F) (h : F) (i j : Nat) : F := if j = i then 0 else pow (max (1 / 10 ^ 10) |x i - x j|) (-h)

/-- The share of `j` in the preferences `w` for the `n` agents: the probability of being chosen in a single draw. -/
def share (n : Nat) (w : Nat → F) (j : Nat) : F := w j / ∑ k ∈ Finset.range n, w k

/-- The sum over `m` rounds of contacting that the code uses for an agent with share `ω`: `Σ_{t=1}^m ( ω + (-ω)^(t+1) ) / ( 1 + ω )`. -/
def rounds (ω : F) (m : Nat) : F := ∑ t ∈ Finset.range m, (ω + (-ω) ^ (t + 2)) / (1 + ω)

/-- The weight with which `j` listens to `i`: `i` contacts `j`, or it does not, `j` contacts `i` and this is reciprocated. -/
def listening (P : Nat → Nat → F) (r : F) (j i : Nat) : F := P i j + (1 - P i j) * r * P j i

end Seldon.Spec
