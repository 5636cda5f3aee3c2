import Verif.Spec.Random
/-!
# Specification: being chosen
-/
namespace Seldon.Spec

/-- The probability that `j` is among the `m` agents that are drawn, without replacement and with the weights `w`, from the agents of `S`: it is drawn first,
or another agent is, and it is among the `m - 1` drawn from those that are left. -/
noncomputable def chosen (w : ℕ → ℝ) : ℕ → Finset ℕ → ℕ → ℝ
  | 0, _, _ => 0
  | m + 1, S, j => ∑ i ∈ S, w i / (∑ k ∈ S, w k) * if i = j then 1 else chosen w m (S.erase i) j

end Seldon.Spec
