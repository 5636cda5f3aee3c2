import Verif.Spec.ExtReal
import Mathlib.MeasureTheory.Constructions.BorelSpace.Real
import Mathlib.MeasureTheory.Measure.Lebesgue.Basic
import Mathlib.Dynamics.Ergodic.MeasurePreserving
import Mathlib.Probability.Distributions.Gaussian.Real
import Mathlib.Probability.UniformOn
/-!
# Specification: uniform random numbers and weighted sampling without replacement
-/
namespace Seldon.Spec
open MeasureTheory
variable {G : Type}

/-- The uniform distribution on the interval from 0 to 1. -/
noncomputable def uniform : Measure ℝ := volume.restrict (Set.Ioo 0 1)

/-- `r` draws independent uniform numbers when its state has the law `μ`: the first number drawn is uniform, and the state that is left is independent
of it and has the law `μ` again. -/
def DrawsUniform [MeasurableSpace G] (r : Rng G XR) (μ : Measure G) : Prop :=
  ∃ u : G → ℝ × G, MeasurePreserving u μ (uniform.prod μ) ∧ ∀ g, r.unit g = (XR.fin (u g).1, (u g).2)

/-- Weighted sampling without replacement: the probability that successive draws from the items `S`, each draw picking one of the items that are left with a
probability proportional to its weight, give exactly the items of the list, in this order. -/
noncomputable def successive (w : ℕ → ℝ) : Finset ℕ → List ℕ → ℝ
  | _, [] => 1
  | S, i :: t => if i ∈ S then w i / (∑ j ∈ S, w j) * successive w (S.erase i) t else 0

/-- `f` draws a value with the law `law` when the state of the generator has the law `μ`, and leaves a state that is independent of the value and has the
law `μ` again: further draws are fresh. -/
def Draws {α : Type} [MeasurableSpace α] [MeasurableSpace G] (f : G → α × G) (law : Measure α) (μ : Measure G) : Prop :=
  MeasurePreserving f μ (law.prod μ)

/-- The generator draws independent uniform and standard normal numbers. -/
structure FreshDraws [MeasurableSpace G] (r : Rng G ℝ) (μ : Measure G) : Prop where
  unit : Draws r.unit uniform μ
  normal : Draws r.normal (ProbabilityTheory.gaussianReal 0 1) μ

/-- The generator draws independent integers, each uniformly distributed on the requested range. -/
structure FairIntegers {F : Type} [MeasurableSpace G] (r : Rng G F) (μ : Measure G) : Prop where
  int : ∀ a b, a ≤ b → Draws (r.int a b) (ProbabilityTheory.uniformOn (Set.Icc a b)) μ

end Seldon.Spec
