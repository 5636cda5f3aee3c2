import Verif.Spec.Ode
import Mathlib.Analysis.Calculus.Deriv.Basic
/-!
# Independent specification: exact solutions, to compare the integrators with
-/
namespace Seldon.Spec
open Filter Topology

/-- Around time 0, `γ` solves `dx_i/dt = f_i( x )` for the indices `i < n`, with value `x` at time 0. -/
structure SolvesNear (f : (Nat → ℝ) → Nat → ℝ) (n : Nat) (x : Nat → ℝ) (γ : ℝ → Nat → ℝ) : Prop where
  start : ∀ i, i < n → γ 0 i = x i
  deriv : ∀ᶠ t in 𝓝 (0 : ℝ), ∀ i, i < n → HasDerivAt (fun t => γ t i) (f (γ t) i) t

/-- The same dynamics with the first `b` components held fixed. -/
def heldFixed (b : Nat) (f : (Nat → ℝ) → Nat → ℝ) (x : Nat → ℝ) (i : Nat) : ℝ := if i < b then 0 else f x i

/-- Around time 0, `γ` with velocity `ν` solves `x'' = f( x ) - c x'` for the indices `i < n`, with position `x` and velocity `v` at time 0. -/
structure SolvesNear2 (f : (Nat → ℝ) → Nat → ℝ) (c : ℝ) (n : Nat) (x v : Nat → ℝ) (γ ν : ℝ → Nat → ℝ) : Prop where
  start : ∀ i, i < n → γ 0 i = x i ∧ ν 0 i = v i
  deriv : ∀ᶠ t in 𝓝 (0 : ℝ), ∀ i, i < n → HasDerivAt (fun t => γ t i) (ν t i) t ∧ HasDerivAt (fun t => ν t i) (f (γ t) i - c * ν t i) t

/-- On each of the `K` intervals `[k h, (k+1) h]`, `y` solves `dx_i/dt = (F k)_i( x )` for the indices `i < n`, with value `x` at time 0. -/
structure FollowsPieces (F : Nat → (Nat → ℝ) → Nat → ℝ) (n : Nat) (h : ℝ) (K : Nat) (x : Nat → ℝ) (y : ℝ → Nat → ℝ) : Prop where
  start : ∀ i, i < n → y 0 i = x i
  deriv : ∀ k, k < K → ∀ t ∈ Set.Icc (k * h) ((k + 1) * h), ∀ i, i < n →
    HasDerivWithinAt (fun t => y t i) (F k (y t) i) (Set.Icc (k * h) ((k + 1) * h)) t

/-- On each of the `K` intervals `[k h, (k+1) h]`, `y` with velocity `ν` solves `x'' = (F k)( x ) - c x'` for the indices `i < n`, with position `x` and velocity `v`
at time 0. -/
structure FollowsPieces2 (F : Nat → (Nat → ℝ) → Nat → ℝ) (c : ℝ) (n : Nat) (h : ℝ) (K : Nat) (x v : Nat → ℝ) (y ν : ℝ → Nat → ℝ) : Prop where
  start : ∀ i, i < n → y 0 i = x i ∧ ν 0 i = v i
  deriv : ∀ k, k < K → ∀ t ∈ Set.Icc (k * h) ((k + 1) * h), ∀ i, i < n →
    HasDerivWithinAt (fun t => y t i) (ν t i) (Set.Icc (k * h) ((k + 1) * h)) t ∧
    HasDerivWithinAt (fun t => ν t i) (F k (y t) i - c * ν t i) (Set.Icc (k * h) ((k + 1) * h)) t

end Seldon.Spec
