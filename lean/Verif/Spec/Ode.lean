import Verif.Spec.Dynamics
import Verif.Model.Activity
import Mathlib.Algebra.Field.Defs
/-!
# Independent specification: the opinion ODE and the integrators
-/
namespace Seldon.Spec
variable {A B F : Type}

/-- Attribute `f` of agent `i` (0 if there is no such agent). -/
def attr [Zero F] (f : A → F) (agents : List A) (i : Nat) : F := (agents.map f).getD i 0

/-- `dx_i/dt = -x_i + (K / m_i) Σ_j w_ij tanh( α x_j )`, the sum over the stored (incoming) entries of agent `i`. -/
def rate [Field F] (tanh : F → F) (K alpha : F) (N : Network A F) (m : Nat → F) (x : Nat → F) (i : Nat) : F :=
  -x i + K / m i * weightedSum N (fun j => tanh (alpha * x j)) i

/-- One step of size `h` of the classical fourth-order Runge-Kutta method for `dx/dt = f x`. -/
def rk4 [Field F] (f : (Nat → F) → Nat → F) (h : F) (x : Nat → F) : Nat → F :=
  let k1 := f x
  let k2 := f (fun j => x j + h / 2 * k1 j)
  let k3 := f (fun j => x j + h / 2 * k2 j)
  let k4 := f (fun j => x j + h * k3 j)
  fun i => x i + h / 6 * (k1 i + 2 * k2 i + 2 * k3 i + k4 i)

/-- `(x, v)` becomes `(x', v')` by one step of size `h` of the velocity Verlet method for `x'' = f x - c x'`, where the friction
term of the second half step is taken implicitly. -/
structure VerletStep [Field F] (f : (Nat → F) → Nat → F) (c h : F) (n : Nat) (x v x' v' : Nat → F) : Prop where
  position : ∀ i, i < n → x' i = x i + v i * h + (f x i - c * v i) * h ^ 2 / 2
  velocity : ∀ i, i < n → v' i = v i + h / 2 * ((f x i - c * v i) + (f x' i - c * v' i))

end Seldon.Spec
