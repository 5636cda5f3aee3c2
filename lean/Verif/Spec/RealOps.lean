import Verif.Model.Distributions
import Mathlib.Analysis.SpecialFunctions.Pow.Real
import Mathlib.Analysis.SpecialFunctions.Gaussian.GaussianIntegral
import Mathlib.Analysis.Complex.Trigonometric
/-!
# The mathematical functions behind `<cmath>`, and the documented probability laws
-/
namespace Seldon.Spec
open MeasureTheory

noncomputable section

/-- The error function, `2/√π ∫_0^x exp( -t² ) dt`. -/
def erf (x : ℝ) : ℝ := 2 / Real.sqrt Real.pi * ∫ t in (0 : ℝ)..x, Real.exp (-t ^ 2)

/-- Its inverse (0 outside (-1, 1)). -/
def erfInverse (y : ℝ) : ℝ := open Classical in if h : ∃ x, erf x = y then h.choose else 0

/-- The real functions. -/
def realOps : MathOps ℝ where
  pow x y := x ^ y
  log := Real.log
  tanh := Real.tanh
  powNat x k := x ^ k
  erf := erf
  erfinv := erfInverse
  sqrt := Real.sqrt
  exp := Real.exp
  pi := Real.pi

/-- The documented density of the power law on `[eps, 1]` (math.hpp:117-118). -/
def powerLawDensity (eps gamma x : ℝ) : ℝ := (1 - gamma) / (1 - eps ^ (1 - gamma)) * x ^ (-gamma)

/-- The density of the normal distribution. -/
def normalDensity (mean sigma x : ℝ) : ℝ := 1 / (sigma * Real.sqrt (2 * Real.pi)) * Real.exp (-(x - mean) ^ 2 / (2 * sigma ^ 2))

end
end Seldon.Spec
