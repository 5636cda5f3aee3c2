import Verif.Model.Sampling
/-!
# Model of the distributions in `include/util/math.hpp`
-/
namespace Seldon
variable {G F : Type}

/-- The `<cmath>` functions used by the models, and `Seldon::Math::erfinv` (modelled on its own in `Model/Erfinv.lean`).
Called at math.hpp:87-99, 130-150, 180-205, 240-275, ActivityDrivenModel.hpp:166, 251, 343. -/
structure MathOps (F : Type) extends Reservoir.Ops F where
  tanh : F → F
  /-- `std::pow` with a whole number as exponent -/
  powNat : F → Nat → F
  erf : F → F
  erfinv : F → F
  sqrt : F → F
  exp : F → F
  pi : F

namespace Dist
variable [Zero F] [One F] [Sub F] [Mul F] [Add F] [Div F] [Neg F] [NatCast F]

/-- math.hpp:138-141 `power_law_distribution::pdf`. -/
def powerLawPdf (o : MathOps F) (eps gamma x : F) : F :=
  (1 - gamma) / (1 - o.pow eps (1 - gamma) * o.pow x (-gamma))

/-- math.hpp:143-148 `power_law_distribution::inverse_cdf`. -/
def powerLawInverse (o : MathOps F) (eps gamma x : F) : F :=
  o.pow ((1 - o.pow eps (1 - gamma)) * x + o.pow eps (1 - gamma)) (1 / (1 - gamma))

/-- math.hpp:150-154 `power_law_distribution::mean`. -/
def powerLawMean (o : MathOps F) (eps gamma : F) : F :=
  -(1 - gamma) / (((2 : Nat) : F) - gamma) * o.pow eps (((2 : Nat) : F) - gamma) / (1 - o.pow eps (1 - gamma))

/-- math.hpp:132-136 `power_law_distribution::operator()`. -/
def powerLawDraw (o : MathOps F) (r : Rng G F) (eps gamma : F) (g : G) : F × G :=
  let (u, g) := r.unit g
  (powerLawInverse o eps gamma u, g)

/-- math.hpp:171-174 `inverse_cdf_gauss`. -/
def gaussInverse (o : MathOps F) (mean sigma y : F) : F :=
  o.erfinv (((2 : Nat) : F) * y - 1) * o.sqrt ((2 : Nat) : F) * sigma + mean

/-- math.hpp:176-179 `cdf_gauss`. -/
def gaussCdf (o : MathOps F) (mean sigma x : F) : F :=
  1 / ((2 : Nat) : F) * (1 + o.erf ((x - mean) / (sigma * o.sqrt ((2 : Nat) : F))))

/-- math.hpp:181-184 `pdf_gauss` (`std::pow( z, 2 )` is written `z * z`). -/
def gaussPdf (o : MathOps F) (mean sigma x : F) : F :=
  let z := (x - mean) / sigma
  1 / (sigma * o.sqrt (((2 : Nat) : F) * o.pi)) * o.exp (-(1 / ((2 : Nat) : F)) * (z * z))

/-- math.hpp:198-201 `truncated_normal_distribution::inverse_cdf`. -/
def truncatedInverse (o : MathOps F) (mean sigma eps y : F) : F :=
  gaussInverse o mean sigma (y * (1 - gaussCdf o mean sigma eps) + gaussCdf o mean sigma eps)

/-- math.hpp:203-209 `truncated_normal_distribution::pdf`. -/
def truncatedPdf [LT F] [DecidableLT F] (o : MathOps F) (mean sigma eps x : F) : F :=
  if x < eps then 0 else 1 / (1 - gaussCdf o mean sigma eps) * gaussPdf o mean sigma x

/-- math.hpp:192-196 `truncated_normal_distribution::operator()`. -/
def truncatedDraw (o : MathOps F) (r : Rng G F) (mean sigma eps : F) (g : G) : F × G :=
  let (u, g) := r.unit g
  (truncatedInverse o mean sigma eps u, g)

/-- math.hpp:234-237: the two outputs of `bivariate_normal_distribution` from the two normal draws. -/
def correlate (o : MathOps F) (covariance n1 n2 : F) : F × F :=
  (n1, covariance * n1 + o.sqrt (1 - covariance * covariance) * n2)

/-- math.hpp:228-238 `bivariate_normal_distribution::operator()`. -/
def bivariate (o : MathOps F) (r : Rng G F) (covariance : F) (g : G) : (F × F) × G :=
  let (n1, g) := r.normal g
  let (n2, g) := r.normal g
  (correlate o covariance n1 n2, g)

/-- math.hpp:250-253: the standard normal CDF of `bivariate_gaussian_copula`. -/
def stdCdf (o : MathOps F) (x : F) : F := 1 / ((2 : Nat) : F) * (1 + o.erf (x / o.sqrt ((2 : Nat) : F)))

/-- math.hpp:267-277 `bivariate_gaussian_copula::operator()`, for the inverse CDFs of its two marginals. -/
def copula (o : MathOps F) (r : Rng G F) (covariance : F) (inv1 inv2 : F → F) (g : G) : (F × F) × G :=
  let (z, g) := bivariate o r covariance g
  ((inv1 (stdCdf o z.1), inv2 (stdCdf o z.2)), g)

end Dist
end Seldon
