import Verif.Spec.RealOps
import Mathlib.Analysis.SpecialFunctions.Integrals.Basic
import Mathlib.Tactic.FieldSimp
import Mathlib.Tactic.Linarith
/-!
# Property C25: the power law of the activities
-/
namespace Seldon
open Spec MeasureTheory

section
variable {eps gamma : ℝ}

theorem eps_pow_gt_one (h0 : 0 < eps) (h1 : eps < 1) (hg : 1 < gamma) : 1 < eps ^ (1 - gamma) :=
  Real.one_lt_rpow_of_pos_of_lt_one_of_neg h0 h1 (by linarith)

/-- The CDF of the documented density. -/
theorem density_integral (h0 : 0 < eps) (h1 : eps < 1) (hg : 1 < gamma) {x : ℝ} (hx : eps ≤ x) :
    ∫ t in eps..x, powerLawDensity eps gamma t = (x ^ (1 - gamma) - eps ^ (1 - gamma)) / (1 - eps ^ (1 - gamma)) := by
  unfold powerLawDensity
  rw [intervalIntegral.integral_const_mul, integral_rpow]
  · rw [show -gamma + 1 = 1 - gamma by ring]
    have : 1 - gamma ≠ 0 := by
      intro h; linarith
    have h2 : 1 - eps ^ (1 - gamma) ≠ 0 := by
      have := eps_pow_gt_one h0 h1 hg
      intro h; linarith
    field_simp
  · right
    refine ⟨by intro h; linarith, ?_⟩
    rw [Set.uIcc_of_le hx]
    intro h
    linarith [h.1]

/-- C25: the documented density is one: positive on [eps, 1], with integral 1. -/
theorem C25_density (h0 : 0 < eps) (h1 : eps < 1) (hg : 1 < gamma) :
    (∀ x, 0 < x → 0 < powerLawDensity eps gamma x) ∧ ∫ t in eps..1, powerLawDensity eps gamma t = 1 := by
  have hE := eps_pow_gt_one h0 h1 hg
  constructor
  · intro x hx
    unfold powerLawDensity
    exact mul_pos (div_pos_of_neg_of_neg (by linarith) (by linarith)) (Real.rpow_pos_of_pos hx _)
  · rw [density_integral h0 h1 hg h1.le, Real.one_rpow, div_self]
    intro h; linarith

/-- The argument of the power in `inverse_cdf`. -/
theorem inverse_base (h0 : 0 < eps) (h1 : eps < 1) (hg : 1 < gamma) {u : ℝ} (hu0 : 0 ≤ u) (hu1 : u ≤ 1) :
    1 ≤ (1 - eps ^ (1 - gamma)) * u + eps ^ (1 - gamma) ∧ (1 - eps ^ (1 - gamma)) * u + eps ^ (1 - gamma) ≤ eps ^ (1 - gamma) := by
  have hE := eps_pow_gt_one h0 h1 hg
  constructor <;> nlinarith

/-- C25: `inverse_cdf` increases strictly from `eps` at 0 to 1 at 1 ... -/
theorem C25_inverse (h0 : 0 < eps) (h1 : eps < 1) (hg : 1 < gamma) :
    Dist.powerLawInverse realOps eps gamma 0 = eps ∧ Dist.powerLawInverse realOps eps gamma 1 = 1 ∧
    StrictMonoOn (Dist.powerLawInverse realOps eps gamma) (Set.Icc 0 1) ∧
    ∀ u, 0 ≤ u → u ≤ 1 → eps ≤ Dist.powerLawInverse realOps eps gamma u ∧ Dist.powerLawInverse realOps eps gamma u ≤ 1 := by
  have hE := eps_pow_gt_one h0 h1 hg
  have hg' : 1 - gamma ≠ 0 := by
    intro h; linarith
  have e0 : Dist.powerLawInverse realOps eps gamma 0 = eps := by
    show ((1 - eps ^ (1 - gamma)) * 0 + eps ^ (1 - gamma)) ^ (1 / (1 - gamma)) = eps
    rw [mul_zero, zero_add, ← Real.rpow_mul h0.le, mul_one_div_cancel hg', Real.rpow_one]
  have e1 : Dist.powerLawInverse realOps eps gamma 1 = 1 := by
    show ((1 - eps ^ (1 - gamma)) * 1 + eps ^ (1 - gamma)) ^ (1 / (1 - gamma)) = 1
    rw [mul_one, sub_add_cancel, Real.one_rpow]
  have mono : StrictMonoOn (Dist.powerLawInverse realOps eps gamma) (Set.Icc 0 1) := by
    intro u hu v hv huv
    show ((1 - eps ^ (1 - gamma)) * u + eps ^ (1 - gamma)) ^ (1 / (1 - gamma)) < ((1 - eps ^ (1 - gamma)) * v + eps ^ (1 - gamma)) ^ (1 / (1 - gamma))
    apply Real.rpow_lt_rpow_of_neg
    · exact lt_of_lt_of_le one_pos (inverse_base h0 h1 hg hv.1 hv.2).1
    · nlinarith
    · exact div_neg_of_pos_of_neg one_pos (by linarith)
  refine ⟨e0, e1, mono, ?_⟩
  intro u hu0 hu1
  constructor
  · have := mono.monotoneOn (Set.left_mem_Icc.mpr zero_le_one) ⟨hu0, hu1⟩ hu0
    rwa [e0] at this
  · have := mono.monotoneOn ⟨hu0, hu1⟩ (Set.right_mem_Icc.mpr zero_le_one) hu1
    rwa [e1] at this

/-- C25: ... and inverts the CDF of the documented density: the density has mass `u` between `eps` and `inverse_cdf( u )`, and
`inverse_cdf` of the mass below `x` is `x`.  Missing for the full property: that `pdf` returns the density and `mean` its mean, which is false
(below). -/
theorem C25_law_partial (h0 : 0 < eps) (h1 : eps < 1) (hg : 1 < gamma) :
    (∀ u, 0 ≤ u → u ≤ 1 → ∫ t in eps..Dist.powerLawInverse realOps eps gamma u, powerLawDensity eps gamma t = u) ∧
    (∀ x, eps ≤ x → x ≤ 1 → Dist.powerLawInverse realOps eps gamma (∫ t in eps..x, powerLawDensity eps gamma t) = x) := by
  have hE := eps_pow_gt_one h0 h1 hg
  have hg' : 1 - gamma ≠ 0 := by
    intro h; linarith
  have hE' : 1 - eps ^ (1 - gamma) ≠ 0 := by
    intro h; linarith
  constructor
  · intro u hu0 hu1
    rw [density_integral h0 h1 hg ((C25_inverse h0 h1 hg).2.2.2 u hu0 hu1).1]
    have hb := lt_of_lt_of_le one_pos (inverse_base h0 h1 hg hu0 hu1).1
    have : Dist.powerLawInverse realOps eps gamma u ^ (1 - gamma) = (1 - eps ^ (1 - gamma)) * u + eps ^ (1 - gamma) := by
      show (((1 - eps ^ (1 - gamma)) * u + eps ^ (1 - gamma)) ^ (1 / (1 - gamma))) ^ (1 - gamma) = _
      rw [← Real.rpow_mul hb.le, one_div_mul_cancel hg', Real.rpow_one]
    rw [this]
    field_simp
    ring
  · intro x hx _
    rw [density_integral h0 h1 hg hx]
    show ((1 - eps ^ (1 - gamma)) * ((x ^ (1 - gamma) - eps ^ (1 - gamma)) / (1 - eps ^ (1 - gamma))) + eps ^ (1 - gamma)) ^ (1 / (1 - gamma)) = x
    rw [mul_div_cancel₀ _ hE', sub_add_cancel, ← Real.rpow_mul (by linarith), mul_one_div_cancel hg', Real.rpow_one]

/-- C25 (false for `pdf`): for all arguments below 1 `pdf` returns less than the documented density; at 1 it agrees. -/
theorem C25_pdf_false (h0 : 0 < eps) (h1 : eps < 1) (hg : 1 < gamma) :
    Dist.powerLawPdf realOps eps gamma 1 = powerLawDensity eps gamma 1 ∧
    ∀ x, 0 < x → x < 1 → Dist.powerLawPdf realOps eps gamma x < powerLawDensity eps gamma x := by
  have hE := eps_pow_gt_one h0 h1 hg
  constructor
  · show (1 - gamma) / (1 - eps ^ (1 - gamma) * (1 : ℝ) ^ (-gamma)) = _
    unfold powerLawDensity
    rw [Real.one_rpow, mul_one, mul_one]
  · intro x hx hx1
    show (1 - gamma) / (1 - eps ^ (1 - gamma) * x ^ (-gamma)) < _
    unfold powerLawDensity
    have hy : 1 < x ^ (-gamma) := Real.one_lt_rpow_of_pos_of_lt_one_of_neg hx hx1 (by linarith)
    generalize x ^ (-gamma) = y at hy
    generalize eps ^ (1 - gamma) = E at hE
    have e1 : (1 - gamma) / (1 - E * y) = (gamma - 1) / (E * y - 1) := by
      rw [← neg_div_neg_eq]; ring_nf
    have e2 : (1 - gamma) / (1 - E) = (gamma - 1) / (E - 1) := by
      rw [← neg_div_neg_eq]; ring_nf
    rw [e1, e2]
    have hEy : E - 1 < E * y - 1 := by nlinarith
    calc (gamma - 1) / (E * y - 1) < (gamma - 1) / (E - 1) := by
          apply div_lt_div_of_pos_left (by linarith) (by linarith) hEy
      _ < (gamma - 1) / (E - 1) * y := by
          have : 0 < (gamma - 1) / (E - 1) := div_pos (by linarith) (by linarith)
          nlinarith

/-- The mean of the documented law. -/
theorem density_mean (h0 : 0 < eps) (h1 : eps < 1) (hg : 1 < gamma) (hg2 : gamma ≠ 2) :
    ∫ t in eps..1, t * powerLawDensity eps gamma t =
      (1 - gamma) / (1 - eps ^ (1 - gamma)) * ((1 - eps ^ (2 - gamma)) / (2 - gamma)) := by
  have e : ∫ t in eps..1, t * powerLawDensity eps gamma t = ∫ t in eps..1, (1 - gamma) / (1 - eps ^ (1 - gamma)) * t ^ (1 - gamma) := by
    apply intervalIntegral.integral_congr
    intro t ht
    rw [Set.uIcc_of_le h1.le] at ht
    have ht0 : 0 < t := lt_of_lt_of_le h0 ht.1
    show t * ((1 - gamma) / (1 - eps ^ (1 - gamma)) * t ^ (-gamma)) = _
    have : t ^ (1 - gamma) = t * t ^ (-gamma) := by
      rw [show 1 - gamma = 1 + -gamma by ring, Real.rpow_add ht0, Real.rpow_one]
    simp only [this]
    ring
  rw [e, intervalIntegral.integral_const_mul, integral_rpow]
  · rw [Real.one_rpow, show 1 - gamma + 1 = 2 - gamma by ring]
  · right
    refine ⟨by intro h; exact hg2 (by linarith), ?_⟩
    rw [Set.uIcc_of_le h1.le]
    intro h
    linarith [h.1]

/-- C25 (false for `mean`): for `gamma > 2`, which the configuration requires, `mean()` exceeds the mean of the law by exactly
`( gamma - 1 ) / ( ( gamma - 2 ) ( eps^(1-gamma) - 1 ) )`. -/
theorem C25_mean_false (h0 : 0 < eps) (h1 : eps < 1) (hg : 2 < gamma) :
    Dist.powerLawMean realOps eps gamma - ∫ t in eps..1, t * powerLawDensity eps gamma t =
      (gamma - 1) / ((gamma - 2) * (eps ^ (1 - gamma) - 1)) ∧
    ∫ t in eps..1, t * powerLawDensity eps gamma t < Dist.powerLawMean realOps eps gamma := by
  have hE := eps_pow_gt_one h0 h1 (show 1 < gamma by linarith)
  have key : Dist.powerLawMean realOps eps gamma - ∫ t in eps..1, t * powerLawDensity eps gamma t =
      (gamma - 1) / ((gamma - 2) * (eps ^ (1 - gamma) - 1)) := by
    rw [density_mean h0 h1 (by linarith) (by linarith)]
    show -(1 - gamma) / (((2 : ℕ) : ℝ) - gamma) * eps ^ (((2 : ℕ) : ℝ) - gamma) / (1 - eps ^ (1 - gamma)) - _ = _
    push_cast
    generalize eps ^ (2 - gamma) = e2
    generalize eps ^ (1 - gamma) = E at hE
    have a : 2 - gamma ≠ 0 := by
      intro h; linarith
    have b : 1 - E ≠ 0 := by
      intro h; linarith
    have a' : gamma - 2 ≠ 0 := by
      intro h; linarith
    have b' : E - 1 ≠ 0 := by
      intro h; linarith
    rw [div_mul_eq_mul_div, div_div, div_mul_div_comm, ← sub_eq_zero]
    have : (2 - gamma) * (1 - E) = (gamma - 2) * (E - 1) := by ring
    rw [this, show (1 - E) * (2 - gamma) = (gamma - 2) * (E - 1) by ring, ← sub_div, ← sub_div]
    rw [div_eq_zero_iff]
    left
    ring
  refine ⟨key, ?_⟩
  have : 0 < (gamma - 1) / ((gamma - 2) * (eps ^ (1 - gamma) - 1)) := div_pos (by linarith) (mul_pos (by linarith) (by linarith))
  linarith

/-- C25: `mean()` can even lie outside [eps, 1]: it is 4/3 for `eps = 1/2`, `gamma = 3`. -/
theorem C25_mean_example : Dist.powerLawMean realOps (1 / 2) 3 = 4 / 3 := by
  show -(1 - (3 : ℝ)) / (((2 : ℕ) : ℝ) - 3) * (1 / 2 : ℝ) ^ (((2 : ℕ) : ℝ) - 3) / (1 - (1 / 2 : ℝ) ^ (1 - (3 : ℝ))) = 4 / 3
  have e1 : (1 / 2 : ℝ) ^ (((2 : ℕ) : ℝ) - 3) = 2 := by
    rw [show ((2 : ℕ) : ℝ) - 3 = -1 by norm_num, Real.rpow_neg_one]; norm_num
  have e2 : (1 / 2 : ℝ) ^ (1 - (3 : ℝ)) = 4 := by
    rw [show (1 : ℝ) - 3 = -2 by norm_num, Real.rpow_neg (by norm_num), show (2 : ℝ) = ((2 : ℕ) : ℝ) by norm_num, Real.rpow_natCast]; norm_num
  rw [e1, e2]
  norm_num

/-- C25: activities drawn directly from the distribution, whatever the generator returns in [0, 1). -/
theorem C25_draw {G : Type} {r : Rng G ℝ} (hr : r.Lawful) (h0 : 0 < eps) (h1 : eps < 1) (hg : 1 < gamma) (g : G) :
    eps ≤ (Dist.powerLawDraw realOps r eps gamma g).1 ∧ (Dist.powerLawDraw realOps r eps gamma g).1 < 1 := by
  have h := C25_inverse h0 h1 hg
  have u0 := hr.unit_nonneg g
  have u1 := hr.unit_lt_one g
  refine ⟨(h.2.2.2 _ u0 u1.le).1, ?_⟩
  have := h.2.2.1 ⟨u0, u1.le⟩ (Set.right_mem_Icc.mpr zero_le_one) u1
  rwa [h.2.1] at this

end

/-- The default settings meet the hypotheses. -/
example : (0 : ℝ) < 0.01 ∧ (0.01 : ℝ) < 1 ∧ (1 : ℝ) < 2.1 := by norm_num

end Seldon
