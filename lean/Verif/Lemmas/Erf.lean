import Verif.Spec.RealOps
import Mathlib.MeasureTheory.Integral.IntegralEqImproper
import Mathlib.Topology.Order.IntermediateValue
import Mathlib.Tactic.Linarith
/-!
# Lemmas: the error function
-/
namespace Seldon.Spec
open MeasureTheory Filter Topology

theorem gauss_continuous : Continuous (fun t : ℝ => Real.exp (-t ^ 2)) := by fun_prop

theorem gauss_intervalIntegrable (a b : ℝ) : IntervalIntegrable (fun t : ℝ => Real.exp (-t ^ 2)) volume a b :=
  gauss_continuous.intervalIntegrable a b

theorem two_div_sqrt_pi_pos : 0 < 2 / Real.sqrt Real.pi := div_pos two_pos (Real.sqrt_pos.mpr Real.pi_pos)

theorem erf_sub (x y : ℝ) : erf y - erf x = 2 / Real.sqrt Real.pi * ∫ t in x..y, Real.exp (-t ^ 2) := by
  unfold erf
  rw [← mul_sub, intervalIntegral.integral_interval_sub_left (gauss_intervalIntegrable _ _) (gauss_intervalIntegrable _ _)]

theorem erf_strictMono : StrictMono erf := by
  intro x y hxy
  have h : 0 < erf y - erf x := by
    rw [erf_sub]
    exact mul_pos two_div_sqrt_pi_pos (intervalIntegral.intervalIntegral_pos_of_pos (gauss_intervalIntegrable _ _) (fun t => Real.exp_pos _) hxy)
  linarith

theorem erf_zero : erf 0 = 0 := by simp [erf]

theorem erf_neg (x : ℝ) : erf (-x) = -erf x := by
  unfold erf
  have : ∫ t in (0 : ℝ)..(-x), Real.exp (-t ^ 2) = -∫ t in (0 : ℝ)..x, Real.exp (-t ^ 2) := by
    have h := intervalIntegral.integral_comp_neg (a := 0) (b := x) (fun t : ℝ => Real.exp (-t ^ 2))
    simp only [even_two, Even.neg_pow, neg_zero] at h
    rw [intervalIntegral.integral_symm, ← h]
  rw [this, mul_neg]

theorem erf_continuous : Continuous erf := by
  unfold erf
  exact continuous_const.mul (intervalIntegral.continuous_primitive gauss_intervalIntegrable 0)

theorem erf_tendsto_one : Tendsto erf atTop (𝓝 1) := by
  have hint : IntegrableOn (fun t : ℝ => Real.exp (-t ^ 2)) (Set.Ioi 0) := by
    have := (integrable_exp_neg_mul_sq (b := 1) one_pos).integrableOn (s := Set.Ioi 0)
    simpa using this
  have h := intervalIntegral_tendsto_integral_Ioi (0 : ℝ) hint tendsto_id
  have hv : ∫ t in Set.Ioi (0 : ℝ), Real.exp (-t ^ 2) = Real.sqrt Real.pi / 2 := by
    have := integral_gaussian_Ioi 1
    simpa using this
  rw [hv] at h
  have h2 := h.const_mul (2 / Real.sqrt Real.pi)
  have e : 2 / Real.sqrt Real.pi * (Real.sqrt Real.pi / 2) = 1 := by
    have := (Real.sqrt_pos.mpr Real.pi_pos).ne'
    field_simp
  rw [e] at h2
  exact h2

theorem erf_tendsto_neg_one : Tendsto erf atBot (𝓝 (-1)) := by
  have h := (erf_tendsto_one.comp tendsto_neg_atBot_atTop).neg
  refine h.congr (fun x => ?_)
  simp [erf_neg]

theorem erf_lt_one (x : ℝ) : erf x < 1 := by
  have h1 : erf x < erf (x + 1) := erf_strictMono (by linarith)
  have h2 : erf (x + 1) ≤ 1 := erf_strictMono.monotone.ge_of_tendsto erf_tendsto_one (x + 1)
  linarith

theorem neg_one_lt_erf (x : ℝ) : -1 < erf x := by
  have := erf_lt_one (-x)
  rw [erf_neg] at this
  linarith

theorem erf_surj {y : ℝ} (h0 : -1 < y) (h1 : y < 1) : ∃ x, erf x = y := by
  obtain ⟨a, ha⟩ := (erf_tendsto_neg_one.eventually (gt_mem_nhds h0)).exists
  obtain ⟨b, hb⟩ := (erf_tendsto_one.eventually (lt_mem_nhds h1)).exists
  exact mem_range_of_exists_le_of_exists_ge erf_continuous ⟨a, le_of_lt ha⟩ ⟨b, le_of_lt hb⟩

theorem erf_inverse {y : ℝ} (h0 : -1 < y) (h1 : y < 1) : erf (erfInverse y) = y := by
  have h := erf_surj h0 h1
  unfold erfInverse
  rw [dif_pos h]
  exact h.choose_spec

theorem inverse_erf (x : ℝ) : erfInverse (erf x) = x :=
  erf_strictMono.injective (erf_inverse (neg_one_lt_erf x) (erf_lt_one x))

theorem erfInverse_strictMonoOn : StrictMonoOn erfInverse (Set.Ioo (-1) 1) := by
  intro a ha b hb hab
  by_contra h
  have := erf_strictMono.monotone (not_lt.mp h)
  rw [erf_inverse ha.1 ha.2, erf_inverse hb.1 hb.2] at this
  linarith

/-- The derivative of the error function. -/
theorem erf_hasDerivAt (x : ℝ) : HasDerivAt erf (2 / Real.sqrt Real.pi * Real.exp (-x ^ 2)) x := by
  unfold erf
  exact (gauss_continuous.integral_hasStrictDerivAt 0 x).hasDerivAt.const_mul _

end Seldon.Spec
