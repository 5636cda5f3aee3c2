import Verif.Lemmas.Erf
import Mathlib.MeasureTheory.Integral.IntervalIntegral.FundThmCalculus
import Mathlib.Tactic.FieldSimp
/-!
# Property C26: the truncated normal distribution
-/
namespace Seldon
open Spec MeasureTheory

section
variable {mean sigma eps : ℝ}

theorem gaussCdf_real (mean sigma x : ℝ) : Dist.gaussCdf realOps mean sigma x = 1 / 2 * (1 + erf ((x - mean) / (sigma * Real.sqrt 2))) := by
  show 1 / ((2 : ℕ) : ℝ) * (1 + erf ((x - mean) / (sigma * Real.sqrt ((2 : ℕ) : ℝ)))) = _
  push_cast; rfl

theorem gaussInverse_real (mean sigma y : ℝ) : Dist.gaussInverse realOps mean sigma y = erfInverse (2 * y - 1) * Real.sqrt 2 * sigma + mean := by
  show erfInverse (((2 : ℕ) : ℝ) * y - 1) * Real.sqrt ((2 : ℕ) : ℝ) * sigma + mean = _
  push_cast; rfl

theorem gaussCdf_bounds (mean sigma x : ℝ) : 0 < Dist.gaussCdf realOps mean sigma x ∧ Dist.gaussCdf realOps mean sigma x < 1 := by
  rw [gaussCdf_real]
  have h1 := neg_one_lt_erf ((x - mean) / (sigma * Real.sqrt 2))
  have h2 := erf_lt_one ((x - mean) / (sigma * Real.sqrt 2))
  constructor <;> linarith

theorem sigma_sqrt_pos (hs : 0 < sigma) : 0 < sigma * Real.sqrt 2 := mul_pos hs (Real.sqrt_pos.mpr two_pos)

theorem gaussCdf_strictMono (mean : ℝ) (hs : 0 < sigma) : StrictMono (Dist.gaussCdf realOps mean sigma) := by
  intro x y hxy
  rw [gaussCdf_real, gaussCdf_real]
  have : erf ((x - mean) / (sigma * Real.sqrt 2)) < erf ((y - mean) / (sigma * Real.sqrt 2)) := by
    apply erf_strictMono
    apply div_lt_div_of_pos_right (by linarith) (sigma_sqrt_pos hs)
  linarith

/-- `inverse_cdf_gauss` inverts `cdf_gauss`. -/
theorem gaussCdf_inverse (mean : ℝ) (hs : 0 < sigma) {y : ℝ} (h0 : 0 < y) (h1 : y < 1) :
    Dist.gaussCdf realOps mean sigma (Dist.gaussInverse realOps mean sigma y) = y := by
  rw [gaussCdf_real, gaussInverse_real]
  have hd := (sigma_sqrt_pos hs).ne'
  have : (erfInverse (2 * y - 1) * Real.sqrt 2 * sigma + mean - mean) / (sigma * Real.sqrt 2) = erfInverse (2 * y - 1) := by
    rw [add_sub_cancel_right, mul_assoc, mul_comm (Real.sqrt 2) sigma, mul_div_assoc, div_self hd, mul_one]
  rw [this, erf_inverse (by linarith) (by linarith)]
  ring

theorem truncated_arg {u : ℝ} (h0 : 0 ≤ u) (h1 : u < 1) (mean sigma eps : ℝ) :
    Dist.gaussCdf realOps mean sigma eps ≤ u * (1 - Dist.gaussCdf realOps mean sigma eps) + Dist.gaussCdf realOps mean sigma eps ∧
    u * (1 - Dist.gaussCdf realOps mean sigma eps) + Dist.gaussCdf realOps mean sigma eps < 1 := by
  obtain ⟨a, b⟩ := gaussCdf_bounds mean sigma eps
  constructor <;> nlinarith

theorem cdf_truncatedInverse (hs : 0 < sigma) {u : ℝ} (h0 : 0 ≤ u) (h1 : u < 1) :
    Dist.gaussCdf realOps mean sigma (Dist.truncatedInverse realOps mean sigma eps u) =
      u * (1 - Dist.gaussCdf realOps mean sigma eps) + Dist.gaussCdf realOps mean sigma eps := by
  obtain ⟨a, b⟩ := truncated_arg h0 h1 mean sigma eps
  exact gaussCdf_inverse mean hs (lt_of_lt_of_le (gaussCdf_bounds mean sigma eps).1 a) b

/-- C26: the values are at least `eps`, start with `eps` at 0 and increase strictly with the uniform draw. -/
theorem C26_range (hs : 0 < sigma) :
    (∀ u, 0 ≤ u → u < 1 → eps ≤ Dist.truncatedInverse realOps mean sigma eps u) ∧
    Dist.truncatedInverse realOps mean sigma eps 0 = eps ∧
    StrictMonoOn (Dist.truncatedInverse realOps mean sigma eps) (Set.Ico 0 1) := by
  have mono := gaussCdf_strictMono mean hs
  refine ⟨?_, ?_, ?_⟩
  · intro u h0 h1
    rw [← mono.le_iff_le, cdf_truncatedInverse hs h0 h1]
    exact (truncated_arg h0 h1 mean sigma eps).1
  · apply mono.injective
    rw [cdf_truncatedInverse hs (le_refl 0) one_pos]
    ring
  · intro u hu v hv huv
    rw [← mono.lt_iff_lt, cdf_truncatedInverse hs hu.1 hu.2, cdf_truncatedInverse hs hv.1 hv.2]
    have := (gaussCdf_bounds mean sigma eps).2
    nlinarith

/-- C26: whatever the generator returns, a draw is at least `eps`. -/
theorem C26_draw {G : Type} {r : Rng G ℝ} (hr : r.Lawful) (hs : 0 < sigma) (g : G) :
    eps ≤ (Dist.truncatedDraw realOps r mean sigma eps g).1 :=
  (C26_range hs).1 _ (hr.unit_nonneg g) (hr.unit_lt_one g)

theorem gaussPdf_real (mean : ℝ) (hs : 0 < sigma) (x : ℝ) : Dist.gaussPdf realOps mean sigma x = normalDensity mean sigma x := by
  show 1 / (sigma * Real.sqrt (((2 : ℕ) : ℝ) * Real.pi)) * Real.exp (-(1 / ((2 : ℕ) : ℝ)) * ((x - mean) / sigma * ((x - mean) / sigma))) = _
  unfold normalDensity
  push_cast
  congr 2
  field_simp

theorem gaussCdf_hasDerivAt (mean : ℝ) (hs : 0 < sigma) (x : ℝ) :
    HasDerivAt (Dist.gaussCdf realOps mean sigma) (normalDensity mean sigma x) x := by
  have hf : Dist.gaussCdf realOps mean sigma = fun x => 1 / 2 * (1 + erf ((x - mean) / (sigma * Real.sqrt 2))) := by
    funext x; exact gaussCdf_real mean sigma x
  rw [hf]
  have h1 : HasDerivAt (fun x : ℝ => (x - mean) / (sigma * Real.sqrt 2)) (1 / (sigma * Real.sqrt 2)) x :=
    ((hasDerivAt_id x).sub_const mean).div_const _
  have h2 := (((erf_hasDerivAt _).comp x h1).const_add 1).const_mul (1 / 2)
  refine h2.congr_deriv ?_
  unfold normalDensity
  have e : -((x - mean) / (sigma * Real.sqrt 2)) ^ 2 = -(x - mean) ^ 2 / (2 * sigma ^ 2) := by
    rw [div_pow, mul_pow, Real.sq_sqrt (by norm_num), ← neg_div, mul_comm (sigma ^ 2)]
  rw [e, Real.sqrt_mul (by norm_num)]
  have := (Real.sqrt_pos.mpr Real.pi_pos).ne'
  have := (Real.sqrt_pos.mpr (two_pos : (0 : ℝ) < 2)).ne'
  have := hs.ne'
  field_simp

/-- C26: `pdf` is 0 below `eps` and the renormalised normal density above, and the draws follow it: it has mass `u` between `eps` and
`inverse_cdf( u )`. -/
theorem C26_law (hs : 0 < sigma) :
    (∀ x, x < eps → Dist.truncatedPdf realOps mean sigma eps x = 0) ∧
    (∀ x, eps ≤ x → Dist.truncatedPdf realOps mean sigma eps x =
      normalDensity mean sigma x / (1 - Dist.gaussCdf realOps mean sigma eps)) ∧
    (∀ u, 0 ≤ u → u < 1 → ∫ t in eps..Dist.truncatedInverse realOps mean sigma eps u, Dist.truncatedPdf realOps mean sigma eps t = u) := by
  have above : ∀ x, eps ≤ x → Dist.truncatedPdf realOps mean sigma eps x =
      normalDensity mean sigma x / (1 - Dist.gaussCdf realOps mean sigma eps) := by
    intro x hx
    unfold Dist.truncatedPdf
    rw [if_neg (not_lt.mpr hx), gaussPdf_real mean hs]
    ring
  refine ⟨?_, above, ?_⟩
  · intro x hx
    unfold Dist.truncatedPdf
    rw [if_pos hx]
  · intro u h0 h1
    have hle := (C26_range (mean := mean) (eps := eps) hs).1 u h0 h1
    have e : ∫ t in eps..Dist.truncatedInverse realOps mean sigma eps u, Dist.truncatedPdf realOps mean sigma eps t =
        ∫ t in eps..Dist.truncatedInverse realOps mean sigma eps u, normalDensity mean sigma t / (1 - Dist.gaussCdf realOps mean sigma eps) := by
      apply intervalIntegral.integral_congr
      intro t ht
      rw [Set.uIcc_of_le hle] at ht
      exact above t ht.1
    have hc : Continuous (normalDensity mean sigma) := by
      unfold normalDensity
      fun_prop
    rw [e, intervalIntegral.integral_div, intervalIntegral.integral_eq_sub_of_hasDerivAt (fun x _ => gaussCdf_hasDerivAt mean hs x)
      (hc.intervalIntegrable _ _), cdf_truncatedInverse hs h0 h1]
    have : 1 - Dist.gaussCdf realOps mean sigma eps ≠ 0 := by
      have := (gaussCdf_bounds mean sigma eps).2
      intro h; linarith
    field_simp
    ring

end

/-- The default reluctance settings meet the hypothesis. -/
example : (0 : ℝ) < 0.25 := by norm_num

end Seldon
