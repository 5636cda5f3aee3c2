import Verif.Props.PowerLaw
import Verif.Props.TruncatedNormal
import Mathlib.Probability.Moments.Covariance
import Mathlib.Probability.Moments.Variance
import Mathlib.Probability.Distributions.Gaussian.Real
import Mathlib.MeasureTheory.Integral.IntegralEqImproper
/-!
# Property C28: the bivariate normal distribution and the copula built on it

The randomness is a probability measure `P` on the states of the generator: `(r.normal g).1` is the first normal draw and
`(r.normal (r.normal g).2).1` the second.
-/
namespace Seldon
open Spec MeasureTheory ProbabilityTheory Filter Topology

variable {G : Type} [MeasurableSpace G] {P : Measure G} {r : Rng G ℝ} {c : ℝ}

/-- C28: if the two normal draws are uncorrelated with mean 0 and variance 1, then the two outputs have mean 0, variance 1 and covariance `c`. -/
theorem C28_moments [IsProbabilityMeasure P] (hc0 : -1 ≤ c) (hc1 : c ≤ 1)
    (h1 : MemLp (fun g => (r.normal g).1) 2 P) (h2 : MemLp (fun g => (r.normal (r.normal g).2).1) 2 P)
    (hm1 : ∫ g, (r.normal g).1 ∂P = 0) (hm2 : ∫ g, (r.normal (r.normal g).2).1 ∂P = 0)
    (hv1 : Var[fun g => (r.normal g).1; P] = 1) (hv2 : Var[fun g => (r.normal (r.normal g).2).1; P] = 1)
    (hcov : cov[fun g => (r.normal g).1, fun g => (r.normal (r.normal g).2).1; P] = 0) :
    ∫ g, (Dist.bivariate realOps r c g).1.1 ∂P = 0 ∧ ∫ g, (Dist.bivariate realOps r c g).1.2 ∂P = 0 ∧
    Var[fun g => (Dist.bivariate realOps r c g).1.1; P] = 1 ∧ Var[fun g => (Dist.bivariate realOps r c g).1.2; P] = 1 ∧
    cov[fun g => (Dist.bivariate realOps r c g).1.1, fun g => (Dist.bivariate realOps r c g).1.2; P] = c := by
  have e1 : (fun g => (Dist.bivariate realOps r c g).1.1) = fun g => (r.normal g).1 := rfl
  have e2 : (fun g => (Dist.bivariate realOps r c g).1.2) =
      (fun g => c * (r.normal g).1) + fun g => Real.sqrt (1 - c * c) * (r.normal (r.normal g).2).1 := rfl
  have hs : Real.sqrt (1 - c * c) ^ 2 = 1 - c * c := Real.sq_sqrt (by nlinarith)
  refine ⟨hm1, ?_, by rw [e1]; exact hv1, ?_, ?_⟩
  · rw [show ∫ g, (Dist.bivariate realOps r c g).1.2 ∂P = ∫ g, ((fun g => c * (r.normal g).1) g +
        (fun g => Real.sqrt (1 - c * c) * (r.normal (r.normal g).2).1) g) ∂P from rfl,
      integral_add ((h1.const_mul c).integrable (by norm_num)) ((h2.const_mul _).integrable (by norm_num)),
      integral_const_mul, integral_const_mul, hm1, hm2]
    ring
  · rw [e2, variance_add (h1.const_mul c) (h2.const_mul _), covariance_const_mul_left, covariance_const_mul_right, hcov,
      variance_const_mul, variance_const_mul, hv1, hv2, hs]
    ring
  · rw [e1, e2, covariance_add_right h1 (h1.const_mul c) (h2.const_mul _), covariance_const_mul_right, covariance_const_mul_right, hcov,
      covariance_self h1.aestronglyMeasurable.aemeasurable, hv1]
    ring

/-- The two draws of a generator are standard normal and independent. -/
structure StandardNormals (P : Measure G) (r : Rng G ℝ) : Prop where
  first : HasLaw (fun g => (r.normal g).1) (gaussianReal 0 1) P
  second : HasLaw (fun g => (r.normal (r.normal g).2).1) (gaussianReal 0 1) P
  indep : IndepFun (fun g => (r.normal g).1) (fun g => (r.normal (r.normal g).2).1) P

/-- C28: for independent standard normal draws both outputs are standard normal, not only in their moments. -/
theorem C28_normal (h : StandardNormals P r) (hc0 : -1 ≤ c) (hc1 : c ≤ 1) :
    P.map (fun g => (Dist.bivariate realOps r c g).1.1) = gaussianReal 0 1 ∧
    P.map (fun g => (Dist.bivariate realOps r c g).1.2) = gaussianReal 0 1 := by
  refine ⟨h.first.map_eq, ?_⟩
  have a := (gaussianReal_const_mul h.first c).map_eq
  have b := (gaussianReal_const_mul h.second (Real.sqrt (1 - c * c))).map_eq
  have hi : IndepFun (fun g => c * (r.normal g).1) (fun g => Real.sqrt (1 - c * c) * (r.normal (r.normal g).2).1) P :=
    h.indep.comp (φ := fun x => c * x) (ψ := fun x => Real.sqrt (1 - c * c) * x) (by fun_prop) (by fun_prop)
  have s := gaussianReal_add_gaussianReal_of_indepFun hi a b
  have e2 : (fun g => (Dist.bivariate realOps r c g).1.2) =
      (fun g => c * (r.normal g).1) + fun g => Real.sqrt (1 - c * c) * (r.normal (r.normal g).2).1 := rfl
  rw [e2, s]
  congr 1
  · ring
  · ext
    have hs : Real.sqrt (1 - c * c) ^ 2 = 1 - c * c := Real.sq_sqrt (by nlinarith)
    push_cast
    simp only [NNReal.coe_mk, hs]
    ring

theorem stdCdf_real (x : ℝ) : Dist.stdCdf realOps x = Dist.gaussCdf realOps 0 1 x := by
  show 1 / ((2 : ℕ) : ℝ) * (1 + erf (x / Real.sqrt ((2 : ℕ) : ℝ))) = 1 / ((2 : ℕ) : ℝ) * (1 + erf ((x - 0) / (1 * Real.sqrt ((2 : ℕ) : ℝ))))
  rw [sub_zero, one_mul]

theorem normalDensity_std (x : ℝ) : normalDensity 0 1 x = gaussianPDFReal 0 1 x := by
  unfold normalDensity gaussianPDFReal
  simp

/-- The `cdf_gauss` of the copula is the CDF of the standard normal law. -/
theorem gaussian_Iic (x : ℝ) : gaussianReal 0 1 (Set.Iic x) = ENNReal.ofReal (Dist.stdCdf realOps x) := by
  rw [gaussianReal_apply_eq_integral 0 one_ne_zero]
  congr 1
  have hderiv : ∀ y ∈ Set.Iic x, HasDerivAt (Dist.gaussCdf realOps 0 1) (gaussianPDFReal 0 1 y) y := by
    intro y _
    have := gaussCdf_hasDerivAt 0 one_pos y
    rwa [normalDensity_std] at this
  have hlim : Tendsto (Dist.gaussCdf realOps 0 1) atBot (𝓝 0) := by
    have hf : Dist.gaussCdf realOps 0 1 = fun x => 1 / 2 * (1 + erf ((x - 0) / (1 * Real.sqrt 2))) := by
      funext x; exact gaussCdf_real 0 1 x
    rw [hf]
    have : Tendsto (fun x : ℝ => (x - 0) / (1 * Real.sqrt 2)) atBot atBot := by
      simp only [sub_zero, one_mul]
      exact tendsto_id.atBot_div_const (Real.sqrt_pos.mpr two_pos)
    have h := ((erf_tendsto_neg_one.comp this).const_add 1).const_mul (1 / 2)
    simpa using h
  rw [integral_Iic_of_hasDerivAt_of_tendsto' hderiv (integrable_gaussianPDFReal 0 1).integrableOn hlim, stdCdf_real, sub_zero]

theorem stdCdf_strictMono : StrictMono (Dist.stdCdf realOps) := by
  intro x y h
  rw [stdCdf_real, stdCdf_real]
  exact gaussCdf_strictMono 0 one_pos h

theorem stdCdf_bounds (x : ℝ) : 0 < Dist.stdCdf realOps x ∧ Dist.stdCdf realOps x < 1 := by
  rw [stdCdf_real]; exact gaussCdf_bounds 0 1 x

theorem stdCdf_surj {u : ℝ} (h0 : 0 < u) (h1 : u < 1) : ∃ z, Dist.stdCdf realOps z = u :=
  ⟨Dist.gaussInverse realOps 0 1 u, by rw [stdCdf_real]; exact gaussCdf_inverse 0 one_pos h0 h1⟩

/-- Transforming a standard normal variable to the unit interval and applying an increasing inverse CDF gives a variable whose CDF at `inv u`
is `u`. -/
theorem inverse_transform {Z : G → ℝ} (hZ : AEMeasurable Z P) (hlaw : P.map Z = gaussianReal 0 1) {inv : ℝ → ℝ}
    (hinv : StrictMonoOn inv (Set.Ioo 0 1)) {u : ℝ} (h0 : 0 < u) (h1 : u < 1) :
    P {g | inv (Dist.stdCdf realOps (Z g)) ≤ inv u} = ENNReal.ofReal u := by
  obtain ⟨z, hz⟩ := stdCdf_surj h0 h1
  have e : {g | inv (Dist.stdCdf realOps (Z g)) ≤ inv u} = Z ⁻¹' Set.Iic z := by
    ext g
    simp only [Set.mem_setOf_eq, Set.mem_preimage, Set.mem_Iic]
    rw [hinv.le_iff_le (stdCdf_bounds _) ⟨h0, h1⟩, ← hz, stdCdf_strictMono.le_iff_le]
  rw [e, ← Measure.map_apply_of_aemeasurable hZ measurableSet_Iic, hlaw, gaussian_Iic, hz]

theorem bivariate_snd_aemeasurable (h : StandardNormals P r) : AEMeasurable (fun g => (Dist.bivariate realOps r c g).1.2) P := by
  have e2 : (fun g => (Dist.bivariate realOps r c g).1.2) =
      (fun g => c * (r.normal g).1 + Real.sqrt (1 - c * c) * (r.normal (r.normal g).2).1) := rfl
  rw [e2]
  exact (h.first.aemeasurable.const_mul c).add (h.second.aemeasurable.const_mul _)

/-- C28: the copula keeps the marginals.  For independent standard normal draws and every covariance in [-1, 1], the activity drawn with the
reluctance follows the documented power law and the reluctance the truncated normal law. -/
theorem C28_copula (h : StandardNormals P r) (hc0 : -1 ≤ c) (hc1 : c ≤ 1) {eps gamma mean sigma reps : ℝ}
    (he0 : 0 < eps) (he1 : eps < 1) (hg : 1 < gamma) (hs : 0 < sigma) :
    (∀ x, eps < x → x < 1 →
      P {g | (Dist.copula realOps r c (Dist.powerLawInverse realOps eps gamma) (Dist.truncatedInverse realOps mean sigma reps) g).1.1 ≤ x} =
        ENNReal.ofReal (∫ t in eps..x, powerLawDensity eps gamma t)) ∧
    (∀ x, reps < x →
      P {g | (Dist.copula realOps r c (Dist.powerLawInverse realOps eps gamma) (Dist.truncatedInverse realOps mean sigma reps) g).1.2 ≤ x} =
        ENNReal.ofReal (∫ t in reps..x, Dist.truncatedPdf realOps mean sigma reps t)) := by
  obtain ⟨l1, l2⟩ := C28_normal h hc0 hc1
  constructor
  · intro x hx hx1
    have hmono := (C25_inverse he0 he1 hg).2.2.1
    have hxi := (C25_law_partial he0 he1 hg).2 x hx.le hx1.le
    have hE := eps_pow_gt_one he0 he1 hg
    -- the mass below `x` lies strictly between 0 and 1
    have key : ∀ u, 0 ≤ u → u ≤ 1 → Dist.powerLawInverse realOps eps gamma u = x → 0 < u ∧ u < 1 := by
      intro u hu0 hu1 hu
      constructor
      · rcases hu0.lt_or_eq with h | h
        · exact h
        · rw [← h, (C25_inverse he0 he1 hg).1] at hu; exact absurd hu hx.ne
      · rcases hu1.lt_or_eq with h | h
        · exact h
        · rw [h, (C25_inverse he0 he1 hg).2.1] at hu; exact absurd hu hx1.ne'
    have hu0 : 0 ≤ ∫ t in eps..x, powerLawDensity eps gamma t := by
      apply intervalIntegral.integral_nonneg hx.le
      intro t ht
      exact ((C25_density he0 he1 hg).1 t (lt_of_lt_of_le he0 ht.1)).le
    have hu1 : ∫ t in eps..x, powerLawDensity eps gamma t ≤ 1 := by
      rw [density_integral he0 he1 hg hx.le, div_le_one_of_neg (by linarith)]
      have : 1 ≤ x ^ (1 - gamma) := (Real.one_lt_rpow_of_pos_of_lt_one_of_neg (by linarith) hx1 (by linarith)).le
      linarith
    obtain ⟨k0, k1⟩ := key _ hu0 hu1 hxi
    have := inverse_transform h.first.aemeasurable l1 (hmono.mono Set.Ioo_subset_Icc_self) k0 k1
    rw [hxi] at this
    exact this
  · intro x hx
    obtain ⟨_, hstart, hmono⟩ := C26_range (mean := mean) (eps := reps) hs
    have mono := gaussCdf_strictMono mean hs
    obtain ⟨b0, b1⟩ := gaussCdf_bounds mean sigma reps
    obtain ⟨d0, d1⟩ := gaussCdf_bounds mean sigma x
    have hlt := mono hx
    -- the quantile of `x`
    set u := (Dist.gaussCdf realOps mean sigma x - Dist.gaussCdf realOps mean sigma reps) / (1 - Dist.gaussCdf realOps mean sigma reps) with hu
    have hu0 : 0 < u := div_pos (by linarith) (by linarith)
    have hu1 : u < 1 := by rw [hu, div_lt_one (by linarith)]; linarith
    have hxi : Dist.truncatedInverse realOps mean sigma reps u = x := by
      apply mono.injective
      rw [cdf_truncatedInverse hs hu0.le hu1, hu, div_mul_cancel₀ _ (by linarith), sub_add_cancel]
    have := inverse_transform (bivariate_snd_aemeasurable (c := c) h) l2 (hmono.mono Set.Ioo_subset_Ico_self) hu0 hu1
    rw [hxi] at this
    rw [show (∫ t in reps..x, Dist.truncatedPdf realOps mean sigma reps t) = u from by
      have := (C26_law (mean := mean) (eps := reps) hs).2.2 u hu0.le hu1
      rwa [hxi] at this]
    exact this

/-- The hypotheses are met by the generator that reads its two draws from a pair, under the product of two standard normal laws. -/
example : StandardNormals (G := ℝ × ℝ) ((gaussianReal 0 1).prod (gaussianReal 0 1))
    { unit := fun g => (0, g), int := fun a _ g => (a, g), normal := fun g => (g.1, (g.2, g.1)) } where
  first := ⟨by fun_prop, by simp [Measure.map_fst_prod]⟩
  second := ⟨by fun_prop, by simp [Measure.map_snd_prod]⟩
  indep := indepFun_prod (X := fun x : ℝ => x) (Y := fun x : ℝ => x) (by fun_prop) (by fun_prop)

end Seldon
