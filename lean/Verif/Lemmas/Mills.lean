import Verif.Lemmas.Erf
import Mathlib.Analysis.Calculus.MeanValue
import Mathlib.Analysis.SpecialFunctions.ExpDeriv
import Mathlib.Analysis.Calculus.Deriv.Inv
/-!
# Helper lemmas: bounds for the error function
-/
namespace Seldon.Spec
open Real Set Filter Topology

/-- Density of the error function. -/
noncomputable def dens (x : ℝ) : ℝ := 2 / √π * exp (-x ^ 2)

theorem dens_pos (x : ℝ) : 0 < dens x := mul_pos two_div_sqrt_pi_pos (exp_pos _)

theorem dens_anti {x y : ℝ} (hx : 0 ≤ x) (h : x ≤ y) : dens y ≤ dens x := by
  unfold dens
  have := two_div_sqrt_pi_pos
  gcongr

theorem erf_increment {a b : ℝ} (ha : 0 ≤ a) (h : a ≤ b) : dens b * (b - a) ≤ erf b - erf a ∧ erf b - erf a ≤ dens a * (b - a) := by
  have mono : ∀ (f f' : ℝ → ℝ), (∀ u ∈ Icc a b, HasDerivAt f (f' u) u) → (∀ u ∈ Icc a b, 0 ≤ f' u) → f a ≤ f b := by
    intro f f' hf hf'
    refine monotoneOn_of_deriv_nonneg (convex_Icc a b) (fun u hu => (hf u hu).continuousAt.continuousWithinAt)
      (fun u hu => (hf u (interior_subset hu)).differentiableAt.differentiableWithinAt) (fun u hu => ?_) ⟨le_refl _, h⟩ ⟨h, le_refl _⟩ h
    rw [(hf u (interior_subset hu)).deriv]; exact hf' u (interior_subset hu)
  have up := mono (fun u => dens a * u - erf u) _ (fun u _ => ((hasDerivAt_id u).const_mul (dens a)).sub (erf_hasDerivAt u)) fun u hu => by
    have : dens u ≤ dens a := dens_anti ha hu.1
    unfold dens at this ⊢
    linarith
  have lo := mono (fun u => erf u - dens b * u) _ (fun u _ => (erf_hasDerivAt u).sub ((hasDerivAt_id u).const_mul (dens b))) fun u hu => by
    have : dens b ≤ dens u := dens_anti (ha.trans hu.1) hu.2
    unfold dens at this ⊢
    linarith
  constructor <;> linarith

theorem mills {x : ℝ} (hx : 0 < x) : 2 * x * (1 - erf x) ≤ dens x := by
  let f : ℝ → ℝ := fun u => exp (-u ^ 2) / (√π * u) - (1 - erf u)
  have hd : ∀ u ∈ Ioi (0 : ℝ), HasDerivAt f (-(exp (-u ^ 2) / (√π * u ^ 2))) u := by
    intro u hu
    have hu : 0 < u := hu
    have hpi : 0 < √π := Real.sqrt_pos.mpr pi_pos
    have h1 : HasDerivAt (fun u : ℝ => exp (-u ^ 2)) (exp (-u ^ 2) * (-(2 * u))) u := by
      have := ((hasDerivAt_pow 2 u).neg).exp
      simpa using this
    have h2 := h1.div ((hasDerivAt_id u).const_mul √π) (by simp only [id]; positivity)
    refine (h2.sub ((erf_hasDerivAt u).const_sub 1)).congr_deriv ?_
    simp only [id]
    field_simp
    ring
  have anti : AntitoneOn f (Ioi 0) := by
    refine antitoneOn_of_deriv_nonpos (convex_Ioi 0) (fun u hu => (hd u hu).continuousAt.continuousWithinAt)
      (fun u hu => (hd u (interior_subset hu)).differentiableAt.differentiableWithinAt) fun u hu => ?_
    rw [(hd u (interior_subset hu)).deriv]
    have hu : 0 < u := interior_subset hu
    have hpi : 0 < √π := Real.sqrt_pos.mpr pi_pos
    exact neg_nonpos.mpr (by positivity)
  have lim : Tendsto f atTop (𝓝 0) := by
    have h1 : Tendsto (fun u => 1 - erf u) atTop (𝓝 0) := by simpa using erf_tendsto_one.const_sub 1
    have h2 : Tendsto (fun u : ℝ => exp (-u ^ 2) / (√π * u)) atTop (𝓝 0) := by
      refine Tendsto.div_atTop (a := 0) ?_ (tendsto_id.const_mul_atTop (Real.sqrt_pos.mpr pi_pos))
      exact Real.tendsto_exp_atBot.comp (tendsto_neg_atTop_atBot.comp (tendsto_pow_atTop (by norm_num)))
    simpa [f] using h2.sub h1
  have h0 : 0 ≤ f x := by
    refine le_of_tendsto lim ?_
    filter_upwards [eventually_ge_atTop x] with u hu
    exact anti hx (lt_of_lt_of_le hx hu : 0 < u) hu
  have hpi : 0 < √π := Real.sqrt_pos.mpr pi_pos
  have : dens x = 2 * x * (exp (-x ^ 2) / (√π * x)) := by unfold dens; field_simp
  rw [this]
  have h3 : 1 - erf x ≤ exp (-x ^ 2) / (√π * x) := by simpa [f] using h0
  exact mul_le_mul_of_nonneg_left h3 (by positivity)

end Seldon.Spec
