import Verif.Lemmas.Erf
import Mathlib.Analysis.Calculus.MeanValue
import Mathlib.Analysis.SpecialFunctions.Log.Deriv
import Mathlib.Analysis.SpecialFunctions.ExpDeriv
/-!
# Helper lemmas: comparing `erf (y s)` with a target `T s` through the logarithms of their derivatives
-/
namespace Seldon
open Real Set Spec

/-- The logarithm of the ratio of the derivatives of `erf ∘ y` and of a target with derivative `exp (M s)`. -/
noncomputable def logRatio (y y1 M : ℝ → ℝ) (s : ℝ) : ℝ := log (2 / √π) - y s ^ 2 + log (y1 s) - M s

structure Branch (y y1 y2 M m : ℝ → ℝ) (δ a b : ℝ) : Prop where
  d0 : ∀ s ∈ Icc a b, HasDerivAt y (y1 s) s
  d1 : ∀ s ∈ Icc a b, HasDerivAt y1 (y2 s) s
  pos : ∀ s ∈ Icc a b, 0 < y1 s
  dM : ∀ s ∈ Icc a b, HasDerivAt M (m s) s
  small : ∀ s ∈ Icc a b, |y2 s / y1 s - 2 * y s * y1 s - m s| ≤ δ

variable {y y1 y2 M m : ℝ → ℝ} {δ a b : ℝ}

theorem Branch.lipschitz (h : Branch y y1 y2 M m δ a b) {s t : ℝ} (hs : s ∈ Icc a b) (ht : t ∈ Icc a b) :
    |logRatio y y1 M t - logRatio y y1 M s| ≤ δ * |t - s| := by
  have hd : ∀ u ∈ Icc a b, HasDerivWithinAt (logRatio y y1 M) (y2 u / y1 u - 2 * y u * y1 u - m u) (Icc a b) u := by
    intro u hu
    have h1 := ((h.d0 u hu).pow 2).const_sub (log (2 / √π))
    have h2 := (h.d1 u hu).log (h.pos u hu).ne'
    have h3 := ((h1.add h2).sub (h.dM u hu)).hasDerivWithinAt (s := Icc a b)
    refine h3.congr_deriv ?_
    simp only [Nat.cast_ofNat, Nat.add_one_sub_one, pow_one]
    ring
  have := Convex.norm_image_sub_le_of_norm_hasDerivWithin_le hd (fun u hu => h.small u hu) (convex_Icc a b) hs ht
  simpa [Real.norm_eq_abs] using this

/-- If the logarithm of the ratio is at most `θ` in absolute value, the increments agree up to a factor `1 ± (θ + θ²)`. -/
theorem Branch.increments (h : Branch y y1 y2 M m δ a b) {T : ℝ → ℝ} (hT : ∀ s ∈ Icc a b, HasDerivAt T (exp (M s)) s) {θ : ℝ} (hθ : θ ≤ 1)
    (hr : ∀ s ∈ Icc a b, |logRatio y y1 M s| ≤ θ) {s t : ℝ} (hs : s ∈ Icc a b) (ht : t ∈ Icc a b) (hst : s ≤ t) :
    |(erf (y t) - erf (y s)) - (T t - T s)| ≤ (θ + θ ^ 2) * (T t - T s) := by
  have hΦ : ∀ u ∈ Icc a b, HasDerivAt (fun s => erf (y s)) (exp (logRatio y y1 M u) * exp (M u)) u := by
    intro u hu
    refine ((erf_hasDerivAt (y u)).comp u (h.d0 u hu)).congr_deriv ?_
    rw [← exp_add, logRatio]
    have e : log (2 / √π) - y u ^ 2 + log (y1 u) - M u + M u = log (2 / √π) + -y u ^ 2 + log (y1 u) := by ring
    rw [e, exp_add, exp_add, exp_log two_div_sqrt_pi_pos, exp_log (h.pos u hu)]
  have hθ0 : 0 ≤ θ := (abs_nonneg _).trans (hr s hs)
  have hb : ∀ u ∈ Icc a b, |exp (logRatio y y1 M u) - 1| ≤ θ + θ ^ 2 := by
    intro u hu
    have h1 := hr u hu
    have h2 := Real.abs_exp_sub_one_sub_id_le (h1.trans hθ)
    have h3 : logRatio y y1 M u ^ 2 ≤ θ ^ 2 := sq_le_sq' (by linarith [abs_le.mp h1]) (abs_le.mp h1).2
    calc |exp (logRatio y y1 M u) - 1| = |(exp (logRatio y y1 M u) - 1 - logRatio y y1 M u) + logRatio y y1 M u| := by ring_nf
      _ ≤ _ := (abs_add_le _ _).trans (by linarith)
  have mono : ∀ (f f' : ℝ → ℝ), (∀ u ∈ Icc a b, HasDerivAt f (f' u) u) → (∀ u ∈ Icc a b, 0 ≤ f' u) → f s ≤ f t := by
    intro f f' hf hf'
    refine monotoneOn_of_deriv_nonneg (convex_Icc a b) (fun u hu => (hf u hu).continuousAt.continuousWithinAt)
      (fun u hu => (hf u (interior_subset hu)).differentiableAt.differentiableWithinAt) (fun u hu => ?_) hs ht hst
    rw [(hf u (interior_subset hu)).deriv]; exact hf' u (interior_subset hu)
  have up := mono (fun u => (1 + (θ + θ ^ 2)) * T u - erf (y u)) _ (fun u hu => ((hT u hu).const_mul _).sub (hΦ u hu)) fun u hu => by
    have h1 := abs_le.mp (hb u hu)
    have h2 := exp_pos (M u)
    nlinarith
  have lo := mono (fun u => erf (y u) - (1 - (θ + θ ^ 2)) * T u) _ (fun u hu => (hΦ u hu).sub ((hT u hu).const_mul _)) fun u hu => by
    have h1 := abs_le.mp (hb u hu)
    have h2 := exp_pos (M u)
    nlinarith
  rw [abs_le]
  constructor
  · nlinarith
  · nlinarith

end Seldon
