import Verif.Lemmas.ErfinvAccuracy
import Verif.Lemmas.Mills
import Verif.Props.TruncatedNormal
/-!
# Property C68: `erfinv` is the inverse of the error function, up to 10^-9
-/
namespace Seldon
open IntPoly Erfinv Spec Set Real

namespace Erfinv

theorem erf_central {x : ℝ} (h : |x| ≤ 0.85) : |erf (yA x) - x| ≤ 1 / 10 ^ 10 * |x| := by
  have hx := abs_le.mp h
  have hxm : x ∈ Icc (-0.85 : ℝ) 0.85 := ⟨hx.1, hx.2⟩
  have h0 : (0 : ℝ) ∈ Icc (-0.85 : ℝ) 0.85 := ⟨by norm_num, by norm_num⟩
  have hT : ∀ s ∈ Icc (-0.85 : ℝ) 0.85, HasDerivAt (fun s : ℝ => s) (exp ((fun _ => (0 : ℝ)) s)) s := fun s _ => by
    exact (hasDerivAt_id s).congr_deriv (by simp)
  have hy : erf (yA 0) = 0 := by simp [yA, erf_zero]
  rcases le_total 0 x with hx0 | hx0
  · have := central_branch.increments hT (θ := 0.86 / 10 ^ 10) (by norm_num) (fun s hs => ratio_central hs) h0 hxm hx0
    simp only [hy, sub_zero] at this
    refine this.trans ?_
    rw [abs_of_nonneg hx0]
    gcongr
    norm_num
  · have := central_branch.increments hT (θ := 0.86 / 10 ^ 10) (by norm_num) (fun s hs => ratio_central hs) hxm h0 hx0
    simp only [hy, zero_sub] at this
    rw [abs_of_nonpos hx0, abs_sub_comm]
    rw [show x - erf (yA x) = -erf (yA x) - -x by ring]
    refine this.trans ?_
    have : 0 ≤ -x := by linarith
    gcongr
    norm_num

theorem tailT_gap (c s t : ℝ) : tailT c t - tailT c s ≤ exp (ln2 - (s + c) ^ 2) := by
  unfold tailT
  have := exp_pos ((ln2 : ℝ) - (t + c) ^ 2)
  linarith

theorem small_rest : exp (ln2 - (11 + 5 : ℝ) ^ 2) + (1 - erf (yE 11)) ≤ 1 / 10 ^ 60 := by
  have hln : ((ln2 : ℚ) : ℝ) ≤ 1 := by unfold ln2; norm_num
  have he : ∀ n : ℕ, exp (-(n : ℝ)) ≤ (1 / 2) ^ n := by
    intro n
    have : exp (-(n : ℝ)) = exp (-1) ^ n := by rw [← exp_nat_mul]; congr 1; ring
    rw [this]
    refine pow_le_pow_left₀ (exp_pos _).le ?_ n
    rw [exp_neg, ← one_div]
    have := Real.exp_one_gt_d9
    exact one_div_le_one_div_of_le (by norm_num) (by linarith)
  have h1 : exp (ln2 - (11 + 5 : ℝ) ^ 2) ≤ (1 / 2) ^ 255 := le_trans (exp_le_exp.mpr (by push_cast; linarith)) (he 255)
  have hy : (15 : ℝ) ≤ yE 11 := by
    have e : yE 11 = (qE 11 : ℚ) := by simpa using yE_cast 11
    rw [e]; exact_mod_cast num6.2.2.2.2.1
  have h2 : 1 - erf (yE 11) ≤ 1 - erf 15 := by have := erf_strictMono.monotone hy; linarith
  have h3 := mills (x := 15) (by norm_num)
  have h4 : dens 15 ≤ 2 * (1 / 2) ^ 225 := by
    unfold dens
    have : 2 / √π ≤ 2 := by
      rw [div_le_iff₀ (Real.sqrt_pos.mpr pi_pos)]
      have : 1 ≤ √π := Real.one_le_sqrt.mpr (by linarith [Real.pi_gt_three])
      linarith
    have h5 : exp (-(15 : ℝ) ^ 2) ≤ (1 / 2) ^ 225 := le_trans (le_of_eq (by norm_num)) (he 225)
    exact mul_le_mul this h5 (exp_pos _).le (by norm_num)
  have h5 : (2 : ℝ) * (1 / 2) ^ 225 ≤ 30 * (1 / 10 ^ 61) := by norm_num
  have h6 : ((1 : ℝ) / 2) ^ 255 ≤ 1 / 10 ^ 61 := by norm_num
  have h7 : (1 : ℝ) / 10 ^ 61 + 1 / 10 ^ 61 ≤ 1 / 10 ^ 60 := by norm_num
  linarith

theorem erf_far {s : ℝ} (h0 : 0 ≤ s) (h1 : s ≤ 11) :
    |(1 - erf (yE s)) - exp (ln2 - (s + 5) ^ 2)| ≤ 1.11 / 10 ^ 10 * exp (ln2 - (s + 5) ^ 2) + 1 / 10 ^ 60 := by
  obtain ⟨m, hm⟩ := far_branch
  have := hm.increments (T := tailT 5) (fun u hu => tailT_deriv (by linarith [hu.1])) (θ := 1.1 / 10 ^ 10) (by norm_num) (fun u hu => ratio_far hu)
    ⟨h0, h1⟩ ⟨by norm_num, le_refl _⟩ h1
  have gap := tailT_gap 5 s 11
  have rest := small_rest
  have h2 : (1.1 / 10 ^ 10 + (1.1 / 10 ^ 10) ^ 2) * (tailT 5 11 - tailT 5 s) ≤ 1.11 / 10 ^ 10 * exp (ln2 - (s + 5) ^ 2) := by
    have hp := exp_pos ((ln2 : ℝ) - (s + 5) ^ 2)
    calc _ ≤ (1.1 / 10 ^ 10 + (1.1 / 10 ^ 10) ^ 2) * exp (ln2 - (s + 5) ^ 2) := by gcongr
      _ ≤ _ := by gcongr; norm_num
  have h3 := abs_le.mp (this.trans h2)
  have h4 := exp_pos ((ln2 : ℝ) - (11 + 5) ^ 2)
  have h5 := erf_lt_one (yE 11)
  unfold tailT at h3
  obtain ⟨h3, h6⟩ := h3
  generalize exp ((ln2 : ℝ) - (11 + 5) ^ 2) = E at *
  generalize exp ((ln2 : ℝ) - (s + 5) ^ 2) = E' at *
  generalize (1 : ℝ) / 10 ^ 60 = e at *
  rw [abs_le]
  constructor <;> linarith

/-- The density of the branches at the seam. -/
theorem dens_seam {y y1 M : ℝ → ℝ} {s : ℝ} (h1 : 1 ≤ y1 s) (hr : |logRatio y y1 M s| ≤ 1) : dens (y s) ≤ 3 * exp (M s) := by
  have e : exp (logRatio y y1 M s) * exp (M s) = dens (y s) * y1 s := by
    rw [← exp_add, logRatio]
    have e : log (2 / √π) - y s ^ 2 + log (y1 s) - M s + M s = log (2 / √π) + -y s ^ 2 + log (y1 s) := by ring
    rw [e, exp_add, exp_add, exp_log two_div_sqrt_pi_pos, exp_log (by linarith)]
    rfl
  have h2 : exp (logRatio y y1 M s) ≤ 3 := by
    have := exp_le_exp.mpr (abs_le.mp hr).2
    linarith [Real.exp_one_lt_d9]
  have h3 := exp_pos (M s)
  have h4 := dens_pos (y s)
  nlinarith

theorem seam : |erf (yC 3.4) - erf (yE 0)| ≤ 1 / 10 ^ 12 * exp (ln2 - (5 : ℝ) ^ 2) := by
  obtain ⟨-, -, -, -, -, p1, p2, -, p3, p4, p5, p6⟩ := num6
  have e34 : ((3.4 : ℚ) : ℝ) = 3.4 := by norm_num
  have c1 : yC 3.4 = (qC 3.4 : ℚ) := by rw [← e34]; exact yC_cast _
  have c2 : yC1 3.4 = (qC1 3.4 : ℚ) := by rw [← e34]; exact yC1_cast _
  have c3 : yE 0 = (qE 0 : ℚ) := by simpa using yE_cast 0
  have c4 : yE1 0 = (qE1 0 : ℚ) := by simpa using yE1_cast 0
  have r1 := (ratio_middle (s := 3.4) ⟨by norm_num, le_refl _⟩).trans (by norm_num : (0.95 / 10 ^ 10 : ℝ) ≤ 1)
  have r2 := (ratio_far (s := 0) ⟨le_refl _, by norm_num⟩).trans (by norm_num : (1.1 / 10 ^ 10 : ℝ) ≤ 1)
  have d1 := dens_seam (by rw [c2]; exact_mod_cast p5) r1
  have d2 := dens_seam (by rw [c4]; exact_mod_cast p6) r2
  have m5 : ∀ c s : ℝ, s + c = 5 → exp (tailM c s) = 10 * exp (ln2 - 5 ^ 2) := by
    intro c s h
    rw [tailM, h, exp_add, exp_log (by norm_num), add_sub_assoc, exp_add, exp_log (by norm_num)]; ring
  rw [m5 _ _ (by norm_num)] at d1 d2
  have y1 : 0 ≤ yC 3.4 := by rw [c1]; exact_mod_cast zero_le_one.trans p1
  have y2 : 0 ≤ yE 0 := by rw [c3]; exact_mod_cast zero_le_one.trans p2
  have gap : |yC 3.4 - yE 0| ≤ 1 / 10 ^ 14 := by
    rw [c1, c3]
    have a : ((-(1 / 10 ^ 14) : ℚ) : ℝ) ≤ ((qC 3.4 - qE 0 : ℚ) : ℝ) := Rat.cast_le.mpr p3
    have b : ((qC 3.4 - qE 0 : ℚ) : ℝ) ≤ ((1 / 10 ^ 14 : ℚ) : ℝ) := Rat.cast_le.mpr p4
    push_cast at a b
    rw [abs_le]
    constructor <;> linarith
  have hp := exp_pos ((ln2 : ℝ) - 5 ^ 2)
  have fin : ∀ D g : ℝ, D ≤ 3 * (10 * exp (ln2 - 5 ^ 2)) → 0 ≤ g → g ≤ 1 / 10 ^ 14 → D * g ≤ 1 / 10 ^ 12 * exp (ln2 - (5 : ℝ) ^ 2) := by
    intro D g hD hg0 hg
    calc D * g ≤ 3 * (10 * exp (ln2 - 5 ^ 2)) * (1 / 10 ^ 14) := mul_le_mul hD hg hg0 (by positivity)
      _ ≤ _ := by
        generalize exp ((ln2 : ℝ) - 5 ^ 2) = E at *
        norm_num
        linarith
  have hg := abs_le.mp gap
  rcases le_total (yC 3.4) (yE 0) with h | h
  · rw [abs_sub_comm, abs_of_nonneg (sub_nonneg.mpr (erf_strictMono.monotone h))]
    exact (erf_increment y1 h).2.trans (fin _ _ d1 (by linarith) (by linarith [hg.1]))
  · rw [abs_of_nonneg (sub_nonneg.mpr (erf_strictMono.monotone h))]
    exact (erf_increment y2 h).2.trans (fin _ _ d2 (by linarith) (by linarith [hg.2]))

theorem erf_middle {s : ℝ} (h0 : 0.009 ≤ s) (h1 : s ≤ 3.4) :
    |(1 - erf (yC s)) - exp (ln2 - (s + 1.6) ^ 2)| ≤ 1.13 / 10 ^ 10 * exp (ln2 - (s + 1.6) ^ 2) + 1 / 10 ^ 60 := by
  obtain ⟨m, hm⟩ := middle_branch
  have := hm.increments (T := tailT 1.6) (fun u hu => tailT_deriv (by linarith [hu.1])) (θ := 0.95 / 10 ^ 10) (by norm_num) (fun u hu => ratio_middle hu)
    ⟨h0, h1⟩ ⟨by norm_num, le_refl _⟩ h1
  have far := erf_far (s := 0) (le_refl _) (by norm_num)
  have sm := seam
  have e : (3.4 : ℝ) + 1.6 = 5 := by norm_num
  rw [zero_add] at far
  have hm5 : exp (ln2 - (5 : ℝ) ^ 2) ≤ exp (ln2 - (s + 1.6) ^ 2) := by
    refine exp_le_exp.mpr ?_
    nlinarith
  have h3 := abs_le.mp this
  have h4 := abs_le.mp far
  have h5 := abs_le.mp sm
  have hp := exp_pos ((ln2 : ℝ) - 5 ^ 2)
  unfold tailT at h3
  rw [e] at h3
  rw [abs_le]
  constructor <;> nlinarith [h3.1, h3.2, h4.1, h4.2, h5.1, h5.2]

theorem central_eq (x : ℝ) : yA x = x * poly (0.180625 - 0.25 * x * x) coeffsA / poly (0.180625 - 0.25 * x * x) coeffsB := by
  have hw : pe [40000] (x ^ 2) ≠ 0 := by simp [pe]
  have hr : pe [7225, -10000] (x ^ 2) / pe [40000] (x ^ 2) = 0.180625 - 0.25 * x * x := by
    simp only [pe]; push_cast; ring
  have hA := (homog_eval [7225, -10000] [40000] (ints coeffsA) hw).2
  have hB := (homog_eval [7225, -10000] [40000] (ints coeffsB) hw).2
  rw [hr, pe_ints coeffs_ints.1] at hA
  rw [hr, pe_ints coeffs_ints.2.1] at hB
  unfold yA centralA centralB
  rw [hA, hB]
  have hlen : (ints coeffsA).length = (ints coeffsB).length := by simp [ints, coeffsA, coeffsB]
  rw [hlen]
  have h1 : pe [40000] (x ^ 2) ^ (ints coeffsB).length ≠ 0 := pow_ne_zero _ hw
  by_cases h0 : poly (0.180625 - 0.25 * x * x) coeffsB = 0
  · simp [h0]
  · field_simp

theorem middle_eq (s : ℝ) : yC s = poly s coeffsC / poly s coeffsD := by
  unfold yC
  rw [pe_ints coeffs_ints.2.2.1, pe_ints coeffs_ints.2.2.2.1, mul_div_mul_left _ _ (by positivity)]

theorem far_eq (s : ℝ) : yE s = poly s coeffsE / poly s coeffsF := by
  unfold yE
  rw [pe_ints coeffs_ints.2.2.2.2.1, pe_ints coeffs_ints.2.2.2.2.2, mul_div_mul_left _ _ (by positivity)]

/-- The tails: relative accuracy of the complement. -/
theorem erf_tail {x : ℝ} (h0 : 0.85 < x) (h1 : x ≤ 1 - 1 / 2 ^ 53) : |erf (erfinvReal x) - x| ≤ 1.14 / 10 ^ 10 * (1 - x) := by
  have hτ : (0 : ℝ) < 1 - x := by
    have : (0 : ℝ) < 1 / 2 ^ 53 := by norm_num
    linarith
  have habs : |x| = x := abs_of_pos (by linarith)
  set r := Real.sqrt ((ln2 : ℚ) - Real.log (1 + -|x|)) with hr
  have hln0 : (0 : ℝ) < ln2 := by unfold ln2; norm_num
  have hln1 : (ln2 : ℝ) < 0.7 := by unfold ln2; norm_num
  -- the radius
  have hlog15 : log (1 + -|x|) ≤ log 0.15 := by
    rw [habs]; exact log_le_log (by linarith) (by linarith)
  have hlogs := abs_le.mp logs
  have hlog : ((ra ^ 2 : ℚ) : ℝ) - 1 / 10 ^ 12 ≤ (ln2 : ℝ) - log (1 + -|x|) := by
    have := hlogs.1
    push_cast at this ⊢
    linarith
  have hra2 : (1.609 : ℝ) ^ 2 ≤ ((ra ^ 2 : ℚ) : ℝ) - 1 / 10 ^ 12 := by unfold ra; norm_num
  have hpos : 0 ≤ (ln2 : ℝ) - log (1 + -|x|) := le_trans (by norm_num) (hra2.trans hlog)
  have hr0 : 1.609 ≤ r := Real.le_sqrt_of_sq_le (hra2.trans hlog)
  have hrsq : r ^ 2 = (ln2 : ℝ) - log (1 + -|x|) := Real.sq_sqrt hpos
  have hexp : exp ((ln2 : ℝ) - r ^ 2) = 1 - x := by
    rw [hrsq, sub_sub_cancel, exp_log (by rw [habs]; linarith), habs]; ring
  have hr1 : r ≤ 16 := by
    have hl : -(53 : ℝ) ≤ log (1 + -|x|) := by
      rw [habs]
      have h2 : log ((1 : ℝ) / 2 ^ 53) ≤ log (1 + -x) := log_le_log (by norm_num) (by linarith)
      rw [one_div, log_inv, log_pow] at h2
      have := Real.log_two_lt_d9
      push_cast at h2
      linarith
    refine Real.sqrt_le_iff.mpr ⟨by norm_num, ?_⟩
    linarith
  have hsmall : (1 : ℝ) / 10 ^ 60 ≤ 0.01 / 10 ^ 10 * (1 - x) := by
    have : (1 : ℝ) / 10 ^ 60 ≤ 0.01 / 10 ^ 10 * (1 / 2 ^ 53) := by norm_num
    refine this.trans ?_
    gcongr
    linarith
  have hval : erfinvReal x = if r ≤ 5 then yC (r - 1.6) else yE (r - 5) := by
    unfold erfinvReal
    rw [if_neg (by rw [habs]; linarith)]
    simp only
    rw [if_pos (by linarith : (0 : ℝ) ≤ x), ← hr, middle_eq, far_eq]
  have swap : ∀ y, |erf y - x| = |(1 - erf y) - (1 - x)| := by
    intro y; rw [abs_sub_comm]; congr 1; ring
  rw [hval, swap]
  split
  · rename_i h5
    have := erf_middle (s := r - 1.6) (by linarith) (by linarith)
    rw [sub_add_cancel, hexp] at this
    linarith
  · rename_i h5
    have := erf_far (s := r - 5) (by linarith [not_le.mp h5]) (by linarith)
    rw [sub_add_cancel, hexp] at this
    linarith

theorem erf_central' {x : ℝ} (h : |x| ≤ 0.85) : |erf (erfinvReal x) - x| ≤ 1 / 10 ^ 10 * |x| := by
  have : erfinvReal x = yA x := by
    unfold erfinvReal
    rw [if_pos h, central_eq]
  rw [this]; exact erf_central h

end Erfinv

/-- Both directions of the accuracy, for a positive argument. -/
theorem erfinvReal_accuracy {x : ℝ} (h0 : 0 < x) (h1 : x ≤ 1 - 1 / 2 ^ 53) :
    |erf (erfinvReal x) - x| ≤ 1 / 10 ^ 9 * min x (1 - x) ∧ |erfinvReal x - erfInverse x| ≤ 1 / 10 ^ 9 * erfInverse x := by
  have hτ : (0 : ℝ) < 1 - x := by
    have : (0 : ℝ) < 1 / 2 ^ 53 := by norm_num
    linarith
  set y := erfinvReal x with hy
  set z := erfInverse x with hz
  have hez : erf z = x := erf_inverse (by linarith) (by linarith)
  have hy0 : 0 < y := erfinvReal_pos h0 (by linarith)
  have hz0 : 0 < z := erf_strictMono.lt_iff_lt.mp (by rw [erf_zero, hez]; exact h0)
  -- the density at 0
  have hd0 : dens 0 ≤ 1.13 := by
    unfold dens
    have : (1.772 : ℝ) ≤ √π := Real.le_sqrt_of_sq_le (by have := Real.pi_gt_d6; norm_num at this ⊢; linarith)
    rw [show exp (-(0 : ℝ) ^ 2) = 1 by simp, mul_one, div_le_iff₀ (by linarith)]
    linarith
  have hzx : x ≤ 1.13 * z := by
    have := (erf_increment (le_refl 0) hz0.le).2
    rw [erf_zero, hez, sub_zero, sub_zero] at this
    nlinarith
  -- a bound for the distance
  have dist : ∀ {e w : ℝ}, |erf y - x| ≤ e → dens (max y z) ≥ w → 0 < w → |y - z| ≤ e / w := by
    intro e w he hw hw0
    rw [le_div_iff₀ hw0]
    rw [← hez] at he
    rcases le_total y z with h | h
    · rw [max_eq_right h] at hw
      have := (erf_increment hy0.le h).1
      rw [abs_sub_comm, abs_of_nonneg (sub_nonneg.mpr h)]
      have := abs_le.mp he
      nlinarith
    · rw [max_eq_left h] at hw
      have := (erf_increment hz0.le h).1
      rw [abs_of_nonneg (sub_nonneg.mpr h)]
      have := abs_le.mp he
      nlinarith
  by_cases hc : x ≤ 0.85
  · have e1 := Erfinv.erf_central' (x := x) (by rw [abs_of_pos h0]; exact hc)
    rw [← hy, abs_of_pos h0] at e1
    constructor
    · refine e1.trans ?_
      rcases min_cases x (1 - x) with ⟨h, -⟩ | ⟨h, -⟩ <;> rw [h] <;> linarith
    · -- the density is at least 0.14
      have hmax : erf (max y z) ≤ 0.86 := by
        have := (abs_le.mp e1).2
        rcases le_total y z with h | h
        · rw [max_eq_right h, hez]; linarith
        · rw [max_eq_left h]
          have : (1 : ℝ) / 10 ^ 10 * x ≤ 0.01 := by linarith
          linarith
      have hw : dens (max y z) ≥ 0.14 := by
        rcases le_total (max y z) (1 / 2) with h | h
        · have h1 : dens (1 / 2) ≤ dens (max y z) := dens_anti (hy0.le.trans (le_max_left _ _)) h
          have h2 : 0.14 ≤ dens (1 / 2) := by
            unfold dens
            have : √π ≤ 2 := Real.sqrt_le_iff.mpr ⟨by norm_num, by linarith [Real.pi_lt_four]⟩
            have h3 : 1 ≤ 2 / √π := by rw [le_div_iff₀ (Real.sqrt_pos.mpr pi_pos)]; linarith
            have h4 : 0.75 ≤ exp (-(1 / 2 : ℝ) ^ 2) := by
              have := Real.add_one_le_exp (-(1 / 2 : ℝ) ^ 2)
              linarith
            nlinarith
          linarith
        · have := mills (x := max y z) (by linarith)
          nlinarith
      have := dist e1 hw (by norm_num)
      refine this.trans ?_
      rw [div_le_iff₀ (by norm_num)]
      nlinarith
  · have hc' : 0.85 < x := not_le.mp hc
    have e1 := Erfinv.erf_tail hc' h1
    rw [← hy] at e1
    constructor
    · refine e1.trans ?_
      rw [min_eq_right (by linarith)]
      nlinarith
    · have hz1 : 0.75 ≤ z := by linarith
      have hmz : z ≤ max y z := le_max_right _ _
      have hc : 0.9 * (1 - x) ≤ 1 - erf (max y z) := by
        rcases le_total y z with h | h
        · rw [max_eq_right h, hez]; linarith
        · rw [max_eq_left h]
          have := (abs_le.mp e1).2
          nlinarith
      have hw : dens (max y z) ≥ 1.35 * (1 - x) := by
        have := mills (x := max y z) (by linarith)
        nlinarith
      have := dist e1 hw (by positivity)
      refine this.trans ?_
      rw [div_le_iff₀ (by positivity)]
      nlinarith

/-- C68: for every number `x` that a program can have strictly between -1 and 1, `erfinv( x )` is a number `y` with `erf( y ) = x` up to a relative error
of 10^-9, both of `x` and of `1 - |x|`, and it differs from the exact inverse by at most a relative error of 10^-9. -/
theorem C68_accuracy {x : ℝ} (h : |x| ≤ 1 - 1 / 2 ^ 53) : ∃ y : ℝ, erfinv XR.erfOps (.fin x) = .fin y ∧
    |erf y - x| ≤ 1 / 10 ^ 9 * |x| ∧ |erf y - x| ≤ 1 / 10 ^ 9 * (1 - |x|) ∧ |y - erfInverse x| ≤ 1 / 10 ^ 9 * |erfInverse x| := by
  have hx : |x| < 1 := lt_of_le_of_lt h (by norm_num)
  refine ⟨erfinvReal x, erfinv_eq (abs_lt.mp hx).1 (abs_lt.mp hx).2, ?_⟩
  rcases lt_trichotomy x 0 with h0 | h0 | h0
  · have hp : 0 < -x := by linarith
    rw [abs_of_neg h0] at h ⊢
    obtain ⟨a, b⟩ := erfinvReal_accuracy hp h
    have hz : erfInverse x = -erfInverse (-x) := by
      apply erf_strictMono.injective
      rw [erf_neg, erf_inverse (abs_lt.mp hx).1 (abs_lt.mp hx).2, erf_inverse (by linarith) (by linarith [(abs_lt.mp hx).1]), neg_neg]
    have hpos : 0 < erfInverse (-x) := erf_strictMono.lt_iff_lt.mp (by rw [erf_zero, erf_inverse (by linarith) (by linarith [(abs_lt.mp hx).1])]; exact hp)
    rw [erfinvReal_neg, erf_neg, show -erf (erfinvReal x) - -x = -(erf (erfinvReal x) - x) by ring, abs_neg] at a
    rw [erfinvReal_neg] at b
    refine ⟨a.trans (by gcongr; exact min_le_left _ _), a.trans (by gcongr; exact min_le_right _ _), ?_⟩
    rw [hz, abs_neg, abs_of_pos hpos]
    rw [show erfinvReal x - -erfInverse (-x) = -(-erfinvReal x - erfInverse (-x)) by ring, abs_neg]
    exact b
  · subst h0
    have e1 : erfinvReal 0 = 0 := by unfold erfinvReal; norm_num
    have e2 : erfInverse 0 = 0 := by have := inverse_erf 0; rwa [erf_zero] at this
    rw [e1, e2, erf_zero]; simp
  · rw [abs_of_pos h0] at h ⊢
    obtain ⟨a, b⟩ := erfinvReal_accuracy h0 h
    refine ⟨a.trans (by gcongr; exact min_le_left _ _), a.trans (by gcongr; exact min_le_right _ _), ?_⟩
    have hpos : 0 < erfInverse x := erf_strictMono.lt_iff_lt.mp (by rw [erf_zero, erf_inverse (by linarith) (by linarith [(abs_lt.mp hx).2])]; exact h0)
    rwa [abs_of_pos hpos]


/-- Non-vacuity. -/
example : ∃ y : ℝ, erfinv XR.erfOps (.fin (1 / 2)) = .fin y ∧ |erf y - 1 / 2| ≤ 1 / 10 ^ 9 := by
  obtain ⟨y, h1, h2, -⟩ := C68_accuracy (x := 1 / 2) (by rw [abs_of_pos (by norm_num)]; norm_num)
  refine ⟨y, h1, h2.trans ?_⟩
  rw [abs_of_pos (by norm_num)]; norm_num

/-- C68: draws of the truncated normal distribution with the program's `erfinv` `e` instead of the exact inverse.  The draw `x` for the uniform number `u`
has the mass `u` to its left, up to a relative error of 10^-9 of the mass `1 - u` to its right. -/
theorem C68_draws {e : ℝ → ℝ} (he : ∀ x : ℝ, -1 < x → x < 1 → erfinv XR.erfOps (.fin x) = .fin (e x)) {mean sigma eps u : ℝ} (hs : 0 < sigma)
    (hu : |2 * (u * (1 - Dist.gaussCdf realOps mean sigma eps) + Dist.gaussCdf realOps mean sigma eps) - 1| ≤ 1 - 1 / 2 ^ 53) :
    |(∫ t in eps..Dist.truncatedInverse { realOps with erfinv := e } mean sigma eps u, normalDensity mean sigma t) /
      (1 - Dist.gaussCdf realOps mean sigma eps) - u| ≤ 1 / 10 ^ 9 * (1 - u) := by
  set Φ := Dist.gaussCdf realOps mean sigma eps with hΦ
  obtain ⟨hΦ0, hΦ1⟩ := gaussCdf_bounds mean sigma eps
  rw [← hΦ] at hΦ0 hΦ1
  set p := u * (1 - Φ) + Φ with hp
  have hx : |2 * p - 1| < 1 := lt_of_le_of_lt hu (by norm_num)
  have hval : Dist.truncatedInverse { realOps with erfinv := e } mean sigma eps u = e (2 * p - 1) * √2 * sigma + mean := by
    show e (((2 : ℕ) : ℝ) * (u * (1 - Dist.gaussCdf realOps mean sigma eps) + Dist.gaussCdf realOps mean sigma eps) - 1) * √((2 : ℕ) : ℝ) * sigma + mean = _
    rw [← hΦ, ← hp]; push_cast; rfl
  have hc : Continuous (normalDensity mean sigma) := by unfold normalDensity; fun_prop
  rw [intervalIntegral.integral_eq_sub_of_hasDerivAt (fun x _ => gaussCdf_hasDerivAt mean hs x) (hc.intervalIntegrable _ _), hval, ← hΦ, gaussCdf_real]
  have hd := (sigma_sqrt_pos hs).ne'
  have : (e (2 * p - 1) * √2 * sigma + mean - mean) / (sigma * √2) = e (2 * p - 1) := by
    rw [add_sub_cancel_right, mul_assoc, mul_comm √2 sigma, mul_div_assoc, div_self hd, mul_one]
  rw [this]
  obtain ⟨y, hy, -, a, -⟩ := C68_accuracy hu
  rw [he _ (abs_lt.mp hx).1 (abs_lt.mp hx).2] at hy
  obtain rfl : e (2 * p - 1) = y := XR.fin.inj hy
  have hb : |1 / 2 * (1 + erf (e (2 * p - 1))) - p| ≤ 1 / 10 ^ 9 * (1 - p) := by
    have h2 : 1 / 2 * (1 + erf (e (2 * p - 1))) - p = 1 / 2 * (erf (e (2 * p - 1)) - (2 * p - 1)) := by ring
    rw [h2, abs_mul, abs_of_pos (by norm_num : (0 : ℝ) < 1 / 2)]
    have h3 : 1 - |2 * p - 1| ≤ 2 * (1 - p) := by linarith [le_abs_self (2 * p - 1)]
    have h4 : (1 : ℝ) / 10 ^ 9 * (1 - |2 * p - 1|) ≤ 1 / 10 ^ 9 * (2 * (1 - p)) := by gcongr
    linarith
  have hden : 0 < 1 - Φ := by linarith
  have e1 : (1 / 2 * (1 + erf (e (2 * p - 1))) - Φ) / (1 - Φ) - u = (1 / 2 * (1 + erf (e (2 * p - 1))) - p) / (1 - Φ) := by
    rw [hp]; field_simp; ring
  rw [e1, abs_div, abs_of_pos hden, div_le_iff₀ hden]
  refine hb.trans (le_of_eq ?_)
  rw [hp]; ring

/-- Non-vacuity: there is such an `e`, and a number that meets the condition. -/
example : (∃ e : ℝ → ℝ, ∀ x : ℝ, -1 < x → x < 1 → erfinv XR.erfOps (.fin x) = .fin (e x)) ∧
    |2 * (1 / 2 * (1 - Dist.gaussCdf realOps 1 0.25 1) + Dist.gaussCdf realOps 1 0.25 1) - 1| ≤ 1 - 1 / 2 ^ 53 := by
  refine ⟨⟨erfinvReal, fun _ h0 h1 => erfinv_eq h0 h1⟩, ?_⟩
  rw [gaussCdf_real, sub_self, zero_div, erf_zero]
  norm_num

end Seldon
