import Verif.Model.Erfinv
import Verif.Spec.ExtReal
import Mathlib.Analysis.Complex.ExponentialBounds
import Mathlib.Tactic.Positivity
import Mathlib.Tactic.NormNum
import Mathlib.Tactic.Linarith
/-!
# Property C27: `erfinv`
-/
namespace Seldon
open Spec Erfinv

/-- Exact arithmetic with the special values. -/
noncomputable def XR.erfOps : ErfOps XR where
  lit q := .fin (q : ℝ)
  nan := .nan
  infinity := .pinf
  abs := XR.abs
  sqrt := XR.sqrt
  log1p := XR.log1p
  copysign := XR.copysign

/-- Value of a polynomial. -/
def poly (r : ℝ) : List ℚ → ℝ
  | [] => 0
  | c :: cs => poly r cs * r + c

theorem horner_eq (r : ℝ) (cs : List ℚ) : horner XR.erfOps (XR.fin r) cs = XR.fin (poly r cs) := by
  induction cs with
  | nil => simp [horner, poly, XR.erfOps]
  | cons c cs ih =>
    cases cs with
    | nil => simp [horner, poly, XR.erfOps]
    | cons c' cs =>
      unfold horner
      rw [ih]
      show XR.fin (poly r (c' :: cs)) * XR.fin r + XR.fin (c : ℝ) = _
      rw [XR.mul_fin, XR.add_fin]
      rfl

theorem poly_pos {r : ℝ} (hr : 0 ≤ r) {cs : List ℚ} (h : ∀ c ∈ cs, 0 < c) (hne : cs ≠ []) : 0 < poly r cs := by
  induction cs with
  | nil => exact absurd rfl hne
  | cons c cs ih =>
    have hc : (0 : ℝ) < c := by exact_mod_cast h c (by simp)
    unfold poly
    by_cases hcs : cs = []
    · subst hcs; simpa [poly] using hc
    · have := ih (fun c hc => h c (by simp [hc])) hcs
      have : 0 ≤ poly r cs * r := mul_nonneg this.le hr
      linarith

/-- The radius in the tails is more than 1.6. -/
theorem tail_radius {a : ℝ} (h0 : (0.85 : ℝ) < a) (h1 : a < 1) : 1.6 ≤ Real.sqrt ((ln2 : ℚ) - Real.log (1 + -a)) := by
  have hlog : Real.log (1 + -a) ≤ -(15 / 8) := by
    rw [Real.log_le_iff_le_exp (by linarith), Real.exp_neg]
    have h15 : Real.exp (15 / 8) ≤ 20 / 3 := by
      have e : Real.exp (15 / 8) ^ 8 = Real.exp 1 ^ 15 := by
        rw [← Real.exp_nat_mul, ← Real.exp_nat_mul]; norm_num
      have hb : Real.exp 1 ^ 15 ≤ (20 / 3 : ℝ) ^ 8 := by
        calc Real.exp 1 ^ 15 ≤ (2.7182818286 : ℝ) ^ 15 := pow_le_pow_left₀ (Real.exp_pos 1).le Real.exp_one_lt_d9.le 15
          _ ≤ _ := by norm_num
      rw [← e] at hb
      exact le_of_pow_le_pow_left₀ (by norm_num) (by norm_num) hb
    have hpos := Real.exp_pos (15 / 8)
    calc 1 + -a ≤ (20 / 3 : ℝ)⁻¹ := by linarith
      _ ≤ _ := inv_anti₀ hpos h15
  apply Real.le_sqrt_of_sq_le
  have : ((ln2 : ℚ) : ℝ) = 6.931471805599453094172321214581e-1 := by unfold ln2; norm_num
  rw [this]
  linarith

/-- C27: outside [-1, 1], at the ends, and for NaN. -/
theorem C27_special (x : ℝ) : (x < -1 ∨ 1 < x → erfinv XR.erfOps (.fin x) = .nan) ∧ erfinv XR.erfOps (.fin 1) = .pinf ∧
    erfinv XR.erfOps (.fin (-1)) = .ninf ∧ erfinv XR.erfOps .nan = .nan ∧ erfinv XR.erfOps .pinf = .nan ∧ erfinv XR.erfOps .ninf = .nan := by
  have lt : ∀ a b : XR, (a < b) = XR.lt a b := fun _ _ => rfl
  have le : ∀ a b : XR, (a ≤ b) = XR.le a b := fun _ _ => rfl
  refine ⟨?_, ?_, ?_, ?_, ?_, ?_⟩
  · intro h
    unfold erfinv
    rw [if_pos]
    · rfl
    · simpa [lt, XR.erfOps, XR.lt] using h
  · unfold erfinv
    simp [lt, le, XR.erfOps, XR.lt, XR.le]
  · unfold erfinv
    simp [lt, le, XR.erfOps, XR.lt, XR.le]
    norm_num
    rfl
  · unfold erfinv tail
    simp only [lt, le, XR.erfOps, XR.lt, XR.le, XR.abs, XR.sqrt, XR.log1p, XR.copysign]
    simp only [or_self, if_false]
    have e1 : -XR.nan = XR.nan := rfl
    have e2 : ∀ q : ℝ, XR.fin q - XR.nan = XR.nan := fun _ => rfl
    have e3 : ∀ q : ℝ, XR.nan - XR.fin q = XR.nan := fun _ => rfl
    have e4 : ∀ q : ℝ, XR.nan + XR.fin q = XR.nan := fun _ => rfl
    have e5 : ∀ q : XR, q * XR.nan = XR.nan := fun q => by cases q <;> rfl
    have e6 : ¬ XR.nan ≤ XR.fin 5 := fun h => h
    simp [e1, e2, e3, XR.sqrt, XR.abs, XR.nonneg, coeffsE, coeffsF, horner, e4, e5, e6]
    rfl
  · unfold erfinv
    simp [lt, le, XR.erfOps, XR.lt, XR.le]
  · unfold erfinv
    simp [lt, le, XR.erfOps, XR.lt, XR.le]

/-- The value inside (-1, 1). -/
noncomputable def erfinvReal (x : ℝ) : ℝ :=
  if |x| ≤ 0.85 then x * poly (0.180625 - 0.25 * x * x) coeffsA / poly (0.180625 - 0.25 * x * x) coeffsB
  else
    let r := Real.sqrt ((ln2 : ℚ) - Real.log (1 + -|x|))
    let y := if r ≤ 5 then poly (r - 1.6) coeffsC / poly (r - 1.6) coeffsD else poly (r - 5) coeffsE / poly (r - 5) coeffsF
    if 0 ≤ x then y else -y

theorem coeffs_pos : (∀ c ∈ coeffsA, 0 < c) ∧ (∀ c ∈ coeffsB, 0 < c) ∧ (∀ c ∈ coeffsC, 0 < c) ∧ (∀ c ∈ coeffsD, 0 < c) ∧
    (∀ c ∈ coeffsE, 0 < c) ∧ (∀ c ∈ coeffsF, 0 < c) := by
  refine ⟨?_, ?_, ?_, ?_, ?_, ?_⟩ <;> decide +kernel

theorem central_radius {x : ℝ} (h : |x| ≤ 0.85) : (0 : ℝ) ≤ 0.180625 - 0.25 * x * x := by
  have := abs_le.mp h
  nlinarith [mul_nonneg (by linarith [this.1] : (0 : ℝ) ≤ x + 0.85) (by linarith [this.2] : (0 : ℝ) ≤ 0.85 - x)]

theorem erfinv_eq {x : ℝ} (h0 : -1 < x) (h1 : x < 1) : erfinv XR.erfOps (.fin x) = .fin (erfinvReal x) := by
  obtain ⟨hA, hB, hC, hD, hE, hF⟩ := coeffs_pos
  have habs : |x| < 1 := abs_lt.mpr ⟨h0, h1⟩
  unfold erfinv
  have c1 : ¬ (XR.fin x < XR.erfOps.lit (-1) ∨ XR.erfOps.lit 1 < XR.fin x) := by
    show ¬ (x < ((-1 : ℚ) : ℝ) ∨ ((1 : ℚ) : ℝ) < x)
    push_cast
    push Not
    exact ⟨h0.le, h1.le⟩
  have c2 : ¬ (XR.erfOps.lit 1 ≤ XR.fin x) := by
    show ¬ (((1 : ℚ) : ℝ) ≤ x)
    push_cast; linarith
  have c3 : ¬ (XR.fin x ≤ XR.erfOps.lit (-1)) := by
    show ¬ (x ≤ ((-1 : ℚ) : ℝ))
    push_cast; linarith
  rw [if_neg c1, if_neg c2, if_neg c3]
  have c4 : (XR.erfOps.abs (XR.fin x) ≤ XR.erfOps.lit 0.85) ↔ |x| ≤ 0.85 := by
    show |x| ≤ ((0.85 : ℚ) : ℝ) ↔ _
    norm_num
  unfold erfinvReal
  by_cases hc : |x| ≤ 0.85
  · rw [if_pos (c4.mpr hc), if_pos hc]
    unfold central
    have er : XR.erfOps.lit 0.180625 - XR.erfOps.lit 0.25 * XR.fin x * XR.fin x = XR.fin (0.180625 - 0.25 * x * x) := by
      show XR.fin ((0.180625 : ℚ) : ℝ) - XR.fin ((0.25 : ℚ) : ℝ) * XR.fin x * XR.fin x = _
      rw [XR.mul_fin, XR.mul_fin, XR.sub_fin]
      norm_num
    simp only [er, horner_eq]
    rw [XR.mul_fin, XR.div_fin _ _ (poly_pos (central_radius hc) hB (by decide)).ne']
  · rw [if_neg (fun h => hc (c4.mp h)), if_neg hc]
    have hc' : (0.85 : ℝ) < |x| := not_le.mp hc
    have hr := tail_radius hc' habs
    unfold tail
    have er : XR.erfOps.sqrt (XR.erfOps.lit ln2 - XR.erfOps.log1p (-XR.erfOps.abs (XR.fin x))) =
        XR.fin (Real.sqrt ((ln2 : ℚ) - Real.log (1 + -|x|))) := by
      show XR.sqrt (XR.fin ((ln2 : ℚ) : ℝ) - XR.log (XR.fin (1 + -|x|))) = _
      have hpos : 0 < 1 + -|x| := by linarith
      have e : XR.log (XR.fin (1 + -|x|)) = XR.fin (Real.log (1 + -|x|)) := by
        unfold XR.log
        simp only
        rw [if_neg hpos.ne', if_pos hpos]
      rw [e, XR.sub_fin]
      unfold XR.sqrt
      simp only
      rw [if_neg]
      intro hneg
      rw [Real.sqrt_eq_zero_of_nonpos hneg.le] at hr
      norm_num at hr
    generalize hR : Real.sqrt ((ln2 : ℚ) - Real.log (1 + -|x|)) = r at hr er
    have c5 : (XR.fin r ≤ XR.erfOps.lit 5) ↔ r ≤ 5 := by
      show r ≤ ((5 : ℚ) : ℝ) ↔ _
      norm_num
    have copy : ∀ y : ℝ, 0 < y → XR.erfOps.copysign (XR.fin y) (XR.fin x) = XR.fin (if 0 ≤ x then y else -y) := by
      intro y hy
      show XR.copysign (XR.fin y) (XR.fin x) = _
      unfold XR.copysign XR.nonneg XR.abs
      simp only [abs_of_pos hy]
      split <;> rfl
    have s1 : XR.fin r - XR.erfOps.lit 1.6 = XR.fin (r - 1.6) := by
      show XR.fin r - XR.fin ((1.6 : ℚ) : ℝ) = _
      rw [XR.sub_fin]; norm_num
    have s2 : XR.fin r - XR.erfOps.lit 5 = XR.fin (r - 5) := by
      show XR.fin r - XR.fin ((5 : ℚ) : ℝ) = _
      rw [XR.sub_fin]; norm_num
    simp only [er, s1, s2, horner_eq]
    by_cases h5 : r ≤ 5
    · rw [if_pos (c5.mpr h5), if_pos h5]
      have hn := poly_pos (show 0 ≤ r - 1.6 by linarith) hC (by decide)
      have hd := poly_pos (show 0 ≤ r - 1.6 by linarith) hD (by decide)
      rw [XR.div_fin _ _ hd.ne', copy _ (div_pos hn hd)]
    · rw [if_neg (fun h => h5 (c5.mp h)), if_neg h5]
      have hn := poly_pos (show 0 ≤ r - 5 by linarith) hE (by decide)
      have hd := poly_pos (show 0 ≤ r - 5 by linarith) hF (by decide)
      rw [XR.div_fin _ _ hd.ne', copy _ (div_pos hn hd)]

theorem erfinvReal_pos {x : ℝ} (h0 : 0 < x) (h1 : x < 1) : 0 < erfinvReal x := by
  obtain ⟨hA, hB, hC, hD, hE, hF⟩ := coeffs_pos
  unfold erfinvReal
  split
  · rename_i h
    have hr := central_radius h
    exact div_pos (mul_pos h0 (poly_pos hr hA (by decide))) (poly_pos hr hB (by decide))
  · rename_i h
    have hr := tail_radius (not_le.mp h) (abs_lt.mpr ⟨by linarith, h1⟩)
    simp only
    rw [if_pos h0.le]
    split
    · exact div_pos (poly_pos (by linarith) hC (by decide)) (poly_pos (by linarith) hD (by decide))
    · exact div_pos (poly_pos (by linarith) hE (by decide)) (poly_pos (by linarith) hF (by decide))

theorem erfinvReal_neg (x : ℝ) : erfinvReal (-x) = -erfinvReal x := by
  rcases eq_or_ne x 0 with rfl | hx
  · have : erfinvReal 0 = 0 := by
      unfold erfinvReal
      norm_num
    simp [this]
  · unfold erfinvReal
    rw [abs_neg]
    split
    · rw [show 0.25 * -x * -x = 0.25 * x * x by ring]
      ring
    · simp only
      rcases lt_or_gt_of_ne hx with h | h
      · rw [if_pos (show (0 : ℝ) ≤ -x by linarith), if_neg (show ¬ (0 : ℝ) ≤ x by linarith), neg_neg]
      · rw [if_neg (show ¬ (0 : ℝ) ≤ -x by linarith), if_pos h.le]

/-- C27: inside (-1, 1) the result is an ordinary number (no division by zero, no square root of a negative number), it has the sign of `x`, and
`erfinv( -x ) = -erfinv( x )`. -/
theorem C27_inside {x : ℝ} (h0 : -1 < x) (h1 : x < 1) : ∃ y : ℝ, erfinv XR.erfOps (.fin x) = .fin y ∧
    erfinv XR.erfOps (.fin (-x)) = .fin (-y) ∧ (0 < x → 0 < y) ∧ (x < 0 → y < 0) ∧ (x = 0 → y = 0) := by
  refine ⟨erfinvReal x, erfinv_eq h0 h1, ?_, fun h => erfinvReal_pos h h1, ?_, ?_⟩
  · rw [erfinv_eq (by linarith) (by linarith), erfinvReal_neg]
  · intro h
    have := erfinvReal_pos (x := -x) (by linarith) (by linarith)
    rw [erfinvReal_neg] at this
    linarith
  · rintro rfl
    unfold erfinvReal
    norm_num

end Seldon
