import Verif.Lemmas.ErfinvBranches
import Mathlib.Analysis.SpecialFunctions.Exponential
/-!
# Helper lemmas: how far `erf` of each branch of `erfinv` is from the argument
-/
namespace Seldon
open IntPoly Erfinv Spec Set Real

namespace Erfinv

/-! ### The central branch -/

noncomputable def yA (x : ℝ) : ℝ := x * pe centralA (x ^ 2) / pe centralB (x ^ 2)
noncomputable def yA1 (x : ℝ) : ℝ := pe centralW (x ^ 2) / pe centralB (x ^ 2) ^ 2
noncomputable def yA2 (x : ℝ) : ℝ := x * pe centralW2 (x ^ 2) / pe centralB (x ^ 2) ^ 3

theorem central_branch : Branch yA yA1 yA2 (fun _ => 0) (fun _ => 0) (1 / 10000000000) (-0.85) 0.85 := by
  have sq : ∀ s ∈ Icc (-0.85 : ℝ) 0.85, ((0 : ℤ) : ℝ) / (10000 : ℤ) ≤ s ^ 2 ∧ s ^ 2 < ((7226 : ℤ) : ℝ) / (10000 : ℤ) := by
    intro s hs
    push_cast
    constructor
    · norm_num; positivity
    · nlinarith [hs.1, hs.2]
  have good := fun s hs => goodOn_sound central_good (by norm_num) (by norm_num) (sq s hs).1 (sq s hs).2
  have d2 : ∀ s : ℝ, HasDerivAt (fun s : ℝ => s ^ 2) (2 * s) s := fun s => by simpa using hasDerivAt_pow 2 s
  have dpe : ∀ (p : List ℤ) (s : ℝ), HasDerivAt (fun s : ℝ => pe p (s ^ 2)) (pe (pderiv p) (s ^ 2) * (2 * s)) s := fun p s =>
    (pe_hasDerivAt p (s ^ 2)).comp s (d2 s)
  refine ⟨fun s hs => ?_, fun s hs => ?_, fun s hs => ?_, fun s _ => hasDerivAt_const s (0 : ℝ), fun s hs => ?_⟩
  · obtain ⟨hB, -, -, -⟩ := good s hs
    refine (((hasDerivAt_id s).mul (dpe centralA s)).div (dpe centralB s) hB.ne').congr_deriv ?_
    simp only [yA1, centralW, wron, pe_padd, pe_pmul, pe_pscale, pe_psub, pe, id]
    push_cast
    congr 1
    simp only [Pi.mul_apply, id]
    ring
  · obtain ⟨hB, -, -, -⟩ := good s hs
    refine ((dpe centralW s).div ((dpe centralB s).fun_pow 2) (by positivity)).congr_deriv ?_
    simp only [yA2, centralW2, pe_psub, pe_pmul, pe_pscale]
    push_cast
    simp only [pow_one]
    field_simp
  · obtain ⟨hB, hW, -, -⟩ := good s hs
    exact div_pos hW (by positivity)
  · obtain ⟨hB, hW, -, hb⟩ := good s hs
    have e : yA2 s / yA1 s - 2 * yA s * yA1 s - 0 = s * (pe centralW2 (s ^ 2) / (pe centralB (s ^ 2) * pe centralW (s ^ 2)) -
        2 * pe centralA (s ^ 2) * pe centralW (s ^ 2) / pe centralB (s ^ 2) ^ 3 - pe [] (s ^ 2) / pe [1] (s ^ 2)) := by
      simp only [yA, yA1, yA2, pe]
      field_simp
      simp
    rw [e, abs_mul]
    have hs1 : |s| ≤ 1 := abs_le.mpr ⟨by linarith [hs.1], by linarith [hs.2]⟩
    push_cast at hb
    calc _ ≤ 1 * ((1 : ℝ) / 10000000000) := mul_le_mul hs1 hb (abs_nonneg _) zero_le_one
      _ = _ := one_mul _

/-! ### The tails -/

/-- Logarithm of the derivative of `1 - exp (ln2 - (s + c)²)`. -/
noncomputable def tailM (c s : ℝ) : ℝ := log 2 + ln2 - (s + c) ^ 2 + log (s + c)

noncomputable def tailT (c s : ℝ) : ℝ := 1 - exp (ln2 - (s + c) ^ 2)

theorem tailT_deriv {c s : ℝ} (h : 0 < s + c) : HasDerivAt (tailT c) (exp (tailM c s)) s := by
  have h1 : HasDerivAt (fun s : ℝ => (ln2 : ℝ) - (s + c) ^ 2) (-(2 * (s + c))) s := by
    have := (((hasDerivAt_id s).add_const c).fun_pow 2).const_sub (ln2 : ℝ)
    simpa using this
  refine (h1.exp.const_sub 1).congr_deriv ?_
  rw [tailM, exp_add, exp_log h, add_sub_assoc, exp_add, exp_log (by norm_num)]
  ring

theorem tailM_deriv {c s : ℝ} (h : 0 < s + c) : HasDerivAt (tailM c) (1 / (s + c) - 2 * (s + c)) s := by
  have h1 : HasDerivAt (fun s : ℝ => log 2 + (ln2 : ℝ) - (s + c) ^ 2) (-(2 * (s + c))) s := by
    have := (((hasDerivAt_id s).add_const c).fun_pow 2).const_sub (log 2 + (ln2 : ℝ))
    simpa using this
  have h2 : HasDerivAt (fun s : ℝ => log (s + c)) (1 / (s + c)) s := ((hasDerivAt_id s).add_const c).log h.ne'
  exact (h1.add h2).congr_deriv (by ring)

noncomputable def yC (s : ℝ) : ℝ := pe (ints coeffsC) s / pe (ints coeffsD) s
noncomputable def yC1 (s : ℝ) : ℝ := pe (wron (ints coeffsC) (ints coeffsD)) s / pe (ints coeffsD) s ^ 2
noncomputable def yC2 (s : ℝ) : ℝ := pe (wron2 (ints coeffsD) (wron (ints coeffsC) (ints coeffsD))) s / pe (ints coeffsD) s ^ 3
noncomputable def yE (s : ℝ) : ℝ := pe (ints coeffsE) s / pe (ints coeffsF) s
noncomputable def yE1 (s : ℝ) : ℝ := pe (wron (ints coeffsE) (ints coeffsF)) s / pe (ints coeffsF) s ^ 2
noncomputable def yE2 (s : ℝ) : ℝ := pe (wron2 (ints coeffsF) (wron (ints coeffsE) (ints coeffsF))) s / pe (ints coeffsF) s ^ 3

theorem middle_branch : ∃ m, Branch yC yC1 yC2 (tailM 1.6) m (1 / 1000000000000) 0.009 3.4 := by
  have := quotient_branch middle_good (by norm_num) (by norm_num) (M := tailM 1.6) (lo := 0.009) (hi := 3.4) (by norm_num) (by norm_num) fun s hs => by
    have h : 0 < s + 1.6 := by linarith [hs.1]
    refine (tailM_deriv h).congr_deriv ?_
    simp only [pe_psub, pe_pscale, pe_pmul, pe]
    push_cast
    have e : (8 + s * (5 + s * 0) : ℝ) = 5 * (s + 1.6) := by ring
    rw [e]
    field_simp
    ring
  push_cast at this
  exact ⟨_, this⟩

theorem far_branch : ∃ m, Branch yE yE1 yE2 (tailM 5) m (1 / 1000000000000) 0 11 := by
  have := quotient_branch far_good (by norm_num) (by norm_num) (M := tailM 5) (lo := 0) (hi := 11) (by norm_num) (by norm_num) fun s hs => by
    have h : 0 < s + 5 := by linarith [hs.1]
    refine (tailM_deriv h).congr_deriv ?_
    simp only [pe_psub, pe_pscale, pe_pmul, pe]
    push_cast
    have e : (5 + s * (1 + s * 0) : ℝ) = s + 5 := by ring
    rw [e]
    field_simp
    ring
  push_cast at this
  exact ⟨_, this⟩

/-! ### Numbers -/

def peQ : List ℤ → ℚ → ℚ
  | [], _ => 0
  | c :: cs, x => c + x * peQ cs x

theorem pe_cast (p : List ℤ) (x : ℚ) : pe p (x : ℝ) = ((peQ p x : ℚ) : ℝ) := by
  induction p with
  | nil => simp [pe, peQ]
  | cons c cs ih => rw [pe, peQ, ih]; push_cast; ring

/-- The radius at which `1 - exp (ln2 - r²) = 0.85`, nearly. -/
def ra : ℚ := 2011788370084961 / 1250000000000000

def qA (x : ℚ) : ℚ := x * peQ centralA (x ^ 2) / peQ centralB (x ^ 2)
def qA1 (x : ℚ) : ℚ := peQ centralW (x ^ 2) / peQ centralB (x ^ 2) ^ 2
def qC (s : ℚ) : ℚ := peQ (ints coeffsC) s / peQ (ints coeffsD) s
def qC1 (s : ℚ) : ℚ := peQ (wron (ints coeffsC) (ints coeffsD)) s / peQ (ints coeffsD) s ^ 2
def qE (s : ℚ) : ℚ := peQ (ints coeffsE) s / peQ (ints coeffsF) s
def qE1 (s : ℚ) : ℚ := peQ (wron (ints coeffsE) (ints coeffsF)) s / peQ (ints coeffsF) s ^ 2

theorem yA_cast (x : ℚ) : yA x = (qA x : ℚ) := by simp only [yA, qA]; push_cast; rw [← pe_cast, ← pe_cast]; push_cast; rfl
theorem yA1_cast (x : ℚ) : yA1 x = (qA1 x : ℚ) := by simp only [yA1, qA1]; push_cast; rw [← pe_cast, ← pe_cast]; push_cast; rfl
theorem yC_cast (x : ℚ) : yC x = (qC x : ℚ) := by simp only [yC, qC]; push_cast; rw [← pe_cast, ← pe_cast]
theorem yC1_cast (x : ℚ) : yC1 x = (qC1 x : ℚ) := by simp only [yC1, qC1]; push_cast; rw [← pe_cast, ← pe_cast]
theorem yE_cast (x : ℚ) : yE x = (qE x : ℚ) := by simp only [yE, qE]; push_cast; rw [← pe_cast, ← pe_cast]
theorem yE1_cast (x : ℚ) : yE1 x = (qE1 x : ℚ) := by simp only [yE1, qE1]; push_cast; rw [← pe_cast, ← pe_cast]

/-- `p / q` is within `e` of 1. -/
def close (p q e : ℚ) : Bool := decide (0 < q) && decide ((1 - e) * q ≤ p) && decide (p ≤ (1 + e) * q)

theorem num1 : close (4 * qA1 0 ^ 2) 3.14159265358979323846 (1 / 10 ^ 14) = true := by decide +kernel
theorem num2 : close (qC1 (ra - 1.6)) (qA1 0.85 * (2 * ra * 0.15)) (1 / 10 ^ 12) = true := by decide +kernel
theorem num3 : -(1 / 10 ^ 12) ≤ qA 0.85 ^ 2 - qC (ra - 1.6) ^ 2 ∧ qA 0.85 ^ 2 - qC (ra - 1.6) ^ 2 ≤ 1 / 10 ^ 12 := by decide +kernel
theorem num4 : close (qE1 0) (qC1 3.4) (1 / 10 ^ 13) = true := by decide +kernel
theorem num5 : -(1 / 10 ^ 13) ≤ qC 3.4 ^ 2 - qE 0 ^ 2 ∧ qC 3.4 ^ 2 - qE 0 ^ 2 ≤ 1 / 10 ^ 13 := by decide +kernel
theorem num6 : 0 < qA1 0 ∧ 0 < qA1 0.85 ∧ 0 < qC1 (ra - 1.6) ∧ 0 < qC1 3.4 ∧ 15 ≤ qE 11 ∧ 1 ≤ qC 3.4 ∧ 1 ≤ qE 0 ∧ qC1 3.4 ≤ 2 ∧
    -(1 / 10 ^ 14) ≤ qC 3.4 - qE 0 ∧ qC 3.4 - qE 0 ≤ 1 / 10 ^ 14 ∧ 1 ≤ qC1 3.4 ∧ 1 ≤ qE1 0 := by decide +kernel

theorem abs_log_le {z e : ℝ} (he : 0 ≤ e) (he' : e ≤ 1 / 2) (h0 : 1 - e ≤ z) (h1 : z ≤ 1 + e) : |log z| ≤ 2 * e := by
  have hz : 0 < z := by linarith
  rw [abs_le]
  constructor
  · have := Real.one_sub_inv_le_log_of_pos hz
    have h2 : z⁻¹ ≤ 1 + 2 * e := by
      rw [inv_le_comm₀ hz (by linarith)]
      refine le_trans ?_ h0
      rw [inv_le_iff_one_le_mul₀ (by linarith)]
      nlinarith
    linarith
  · have := Real.log_le_sub_one_of_pos hz
    linarith

theorem close_sound {p q e : ℚ} (h : close p q e = true) (he : 0 ≤ e) (he' : e ≤ 1 / 2) : (0 : ℝ) < q ∧ (0 : ℝ) < p ∧ |log ((p : ℝ) / q)| ≤ 2 * e := by
  simp only [close, Bool.and_eq_true, decide_eq_true_eq] at h
  obtain ⟨⟨h1, h2⟩, h3⟩ := h
  have hq : (0 : ℝ) < q := by exact_mod_cast h1
  have h2' : (1 - (e : ℝ)) * q ≤ p := by exact_mod_cast h2
  have h3' : (p : ℝ) ≤ (1 + e) * q := by exact_mod_cast h3
  have he2 : (e : ℝ) ≤ 1 / 2 := by
    have : ((e : ℚ) : ℝ) ≤ ((1 / 2 : ℚ) : ℝ) := by exact_mod_cast he'
    simpa using this
  have he1 : (0 : ℝ) ≤ e := by exact_mod_cast he
  refine ⟨hq, lt_of_lt_of_le (by nlinarith) h2', abs_log_le he1 he2 ?_ ?_⟩
  · rwa [le_div_iff₀ hq]
  · rwa [div_le_iff₀ hq]

/-- Half of the logarithm of 0.15, nearly. -/
def halfLog : ℚ := -94855999244294 / 10 ^ 14

theorem halfLog_exp : 0.15 * (1 - 1 / 10 ^ 13) ≤ exp (halfLog : ℝ) ^ 2 ∧ exp (halfLog : ℝ) ^ 2 ≤ 0.15 * (1 + 1 / 10 ^ 13) := by
  have hb := Real.exp_bound (x := (halfLog : ℝ)) (by rw [abs_le]; unfold halfLog; norm_num) (n := 19) (by norm_num)
  have ha : |(halfLog : ℝ)| ≤ 1 := by rw [abs_le]; unfold halfLog; norm_num
  have ha2 : |(halfLog : ℝ)| ^ 19 * (((19 : ℕ).succ : ℝ) / (((19 : ℕ).factorial : ℝ) * ((19 : ℕ) : ℝ))) ≤ 1 / 10 ^ 16 := by
    calc _ ≤ 1 * (((19 : ℕ).succ : ℝ) / (((19 : ℕ).factorial : ℝ) * ((19 : ℕ) : ℝ))) := by gcongr; exact pow_le_one₀ (abs_nonneg _) ha
      _ ≤ _ := by norm_num [Nat.factorial]
  have hb := abs_le.mp (hb.trans ha2)
  have hS : ∑ m ∈ Finset.range 19, (halfLog : ℝ) ^ m / (m.factorial : ℝ) ∈ Icc (0.38729833462074168 - 1 / 10 ^ 15 : ℝ) (0.38729833462074168 + 1 / 10 ^ 15) := by
    unfold halfLog
    simp only [Finset.sum_range_succ, Finset.sum_range_zero, Nat.factorial]
    constructor <;> norm_num
  have h1 : 0.38729833462074168 - 2 / 10 ^ 15 ≤ exp (halfLog : ℝ) := by linarith [hS.1, hb.1]
  have h2 : exp (halfLog : ℝ) ≤ 0.38729833462074168 + 2 / 10 ^ 15 := by linarith [hS.2, hb.2]
  constructor
  · exact le_trans (by norm_num) (pow_le_pow_left₀ (by norm_num) h1 2)
  · exact (pow_le_pow_left₀ (exp_pos _).le h2 2).trans (by norm_num)

theorem logs : |((ln2 - ra ^ 2 : ℚ) : ℝ) - log 0.15| ≤ 1 / 10 ^ 12 := by
  have h := halfLog_exp
  have hl : |log (exp (halfLog : ℝ) ^ 2 / 0.15)| ≤ 2 * (1 / 10 ^ 13) := by
    refine abs_log_le (by norm_num) (by norm_num) ?_ ?_
    · rw [le_div_iff₀ (by norm_num)]; linarith [h.1]
    · rw [div_le_iff₀ (by norm_num)]; linarith [h.2]
  rw [log_div (by positivity) (by norm_num), log_pow, log_exp] at hl
  have hq : |(ln2 - ra ^ 2 : ℚ) - 2 * halfLog| ≤ 1 / 10 ^ 13 := by decide +kernel
  have hq' : |((ln2 - ra ^ 2 : ℚ) : ℝ) - 2 * halfLog| ≤ 1 / 10 ^ 13 := by
    have : ((|(ln2 - ra ^ 2 : ℚ) - 2 * halfLog| : ℚ) : ℝ) ≤ ((1 / 10 ^ 13 : ℚ) : ℝ) := Rat.cast_le.mpr hq
    push_cast at this ⊢
    simpa using this
  push_cast at hl
  have h1 := abs_le.mp hl
  have h2 := abs_le.mp hq'
  rw [abs_le]
  constructor <;> linarith [h1.1, h1.2, h2.1, h2.2]

/-! ### The ratio of the derivatives -/

theorem ratio_start : |logRatio yA yA1 (fun _ => 0) 0| ≤ 1 / 10 ^ 13 := by
  obtain ⟨hq, hp, hl⟩ := close_sound num1 (by norm_num) (by norm_num)
  have hv : yA1 0 = (qA1 0 : ℚ) := by have := yA1_cast 0; simpa using this
  have hv0 : (0 : ℝ) < (qA1 0 : ℚ) := by exact_mod_cast num6.1
  have hy : yA 0 = 0 := by simp [yA]
  have h1 : logRatio yA yA1 (fun _ => 0) 0 = 1 / 2 * log (((4 * qA1 0 ^ 2 : ℚ) : ℝ) / π) := by
    have : ((4 * qA1 0 ^ 2 : ℚ) : ℝ) / π = (2 / √π * (qA1 0 : ℚ)) ^ 2 := by
      rw [mul_pow, div_pow, Real.sq_sqrt pi_pos.le]; push_cast; ring
    rw [this, log_pow, log_mul two_div_sqrt_pi_pos.ne' hv0.ne', logRatio, hy, hv]
    push_cast; ring
  have hpi : |log (((3.14159265358979323846 : ℚ) : ℝ) / π)| ≤ 2 * (1 / 10 ^ 14) := by
    refine abs_log_le (by norm_num) (by norm_num) ?_ ?_
    · rw [le_div_iff₀ pi_pos]
      have := Real.pi_lt_d20
      push_cast; nlinarith
    · rw [div_le_iff₀ pi_pos]
      have := Real.pi_gt_d20
      push_cast; nlinarith
  have e : ((4 * qA1 0 ^ 2 : ℚ) : ℝ) / π = ((4 * qA1 0 ^ 2 : ℚ) : ℝ) / (3.14159265358979323846 : ℚ) * (((3.14159265358979323846 : ℚ) : ℝ) / π) := by
    field_simp
  rw [h1, e, log_mul (div_pos hp hq).ne' (div_pos hq pi_pos).ne']
  have a := abs_le.mp hl
  have b := abs_le.mp hpi
  push_cast at a b ⊢
  rw [abs_le]
  constructor <;> linarith [a.1, a.2, b.1, b.2]

theorem ratio_central {s : ℝ} (hs : s ∈ Icc (-0.85 : ℝ) 0.85) : |logRatio yA yA1 (fun _ => 0) s| ≤ 0.86 / 10 ^ 10 := by
  have h0 : (0 : ℝ) ∈ Icc (-0.85 : ℝ) 0.85 := ⟨by norm_num, by norm_num⟩
  have h1 := abs_le.mp (central_branch.lipschitz h0 hs)
  have h2 := abs_le.mp ratio_start
  have h3 : |s - 0| ≤ 0.85 := by rw [sub_zero]; exact abs_le.mpr ⟨hs.1, hs.2⟩
  rw [abs_le]
  constructor <;> linarith [h1.1, h1.2, h2.1, h2.2]

theorem ratio_middle {s : ℝ} (hs : s ∈ Icc (0.009 : ℝ) 3.4) : |logRatio yC yC1 (tailM 1.6) s| ≤ 0.95 / 10 ^ 10 := by
  obtain ⟨m, hm⟩ := middle_branch
  have hra : ((ra - 1.6 : ℚ) : ℝ) ∈ Icc (0.009 : ℝ) 3.4 := by unfold ra; push_cast; constructor <;> norm_num
  have h1 := abs_le.mp (hm.lipschitz hra hs)
  have h3 : |s - ((ra - 1.6 : ℚ) : ℝ)| ≤ 3.4 := by rw [abs_le]; constructor <;> linarith [hs.1, hs.2, hra.1, hra.2]
  obtain ⟨hq, hp, hl⟩ := close_sound num2 (by norm_num) (by norm_num)
  have hA0 : (0 : ℝ) < (qA1 0.85 : ℚ) := by exact_mod_cast num6.2.1
  have e85 : ((0.85 : ℚ) : ℝ) = 0.85 := by norm_num
  have hc := ratio_central (s := 0.85) ⟨by norm_num, by norm_num⟩
  have hra0 : (0 : ℝ) < ra := by unfold ra; norm_num
  have hlog := abs_le.mp logs
  have n3a : ((-(1 / 10 ^ 12) : ℚ) : ℝ) ≤ ((qA 0.85 ^ 2 - qC (ra - 1.6) ^ 2 : ℚ) : ℝ) := Rat.cast_le.mpr num3.1
  have n3b : ((qA 0.85 ^ 2 - qC (ra - 1.6) ^ 2 : ℚ) : ℝ) ≤ ((1 / 10 ^ 12 : ℚ) : ℝ) := Rat.cast_le.mpr num3.2
  have key : logRatio yC yC1 (tailM 1.6) ((ra - 1.6 : ℚ) : ℝ) = logRatio yA yA1 (fun _ => 0) 0.85 + (((qA 0.85 ^ 2 - qC (ra - 1.6) ^ 2 : ℚ) : ℝ)) +
      log (((qC1 (ra - 1.6) : ℚ) : ℝ) / ((qA1 0.85 * (2 * ra * 0.15) : ℚ) : ℝ)) - (((ln2 - ra ^ 2 : ℚ) : ℝ) - log 0.15) := by
    have hden : ((qA1 0.85 * (2 * ra * 0.15) : ℚ) : ℝ) = (qA1 0.85 : ℚ) * (2 * (ra : ℝ) * 0.15) := by push_cast; norm_num
    rw [log_div hp.ne' hq.ne', hden, log_mul hA0.ne' (by positivity), log_mul (by positivity) (by norm_num), log_mul (by norm_num) hra0.ne']
    unfold logRatio
    rw [yC_cast, yC1_cast, ← e85, yA_cast, yA1_cast, tailM]
    have : ((ra - 1.6 : ℚ) : ℝ) + 1.6 = ra := by push_cast; norm_num
    rw [this]
    push_cast
    ring
  have a := abs_le.mp hc
  have b := abs_le.mp hl
  rw [abs_le]
  push_cast at a b n3a n3b h1 h3 key hlog hl ⊢
  constructor <;> linarith [h1.1, h1.2, a.1, a.2, b.1, b.2, hlog.1, hlog.2]

theorem ratio_far {s : ℝ} (hs : s ∈ Icc (0 : ℝ) 11) : |logRatio yE yE1 (tailM 5) s| ≤ 1.1 / 10 ^ 10 := by
  obtain ⟨m, hm⟩ := far_branch
  have h0 : (0 : ℝ) ∈ Icc (0 : ℝ) 11 := ⟨le_refl _, by norm_num⟩
  have h1 := abs_le.mp (hm.lipschitz h0 hs)
  have h3 : |s - 0| ≤ 11 := by rw [abs_le]; constructor <;> linarith [hs.1, hs.2]
  obtain ⟨hq, hp, hl⟩ := close_sound num4 (by norm_num) (by norm_num)
  have e34 : ((3.4 : ℚ) : ℝ) = 3.4 := by norm_num
  have hc := ratio_middle (s := 3.4) ⟨by norm_num, by norm_num⟩
  have n3a : ((-(1 / 10 ^ 13) : ℚ) : ℝ) ≤ ((qC 3.4 ^ 2 - qE 0 ^ 2 : ℚ) : ℝ) := Rat.cast_le.mpr num5.1
  have n3b : ((qC 3.4 ^ 2 - qE 0 ^ 2 : ℚ) : ℝ) ≤ ((1 / 10 ^ 13 : ℚ) : ℝ) := Rat.cast_le.mpr num5.2
  have key : logRatio yE yE1 (tailM 5) 0 = logRatio yC yC1 (tailM 1.6) 3.4 + (((qC 3.4 ^ 2 - qE 0 ^ 2 : ℚ) : ℝ)) +
      log (((qE1 0 : ℚ) : ℝ) / ((qC1 3.4 : ℚ) : ℝ)) := by
    rw [log_div hp.ne' hq.ne']
    have z1 : yE 0 = (qE 0 : ℚ) := by simpa using yE_cast 0
    have z2 : yE1 0 = (qE1 0 : ℚ) := by simpa using yE1_cast 0
    unfold logRatio
    rw [z1, z2, ← e34, yC_cast, yC1_cast, tailM, tailM]
    have : ((3.4 : ℚ) : ℝ) + 1.6 = 0 + 5 := by norm_num
    rw [this]
    push_cast
    ring
  have a := abs_le.mp hc
  have b := abs_le.mp hl
  rw [abs_le]
  push_cast at a b n3a n3b h1 h3 key ⊢
  constructor <;> linarith [h1.1, h1.2, a.1, a.2, b.1, b.2]

end Erfinv
end Seldon
