import Verif.Spec.Double
import Mathlib.Data.Int.Log
import Mathlib.Algebra.Order.Round
import Mathlib.Tactic.Linarith
import Mathlib.Tactic.NormNum
import Mathlib.Tactic.Ring
import Mathlib.Tactic.Positivity
import Mathlib.Tactic.FieldSimp
/-!
# Lemmas about double precision arithmetic
-/
namespace Seldon.Spec

/-- A multiple of `2^e` with at most `2^53` steps is a double. -/
theorem isDouble_grid {m e : ℤ} (hm : |m| ≤ 2 ^ 53) (he : -1074 ≤ e) : IsDouble (m * (2 : ℝ) ^ e) := by
  rcases lt_or_eq_of_le hm with h | h
  · exact ⟨m, e, h, he, rfl⟩
  · have h2 : m = 2 ^ 53 ∨ m = -2 ^ 53 := by
      rcases abs_choice m with h' | h' <;> rw [h'] at h <;> omega
    have e1 : (2 : ℝ) ^ (e + 1) = 2 * 2 ^ e := by rw [zpow_add₀ (by norm_num)]; norm_num; ring
    rcases h2 with rfl | rfl
    · exact ⟨2 ^ 52, e + 1, by norm_num, by omega, by rw [e1]; push_cast; ring⟩
    · exact ⟨-2 ^ 52, e + 1, by norm_num, by omega, by rw [e1]; push_cast; ring⟩

theorem isDouble_nat {n : Nat} (h : n ≤ 2 ^ 53) : IsDouble n := by
  have := isDouble_grid (m := n) (e := 0) (by rw [abs_of_nonneg (by positivity)]; exact_mod_cast h) (by norm_num)
  simpa using this

theorem isDouble_pow {e : ℤ} (he : -1074 ≤ e) : IsDouble ((2 : ℝ) ^ e) := ⟨1, e, by norm_num, he, by simp⟩

/-- Multiples of the smallest double below `2^-1021` are doubles. -/
theorem IsDouble.multiple {x : ℝ} (h : IsDouble x) : ∃ m : ℤ, x = m * (2 : ℝ) ^ (-1074 : ℤ) := by
  obtain ⟨m, e, -, he, rfl⟩ := h
  obtain ⟨k, rfl⟩ : ∃ k : ℕ, e = -1074 + k := ⟨(e + 1074).toNat, by omega⟩
  refine ⟨m * 2 ^ k, ?_⟩
  rw [zpow_add₀ (by norm_num)]
  push_cast
  rw [zpow_natCast]
  ring

theorem isDouble_small {x : ℝ} (h : ∃ m : ℤ, x = m * (2 : ℝ) ^ (-1074 : ℤ)) (hx : |x| ≤ 2 ^ (-1021 : ℤ)) : IsDouble x := by
  obtain ⟨m, rfl⟩ := h
  refine isDouble_grid ?_ le_rfl
  rw [abs_mul, abs_of_pos (show (0 : ℝ) < 2 ^ (-1074 : ℤ) by positivity)] at hx
  have e1 : (2 : ℝ) ^ (-1021 : ℤ) = 2 ^ 53 * 2 ^ (-1074 : ℤ) := by rw [← zpow_natCast, ← zpow_add₀ (by norm_num)]; norm_num
  rw [e1] at hx
  have := le_of_mul_le_mul_right hx (by positivity)
  exact_mod_cast this

namespace Rounding
variable (R : Rounding)

theorem fix {x : ℝ} (h : IsDouble x) : R.round x = x := by
  have := R.nearest x x h
  rw [sub_self, abs_zero] at this
  exact sub_eq_zero.mp (abs_eq_zero.mp (le_antisymm this (abs_nonneg _)))

theorem mono {x y : ℝ} (h : x ≤ y) : R.round x ≤ R.round y := by
  rcases h.eq_or_lt with rfl | h
  · exact le_rfl
  by_contra hc
  rw [not_le] at hc
  have h1 := R.nearest x _ (R.double y)
  have h2 := R.nearest y _ (R.double x)
  rw [← sq_le_sq] at h1 h2
  nlinarith [mul_pos (sub_pos.mpr h) (sub_pos.mpr hc)]

theorem le_of_le {x y : ℝ} (hy : IsDouble y) (h : x ≤ y) : R.round x ≤ y := (R.mono h).trans_eq (R.fix hy)

theorem ge_of_ge {x y : ℝ} (hy : IsDouble y) (h : y ≤ x) : y ≤ R.round x := (R.fix hy).symm.le.trans (R.mono h)

theorem nonneg {x : ℝ} (h : 0 ≤ x) : 0 ≤ R.round x := R.ge_of_ge Dbl.isDouble_zero h

/-- Rounding on a grid: the error is at most half a step. -/
theorem error_grid {x : ℝ} {e : ℤ} (he : -1074 ≤ e) (hx : |x| ≤ 2 ^ 53 * 2 ^ e) : |R.round x - x| ≤ 2 ^ e / 2 := by
  have hp : (0 : ℝ) < 2 ^ e := by positivity
  have hr : |x / 2 ^ e - _root_.round (x / 2 ^ e)| ≤ 1 / 2 := abs_sub_round _
  have hq : |x / 2 ^ e| ≤ 2 ^ 53 := by rw [abs_div, abs_of_pos hp, div_le_iff₀ hp]; exact hx
  have hm : |_root_.round (x / (2 : ℝ) ^ e)| ≤ 2 ^ 53 := by
    have h1 : (|_root_.round (x / (2 : ℝ) ^ e)| : ℝ) ≤ 2 ^ 53 + 1 / 2 := by
      have := abs_sub_abs_le_abs_sub ((_root_.round (x / (2 : ℝ) ^ e) : ℤ) : ℝ) (x / 2 ^ e)
      rw [abs_sub_comm] at this
      linarith
    have h2 : ((|_root_.round (x / (2 : ℝ) ^ e)| : ℤ) : ℝ) < ((2 ^ 53 + 1 : ℤ) : ℝ) := by push_cast; linarith
    have := Int.cast_lt.mp h2
    omega
  refine (R.nearest x _ (isDouble_grid hm he)).trans ?_
  have e1 : ((_root_.round (x / (2 : ℝ) ^ e) : ℤ) : ℝ) * 2 ^ e - x = -((x / 2 ^ e - _root_.round (x / 2 ^ e)) * 2 ^ e) := by
    field_simp; ring
  rw [e1, abs_neg, abs_mul, abs_of_pos hp]
  have := mul_le_mul_of_nonneg_right hr hp.le
  linarith

/-- Relative error above the underflow threshold. -/
theorem error_rel {x : ℝ} (hx : 2 ^ (-1022 : ℤ) ≤ |x|) : |R.round x - x| ≤ 2 ^ (-53 : ℤ) * |x| := by
  have hpos : 0 < |x| := lt_of_lt_of_le (by positivity) hx
  have h1 := Int.zpow_log_le_self (b := 2) (by norm_num) hpos
  have h2 := Int.lt_zpow_succ_log_self (b := 2) (by norm_num) |x|
  push_cast at h1 h2
  have h3 : -1022 ≤ Int.log 2 |x| := by
    by_contra hc
    have : (2 : ℝ) ^ (Int.log 2 |x| + 1) ≤ 2 ^ (-1022 : ℤ) := zpow_le_zpow_right₀ (by norm_num) (by omega)
    linarith
  have h4 := R.error_grid (x := x) (e := Int.log 2 |x| - 52) (by omega) (by
    have : (2 : ℝ) ^ 53 * 2 ^ (Int.log 2 |x| - 52) = 2 ^ (Int.log 2 |x| + 1) := by
      rw [← zpow_natCast, ← zpow_add₀ (by norm_num)]; congr 1; push_cast; ring
    rw [this]; exact h2.le)
  refine h4.trans ?_
  have : (2 : ℝ) ^ (Int.log 2 |x| - 52) / 2 = 2 ^ (-53 : ℤ) * 2 ^ Int.log 2 |x| := by
    rw [← zpow_add₀ (by norm_num), div_eq_mul_inv, ← zpow_neg_one, ← zpow_add₀ (by norm_num)]; congr 1; ring
  rw [this]
  gcongr

/-- The error of any operation. -/
theorem error (x : ℝ) : |R.round x - x| ≤ 2 ^ (-53 : ℤ) * |x| + 2 ^ (-1075 : ℤ) := by
  by_cases h : 2 ^ (-1022 : ℤ) ≤ |x|
  · have := R.error_rel h
    have : (0 : ℝ) < 2 ^ (-1075 : ℤ) := by positivity
    linarith
  · have h1 := R.error_grid (x := x) (e := -1074) le_rfl (by
      refine (not_le.mp h).le.trans ?_
      rw [← zpow_natCast, ← zpow_add₀ (by norm_num)]
      exact zpow_le_zpow_right₀ (by norm_num) (by norm_num))
    have h2 : (2 : ℝ) ^ (-1074 : ℤ) / 2 = 2 ^ (-1075 : ℤ) := by
      rw [div_eq_mul_inv, ← zpow_neg_one, ← zpow_add₀ (by norm_num)]; norm_num
    rw [h2] at h1
    have : 0 ≤ (2 : ℝ) ^ (-53 : ℤ) * |x| := by positivity
    linarith

/-- Sums of two doubles never suffer from underflow. -/
theorem error_add {a b : ℝ} (ha : IsDouble a) (hb : IsDouble b) : |R.round (a + b) - (a + b)| ≤ 2 ^ (-53 : ℤ) * |a + b| := by
  by_cases h : 2 ^ (-1022 : ℤ) ≤ |a + b|
  · exact R.error_rel h
  · have : IsDouble (a + b) := by
      obtain ⟨m, hm⟩ := ha.multiple
      obtain ⟨k, hk⟩ := hb.multiple
      refine isDouble_small ⟨m + k, by rw [hm, hk]; push_cast; ring⟩ ((not_le.mp h).le.trans ?_)
      exact zpow_le_zpow_right₀ (by norm_num) (by norm_num)
    rw [R.fix this, sub_self, abs_zero]
    positivity

theorem error_sub {a b : ℝ} (ha : IsDouble a) (hb : IsDouble b) : |R.round (a - b) - (a - b)| ≤ 2 ^ (-53 : ℤ) * |a - b| := by
  rw [sub_eq_add_neg a b]
  exact R.error_add ha (Dbl.isDouble_neg hb)

/-- Absolute error in the unit interval. -/
theorem error_unit {x : ℝ} (hx : |x| ≤ 1) : |R.round x - x| ≤ 2 ^ (-54 : ℤ) := by
  have := R.error_grid (x := x) (e := -53) (by norm_num) (by
    refine hx.trans ?_
    rw [← zpow_natCast, ← zpow_add₀ (by norm_num)]; norm_num)
  refine this.trans (le_of_eq ?_)
  rw [div_eq_mul_inv, ← zpow_neg_one, ← zpow_add₀ (by norm_num)]; norm_num

end Rounding

/-- Any number has a nearest double. -/
theorem exists_nearest (x : ℝ) : ∃ z, IsDouble z ∧ ∀ y, IsDouble y → |z - x| ≤ |y - x| := by
  -- the exponent of the grid around `x`
  obtain ⟨e, he, hu, hl⟩ : ∃ e : ℤ, -1074 ≤ e ∧ |x| ≤ 2 ^ 53 * 2 ^ e ∧ (e = -1074 ∨ 2 ^ 52 * 2 ^ e ≤ |x|) := by
    by_cases h : 2 ^ (-1022 : ℤ) ≤ |x|
    · have hpos : 0 < |x| := lt_of_lt_of_le (by positivity) h
      have h1 := Int.zpow_log_le_self (b := 2) (by norm_num) hpos
      have h2 := Int.lt_zpow_succ_log_self (b := 2) (by norm_num) |x|
      push_cast at h1 h2
      have h3 : -1022 ≤ Int.log 2 |x| := by
        by_contra hc
        have : (2 : ℝ) ^ (Int.log 2 |x| + 1) ≤ 2 ^ (-1022 : ℤ) := zpow_le_zpow_right₀ (by norm_num) (by omega)
        linarith
      refine ⟨Int.log 2 |x| - 52, by omega, ?_, Or.inr ?_⟩
      · have : (2 : ℝ) ^ 53 * 2 ^ (Int.log 2 |x| - 52) = 2 ^ (Int.log 2 |x| + 1) := by
          rw [← zpow_natCast, ← zpow_add₀ (by norm_num)]; congr 1; push_cast; ring
        rw [this]; exact h2.le
      · have : (2 : ℝ) ^ 52 * 2 ^ (Int.log 2 |x| - 52) = 2 ^ (Int.log 2 |x|) := by
          rw [← zpow_natCast, ← zpow_add₀ (by norm_num)]; congr 1; push_cast; ring
        rw [this]; exact h1
    · refine ⟨-1074, le_rfl, ?_, Or.inl rfl⟩
      refine (not_le.mp h).le.trans ?_
      rw [← zpow_natCast, ← zpow_add₀ (by norm_num)]
      exact zpow_le_zpow_right₀ (by norm_num) (by norm_num)
  have hp : (0 : ℝ) < 2 ^ e := by positivity
  have hq : |x / 2 ^ e| ≤ 2 ^ 53 := by rw [abs_div, abs_of_pos hp, div_le_iff₀ hp]; exact hu
  have hm : |round (x / (2 : ℝ) ^ e)| ≤ 2 ^ 53 := by
    have h1 : (|round (x / (2 : ℝ) ^ e)| : ℝ) ≤ 2 ^ 53 + 1 / 2 := by
      have := abs_sub_abs_le_abs_sub ((round (x / (2 : ℝ) ^ e) : ℤ) : ℝ) (x / 2 ^ e)
      rw [abs_sub_comm] at this
      have := abs_sub_round (x / (2 : ℝ) ^ e)
      linarith
    have h2 : ((|round (x / (2 : ℝ) ^ e)| : ℤ) : ℝ) < ((2 ^ 53 + 1 : ℤ) : ℝ) := by push_cast; linarith
    have := Int.cast_lt.mp h2
    omega
  have key : ∀ k : ℤ, |(round (x / (2 : ℝ) ^ e) : ℝ) * 2 ^ e - x| ≤ |(k : ℝ) * 2 ^ e - x| := by
    intro k
    have h := round_le (x / (2 : ℝ) ^ e) k
    have e1 : ∀ z : ℝ, z * 2 ^ e - x = -((x / 2 ^ e - z) * 2 ^ e) := by intro z; field_simp; ring
    rw [e1, e1, abs_neg, abs_neg, abs_mul, abs_mul]
    gcongr
  refine ⟨_, isDouble_grid hm he, ?_⟩
  rintro y ⟨k, f, hk, hf, rfl⟩
  rcases le_or_gt e f with hef | hef
  · obtain ⟨d, rfl⟩ : ∃ d : ℕ, f = e + d := ⟨(f - e).toNat, by omega⟩
    have := key (k * 2 ^ d)
    rw [zpow_add₀ (by norm_num)]
    push_cast at this
    rw [zpow_natCast, mul_comm ((2 : ℝ) ^ e), ← mul_assoc]
    exact this
  · -- a finer grid only has numbers closer to zero
    rcases hl with hl | hl
    · omega
    have hy : |(k : ℝ) * 2 ^ f| ≤ 2 ^ 52 * 2 ^ e := by
      rw [abs_mul, abs_of_pos (show (0 : ℝ) < 2 ^ f by positivity)]
      have h1 : (|k| : ℝ) ≤ 2 ^ 53 := by exact_mod_cast hk.le
      have h2 : (2 : ℝ) ^ f ≤ 2 ^ (e - 1) := zpow_le_zpow_right₀ (by norm_num) (by omega)
      calc (|k| : ℝ) * 2 ^ f ≤ 2 ^ 53 * 2 ^ (e - 1) := by gcongr
        _ = 2 ^ 52 * 2 ^ e := by rw [zpow_sub_one₀ (by norm_num)]; norm_num; ring
    rcases le_total 0 x with hx | hx
    · rw [abs_of_nonneg hx] at hl
      refine (key (2 ^ 52)).trans ?_
      push_cast
      have := (abs_le.mp hy).2
      rw [abs_of_nonpos (by linarith), abs_of_nonpos (by linarith)]
      linarith
    · rw [abs_of_nonpos hx] at hl
      refine (key (-2 ^ 52)).trans ?_
      push_cast
      have := (abs_le.mp hy).1
      rw [abs_of_nonneg (by linarith), abs_of_nonneg (by linarith)]
      linarith

/-- Rounding modes exist. -/
noncomputable def Rounding.some : Rounding where
  round x := (exists_nearest x).choose
  double x := (exists_nearest x).choose_spec.1
  nearest x := (exists_nearest x).choose_spec.2

end Seldon.Spec
