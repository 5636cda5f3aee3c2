import Verif.Spec.Ieee
import Verif.Lemmas.Double
/-!
# Lemmas about IEEE 754 doubles: operations that do not overflow
-/
namespace Seldon.Spec.Ieee
variable {R : Rounding}

/-- half a unit in the last place of 1 -/
noncomputable def ulp : ℝ := 2 ^ (-53 : ℤ)

theorem ulp_pos : 0 < ulp := by unfold ulp; positivity

theorem tiny_le : (2 : ℝ) ^ (-1075 : ℤ) ≤ ulp := by unfold ulp; exact zpow_le_zpow_right₀ (by norm_num) (by norm_num)

theorem round_abs_le (R : Rounding) {z b : ℝ} (hb : IsDouble b) (h : |z| ≤ b) : |R.round z| ≤ b := by
  obtain ⟨h1, h2⟩ := abs_le.mp h
  exact abs_le.mpr ⟨R.ge_of_ge (Dbl.isDouble_neg hb) h1, R.le_of_le hb h2⟩

theorem ofReal_fin (R : Rounding) {z : ℝ} (h : |z| ≤ 2 ^ 1020) : ofReal R z = fin (Dbl.ofReal R z) := by
  unfold ofReal
  rw [if_pos]
  have hb : IsDouble ((2 : ℝ) ^ 1020) := by
    have := isDouble_pow (e := 1020) (by norm_num)
    rw [← zpow_natCast]; exact_mod_cast this
  refine (round_abs_le R hb h).trans_lt ?_
  exact pow_lt_pow_right₀ (by norm_num) (by norm_num)

theorem add_fin {x y : Dbl R} (h : |x.val + y.val| ≤ 2 ^ 1020) :
    ∃ z : Dbl R, (fin x + fin y : Ieee R) = fin z ∧ |z.val - (x.val + y.val)| ≤ ulp * |x.val + y.val| :=
  ⟨_, ofReal_fin R h, R.error_add x.isDouble y.isDouble⟩

theorem mul_fin {x y : Dbl R} (h : |x.val * y.val| ≤ 2 ^ 1020) :
    ∃ z : Dbl R, (fin x * fin y : Ieee R) = fin z ∧ |z.val - x.val * y.val| ≤ ulp * |x.val * y.val| + 2 ^ (-1075 : ℤ) :=
  ⟨_, ofReal_fin R h, R.error _⟩

/-- multiplication by a number of size at most 1 -/
theorem mul_le {x y : Dbl R} (h : |x.val| ≤ 2 ^ 1020) (hy : |y.val| ≤ 1) :
    ∃ z : Dbl R, (fin x * fin y : Ieee R) = fin z ∧ |z.val| ≤ |x.val| := by
  have h1 : |x.val * y.val| ≤ |x.val| := by
    rw [abs_mul]; exact mul_le_of_le_one_right (abs_nonneg _) hy
  refine ⟨_, ofReal_fin R (h1.trans h), round_abs_le R ?_ h1⟩
  rcases abs_choice x.val with e | e <;> rw [e]
  · exact x.isDouble
  · exact Dbl.isDouble_neg x.isDouble

theorem mul_one_fin {x : Dbl R} (h : |x.val| ≤ 2 ^ 1020) : (fin x * 1 : Ieee R) = fin x := by
  change ofReal R (x.val * 1) = _
  rw [mul_one, ofReal_fin R h]
  congr 1
  exact Dbl.ext' (R.fix x.isDouble)

theorem div_fin {x y : Dbl R} (hy : y.val ≠ 0) (h : |x.val / y.val| ≤ 2 ^ 1020) :
    ∃ z : Dbl R, (fin x / fin y : Ieee R) = fin z ∧ |z.val - x.val / y.val| ≤ ulp * |x.val / y.val| + 2 ^ (-1075 : ℤ) := by
  refine ⟨Dbl.ofReal R (x.val / y.val), ?_, R.error _⟩
  change (if y.val = 0 then signed x.val else ofReal R (x.val / y.val)) = _
  rw [if_neg hy, ofReal_fin R h]

theorem natCast_fin {n : Nat} (h : n ≤ 2 ^ 53) : ∃ z : Dbl R, (n : Ieee R) = fin z ∧ z.val = n := by
  refine ⟨_, ofReal_fin R ?_, R.fix (isDouble_nat h)⟩
  rw [abs_of_nonneg (by positivity)]
  have : (n : ℝ) ≤ 2 ^ 53 := by exact_mod_cast h
  refine this.trans (pow_le_pow_right₀ (by norm_num) (by norm_num))

theorem neg_fin (x : Dbl R) : (-fin x : Ieee R) = fin (-x) := rfl
theorem neg_val (x : Dbl R) : (-x).val = -x.val := rfl
theorem one_def : (1 : Ieee R) = fin 1 := rfl
theorem one_val : (1 : Dbl R).val = 1 := rfl

end Seldon.Spec.Ieee
