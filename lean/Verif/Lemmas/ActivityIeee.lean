import Verif.Lemmas.Ieee
import Verif.Lemmas.Integration
/-!
# Lemmas: the Runge-Kutta step of the activity-driven model in double precision
-/
set_option linter.unusedSectionVars false
namespace Seldon
open Spec Ieee
variable {A : Type} {R : Rounding}

namespace Spec.Ieee

theorem ulp_le : ulp ≤ 1 / 2 ^ 53 := by unfold ulp; norm_num

/-- rounding in a range given by a multiple of `M ≥ 1` -/
theorem err_le {z w M c : ℝ} (hM : 1 ≤ M) (hz : |z| ≤ c * M) (h : |w - z| ≤ ulp * |z| + 2 ^ (-1075 : ℤ)) :
    |w - z| ≤ (c + 1) * (ulp * M) := by
  have h1 : ulp * |z| ≤ ulp * (c * M) := mul_le_mul_of_nonneg_left hz ulp_pos.le
  have h2 : ulp * 1 ≤ ulp * M := mul_le_mul_of_nonneg_left hM ulp_pos.le
  have := tiny_le
  nlinarith

theorem err_le' {z w M c : ℝ} (hz : |z| ≤ c * M) (h : |w - z| ≤ ulp * |z|) : |w - z| ≤ c * (ulp * M) := by
  have h1 : ulp * |z| ≤ ulp * (c * M) := mul_le_mul_of_nonneg_left hz ulp_pos.le
  nlinarith

theorem big {M c : ℝ} (hM : M ≤ 2 ^ 1000) (hc : c ≤ 2 ^ 20) (h0 : 0 ≤ M) : c * M ≤ 2 ^ 1020 := by
  have e : (2 : ℝ) ^ 1020 = 2 ^ 20 * 2 ^ 1000 := by rw [← pow_add]
  rw [e]
  exact mul_le_mul hc hM h0 (by positivity)

/-- the argument of the later stages -/
theorem shift_fin {x k c : Dbl R} {h M : ℝ} (hM : 1 ≤ M) (hM' : M ≤ 2 ^ 1000) (hx : |x.val| ≤ M) (hk : |k.val| ≤ 8 * M) (h0 : 0 ≤ h) (h1 : h ≤ 1)
    (hc : |c.val - h| ≤ 3 * ulp) :
    ∃ y : Dbl R, (fin x + fin c * fin k : Ieee R) = fin y ∧ |y.val - (x.val + h * k.val)| ≤ 60 * (ulp * M) := by
  have hu := ulp_pos
  have hu' := ulp_le
  have hv : ulp * M ≤ 1 / 2 ^ 53 * M := mul_le_mul_of_nonneg_right hu' (by linarith)
  have hv0 : 0 < ulp * M := mul_pos hu (by linarith)
  have e1 : |c.val * k.val - h * k.val| ≤ 24 * (ulp * M) := by
    rw [← sub_mul, abs_mul]
    calc |c.val - h| * |k.val| ≤ 3 * ulp * (8 * M) := mul_le_mul hc hk (abs_nonneg _) (by linarith)
      _ = _ := by ring
  have e2 : |h * k.val| ≤ 8 * M := by
    rw [abs_mul, abs_of_nonneg h0]
    calc h * |k.val| ≤ 1 * (8 * M) := mul_le_mul h1 hk (abs_nonneg _) (by norm_num)
      _ = _ := one_mul _
  have e3 : |c.val * k.val| ≤ 9 * M := by
    have := abs_add_le (c.val * k.val - h * k.val) (h * k.val)
    rw [sub_add_cancel] at this
    linarith
  obtain ⟨z, hz, ez⟩ := mul_fin (R := R) (x := c) (y := k) (e3.trans (big hM' (by norm_num) (by linarith)))
  have ez' := err_le hM e3 ez
  have e4 : |x.val + z.val| ≤ 11 * M := by
    have a1 := abs_add_le x.val z.val
    have a2 := abs_add_le (z.val - c.val * k.val) (c.val * k.val)
    rw [sub_add_cancel] at a2
    linarith
  obtain ⟨y, hy, ey⟩ := add_fin (R := R) (x := x) (y := z) (e4.trans (big hM' (by norm_num) (by linarith)))
  refine ⟨y, by rw [hz, hy], ?_⟩
  have ey' := err_le' e4 ey
  obtain ⟨p1, p2⟩ := abs_le.mp ey'
  obtain ⟨q1, q2⟩ := abs_le.mp ez'
  obtain ⟨r1, r2⟩ := abs_le.mp e1
  rw [abs_le]
  constructor <;> linarith

/-- the combination of the four stages -/
theorem combine_fin {x h k1 k2 k3 k4 : Dbl R} {M : ℝ} (hM : 1 ≤ M) (hM' : M ≤ 2 ^ 1000) (hx : |x.val| ≤ M) (h1 : |k1.val| ≤ 8 * M)
    (h2 : |k2.val| ≤ 8 * M) (h3 : |k3.val| ≤ 8 * M) (h4 : |k4.val| ≤ 8 * M) (hh0 : 0 ≤ h.val) (hh1 : h.val ≤ 1) :
    ∃ y : Dbl R, (fin x + fin h * (fin k1 + ((2 : Nat) : Ieee R) * fin k2 + ((2 : Nat) : Ieee R) * fin k3 + fin k4) / ((6 : Nat) : Ieee R) : Ieee R) = fin y ∧
      |y.val - (x.val + h.val / 6 * (k1.val + 2 * k2.val + 2 * k3.val + k4.val))| ≤ 400 * (ulp * M) := by
  have hu := ulp_pos
  have hu' := ulp_le
  have hv : ulp * M ≤ 1 / 2 ^ 53 * M := mul_le_mul_of_nonneg_right hu' (by linarith)
  have hv0 : 0 < ulp * M := mul_pos hu (by linarith)
  have hM0 : 0 ≤ M := by linarith
  obtain ⟨two, t1, t2⟩ := natCast_fin (R := R) (n := 2) (by norm_num)
  obtain ⟨six, s1, s2⟩ := natCast_fin (R := R) (n := 6) (by norm_num)
  push_cast at t2 s2
  obtain ⟨a1, a2⟩ := abs_le.mp h1
  obtain ⟨b1, b2⟩ := abs_le.mp h2
  obtain ⟨c1, c2⟩ := abs_le.mp h3
  obtain ⟨d1, d2⟩ := abs_le.mp h4
  obtain ⟨x1, x2⟩ := abs_le.mp hx
  have m2 : |two.val * k2.val| ≤ 16 * M := by rw [t2, abs_le]; constructor <;> linarith
  have m3 : |two.val * k3.val| ≤ 16 * M := by rw [t2, abs_le]; constructor <;> linarith
  obtain ⟨z2, hz2, ez2⟩ := mul_fin (R := R) (m2.trans (big hM' (by norm_num) hM0))
  obtain ⟨z3, hz3, ez3⟩ := mul_fin (R := R) (m3.trans (big hM' (by norm_num) hM0))
  obtain ⟨p1, p2⟩ := abs_le.mp (err_le hM m2 ez2)
  obtain ⟨q1, q2⟩ := abs_le.mp (err_le hM m3 ez3)
  rw [t2] at p1 p2 q1 q2
  have m4 : |k1.val + z2.val| ≤ 25 * M := by rw [abs_le]; constructor <;> linarith
  obtain ⟨z4, hz4, ez4⟩ := add_fin (R := R) (m4.trans (big hM' (by norm_num) hM0))
  obtain ⟨r1, r2⟩ := abs_le.mp (err_le' m4 ez4)
  have m5 : |z4.val + z3.val| ≤ 42 * M := by rw [abs_le]; constructor <;> linarith
  obtain ⟨z5, hz5, ez5⟩ := add_fin (R := R) (m5.trans (big hM' (by norm_num) hM0))
  obtain ⟨u1, u2⟩ := abs_le.mp (err_le' m5 ez5)
  have m6 : |z5.val + k4.val| ≤ 51 * M := by rw [abs_le]; constructor <;> linarith
  obtain ⟨S, hS, eS⟩ := add_fin (R := R) (m6.trans (big hM' (by norm_num) hM0))
  obtain ⟨v1, v2⟩ := abs_le.mp (err_le' m6 eS)
  have w : |S.val - (k1.val + 2 * k2.val + 2 * k3.val + k4.val)| ≤ 160 * (ulp * M) := by rw [abs_le]; constructor <;> linarith
  have wS : |S.val| ≤ 52 * M := by rw [abs_le]; constructor <;> linarith
  have wh : |h.val * S.val - h.val * (k1.val + 2 * k2.val + 2 * k3.val + k4.val)| ≤ 160 * (ulp * M) := by
    rw [← mul_sub, abs_mul, abs_of_nonneg hh0]
    calc _ ≤ 1 * (160 * (ulp * M)) := mul_le_mul hh1 w (abs_nonneg _) (by norm_num)
      _ = _ := one_mul _
  have m7 : |h.val * S.val| ≤ 52 * M := by
    rw [abs_mul, abs_of_nonneg hh0]
    calc _ ≤ 1 * (52 * M) := mul_le_mul hh1 wS (abs_nonneg _) (by norm_num)
      _ = _ := one_mul _
  obtain ⟨T, hT, eT⟩ := mul_fin (R := R) (m7.trans (big hM' (by norm_num) hM0))
  obtain ⟨f1, f2⟩ := abs_le.mp (err_le hM m7 eT)
  obtain ⟨g1, g2⟩ := abs_le.mp m7
  obtain ⟨i1, i2⟩ := abs_le.mp wh
  have m8 : |T.val / six.val| ≤ 9 * M := by
    rw [s2, abs_le]; constructor <;> linarith
  obtain ⟨V, hV, eV⟩ := div_fin (R := R) (by rw [s2]; norm_num) (m8.trans (big hM' (by norm_num) hM0))
  obtain ⟨j1, j2⟩ := abs_le.mp (err_le hM m8 eV)
  rw [s2] at j1 j2 m8
  obtain ⟨l1, l2⟩ := abs_le.mp m8
  have m9 : |x.val + V.val| ≤ 11 * M := by rw [abs_le]; constructor <;> linarith
  obtain ⟨y, hy, ey⟩ := add_fin (R := R) (m9.trans (big hM' (by norm_num) hM0))
  obtain ⟨n1, n2⟩ := abs_le.mp (err_le' m9 ey)
  refine ⟨y, by rw [t1, s1, hz2, hz3, hz4, hz5, hS, hT, hV, hy], ?_⟩
  rw [abs_le]
  generalize hE : h.val * (k1.val + 2 * k2.val + 2 * k3.val + k4.val) = E at *
  have e : h.val / 6 * (k1.val + 2 * k2.val + 2 * k3.val + k4.val) = E / 6 := by rw [← hE]; ring
  rw [e]
  constructor <;> linarith

/-- half a step -/
theorem half_fin {h : Dbl R} (h0 : 0 ≤ h.val) (h1 : h.val ≤ 1) :
    ∃ c : Dbl R, (1 / ((2 : Nat) : Ieee R) * fin h : Ieee R) = fin c ∧ |c.val - h.val / 2| ≤ 3 * ulp := by
  have hu := ulp_pos
  have hu' := ulp_le
  have ht := tiny_le
  have hb : (1 : ℝ) ≤ 2 ^ 1020 := one_le_pow₀ (by norm_num)
  obtain ⟨two, t1, t2⟩ := natCast_fin (R := R) (n := 2) (by norm_num)
  push_cast at t2
  obtain ⟨z, hz, ez⟩ := div_fin (R := R) (x := 1) (y := two) (by rw [t2]; norm_num) (by
    rw [t2, one_val]; refine le_trans ?_ hb; rw [abs_of_nonneg (by norm_num)]; norm_num)
  rw [t2, one_val, abs_of_nonneg (show (0 : ℝ) ≤ 1 / 2 by norm_num)] at ez
  obtain ⟨z1, z2⟩ := abs_le.mp ez
  have zb : |z.val| ≤ 1 := by rw [abs_le]; constructor <;> linarith
  have m : |z.val * h.val| ≤ 1 := by
    rw [abs_mul, abs_of_nonneg h0]
    calc _ ≤ 1 * 1 := mul_le_mul zb h1 h0 (by norm_num)
      _ = 1 := by norm_num
  obtain ⟨c, hc, ec⟩ := mul_fin (R := R) (x := z) (y := h) (m.trans hb)
  refine ⟨c, by rw [one_def, t1, hz, hc], ?_⟩
  have e1 : |(z.val - 1 / 2) * h.val| ≤ 3 / 2 * ulp := by
    rw [abs_mul, abs_of_nonneg h0]
    calc _ ≤ (3 / 2 * ulp) * 1 := mul_le_mul (by linarith) h1 h0 (by positivity)
      _ = _ := mul_one _
  have e2 : ulp * |z.val * h.val| ≤ ulp * (3 / 4) := by
    apply mul_le_mul_of_nonneg_left _ hu.le
    rw [abs_mul, abs_of_nonneg h0]
    calc _ ≤ (3 / 4) * 1 := mul_le_mul (by rw [abs_le]; constructor <;> linarith) h1 h0 (by norm_num)
      _ = _ := mul_one _
  have ht' : (2 : ℝ) ^ (-1075 : ℤ) ≤ ulp / 4 := by
    unfold ulp
    have : (2 : ℝ) ^ (-53 : ℤ) / 4 = 2 ^ (-55 : ℤ) := by norm_num
    rw [this]
    exact zpow_le_zpow_right₀ (by norm_num) (by norm_num)
  obtain ⟨p1, p2⟩ := abs_le.mp ec
  obtain ⟨q1, q2⟩ := abs_le.mp e1
  rw [abs_le]
  constructor <;> nlinarith

/-- the factor in front of the sum over the neighbours -/
theorem factor_fin' {m K : Dbl R} {M : ℝ} {n : Nat} (hM : 1 ≤ M) (hM' : M ≤ 2 ^ 1000) (hn : n ≤ 2 ^ 40) (hn0 : 0 < n)
    (hm : 2 ^ (-1000 : ℤ) ≤ m.val) (hm' : m.val ≤ 2 ^ 1000) (hK : 3 / 2 * |K.val| * n ≤ M * m.val) :
    ∃ q : Dbl R, (1 / fin m * fin K : Ieee R) = fin q ∧ n * |q.val| ≤ 68 / 100 * M := by
  have hu := ulp_pos
  have hu' := ulp_le
  have mpos : 0 < m.val := lt_of_lt_of_le (by positivity) hm
  have hn1 : (1 : ℝ) ≤ n := by exact_mod_cast hn0
  have hn2 : (n : ℝ) ≤ 2 ^ 40 := by exact_mod_cast hn
  have i1 : 0 < 1 / m.val := by positivity
  have i2 : 1 / m.val ≤ 2 ^ 1000 := by
    rw [div_le_iff₀ mpos]
    have e : (2 : ℝ) ^ 1000 * 2 ^ (-1000 : ℤ) = 1 := by
      rw [← zpow_natCast, ← zpow_add₀ (by norm_num)]; norm_num
    rw [← e]
    exact mul_le_mul_of_nonneg_left hm (by positivity)
  have i3 : 2 ^ (-1000 : ℤ) ≤ 1 / m.val := by
    rw [le_div_iff₀ mpos]
    have e : (2 : ℝ) ^ (-1000 : ℤ) * 2 ^ 1000 = 1 := by
      rw [← zpow_natCast, ← zpow_add₀ (by norm_num)]; norm_num
    rw [← e]
    exact mul_le_mul_of_nonneg_left hm' (by positivity)
  have hdiv : (1 / fin m : Ieee R) = fin (Dbl.ofReal R (1 / m.val)) := by
    change (if m.val = 0 then signed (1 : Dbl R).val else ofReal R ((1 : Dbl R).val / m.val)) = _
    rw [if_neg mpos.ne', one_val, ofReal_fin R]
    rw [abs_of_pos i1]
    exact i2.trans (pow_le_pow_right₀ (by norm_num) (by norm_num))
  have er : |R.round (1 / m.val) - 1 / m.val| ≤ ulp * |1 / m.val| := R.error_rel (by
    rw [abs_of_pos i1]
    exact (zpow_le_zpow_right₀ (by norm_num) (by norm_num)).trans i3)
  rw [abs_of_pos i1] at er
  set r : Dbl R := Dbl.ofReal R (1 / m.val) with hr
  have rv : r.val = R.round (1 / m.val) := rfl
  rw [← rv] at er
  have hr' : |r.val| ≤ (1 + ulp) * (1 / m.val) := by
    have := abs_add_le (r.val - 1 / m.val) (1 / m.val)
    rw [sub_add_cancel, abs_of_pos i1] at this
    linarith
  -- `n |r K|`
  have b1 : n * |r.val * K.val| ≤ (1 + ulp) * (2 / 3 * M) := by
    rw [abs_mul]
    have k1 : |K.val| * n * (1 / m.val) ≤ 2 / 3 * M := by
      rw [mul_one_div, div_le_iff₀ mpos]; linarith
    calc n * (|r.val| * |K.val|) ≤ n * ((1 + ulp) * (1 / m.val) * |K.val|) := by gcongr
      _ = (1 + ulp) * (|K.val| * n * (1 / m.val)) := by ring
      _ ≤ _ := by
        apply mul_le_mul_of_nonneg_left k1; linarith
  have hv : ulp * M ≤ 1 / 2 ^ 53 * M := mul_le_mul_of_nonneg_right hu' (by linarith)
  have b2 : |r.val * K.val| ≤ 1 * M := by
    have : 1 * |r.val * K.val| ≤ n * |r.val * K.val| := mul_le_mul_of_nonneg_right hn1 (abs_nonneg _)
    nlinarith
  obtain ⟨q, hq, eq⟩ := mul_fin (R := R) (x := r) (y := K) (b2.trans (big hM' (by norm_num) (by linarith)))
  refine ⟨q, by rw [hdiv, hq], ?_⟩
  have h1 : |q.val| ≤ (1 + ulp) * |r.val * K.val| + 2 ^ (-1075 : ℤ) := by
    have := abs_add_le (q.val - r.val * K.val) (r.val * K.val)
    rw [sub_add_cancel] at this
    linarith
  have ht : (n : ℝ) * 2 ^ (-1075 : ℤ) ≤ 1 / 1000 := by
    calc (n : ℝ) * 2 ^ (-1075 : ℤ) ≤ 2 ^ 40 * 2 ^ (-53 : ℤ) :=
          mul_le_mul hn2 (zpow_le_zpow_right₀ (by norm_num) (by norm_num)) (by positivity) (by positivity)
      _ ≤ _ := by norm_num
  calc (n : ℝ) * |q.val| ≤ n * ((1 + ulp) * |r.val * K.val| + 2 ^ (-1075 : ℤ)) := by gcongr
    _ = (1 + ulp) * (n * |r.val * K.val|) + n * 2 ^ (-1075 : ℤ) := by ring
    _ ≤ (1 + ulp) * ((1 + ulp) * (2 / 3 * M)) + 1 / 1000 := by gcongr
    _ ≤ 68 / 100 * M := by
      have : ulp * (ulp * M) ≤ 1 * (ulp * M) := by
        apply mul_le_mul_of_nonneg_right _ (by positivity)
        refine hu'.trans (by norm_num)
      nlinarith

theorem factor_fin {m K : Dbl R} {M : ℝ} {n : Nat} (hM : 1 ≤ M) (hM' : M ≤ 2 ^ 1000) (hn : n ≤ 2 ^ 40) (hn0 : 0 < n)
    (hm : 2 ^ (-1000 : ℤ) ≤ m.val) (hm' : m.val ≤ 2 ^ 1000) (hK : 3 / 2 * |K.val| * n ≤ M * m.val) :
    ∃ q : Dbl R, (1 / fin m * fin K : Ieee R) = fin q ∧ n * |q.val| ≤ 7 / 10 * M := by
  obtain ⟨q, h1, h2⟩ := factor_fin' hM hM' hn hn0 hm hm' hK
  exact ⟨q, h1, by linarith⟩

/-- the factor times a weight -/
theorem weighted_fin {q w : Dbl R} {M W : ℝ} {n : Nat} (hM : 1 ≤ M) (hM' : M ≤ 2 ^ 1000) (hn : n ≤ 2 ^ 40) (hn0 : 0 < n) (hW : 1 ≤ W)
    (hq : n * |q.val| ≤ 68 / 100 * (M / W)) (hw : |w.val| ≤ W) :
    ∃ z : Dbl R, (fin q * fin w : Ieee R) = fin z ∧ |z.val| ≤ (1 + ulp) * (|q.val| * W) + 2 ^ (-1075 : ℤ) ∧
      n * ((1 + ulp) * (|q.val| * W) + 2 ^ (-1075 : ℤ)) ≤ 7 / 10 * M := by
  have hu := ulp_pos
  have hu' := ulp_le
  have hn1 : (1 : ℝ) ≤ n := by exact_mod_cast hn0
  have hn2 : (n : ℝ) ≤ 2 ^ 40 := by exact_mod_cast hn
  have hW0 : 0 < W := by linarith
  have h1 : n * (|q.val| * W) ≤ 68 / 100 * M := by
    have := mul_le_mul_of_nonneg_right hq hW0.le
    rw [mul_assoc, mul_assoc, div_mul_cancel₀ _ hW0.ne'] at this
    linarith
  have h2 : |q.val * w.val| ≤ |q.val| * W := by
    rw [abs_mul]; exact mul_le_mul_of_nonneg_left hw (abs_nonneg _)
  have h3 : |q.val| * W ≤ 1 * M := by
    have : 1 * (|q.val| * W) ≤ n * (|q.val| * W) := mul_le_mul_of_nonneg_right hn1 (by positivity)
    linarith
  obtain ⟨z, hz, ez⟩ := mul_fin (R := R) (x := q) (y := w) ((h2.trans h3).trans (big hM' (by norm_num) (by linarith)))
  refine ⟨z, hz, ?_, ?_⟩
  · have a1 := abs_add_le (z.val - q.val * w.val) (q.val * w.val)
    rw [sub_add_cancel] at a1
    have a2 : ulp * |q.val * w.val| ≤ ulp * (|q.val| * W) := mul_le_mul_of_nonneg_left h2 hu.le
    linarith
  · have ht : (n : ℝ) * 2 ^ (-1075 : ℤ) ≤ 1 / 1000 := by
      calc (n : ℝ) * 2 ^ (-1075 : ℤ) ≤ 2 ^ 40 * 2 ^ (-53 : ℤ) :=
            mul_le_mul hn2 (zpow_le_zpow_right₀ (by norm_num) (by norm_num)) (by positivity) (by positivity)
        _ ≤ _ := by norm_num
    calc (n : ℝ) * ((1 + ulp) * (|q.val| * W) + 2 ^ (-1075 : ℤ)) = (1 + ulp) * (n * (|q.val| * W)) + n * 2 ^ (-1075 : ℤ) := by ring
      _ ≤ (1 + 1 / 2 ^ 53) * (68 / 100 * M) + 1 / 1000 := by gcongr
      _ ≤ 7 / 10 * M := by linarith

/-- the sum over the neighbours -/
theorem sum_fin {f : Nat × Ieee R → Ieee R} {q : ℝ} {M : ℝ} {n : Nat} (hM : 1 ≤ M) (hM' : M ≤ 2 ^ 1000) (hn : n ≤ 2 ^ 40)
    (hn0 : 0 < n) (hq : n * q ≤ 7 / 10 * M) {x : Dbl R} (hx : |x.val| ≤ 5 * M) (l : List (Nat × Ieee R)) (hl : l.length ≤ n)
    (hf : ∀ e ∈ l, ∃ d : Dbl R, f e = fin d ∧ |d.val| ≤ q) :
    ∃ k : Dbl R, l.foldl (fun acc e => acc + f e) (-(fin x)) = fin k ∧ |k.val + x.val| ≤ 8 / 10 * M := by
  have hu := ulp_pos
  have hu' := ulp_le
  have hn1 : (0 : ℝ) < n := by exact_mod_cast hn0
  have hn2 : (n : ℝ) ≤ 2 ^ 40 := by exact_mod_cast hn
  have hnu : (n : ℝ) * ulp ≤ 1 / 2 ^ 13 := by
    calc (n : ℝ) * ulp ≤ 2 ^ 40 * (1 / 2 ^ 53) := mul_le_mul hn2 hu' hu.le (by positivity)
      _ = _ := by norm_num
  obtain ⟨D, hD⟩ : ∃ D : ℝ, n * D = 8 / 10 * M := ⟨8 / 10 * M / n, by field_simp⟩
  have hD0 : 0 ≤ D := by
    by_contra hc
    have := mul_neg_of_pos_of_neg hn1 (not_le.mp hc)
    linarith
  have hqD : q + ulp * (6 * M) ≤ D := by
    have : n * (q + ulp * (6 * M)) ≤ n * D := by
      rw [hD, mul_add]
      have : n * (ulp * (6 * M)) ≤ 1 / 2 ^ 13 * (6 * M) := by
        rw [← mul_assoc]; exact mul_le_mul_of_nonneg_right hnu (by linarith)
      linarith
    exact le_of_mul_le_mul_left this hn1
  suffices H : ∀ (l l' : List (Nat × Ieee R)) (a : Dbl R), l'.length + l.length ≤ n → |a.val + x.val| ≤ l'.length * D →
      (∀ e ∈ l, ∃ d : Dbl R, f e = fin d ∧ |d.val| ≤ q) →
      ∃ k : Dbl R, l.foldl (fun acc e => acc + f e) (fin a) = fin k ∧ |k.val + x.val| ≤ (l'.length + l.length : ℕ) * D by
    obtain ⟨k, hk, hk'⟩ := H l [] (-x) (by simpa using hl) (by simp [neg_val]) hf
    refine ⟨k, by rw [neg_fin, hk], hk'.trans ?_⟩
    rw [← hD]
    apply mul_le_mul_of_nonneg_right _ hD0
    simpa using hl
  intro l
  induction l with
  | nil => intro l' a _ ha _; exact ⟨a, rfl, by simpa using ha⟩
  | cons e l ih =>
    intro l' a hlen ha hf
    obtain ⟨d, hd, hdq⟩ := hf e (by simp)
    have hlen' : (l'.length : ℝ) + 1 ≤ n := by
      have : l'.length + 1 ≤ n := by simp at hlen; omega
      exact_mod_cast this
    have hb : (l'.length : ℝ) * D + D ≤ 8 / 10 * M := by
      rw [← hD]
      have := mul_le_mul_of_nonneg_right hlen' hD0
      linarith
    have hu6 : 0 ≤ ulp * (6 * M) := by positivity
    obtain ⟨a1, a2⟩ := abs_le.mp ha
    obtain ⟨d1, d2⟩ := abs_le.mp hdq
    obtain ⟨x1, x2⟩ := abs_le.mp hx
    have hs : |a.val + d.val| ≤ 6 * M := by rw [abs_le]; constructor <;> linarith
    obtain ⟨z, hz, ez⟩ := add_fin (R := R) (hs.trans (big hM' (by norm_num) (by linarith)))
    have ez' : |z.val - (a.val + d.val)| ≤ ulp * (6 * M) := ez.trans (mul_le_mul_of_nonneg_left hs hu.le)
    obtain ⟨z1, z2⟩ := abs_le.mp ez'
    obtain ⟨k, hk, hk'⟩ := ih (e :: l') z (by simp at hlen ⊢; omega) (by
      rw [List.length_cons]; push_cast; rw [abs_le]; constructor <;> linarith) (fun e' he' => hf e' (List.mem_cons_of_mem _ he'))
    refine ⟨k, by rw [List.foldl_cons, hd, hz, hk], ?_⟩
    have : (e :: l').length + l.length = l'.length + (e :: l).length := by simp; omega
    rw [this] at hk'
    exact hk'

/-- a Runge-Kutta step for `dx/dt = -x + c`, `|c| ≤ B`, moves towards the interior -/
theorem rk4_inward {h x c1 c2 c3 c4 B M : ℝ} (h0 : 0 ≤ h) (h1 : h ≤ 1) (hc1 : |c1| ≤ B) (hc2 : |c2| ≤ B) (hc3 : |c3| ≤ B) (hc4 : |c4| ≤ B)
    (hx : |x| ≤ M) (hB : B ≤ M) :
    |x + h / 6 * ((-x + c1) + 2 * (-(x + h / 2 * (-x + c1)) + c2) + 2 * (-(x + h / 2 * (-(x + h / 2 * (-x + c1)) + c2)) + c3) +
      (-(x + h * (-(x + h / 2 * (-(x + h / 2 * (-x + c1)) + c2)) + c3)) + c4))| ≤ M - h / 2 * (M - B) := by
  have hh2 : 0 ≤ h * h := mul_nonneg h0 h0
  have hh3 : 0 ≤ h * h * h := mul_nonneg hh2 h0
  have l2 : h * h ≤ h := by nlinarith
  have l3 : h * h * h ≤ h * h := by nlinarith
  have l4 : h * h * h * h ≤ h * h * h := by nlinarith
  have e : x + h / 6 * ((-x + c1) + 2 * (-(x + h / 2 * (-x + c1)) + c2) + 2 * (-(x + h / 2 * (-(x + h / 2 * (-x + c1)) + c2)) + c3) +
      (-(x + h * (-(x + h / 2 * (-(x + h / 2 * (-x + c1)) + c2)) + c3)) + c4)) =
      (1 - h + h * h / 2 - h * h * h / 6 + h * h * h * h / 24) * x + (h / 6 * (1 - h + h * h / 2 - h * h * h / 4)) * c1 +
        (h / 6 * (2 - h + h * h / 2)) * c2 + (h / 6 * (2 - h)) * c3 + h / 6 * c4 := by ring
  rw [e]
  have hh4 : 0 ≤ h * h * h * h := mul_nonneg hh3 h0
  have sq : 0 ≤ (1 - h) * (1 - h) := mul_self_nonneg _
  have p0 : 0 ≤ 1 - h + h * h / 2 - h * h * h / 6 + h * h * h * h / 24 := by nlinarith
  have p1 : 0 ≤ h / 6 * (1 - h + h * h / 2 - h * h * h / 4) := by
    apply mul_nonneg (by linarith); nlinarith
  have p2 : 0 ≤ h / 6 * (2 - h + h * h / 2) := by
    apply mul_nonneg (by linarith); linarith
  have p3 : 0 ≤ h / 6 * (2 - h) := by
    apply mul_nonneg (by linarith); linarith
  have p4 : 0 ≤ h / 6 := by linarith
  have b : ∀ a y N : ℝ, 0 ≤ a → |y| ≤ N → -(a * N) ≤ a * y ∧ a * y ≤ a * N := by
    intro a y N ha hy
    obtain ⟨y1, y2⟩ := abs_le.mp hy
    constructor <;> nlinarith
  obtain ⟨x1, x2⟩ := b _ x _ p0 hx
  obtain ⟨y1, y2⟩ := b _ c1 _ p1 hc1
  obtain ⟨z1, z2⟩ := b _ c2 _ p2 hc2
  obtain ⟨u1, u2⟩ := b _ c3 _ p3 hc3
  obtain ⟨v1, v2⟩ := b _ c4 _ p4 hc4
  have s : (1 - h + h * h / 2 - h * h * h / 6 + h * h * h * h / 24) * M + (h / 6 * (1 - h + h * h / 2 - h * h * h / 4)) * B +
        (h / 6 * (2 - h + h * h / 2)) * B + (h / 6 * (2 - h)) * B + h / 6 * B ≤ M - h / 2 * (M - B) := by
    have w : h / 2 ≤ h - h * h / 2 + h * h * h / 6 - h * h * h * h / 24 := by linarith
    have w' := mul_le_mul_of_nonneg_right w (sub_nonneg.mpr hB)
    have id : (1 - h + h * h / 2 - h * h * h / 6 + h * h * h * h / 24) * M + (h / 6 * (1 - h + h * h / 2 - h * h * h / 4)) * B +
        (h / 6 * (2 - h + h * h / 2)) * B + (h / 6 * (2 - h)) * B + h / 6 * B =
        M - (h - h * h / 2 + h * h * h / 6 - h * h * h * h / 24) * (M - B) := by ring
    rw [id]
    linarith
  rw [abs_le]
  constructor <;> linarith

theorem mul_ne_nan (x y : Dbl R) : (fin x * fin y : Ieee R) ≠ nan := by
  change ofReal R _ ≠ nan
  unfold ofReal
  split
  · simp
  · split <;> simp

end Spec.Ieee

namespace Activity
variable [ActiveAgent A (Ieee R)]

/-- The slope in double precision, where it does not overflow; the weights are of size at most `W`. -/
theorem slope_fin {o : MathOps (Ieee R)} (ht : ∀ a, a ≠ nan → Within 1 (o.tanh a)) {p : ActivitySettings (Ieee R)} {N : Network A (Ieee R)}
    {al K m : Dbl R} (hal : p.alpha = fin al) (hK : p.K = fin K) {M W : ℝ} {n : Nat} (hW : 1 ≤ W) (hM : W ≤ M) (hM' : M ≤ 2 ^ 1000) (hn : n ≤ 2 ^ 40)
    (hn0 : 0 < n) {i : Nat} (hr : attr ActiveAgent.reluctance N.agents i = fin m) (hm : 2 ^ (-1000 : ℤ) ≤ m.val) (hm' : m.val ≤ 2 ^ 1000)
    (hKm : 3 / 2 * |K.val| * n * W ≤ M * m.val) (hw : ∀ e ∈ row N i, Within W e.2) (hlen : (row N i).length ≤ n) {x : Nat → Ieee R}
    (hx : ∀ e ∈ row N i, ∃ d, x e.1 = fin d) {xi : Dbl R} (hxi : x i = fin xi) (hxi' : |xi.val| ≤ 5 * M) :
    ∃ k : Dbl R, slope o p N x i = fin k ∧ |k.val + xi.val| ≤ 8 / 10 * M := by
  have hW0 : 0 < W := by linarith
  obtain ⟨q, hq, hq'⟩ := factor_fin' (M := M / W) (m := m) (K := K) (by rw [le_div_iff₀ hW0]; linarith)
    ((div_le_self (by linarith) hW).trans hM') hn hn0 hm hm' (by
      rw [div_mul_eq_mul_div M W m.val, le_div_iff₀ hW0]; exact hKm)
  have hn1 : (1 : ℝ) ≤ n := by exact_mod_cast hn0
  have hM1 : 1 ≤ M := by linarith
  obtain ⟨-, -, -, hQ⟩ := weighted_fin (q := q) (w := (1 : Dbl R)) hM1 hM' hn hn0 hW hq' (by rw [one_val, abs_one]; exact hW)
  unfold slope
  rw [hxi]
  refine sum_fin (f := fun e => 1 / attr ActiveAgent.reluctance N.agents i * p.K * e.2 * o.tanh (p.alpha * x e.1)) hM1 hM' hn hn0 hQ hxi' _ hlen ?_
  intro e he
  obtain ⟨d, hd⟩ := hx e he
  obtain ⟨t, ht1, ht2⟩ := ht (p.alpha * x e.1) (by rw [hal, hd]; exact mul_ne_nan _ _)
  obtain ⟨w, hw1, hw2⟩ := hw e he
  obtain ⟨z, hz, hz', -⟩ := weighted_fin hM1 hM' hn hn0 hW hq' hw2
  rw [hr, hK, hq, hw1, hz, ht1]
  have hzM : |z.val| ≤ 2 ^ 1020 := by
    refine le_trans ?_ (big (c := 1) hM' (by norm_num) (by linarith))
    have h0 : 0 ≤ (1 + ulp) * (|q.val| * W) + 2 ^ (-1075 : ℤ) := (abs_nonneg _).trans hz'
    have : 1 * ((1 + ulp) * (|q.val| * W) + 2 ^ (-1075 : ℤ)) ≤ n * ((1 + ulp) * (|q.val| * W) + 2 ^ (-1075 : ℤ)) :=
      mul_le_mul_of_nonneg_right hn1 h0
    linarith
  obtain ⟨v, hv, hv'⟩ := mul_le hzM ht2
  exact ⟨v, hv, hv'.trans hz'⟩

/-- The Runge-Kutta step in double precision. -/
theorem rkOpinion_fin {o : MathOps (Ieee R)} (ht : ∀ a, a ≠ nan → Within 1 (o.tanh a)) {p : ActivitySettings (Ieee R)} {N : Network A (Ieee R)}
    {al K h : Dbl R} (hal : p.alpha = fin al) (hK : p.K = fin K) (hdt : p.dt = fin h) (hh0 : 2 ^ (-40 : ℤ) ≤ h.val) (hh1 : h.val ≤ 1)
    {M W : ℝ} (hW : 1 ≤ W) (hWM : W ≤ M) (hM' : M ≤ 2 ^ 1000) (hn : N.agents.length ≤ 2 ^ 40)
    (hm : ∀ i, i < N.agents.length → ∃ m : Dbl R, attr ActiveAgent.reluctance N.agents i = fin m ∧ 2 ^ (-1000 : ℤ) ≤ m.val ∧ m.val ≤ 2 ^ 1000 ∧
      3 / 2 * |K.val| * N.agents.length * W ≤ M * m.val)
    (hw : ∀ i, i < N.agents.length → ∀ e ∈ row N i, Within W e.2) (hlen : ∀ i, (row N i).length ≤ N.agents.length) (hlt : ∀ i, ∀ e ∈ row N i, e.1 < N.agents.length)
    (hx : ∀ i, i < N.agents.length → Within M (attr ActiveAgent.opinion N.agents i)) {i : Nat} (hi : i < N.agents.length) :
    Within M (rkOpinion o p N i (attr ActiveAgent.opinion N.agents i)) := by
  have hM : 1 ≤ M := hW.trans hWM
  have hu := ulp_pos
  have hu' := ulp_le
  have hv : ulp * M ≤ 1 / 2 ^ 53 * M := mul_le_mul_of_nonneg_right hu' (by linarith)
  have hv0 : 0 < ulp * M := mul_pos hu (by linarith)
  have h0 : 0 ≤ h.val := le_trans (by positivity) hh0
  have hn0 : 0 < N.agents.length := by omega
  obtain ⟨c, hc, hc'⟩ := half_fin (R := R) h0 hh1
  rw [← hdt] at hc
  have hdt' : |h.val - h.val| ≤ 3 * ulp := by rw [sub_self, abs_zero]; positivity
  -- a shift followed by a slope
  have step : ∀ (x : Nat → Ieee R), (∀ j, j < N.agents.length → ∃ d, x j = fin d ∧ |d.val| ≤ 5 * M) →
      ∀ j, j < N.agents.length → ∀ d : Dbl R, x j = fin d → ∃ k : Dbl R, slope o p N x j = fin k ∧ |k.val + d.val| ≤ 8 / 10 * M := by
    intro x hx j hj d hd
    obtain ⟨m, hm1, hm2, hm3, hm4⟩ := hm j hj
    obtain ⟨d', hd', hd''⟩ := hx j hj
    obtain rfl : d = d' := by rw [hd] at hd'; exact Ieee.fin.inj hd'
    refine slope_fin ht hal hK hW hWM hM' hn hn0 hm1 hm2 hm3 hm4 (hw j hj) (hlen j) (fun e he => ?_) hd hd''
    obtain ⟨d2, h2, -⟩ := hx e.1 (hlt j e he)
    exact ⟨d2, h2⟩
  set X := attr ActiveAgent.opinion N.agents with hX
  have S1 : ∀ j, j < N.agents.length → ∃ d k : Dbl R, X j = fin d ∧ |d.val| ≤ M ∧ stage1 o p N j = fin k ∧ |k.val + d.val| ≤ 8 / 10 * M := by
    intro j hj
    obtain ⟨d, hd, hd'⟩ := hx j hj
    obtain ⟨k, hk, hk'⟩ := step X (fun j hj => by obtain ⟨d, h1, h2⟩ := hx j hj; exact ⟨d, h1, by linarith⟩) j hj d hd
    exact ⟨d, k, hd, hd', hk, hk'⟩
  have S2 : ∀ j, j < N.agents.length → ∃ d k1 k2 : Dbl R, X j = fin d ∧ |d.val| ≤ M ∧ stage1 o p N j = fin k1 ∧ |k1.val + d.val| ≤ 8 / 10 * M ∧
      stage2 o p N j = fin k2 ∧ |k2.val + (d.val + h.val / 2 * k1.val)| ≤ 8 / 10 * M + 60 * (ulp * M) ∧ |k2.val| ≤ 3 * M := by
    have a : ∀ j, j < N.agents.length → ∃ d k1 y : Dbl R, X j = fin d ∧ |d.val| ≤ M ∧ stage1 o p N j = fin k1 ∧ |k1.val + d.val| ≤ 8 / 10 * M ∧
        X j + 1 / ((2 : Nat) : Ieee R) * p.dt * stage1 o p N j = fin y ∧ |y.val - (d.val + h.val / 2 * k1.val)| ≤ 60 * (ulp * M) ∧
        |y.val| ≤ 2 * M := by
      intro j hj
      obtain ⟨d, k, h1, h2, h3, h4⟩ := S1 j hj
      obtain ⟨p1, p2⟩ := abs_le.mp h2
      obtain ⟨q1, q2⟩ := abs_le.mp h4
      have hk : |k.val| ≤ 18 / 10 * M := by rw [abs_le]; constructor <;> linarith
      obtain ⟨y, hy, hy'⟩ := shift_fin (R := R) (x := d) (k := k) (c := c) (h := h.val / 2) hM hM' h2 (by linarith) (by linarith) (by linarith) hc'
      refine ⟨d, k, y, h1, h2, h3, h4, by rw [h1, hc, h3, hy], hy', ?_⟩
      have hb : |h.val / 2 * k.val| ≤ 9 / 10 * M := by
        rw [abs_mul, abs_of_nonneg (by linarith)]
        calc _ ≤ 1 / 2 * (18 / 10 * M) := mul_le_mul (by linarith) hk (abs_nonneg _) (by norm_num)
          _ = _ := by ring
      obtain ⟨r1, r2⟩ := abs_le.mp hb
      obtain ⟨s1, s2⟩ := abs_le.mp hy'
      rw [abs_le]; constructor <;> linarith
    intro j hj
    obtain ⟨d, k1, y, h1, h2, h3, h4, h5, h6, h7⟩ := a j hj
    obtain ⟨k2, hk2, hk2'⟩ := step (fun j => X j + 1 / ((2 : Nat) : Ieee R) * p.dt * stage1 o p N j) (fun j hj => by
      obtain ⟨_, _, y, _, _, _, _, h5, _, h7⟩ := a j hj; exact ⟨y, h5, by linarith⟩) j hj y h5
    obtain ⟨p1, p2⟩ := abs_le.mp hk2'
    obtain ⟨q1, q2⟩ := abs_le.mp h6
    obtain ⟨r1, r2⟩ := abs_le.mp h7
    refine ⟨d, k1, k2, h1, h2, h3, h4, hk2, ?_, ?_⟩
    · rw [abs_le]; constructor <;> linarith
    · rw [abs_le]; constructor <;> linarith
  have S3 : ∀ j, j < N.agents.length → ∃ d k1 k2 k3 : Dbl R, X j = fin d ∧ |d.val| ≤ M ∧ stage1 o p N j = fin k1 ∧ |k1.val + d.val| ≤ 8 / 10 * M ∧
      stage2 o p N j = fin k2 ∧ |k2.val + (d.val + h.val / 2 * k1.val)| ≤ 8 / 10 * M + 60 * (ulp * M) ∧ |k2.val| ≤ 3 * M ∧
      stage3 o p N j = fin k3 ∧ |k3.val + (d.val + h.val / 2 * k2.val)| ≤ 8 / 10 * M + 60 * (ulp * M) ∧ |k3.val| ≤ 34 / 10 * M := by
    have a : ∀ j, j < N.agents.length → ∃ d k1 k2 y : Dbl R, X j = fin d ∧ |d.val| ≤ M ∧ stage1 o p N j = fin k1 ∧ |k1.val + d.val| ≤ 8 / 10 * M ∧
        stage2 o p N j = fin k2 ∧ |k2.val + (d.val + h.val / 2 * k1.val)| ≤ 8 / 10 * M + 60 * (ulp * M) ∧ |k2.val| ≤ 3 * M ∧
        X j + 1 / ((2 : Nat) : Ieee R) * p.dt * stage2 o p N j = fin y ∧ |y.val - (d.val + h.val / 2 * k2.val)| ≤ 60 * (ulp * M) ∧
        |y.val| ≤ 26 / 10 * M := by
      intro j hj
      obtain ⟨d, k1, k, h1, h2, h3, h4, h5, h6, hk⟩ := S2 j hj
      obtain ⟨p1, p2⟩ := abs_le.mp h2
      obtain ⟨y, hy, hy'⟩ := shift_fin (R := R) (x := d) (k := k) (c := c) (h := h.val / 2) hM hM' h2 (by linarith) (by linarith) (by linarith) hc'
      refine ⟨d, k1, k, y, h1, h2, h3, h4, h5, h6, hk, by rw [h1, hc, h5, hy], hy', ?_⟩
      have hb : |h.val / 2 * k.val| ≤ 15 / 10 * M := by
        rw [abs_mul, abs_of_nonneg (by linarith)]
        calc _ ≤ 1 / 2 * (3 * M) := mul_le_mul (by linarith) hk (abs_nonneg _) (by norm_num)
          _ = _ := by ring
      obtain ⟨r1, r2⟩ := abs_le.mp hb
      obtain ⟨s1, s2⟩ := abs_le.mp hy'
      rw [abs_le]; constructor <;> linarith
    intro j hj
    obtain ⟨d, k1, k2, y, h1, h2, h3, h4, h5, h6, h7, h8, h9, h10⟩ := a j hj
    obtain ⟨k3, hk3, hk3'⟩ := step (fun j => X j + 1 / ((2 : Nat) : Ieee R) * p.dt * stage2 o p N j) (fun j hj => by
      obtain ⟨_, _, _, y, _, _, _, _, _, _, _, h5, _, h7⟩ := a j hj; exact ⟨y, h5, by linarith⟩) j hj y h8
    obtain ⟨p1, p2⟩ := abs_le.mp hk3'
    obtain ⟨q1, q2⟩ := abs_le.mp h9
    obtain ⟨r1, r2⟩ := abs_le.mp h10
    refine ⟨d, k1, k2, k3, h1, h2, h3, h4, h5, h6, h7, hk3, ?_, ?_⟩
    · rw [abs_le]; constructor <;> linarith
    · rw [abs_le]; constructor <;> linarith
  have a : ∀ j, j < N.agents.length → ∃ d k1 k2 k3 y : Dbl R, X j = fin d ∧ |d.val| ≤ M ∧ stage1 o p N j = fin k1 ∧ |k1.val + d.val| ≤ 8 / 10 * M ∧
      stage2 o p N j = fin k2 ∧ |k2.val + (d.val + h.val / 2 * k1.val)| ≤ 8 / 10 * M + 60 * (ulp * M) ∧ |k2.val| ≤ 3 * M ∧
      stage3 o p N j = fin k3 ∧ |k3.val + (d.val + h.val / 2 * k2.val)| ≤ 8 / 10 * M + 60 * (ulp * M) ∧ |k3.val| ≤ 34 / 10 * M ∧
      X j + p.dt * stage3 o p N j = fin y ∧ |y.val - (d.val + h.val * k3.val)| ≤ 60 * (ulp * M) ∧
      |y.val| ≤ 45 / 10 * M := by
    intro j hj
    obtain ⟨d, k1, k2, k, h1, h2, h3, h4, h5, h6, h7, h8, h9, hk⟩ := S3 j hj
    obtain ⟨p1, p2⟩ := abs_le.mp h2
    obtain ⟨y, hy, hy'⟩ := shift_fin (R := R) (x := d) (k := k) (c := h) (h := h.val) hM hM' h2 (by linarith) h0 hh1 hdt'
    refine ⟨d, k1, k2, k, y, h1, h2, h3, h4, h5, h6, h7, h8, h9, hk, by rw [h1, hdt, h8, hy], hy', ?_⟩
    have hb : |h.val * k.val| ≤ 34 / 10 * M := by
      rw [abs_mul, abs_of_nonneg h0]
      calc _ ≤ 1 * (34 / 10 * M) := mul_le_mul hh1 hk (abs_nonneg _) (by norm_num)
        _ = _ := by ring
    obtain ⟨r1, r2⟩ := abs_le.mp hb
    obtain ⟨s1, s2⟩ := abs_le.mp hy'
    rw [abs_le]; constructor <;> linarith
  obtain ⟨d, k1, k2, k3, y, h1, h2, h3, h4, h5, h6, h7, h8, h9, h10, h11, h12, h13⟩ := a i hi
  obtain ⟨k4, hk4, hk4'⟩ := step (fun j => X j + p.dt * stage3 o p N j) (fun j hj => by
    obtain ⟨_, _, _, _, y, _, _, _, _, _, _, _, _, _, _, h5, _, h7⟩ := a j hj; exact ⟨y, h5, by linarith⟩) i hi y h11
  have hk4e : stage4 o p N i = fin k4 := hk4
  obtain ⟨p1, p2⟩ := abs_le.mp hk4'
  obtain ⟨q1, q2⟩ := abs_le.mp h12
  obtain ⟨r1, r2⟩ := abs_le.mp h13
  obtain ⟨t1, t2⟩ := abs_le.mp h4
  obtain ⟨w1, w2⟩ := abs_le.mp h2
  have b1 : |k1.val| ≤ 8 * M := by rw [abs_le]; constructor <;> linarith
  have b4 : |k4.val| ≤ 8 * M := by rw [abs_le]; constructor <;> linarith
  have c4 : |k4.val + (d.val + h.val * k3.val)| ≤ 8 / 10 * M + 60 * (ulp * M) := by rw [abs_le]; constructor <;> linarith
  obtain ⟨z, hz, hz'⟩ := combine_fin (R := R) (x := d) (h := h) hM hM' h2 b1 (by linarith : |k2.val| ≤ 8 * M) (by linarith : |k3.val| ≤ 8 * M) b4 h0 hh1
  refine ⟨z, by unfold rkOpinion; rw [h1, hdt, h3, h5, h8, hk4e, hz], ?_⟩
  have hin := rk4_inward (h := h.val) (x := d.val) (c1 := k1.val + d.val) (c2 := k2.val + (d.val + h.val / 2 * k1.val))
    (c3 := k3.val + (d.val + h.val / 2 * k2.val)) (c4 := k4.val + (d.val + h.val * k3.val)) (B := 8 / 10 * M + 60 * (ulp * M)) (M := M) h0 hh1
    (by linarith) h6 h9 c4 h2 (by linarith)
  have e1 : -d.val + (k1.val + d.val) = k1.val := by ring
  have e2 : -(d.val + h.val / 2 * k1.val) + (k2.val + (d.val + h.val / 2 * k1.val)) = k2.val := by ring
  have e3 : -(d.val + h.val / 2 * k2.val) + (k3.val + (d.val + h.val / 2 * k2.val)) = k3.val := by ring
  have e4 : -(d.val + h.val * k3.val) + (k4.val + (d.val + h.val * k3.val)) = k4.val := by ring
  rw [e1, e2, e3, e4] at hin
  -- the margin left by the step is larger than the rounding errors
  have hg : 400 * (ulp * M) ≤ h.val / 2 * (M - (8 / 10 * M + 60 * (ulp * M))) := by
    have g1 : 19 / 100 * M ≤ M - (8 / 10 * M + 60 * (ulp * M)) := by linarith
    have g2 : (2 : ℝ) ^ (-40 : ℤ) / 2 * (19 / 100 * M) ≤ h.val / 2 * (M - (8 / 10 * M + 60 * (ulp * M))) :=
      mul_le_mul (div_le_div_of_nonneg_right hh0 (by norm_num)) g1 (by linarith) (by linarith)
    refine le_trans ?_ g2
    have : (2 : ℝ) ^ (-40 : ℤ) = 1 / 2 ^ 40 := by norm_num
    rw [this]
    linarith
  generalize d.val + h.val / 6 * (k1.val + 2 * k2.val + 2 * k3.val + k4.val) = E at hin hz'
  have := abs_add_le (z.val - E) E
  rw [sub_add_cancel] at this
  linarith

end Activity
end Seldon
