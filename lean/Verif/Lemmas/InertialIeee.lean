import Verif.Lemmas.ActivityIeee
import Verif.Lemmas.Lyapunov
import Verif.Lemmas.Verlet
/-!
# Lemmas: the Verlet step of the inertial model in double precision
-/
set_option linter.unusedSectionVars false
namespace Seldon
open Spec Ieee
variable {R : Rounding}

namespace Spec.Ieee

theorem half_exact : ∃ c : Dbl R, (1 / ((2 : Nat) : Ieee R) : Ieee R) = fin c ∧ c.val = 1 / 2 := by
  obtain ⟨two, t1, t2⟩ := natCast_fin (R := R) (n := 2) (by norm_num)
  push_cast at t2
  have hd : IsDouble (1 / 2 : ℝ) := by
    have := isDouble_pow (e := -1) (by norm_num)
    simpa using this
  refine ⟨Dbl.ofReal R (1 / 2), ?_, R.fix hd⟩
  rw [t1, one_def]
  change (if two.val = 0 then signed (1 : Dbl R).val else ofReal R ((1 : Dbl R).val / two.val)) = _
  rw [t2, if_neg (by norm_num), one_val, ofReal_fin R]
  refine le_trans ?_ (one_le_pow₀ (by norm_num : (1 : ℝ) ≤ 2))
  rw [abs_of_nonneg (by norm_num)]; norm_num

theorem sub_fin {x y : Dbl R} (h : |x.val - y.val| ≤ 2 ^ 1020) :
    ∃ z : Dbl R, (fin x - fin y : Ieee R) = fin z ∧ |z.val - (x.val - y.val)| ≤ ulp * |x.val - y.val| := by
  have := add_fin (R := R) (x := x) (y := -y) (by rw [neg_val, ← sub_eq_add_neg]; exact h)
  rw [neg_val, ← sub_eq_add_neg] at this
  exact this

/-- the acceleration -/
theorem accel_fin {v k f : Dbl R} {U : ℝ} (hU : 1 ≤ U) (hU' : U ≤ 2 ^ 1000) (hfv : |f.val * v.val| ≤ U) (hk : |k.val| ≤ 8 * U) :
    ∃ a : Dbl R, (fin k - fin f * fin v : Ieee R) = fin a ∧ |a.val - (k.val - f.val * v.val)| ≤ 12 * (ulp * U) ∧ |a.val| ≤ 11 * U := by
  have hu := ulp_pos
  have hv : ulp * U ≤ 1 / 2 ^ 53 * U := mul_le_mul_of_nonneg_right ulp_le (by linarith)
  have hv0 : 0 < ulp * U := mul_pos hu (by linarith)
  have hU0 : 0 ≤ U := by linarith
  have m1 : |f.val * v.val| ≤ 1 * U := by linarith
  obtain ⟨t, ht, et⟩ := mul_fin (R := R) (m1.trans (big hU' (by norm_num) hU0))
  obtain ⟨p1, p2⟩ := abs_le.mp (err_le hU m1 et)
  obtain ⟨q1, q2⟩ := abs_le.mp hfv
  obtain ⟨k1, k2⟩ := abs_le.mp hk
  have m2 : |k.val - t.val| ≤ 10 * U := by rw [abs_le]; constructor <;> linarith
  obtain ⟨a, ha, ea⟩ := sub_fin (R := R) (m2.trans (big hU' (by norm_num) hU0))
  obtain ⟨a1, a2⟩ := abs_le.mp (err_le' m2 ea)
  refine ⟨a, by rw [ht, ha], ?_, ?_⟩ <;> rw [abs_le] <;> constructor <;> linarith

theorem abs_mul_unit {z h C : ℝ} (h0 : 0 ≤ h) (h1 : h ≤ 1) (hz : |z| ≤ C) : |z * h| ≤ C := by
  rw [abs_mul, abs_of_nonneg h0]
  exact (mul_le_of_le_one_right (abs_nonneg _) h1).trans hz

/-- the new position -/
theorem position_fin {x v k f h : Dbl R} {U : ℝ} (hU : 1 ≤ U) (hU' : U ≤ 2 ^ 1000) (hx : |x.val| ≤ U) (hv : |v.val| ≤ U)
    (hfv : |f.val * v.val| ≤ U) (hk : |k.val| ≤ 8 * U) (h0 : 0 ≤ h.val) (h1 : h.val ≤ 1) :
    ∃ y : Dbl R, (fin x + fin v * fin h + 1 / ((2 : Nat) : Ieee R) * (fin k - fin f * fin v) * fin h * fin h : Ieee R) = fin y ∧
      |y.val - (x.val + v.val * h.val + (k.val - f.val * v.val) * h.val ^ 2 / 2)| ≤ 60 * (ulp * U) := by
  have hu := ulp_pos
  have hw : ulp * U ≤ 1 / 2 ^ 53 * U := mul_le_mul_of_nonneg_right ulp_le (by linarith)
  have hw0 : 0 < ulp * U := mul_pos hu (by linarith)
  have hU0 : 0 ≤ U := by linarith
  obtain ⟨c, hc, hc'⟩ := half_exact (R := R)
  obtain ⟨A, hA, eA, bA⟩ := accel_fin hU hU' hfv hk
  obtain ⟨A1, A2⟩ := abs_le.mp eA
  obtain ⟨B1, B2⟩ := abs_le.mp bA
  obtain ⟨x1, x2⟩ := abs_le.mp hx
  set a := k.val - f.val * v.val with ha
  have m1 : |v.val * h.val| ≤ 1 * U := by rw [one_mul]; exact abs_mul_unit h0 h1 hv
  obtain ⟨t1, ht1, et1⟩ := mul_fin (R := R) (m1.trans (big hU' (by norm_num) hU0))
  obtain ⟨p1, p2⟩ := abs_le.mp (err_le hU m1 et1)
  obtain ⟨m1a, m1b⟩ := abs_le.mp m1
  have m2 : |x.val + t1.val| ≤ 3 * U := by rw [abs_le]; constructor <;> linarith
  obtain ⟨s1, hs1, es1⟩ := add_fin (R := R) (m2.trans (big hU' (by norm_num) hU0))
  obtain ⟨q1, q2⟩ := abs_le.mp (err_le' m2 es1)
  have m3 : |c.val * A.val| ≤ 6 * U := by rw [hc', abs_le]; constructor <;> linarith
  obtain ⟨t3, ht3, et3⟩ := mul_fin (R := R) (m3.trans (big hU' (by norm_num) hU0))
  obtain ⟨r1, r2⟩ := abs_le.mp (err_le hU m3 et3)
  rw [hc'] at r1 r2
  have d3 : |t3.val - a / 2| ≤ 13 * (ulp * U) := by rw [abs_le]; constructor <;> linarith
  have b3 : |t3.val| ≤ 7 * U := by rw [abs_le]; constructor <;> linarith
  have m4 : |t3.val * h.val| ≤ 7 * U := abs_mul_unit h0 h1 b3
  obtain ⟨t4, ht4, et4⟩ := mul_fin (R := R) (m4.trans (big hU' (by norm_num) hU0))
  have d4' : |(t3.val - a / 2) * h.val| ≤ 13 * (ulp * U) := abs_mul_unit h0 h1 d3
  rw [sub_mul] at d4'
  obtain ⟨u1, u2⟩ := abs_le.mp (err_le hU m4 et4)
  obtain ⟨w1, w2⟩ := abs_le.mp d4'
  obtain ⟨m4a, m4b⟩ := abs_le.mp m4
  have d4 : |t4.val - a / 2 * h.val| ≤ 21 * (ulp * U) := by rw [abs_le]; constructor <;> linarith
  have b4 : |t4.val| ≤ 8 * U := by rw [abs_le]; constructor <;> linarith
  have m5 : |t4.val * h.val| ≤ 8 * U := abs_mul_unit h0 h1 b4
  obtain ⟨t5, ht5, et5⟩ := mul_fin (R := R) (m5.trans (big hU' (by norm_num) hU0))
  have d5' : |(t4.val - a / 2 * h.val) * h.val| ≤ 21 * (ulp * U) := abs_mul_unit h0 h1 d4
  rw [sub_mul] at d5'
  obtain ⟨y1, y2⟩ := abs_le.mp (err_le hU m5 et5)
  obtain ⟨z1, z2⟩ := abs_le.mp d5'
  obtain ⟨m5a, m5b⟩ := abs_le.mp m5
  have m6 : |s1.val + t5.val| ≤ 14 * U := by rw [abs_le]; constructor <;> linarith
  obtain ⟨y, hy, ey⟩ := add_fin (R := R) (m6.trans (big hU' (by norm_num) hU0))
  obtain ⟨n1, n2⟩ := abs_le.mp (err_le' m6 ey)
  refine ⟨y, by rw [hc, hA, ht1, hs1, ht3, ht4, ht5, hy], ?_⟩
  have e : a * h.val ^ 2 / 2 = a / 2 * h.val * h.val := by ring
  rw [e, abs_le]
  constructor <;> linarith

/-- the denominator -/
theorem friction_fin {f h : Dbl R} (f0 : 2 ^ (-8 : ℤ) ≤ f.val) (f1 : f.val ≤ 2 ^ 8) (h0 : 2 ^ (-15 : ℤ) ≤ h.val) (h1 : h.val ≤ 1) :
    ∃ d : Dbl R, (1 + 1 / ((2 : Nat) : Ieee R) * fin f * fin h : Ieee R) = fin d ∧
      |d.val - (1 + f.val * h.val / 2)| ≤ 6 * ulp * (1 + f.val * h.val / 2) := by
  have hu := ulp_pos
  have hu' := ulp_le
  obtain ⟨c, hc, hc'⟩ := half_exact (R := R)
  have fp : 0 < f.val := lt_of_lt_of_le (by positivity) f0
  have hp : 0 < h.val := lt_of_lt_of_le (by positivity) h0
  have fb : (1 : ℝ) / 2 ^ 8 ≤ f.val := by refine le_trans (le_of_eq ?_) f0; norm_num
  have hb : (1 : ℝ) / 2 ^ 15 ≤ h.val := by refine le_trans (le_of_eq ?_) h0; norm_num
  have lim : ∀ z : ℝ, |z| ≤ 2 ^ 10 → |z| ≤ 2 ^ 1020 := fun z hz => hz.trans (pow_le_pow_right₀ (by norm_num) (by norm_num))
  have low : ∀ z : ℝ, (1 : ℝ) / 2 ^ 30 ≤ |z| → (2 : ℝ) ^ (-1022 : ℤ) ≤ |z| := fun z hz => le_trans (by
    have : (1 : ℝ) / 2 ^ 30 = 2 ^ (-30 : ℤ) := by norm_num
    rw [this]
    exact zpow_le_zpow_right₀ (by norm_num) (by norm_num)) hz
  have ff : |c.val * f.val| = f.val / 2 := by rw [hc', abs_of_pos (by positivity)]; ring
  have e1 : (fin c * fin f : Ieee R) = fin (Dbl.ofReal R (c.val * f.val)) := ofReal_fin R (lim _ (by rw [ff]; linarith))
  have r1 : |R.round (c.val * f.val) - c.val * f.val| ≤ ulp * |c.val * f.val| := R.error_rel (low _ (by rw [ff]; linarith))
  set z1 : Dbl R := Dbl.ofReal R (c.val * f.val) with hz1
  have z1v : z1.val = R.round (c.val * f.val) := rfl
  rw [← z1v, ff, hc'] at r1
  obtain ⟨a1, a2⟩ := abs_le.mp r1
  have uf : ulp * (f.val / 2) ≤ 1 / 2 ^ 53 * (f.val / 2) := mul_le_mul_of_nonneg_right hu' (by linarith)
  have z1p : f.val / 4 ≤ z1.val := by linarith
  have z1q : z1.val ≤ f.val := by linarith
  have z1h : 0 < z1.val * h.val := mul_pos (by linarith) hp
  have e2 : (fin z1 * fin h : Ieee R) = fin (Dbl.ofReal R (z1.val * h.val)) := ofReal_fin R (lim _ (by
    rw [abs_of_pos z1h]; nlinarith))
  have r2 : |R.round (z1.val * h.val) - z1.val * h.val| ≤ ulp * |z1.val * h.val| := R.error_rel (low _ (by
    rw [abs_of_pos z1h]
    calc (1 : ℝ) / 2 ^ 30 ≤ 1 / 2 ^ 10 * (1 / 2 ^ 15) := by norm_num
      _ ≤ z1.val * h.val := mul_le_mul (by linarith) hb (by positivity) (by linarith)))
  set z2 : Dbl R := Dbl.ofReal R (z1.val * h.val) with hz2
  have z2v : z2.val = R.round (z1.val * h.val) := rfl
  rw [← z2v, abs_of_pos z1h] at r2
  set w := f.val * h.val / 2 with hw
  have wp : 0 < w := by rw [hw]; positivity
  have b1 : |z1.val * h.val - w| ≤ ulp * w := by
    have : z1.val * h.val - w = (z1.val - 1 / 2 * f.val) * h.val := by rw [hw]; ring
    rw [this, abs_mul, abs_of_pos hp]
    calc _ ≤ ulp * (f.val / 2) * h.val := mul_le_mul_of_nonneg_right r1 hp.le
      _ = _ := by rw [hw]; ring
  have uw : ulp * w ≤ 1 / 2 ^ 53 * w := mul_le_mul_of_nonneg_right hu' wp.le
  have uw0 : 0 < ulp * w := mul_pos hu wp
  obtain ⟨c1, c2⟩ := abs_le.mp b1
  have b2 : ulp * (z1.val * h.val) ≤ ulp * (2 * w) := mul_le_mul_of_nonneg_left (by linarith) hu.le
  obtain ⟨d1, d2⟩ := abs_le.mp r2
  have w8 : w ≤ 2 ^ 8 := by rw [hw]; nlinarith
  have m3 : |(1 : Dbl R).val + z2.val| ≤ 2 * (1 + w) := by rw [one_val, abs_le]; constructor <;> linarith
  obtain ⟨d, hd, ed⟩ := add_fin (R := R) (lim _ (m3.trans (by norm_num at w8 ⊢; linarith)))
  rw [one_val] at ed m3
  refine ⟨d, by rw [hc, e1, e2, one_def, hd], ?_⟩
  have b3 : ulp * |1 + z2.val| ≤ ulp * (2 * (1 + w)) := mul_le_mul_of_nonneg_left m3 hu.le
  obtain ⟨g1, g2⟩ := abs_le.mp ed
  have e : 6 * ulp * (1 + w) = 6 * ulp + 6 * (ulp * w) := by ring
  rw [e, abs_le]
  constructor <;> nlinarith

set_option maxHeartbeats 1000000 in
/-- the new velocity -/
theorem velocity_fin {v k k' f h : Dbl R} {U : ℝ} (hU : 1 ≤ U) (hU' : U ≤ 2 ^ 1000) (hfU : 1 + f.val ≤ U) (hv : |v.val| ≤ U)
    (hfv : |f.val * v.val| ≤ U) (hk : |k.val| ≤ 8 * U) (hk' : |k'.val| ≤ 8 * U) (f0 : 2 ^ (-8 : ℤ) ≤ f.val) (f1 : f.val ≤ 2 ^ 8)
    (h0 : 2 ^ (-15 : ℤ) ≤ h.val) (h1 : h.val ≤ 1) :
    ∃ w : Dbl R, ((fin v + 1 / ((2 : Nat) : Ieee R) * fin h * (fin k - fin f * fin v + fin k')) / (1 + 1 / ((2 : Nat) : Ieee R) * fin f * fin h) : Ieee R) = fin w ∧
      |(1 + f.val * h.val / 2) * w.val - (v.val + h.val / 2 * (k.val - f.val * v.val + k'.val))| ≤ 500 * (ulp * U) := by
  have hu := ulp_pos
  have hu' := ulp_le
  have hw : ulp * U ≤ 1 / 2 ^ 53 * U := mul_le_mul_of_nonneg_right ulp_le (by linarith)
  have hw0 : 0 < ulp * U := mul_pos hu (by linarith)
  have hU0 : 0 ≤ U := by linarith
  have fp : 0 < f.val := lt_of_lt_of_le (by positivity) f0
  have hp : 0 < h.val := lt_of_lt_of_le (by positivity) h0
  obtain ⟨c, hc, ec⟩ := half_fin (R := R) hp.le h1
  obtain ⟨D, hD, eD⟩ := friction_fin f0 f1 h0 h1
  obtain ⟨A, hA, eA, bA⟩ := accel_fin hU hU' hfv hk
  obtain ⟨A1, A2⟩ := abs_le.mp eA
  obtain ⟨B1, B2⟩ := abs_le.mp bA
  obtain ⟨k1, k2⟩ := abs_le.mp hk'
  obtain ⟨v1, v2⟩ := abs_le.mp hv
  set a := k.val - f.val * v.val with ha
  have m1 : |A.val + k'.val| ≤ 19 * U := by rw [abs_le]; constructor <;> linarith
  obtain ⟨T, hT, eT⟩ := add_fin (R := R) (m1.trans (big hU' (by norm_num) hU0))
  obtain ⟨p1, p2⟩ := abs_le.mp (err_le' m1 eT)
  obtain ⟨m1a, m1b⟩ := abs_le.mp m1
  have dT : |T.val - (a + k'.val)| ≤ 31 * (ulp * U) := by rw [abs_le]; constructor <;> linarith
  have bT : |T.val| ≤ 20 * U := by rw [abs_le]; constructor <;> linarith
  obtain ⟨c1, c2⟩ := abs_le.mp ec
  have cb : |c.val| ≤ 1 := by rw [abs_le]; constructor <;> linarith
  have m2 : |c.val * T.val| ≤ 20 * U := by
    rw [abs_mul]
    calc |c.val| * |T.val| ≤ 1 * (20 * U) := mul_le_mul cb bT (abs_nonneg _) (by norm_num)
      _ = _ := one_mul _
  obtain ⟨W, hW, eW⟩ := mul_fin (R := R) (m2.trans (big hU' (by norm_num) hU0))
  obtain ⟨q1, q2⟩ := abs_le.mp (err_le hU m2 eW)
  have g1 : |c.val * T.val - h.val / 2 * T.val| ≤ 60 * (ulp * U) := by
    rw [← sub_mul, abs_mul]
    calc _ ≤ 3 * ulp * (20 * U) := mul_le_mul ec bT (abs_nonneg _) (by positivity)
      _ = _ := by ring
  have g2 : |h.val / 2 * T.val - h.val / 2 * (a + k'.val)| ≤ 31 * (ulp * U) := by
    rw [← mul_sub, mul_comm]
    exact abs_mul_unit (by linarith) (by linarith) dT
  obtain ⟨r1, r2⟩ := abs_le.mp g1
  obtain ⟨s1, s2⟩ := abs_le.mp g2
  obtain ⟨m2a, m2b⟩ := abs_le.mp m2
  have m3 : |v.val + W.val| ≤ 22 * U := by rw [abs_le]; constructor <;> linarith
  obtain ⟨N, hN, eN⟩ := add_fin (R := R) (m3.trans (big hU' (by norm_num) hU0))
  obtain ⟨n1, n2⟩ := abs_le.mp (err_le' m3 eN)
  obtain ⟨m3a, m3b⟩ := abs_le.mp m3
  have dN : |N.val - (v.val + h.val / 2 * (a + k'.val))| ≤ 134 * (ulp * U) := by rw [abs_le]; constructor <;> linarith
  have bN : |N.val| ≤ 23 * U := by rw [abs_le]; constructor <;> linarith
  -- the division
  set d := 1 + f.val * h.val / 2 with hd
  have fh : 0 < f.val * h.val := mul_pos fp hp
  have d1 : 1 ≤ d := by rw [hd]; linarith
  have dU : d ≤ U := by rw [hd]; have := mul_le_of_le_one_right fp.le h1; linarith
  have ud : ulp * d ≤ 1 / 2 ^ 53 * d := mul_le_mul_of_nonneg_right hu' (by linarith)
  obtain ⟨D1, D2⟩ := abs_le.mp eD
  have Dp : d / 2 ≤ D.val := by linarith
  have D0 : 0 < D.val := by linarith
  have m4 : |N.val / D.val| ≤ 46 * U := by
    rw [abs_div, abs_of_pos D0, div_le_iff₀ D0]
    refine bN.trans ?_
    have := mul_le_mul_of_nonneg_left (show (1 : ℝ) / 2 ≤ D.val by linarith) (show 0 ≤ 46 * U by linarith)
    linarith
  obtain ⟨w, hw', ew⟩ := div_fin (R := R) D0.ne' (m4.trans (big hU' (by norm_num) hU0))
  refine ⟨w, by rw [hc, hA, hT, hW, hN, hD, hw'], ?_⟩
  have f1 : |d * w.val - d * (N.val / D.val)| ≤ 47 * (ulp * U) := by
    rw [← mul_sub, abs_mul, abs_of_pos (by linarith)]
    have x1 : d * |N.val / D.val| ≤ 46 * U := by
      rw [abs_div, abs_of_pos D0, mul_div_assoc', div_le_iff₀ D0]
      calc d * |N.val| ≤ (2 * D.val) * (23 * U) := mul_le_mul (by linarith) bN (abs_nonneg _) (by linarith)
        _ = _ := by ring
    calc d * |w.val - N.val / D.val| ≤ d * (ulp * |N.val / D.val| + 2 ^ (-1075 : ℤ)) := mul_le_mul_of_nonneg_left ew (by linarith)
      _ = ulp * (d * |N.val / D.val|) + d * 2 ^ (-1075 : ℤ) := by ring
      _ ≤ ulp * (46 * U) + U * ulp := by
        apply add_le_add (mul_le_mul_of_nonneg_left x1 hu.le)
        exact mul_le_mul dU tiny_le (by positivity) hU0
      _ = _ := by ring
  have f2 : |d * (N.val / D.val) - N.val| ≤ 276 * (ulp * U) := by
    have : d * (N.val / D.val) - N.val = N.val * (-(D.val - d)) / D.val := by field_simp; ring
    rw [this, abs_div, abs_of_pos D0, div_le_iff₀ D0, abs_mul, abs_neg]
    calc |N.val| * |D.val - d| ≤ (23 * U) * (6 * ulp * (2 * D.val)) :=
          mul_le_mul bN (eD.trans (mul_le_mul_of_nonneg_left (by linarith) (by positivity))) (abs_nonneg _) (by linarith)
      _ = _ := by ring
  obtain ⟨i1, i2⟩ := abs_le.mp f1
  obtain ⟨j1, j2⟩ := abs_le.mp f2
  obtain ⟨l1, l2⟩ := abs_le.mp dN
  rw [abs_le]
  constructor <;> linarith

/-- the sum over the neighbours, with the rounding errors apart -/
theorem sum_near {f : Nat × Ieee R → Ieee R} {q S : ℝ} {n : Nat} (hS : 1 ≤ S) (hS' : S ≤ 2 ^ 1000) (hn : n ≤ 2 ^ 28)
    (hn0 : 0 < n) (hq : n * q ≤ 7 / 10 * S) {x : Dbl R} (hx : |x.val| ≤ 4 * S) (l : List (Nat × Ieee R)) (hl : l.length ≤ n)
    (hf : ∀ e ∈ l, ∃ d : Dbl R, f e = fin d ∧ |d.val| ≤ q) :
    ∃ k : Dbl R, l.foldl (fun acc e => acc + f e) (-(fin x)) = fin k ∧ |k.val + x.val| ≤ n * (max q 0) + n * (ulp * (6 * S)) := by
  have hu := ulp_pos
  have hu' := ulp_le
  have hn1 : (0 : ℝ) < n := by exact_mod_cast hn0
  have hn2 : (n : ℝ) ≤ 2 ^ 28 := by exact_mod_cast hn
  have hnu : (n : ℝ) * ulp ≤ 1 / 2 ^ 25 := by
    calc (n : ℝ) * ulp ≤ 2 ^ 28 * (1 / 2 ^ 53) := mul_le_mul hn2 hu' hu.le (by positivity)
      _ = _ := by norm_num
  set D := max q 0 + ulp * (6 * S) with hD
  have hS6 : 0 ≤ ulp * (6 * S) := by positivity
  have hD0 : 0 ≤ D := add_nonneg (le_max_right _ _) hS6
  have hqm : n * max q 0 ≤ 7 / 10 * S := by
    rcases max_choice q 0 with e | e <;> rw [e]
    · exact hq
    · rw [mul_zero]; linarith
  have hnD : n * D ≤ 8 / 10 * S := by
    rw [hD, mul_add]
    have : n * (ulp * (6 * S)) ≤ 1 / 2 ^ 25 * (6 * S) := by
      rw [← mul_assoc]; exact mul_le_mul_of_nonneg_right hnu (by linarith)
    linarith
  suffices H : ∀ (l l' : List (Nat × Ieee R)) (a : Dbl R), l'.length + l.length ≤ n → |a.val + x.val| ≤ l'.length * D →
      (∀ e ∈ l, ∃ d : Dbl R, f e = fin d ∧ |d.val| ≤ q) →
      ∃ k : Dbl R, l.foldl (fun acc e => acc + f e) (fin a) = fin k ∧ |k.val + x.val| ≤ (l'.length + l.length : ℕ) * D by
    obtain ⟨k, hk, hk'⟩ := H l [] (-x) (by simpa using hl) (by simp [neg_val]) hf
    refine ⟨k, by rw [neg_fin, hk], hk'.trans ?_⟩
    rw [← mul_add]
    apply mul_le_mul_of_nonneg_right _ hD0
    simpa using hl
  intro l
  induction l with
  | nil => intro l' a _ ha _; exact ⟨a, rfl, by simpa using ha⟩
  | cons e l ih =>
    intro l' a hlen ha hf
    obtain ⟨d, hd, hdq⟩ := hf e (by simp)
    have hdq : |d.val| ≤ max q 0 := hdq.trans (le_max_left _ _)
    have hlen' : (l'.length : ℝ) + 1 ≤ n := by
      have : l'.length + 1 ≤ n := by simp at hlen; omega
      exact_mod_cast this
    have hb : (l'.length : ℝ) * D + D ≤ 8 / 10 * S := by
      have := mul_le_mul_of_nonneg_right hlen' hD0
      linarith
    obtain ⟨a1, a2⟩ := abs_le.mp ha
    obtain ⟨d1, d2⟩ := abs_le.mp hdq
    obtain ⟨x1, x2⟩ := abs_le.mp hx
    have hDq : max q 0 ≤ D := by linarith
    have hs : |a.val + d.val| ≤ 6 * S := by rw [abs_le]; constructor <;> linarith
    obtain ⟨z, hz, ez⟩ := add_fin (R := R) (hs.trans (big hS' (by norm_num) (by linarith)))
    have ez' : |z.val - (a.val + d.val)| ≤ ulp * (6 * S) := ez.trans (mul_le_mul_of_nonneg_left hs hu.le)
    obtain ⟨z1, z2⟩ := abs_le.mp ez'
    obtain ⟨k, hk, hk'⟩ := ih (e :: l') z (by simp at hlen ⊢; omega) (by
      rw [List.length_cons]; push_cast; rw [abs_le]; constructor <;> linarith) (fun e' he' => hf e' (List.mem_cons_of_mem _ he'))
    refine ⟨k, by rw [List.foldl_cons, hd, hz, hk], ?_⟩
    have : (e :: l').length + l.length = l'.length + (e :: l).length := by simp; omega
    rw [this] at hk'
    exact hk'

end Spec.Ieee

namespace Inertial
open Activity

/-- The slope in double precision, with weights of size at most `W`: the influence of the others is at most `7/10 M` up to rounding errors. -/
theorem slope_near {A : Type} [ActiveAgent A (Ieee R)] {o : MathOps (Ieee R)} (ht : ∀ a, a ≠ nan → Within 1 (o.tanh a)) {p : ActivitySettings (Ieee R)}
    {N : Network A (Ieee R)} {al K m : Dbl R} (hal : p.alpha = fin al) (hK : p.K = fin K) {M S W : ℝ} {n : Nat} (hW : 1 ≤ W) (hM : W ≤ M) (hS : M ≤ S) (hS' : S ≤ 2 ^ 1000)
    (hn : n ≤ 2 ^ 28) (hn0 : 0 < n) {i : Nat} (hr : attr ActiveAgent.reluctance N.agents i = fin m) (hm : 2 ^ (-1000 : ℤ) ≤ m.val)
    (hm' : m.val ≤ 2 ^ 1000) (hKm : 3 / 2 * |K.val| * n * W ≤ M * m.val) (hw : ∀ e ∈ row N i, Within W e.2) (hlen : (row N i).length ≤ n) {x : Nat → Ieee R}
    (hx : ∀ e ∈ row N i, ∃ d, x e.1 = fin d) {xi : Dbl R} (hxi : x i = fin xi) (hxi' : |xi.val| ≤ 4 * S) :
    ∃ k : Dbl R, slope o p N x i = fin k ∧ |k.val + xi.val| ≤ 7 / 10 * M + n * (ulp * (6 * S)) := by
  have hW0 : 0 < W := by linarith
  have hM1 : 1 ≤ M := hW.trans hM
  have hM' : M ≤ 2 ^ 1000 := hS.trans hS'
  have hn40 : n ≤ 2 ^ 40 := hn.trans (by norm_num)
  obtain ⟨q, hq, hq'⟩ := factor_fin' (M := M / W) (m := m) (K := K) (by rw [le_div_iff₀ hW0]; linarith)
    ((div_le_self (by linarith) hW).trans hM') hn40 hn0 hm hm' (by
      rw [div_mul_eq_mul_div M W m.val, le_div_iff₀ hW0]; exact hKm)
  have hn1 : (1 : ℝ) ≤ n := by exact_mod_cast hn0
  obtain ⟨-, -, -, hQ⟩ := weighted_fin (q := q) (w := (1 : Dbl R)) hM1 hM' hn40 hn0 hW hq' (by rw [one_val, abs_one]; exact hW)
  have hQ0 : 0 ≤ (1 + ulp) * (|q.val| * W) + 2 ^ (-1075 : ℤ) := by
    have := ulp_pos
    positivity
  unfold slope
  rw [hxi]
  obtain ⟨k, h1, h2⟩ := sum_near (f := fun e => 1 / attr ActiveAgent.reluctance N.agents i * p.K * e.2 * o.tanh (p.alpha * x e.1)) (S := S)
    (q := (1 + ulp) * (|q.val| * W) + 2 ^ (-1075 : ℤ)) (hM1.trans hS) hS' hn hn0 (by linarith) hxi' (row N i) hlen (by
    intro e he
    obtain ⟨d, hd⟩ := hx e he
    obtain ⟨t, ht1, ht2⟩ := ht (p.alpha * x e.1) (by rw [hal, hd]; exact mul_ne_nan _ _)
    obtain ⟨w, hw1, hw2⟩ := hw e he
    obtain ⟨z, hz, hz', -⟩ := weighted_fin hM1 hM' hn40 hn0 hW hq' hw2
    rw [hr, hK, hq, hw1, hz, ht1]
    have hzM : |z.val| ≤ 2 ^ 1020 := by
      refine le_trans ?_ (big (c := 1) hM' (by norm_num) (by linarith))
      have : 1 * ((1 + ulp) * (|q.val| * W) + 2 ^ (-1075 : ℤ)) ≤ n * ((1 + ulp) * (|q.val| * W) + 2 ^ (-1075 : ℤ)) :=
        mul_le_mul_of_nonneg_right hn1 hQ0
      linarith
    obtain ⟨v, hv, hv'⟩ := mul_le hzM ht2
    exact ⟨v, hv, hv'.trans hz'⟩)
  refine ⟨k, h1, h2.trans ?_⟩
  rw [max_eq_left hQ0]
  linarith

/-- The margin that is left for disturbances. -/
theorem margin {f h M B : ℝ} {n : Nat} (f0 : 2 ^ (-8 : ℤ) ≤ f) (f1 : f ≤ 2 ^ 8) (h0 : 2 ^ (-15 : ℤ) ≤ h) (h1 : h ≤ 1) (hM : 1 ≤ M) (hn : n ≤ 2 ^ 28)
    (hB : 400 * (1 + f) ^ 2 * M = f * B) :
    5 * (h * (7 / 10 * M + n * (ulp * (6 * (5 / 4 * B)))) + 2 * (500 * (ulp * ((1 + f) * (5 / 4 * B))))) ≤ Stability.rate f h * B ∧ 400 * M ≤ B ∧
    h * M ≤ f * h / (1 + f) ^ 2 * B / 4 ∧ 400 * (1 + f) * M ≤ B := by
  have hu := ulp_pos
  have hu' := ulp_le
  have fb : (1 : ℝ) / 2 ^ 8 ≤ f := by refine le_trans (le_of_eq ?_) f0; norm_num
  have hb : (1 : ℝ) / 2 ^ 15 ≤ h := by refine le_trans (le_of_eq ?_) h0; norm_num
  have fp : 0 < f := by linarith [show (0 : ℝ) < 1 / 2 ^ 8 by norm_num]
  have hp : 0 < h := by linarith [show (0 : ℝ) < 1 / 2 ^ 15 by norm_num]
  set P := (1 + f) ^ 2 with hP
  have Pp : 0 < P := by rw [hP]; positivity
  have eB : B = 400 * P * M / f := by rw [eq_div_iff fp.ne']; linarith
  have Bp : 0 < B := by rw [eB]; positivity
  have hfP : f ≤ P := by rw [hP]; nlinarith
  have big1 : 400 * (1 + f) * M ≤ B := by
    rw [eB, le_div_iff₀ fp]
    have : (1 + f) * f ≤ P := by rw [hP]; nlinarith
    nlinarith
  have hn2 : (n : ℝ) ≤ 2 ^ 28 := by exact_mod_cast hn
  have hnu : (n : ℝ) * ulp ≤ 1 / 2 ^ 25 := by
    calc (n : ℝ) * ulp ≤ 2 ^ 28 * (1 / 2 ^ 53) := mul_le_mul hn2 hu' hu.le (by positivity)
      _ = _ := by norm_num
  -- `f / (1 + f)² ≥ 2⁻⁹`
  have g : 1 / 2 ^ 9 * P ≤ f := by
    rw [hP]
    have : 0 ≤ (f - 1 / 2 ^ 8) * (2 ^ 8 - f) := mul_nonneg (by linarith) (by linarith)
    nlinarith
  have r : f * h / (48 * P) ≤ Stability.rate f h := Stability.rate_lower fp hp.le h1
  refine ⟨?_, by nlinarith, ?_, big1⟩
  · refine le_trans ?_ (mul_le_mul_of_nonneg_right r Bp.le)
    rw [div_mul_eq_mul_div (f * h), le_div_iff₀ (by positivity)]
    have a1 : h * (7 / 10 * M) * (5 * (48 * P)) ≤ h * f * B * (43 / 100) := by
      have : h * (7 / 10 * M) * (5 * (48 * P)) = h * (400 * P * M) * (42 / 100) := by ring
      rw [this, hB]
      have : 0 < h * (f * B) := by positivity
      nlinarith
    have a2 : h * (n * (ulp * (6 * (5 / 4 * B)))) * (5 * (48 * P)) ≤ h * f * B * (1 / 10) := by
      have : h * (n * (ulp * (6 * (5 / 4 * B)))) * (5 * (48 * P)) = h * B * (n * ulp * (1800 * P)) := by ring
      rw [this]
      have : n * ulp * (1800 * P) ≤ f * (1 / 10) := by
        calc n * ulp * (1800 * P) ≤ 1 / 2 ^ 25 * (1800 * P) := mul_le_mul_of_nonneg_right hnu (by positivity)
          _ ≤ 1 / 10 * (1 / 2 ^ 9 * P) := by rw [← mul_assoc, ← mul_assoc]; exact mul_le_mul_of_nonneg_right (by norm_num) Pp.le
          _ ≤ f * (1 / 10) := by linarith
      calc h * B * (n * ulp * (1800 * P)) ≤ h * B * (f * (1 / 10)) := mul_le_mul_of_nonneg_left this (by positivity)
        _ = _ := by ring
    have a3 : 2 * (500 * (ulp * ((1 + f) * (5 / 4 * B)))) * (5 * (48 * P)) ≤ h * f * B * (4 / 10) := by
      have : 2 * (500 * (ulp * ((1 + f) * (5 / 4 * B)))) * (5 * (48 * P)) = B * (ulp * (300000 * (1 + f) * P)) := by ring
      rw [this]
      have : ulp * (300000 * (1 + f) * P) ≤ h * f * (4 / 10) := by
        calc ulp * (300000 * (1 + f) * P) ≤ 1 / 2 ^ 53 * (300000 * (1 + 2 ^ 8) * P) := by gcongr
          _ ≤ 1 / 2 ^ 15 * (1 / 2 ^ 9 * P) * (4 / 10) := by nlinarith
          _ ≤ h * f * (4 / 10) := by gcongr
      calc B * (ulp * (300000 * (1 + f) * P)) ≤ B * (h * f * (4 / 10)) := mul_le_mul_of_nonneg_left this Bp.le
        _ = _ := by ring
    have e : 0 < h * f * B := by positivity
    nlinarith
  · rw [div_mul_eq_mul_div, le_div_iff₀ (by norm_num), le_div_iff₀ Pp]
    have : f * h * B = h * (400 * P * M) := by rw [hB]; ring
    rw [this]
    have : 0 < h * (P * M) := by positivity
    nlinarith

/-- The state of one agent: finite numbers; `B` bounds the form, or for bots `M` the opinion and `B` the velocity. -/
structure Calm (f h M B : ℝ) (bot : Prop) (a : InertialAgent (Ieee R)) : Prop where
  holds : ∃ x v : Dbl R, a.opinion = fin x ∧ a.velocity = fin v ∧ (¬ bot → Stability.form f h x.val ((1 + f * h / 2) * v.val) ≤ B ^ 2) ∧
    (bot → |x.val| ≤ M ∧ |(1 + f * h / 2) * v.val| ≤ B)

set_option maxHeartbeats 1000000 in
/-- One Verlet step in double precision; the weights are of size at most `W`. -/
theorem kicked_fin {o : MathOps (Ieee R)} (ht : ∀ a, a ≠ nan → Within 1 (o.tanh a)) {p : ActivitySettings (Ieee R)}
    {N : Network (InertialAgent (Ieee R)) (Ieee R)} {al K h f : Dbl R} (hal : p.alpha = fin al) (hK : p.K = fin K) (hdt : p.dt = fin h)
    (h0 : 2 ^ (-15 : ℤ) ≤ h.val) (h1 : h.val ≤ 1) (f0 : 2 ^ (-8 : ℤ) ≤ f.val) (f1 : f.val ≤ 2 ^ 8) {M B W : ℝ} (hW : 1 ≤ W) (hWM : W ≤ M)
    (hB : 400 * (1 + f.val) ^ 2 * M = f.val * B) (hB' : B ≤ 2 ^ 980) (hn : N.agents.length ≤ 2 ^ 28)
    (hm : ∀ i, i < N.agents.length → ∃ m : Dbl R, attr ActiveAgent.reluctance N.agents i = fin m ∧ 2 ^ (-1000 : ℤ) ≤ m.val ∧ m.val ≤ 2 ^ 1000 ∧
      3 / 2 * |K.val| * N.agents.length * W ≤ M * m.val)
    (hw : ∀ i, i < N.agents.length → ∀ e ∈ row N i, Within W e.2) (hlen : ∀ i, (row N i).length ≤ N.agents.length) (hlt : ∀ i, ∀ e ∈ row N i, e.1 < N.agents.length)
    {bot : Nat → Prop} (hx : ∀ i (hi : i < N.agents.length), Calm f.val h.val M B (bot i) N.agents[i]) {i : Nat} (hi : i < N.agents.length) :
    ∃ x v : Dbl R, (kicked o p (fin f) N i N.agents[i]).opinion = fin x ∧ (kicked o p (fin f) N i N.agents[i]).velocity = fin v ∧
      (¬ bot i → Stability.form f.val h.val x.val ((1 + f.val * h.val / 2) * v.val) ≤ B ^ 2) ∧ (bot i → |(1 + f.val * h.val / 2) * v.val| ≤ B) := by
  have hM : 1 ≤ M := hW.trans hWM
  obtain ⟨g1, g2, g3, g4⟩ := margin f0 f1 h0 h1 hM hn hB
  have fp : 0 < f.val := lt_of_lt_of_le (by positivity) f0
  have hp : 0 < h.val := lt_of_lt_of_le (by positivity) h0
  have fh : 0 < f.val * h.val := mul_pos fp hp
  have hu := ulp_pos
  set d := 1 + f.val * h.val / 2 with hd
  have d1 : 1 ≤ d := by rw [hd]; linarith
  set S := 5 / 4 * B with hS
  have hMS : M ≤ S := by rw [hS]; linarith
  have hS1 : 1 ≤ S := hM.trans hMS
  have hS' : S ≤ 2 ^ 1000 := by
    have : (2 : ℝ) ^ 980 * 2 ≤ 2 ^ 1000 := by rw [← pow_succ]; exact pow_le_pow_right₀ (by norm_num) (by norm_num)
    refine le_trans ?_ this
    rw [hS]
    calc 5 / 4 * B ≤ B * 2 := by linarith
      _ ≤ _ := mul_le_mul_of_nonneg_right hB' (by norm_num)
  set U := (1 + f.val) * S with hUd
  have hSU : S ≤ U := by rw [hUd]; nlinarith
  have hU1 : 1 ≤ U := hS1.trans hSU
  have hfU : 1 + f.val ≤ U := by rw [hUd]; nlinarith
  have hU' : U ≤ 2 ^ 1000 := by
    have e : (2 : ℝ) ^ 1000 = 2 ^ 20 * 2 ^ 980 := by rw [← pow_add]
    rw [e, hUd, hS]
    calc (1 + f.val) * (5 / 4 * B) ≤ (1 + 2 ^ 8) * (5 / 4 * 2 ^ 980) := by gcongr
      _ = ((1 + 2 ^ 8) * (5 / 4)) * 2 ^ 980 := by ring
      _ ≤ 2 ^ 20 * 2 ^ 980 := mul_le_mul_of_nonneg_right (by norm_num) (pow_nonneg (by norm_num) _)
  set Γ := 7 / 10 * M + N.agents.length * (ulp * (6 * S)) with hΓ
  set δ := 500 * (ulp * U) with hδ
  have hδ0 : 0 < δ := by rw [hδ]; positivity
  have hΓ0 : 0 ≤ Γ := by rw [hΓ]; positivity
  have hrate : Stability.rate f.val h.val * B ≤ 1 / 96 * B := mul_le_mul_of_nonneg_right (Stability.rate_le fp hp.le h1) (by linarith)
  have hΓS : Γ ≤ S := by
    have hn2 : (N.agents.length : ℝ) ≤ 2 ^ 28 := by exact_mod_cast hn
    have : (N.agents.length : ℝ) * ulp ≤ 1 / 2 ^ 25 := by
      calc (N.agents.length : ℝ) * ulp ≤ 2 ^ 28 * (1 / 2 ^ 53) := mul_le_mul hn2 ulp_le hu.le (by positivity)
        _ = _ := by norm_num
    have := mul_le_mul_of_nonneg_right this (show 0 ≤ 6 * S by linarith)
    rw [hΓ, ← mul_assoc]
    linarith
  have hδS : δ ≤ S := by
    have : 0 ≤ h.val * Γ := mul_nonneg hp.le hΓ0
    linarith
  have hn0 : 0 < N.agents.length := by omega
  -- the state before the step
  have P : ∀ j (hj : j < N.agents.length), ∃ x v : Dbl R, N.agents[j].opinion = fin x ∧ N.agents[j].velocity = fin v ∧ |x.val| ≤ S ∧ |d * v.val| ≤ S ∧
      (¬ bot j → Stability.form f.val h.val x.val (d * v.val) ≤ B ^ 2) ∧ (bot j → |x.val| ≤ M ∧ |d * v.val| ≤ B) := by
    intro j hj
    obtain ⟨x, v, e1, e2, e3, e4⟩ := (hx j hj).holds
    by_cases hb : bot j
    · obtain ⟨b1, b2⟩ := e4 hb
      exact ⟨x, v, e1, e2, b1.trans hMS, by rw [hS]; exact b2.trans (by linarith), e3, e4⟩
    · obtain ⟨b1, b2⟩ := Stability.form_bound fp hp.le h1 (show 0 ≤ B by linarith) (e3 hb)
      exact ⟨x, v, e1, e2, b1, b2, e3, e4⟩
  have vS : ∀ v : ℝ, |d * v| ≤ S → |v| ≤ S := by
    intro v hv
    rw [abs_mul, abs_of_pos (by linarith)] at hv
    exact (le_mul_of_one_le_left (abs_nonneg _) d1).trans hv
  have fvU : ∀ v : ℝ, |v| ≤ S → |f.val * v| ≤ U := by
    intro v hv
    rw [abs_mul, abs_of_pos fp, hUd]
    exact mul_le_mul (by linarith) hv (abs_nonneg _) (by linarith)
  -- slopes
  have slopes : ∀ (L : Network (InertialAgent (Ieee R)) (Ieee R)), L.agents.length = N.agents.length → (∀ j, row L j = row N j) →
      (∀ j, attr ActiveAgent.reluctance L.agents j = attr ActiveAgent.reluctance N.agents j) → ∀ X : Nat → Ieee R,
      (∀ j, j < N.agents.length → ∃ c : Dbl R, X j = fin c ∧ |c.val| ≤ 4 * S) → ∀ j, j < N.agents.length → ∀ c : Dbl R, X j = fin c →
      ∃ k : Dbl R, slope o p L X j = fin k ∧ |k.val + c.val| ≤ Γ := by
    intro L hL hrow hrel X hX j hj c hc
    obtain ⟨m, m1, m2, m3, m4⟩ := hm j hj
    obtain ⟨c', hc', hc4⟩ := hX j hj
    obtain rfl : c = c' := Ieee.fin.inj (hc.symm.trans hc')
    refine slope_near ht hal hK hW hWM hMS hS' hn hn0 ((hrel j).trans m1) m2 m3 m4 (fun e he => hw j hj e (by rw [← hrow]; exact he))
      (by rw [hrow]; exact hlen j) (fun e he => ?_) hc hc4
    obtain ⟨c2, q2, -⟩ := hX e.1 (hlt j e (by rw [← hrow]; exact he))
    exact ⟨c2, q2⟩
  have hop : ∀ j (hj : j < N.agents.length), attr ActiveAgent.opinion N.agents j = N.agents[j].opinion := fun j hj => Activity.attr_lt _ hj
  have hX0 : ∀ j, j < N.agents.length → ∃ c : Dbl R, attr ActiveAgent.opinion N.agents j = fin c ∧ |c.val| ≤ 4 * S := by
    intro j hj
    obtain ⟨x, v, e1, -, e3, -⟩ := P j hj
    exact ⟨x, by rw [hop j hj, e1], by linarith⟩
  -- positions
  have Q : ∀ j (hj : j < N.agents.length), ∃ x v k x' : Dbl R, N.agents[j].opinion = fin x ∧ N.agents[j].velocity = fin v ∧ |x.val| ≤ S ∧ |d * v.val| ≤ S ∧
      (¬ bot j → Stability.form f.val h.val x.val (d * v.val) ≤ B ^ 2) ∧ (bot j → |x.val| ≤ M ∧ |d * v.val| ≤ B) ∧
      slope o p N (attr ActiveAgent.opinion N.agents) j = fin k ∧ |k.val + x.val| ≤ Γ ∧ (moved o p (fin f) N j N.agents[j]).opinion = fin x' ∧
      |x'.val - (x.val + v.val * h.val + (k.val - f.val * v.val) * h.val ^ 2 / 2)| ≤ δ ∧ |x'.val| ≤ 4 * S := by
    intro j hj
    obtain ⟨x, v, e1, e2, e3, e4, e5, e6⟩ := P j hj
    obtain ⟨k, hk, hk'⟩ := slopes N rfl (fun _ => rfl) (fun _ => rfl) _ hX0 j hj x (by rw [hop j hj, e1])
    have hkU : |k.val| ≤ 8 * U := by
      have := abs_sub (k.val + x.val) x.val
      rw [add_sub_cancel_right] at this
      linarith
    obtain ⟨x', hx', ex'⟩ := position_fin hU1 hU' (e3.trans hSU) ((vS _ e4).trans hSU) (fvU _ (vS _ e4)) hkU hp.le h1
    have ex : |x'.val - (x.val + v.val * h.val + (k.val - f.val * v.val) * h.val ^ 2 / 2)| ≤ δ := by
      refine ex'.trans ?_
      rw [hδ]
      have : 0 < ulp * U := by positivity
      linarith
    refine ⟨x, v, k, x', e1, e2, e3, e4, e5, e6, hk, hk', ?_, ex, ?_⟩
    · unfold moved
      rw [e1, e2, hk, hdt]
      exact hx'
    · have hdamp : |(1 - f.val * h.val / 2) * v.val| ≤ S := by
        refine le_trans ?_ e4
        rw [abs_mul, abs_mul]
        apply mul_le_mul_of_nonneg_right _ (abs_nonneg _)
        rw [abs_of_pos (by linarith : 0 < d), hd, abs_le]
        constructor <;> linarith
      have hh : h.val ^ 2 ≤ 1 := pow_le_one₀ hp.le h1
      have hhp : 0 < h.val ^ 2 := by positivity
      have z : x.val + v.val * h.val + (k.val - f.val * v.val) * h.val ^ 2 / 2 =
          (1 - h.val ^ 2 / 2) * x.val + (1 - f.val * h.val / 2) * v.val * h.val + (k.val + x.val) * (h.val ^ 2 / 2) := by ring
      rw [z] at ex
      have z1 : |(1 - h.val ^ 2 / 2) * x.val| ≤ S := by
        rw [mul_comm]; exact abs_mul_unit (by linarith) (by linarith) e3
      have z2 : |(1 - f.val * h.val / 2) * v.val * h.val| ≤ S := abs_mul_unit hp.le h1 hdamp
      have z3 : |(k.val + x.val) * (h.val ^ 2 / 2)| ≤ S := abs_mul_unit (by linarith) (by linarith) (hk'.trans hΓS)
      obtain ⟨p1, p2⟩ := abs_le.mp ex
      obtain ⟨q1, q2⟩ := abs_le.mp z1
      obtain ⟨r1, r2⟩ := abs_le.mp z2
      obtain ⟨s1, s2⟩ := abs_le.mp z3
      rw [abs_le]
      constructor <;> linarith
  have hml : (movedNet o p (fin f) N).agents.length = N.agents.length := by simp [movedNet]
  have hmop : ∀ j (hj : j < N.agents.length), attr ActiveAgent.opinion (movedNet o p (fin f) N).agents j = (moved o p (fin f) N j N.agents[j]).opinion := by
    intro j hj
    rw [Activity.attr_lt _ (by rw [hml]; exact hj)]
    simp [movedNet, ActiveAgent.opinion]
  have hmrel : ∀ j, attr ActiveAgent.reluctance (movedNet o p (fin f) N).agents j = attr ActiveAgent.reluctance N.agents j := by
    intro j
    by_cases hj : j < N.agents.length
    · rw [Activity.attr_lt _ (by rw [hml]; exact hj), Activity.attr_lt _ hj]
      simp [movedNet, moved, ActiveAgent.reluctance]
    · unfold attr
      rw [List.getD_eq_getElem?_getD, List.getD_eq_getElem?_getD, List.getElem?_eq_none (by simp [hml]; omega), List.getElem?_eq_none (by simp; omega)]
  obtain ⟨x, v, k, x', e1, e2, e3, e4, e5, e6, e7, e8, e9, e10, e11⟩ := Q i hi
  obtain ⟨k', hk', ek'⟩ := slopes (movedNet o p (fin f) N) hml (fun _ => rfl) hmrel (attr ActiveAgent.opinion (movedNet o p (fin f) N).agents)
    (fun j hj => by
      obtain ⟨_, _, _, y, _, _, _, _, _, _, _, _, q1, _, q2⟩ := Q j hj
      exact ⟨y, by rw [hmop j hj, q1], q2⟩) i hi x' (by rw [hmop i hi, e9])
  have hkU : |k.val| ≤ 8 * U := by
    have := abs_sub (k.val + x.val) x.val
    rw [add_sub_cancel_right] at this
    linarith
  have hkU' : |k'.val| ≤ 8 * U := by
    have := abs_sub (k'.val + x'.val) x'.val
    rw [add_sub_cancel_right] at this
    linarith
  obtain ⟨w, hw, ew⟩ := velocity_fin hU1 hU' hfU ((vS _ e4).trans hSU) (fvU _ (vS _ e4)) hkU hkU' f0 f1 h0 h1
  have c1 : x'.val = x.val + v.val * h.val + (-x.val + (k.val + x.val) - f.val * v.val) * h.val ^ 2 / 2 +
      (x'.val - (x.val + v.val * h.val + (k.val - f.val * v.val) * h.val ^ 2 / 2)) := by ring
  have c2 : (1 + f.val * h.val / 2) * w.val = v.val + h.val / 2 * ((-x.val + (k.val + x.val) - f.val * v.val) + (-x'.val + (k'.val + x'.val))) +
      ((1 + f.val * h.val / 2) * w.val - (v.val + h.val / 2 * (k.val - f.val * v.val + k'.val))) := by ring
  refine ⟨x', w, e9, ?_, fun hb => ?_, fun hb => ?_⟩
  · unfold kicked
    simp only
    rw [e2, e7, hk', hdt]
    exact hw
  · exact Stability.form_next fp hp h1 c1 c2 e8 ek' e10 ew (e5 hb) g1
  · obtain ⟨b1, b2⟩ := e6 hb
    refine Stability.bot_next fp hp h1 c1 c2 e8 ek' e10 ew b1 b2 ?_
    have hmix : Stability.rate f.val h.val ≤ f.val * h.val / (1 + f.val) ^ 2 / 4 := by
      refine (Stability.rate_upper fp hp.le).trans ?_
      unfold Stability.mix
      rw [div_mul_eq_mul_div, div_div, div_le_div_iff₀ (by positivity) (by positivity)]
      have : 0 < f.val * h.val * (1 + f.val) ^ 2 := by positivity
      nlinarith
    have hB0 : 0 ≤ B := by linarith
    have hmB := mul_le_mul_of_nonneg_right hmix hB0
    have : 0 ≤ h.val * Γ := mul_nonneg hp.le hΓ0
    have : 0 ≤ f.val * h.val / (1 + f.val) ^ 2 * B := by positivity
    linarith

end Inertial
end Seldon
