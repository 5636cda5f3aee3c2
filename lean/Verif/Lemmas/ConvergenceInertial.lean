import Verif.Props.Convergence
/-!
# The velocity Verlet step for the opinion dynamics with friction, uniformly in the weights, opinions and velocities
-/
set_option linter.unusedSectionVars false
namespace Seldon.Uniform
open Spec Filter Topology Finset
variable {n : Nat} {a κ M : ℝ}

theorem mean_value {u u' : ℝ → ℝ} {b e C : ℝ} (hd : ∀ t ∈ Set.Icc b e, HasDerivWithinAt u (u' t) (Set.Icc b e) t) (hC : ∀ t ∈ Set.Icc b e, |u' t| ≤ C)
    {s t : ℝ} (hs : s ∈ Set.Icc b e) (ht : t ∈ Set.Icc b e) : |u t - u s| ≤ C * |t - s| :=
  Convex.norm_image_sub_le_of_norm_hasDerivWithin_le hd (fun t ht => hC t ht) (convex_Icc b e) hs ht

theorem tanh1_le (y : ℝ) : |tanh1 (Real.tanh y)| ≤ 1 := by
  have h := abs_le.mp (abs_tanh_le y)
  have h2 : (Real.tanh y) ^ 2 ≤ 1 := by nlinarith [h.1, h.2]
  have h3 : 0 ≤ (Real.tanh y) ^ 2 := sq_nonneg _
  unfold tanh1
  rw [abs_le]
  constructor <;> linarith

theorem tanh1_lipschitz (y z : ℝ) : |tanh1 (Real.tanh y) - tanh1 (Real.tanh z)| ≤ 2 * |y - z| := by
  have e : tanh1 (Real.tanh y) - tanh1 (Real.tanh z) = -((Real.tanh y + Real.tanh z) * (Real.tanh y - Real.tanh z)) := by unfold tanh1; ring
  rw [e, abs_neg, abs_mul]
  refine mul_le_mul ?_ (tanh_lipschitz _ _) (abs_nonneg _) (by norm_num)
  have := add_le_add (abs_tanh_le y) (abs_tanh_le z)
  exact (abs_add_le _ _).trans (by linarith)

/-- The residual of the exact solution in the equations of a Verlet step. -/
theorem verlet_local {alpha : ℝ} (ha : |alpha| ≤ a) {A : Nat → Nat → ℝ} (hA : ∀ i, i < n → ∀ j, j < n → |A i j| ≤ κ) (hκ : 0 ≤ κ) {c cc : ℝ} (hc : 0 ≤ c)
    (hcc : c ≤ cc) {b h : ℝ} (h0 : 0 ≤ h) (h1 : h ≤ 1) {y ν : ℝ → Nat → ℝ}
    (hd : ∀ t ∈ Set.Icc b (b + h), ∀ i, i < n → HasDerivWithinAt (fun t => y t i) (ν t i) (Set.Icc b (b + h)) t ∧
      HasDerivWithinAt (fun t => ν t i) (field n alpha A (y t) i - c * ν t i) (Set.Icc b (b + h)) t)
    (hb : ∀ t ∈ Set.Icc b (b + h), ∀ i, i < n → |y t i| ≤ M ∧ |ν t i| ≤ M) {L Acc P Q : ℝ} (hL : 1 + n * (κ * a) = L) (hAcc : M + n * κ + cc * M = Acc)
    (hP : L * M + cc * Acc = P) (hQ : Acc + n * (κ * (2 * a * a * M * M + a * Acc)) + cc * P = Q) :
    ∀ i, i < n → |y (b + h) i - (y b i + ν b i * h + (field n alpha A (y b) i - c * ν b i) * h ^ 2 / 2)| ≤ P * h ^ 3 ∧
      |ν (b + h) i - (ν b i + h / 2 * ((field n alpha A (y b) i - c * ν b i) + (field n alpha A (y (b + h)) i - c * ν (b + h) i)))| ≤ Q * h ^ 3 := by
  have ha0 : 0 ≤ a := (abs_nonneg _).trans ha
  have hcc0 : 0 ≤ cc := hc.trans hcc
  have hL0 : 0 ≤ L := by rw [← hL]; positivity
  have mb : b ∈ Set.Icc b (b + h) := ⟨le_rfl, by linarith⟩
  have me : b + h ∈ Set.Icc b (b + h) := ⟨by linarith, le_rfl⟩
  have dist : ∀ s ∈ Set.Icc b (b + h), ∀ t ∈ Set.Icc b (b + h), |t - s| ≤ h := by
    intro s hs t ht
    rw [abs_le]; constructor <;> linarith [hs.1, hs.2, ht.1, ht.2]
  rcases Nat.eq_zero_or_pos n with rfl | hn
  · exact fun i hi => absurd hi (by omega)
  have hM0 : 0 ≤ M := (abs_nonneg _).trans (hb b mb 0 hn).1
  have hAcc0 : 0 ≤ Acc := by rw [← hAcc]; positivity
  have hP0 : 0 ≤ P := by rw [← hP]; positivity
  have hQ0 : 0 ≤ Q := by rw [← hQ]; positivity
  set acc : ℝ → Nat → ℝ := fun t i => field n alpha A (y t) i - c * ν t i with hacc
  have bacc : ∀ t ∈ Set.Icc b (b + h), ∀ i, i < n → |acc t i| ≤ Acc := by
    intro t ht i hi
    have h2 := field_bound (alpha := alpha) (hA i hi) (hb t ht i hi).1
    have h3 : |c * ν t i| ≤ cc * M := by
      rw [abs_mul, abs_of_nonneg hc]
      exact mul_le_mul hcc (hb t ht i hi).2 (abs_nonneg _) hcc0
    rw [← hAcc]
    exact (abs_sub _ _).trans (add_le_add h2 h3)
  have ly : ∀ s ∈ Set.Icc b (b + h), ∀ t ∈ Set.Icc b (b + h), ∀ i, i < n → |y t i - y s i| ≤ M * |t - s| := fun s hs t ht i hi =>
    mean_value (fun t ht => (hd t ht i hi).1) (fun t ht => (hb t ht i hi).2) hs ht
  have lν : ∀ s ∈ Set.Icc b (b + h), ∀ t ∈ Set.Icc b (b + h), ∀ i, i < n → |ν t i - ν s i| ≤ Acc * |t - s| := fun s hs t ht i hi =>
    mean_value (fun t ht => (hd t ht i hi).2) (fun t ht => bacc t ht i hi) hs ht
  have lacc : ∀ s ∈ Set.Icc b (b + h), ∀ t ∈ Set.Icc b (b + h), ∀ i, i < n → |acc t i - acc s i| ≤ P * |t - s| := by
    intro s hs t ht i hi
    have h2 := field_lipschitz ha hi (hA i hi) (fun j hj => ly s hs t ht j hj)
    rw [hL] at h2
    have h3 : |c * (ν t i - ν s i)| ≤ cc * (Acc * |t - s|) := by
      rw [abs_mul, abs_of_nonneg hc]
      exact mul_le_mul hcc (lν s hs t ht i hi) (abs_nonneg _) hcc0
    have e : acc t i - acc s i = (field n alpha A (y t) i - field n alpha A (y s) i) - c * (ν t i - ν s i) := by simp only [hacc]; ring
    rw [e, ← hP]
    refine (abs_sub _ _).trans ((add_le_add h2 h3).trans (le_of_eq ?_))
    ring
  -- the derivative of the acceleration
  set acc' : ℝ → Nat → ℝ := fun t i => (-ν t i + ∑ j ∈ range n, A i j * (tanh1 (Real.tanh (alpha * y t j)) * (alpha * ν t j))) - c * acc t i with hacc'
  have dacc : ∀ t ∈ Set.Icc b (b + h), ∀ i, i < n → HasDerivWithinAt (fun t => acc t i) (acc' t i) (Set.Icc b (b + h)) t := by
    intro t ht i hi
    have h2 : ∀ j ∈ range n, HasDerivWithinAt (fun t => A i j * Real.tanh (alpha * y t j))
        (A i j * (tanh1 (Real.tanh (alpha * y t j)) * (alpha * ν t j))) (Set.Icc b (b + h)) t := by
      intro j hj
      have h3 := ((hd t ht j (mem_range.mp hj)).1.const_mul alpha)
      rw [tanh1_eq]
      exact ((hasDerivAt_tanh (alpha * y t j)).comp_hasDerivWithinAt t h3).const_mul (A i j)
    exact (((hd t ht i hi).1.neg).add (HasDerivWithinAt.fun_sum h2)).sub ((hd t ht i hi).2.const_mul c)
  have lacc' : ∀ s ∈ Set.Icc b (b + h), ∀ t ∈ Set.Icc b (b + h), ∀ i, i < n → |acc' t i - acc' s i| ≤ Q * |t - s| := by
    intro s hs t ht i hi
    have hδ : 0 ≤ |t - s| := abs_nonneg _
    have term : ∀ j ∈ range n, |A i j * (tanh1 (Real.tanh (alpha * y t j)) * (alpha * ν t j)) - A i j * (tanh1 (Real.tanh (alpha * y s j)) * (alpha * ν s j))| ≤
        κ * (2 * a * a * M * M + a * Acc) * |t - s| := by
      intro j hj
      have hj := mem_range.mp hj
      have e : A i j * (tanh1 (Real.tanh (alpha * y t j)) * (alpha * ν t j)) - A i j * (tanh1 (Real.tanh (alpha * y s j)) * (alpha * ν s j)) =
          A i j * ((tanh1 (Real.tanh (alpha * y t j)) - tanh1 (Real.tanh (alpha * y s j))) * (alpha * ν t j) +
            tanh1 (Real.tanh (alpha * y s j)) * (alpha * (ν t j - ν s j))) := by ring
      have p1 : |tanh1 (Real.tanh (alpha * y t j)) - tanh1 (Real.tanh (alpha * y s j))| ≤ 2 * (a * (M * |t - s|)) := by
        refine (tanh1_lipschitz _ _).trans ?_
        rw [← mul_sub, abs_mul]
        exact mul_le_mul_of_nonneg_left (mul_le_mul ha (ly s hs t ht j hj) (abs_nonneg _) ha0) (by norm_num)
      have p2 : |alpha * ν t j| ≤ a * M := by
        rw [abs_mul]; exact mul_le_mul ha (hb t ht j hj).2 (abs_nonneg _) ha0
      have p3 : |alpha * (ν t j - ν s j)| ≤ a * (Acc * |t - s|) := by
        rw [abs_mul]; exact mul_le_mul ha (lν s hs t ht j hj) (abs_nonneg _) ha0
      rw [e, abs_mul, mul_assoc]
      refine mul_le_mul (hA i hi j hj) ?_ (abs_nonneg _) hκ
      have q1 : |(tanh1 (Real.tanh (alpha * y t j)) - tanh1 (Real.tanh (alpha * y s j))) * (alpha * ν t j)| ≤ 2 * (a * (M * |t - s|)) * (a * M) := by
        rw [abs_mul]; exact mul_le_mul p1 p2 (abs_nonneg _) (by positivity)
      have q2 : |tanh1 (Real.tanh (alpha * y s j)) * (alpha * (ν t j - ν s j))| ≤ 1 * (a * (Acc * |t - s|)) := by
        rw [abs_mul]; exact mul_le_mul (tanh1_le (alpha * y s j)) p3 (abs_nonneg _) zero_le_one
      refine (abs_add_le _ _).trans ((add_le_add q1 q2).trans (le_of_eq ?_))
      ring
    have hsum : |∑ j ∈ range n, A i j * (tanh1 (Real.tanh (alpha * y t j)) * (alpha * ν t j)) -
        ∑ j ∈ range n, A i j * (tanh1 (Real.tanh (alpha * y s j)) * (alpha * ν s j))| ≤ n * (κ * (2 * a * a * M * M + a * Acc)) * |t - s| := by
      rw [← sum_sub_distrib]
      refine (abs_sum_le_sum_abs _ _).trans ((sum_le_sum term).trans (le_of_eq ?_))
      rw [sum_const, card_range, nsmul_eq_mul]; ring
    have h3 : |c * (acc t i - acc s i)| ≤ cc * (P * |t - s|) := by
      rw [abs_mul, abs_of_nonneg hc]
      exact mul_le_mul hcc (lacc s hs t ht i hi) (abs_nonneg _) hcc0
    have h4 : |-(ν t i - ν s i)| ≤ Acc * |t - s| := by rw [abs_neg]; exact lν s hs t ht i hi
    have e : acc' t i - acc' s i = -(ν t i - ν s i) + (∑ j ∈ range n, A i j * (tanh1 (Real.tanh (alpha * y t j)) * (alpha * ν t j)) -
        ∑ j ∈ range n, A i j * (tanh1 (Real.tanh (alpha * y s j)) * (alpha * ν s j))) - c * (acc t i - acc s i) := by simp only [hacc']; ring
    rw [e, ← hQ]
    refine (abs_sub _ _).trans ((add_le_add ((abs_add_le _ _).trans (add_le_add h4 hsum)) h3).trans (le_of_eq ?_))
    ring
  intro i hi
  have did : ∀ t ∈ Set.Icc b (b + h), HasDerivWithinAt (fun t : ℝ => t - b) 1 (Set.Icc b (b + h)) t := fun t _ =>
    ((hasDerivAt_id' t).sub_const _).hasDerivWithinAt
  -- position
  have c3 : ∀ t ∈ Set.Icc b (b + h), |ν t i - ν b i - (t - b) * acc b i| ≤ P * h * h := by
    intro t ht
    have := mean_value (u := fun t => ν t i - (t - b) * acc b i) (u' := fun t => acc t i - acc b i) (C := P * h)
      (fun t ht => by
        have := (hd t ht i hi).2.sub ((did t ht).mul_const (acc b i))
        rw [one_mul] at this
        exact this)
      (fun t ht => (lacc b mb t ht i hi).trans (mul_le_mul_of_nonneg_left (dist b mb t ht) hP0)) mb ht
    have h2 : P * h * |t - b| ≤ P * h * h := mul_le_mul_of_nonneg_left (dist b mb t ht) (by positivity)
    rw [show ν t i - ν b i - (t - b) * acc b i = ν t i - (t - b) * acc b i - (ν b i - (b - b) * acc b i) by ring]
    exact this.trans h2
  have c4 : |y (b + h) i - (y b i + ν b i * h + acc b i * h ^ 2 / 2)| ≤ P * h ^ 3 := by
    have := mean_value (u := fun t => y t i - (t - b) * ν b i - (t - b) ^ 2 * (acc b i / 2)) (u' := fun t => ν t i - ν b i - (t - b) * acc b i) (C := P * h * h)
      (fun t ht => by
        have := ((hd t ht i hi).1.sub ((did t ht).mul_const (ν b i))).sub (((did t ht).pow 2).mul_const (acc b i / 2))
        refine this.congr_deriv ?_
        push_cast
        ring)
      c3 mb me
    rw [show b + h - b = h by ring, abs_of_nonneg h0] at this
    rw [show y (b + h) i - (y b i + ν b i * h + acc b i * h ^ 2 / 2) =
      y (b + h) i - h * ν b i - h ^ 2 * (acc b i / 2) - (y b i - (b - b) * ν b i - (b - b) ^ 2 * (acc b i / 2)) by ring]
    exact this.trans (le_of_eq (by ring))
  -- velocity
  have c8 : ∀ t ∈ Set.Icc b (b + h), |acc t i - acc b i - (t - b) * acc' t i| ≤ Q * h * h := by
    intro t ht
    have := mean_value (u := fun s => acc s i - (s - b) * acc' t i) (u' := fun s => acc' s i - acc' t i) (C := Q * h)
      (fun s hs => by
        have := (dacc s hs i hi).sub ((did s hs).mul_const (acc' t i))
        rw [one_mul] at this
        exact this)
      (fun s hs => (lacc' t ht s hs i hi).trans (mul_le_mul_of_nonneg_left (dist t ht s hs) hQ0)) mb ht
    have h2 : Q * h * |t - b| ≤ Q * h * h := mul_le_mul_of_nonneg_left (dist b mb t ht) (by positivity)
    rw [show acc t i - acc b i - (t - b) * acc' t i = acc t i - (t - b) * acc' t i - (acc b i - (b - b) * acc' t i) by ring]
    exact this.trans h2
  have c9 : |ν (b + h) i - (ν b i + h / 2 * (acc b i + acc (b + h) i))| ≤ Q * h ^ 3 := by
    have := mean_value (u := fun t => ν t i - (t - b) * ((acc b i + acc t i) / 2)) (u' := fun t => (acc t i - acc b i - (t - b) * acc' t i) / 2) (C := Q * h * h)
      (fun t ht => by
        have := (hd t ht i hi).2.sub ((did t ht).mul (((dacc t ht i hi).const_add (acc b i)).div_const 2))
        refine this.congr_deriv ?_
        simp only [hacc]
        ring)
      (fun t ht => by
        rw [abs_div, abs_of_pos (by norm_num : (0 : ℝ) < 2)]
        have h2 := c8 t ht
        have h3 : 0 ≤ Q * h * h := by positivity
        linarith) mb me
    rw [show b + h - b = h by ring, abs_of_nonneg h0] at this
    rw [show ν (b + h) i - (ν b i + h / 2 * (acc b i + acc (b + h) i)) =
      ν (b + h) i - h * ((acc b i + acc (b + h) i) / 2) - (ν b i - (b - b) * ((acc b i + acc b i) / 2)) by ring]
    exact this.trans (le_of_eq (by ring))
  exact ⟨c4, c9⟩

/-- A Verlet step compared with values that satisfy its equations up to `p` and `q`. -/
theorem verlet_stable {f : (Nat → ℝ) → Nat → ℝ} {L : ℝ} (hL : 0 ≤ L)
    (hf : ∀ (y z : Nat → ℝ) d, (∀ j, j < n → |y j - z j| ≤ d) → ∀ i, i < n → |f y i - f z i| ≤ L * d) {c cc h : ℝ} (hc : 0 ≤ c) (hcc : c ≤ cc)
    (h0 : 0 ≤ h) (h1 : h ≤ 1) {x v x' v' : Nat → ℝ} (hV : VerletStep f c h n x v x' v') {y ν y' ν' : Nat → ℝ} {p q d : ℝ}
    (hy : ∀ i, i < n → |y' i - (y i + ν i * h + (f y i - c * ν i) * h ^ 2 / 2)| ≤ p)
    (hν : ∀ i, i < n → |ν' i - (ν i + h / 2 * ((f y i - c * ν i) + (f y' i - c * ν' i)))| ≤ q)
    (hd : ∀ i, i < n → |x i - y i| ≤ d ∧ |v i - ν i| ≤ d) :
    ∀ i, i < n → |x' i - y' i| ≤ (1 + (1 + L + cc) * (2 + L) * h) * d + (1 + L) * p + q ∧
      |v' i - ν' i| ≤ (1 + (1 + L + cc) * (2 + L) * h) * d + (1 + L) * p + q := by
  rcases Nat.eq_zero_or_pos n with rfl | hn
  · exact fun i hi => absurd hi (by omega)
  have hcc0 : 0 ≤ cc := hc.trans hcc
  have hd0 : 0 ≤ d := (abs_nonneg _).trans (hd 0 hn).1
  have hp0 : 0 ≤ p := (abs_nonneg _).trans (hy 0 hn)
  have hq0 : 0 ≤ q := (abs_nonneg _).trans (hν 0 hn)
  have hff : ∀ i, i < n → |f x i - f y i| ≤ L * d := hf x y d fun j hj => (hd j hj).1
  have pos : ∀ i, i < n → |x' i - y' i| ≤ (1 + (1 + L + cc) * h) * d + p := by
    intro i hi
    have e : x' i - y' i = (x i - y i) + h * (v i - ν i) + h ^ 2 / 2 * (f x i - f y i) - h ^ 2 / 2 * c * (v i - ν i) -
        (y' i - (y i + ν i * h + (f y i - c * ν i) * h ^ 2 / 2)) := by rw [hV.position i hi]; ring
    obtain ⟨d1, d2⟩ := hd i hi
    have t1 : |h * (v i - ν i)| ≤ h * d := by rw [abs_mul, abs_of_nonneg h0]; exact mul_le_mul_of_nonneg_left d2 h0
    have hh : h ^ 2 / 2 ≤ h := by nlinarith
    have hh0 : 0 ≤ h ^ 2 / 2 := by positivity
    have t2 : |h ^ 2 / 2 * (f x i - f y i)| ≤ h * (L * d) := by
      rw [abs_mul, abs_of_nonneg hh0]
      exact mul_le_mul hh (hff i hi) (abs_nonneg _) h0
    have t3 : |h ^ 2 / 2 * c * (v i - ν i)| ≤ h * cc * d := by
      rw [abs_mul, abs_of_nonneg (by positivity)]
      exact mul_le_mul (mul_le_mul hh hcc hc h0) d2 (abs_nonneg _) (by positivity)
    have t4 := hy i hi
    rw [e]
    rw [abs_le] at *
    constructor <;> linarith [d1.1, d1.2, t1.1, t1.2, t2.1, t2.2, t3.1, t3.2, t4.1, t4.2]
  intro i hi
  set S := 1 + L + cc with hS
  have hS0 : 0 ≤ S := by positivity
  have hSL : 0 ≤ S * (2 + L) := by positivity
  constructor
  · refine (pos i hi).trans ?_
    have h2 : (1 + S * h) * d ≤ (1 + S * (2 + L) * h) * d := by
      have : S * h ≤ S * (2 + L) * h := by
        have : S ≤ S * (2 + L) := le_mul_of_one_le_right hS0 (by linarith)
        exact mul_le_mul_of_nonneg_right this h0
      exact mul_le_mul_of_nonneg_right (by linarith) hd0
    have h3 : p ≤ (1 + L) * p := le_mul_of_one_le_left hp0 (by linarith)
    linarith
  · have hff' := hf x' y' _ pos i hi
    have hc1 : 0 ≤ h * c / 2 := by positivity
    have e : (1 + h * c / 2) * (v' i - ν' i) = (1 - h * c / 2) * (v i - ν i) + h / 2 * ((f x i - f y i) + (f x' i - f y' i)) -
        (ν' i - (ν i + h / 2 * ((f y i - c * ν i) + (f y' i - c * ν' i)))) := by
      have := hV.velocity i hi
      linear_combination this
    have d2 := (hd i hi).2
    have t1 : |(1 - h * c / 2) * (v i - ν i)| ≤ (1 + h * c / 2) * d := by
      rw [abs_mul]
      refine mul_le_mul ?_ d2 (abs_nonneg _) (by positivity)
      rw [abs_le]; constructor <;> linarith
    have t2 : |h / 2 * ((f x i - f y i) + (f x' i - f y' i))| ≤ h / 2 * (L * d + L * ((1 + S * h) * d + p)) := by
      rw [abs_mul, abs_of_nonneg (by linarith : 0 ≤ h / 2)]
      exact mul_le_mul_of_nonneg_left ((abs_add_le _ _).trans (add_le_add (hff i hi) hff')) (by linarith)
    have t3 := hν i hi
    have t4 : (1 + h * c / 2) * |v' i - ν' i| ≤ (1 + h * c / 2) * d + h / 2 * (L * d + L * ((1 + S * h) * d + p)) + q := by
      calc (1 + h * c / 2) * |v' i - ν' i| = |(1 + h * c / 2) * (v' i - ν' i)| := by rw [abs_mul, abs_of_nonneg (by positivity : 0 ≤ 1 + h * c / 2)]
        _ ≤ _ := by
          rw [e]
          exact (abs_sub _ _).trans (add_le_add ((abs_add_le _ _).trans (add_le_add t1 t2)) t3)
    set R := h / 2 * (L * d + L * ((1 + S * h) * d + p)) + q with hR
    have hR0 : 0 ≤ R := by positivity
    have t5 : |v' i - ν' i| ≤ d + R := by
      by_contra hlt
      push Not at hlt
      have : (1 + h * c / 2) * (d + R) < (1 + h * c / 2) * |v' i - ν' i| := mul_lt_mul_of_pos_left hlt (by positivity)
      nlinarith [mul_nonneg hc1 hR0]
    refine t5.trans ?_
    have u1 : h * (S * h) ≤ h * S := by
      have : S * h ≤ S := mul_le_of_le_one_right hS0 h1
      exact mul_le_mul_of_nonneg_left this h0
    have u2 : L * h * p ≤ L * p := by
      have : L * h ≤ L := mul_le_of_le_one_right hL h1
      exact mul_le_mul_of_nonneg_right this hp0
    have u3 : L * d * (h * (S * h)) ≤ L * d * (h * S) := mul_le_mul_of_nonneg_left u1 (by positivity)
    have u4 : L * h * d ≤ S * h * d := by
      have : L ≤ S := by rw [hS]; linarith
      gcongr
    have u5 : 0 ≤ L * d * (h * S) := by positivity
    have u6 : 0 ≤ L * p := by positivity
    have e2 : (1 + S * (2 + L) * h) * d + (1 + L) * p + q = d + 2 * (S * h * d) + L * d * (h * S) + p + L * p + q := by ring
    have e3 : d + R = d + L * h * d + (L * d * (h * (S * h))) / 2 + L * h * p / 2 + q := by rw [hR]; ring
    have u7 : 0 ≤ S * h * d := by positivity
    rw [e2, e3]
    linarith

end Seldon.Uniform
