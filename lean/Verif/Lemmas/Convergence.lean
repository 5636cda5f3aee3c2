import Verif.Lemmas.UniformOrder
import Verif.Props.ActivityDynamics
import Mathlib.Algebra.BigOperators.Field
/-!
# The Runge-Kutta step for the opinion dynamics, uniformly in the weights and the opinions
-/
namespace Seldon.Uniform
open Filter Topology Asymptotics Finset

/-- The opinion dynamics with a matrix `A`. -/
noncomputable def field (n : Nat) (alpha : ℝ) (A : Nat → Nat → ℝ) (y : Nat → ℝ) (i : Nat) : ℝ :=
  -y i + ∑ j ∈ range n, A i j * Real.tanh (alpha * y j)

/-- Its derivatives at `x`. -/
noncomputable def fieldJ (n : Nat) (alpha : ℝ) (A : Nat → Nat → ℝ) (x u : Nat → ℝ) (i : Nat) : ℝ :=
  -u i + ∑ j ∈ range n, A i j * (tanh1 (Real.tanh (alpha * x j)) * (alpha * u j))
noncomputable def fieldH (n : Nat) (alpha : ℝ) (A : Nat → Nat → ℝ) (x u v : Nat → ℝ) (i : Nat) : ℝ :=
  ∑ j ∈ range n, A i j * (tanh2 (Real.tanh (alpha * x j)) * ((alpha * u j) * (alpha * v j)))
noncomputable def fieldT (n : Nat) (alpha : ℝ) (A : Nat → Nat → ℝ) (x u v w : Nat → ℝ) (i : Nat) : ℝ :=
  ∑ j ∈ range n, A i j * (tanh3 (Real.tanh (alpha * x j)) * ((alpha * u j) * (alpha * v j) * (alpha * w j)))

/-- An opinion dynamics with a solution, all within the bounds. -/
structure Datum (n : Nat) (a κ M : ℝ) where
  alpha : ℝ
  A : Nat → Nat → ℝ
  x : Nat → ℝ
  S : ℝ
  γ : ℝ → Nat → ℝ
  halpha : |alpha| ≤ a
  hA : ∀ i, i < n → ∀ j, j < n → |A i j| ≤ κ
  hx : ∀ i, i < n → |x i| ≤ M
  start : ∀ i, i < n → γ 0 i = x i
  bound : ∀ t i, i < n → 0 ≤ t → t ≤ S → |γ t i| ≤ M
  deriv : ∀ t i, i < n → 0 ≤ t → t ≤ S → HasDerivWithinAt (fun t => γ t i) (field n alpha A (γ t) i) (Set.Icc 0 S) t

section
variable {n : Nat} {a κ M : ℝ}

theorem field_bound {alpha : ℝ} {A : Nat → Nat → ℝ} {i : Nat} (hA : ∀ j, j < n → |A i j| ≤ κ) {y : Nat → ℝ} (hy : |y i| ≤ M) :
    |field n alpha A y i| ≤ M + n * κ := by
  unfold field
  refine (abs_add_le _ _).trans (add_le_add (by rw [abs_neg]; exact hy) ?_)
  refine (abs_sum_le_sum_abs _ _).trans ?_
  calc ∑ j ∈ range n, |A i j * Real.tanh (alpha * y j)| ≤ ∑ _j ∈ range n, κ := by
        refine sum_le_sum fun j hj => ?_
        rw [abs_mul]
        have h1 := hA j (mem_range.mp hj)
        have h2 := abs_tanh_le (alpha * y j)
        calc |A i j| * |Real.tanh (alpha * y j)| ≤ κ * 1 := mul_le_mul h1 h2 (abs_nonneg _) ((abs_nonneg _).trans h1)
          _ = κ := mul_one _
    _ = n * κ := by rw [sum_const, card_range, nsmul_eq_mul]

theorem Near.finsum {P : Type} {l : Filter P} {h : P → ℝ} {k : ℕ} {c u v : Nat → P → ℝ} (hc : ∀ j, j < n → Bd l (c j))
    (huv : ∀ j, j < n → Near l h k (u j) (v j)) :
    Near l h k (fun q => ∑ j ∈ range n, c j q * u j q) (fun q => ∑ j ∈ range n, c j q * v j q) :=
  Near.sum (range n) fun j hj => (huv j (mem_range.mp hj)).bd_mul (hc j (mem_range.mp hj))

theorem field_expands : Expands (steps (fun ω : Datum n a κ M => ω.S)) Prod.snd (fun q => field n q.1.alpha q.1.A) n (fun q => q.1.x)
    (fun q => fieldJ n q.1.alpha q.1.A q.1.x) (fun q => fieldH n q.1.alpha q.1.A q.1.x) (fun q => fieldT n q.1.alpha q.1.A q.1.x) := by
  have ba : Bd (steps (fun ω : Datum n a κ M => ω.S)) (fun q => q.1.alpha) := Bd.of_le a fun q => q.1.halpha
  have bA : ∀ i, i < n → ∀ j, j < n → Bd (steps (fun ω : Datum n a κ M => ω.S)) (fun q => q.1.A i j) := fun i hi j hj =>
    Bd.of_le κ fun q => q.1.hA i hi j hj
  have bx : ∀ i, i < n → Bd (steps (fun ω : Datum n a κ M => ω.S)) (fun q => q.1.x i) := fun i hi => Bd.of_le M fun q => q.1.hx i hi
  have bt : ∀ j, Bd (steps (fun ω : Datum n a κ M => ω.S)) (fun q => Real.tanh (q.1.alpha * q.1.x j)) := fun j => Bd.tanh
  refine ⟨?_, ?_, bx, ?_, ?_, ?_, ?_, ?_, ?_, ?_, ?_⟩
  · intro y y1 y2 y3 d1 d2 d3 hy i hi
    have h1 : ∀ j, j < n → Near (steps (fun ω : Datum n a κ M => ω.S)) Prod.snd 4 (fun q => Real.tanh (q.1.alpha * y q j))
        (fun q => Real.tanh (q.1.alpha * q.1.x j) +
          tanh1 (Real.tanh (q.1.alpha * q.1.x j)) * (q.1.alpha * y1 q j) * q.2 +
          (tanh1 (Real.tanh (q.1.alpha * q.1.x j)) * (q.1.alpha * y2 q j) + tanh2 (Real.tanh (q.1.alpha * q.1.x j)) / 2 * (q.1.alpha * y1 q j) ^ 2) * q.2 ^ 2 +
          (tanh1 (Real.tanh (q.1.alpha * q.1.x j)) * (q.1.alpha * y3 q j) +
            tanh2 (Real.tanh (q.1.alpha * q.1.x j)) * ((q.1.alpha * y1 q j) * (q.1.alpha * y2 q j)) +
            tanh3 (Real.tanh (q.1.alpha * q.1.x j)) / 6 * (q.1.alpha * y1 q j) ^ 3) * q.2 ^ 3) := by
      intro j hj
      refine Near.tanh (ba.mul (d1 j hj)) (ba.mul (d2 j hj)) (ba.mul (d3 j hj)) ?_
      exact ((hy j hj).bd_mul ba).congr (fun q => rfl) (fun q => by ring)
    have h2 := ((hy i hi).neg).add (Near.finsum (bA i hi) h1)
    refine h2.congr (fun q => rfl) (fun q => ?_)
    unfold field fieldJ fieldH fieldT
    have e : ∀ (c0 c1 c2 c3 : Nat → ℝ) (t : ℝ), ∑ j ∈ range n, q.1.A i j * (c0 j + c1 j * t + c2 j * t ^ 2 + c3 j * t ^ 3) =
        ∑ j ∈ range n, q.1.A i j * c0 j + (∑ j ∈ range n, q.1.A i j * c1 j) * t + (∑ j ∈ range n, q.1.A i j * c2 j) * t ^ 2 +
          (∑ j ∈ range n, q.1.A i j * c3 j) * t ^ 3 := by
      intro c0 c1 c2 c3 t
      simp only [sum_mul]
      rw [← sum_add_distrib, ← sum_add_distrib, ← sum_add_distrib]
      exact sum_congr rfl fun j _ => by ring
    rw [e]
    have e2 : ∑ j ∈ range n, q.1.A i j * (tanh1 (Real.tanh (q.1.alpha * q.1.x j)) * (q.1.alpha * y2 q j) +
        tanh2 (Real.tanh (q.1.alpha * q.1.x j)) / 2 * (q.1.alpha * y1 q j) ^ 2) =
        ∑ j ∈ range n, q.1.A i j * (tanh1 (Real.tanh (q.1.alpha * q.1.x j)) * (q.1.alpha * y2 q j)) +
        (∑ j ∈ range n, q.1.A i j * (tanh2 (Real.tanh (q.1.alpha * q.1.x j)) * ((q.1.alpha * y1 q j) * (q.1.alpha * y1 q j)))) / 2 := by
      rw [sum_div, ← sum_add_distrib]
      exact sum_congr rfl fun j _ => by ring
    have e3 : ∑ j ∈ range n, q.1.A i j * (tanh1 (Real.tanh (q.1.alpha * q.1.x j)) * (q.1.alpha * y3 q j) +
        tanh2 (Real.tanh (q.1.alpha * q.1.x j)) * ((q.1.alpha * y1 q j) * (q.1.alpha * y2 q j)) +
        tanh3 (Real.tanh (q.1.alpha * q.1.x j)) / 6 * (q.1.alpha * y1 q j) ^ 3) =
        ∑ j ∈ range n, q.1.A i j * (tanh1 (Real.tanh (q.1.alpha * q.1.x j)) * (q.1.alpha * y3 q j)) +
        ∑ j ∈ range n, q.1.A i j * (tanh2 (Real.tanh (q.1.alpha * q.1.x j)) * ((q.1.alpha * y1 q j) * (q.1.alpha * y2 q j))) +
        (∑ j ∈ range n, q.1.A i j * (tanh3 (Real.tanh (q.1.alpha * q.1.x j)) * ((q.1.alpha * y1 q j) * (q.1.alpha * y1 q j) * (q.1.alpha * y1 q j)))) / 6 := by
      rw [sum_div, ← sum_add_distrib, ← sum_add_distrib]
      exact sum_congr rfl fun j _ => by ring
    rw [e2, e3]
    ring
  · intro k y z hyz i hi
    exact ((hyz i hi).neg).add (Near.finsum (bA i hi) fun j hj => ((hyz j hj).bd_mul ba).tanh_congr)
  · intro i hi
    exact (bx i hi).neg.add (Bd.sum (range n) fun j hj => (bA i hi j (mem_range.mp hj)).mul Bd.tanh)
  · intro u hu i hi
    exact (hu i hi).neg.add (Bd.sum (range n) fun j hj => (bA i hi j (mem_range.mp hj)).mul ((bt j).tanh1.mul (ba.mul (hu j (mem_range.mp hj)))))
  · intro u v hu hv i hi
    exact Bd.sum (range n) fun j hj => (bA i hi j (mem_range.mp hj)).mul
      ((bt j).tanh2.mul ((ba.mul (hu j (mem_range.mp hj))).mul (ba.mul (hv j (mem_range.mp hj)))))
  · intro u hu i hi
    exact Bd.sum (range n) fun j hj => (bA i hi j (mem_range.mp hj)).mul
      ((bt j).tanh3.mul (((ba.mul (hu j (mem_range.mp hj))).mul (ba.mul (hu j (mem_range.mp hj)))).mul (ba.mul (hu j (mem_range.mp hj)))))
  · intro q u v i
    unfold fieldJ
    have : ∑ j ∈ range n, q.1.A i j * (tanh1 (Real.tanh (q.1.alpha * q.1.x j)) * (q.1.alpha * (u j + v j))) =
        ∑ j ∈ range n, q.1.A i j * (tanh1 (Real.tanh (q.1.alpha * q.1.x j)) * (q.1.alpha * u j)) +
        ∑ j ∈ range n, q.1.A i j * (tanh1 (Real.tanh (q.1.alpha * q.1.x j)) * (q.1.alpha * v j)) := by
      rw [← sum_add_distrib]
      exact sum_congr rfl fun j _ => by ring
    rw [this]; ring
  · intro q c u i
    unfold fieldJ
    rw [mul_add, mul_sum]
    congr 1
    · ring
    · exact sum_congr rfl fun j _ => by ring
  · intro q c d u v i
    unfold fieldH
    rw [mul_sum]
    exact sum_congr rfl fun j _ => by ring
  · intro q c u i
    unfold fieldT
    rw [mul_sum]
    exact sum_congr rfl fun j _ => by ring

/-- A bound for each index below `n` gives a common one. -/
theorem common {Q : Nat → ℝ → ℝ → Prop} (hm : ∀ i C C' ε ε', C ≤ C' → ε' ≤ ε → Q i C ε → Q i C' ε') :
    ∀ n : Nat, (∀ i, i < n → ∃ C ε : ℝ, 0 ≤ C ∧ 0 < ε ∧ Q i C ε) → ∃ C ε : ℝ, 0 ≤ C ∧ 0 < ε ∧ ∀ i, i < n → Q i C ε := by
  intro n
  induction n with
  | zero => exact fun _ => ⟨0, 1, le_rfl, one_pos, fun i hi => absurd hi (by omega)⟩
  | succ n ih =>
    intro h
    obtain ⟨C, ε, hC, hε, hq⟩ := ih fun i hi => h i (by omega)
    obtain ⟨C', ε', hC', hε', hq'⟩ := h n (by omega)
    refine ⟨max C C', min ε ε', hC.trans (le_max_left _ _), lt_min hε hε', fun i hi => ?_⟩
    rcases Nat.lt_succ_iff_lt_or_eq.mp hi with h1 | rfl
    · exact hm _ _ _ _ _ (le_max_left _ _) (min_le_left _ _) (hq i h1)
    · exact hm _ _ _ _ _ (le_max_right _ _) (min_le_right _ _) hq'

/-- One step is exact up to terms of fifth order, with a constant that depends only on the bounds. -/
theorem field_local (n : Nat) (a κ M : ℝ) : ∃ C ε : ℝ, 0 ≤ C ∧ 0 < ε ∧ ∀ i, i < n → ∀ ω : Datum n a κ M, ∀ h, 0 ≤ h → h ≤ ω.S → h < ε →
    |Spec.rk4 (field n ω.alpha ω.A) h ω.x i - ω.γ h i| ≤ C * h ^ 5 := by
  apply common (Q := fun i C ε => ∀ ω : Datum n a κ M, ∀ h, 0 ≤ h → h ≤ ω.S → h < ε → |Spec.rk4 (field n ω.alpha ω.A) h ω.x i - ω.γ h i| ≤ C * h ^ 5)
  · intro i C C' ε ε' h1 h2 hq ω h h3 h4 h5
    exact (hq ω h h3 h4 (h5.trans_le h2)).trans (mul_le_mul_of_nonneg_right h1 (pow_nonneg h3 5))
  · intro i hi
    exact Expands.rk4_order (S := fun ω : Datum n a κ M => ω.S) (f := fun ω => field n ω.alpha ω.A) (x := fun ω => ω.x)
      (J := fun ω => fieldJ n ω.alpha ω.A ω.x) (H := fun ω => fieldH n ω.alpha ω.A ω.x) (T := fun ω => fieldT n ω.alpha ω.A ω.x) field_expands (γ := fun ω : Datum n a κ M => ω.γ) (fun ω i hi => ω.start i hi)
      (B := M + n * κ) (fun ω t i hi h0 h1 => field_bound (ω.hA i hi) (ω.bound t i hi h0 h1)) (fun ω t i hi h0 h1 => ω.deriv t i hi h0 h1) hi

/-! ## stability -/

theorem field_lipschitz {alpha : ℝ} (ha : |alpha| ≤ a) {A : Nat → Nat → ℝ} {i : Nat} (hi : i < n) (hA : ∀ j, j < n → |A i j| ≤ κ) {y z : Nat → ℝ} {d : ℝ}
    (hd : ∀ j, j < n → |y j - z j| ≤ d) : |field n alpha A y i - field n alpha A z i| ≤ (1 + n * (κ * a)) * d := by
  unfold field
  have e : -y i + ∑ j ∈ range n, A i j * Real.tanh (alpha * y j) - (-z i + ∑ j ∈ range n, A i j * Real.tanh (alpha * z j)) =
      -(y i - z i) + ∑ j ∈ range n, A i j * (Real.tanh (alpha * y j) - Real.tanh (alpha * z j)) := by
    simp only [mul_sub, sum_sub_distrib]; ring
  rw [e, add_mul, one_mul]
  refine (abs_add_le _ _).trans (add_le_add (by rw [abs_neg]; exact hd i hi) ?_)
  refine (abs_sum_le_sum_abs _ _).trans ?_
  calc ∑ j ∈ range n, |A i j * (Real.tanh (alpha * y j) - Real.tanh (alpha * z j))| ≤ ∑ _j ∈ range n, κ * (a * d) := by
        refine sum_le_sum fun j hj => ?_
        have h1 := hA j (mem_range.mp hj)
        have h2 := hd j (mem_range.mp hj)
        rw [abs_mul]
        refine mul_le_mul h1 ?_ (abs_nonneg _) ((abs_nonneg _).trans h1)
        refine (tanh_lipschitz _ _).trans ?_
        rw [← mul_sub, abs_mul]
        exact mul_le_mul ha h2 (abs_nonneg _) ((abs_nonneg _).trans ha)
    _ = n * (κ * a) * d := by rw [sum_const, card_range, nsmul_eq_mul]; ring

/-- The Runge-Kutta step of a Lipschitz continuous vector field. -/
theorem rk4_lipschitz {f : (Nat → ℝ) → Nat → ℝ} {L : ℝ} (hL : 0 ≤ L)
    (hf : ∀ (y z : Nat → ℝ) d, (∀ j, j < n → |y j - z j| ≤ d) → ∀ i, i < n → |f y i - f z i| ≤ L * d)
    {h : ℝ} (h0 : 0 ≤ h) (h1 : h ≤ 1) {y z : Nat → ℝ} {d : ℝ} (hd : ∀ j, j < n → |y j - z j| ≤ d) {i : Nat} (hi : i < n) :
    |Spec.rk4 f h y i - Spec.rk4 f h z i| ≤ (1 + L * (1 + L) ^ 3 * h) * d := by
  have hd0 : 0 ≤ d := (abs_nonneg _).trans (hd i hi)
  have stage : ∀ (c : ℝ) (k l : Nat → ℝ) (e : ℝ), 0 ≤ c → c ≤ 1 → (∀ j, j < n → |k j - l j| ≤ e) → 0 ≤ e →
      ∀ j, j < n → |f (fun j => y j + c * k j) j - f (fun j => z j + c * l j) j| ≤ L * (d + e) := by
    intro c k l e hc hc1 he he0 j hj
    refine hf _ _ (d + e) (fun j hj => ?_) j hj
    have : y j + c * k j - (z j + c * l j) = (y j - z j) + c * (k j - l j) := by ring
    rw [this]
    refine (abs_add_le _ _).trans (add_le_add (hd j hj) ?_)
    rw [abs_mul, abs_of_nonneg hc]
    calc c * |k j - l j| ≤ 1 * e := mul_le_mul hc1 (he j hj) (abs_nonneg _) zero_le_one
      _ = e := one_mul e
  have k1 : ∀ j, j < n → |f y j - f z j| ≤ L * d := hf y z d hd
  have k2 := stage (h / 2) (f y) (f z) (L * d) (by linarith) (by linarith) k1 (by positivity)
  have k3 := stage (h / 2) _ _ (L * (d + L * d)) (by linarith) (by linarith) k2 (by positivity)
  have k4 := stage h _ _ (L * (d + L * (d + L * d))) h0 h1 k3 (by positivity)
  have b1 : L * d ≤ L * (1 + L) ^ 3 * d := by
    have : 1 ≤ (1 + L) ^ 3 := one_le_pow₀ (by linarith)
    nlinarith [mul_nonneg hL hd0]
  have b2 : L * (d + L * d) ≤ L * (1 + L) ^ 3 * d := by
    have e : L * (1 + L) ^ 3 * d - L * (d + L * d) = L * d * (2 * L + 3 * L ^ 2 + L ^ 3) := by ring
    have : 0 ≤ L * d * (2 * L + 3 * L ^ 2 + L ^ 3) := by positivity
    linarith
  have b3 : L * (d + L * (d + L * d)) ≤ L * (1 + L) ^ 3 * d := by
    have e : L * (1 + L) ^ 3 * d - L * (d + L * (d + L * d)) = L * d * (2 * L + 2 * L ^ 2 + L ^ 3) := by ring
    have : 0 ≤ L * d * (2 * L + 2 * L ^ 2 + L ^ 3) := by positivity
    linarith
  have b4 : L * (d + L * (d + L * (d + L * d))) ≤ L * (1 + L) ^ 3 * d := by
    have e : L * (1 + L) ^ 3 * d - L * (d + L * (d + L * (d + L * d))) = L * d * (2 * L + 2 * L ^ 2) := by ring
    have : 0 ≤ L * d * (2 * L + 2 * L ^ 2) := by positivity
    linarith
  have c1 := (k1 i hi).trans b1
  have c2 := (k2 i hi).trans b2
  have c3 := (k3 i hi).trans b3
  have c4 := (k4 i hi).trans b4
  unfold Spec.rk4
  set D := L * (1 + L) ^ 3 * d
  generalize hy2 : f (fun j => y j + h / 2 * f y j) = y2 at *
  generalize hz2 : f (fun j => z j + h / 2 * f z j) = z2 at *
  generalize f (fun j => y j + h / 2 * y2 j) = y3 at *
  generalize f (fun j => z j + h / 2 * z2 j) = z3 at *
  generalize f (fun j => y j + h * y3 j) = y4 at *
  generalize f (fun j => z j + h * z3 j) = z4 at *
  have e : y i + h / 6 * (f y i + 2 * y2 i + 2 * y3 i + y4 i) - (z i + h / 6 * (f z i + 2 * z2 i + 2 * z3 i + z4 i)) =
      (y i - z i) + h / 6 * ((f y i - f z i) + 2 * (y2 i - z2 i) + 2 * (y3 i - z3 i) + (y4 i - z4 i)) := by ring
  rw [e]
  refine (abs_add_le _ _).trans ?_
  have : |(f y i - f z i) + 2 * (y2 i - z2 i) + 2 * (y3 i - z3 i) + (y4 i - z4 i)| ≤ 6 * D := by
    rw [abs_le] at *
    constructor <;> linarith [c1.1, c1.2, c2.1, c2.2, c3.1, c3.2, c4.1, c4.2]
  rw [abs_mul, abs_of_nonneg (by linarith : 0 ≤ h / 6)]
  calc |y i - z i| + h / 6 * _ ≤ d + h / 6 * (6 * D) := add_le_add (hd i hi) (mul_le_mul_of_nonneg_left this (by linarith))
    _ = (1 + L * (1 + L) ^ 3 * h) * d := by simp only [D]; ring

/-- Discrete Gronwall inequality. -/
theorem gronwall {e : Nat → ℝ} {L h c : ℝ} (hL : 0 ≤ L) (h0 : 0 ≤ h) (hc : 0 ≤ c) {K : Nat} (he0 : e 0 ≤ 0)
    (he : ∀ k, k < K → e (k + 1) ≤ (1 + L * h) * e k + c) : ∀ k, k ≤ K → e k ≤ k * c * Real.exp (L * (k * h)) := by
  have hg : 0 ≤ L * h := mul_nonneg hL h0
  have key : ∀ k, k ≤ K → e k ≤ k * c * (1 + L * h) ^ k := by
    intro k
    induction k with
    | zero => intro _; simpa using he0
    | succ k ih =>
      intro hk
      have h1 := ih (by omega)
      have h2 : (1 : ℝ) ≤ (1 + L * h) ^ (k + 1) := one_le_pow₀ (by linarith)
      calc e (k + 1) ≤ (1 + L * h) * e k + c := he k (by omega)
        _ ≤ (1 + L * h) * (k * c * (1 + L * h) ^ k) + c * (1 + L * h) ^ (k + 1) :=
          add_le_add (mul_le_mul_of_nonneg_left h1 (by linarith)) (le_mul_of_one_le_right hc h2)
        _ = ((k + 1 : Nat) : ℝ) * c * (1 + L * h) ^ (k + 1) := by push_cast; ring
  intro k hk
  refine (key k hk).trans (mul_le_mul_of_nonneg_left ?_ (by positivity))
  have h1 : 1 + L * h ≤ Real.exp (L * h) := by have := Real.add_one_le_exp (L * h); linarith
  calc (1 + L * h) ^ k ≤ Real.exp (L * h) ^ k := pow_le_pow_left₀ (by linarith) h1 k
    _ = Real.exp (L * (k * h)) := by rw [← Real.exp_nat_mul]; congr 1; ring

end
end Seldon.Uniform
