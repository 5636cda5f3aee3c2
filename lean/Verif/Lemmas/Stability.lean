import Mathlib.Analysis.Complex.Norm
import Mathlib.Tactic.Linarith
import Mathlib.Tactic.Ring
import Mathlib.Tactic.FieldSimp
import Mathlib.Tactic.LinearCombination
/-!
# Lemmas: stability of the Verlet and Runge-Kutta recurrences with bounded forcing
-/
namespace Seldon.Stability

/-- One Verlet step of one agent: forces `-x + g` before and `-x' + g'` after, friction `f`, step `h`. -/
structure Kick (f h g g' x v x' v' : ℝ) : Prop where
  position : x' = x + v * h + (-x + g - f * v) * h ^ 2 / 2
  velocity : v' = v + h / 2 * ((-x + g - f * v) + (-x' + g' - f * v'))

/-- The discrete energy. -/
noncomputable def energy (f h x v : ℝ) : ℝ := (1 - h ^ 2 / 4) * x ^ 2 + (1 + f * h / 2) ^ 2 * v ^ 2

/-- Without forcing the energy decreases by `2 f h v²`. -/
theorem energy_step {f h x v x' v' : ℝ} (k : Kick f h 0 0 x v x' v') : energy f h x' v' = energy f h x v - 2 * f * h * v ^ 2 := by
  have e1 := k.position
  have e2 : (1 + f * h / 2) * v' = (1 - f * h / 2) * v - h / 2 * (x + x') := by linear_combination k.velocity
  unfold energy
  have : (1 + f * h / 2) ^ 2 * v' ^ 2 = ((1 - f * h / 2) * v - h / 2 * (x + x')) ^ 2 := by rw [← e2]; ring
  rw [this]
  rw [e1]; ring

theorem unforced (f h : ℝ) (hc : 1 + f * h / 2 ≠ 0) (x v : ℝ) : ∃ x' v', Kick f h 0 0 x v x' v' := by
  refine ⟨x + v * h + (-x - f * v) * h ^ 2 / 2,
    ((1 - f * h / 2) * v - h / 2 * (x + (x + v * h + (-x - f * v) * h ^ 2 / 2))) / (1 + f * h / 2), ?_, ?_⟩
  · ring
  · set w := ((1 - f * h / 2) * v - h / 2 * (x + (x + v * h + (-x - f * v) * h ^ 2 / 2))) / (1 + f * h / 2) with hw
    have : w * (1 + f * h / 2) = (1 - f * h / 2) * v - h / 2 * (x + (x + v * h + (-x - f * v) * h ^ 2 / 2)) := by
      rw [hw]; exact div_mul_cancel₀ _ hc
    linear_combination this

/-- Differences of steps are steps. -/
theorem Kick.sub {f h g g' x v x' v' y u y' u' : ℝ} (k : Kick f h g g' x v x' v') (l : Kick f h 0 0 y u y' u') :
    Kick f h g g' (x - y) (v - u) (x' - y') (v' - u') where
  position := by rw [k.position, l.position]; ring
  velocity := by linear_combination k.velocity - l.velocity

/-- The state as a complex number whose squared absolute value is the energy. -/
noncomputable def point (f h x v : ℝ) : ℂ := ⟨√(1 - h ^ 2 / 4) * x, (1 + f * h / 2) * v⟩

theorem sq_norm_point {f h : ℝ} (hh : h ^ 2 ≤ 4) (x v : ℝ) : ‖point f h x v‖ ^ 2 = energy f h x v := by
  unfold point energy
  rw [Complex.sq_norm, Complex.normSq_mk]
  have := Real.mul_self_sqrt (show 0 ≤ 1 - h ^ 2 / 4 by linarith)
  linear_combination x ^ 2 * this

theorem point_sub (f h x v y u : ℝ) : point f h (x - y) (v - u) = point f h x v - point f h y u := by
  apply Complex.ext <;> simp [point] <;> ring

/-- The effect of the forcing. -/
theorem norm_forced {f h : ℝ} (h0 : 0 ≤ h) {g g' Γ x' v' : ℝ} (hg : |g| ≤ Γ) (hg' : |g'| ≤ Γ)
    (k : Kick f h g g' 0 0 x' v') : ‖point f h x' v'‖ ≤ (h ^ 2 + h + h ^ 3) * Γ := by
  have hΓ : 0 ≤ Γ := (abs_nonneg _).trans hg
  have e1 : x' = h ^ 2 / 2 * g := by rw [k.position]; ring
  have e2 : (1 + f * h / 2) * v' = h / 2 * (g + g') - h ^ 3 / 4 * g := by
    have := k.velocity; rw [e1] at this; linear_combination this
  refine (Complex.norm_le_abs_re_add_abs_im _).trans ?_
  have hs : √(1 - h ^ 2 / 4) ≤ 1 := by
    exact Real.sqrt_le_one.mpr (by nlinarith [sq_nonneg h])
  have h3 : 0 ≤ h ^ 3 := pow_nonneg h0 3
  have h2 : 0 ≤ h ^ 2 := sq_nonneg h
  have a1 : |(point f h x' v').re| ≤ h ^ 2 * Γ := by
    show |√(1 - h ^ 2 / 4) * x'| ≤ _
    rw [e1, abs_mul, abs_mul, abs_of_nonneg (Real.sqrt_nonneg _), abs_of_nonneg (by positivity : 0 ≤ h ^ 2 / 2)]
    calc √(1 - h ^ 2 / 4) * (h ^ 2 / 2 * |g|) ≤ 1 * (h ^ 2 / 2 * Γ) := by gcongr
      _ ≤ _ := by nlinarith [mul_nonneg h2 hΓ]
  have a2 : |(point f h x' v').im| ≤ (h + h ^ 3) * Γ := by
    show |(1 + f * h / 2) * v'| ≤ _
    rw [e2]
    have b1 : |h / 2 * (g + g')| ≤ h * Γ := by
      rw [abs_mul, abs_of_nonneg (by linarith)]
      have := (abs_add_le g g').trans (add_le_add hg hg')
      nlinarith
    have b2 : |h ^ 3 / 4 * g| ≤ h ^ 3 * Γ := by
      rw [abs_mul, abs_of_nonneg (by linarith)]
      nlinarith [mul_nonneg h3 hΓ, mul_nonneg h3 (abs_nonneg g), mul_le_mul_of_nonneg_left hg h3]
    exact (abs_sub _ _).trans (by linarith)
  linarith

/-- The relative loss of the energy over two steps. -/
noncomputable def loss (f h : ℝ) : ℝ :=
  2 * f * h / (2 * (1 - h ^ 2 / 4) / (h * (1 - h ^ 2 / 4) / (1 + f * h / 2)) ^ 2 + (1 + f * h / 2) ^ 2)

theorem loss_pos {f h : ℝ} (hf : 0 < f) (h0 : 0 < h) (hh : h < 2) : 0 < loss f h := by
  have hc : 0 < f * h := mul_pos hf h0
  have ha : 0 < 1 - h ^ 2 / 4 := by nlinarith
  unfold loss
  positivity

theorem energy_two {f h : ℝ} (hf : 0 < f) (h0 : 0 < h) (hh : h < 2) {x v x' v' x'' v'' : ℝ} (k : Kick f h 0 0 x v x' v')
    (k' : Kick f h 0 0 x' v' x'' v'') : energy f h x'' v'' ≤ (1 - loss f h) * energy f h x v := by
  have hc : 0 < f * h := mul_pos hf h0
  have ha : 0 < 1 - h ^ 2 / 4 := by nlinarith
  set a := 1 - h ^ 2 / 4 with had
  set d := 1 + f * h / 2 with hdd
  have hd : 0 < d := by rw [hdd]; linarith
  set β := h * a / d with hβ
  have hβ0 : 0 < β := by rw [hβ]; positivity
  rw [energy_step k', energy_step k]
  have hE : 0 ≤ energy f h x v := by
    unfold energy; rw [← had]; positivity
  -- the velocity after the first step
  set α := (2 - d) * (1 - h ^ 2 / 2) / d with hα
  have hα1 : α ^ 2 ≤ 1 := by
    rw [hα, div_pow, div_le_one (by positivity)]
    have s1 : (1 - h ^ 2 / 2) ^ 2 ≤ 1 := by nlinarith [sq_nonneg h]
    have s2 : (2 - d) ^ 2 ≤ d ^ 2 := by rw [hdd]; nlinarith
    calc ((2 - d) * (1 - h ^ 2 / 2)) ^ 2 = (2 - d) ^ 2 * (1 - h ^ 2 / 2) ^ 2 := by ring
      _ ≤ (2 - d) ^ 2 * 1 := mul_le_mul_of_nonneg_left s1 (sq_nonneg _)
      _ ≤ d ^ 2 := by linarith
  have hv : v' = α * v - β * x := by
    have e2 : d * v' = (2 - d) * v - h / 2 * (x + x') := by rw [hdd]; linear_combination k.velocity
    have e3 : d * v' = d * (α * v - β * x) := by
      rw [e2, k.position, hα, hβ]
      field_simp
      rw [had, hdd]; ring
    exact mul_left_cancel₀ hd.ne' e3
  have hx : β ^ 2 * x ^ 2 ≤ 2 * (v ^ 2 + v' ^ 2) := by
    have : β * x = α * v - v' := by rw [hv]; ring
    have : β ^ 2 * x ^ 2 = (α * v - v') ^ 2 := by rw [← this]; ring
    rw [this]
    nlinarith [sq_nonneg (α * v + v'), mul_le_mul_of_nonneg_right hα1 (sq_nonneg v)]
  have key : energy f h x v ≤ (2 * a / β ^ 2 + d ^ 2) * (v ^ 2 + v' ^ 2) := by
    have : x ^ 2 ≤ 2 * (v ^ 2 + v' ^ 2) / β ^ 2 := by
      rw [le_div_iff₀ (by positivity)]; linarith
    have e : energy f h x v = a * x ^ 2 + d ^ 2 * v ^ 2 := rfl
    rw [e]
    have : a * x ^ 2 ≤ a * (2 * (v ^ 2 + v' ^ 2) / β ^ 2) := mul_le_mul_of_nonneg_left this ha.le
    have e' : a * (2 * (v ^ 2 + v' ^ 2) / β ^ 2) = 2 * a / β ^ 2 * (v ^ 2 + v' ^ 2) := by ring
    have : d ^ 2 * v ^ 2 ≤ d ^ 2 * (v ^ 2 + v' ^ 2) := by
      apply mul_le_mul_of_nonneg_left _ (sq_nonneg d); linarith [sq_nonneg v']
    linarith
  have hD : 0 < 2 * a / β ^ 2 + d ^ 2 := by positivity
  have hdec : loss f h = 2 * f * h / (2 * a / β ^ 2 + d ^ 2) := rfl
  have : loss f h * energy f h x v ≤ 2 * f * h * (v ^ 2 + v' ^ 2) := by
    rw [hdec, div_mul_eq_mul_div, div_le_iff₀ hD]
    have := mul_le_mul_of_nonneg_left key (show 0 ≤ 2 * f * h by linarith)
    linarith
  linarith

/-- The factor by which the distance from rest shrinks over two steps. -/
noncomputable def factor (f h : ℝ) : ℝ := max (√(1 - loss f h)) (1 / 2)

theorem factor_lt {f h : ℝ} (hf : 0 < f) (h0 : 0 < h) (hh : h < 2) : factor f h < 1 := by
  have := loss_pos hf h0 hh
  refine max_lt ?_ (by norm_num)
  rw [Real.sqrt_lt' one_pos]
  linarith

theorem factor_pos (f h : ℝ) : 0 < factor f h := lt_of_lt_of_le (by norm_num) (le_max_right _ _)

theorem norm_one {f h : ℝ} (hf : 0 ≤ f) (h0 : 0 ≤ h) (hh : h ≤ 2) {g g' Γ x v x' v' : ℝ} (hg : |g| ≤ Γ) (hg' : |g'| ≤ Γ)
    (k : Kick f h g g' x v x' v') : ‖point f h x' v'‖ ≤ ‖point f h x v‖ + (h ^ 2 + h + h ^ 3) * Γ := by
  have hc : 0 ≤ f * h := mul_nonneg hf h0
  have hh2 : h ^ 2 ≤ 4 := by nlinarith
  obtain ⟨y, u, l⟩ := unforced f h (by linarith) x v
  have hk := norm_forced h0 hg hg' (by simpa using k.sub l)
  rw [point_sub] at hk
  have hl : ‖point f h y u‖ ≤ ‖point f h x v‖ := by
    rw [← sq_le_sq₀ (norm_nonneg _) (norm_nonneg _), sq_norm_point hh2, sq_norm_point hh2, energy_step l]
    have : 0 ≤ 2 * f * h * v ^ 2 := mul_nonneg (by linarith) (sq_nonneg v)
    linarith
  calc ‖point f h x' v'‖ = ‖(point f h x' v' - point f h y u) + point f h y u‖ := by rw [sub_add_cancel]
    _ ≤ _ := norm_add_le _ _
    _ ≤ _ := by linarith

theorem norm_two {f h : ℝ} (hf : 0 < f) (h0 : 0 < h) (hh : h < 2) {g1 g1' g2 g2' Γ x v x' v' x'' v'' : ℝ}
    (a1 : |g1| ≤ Γ) (a1' : |g1'| ≤ Γ) (a2 : |g2| ≤ Γ) (a2' : |g2'| ≤ Γ)
    (k : Kick f h g1 g1' x v x' v') (k' : Kick f h g2 g2' x' v' x'' v'') :
    ‖point f h x'' v''‖ ≤ factor f h * ‖point f h x v‖ + 2 * ((h ^ 2 + h + h ^ 3) * Γ) := by
  have hc : 0 < f * h := mul_pos hf h0
  have hh2 : h ^ 2 ≤ 4 := by nlinarith
  obtain ⟨y, u, l⟩ := unforced f h (by linarith) x v
  obtain ⟨y', u', l'⟩ := unforced f h (by linarith) y u
  have hk := norm_forced h0.le a1 a1' (by simpa using k.sub l)
  have hk' := norm_one hf.le h0.le hh.le a2 a2' (k'.sub l')
  rw [point_sub] at hk'
  have hl : ‖point f h y' u'‖ ≤ factor f h * ‖point f h x v‖ := by
    have hd := energy_two hf h0 hh l l'
    by_cases hq : 0 ≤ 1 - loss f h
    · refine le_trans ?_ (mul_le_mul_of_nonneg_right (le_max_left _ _) (norm_nonneg _))
      rw [← sq_le_sq₀ (norm_nonneg _) (by positivity), mul_pow, sq_norm_point hh2, sq_norm_point hh2, Real.sq_sqrt hq]
      exact hd
    · have hE : 0 ≤ energy f h x v := by rw [← sq_norm_point hh2]; positivity
      have : energy f h y' u' ≤ 0 := hd.trans (by nlinarith)
      have h2 : ‖point f h y' u'‖ ^ 2 ≤ 0 := by rw [sq_norm_point hh2]; exact this
      have : ‖point f h y' u'‖ ≤ 0 := by nlinarith [norm_nonneg (point f h y' u')]
      exact this.trans (mul_nonneg (factor_pos f h).le (norm_nonneg _))
  calc ‖point f h x'' v''‖ = ‖(point f h x'' v'' - point f h y' u') + point f h y' u'‖ := by rw [sub_add_cancel]
    _ ≤ _ := norm_add_le _ _
    _ ≤ _ := by linarith

/-- `K` steps in a row, with forcing of size at most `Γ`. -/
def Steps (f h Γ : ℝ) (K : ℕ) (x v : ℕ → ℝ) : Prop :=
  ∀ j, j < K → ∃ g g', |g| ≤ Γ ∧ |g'| ≤ Γ ∧ Kick f h g g' (x j) (v j) (x (j + 1)) (v (j + 1))

theorem steps_norm {f h : ℝ} (hf : 0 < f) (h0 : 0 < h) (hh : h < 2) {Γ : ℝ} (hΓ : 0 ≤ Γ) {K : ℕ} {x v : ℕ → ℝ} (hs : Steps f h Γ K x v) :
    ∀ j, j ≤ K → ‖point f h (x j) (v j)‖ ≤
      √(factor f h) ^ j * (‖point f h (x 0) (v 0)‖ / √(factor f h)) + 2 * ((h ^ 2 + h + h ^ 3) * Γ) / (1 - factor f h) +
        (h ^ 2 + h + h ^ 3) * Γ := by
  set q := factor f h with hq
  set b := (h ^ 2 + h + h ^ 3) * Γ with hb
  have hb0 : 0 ≤ b := by rw [hb]; positivity
  have q0 : 0 < q := factor_pos f h
  have q1 : q < 1 := factor_lt hf h0 hh
  set s := √q with hsq
  have s0 : 0 < s := Real.sqrt_pos.mpr q0
  have ss : s * s = q := Real.mul_self_sqrt q0.le
  have s1 : s ≤ 1 := by rw [hsq]; exact Real.sqrt_le_one.mpr q1.le
  set P := fun j => ‖point f h (x j) (v j)‖ with hP
  have even : ∀ i, 2 * i ≤ K → P (2 * i) ≤ q ^ i * P 0 + 2 * b / (1 - q) := by
    intro i
    induction i with
    | zero =>
      intro _
      simp only [Nat.mul_zero, pow_zero, one_mul]
      have : 0 ≤ 2 * b / (1 - q) := div_nonneg (by linarith) (by linarith)
      linarith
    | succ i ih =>
      intro hi
      obtain ⟨g1, g1', a1, a1', k1⟩ := hs (2 * i) (by omega)
      obtain ⟨g2, g2', a2, a2', k2⟩ := hs (2 * i + 1) (by omega)
      have := norm_two hf h0 hh a1 a1' a2 a2' k1 k2
      have ih := ih (by omega)
      have e : P (2 * (i + 1)) ≤ q * P (2 * i) + 2 * b := this
      have : q * P (2 * i) ≤ q * (q ^ i * P 0 + 2 * b / (1 - q)) := mul_le_mul_of_nonneg_left ih q0.le
      have e2 : q * (2 * b / (1 - q)) + 2 * b = 2 * b / (1 - q) := by
        field_simp [show (1 - q) ≠ 0 by linarith]; ring
      calc P (2 * (i + 1)) ≤ q * (q ^ i * P 0 + 2 * b / (1 - q)) + 2 * b := by linarith
        _ = q ^ (i + 1) * P 0 + (q * (2 * b / (1 - q)) + 2 * b) := by ring
        _ = _ := by rw [e2]
  intro j hj
  have hP0 : 0 ≤ P 0 := norm_nonneg _
  rcases Nat.even_or_odd' j with ⟨i, rfl | rfl⟩
  · have := even i hj
    have e : s ^ (2 * i) = q ^ i := by rw [pow_mul, sq, ss]
    show P (2 * i) ≤ s ^ (2 * i) * (P 0 / s) + _ + _
    rw [e]
    have : P 0 ≤ P 0 / s := by rw [le_div_iff₀ s0]; nlinarith
    have : q ^ i * P 0 ≤ q ^ i * (P 0 / s) := mul_le_mul_of_nonneg_left this (by positivity)
    linarith
  · have := even i (by omega)
    obtain ⟨g, g', a, a', k⟩ := hs (2 * i) (by omega)
    have h1 := norm_one hf.le h0.le hh.le a a' k
    have e : s ^ (2 * i + 1) * (P 0 / s) = q ^ i * P 0 := by
      rw [pow_succ, pow_mul, sq, ss]; field_simp
    show P (2 * i + 1) ≤ s ^ (2 * i + 1) * (P 0 / s) + _ + _
    rw [e]
    have h1' : P (2 * i + 1) ≤ P (2 * i) + b := h1
    linarith

/-- Bounded forcing, `0 < h < 2`, positive friction: the initial state is forgotten exponentially fast and the state stays within a multiple of
the forcing. -/
theorem steps_bound {f h : ℝ} (hf : 0 < f) (h0 : 0 < h) (hh : h < 2) : ∃ C r : ℝ, 0 ≤ C ∧ 0 ≤ r ∧ r < 1 ∧
    ∀ (Γ : ℝ) (K : ℕ) (x v : ℕ → ℝ), 0 ≤ Γ → Steps f h Γ K x v → ∀ j, j ≤ K →
      |x j| ≤ C * (r ^ j * (|x 0| + |v 0|) + Γ) ∧ |v j| ≤ C * (r ^ j * (|x 0| + |v 0|) + Γ) := by
  have hc : 0 < f * h := mul_pos hf h0
  have ha : 0 < 1 - h ^ 2 / 4 := by nlinarith
  have q0 : 0 < factor f h := factor_pos f h
  have q1 : factor f h < 1 := factor_lt hf h0 hh
  set s := √(factor f h) with hs
  have s0 : 0 < s := Real.sqrt_pos.mpr q0
  have s1 : s < 1 := by rw [hs, Real.sqrt_lt' one_pos]; linarith
  set e := √(1 - h ^ 2 / 4) with he
  have e0 : 0 < e := Real.sqrt_pos.mpr ha
  have e1 : e ≤ 1 := by rw [he]; exact Real.sqrt_le_one.mpr (by nlinarith [sq_nonneg h])
  set d := 1 + f * h / 2 with hd
  have d1 : 1 ≤ d := by rw [hd]; linarith
  set b := h ^ 2 + h + h ^ 3 with hb
  have b0 : 0 < b := by rw [hb]; positivity
  have h1q : 0 < 1 - factor f h := by linarith
  refine ⟨(d / s + 2 * b / (1 - factor f h) + b) / e, s, by positivity, s0.le, s1, ?_⟩
  intro Γ K x v hΓ hS j hj
  have key := steps_norm hf h0 hh hΓ hS j hj
  have hn0 : ‖point f h (x 0) (v 0)‖ ≤ d * (|x 0| + |v 0|) := by
    refine (Complex.norm_le_abs_re_add_abs_im _).trans ?_
    show |e * x 0| + |d * v 0| ≤ _
    rw [abs_mul, abs_mul, abs_of_pos e0, abs_of_pos (by linarith : 0 < d)]
    nlinarith [abs_nonneg (x 0), abs_nonneg (v 0)]
  have hX : 0 ≤ |x 0| + |v 0| := by positivity
  have hsj : 0 ≤ s ^ j := by positivity
  have hn : ‖point f h (x j) (v j)‖ ≤ (d / s + 2 * b / (1 - factor f h) + b) * (s ^ j * (|x 0| + |v 0|) + Γ) := by
    refine key.trans ?_
    have t1 : s ^ j * (‖point f h (x 0) (v 0)‖ / s) ≤ d / s * (s ^ j * (|x 0| + |v 0|)) := by
      calc s ^ j * (‖point f h (x 0) (v 0)‖ / s) ≤ s ^ j * (d * (|x 0| + |v 0|) / s) := by gcongr
        _ = _ := by ring
    have t2 : 2 * (b * Γ) / (1 - factor f h) = 2 * b / (1 - factor f h) * Γ := by ring
    rw [t2]
    have u0 : 0 ≤ s ^ j * (|x 0| + |v 0|) := by positivity
    have u1 : 0 ≤ d / s := by positivity
    have u2 : 0 ≤ 2 * b / (1 - factor f h) := by positivity
    have u3 : 0 ≤ (2 * b / (1 - factor f h) + b) * (s ^ j * (|x 0| + |v 0|)) := by positivity
    have u4 : 0 ≤ d / s * Γ := by positivity
    nlinarith
  set R := (d / s + 2 * b / (1 - factor f h) + b) * (s ^ j * (|x 0| + |v 0|) + Γ) with hR
  have hR0 : 0 ≤ R := (norm_nonneg _).trans hn
  have eR : (d / s + 2 * b / (1 - factor f h) + b) / e * (s ^ j * (|x 0| + |v 0|) + Γ) = R / e := by rw [hR]; ring
  rw [eR]
  constructor
  · have : |e * x j| ≤ R := (Complex.abs_re_le_norm (point f h (x j) (v j))).trans hn
    rw [abs_mul, abs_of_pos e0] at this
    rw [le_div_iff₀ e0]; linarith
  · have : |d * v j| ≤ R := (Complex.abs_im_le_norm (point f h (x j) (v j))).trans hn
    rw [abs_mul, abs_of_pos (by linarith : 0 < d)] at this
    have hv : |v j| ≤ R := le_trans (by nlinarith [abs_nonneg (v j)]) this
    refine hv.trans ?_
    rw [le_div_iff₀ e0]; nlinarith

/-- An agent whose position is put back to within `β` of the origin after every step: its velocity stays bounded. -/
theorem bot_bound {f h : ℝ} (hf : 0 < f) (h0 : 0 < h) (hh : h < 2) : ∃ C r : ℝ, 0 ≤ C ∧ 0 ≤ r ∧ r < 1 ∧
    ∀ (Γ β : ℝ) (K : ℕ) (x v : ℕ → ℝ), 0 ≤ Γ → 0 ≤ β →
      (∀ j, j < K → ∃ g g' x', |g| ≤ Γ ∧ |g'| ≤ Γ ∧ Kick f h g g' (x j) (v j) x' (v (j + 1))) →
      (∀ j, 0 < j → j ≤ K → |x j| ≤ β) → ∀ j, j ≤ K → |v j| ≤ C * (r ^ j * (|x 0| + |v 0|) + β + Γ) := by
  have hc : 0 < f * h := mul_pos hf h0
  have ha : 0 < 1 - h ^ 2 / 4 := by nlinarith
  set d := 1 + f * h / 2 with hd
  have d0 : 0 < d := by rw [hd]; linarith
  set α := |(2 - d) * (1 - h ^ 2 / 2) / d| with hα
  have hα1 : α < 1 := by
    rw [hα, abs_div, abs_of_pos d0, div_lt_one d0, abs_mul]
    have s1 : |1 - h ^ 2 / 2| ≤ 1 := by rw [abs_le]; constructor <;> nlinarith [sq_nonneg h]
    have s2 : |2 - d| < d := by rw [abs_lt]; constructor <;> linarith
    calc |2 - d| * |1 - h ^ 2 / 2| ≤ |2 - d| * 1 := mul_le_mul_of_nonneg_left s1 (abs_nonneg _)
      _ < d := by linarith
  set r := max α (1 / 2) with hr
  have r0 : 0 < r := lt_of_lt_of_le (by norm_num) (le_max_right _ _)
  have r1 : r < 1 := max_lt hα1 (by norm_num)
  set B := (h + h ^ 3) / d with hB
  have B0 : 0 < B := by rw [hB]; positivity
  have step : ∀ {g g' Γ x v x' v' : ℝ}, |g| ≤ Γ → |g'| ≤ Γ → Kick f h g g' x v x' v' → |v'| ≤ r * |v| + B * (|x| + Γ) := by
    intro g g' Γ x v x' v' hg hg' k
    have hΓ : 0 ≤ Γ := (abs_nonneg _).trans hg
    have e2 : d * v' = (2 - d) * v - h / 2 * (x + x') + h / 2 * (g + g') := by rw [hd]; linear_combination k.velocity
    have e3 : d * v' = (2 - d) * (1 - h ^ 2 / 2) * v + (-(h * (1 - h ^ 2 / 4)) * x + (h / 2 * (g + g') - h ^ 3 / 4 * g)) := by
      rw [e2, k.position, hd]; ring
    have h3 : 0 < h ^ 3 := by positivity
    have b1 : |h / 2 * (g + g')| ≤ h * Γ := by
      rw [abs_mul, abs_of_nonneg (by linarith)]
      have := (abs_add_le g g').trans (add_le_add hg hg')
      nlinarith
    have b2 : |h ^ 3 / 4 * g| ≤ h ^ 3 * Γ := by
      rw [abs_mul, abs_of_nonneg (by linarith)]
      nlinarith [mul_nonneg h3.le (abs_nonneg g), mul_le_mul_of_nonneg_left hg h3.le]
    have b3 : |-(h * (1 - h ^ 2 / 4)) * x| ≤ (h + h ^ 3) * |x| := by
      rw [abs_mul, abs_neg, abs_of_pos (by positivity)]
      apply mul_le_mul_of_nonneg_right _ (abs_nonneg _)
      nlinarith
    have b4 : |d * v'| ≤ |(2 - d) * (1 - h ^ 2 / 2) * v| + (h + h ^ 3) * (|x| + Γ) := by
      rw [e3]
      have t1 := abs_add_le ((2 - d) * (1 - h ^ 2 / 2) * v) (-(h * (1 - h ^ 2 / 4)) * x + (h / 2 * (g + g') - h ^ 3 / 4 * g))
      have t2 := abs_add_le (-(h * (1 - h ^ 2 / 4)) * x) (h / 2 * (g + g') - h ^ 3 / 4 * g)
      have t3 := abs_sub (h / 2 * (g + g')) (h ^ 3 / 4 * g)
      linarith
    have e4 : |(2 - d) * (1 - h ^ 2 / 2) * v| = d * (α * |v|) := by
      rw [hα, abs_div, abs_of_pos d0, abs_mul]; field_simp
    have e5 : (h + h ^ 3) * (|x| + Γ) = d * (B * (|x| + Γ)) := by rw [hB]; field_simp
    rw [abs_mul, abs_of_pos d0, e4, e5, ← mul_add] at b4
    have b5 := le_of_mul_le_mul_left b4 d0
    have : α * |v| ≤ r * |v| := mul_le_mul_of_nonneg_right (le_max_left _ _) (abs_nonneg _)
    linarith
  refine ⟨1 + B / r + B / (1 - r), r, ?_, r0.le, r1, ?_⟩
  · have : 0 < 1 - r := by linarith
    positivity
  intro Γ β K x v hΓ hβ hs hx
  have h1r : 0 < 1 - r := by linarith
  have key : ∀ j, j + 1 ≤ K → |v (j + 1)| ≤ r ^ (j + 1) * |v 0| + r ^ j * (B * |x 0|) + B * (β + Γ) / (1 - r) := by
    intro j
    induction j with
    | zero =>
      intro hj
      obtain ⟨g, g', x', a, a', k⟩ := hs 0 (by omega)
      have := step a a' k
      have e : B * Γ ≤ B * (β + Γ) / (1 - r) := by
        rw [le_div_iff₀ h1r]
        have : 0 ≤ B * Γ * r := by positivity
        have : 0 ≤ B * β := by positivity
        nlinarith
      simp only [zero_add, pow_one, pow_zero, one_mul]
      simp only [zero_add] at this
      nlinarith
    | succ j ih =>
      intro hj
      obtain ⟨g, g', x', a, a', k⟩ := hs (j + 1) (by omega)
      have h1 := step a a' k
      have h2 := ih (by omega)
      have h3 := hx (j + 1) (by omega) (by omega)
      have h4 : r * |v (j + 1)| ≤ r * (r ^ (j + 1) * |v 0| + r ^ j * (B * |x 0|) + B * (β + Γ) / (1 - r)) := mul_le_mul_of_nonneg_left h2 r0.le
      have h5 : B * (|x (j + 1)| + Γ) ≤ B * (β + Γ) := mul_le_mul_of_nonneg_left (by linarith) B0.le
      have e : r * (B * (β + Γ) / (1 - r)) + B * (β + Γ) = B * (β + Γ) / (1 - r) := by
        field_simp; ring
      calc |v (j + 1 + 1)| ≤ r * (r ^ (j + 1) * |v 0| + r ^ j * (B * |x 0|) + B * (β + Γ) / (1 - r)) + B * (β + Γ) := by linarith
        _ = r ^ (j + 1 + 1) * |v 0| + r ^ (j + 1) * (B * |x 0|) + (r * (B * (β + Γ) / (1 - r)) + B * (β + Γ)) := by ring
        _ = _ := by rw [e]
  intro j hj
  have u1 : 0 ≤ B / r := by positivity
  have u2 : 0 ≤ B / (1 - r) := by positivity
  have u3 : 0 ≤ r ^ j := by positivity
  have u4 := abs_nonneg (x 0)
  have u5 := abs_nonneg (v 0)
  have v1 : 0 ≤ r ^ j * (|x 0| + |v 0|) := by positivity
  have v2 : 0 ≤ B / r * (r ^ j * |v 0|) := by positivity
  have v3 : 0 ≤ B / (1 - r) * (r ^ j * (|x 0| + |v 0|)) := by positivity
  have v4 : 0 ≤ (1 + B / r) * (β + Γ) := by positivity
  have v5 : 0 ≤ r ^ j * |x 0| := by positivity
  have v6 : 0 ≤ (1 + B / r + B / (1 - r)) * (β + Γ) := by positivity
  cases j with
  | zero =>
    simp only [pow_zero, one_mul] at *
    nlinarith
  | succ j =>
    have h1 := key j hj
    have e1 : r ^ j * (B * |x 0|) = B / r * (r ^ (j + 1) * |x 0|) := by rw [pow_succ]; field_simp
    have e2 : B * (β + Γ) / (1 - r) = B / (1 - r) * (β + Γ) := by ring
    rw [e1, e2] at h1
    nlinarith

/-- An unforced agent at rest, `h ≥ 2`: it never comes closer to 0 again. -/
theorem unforced_persists {f h : ℝ} (hf : 0 ≤ f) (hh : 2 ≤ h) {K : ℕ} {x v : ℕ → ℝ}
    (hs : ∀ j, j < K → Kick f h 0 0 (x j) (v j) (x (j + 1)) (v (j + 1))) (hv : v 0 = 0) :
    ∀ j, j ≤ K → |x 0| ≤ |x j| := by
  have hfh : 0 ≤ f * h := mul_nonneg hf (by linarith)
  have hE : ∀ j, j ≤ K → energy f h (x j) (v j) ≤ energy f h (x 0) (v 0) := by
    intro j
    induction j with
    | zero => intro _; exact le_rfl
    | succ j ih =>
      intro hj
      rw [energy_step (hs j hj)]
      have := mul_nonneg hfh (sq_nonneg (v j))
      have := ih (by omega)
      linarith
  have hE : ∀ j, j ≤ K → (1 - h ^ 2 / 4) * x j ^ 2 + (1 + f * h / 2) ^ 2 * v j ^ 2 ≤ (1 - h ^ 2 / 4) * x 0 ^ 2 := by
    intro j hj
    have := hE j hj
    unfold energy at this
    rw [hv] at this
    linarith
  intro j hj
  rcases eq_or_lt_of_le hh with h2 | h2
  · have hz : ∀ j, j ≤ K → v j = 0 := by
      intro j hj
      have h3 := hE j hj
      rw [← h2, show (1 : ℝ) - 2 ^ 2 / 4 = 0 by norm_num, zero_mul, zero_mul, zero_add] at h3
      have h4 : 0 < (1 + f * 2 / 2) ^ 2 := by positivity
      have h5 : v j ^ 2 ≤ 0 := by
        by_contra hc
        have := mul_pos h4 (not_le.mp hc)
        linarith
      exact pow_eq_zero_iff (two_ne_zero) |>.mp (le_antisymm h5 (sq_nonneg _))
    have habs : ∀ j, j ≤ K → |x j| = |x 0| := by
      intro j
      induction j with
      | zero => intro _; rfl
      | succ j ih =>
        intro hj
        have hp := (hs j hj).position
        rw [hz j (by omega), ← h2] at hp
        rw [← ih (by omega), hp, ← abs_neg (x j)]
        congr 1
        ring
    exact (habs j hj).ge
  · have h3 := hE j hj
    have h5 := mul_nonneg (sq_nonneg (1 + f * h / 2)) (sq_nonneg (v j))
    refine sq_le_sq.mp ?_
    have h6 : 0 < h ^ 2 / 4 - 1 := by nlinarith
    by_contra hc
    have := mul_lt_mul_of_pos_left (not_le.mp hc) h6
    linarith

/-- An unforced agent at rest, `h ≥ 2`: its position grows by the factor `h²/2 - 1` in every step, with alternating sign. -/
theorem unforced_grows {f h : ℝ} (hf : 0 ≤ f) (hh : 2 ≤ h) (hfh : f * h ≤ 2) {K : ℕ} {x v : ℕ → ℝ}
    (hs : ∀ j, j < K → Kick f h 0 0 (x j) (v j) (x (j + 1)) (v (j + 1))) (hv : v 0 = 0) :
    ∀ j, j ≤ K → (h ^ 2 / 2 - 1) ^ j * |x 0| ≤ |x j| := by
  set lam := h ^ 2 / 2 - 1 with hl
  have l1 : 1 ≤ lam := by rw [hl]; nlinarith
  have hc : 0 ≤ f * h := mul_nonneg hf (by linarith)
  set d := 1 + f * h / 2 with hd
  have d1 : 1 ≤ d := by rw [hd]; linarith
  have d2 : d ≤ 2 := by rw [hd]; linarith
  -- signs alternate: `y j = (-1)^j x j`
  have main : ∀ (e : ℝ) (y : ℕ → ℝ), (∀ j, j ≤ K → y j = e * (-1) ^ j * x j) → 0 ≤ y 0 → ∀ j, j + 1 ≤ K → 0 ≤ y j ∧ lam * y j ≤ y (j + 1) := by
    intro e y hy y0 j
    induction j with
    | zero =>
      intro hj
      refine ⟨y0, ?_⟩
      have := (hs 0 (by omega)).position
      rw [hy 0 (by omega), hy 1 (by omega)] at *
      simp only [zero_add] at this
      rw [this, hv, hl]
      apply le_of_eq
      ring
    | succ j ih =>
      intro hj
      obtain ⟨i1, i2⟩ := ih (by omega)
      have y1 : 0 ≤ y (j + 1) := (mul_nonneg (by linarith) i1).trans i2
      refine ⟨y1, ?_⟩
      have k1 := hs j (by omega)
      have k2 := hs (j + 1) (by omega)
      -- second-order recurrence
      have hrec : d * x (j + 2) = -2 * lam * x (j + 1) - (2 - d) * x j := by
        have p1 := k1.position
        have p2 := k2.position
        have q1 : d * v (j + 1) = (2 - d) * v j - h / 2 * (x j + x (j + 1)) := by rw [hd]; linear_combination k1.velocity
        have e1 : x (j + 1 + 1) = (1 - h ^ 2 / 2) * x (j + 1) + h * (2 - d) * v (j + 1) := by rw [p2, hd]; ring
        have e2 : h * (2 - d) * v j = x (j + 1) - (1 - h ^ 2 / 2) * x j := by rw [p1, hd]; ring
        show d * x (j + 1 + 1) = _
        rw [e1]
        have : d * (h * (2 - d) * v (j + 1)) = h * (2 - d) * ((2 - d) * v j - h / 2 * (x j + x (j + 1))) := by rw [← q1]; ring
        rw [mul_add, this]
        have : h * (2 - d) * ((2 - d) * v j - h / 2 * (x j + x (j + 1))) =
            (2 - d) * (h * (2 - d) * v j) - h ^ 2 / 2 * (2 - d) * (x j + x (j + 1)) := by ring
        rw [this, e2, hl]; ring
      have hrec' : d * y (j + 2) = 2 * lam * y (j + 1) - (2 - d) * y j := by
        rw [hy (j + 2) (by omega), hy (j + 1) (by omega), hy j (by omega), pow_succ, pow_succ]
        linear_combination e * (-1) ^ j * hrec
      have h1 : (2 - d) * y j ≤ (2 - d) * y (j + 1) * lam := by
        have : y j ≤ y (j + 1) := by nlinarith
        have a1 : (2 - d) * y j ≤ (2 - d) * y (j + 1) := mul_le_mul_of_nonneg_left this (by linarith)
        have a2 : 0 ≤ (2 - d) * y (j + 1) := mul_nonneg (by linarith) y1
        nlinarith
      have h2 : d * (lam * y (j + 1)) ≤ d * y (j + 2) := by rw [hrec']; linarith
      exact le_of_mul_le_mul_left h2 (by linarith)
  have both : ∀ j, j + 1 ≤ K → lam * |x j| ≤ |x (j + 1)| := by
    intro j hj
    have habs : ∀ i, |(-1 : ℝ) ^ i * x i| = |x i| := by intro i; rw [abs_mul, abs_pow, abs_neg, abs_one, one_pow, one_mul]
    rcases le_total 0 (x 0) with h0 | h0
    · obtain ⟨a, b⟩ := main 1 (fun j => (-1) ^ j * x j) (fun _ _ => by ring) (by simpa using h0) j hj
      rw [← habs j, ← habs (j + 1), abs_of_nonneg a, abs_of_nonneg ((mul_nonneg (by linarith) a).trans b)]
      exact b
    · obtain ⟨a, b⟩ := main (-1) (fun j => -((-1) ^ j * x j)) (fun _ _ => by ring) (by simpa using h0) j hj
      rw [← habs j, ← habs (j + 1), ← abs_neg, abs_of_nonneg a, ← abs_neg ((-1) ^ (j + 1) * x (j + 1)),
        abs_of_nonneg ((mul_nonneg (by linarith) a).trans b)]
      exact b
  intro j
  induction j with
  | zero => intro _; simp
  | succ j ih =>
    intro hj
    have h1 := ih (by omega)
    have h2 := both j hj
    calc lam ^ (j + 1) * |x 0| = lam * (lam ^ j * |x 0|) := by ring
      _ ≤ lam * |x j| := mul_le_mul_of_nonneg_left h1 (by linarith)
      _ ≤ _ := h2

end Seldon.Stability
