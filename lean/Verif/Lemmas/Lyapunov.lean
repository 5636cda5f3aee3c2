import Verif.Lemmas.Stability
/-!
# Lemmas: a quadratic form that shrinks in every Verlet step
-/
namespace Seldon.Stability

/-- The weight of the mixed term. -/
noncomputable def mix (f : ℝ) : ℝ := f / (24 * (1 + f) ^ 2)

/-- The quadratic form, for the position `x` and `y = (1 + f h / 2) v`. -/
noncomputable def form (f h x y : ℝ) : ℝ := (1 - h ^ 2 / 4) * x ^ 2 + y ^ 2 + 2 * mix f * (x * y)

/-- The relative loss in one step. -/
noncomputable def rate (f h : ℝ) : ℝ := mix f * h * (1 - h ^ 2 / 2)

/-- The damping of the velocity. -/
noncomputable def damp (f h : ℝ) : ℝ := (1 - f * h / 2) / (1 + f * h / 2)

theorem mix_pos {f : ℝ} (hf : 0 < f) : 0 < mix f := by unfold mix; positivity

theorem mix_le {f : ℝ} (hf : 0 < f) : mix f ≤ 1 / 96 := by
  unfold mix
  rw [div_le_div_iff₀ (by positivity) (by norm_num)]
  nlinarith [sq_nonneg (1 - f)]

theorem form_lower {f h : ℝ} (hf : 0 < f) (h0 : 0 ≤ h) (h1 : h ≤ 1) (x y : ℝ) : 2 / 3 * (x ^ 2 + y ^ 2) ≤ form f h x y := by
  have m0 := mix_pos hf
  have m1 := mix_le hf
  have hh : h ^ 2 ≤ 1 := pow_le_one₀ h0 h1
  unfold form
  have a : 2 * mix f * (x * y) ≥ -(mix f * (x ^ 2 + y ^ 2)) := by nlinarith [mul_nonneg m0.le (sq_nonneg (x + y))]
  have b : mix f * (x ^ 2 + y ^ 2) ≤ 1 / 96 * (x ^ 2 + y ^ 2) := mul_le_mul_of_nonneg_right m1 (by positivity)
  have c : 3 / 4 * x ^ 2 ≤ (1 - h ^ 2 / 4) * x ^ 2 := mul_le_mul_of_nonneg_right (by linarith) (sq_nonneg x)
  nlinarith [sq_nonneg x, sq_nonneg y]

theorem form_upper {f h : ℝ} (hf : 0 < f) (x y : ℝ) : form f h x y ≤ 3 / 2 * (x ^ 2 + y ^ 2) := by
  have m0 := mix_pos hf
  have m1 := mix_le hf
  unfold form
  have a : 2 * mix f * (x * y) ≤ mix f * (x ^ 2 + y ^ 2) := by nlinarith [mul_nonneg m0.le (sq_nonneg (x - y))]
  have b : mix f * (x ^ 2 + y ^ 2) ≤ 1 / 96 * (x ^ 2 + y ^ 2) := mul_le_mul_of_nonneg_right m1 (by positivity)
  have c : (1 - h ^ 2 / 4) * x ^ 2 ≤ 1 * x ^ 2 := mul_le_mul_of_nonneg_right (by nlinarith [sq_nonneg h]) (sq_nonneg x)
  nlinarith [sq_nonneg x, sq_nonneg y]

theorem rate_lower {f h : ℝ} (hf : 0 < f) (h0 : 0 ≤ h) (h1 : h ≤ 1) : f * h / (48 * (1 + f) ^ 2) ≤ rate f h := by
  have hh : h ^ 2 ≤ 1 := pow_le_one₀ h0 h1
  unfold rate
  have e : f * h / (48 * (1 + f) ^ 2) = mix f * h * (1 / 2) := by unfold mix; field_simp; ring
  rw [e]
  exact mul_le_mul_of_nonneg_left (by linarith) (mul_nonneg (mix_pos hf).le h0)

theorem rate_upper {f h : ℝ} (hf : 0 < f) (h0 : 0 ≤ h) : rate f h ≤ mix f * h := by
  unfold rate
  exact mul_le_of_le_one_right (mul_nonneg (mix_pos hf).le h0) (by nlinarith [sq_nonneg h])

theorem rate_pos {f h : ℝ} (hf : 0 < f) (h0 : 0 < h) (h1 : h ≤ 1) : 0 < rate f h :=
  lt_of_lt_of_le (by positivity) (rate_lower hf h0.le h1)

theorem rate_le {f h : ℝ} (hf : 0 < f) (h0 : 0 ≤ h) (h1 : h ≤ 1) : rate f h ≤ 1 / 96 := by
  refine (rate_upper hf h0).trans ?_
  have := mix_le hf
  have := mix_pos hf
  nlinarith

/-- A quadratic form without negative values. -/
theorem quadratic {A C k x y : ℝ} (hA : 0 ≤ A) (hC : 0 ≤ C) (h : k ^ 2 ≤ A * C) : 0 ≤ A * x ^ 2 + C * y ^ 2 + 2 * k * (x * y) := by
  rcases hA.eq_or_lt with rfl | hA
  · have : k ^ 2 = 0 := le_antisymm (by simpa using h) (sq_nonneg k)
    have : k = 0 := by simpa using this
    rw [this]
    nlinarith [sq_nonneg y]
  · have : 0 ≤ A * (A * x ^ 2 + C * y ^ 2 + 2 * k * (x * y)) := by nlinarith [sq_nonneg (A * x + k * y), mul_le_mul_of_nonneg_right h (sq_nonneg y)]
    exact nonneg_of_mul_nonneg_right this hA

set_option maxHeartbeats 1000000 in
/-- Without forcing the form shrinks by the factor `1 - rate` in every step. -/
theorem form_step {f h : ℝ} (hf : 0 < f) (h0 : 0 < h) (h1 : h ≤ 1) (x y : ℝ) :
    form f h ((1 - h ^ 2 / 2) * x + h * (damp f h * y)) (-(h * (1 - h ^ 2 / 4)) * x + (1 - h ^ 2 / 2) * (damp f h * y)) ≤
      (1 - rate f h) * form f h x y := by
  have m0 := mix_pos hf
  have m1 := mix_le hf
  have hh0 : 0 < h ^ 2 := by positivity
  have hh : h ^ 2 ≤ 1 := pow_le_one₀ h0.le h1
  set ε := mix f with hε
  set ρ := damp f h with hρ
  set d := 1 + f * h / 2 with hd
  have d1 : 1 ≤ d := by rw [hd]; have := mul_pos hf h0; linarith
  have dp : 0 < d := by linarith
  have dle : d ≤ 1 + f := by rw [hd]; nlinarith
  have eρ : ρ * d = 1 - f * h / 2 := by
    rw [hρ]; unfold damp; rw [← hd]; exact div_mul_cancel₀ _ dp.ne'
  -- `1 - ρ² = 2 f h / d²` and `1 - ρ = f h / d`
  have r1 : (1 - ρ) * d = f * h := by rw [sub_mul, eρ, hd]; ring
  have r2 : (1 - ρ ^ 2) * d ^ 2 = 2 * (f * h) := by
    have : (1 - ρ ^ 2) * d ^ 2 = ((1 - ρ) * d) * (d + ρ * d) := by ring
    rw [this, r1, eρ, hd]; ring
  have r3 : 0 < 1 - ρ := by
    have : 0 < (1 - ρ) * d := by rw [r1]; positivity
    exact pos_of_mul_pos_left this dp.le
  have r4 : 0 < 1 - ρ ^ 2 := by
    have : 0 < (1 - ρ ^ 2) * d ^ 2 := by rw [r2]; positivity
    exact pos_of_mul_pos_left this (by positivity)
  have r5 : |ρ| ≤ 1 := by rw [← sq_le_one_iff_abs_le_one]; linarith
  have eη : rate f h = ε * h * (1 - h ^ 2 / 2) := rfl
  set η := rate f h with hη
  have η0 : 0 < η := rate_pos hf h0 h1
  have η1 : η ≤ ε * h := rate_upper hf h0.le
  -- the choice of `ε`
  have e1 : 24 * ε * (1 + f) ^ 2 = f := by rw [hε]; unfold mix; field_simp
  have e2 : 24 * ε * d ^ 2 ≤ f := by
    rw [← e1]; gcongr
  have t1 : 3 * η ≤ (1 - ρ ^ 2) / 2 := by
    have : 3 * η * d ^ 2 ≤ (1 - ρ ^ 2) / 2 * d ^ 2 := by
      have : (1 - ρ ^ 2) / 2 * d ^ 2 = f * h := by linarith
      rw [this]
      have : η * d ^ 2 ≤ ε * h * d ^ 2 := mul_le_mul_of_nonneg_right η1 (by positivity)
      have : 24 * ε * d ^ 2 * h ≤ f * h := mul_le_mul_of_nonneg_right e2 h0.le
      nlinarith [mul_pos hf h0]
    exact le_of_mul_le_mul_right this (by positivity)
  set κ := 1 - η - (1 - 2 * (h ^ 2 * (1 - h ^ 2 / 4))) * ρ with hκ
  have t2 : |κ| * d ≤ 3 * h * (1 + f) := by
    have a : κ = (1 - ρ) + (-η + 2 * (h ^ 2 * (1 - h ^ 2 / 4)) * ρ) := by rw [hκ]; ring
    have b : |2 * (h ^ 2 * (1 - h ^ 2 / 4)) * ρ| ≤ 2 * h := by
      rw [abs_mul, abs_of_nonneg (by nlinarith)]
      calc 2 * (h ^ 2 * (1 - h ^ 2 / 4)) * |ρ| ≤ 2 * (h ^ 2 * (1 - h ^ 2 / 4)) * 1 := mul_le_mul_of_nonneg_left r5 (by nlinarith)
        _ ≤ 2 * h := by nlinarith
    have c : |κ| ≤ (1 - ρ) + (η + 2 * h) := by
      rw [a]
      refine (abs_add_le _ _).trans (add_le_add (abs_of_pos r3).le ((abs_add_le _ _).trans (add_le_add ?_ b)))
      rw [abs_neg, abs_of_pos η0]
    have c' : |κ| * d ≤ f * h + (1 / 96 * h + 2 * h) * d := by
      calc |κ| * d ≤ ((1 - ρ) + (η + 2 * h)) * d := mul_le_mul_of_nonneg_right c dp.le
        _ = f * h + (η + 2 * h) * d := by rw [add_mul, r1]
        _ ≤ _ := by
          have : η ≤ 1 / 96 * h := η1.trans (mul_le_mul_of_nonneg_right m1 h0.le)
          gcongr
    have : d ≤ 1 + f / 2 := by rw [hd]; nlinarith
    have : (1 / 96 * h + 2 * h) * d ≤ (1 / 96 * h + 2 * h) * (1 + f / 2) := mul_le_mul_of_nonneg_left this (by positivity)
    nlinarith [mul_pos hf h0]
  have t3 : (ε * κ) ^ 2 ≤ ((1 - h ^ 2 / 4) * η) * ((1 - ρ ^ 2) / 2) := by
    have : (ε * κ) ^ 2 * d ^ 2 ≤ ((1 - h ^ 2 / 4) * η) * ((1 - ρ ^ 2) / 2) * d ^ 2 := by
      have a : ((1 - h ^ 2 / 4) * η) * ((1 - ρ ^ 2) / 2) * d ^ 2 = ((1 - h ^ 2 / 4) * η) * (f * h) := by
        linear_combination ((1 - h ^ 2 / 4) * η) / 2 * r2
      have b : (ε * κ) ^ 2 * d ^ 2 = ε ^ 2 * (|κ| * d) ^ 2 := by rw [mul_pow, mul_pow, sq_abs]; ring
      rw [a, b]
      have c : (|κ| * d) ^ 2 ≤ (3 * h * (1 + f)) ^ 2 := pow_le_pow_left₀ (by positivity) t2 2
      have g : ε ^ 2 * (3 * h * (1 + f)) ^ 2 = 9 / 24 * (ε * h * (f * h)) := by
        linear_combination 9 / 24 * ε * h ^ 2 * e1
      have k : 3 / 8 * (ε * h) ≤ (1 - h ^ 2 / 4) * η := by
        rw [eη]
        have : 3 / 4 * (1 / 2) ≤ (1 - h ^ 2 / 4) * (1 - h ^ 2 / 2) := mul_le_mul (by linarith) (by linarith) (by norm_num) (by linarith)
        have := mul_le_mul_of_nonneg_left this (mul_pos m0 h0).le
        linarith
      calc ε ^ 2 * (|κ| * d) ^ 2 ≤ ε ^ 2 * (3 * h * (1 + f)) ^ 2 := mul_le_mul_of_nonneg_left c (sq_nonneg _)
        _ = 3 / 8 * (ε * h) * (f * h) := by rw [g]; ring
        _ ≤ _ := mul_le_mul_of_nonneg_right k (mul_pos hf h0).le
    exact le_of_mul_le_mul_right this (by positivity)
  have q := quadratic (x := x) (y := y) (A := (1 - h ^ 2 / 4) * η) (C := (1 - ρ ^ 2) / 2) (k := ε * κ)
    (mul_nonneg (by linarith) η0.le) (by linarith) t3
  have id : (1 - η) * form f h x y - form f h ((1 - h ^ 2 / 2) * x + h * (ρ * y)) (-(h * (1 - h ^ 2 / 4)) * x + (1 - h ^ 2 / 2) * (ρ * y)) =
      (1 - h ^ 2 / 4) * η * x ^ 2 + (1 - ρ ^ 2 - η - 2 * η * ρ ^ 2) * y ^ 2 + 2 * (ε * κ) * (x * y) := by
    unfold form
    rw [← hε, hκ, eη]
    ring
  have s : (1 - ρ ^ 2) / 2 * y ^ 2 ≤ (1 - ρ ^ 2 - η - 2 * η * ρ ^ 2) * y ^ 2 := by
    apply mul_le_mul_of_nonneg_right _ (sq_nonneg y)
    nlinarith [mul_nonneg η0.le r4.le]
  linarith

/-- The same with disturbances. -/
theorem form_disturbed {f h : ℝ} (hf : 0 < f) (h0 : 0 < h) (h1 : h ≤ 1) {x y ξ ζ E B : ℝ} (hV : form f h x y ≤ B ^ 2) (hξ : |ξ| ≤ E) (hζ : |ζ| ≤ E)
    (hB : 5 * E ≤ rate f h * B) :
    form f h ((1 - h ^ 2 / 2) * x + h * (damp f h * y) + ξ) (-(h * (1 - h ^ 2 / 4)) * x + (1 - h ^ 2 / 2) * (damp f h * y) + ζ) ≤ B ^ 2 := by
  have hE : 0 ≤ E := (abs_nonneg _).trans hξ
  have η0 := rate_pos hf h0 h1
  have η1 := rate_le hf h0.le h1
  have hs := form_step hf h0 h1 x y
  set η := rate f h with hη
  set p := (1 - h ^ 2 / 2) * x + h * (damp f h * y)
  set q := -(h * (1 - h ^ 2 / 4)) * x + (1 - h ^ 2 / 2) * (damp f h * y)
  have hV0 : 0 ≤ form f h x y := le_trans (by positivity) (form_lower hf h0.le h1 x y)
  have he : form f h ξ ζ ≤ 3 * E ^ 2 := by
    have a : ξ ^ 2 ≤ E ^ 2 := sq_le_sq' (abs_le.mp hξ).1 (abs_le.mp hξ).2
    have b : ζ ^ 2 ≤ E ^ 2 := sq_le_sq' (abs_le.mp hζ).1 (abs_le.mp hζ).2
    refine (form_upper hf ξ ζ).trans ?_
    linarith
  -- `V(p + e) ≤ (1 + η/2) V(p) + (1 + 2/η) V(e)`
  have key : η * form f h (p + ξ) (q + ζ) ≤ η * ((1 + η / 2) * form f h p q) + (η + 2) * form f h ξ ζ := by
    have := form_lower hf h0.le h1 (η * p - 2 * ξ) (η * q - 2 * ζ)
    have pos : 0 ≤ form f h (η * p - 2 * ξ) (η * q - 2 * ζ) := le_trans (by positivity) this
    have id : form f h (η * p - 2 * ξ) (η * q - 2 * ζ) = 2 * (η * ((1 + η / 2) * form f h p q) + (η + 2) * form f h ξ ζ - η * form f h (p + ξ) (q + ζ)) := by
      unfold form; ring
    linarith
  have b1 : (1 + η / 2) * form f h p q ≤ (1 - η / 2) * B ^ 2 := by
    calc (1 + η / 2) * form f h p q ≤ (1 + η / 2) * ((1 - η) * form f h x y) := mul_le_mul_of_nonneg_left hs (by linarith)
      _ = ((1 + η / 2) * (1 - η)) * form f h x y := by ring
      _ ≤ (1 - η / 2) * form f h x y := mul_le_mul_of_nonneg_right (by nlinarith) hV0
      _ ≤ _ := mul_le_mul_of_nonneg_left hV (by linarith)
  have b2 : (η + 2) * form f h ξ ζ ≤ 9 * E ^ 2 := by
    have : 0 ≤ form f h ξ ζ := le_trans (by positivity) (form_lower hf h0.le h1 ξ ζ)
    nlinarith
  have b3 : 25 * E ^ 2 ≤ η ^ 2 * B ^ 2 := by
    have : (5 * E) ^ 2 ≤ (η * B) ^ 2 := pow_le_pow_left₀ (by linarith) hB 2
    nlinarith
  have : η * form f h (p + ξ) (q + ζ) ≤ η * B ^ 2 := by
    have := mul_le_mul_of_nonneg_left b1 η0.le
    nlinarith [sq_nonneg E]
  exact le_of_mul_le_mul_left this η0

theorem damp_mul {f h : ℝ} (hf : 0 < f) (h0 : 0 < h) (v : ℝ) : damp f h * ((1 + f * h / 2) * v) = (1 - f * h / 2) * v := by
  unfold damp
  have : 0 < 1 + f * h / 2 := by have := mul_pos hf h0; linarith
  field_simp

/-- One step in the coordinates of the form. -/
theorem coordinates {f h : ℝ} (hf : 0 < f) (h0 : 0 < h) {x v x' v' g g' a b : ℝ}
    (hx : x' = x + v * h + (-x + g - f * v) * h ^ 2 / 2 + a)
    (hv : (1 + f * h / 2) * v' = v + h / 2 * ((-x + g - f * v) + (-x' + g')) + b) :
    x' = (1 - h ^ 2 / 2) * x + h * (damp f h * ((1 + f * h / 2) * v)) + (h ^ 2 / 2 * g + a) ∧
    (1 + f * h / 2) * v' = -(h * (1 - h ^ 2 / 4)) * x + (1 - h ^ 2 / 2) * (damp f h * ((1 + f * h / 2) * v)) +
      (h / 2 * (1 - h ^ 2 / 2) * g + h / 2 * g' + (b - h / 2 * a)) := by
  rw [damp_mul hf h0]
  constructor
  · rw [hx]; ring
  · rw [hv, hx]; ring

/-- The disturbances in these coordinates. -/
theorem disturbances {h : ℝ} (h0 : 0 < h) (h1 : h ≤ 1) {g g' a b Γ δ : ℝ} (hg : |g| ≤ Γ) (hg' : |g'| ≤ Γ) (ha : |a| ≤ δ) (hb : |b| ≤ δ) :
    |h ^ 2 / 2 * g + a| ≤ h * Γ + 2 * δ ∧ |h / 2 * (1 - h ^ 2 / 2) * g + h / 2 * g' + (b - h / 2 * a)| ≤ h * Γ + 2 * δ := by
  have hΓ : 0 ≤ Γ := (abs_nonneg _).trans hg
  have hδ : 0 ≤ δ := (abs_nonneg _).trans ha
  have hh : h ^ 2 ≤ 1 := pow_le_one₀ h0.le h1
  have hh' : h ^ 2 ≤ h := by nlinarith
  constructor
  · refine (abs_add_le _ _).trans ?_
    rw [abs_mul, abs_of_nonneg (by positivity : 0 ≤ h ^ 2 / 2)]
    have : h ^ 2 / 2 * |g| ≤ h * Γ := mul_le_mul (by linarith) hg (abs_nonneg _) h0.le
    linarith
  · refine (abs_add_le _ _).trans ((add_le_add (abs_add_le _ _) (abs_sub _ _)).trans ?_)
    rw [abs_mul, abs_mul (h / 2) g', abs_mul (h / 2) a, abs_of_nonneg (by nlinarith : 0 ≤ h / 2 * (1 - h ^ 2 / 2)), abs_of_nonneg (by linarith : 0 ≤ h / 2)]
    have a1 : h / 2 * (1 - h ^ 2 / 2) * |g| ≤ h / 2 * Γ := mul_le_mul (by nlinarith) hg (abs_nonneg _) (by linarith)
    have a2 : h / 2 * |g'| ≤ h / 2 * Γ := mul_le_mul_of_nonneg_left hg' (by linarith)
    have a3 : h / 2 * |a| ≤ 1 * δ := mul_le_mul (by linarith) ha (abs_nonneg _) (by norm_num)
    linarith

/-- A disturbed Verlet step keeps the form below `B²`. -/
theorem form_next {f h : ℝ} (hf : 0 < f) (h0 : 0 < h) (h1 : h ≤ 1) {x v x' v' g g' a b Γ δ B : ℝ}
    (hx : x' = x + v * h + (-x + g - f * v) * h ^ 2 / 2 + a)
    (hv : (1 + f * h / 2) * v' = v + h / 2 * ((-x + g - f * v) + (-x' + g')) + b)
    (hg : |g| ≤ Γ) (hg' : |g'| ≤ Γ) (ha : |a| ≤ δ) (hb : |b| ≤ δ) (hV : form f h x ((1 + f * h / 2) * v) ≤ B ^ 2)
    (hB : 5 * (h * Γ + 2 * δ) ≤ rate f h * B) : form f h x' ((1 + f * h / 2) * v') ≤ B ^ 2 := by
  obtain ⟨e1, e2⟩ := coordinates hf h0 hx hv
  obtain ⟨d1, d2⟩ := disturbances h0 h1 hg hg' ha hb
  rw [e2, e1]
  exact form_disturbed hf h0 h1 hV d1 d2 hB

theorem abs_damp_le {f h : ℝ} (hf : 0 < f) (h0 : 0 < h) (h1 : h ≤ 1) : |damp f h| ≤ 1 - f * h / (1 + f) ^ 2 := by
  have hc := mul_pos hf h0
  have hd : 0 < 1 + f * h / 2 := by linarith
  unfold damp
  rw [abs_div, abs_of_pos hd, div_le_iff₀ hd, sub_mul, one_mul, div_mul_eq_mul_div, le_sub_iff_add_le]
  have key : f * h * (1 + f * h / 2) / (1 + f) ^ 2 ≤ f * h ∧ f * h * (1 + f * h / 2) / (1 + f) ^ 2 ≤ 2 := by
    have : f * h ≤ f := by nlinarith
    constructor
    · rw [div_le_iff₀ (by positivity)]
      apply mul_le_mul_of_nonneg_left _ hc.le
      nlinarith
    · rw [div_le_iff₀ (by positivity)]
      nlinarith
  rcases abs_choice (1 - f * h / 2) with e | e <;> rw [e]
  · linarith [key.1]
  · linarith [key.2]

/-- The velocity of a bot, whose position is reset before every step. -/
theorem bot_next {f h : ℝ} (hf : 0 < f) (h0 : 0 < h) (h1 : h ≤ 1) {x v x' v' g g' a b Γ δ B M : ℝ}
    (hx : x' = x + v * h + (-x + g - f * v) * h ^ 2 / 2 + a)
    (hv : (1 + f * h / 2) * v' = v + h / 2 * ((-x + g - f * v) + (-x' + g')) + b)
    (hg : |g| ≤ Γ) (hg' : |g'| ≤ Γ) (ha : |a| ≤ δ) (hb : |b| ≤ δ) (hM : |x| ≤ M) (hV : |(1 + f * h / 2) * v| ≤ B)
    (hB : h * M + (h * Γ + 2 * δ) ≤ f * h / (1 + f) ^ 2 * B) : |(1 + f * h / 2) * v'| ≤ B := by
  obtain ⟨-, e2⟩ := coordinates hf h0 hx hv
  obtain ⟨-, d2⟩ := disturbances h0 h1 hg hg' ha hb
  have hh : h ^ 2 ≤ 1 := pow_le_one₀ h0.le h1
  have hρ := abs_damp_le hf h0 h1
  have hM0 : 0 ≤ M := (abs_nonneg _).trans hM
  have hB0 : 0 ≤ B := (abs_nonneg _).trans hV
  rw [e2]
  refine (abs_add_le _ _).trans ((add_le_add ((abs_add_le _ _).trans (add_le_add ?_ ?_)) d2).trans (b := h * M + (1 - f * h / (1 + f) ^ 2) * B + (h * Γ + 2 * δ)) ?_)
  · rw [abs_mul, abs_neg, abs_of_nonneg (mul_nonneg h0.le (by linarith))]
    exact mul_le_mul (by nlinarith [sq_nonneg h]) hM (abs_nonneg _) h0.le
  · rw [abs_mul, abs_mul, abs_of_nonneg (by linarith : 0 ≤ 1 - h ^ 2 / 2)]
    have h2 : |damp f h| * |(1 + f * h / 2) * v| ≤ (1 - f * h / (1 + f) ^ 2) * B :=
      mul_le_mul hρ hV (abs_nonneg _) ((abs_nonneg _).trans hρ)
    calc (1 - h ^ 2 / 2) * (|damp f h| * |(1 + f * h / 2) * v|) ≤ 1 * (|damp f h| * |(1 + f * h / 2) * v|) :=
          mul_le_mul_of_nonneg_right (by nlinarith [sq_nonneg h]) (by positivity)
      _ ≤ _ := by rw [one_mul]; exact h2
  · linarith

/-- What the form says about position and velocity. -/
theorem form_bound {f h : ℝ} (hf : 0 < f) (h0 : 0 ≤ h) (h1 : h ≤ 1) {x y B : ℝ} (hB : 0 ≤ B) (hV : form f h x y ≤ B ^ 2) : |x| ≤ 5 / 4 * B ∧ |y| ≤ 5 / 4 * B := by
  have := (form_lower hf h0 h1 x y).trans hV
  constructor <;> apply abs_le_of_sq_le_sq _ (by linarith) <;> nlinarith [sq_nonneg x, sq_nonneg y, sq_nonneg B]

end Seldon.Stability
