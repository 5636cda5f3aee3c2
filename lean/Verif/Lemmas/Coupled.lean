import Verif.Lemmas.Stability
/-!
# Lemmas: weakly coupled Verlet recurrences
-/
namespace Seldon.Stability

/-- `K` Verlet steps of `n` agents in a row; the forces between them are at most `L` times the largest position. -/
def Coupled (f h L : ℝ) (n K : ℕ) (x v : ℕ → ℕ → ℝ) : Prop :=
  ∀ j, j < K → ∀ i, i < n → ∃ g g', Kick f h g g' (x j i) (v j i) (x (j + 1) i) (v (j + 1) i) ∧
    (∀ X, (∀ l, l < n → |x j l| ≤ X) → |g| ≤ L * X) ∧ (∀ X, (∀ l, l < n → |x (j + 1) l| ≤ X) → |g'| ≤ L * X)

theorem abs_position_le {f h x v : ℝ} (hh : h ^ 2 < 4) : |x| ≤ ‖point f h x v‖ / √(1 - h ^ 2 / 4) := by
  have ha : 0 < √(1 - h ^ 2 / 4) := Real.sqrt_pos.mpr (by linarith)
  have : |√(1 - h ^ 2 / 4) * x| ≤ ‖point f h x v‖ := Complex.abs_re_le_norm (point f h x v)
  rw [abs_mul, abs_of_pos ha] at this
  rw [le_div_iff₀ ha]; linarith

theorem abs_velocity_le {f h x v : ℝ} (hc : 0 ≤ f * h) : |v| ≤ ‖point f h x v‖ := by
  have : |(1 + f * h / 2) * v| ≤ ‖point f h x v‖ := Complex.abs_im_le_norm (point f h x v)
  rw [abs_mul, abs_of_pos (by linarith)] at this
  nlinarith [abs_nonneg v]

set_option maxHeartbeats 1000000 in
/-- If the coupling is weak enough, everything comes to rest exponentially fast. -/
theorem coupled_decay {f h : ℝ} (hf : 0 < f) (h0 : 0 < h) (hh : h < 2) : ∃ κ C q : ℝ, 0 < κ ∧ 0 ≤ C ∧ 0 ≤ q ∧ q < 1 ∧
    ∀ (L : ℝ) (n K : ℕ) (x v : ℕ → ℕ → ℝ) (M : ℝ), 0 ≤ L → L ≤ κ → Coupled f h L n K x v → (∀ i, i < n → |x 0 i| + |v 0 i| ≤ M) →
      ∀ j, j ≤ K → ∀ i, i < n → |x j i| ≤ C * q ^ j * M ∧ |v j i| ≤ C * q ^ j * M := by
  have hc : 0 < f * h := mul_pos hf h0
  have hh2 : h ^ 2 < 4 := by nlinarith
  have ha : 0 < 1 - h ^ 2 / 4 := by linarith
  have q0 : 0 < factor f h := factor_pos f h
  have q1 : factor f h < 1 := factor_lt hf h0 hh
  set e := √(1 - h ^ 2 / 4) with he
  have e0 : 0 < e := Real.sqrt_pos.mpr ha
  have e1 : e ≤ 1 := by rw [he]; exact Real.sqrt_le_one.mpr (by nlinarith [sq_nonneg h])
  set b := h ^ 2 + h + h ^ 3 with hb
  have b0 : 0 < b := by rw [hb]; positivity
  -- how far a position can get in one step
  set c := (1 + h + h ^ 2 / 2 * (2 + f)) / e with hcdef
  have hc1 : 1 / e ≤ c := by
    rw [hcdef]; gcongr
    have : 0 ≤ h ^ 2 / 2 * (2 + f) := by positivity
    linarith
  have c0 : 0 < c := lt_of_lt_of_le (by positivity) hc1
  set D := 1 + b * c with hD
  have D0 : 1 ≤ D := by rw [hD]; nlinarith [mul_pos b0 c0]
  set κ := min 1 ((1 - factor f h) / (4 * b * c * D)) with hκ
  have κ0 : 0 < κ := lt_min one_pos (div_pos (by linarith) (by positivity))
  have κ1 : κ ≤ 1 := min_le_left _ _
  have κ2 : 2 * b * κ * c * D ≤ (1 - factor f h) / 2 := by
    have : κ ≤ (1 - factor f h) / (4 * b * c * D) := min_le_right _ _
    rw [le_div_iff₀ (by positivity)] at this
    linarith
  set ρ := (1 + factor f h) / 2 with hρ
  have ρ0 : 0 < ρ := by rw [hρ]; linarith
  have ρ1 : ρ < 1 := by rw [hρ]; linarith
  set q := √ρ with hq
  have qpos : 0 < q := Real.sqrt_pos.mpr ρ0
  have qq : q * q = ρ := Real.mul_self_sqrt ρ0.le
  have qlt : q < 1 := by rw [hq, Real.sqrt_lt' one_pos]; linarith
  set d := 1 + f * h / 2 with hd
  have d1 : 1 ≤ d := by rw [hd]; linarith
  refine ⟨κ, D * d / (e * q), q, κ0, by positivity, qpos.le, qlt, ?_⟩
  intro L n K x v M hL0 hLκ hS hM
  -- one step: the size of the forcing
  have forcing : ∀ j, j < K → ∀ Q, (∀ l, l < n → ‖point f h (x j l) (v j l)‖ ≤ Q) → ∀ i, i < n → ∃ g g',
      Kick f h g g' (x j i) (v j i) (x (j + 1) i) (v (j + 1) i) ∧ |g| ≤ L * c * Q ∧ |g'| ≤ L * c * Q := by
    intro j hj Q hQ i hi
    have hQ0 : 0 ≤ Q := (norm_nonneg _).trans (hQ i hi)
    have hX : ∀ l, l < n → |x j l| ≤ Q / e := fun l hl =>
      (abs_position_le hh2).trans (div_le_div_of_nonneg_right (hQ l hl) e0.le)
    have hX' : ∀ l, l < n → |x (j + 1) l| ≤ c * Q := by
      intro l hl
      obtain ⟨g, g', k, hg, -⟩ := hS j hj l hl
      have hg : |g| ≤ Q / e := (hg _ hX).trans (by
        have : 0 ≤ Q / e := by positivity
        nlinarith)
      have hv : |v j l| ≤ Q / e := by
        have : |v j l| ≤ Q := (abs_velocity_le hc.le).trans (hQ l hl)
        refine this.trans ?_
        rw [le_div_iff₀ e0]; nlinarith
      have hx := hX l hl
      rw [k.position]
      have ec : c * Q = Q / e + Q / e * h + (Q / e + Q / e + f * (Q / e)) * h ^ 2 / 2 := by
        rw [hcdef]; field_simp; ring
      rw [ec]
      have t1 : |v j l * h| ≤ Q / e * h := by rw [abs_mul, abs_of_pos h0]; gcongr
      have t2 : |(-x j l + g - f * v j l) * h ^ 2 / 2| ≤ (Q / e + Q / e + f * (Q / e)) * h ^ 2 / 2 := by
        rw [abs_div, abs_mul, abs_of_nonneg (sq_nonneg h), abs_of_pos (by norm_num : (0 : ℝ) < 2)]
        gcongr
        refine (abs_sub _ _).trans ?_
        rw [abs_mul, abs_of_pos hf]
        have := abs_add_le (-x j l) g
        rw [abs_neg] at this
        gcongr
        linarith
      exact (abs_add_three _ _ _).trans (by linarith)
    obtain ⟨g, g', k, hg, hg'⟩ := hS j hj i hi
    refine ⟨g, g', k, (hg _ hX).trans ?_, (hg' _ hX').trans (by linarith)⟩
    have : Q / e ≤ c * Q := by
      calc Q / e = 1 / e * Q := by ring
        _ ≤ c * Q := mul_le_mul_of_nonneg_right hc1 hQ0
    calc L * (Q / e) ≤ L * (c * Q) := mul_le_mul_of_nonneg_left this hL0
      _ = _ := by ring
  have one : ∀ j, j < K → ∀ Q, (∀ l, l < n → ‖point f h (x j l) (v j l)‖ ≤ Q) → ∀ i, i < n → ‖point f h (x (j + 1) i) (v (j + 1) i)‖ ≤ D * Q := by
    intro j hj Q hQ i hi
    have hQ0 : 0 ≤ Q := (norm_nonneg _).trans (hQ i hi)
    obtain ⟨g, g', k, a, a'⟩ := forcing j hj Q hQ i hi
    refine (norm_one hf.le h0.le hh.le a a' k).trans ?_
    have h1 := hQ i hi
    have h2 : b * (L * c * Q) ≤ b * (1 * c * Q) := by gcongr; linarith
    rw [← hb, hD]
    linarith
  have two : ∀ j, j + 1 < K → ∀ Q, (∀ l, l < n → ‖point f h (x j l) (v j l)‖ ≤ Q) → ∀ i, i < n →
      ‖point f h (x (j + 2) i) (v (j + 2) i)‖ ≤ ρ * Q := by
    intro j hj Q hQ i hi
    have hQ0 : 0 ≤ Q := (norm_nonneg _).trans (hQ i hi)
    obtain ⟨g, g', k, a, a'⟩ := forcing j (by omega) Q hQ i hi
    obtain ⟨g2, g2', k2, a2, a2'⟩ := forcing (j + 1) hj (D * Q) (one j (by omega) Q hQ) i hi
    have hle : L * c * Q ≤ L * c * (D * Q) := by
      have : Q ≤ D * Q := by nlinarith
      exact mul_le_mul_of_nonneg_left this (by positivity)
    refine (norm_two hf h0 hh (a.trans hle) (a'.trans hle) a2 a2' k k2).trans ?_
    have h1 := mul_le_mul_of_nonneg_left (hQ i hi) q0.le
    have h2 : 2 * (b * (L * c * (D * Q))) ≤ (1 - factor f h) / 2 * Q := by
      calc 2 * (b * (L * c * (D * Q))) ≤ 2 * (b * (κ * c * (D * Q))) := by gcongr
        _ = 2 * b * κ * c * D * Q := by ring
        _ ≤ _ := mul_le_mul_of_nonneg_right κ2 hQ0
    rw [← hb, hρ]
    linarith
  have start : ∀ l, l < n → ‖point f h (x 0 l) (v 0 l)‖ ≤ d * M := by
    intro l hl
    refine (Complex.norm_le_abs_re_add_abs_im _).trans ?_
    show |e * x 0 l| + |d * v 0 l| ≤ _
    rw [abs_mul, abs_mul, abs_of_pos e0, abs_of_pos (by linarith : 0 < d)]
    have hed : e ≤ d := by linarith
    calc e * |x 0 l| + d * |v 0 l| ≤ d * |x 0 l| + d * |v 0 l| := by gcongr
      _ = d * (|x 0 l| + |v 0 l|) := by ring
      _ ≤ d * M := by gcongr; exact hM l hl
  have even : ∀ m, 2 * m ≤ K → ∀ i, i < n → ‖point f h (x (2 * m) i) (v (2 * m) i)‖ ≤ ρ ^ m * (d * M) := by
    intro m
    induction m with
    | zero => intro _ i hi; simpa using start i hi
    | succ m ih =>
      intro hm i hi
      have := two (2 * m) (by omega) _ (ih (by omega)) i hi
      rw [pow_succ', mul_assoc]
      exact this
  have all : ∀ j, j ≤ K → ∀ i, i < n → ‖point f h (x j i) (v j i)‖ ≤ D * d / q * q ^ j * M := by
    intro j hj i hi
    have hM0 : 0 ≤ M := le_trans (by positivity) (hM i hi)
    rcases Nat.even_or_odd' j with ⟨m, rfl | rfl⟩
    · refine (even m hj i hi).trans ?_
      have e : q ^ (2 * m) = ρ ^ m := by rw [pow_mul, sq, qq]
      rw [e]
      have : 1 ≤ D / q := by rw [le_div_iff₀ qpos]; linarith
      calc ρ ^ m * (d * M) = 1 * (ρ ^ m * (d * M)) := by ring
        _ ≤ D / q * (ρ ^ m * (d * M)) := mul_le_mul_of_nonneg_right this (by positivity)
        _ = _ := by ring
    · refine (one (2 * m) (by omega) _ (even m (by omega)) i hi).trans (le_of_eq ?_)
      have e : q ^ (2 * m + 1) = ρ ^ m * q := by rw [pow_succ, pow_mul, sq, qq]
      rw [e]; field_simp
  intro j hj i hi
  have hM0 : 0 ≤ M := le_trans (by positivity) (hM i hi)
  have h1 := all j hj i hi
  have e2 : D * d / (e * q) * q ^ j * M = D * d / q * q ^ j * M / e := by field_simp
  rw [e2]
  constructor
  · exact (abs_position_le hh2).trans (div_le_div_of_nonneg_right h1 e0.le)
  · refine (abs_velocity_le hc.le).trans (h1.trans ?_)
    rw [le_div_iff₀ e0]
    have : 0 ≤ D * d / q * q ^ j * M := by positivity
    nlinarith

/-- Differences of steps are steps. -/
theorem Kick.diff {f h g g' x v x' v' a a' y u y' u' : ℝ} (k : Kick f h g g' x v x' v') (l : Kick f h a a' y u y' u') :
    Kick f h (g - a) (g' - a') (x - y) (v - u) (x' - y') (v' - u') where
  position := by rw [k.position, l.position]; ring
  velocity := by linear_combination k.velocity - l.velocity

end Seldon.Stability
