import Verif.Props.Neutral
import Mathlib.Topology.Algebra.Order.LiminfLimsup
import Mathlib.Topology.Order.MonotoneConvergence
import Mathlib.Topology.Order.IntermediateValue
import Mathlib.Analysis.Calculus.Deriv.Slope
/-!
# Helper lemmas: the Runge-Kutta method for one equation `dx/dt = -x + g x`, and the equation `x = κ tanh( α x )`
-/
namespace Seldon.Scalar
open Filter Topology

/-- One Runge-Kutta step of size `h` for `dx/dt = f x`. -/
def step {F : Type} [Field F] (f : F → F) (h x : F) : F :=
  let k1 := f x
  let k2 := f (x + h / 2 * k1)
  let k3 := f (x + h / 2 * k2)
  let k4 := f (x + h * k3)
  x + h / 6 * (k1 + 2 * k2 + 2 * k3 + k4)

theorem step_neg {F : Type} [Field F] (f : F → F) (h x : F) : step (fun y => -f (-y)) h (-x) = -step f h x := by
  unfold step
  simp only [neg_neg, neg_add, ← mul_neg]

variable {g : ℝ → ℝ} {h x z : ℝ}

/-- If `g` pushes upwards between `x` and `z` but not beyond `z`, a step goes up, but not beyond `z`. -/
theorem step_up (h0 : 0 ≤ h) (h1 : h ≤ 1) (hxz : x ≤ z) (hg : ∀ y, x ≤ y → y ≤ z → y ≤ g y ∧ g y ≤ z) :
    x + h / 6 * (g x - x) ≤ step (fun y => -y + g y) h x ∧ step (fun y => -y + g y) h x ≤ z := by
  have key : ∀ y, x ≤ y → y ≤ z → 0 ≤ -y + g y ∧ -y + g y ≤ z - x := fun y a b => by
    obtain ⟨c, d⟩ := hg y a b
    constructor <;> linarith
  have st : ∀ c k, 0 ≤ c → c ≤ 1 → 0 ≤ k → k ≤ z - x → x ≤ x + c * k ∧ x + c * k ≤ z := fun c k a b d e => by
    have := mul_nonneg a d
    have := mul_le_mul_of_nonneg_right b d
    constructor <;> linarith
  unfold step
  obtain ⟨a1, b1⟩ := key x le_rfl hxz
  obtain ⟨p, q⟩ := st (h / 2) _ (by linarith) (by linarith) a1 b1
  obtain ⟨a2, b2⟩ := key _ p q
  obtain ⟨p, q⟩ := st (h / 2) _ (by linarith) (by linarith) a2 b2
  obtain ⟨a3, b3⟩ := key _ p q
  obtain ⟨p, q⟩ := st h _ h0 h1 a3 b3
  obtain ⟨a4, b4⟩ := key _ p q
  dsimp only
  generalize -(x + h / 2 * (-x + g x)) + g (x + h / 2 * (-x + g x)) = k2 at *
  generalize -(x + h / 2 * k2) + g (x + h / 2 * k2) = k3 at *
  generalize -(x + h * k3) + g (x + h * k3) = k4 at *
  constructor
  · have : 0 ≤ h / 6 * (2 * k2 + 2 * k3 + k4) := mul_nonneg (by linarith) (by linarith)
    linarith
  · have : h / 6 * (-x + g x + 2 * k2 + 2 * k3 + k4) ≤ h / 6 * (6 * (z - x)) := mul_le_mul_of_nonneg_left (by linarith) (by linarith)
    have := mul_le_mul_of_nonneg_right h1 (show 0 ≤ z - x by linarith)
    linarith

/-- If `g` pushes upwards below `z`, the iterates of the method tend to `z`. -/
theorem tendsto_up (h0 : 0 < h) (h1 : h ≤ 1) (hc : Continuous g) {u : ℕ → ℝ} (hu : ∀ k, u (k + 1) = step (fun y => -y + g y) h (u k)) (hz : u 0 ≤ z)
    (hg : ∀ y, u 0 ≤ y → y ≤ z → y ≤ g y ∧ g y ≤ z) (hs : ∀ y, u 0 ≤ y → y < z → y < g y) : Monotone u ∧ (∀ k, u k ≤ z) ∧ Tendsto u atTop (𝓝 z) := by
  have hb : ∀ k, u 0 ≤ u k ∧ u k ≤ z := by
    intro k
    induction k with
    | zero => exact ⟨le_rfl, hz⟩
    | succ k ih =>
      obtain ⟨a, b⟩ := step_up h0.le h1 ih.2 (fun y hy => hg y (ih.1.trans hy))
      rw [← hu] at a b
      refine ⟨?_, b⟩
      have := mul_nonneg (show 0 ≤ h / 6 by linarith) (sub_nonneg.mpr (hg _ ih.1 ih.2).1)
      linarith [ih.1]
  have hstep : ∀ k, u k + h / 6 * (g (u k) - u k) ≤ u (k + 1) := by
    intro k
    rw [hu]
    exact (step_up h0.le h1 (hb k).2 (fun y hy => hg y ((hb k).1.trans hy))).1
  have hmono : Monotone u := monotone_nat_of_le_succ fun k => by
    have := mul_nonneg (show 0 ≤ h / 6 by linarith) (sub_nonneg.mpr (hg _ (hb k).1 (hb k).2).1)
    linarith [hstep k]
  refine ⟨hmono, fun k => (hb k).2, ?_⟩
  have hlim := tendsto_atTop_ciSup hmono ⟨z, by rintro _ ⟨k, rfl⟩; exact (hb k).2⟩
  set l := ⨆ k, u k
  have hl1 : u 0 ≤ l := ge_of_tendsto' hlim fun k => (hb k).1
  have hl2 : l ≤ z := le_of_tendsto' hlim fun k => (hb k).2
  have h3 : l + h / 6 * (g l - l) ≤ l := by
    refine le_of_tendsto_of_tendsto' (hlim.add ((((hc.tendsto l).comp hlim).sub hlim).const_mul _)) (hlim.comp (tendsto_add_atTop_nat 1)) hstep
  rcases hl2.lt_or_eq with h4 | h4
  · have := mul_pos (show 0 < h / 6 by linarith) (sub_pos.mpr (hs l hl1 h4))
    linarith
  · rw [← h4]; exact hlim

/-- The same for a pressure downwards above `z`. -/
theorem tendsto_down (h0 : 0 < h) (h1 : h ≤ 1) (hc : Continuous g) {u : ℕ → ℝ} (hu : ∀ k, u (k + 1) = step (fun y => -y + g y) h (u k)) (hz : z ≤ u 0)
    (hg : ∀ y, z ≤ y → y ≤ u 0 → z ≤ g y ∧ g y ≤ y) (hs : ∀ y, z < y → y ≤ u 0 → g y < y) : Antitone u ∧ (∀ k, z ≤ u k) ∧ Tendsto u atTop (𝓝 z) := by
  have := tendsto_up (g := fun y => -g (-y)) (u := fun k => -u k) (z := -z) h0 h1 (by fun_prop) (fun k => by
      rw [hu, ← step_neg]
      congr 1
      funext y
      ring) (by linarith)
    (fun y a b => by obtain ⟨c, d⟩ := hg (-y) (by linarith) (by linarith); constructor <;> linarith)
    (fun y a b => by have := hs (-y) (by linarith) (by linarith); linarith)
  obtain ⟨a, b, c⟩ := this
  refine ⟨fun i j hij => neg_le_neg_iff.mp (a hij), fun k => neg_le_neg_iff.mp (b k), ?_⟩
  simpa using c.neg

/-! ## the hyperbolic tangent -/

theorem tanh_continuous : Continuous Real.tanh := continuous_iff_continuousAt.mpr fun y => (hasDerivAt_tanh y).continuousAt

theorem tanh_star {c y : ℝ} (h0 : 0 < c) (h1 : c < 1) (hy : 0 < y) : c * Real.tanh y < Real.tanh (c * y) := by
  have hd : ∀ y, HasDerivAt (fun y => Real.tanh (c * y) - c * Real.tanh y) (1 / Real.cosh (c * y) ^ 2 * c - c * (1 / Real.cosh y ^ 2)) y := by
    intro y
    have hin : HasDerivAt (fun y => c * y) c y := by simpa using (hasDerivAt_id' y).const_mul c
    exact ((hasDerivAt_tanh (c * y)).comp y hin).sub ((hasDerivAt_tanh y).const_mul c)
  have h2 : StrictMonoOn (fun y => Real.tanh (c * y) - c * Real.tanh y) (Set.Ici 0) := by
    apply strictMonoOn_of_deriv_pos (convex_Ici 0)
    · exact fun y _ => (hd y).continuousAt.continuousWithinAt
    · intro w hw
      rw [interior_Ici] at hw
      have hw : 0 < w := hw
      rw [(hd w).deriv]
      have hcw : Real.cosh (c * w) < Real.cosh w := by
        rw [Real.cosh_lt_cosh, abs_of_pos (mul_pos h0 hw), abs_of_pos hw]
        nlinarith
      have : 1 / Real.cosh w ^ 2 < 1 / Real.cosh (c * w) ^ 2 := by
        apply one_div_lt_one_div_of_lt
        · have := Real.cosh_pos (c * w); positivity
        · exact pow_lt_pow_left₀ hcw (Real.cosh_pos _).le (by norm_num)
      nlinarith
  have := h2 (Set.mem_Ici.mpr le_rfl) (Set.mem_Ici.mpr hy.le) hy
  simp only [mul_zero, Real.tanh_zero, sub_zero] at this
  linarith

theorem tanh_lt {y : ℝ} (hy : 0 < y) : Real.tanh y < y := by
  have a := tanh_star (c := 1 / 2) (by norm_num) (by norm_num) hy
  have b := (le_abs_self _).trans (abs_tanh_le (1 / 2 * y))
  rw [abs_of_pos (by linarith)] at b
  linarith

theorem tanh_nonneg {y : ℝ} (hy : 0 ≤ y) : 0 ≤ Real.tanh y := tanh_squashing.nonneg hy

theorem tanh_lt_one' (y : ℝ) : Real.tanh y < 1 := by
  rw [Real.tanh_eq_sinh_div_cosh, div_lt_one (Real.cosh_pos y)]
  exact Real.sinh_lt_cosh y

section
variable {κ α : ℝ}

theorem below {y w : ℝ} (hκ : 0 < κ) (ha : 0 < α) (hw : w = κ * Real.tanh (α * w)) (h0 : 0 < y) (h1 : y < w) : y < κ * Real.tanh (α * y) := by
  have hw0 : 0 < w := h0.trans h1
  have := tanh_star (c := y / w) (y := α * w) (div_pos h0 hw0) ((div_lt_one hw0).mpr h1) (mul_pos ha hw0)
  have e : y / w * (α * w) = α * y := by field_simp
  rw [e] at this
  have := mul_lt_mul_of_pos_left this hκ
  have e : κ * (y / w * Real.tanh (α * w)) = y / w * (κ * Real.tanh (α * w)) := by ring
  rw [e, ← hw, div_mul_cancel₀ _ hw0.ne'] at this
  exact this

theorem above {y w : ℝ} (hκ : 0 < κ) (ha : 0 < α) (hw : w = κ * Real.tanh (α * w)) (h0 : 0 < w) (h1 : w < y) : κ * Real.tanh (α * y) < y := by
  have hy0 : 0 < y := h0.trans h1
  have := tanh_star (c := w / y) (y := α * y) (div_pos h0 hy0) ((div_lt_one hy0).mpr h1) (mul_pos ha hy0)
  have e : w / y * (α * y) = α * w := by field_simp
  rw [e] at this
  have := mul_lt_mul_of_pos_left this hκ
  rw [← hw] at this
  have e : κ * (w / y * Real.tanh (α * y)) = w * (κ * Real.tanh (α * y) / y) := by field_simp
  rw [e] at this
  have : κ * Real.tanh (α * y) / y < 1 := by nlinarith
  exact (div_lt_one hy0).mp this

/-- Above the threshold `κ α = 1` the equation `w = κ tanh( α w )` has exactly one positive solution. -/
theorem exists_unique (ha : 0 < α) (hk : 1 < κ * α) : ∃! w : ℝ, 0 < w ∧ w = κ * Real.tanh (α * w) := by
  have hκ : 0 < κ := by by_contra h; nlinarith
  have hcont : Continuous fun y => κ * Real.tanh (α * y) - y := by
    have := tanh_continuous.comp (continuous_const.mul continuous_id : Continuous fun y : ℝ => α * y)
    exact (continuous_const.mul this).sub continuous_id
  have hd : HasDerivAt (fun y => κ * Real.tanh (α * y) - y) (κ * α - 1) 0 := by
    have hin : HasDerivAt (fun y => α * y) α (0 : ℝ) := by simpa using (hasDerivAt_id' (0 : ℝ)).const_mul α
    have := ((hasDerivAt_tanh (α * 0)).comp (0 : ℝ) hin).const_mul κ
    have h3 : HasDerivAt (fun y => κ * Real.tanh (α * y) - y) (κ * (1 / Real.cosh (α * 0) ^ 2 * α) - 1) 0 := this.sub (hasDerivAt_id' (0 : ℝ))
    rwa [mul_zero, Real.cosh_zero, one_pow, div_one, one_mul] at h3
  obtain ⟨a, ha0, ha1⟩ : ∃ a, 0 < a ∧ 0 < κ * Real.tanh (α * a) - a := by
    have h1 : ∀ᶠ y in 𝓝[>] (0 : ℝ), 0 < slope (fun y => κ * Real.tanh (α * y) - y) 0 y :=
      ((hasDerivAt_iff_tendsto_slope.mp hd).mono_left (nhdsWithin_mono _ fun y hy => ne_of_gt hy)).eventually (lt_mem_nhds (by linarith))
    obtain ⟨a, h2, h3⟩ := (h1.and self_mem_nhdsWithin).exists
    have h3 : 0 < a := h3
    refine ⟨a, h3, ?_⟩
    rw [slope_def_field] at h2
    simp only [mul_zero, Real.tanh_zero, sub_zero] at h2
    exact (div_pos_iff_of_pos_right h3).mp h2
  have hb : κ * Real.tanh (α * κ) - κ < 0 := by
    have := mul_lt_mul_of_pos_left (tanh_lt_one' (α * κ)) hκ
    linarith
  have hak : a ≤ κ := by
    have := mul_lt_mul_of_pos_left (tanh_lt_one' (α * a)) hκ
    linarith
  obtain ⟨w, hw, hw'⟩ := intermediate_value_Icc' hak hcont.continuousOn ⟨hb.le, ha1.le⟩
  have hw0 : 0 < w := ha0.trans_le hw.1
  refine ⟨w, ⟨hw0, by have : κ * Real.tanh (α * w) - w = 0 := hw'; linarith⟩, ?_⟩
  rintro v ⟨hv0, hv⟩
  have hw2 : w = κ * Real.tanh (α * w) := by have : κ * Real.tanh (α * w) - w = 0 := hw'; linarith
  rcases lt_trichotomy v w with h | h | h
  · have := below hκ ha hw2 hv0 h; linarith
  · exact h
  · have := above hκ ha hw2 hw0 h; linarith

/-- The iterates above the threshold. -/
theorem radical {h : ℝ} (h0 : 0 < h) (h1 : h ≤ 1) (ha : 0 < α) (hk : 1 < κ * α) {w : ℝ} (hw0 : 0 < w) (hw : w = κ * Real.tanh (α * w)) {u : ℕ → ℝ}
    (hu : ∀ k, u (k + 1) = step (fun y => -y + κ * Real.tanh (α * y)) h (u k)) (h2 : 0 < u 0) : Tendsto u atTop (𝓝 w) := by
  have hκ : 0 < κ := by by_contra h; nlinarith
  have hcont : Continuous fun y => κ * Real.tanh (α * y) :=
    continuous_const.mul (tanh_continuous.comp (continuous_const.mul continuous_id : Continuous fun y : ℝ => α * y))
  have hmono : ∀ y z, y ≤ z → κ * Real.tanh (α * y) ≤ κ * Real.tanh (α * z) := fun y z hyz =>
    mul_le_mul_of_nonneg_left (tanh_squashing.mono _ _ (mul_le_mul_of_nonneg_left hyz ha.le)) hκ.le
  rcases le_total (u 0) w with h3 | h3
  · refine (tendsto_up h0 h1 hcont hu h3 (fun y a b => ⟨?_, ?_⟩) (fun y a b => below hκ ha hw (h2.trans_le a) b)).2.2
    · rcases b.lt_or_eq with b | rfl
      · exact (below hκ ha hw (h2.trans_le a) b).le
      · exact hw.le
    · rw [hw]; exact (hmono _ _ b).trans (by rw [← hw])
  · refine (tendsto_down h0 h1 hcont hu h3 (fun y a b => ⟨?_, ?_⟩) (fun y a b => above hκ ha hw hw0 a)).2.2
    · calc w = _ := hw
        _ ≤ _ := hmono _ _ a
    · rcases a.lt_or_eq with a | rfl
      · exact (above hκ ha hw hw0 a).le
      · exact hw.ge

/-- The iterates up to the threshold. -/
theorem neutral {h : ℝ} (h0 : 0 < h) (h1 : h ≤ 1) (ha : 0 < α) (hκ : 0 ≤ κ) (hk : κ * α ≤ 1) {u : ℕ → ℝ}
    (hu : ∀ k, u (k + 1) = step (fun y => -y + κ * Real.tanh (α * y)) h (u k)) (h2 : 0 ≤ u 0) : Tendsto u atTop (𝓝 0) := by
  have hcont : Continuous fun y => κ * Real.tanh (α * y) :=
    continuous_const.mul (tanh_continuous.comp (continuous_const.mul continuous_id : Continuous fun y : ℝ => α * y))
  have hs : ∀ y, 0 < y → κ * Real.tanh (α * y) < y := by
    intro y hy
    rcases hκ.lt_or_eq with hκ | rfl
    · calc κ * Real.tanh (α * y) < κ * (α * y) := mul_lt_mul_of_pos_left (tanh_lt (mul_pos ha hy)) hκ
        _ = κ * α * y := by ring
        _ ≤ 1 * y := mul_le_mul_of_nonneg_right hk hy.le
        _ = y := one_mul y
    · rw [zero_mul]; exact hy
  refine (tendsto_down h0 h1 hcont hu h2 (fun y a b => ⟨mul_nonneg hκ (tanh_nonneg (mul_nonneg ha.le a)), ?_⟩) (fun y a _ => hs y a)).2.2
  rcases a.lt_or_eq with a | rfl
  · exact (hs y a).le
  · simp

theorem odd (h : ℝ) (x : ℝ) : step (fun y => -y + κ * Real.tanh (α * y)) h (-x) = -step (fun y => -y + κ * Real.tanh (α * y)) h x := by
  rw [← step_neg]
  congr 1
  funext y
  rw [mul_neg, Real.tanh_neg]
  ring

end
end Seldon.Scalar
