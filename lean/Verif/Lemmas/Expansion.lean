import Mathlib.Analysis.Asymptotics.Lemmas
import Mathlib.Analysis.Calculus.MeanValue
import Mathlib.Analysis.Calculus.Deriv.Pow
import Mathlib.Analysis.SpecialFunctions.Trigonometric.DerivHyp
import Mathlib.Tactic.Linarith
import Mathlib.Tactic.Ring
/-!
# Expansions in powers of a small step
-/
namespace Seldon
open Filter Topology Asymptotics

/-- `u h = p h + O( h^k )` as `h → 0`. -/
def Near (k : ℕ) (u p : ℝ → ℝ) : Prop := (fun h => u h - p h) =O[𝓝 0] (fun h : ℝ => h ^ k)

namespace Near
variable {k l : ℕ} {u v p q : ℝ → ℝ}

theorem refl (k : ℕ) (u : ℝ → ℝ) : Near k u u := by
  unfold Near
  simp only [sub_self]
  exact isBigO_zero _ _

theorem of_eq (h : ∀ x, u x = p x) : Near k u p := by
  rw [show u = p from funext h]; exact refl k p

theorem symm (h : Near k u p) : Near k p u := by
  unfold Near at *
  refine (h.neg_left).congr_left fun x => ?_
  ring

theorem trans (h : Near k u p) (h' : Near k p q) : Near k u q := by
  unfold Near at *
  refine (h.add h').congr_left fun x => ?_
  ring

theorem add (h : Near k u p) (h' : Near k v q) : Near k (fun x => u x + v x) (fun x => p x + q x) := by
  unfold Near at *
  refine (IsBigO.add h h').congr_left fun x => ?_
  ring

theorem sub (h : Near k u p) (h' : Near k v q) : Near k (fun x => u x - v x) (fun x => p x - q x) := by
  unfold Near at *
  refine (IsBigO.sub h h').congr_left fun x => ?_
  ring

theorem const_mul (c : ℝ) (h : Near k u p) : Near k (fun x => c * u x) (fun x => c * p x) := by
  unfold Near at *
  refine (IsBigO.const_mul_left h c).congr_left fun x => ?_
  ring

theorem neg (h : Near k u p) : Near k (fun x => -u x) (fun x => -p x) := by
  have := h.const_mul (-1)
  refine (of_eq fun x => ?_).trans (this.trans (of_eq fun x => ?_)) <;> ring

theorem weaken (h : Near k u p) (hl : l ≤ k) : Near l u p := by
  unfold Near at *
  refine h.trans ?_
  apply IsBigO.of_bound 1
  have : ∀ᶠ x : ℝ in 𝓝 0, |x| < 1 := by
    have : Tendsto (fun x : ℝ => |x|) (𝓝 0) (𝓝 0) := by simpa using (continuous_abs (G := ℝ)).tendsto 0
    exact this.eventually (gt_mem_nhds one_pos)
  filter_upwards [this] with x hx
  rw [norm_pow, norm_pow, one_mul, Real.norm_eq_abs]
  exact pow_le_pow_of_le_one (abs_nonneg _) hx.le hl

/-- `x * ( p + O( x^k ) ) = x p + O( x^(k+1) )`. -/
theorem id_mul (h : Near k u p) : Near (k + 1) (fun x => x * u x) (fun x => x * p x) := by
  unfold Near at *
  refine ((isBigO_refl (fun x : ℝ => x) (𝓝 0)).mul h).congr (fun x => ?_) (fun x => ?_) <;> ring

theorem mul (h : Near k u p) (h' : Near k v q) (hv : v =O[𝓝 0] (fun _ => (1 : ℝ))) (hp : p =O[𝓝 0] (fun _ => (1 : ℝ))) :
    Near k (fun x => u x * v x) (fun x => p x * q x) := by
  unfold Near at *
  have h1 := h.mul hv
  have h2 := hp.mul h'
  have h1' : (fun x => (u x - p x) * v x) =O[𝓝 0] (fun h : ℝ => h ^ k) := h1.congr_right fun x => by ring
  have h2' : (fun x => p x * (v x - q x)) =O[𝓝 0] (fun h : ℝ => h ^ k) := h2.congr_right fun x => by ring
  refine (h1'.add h2').congr_left fun x => ?_
  ring

/-- Terms of high order can be dropped. -/
theorem drop {c : ℝ → ℝ} (hc : c =O[𝓝 0] (fun _ => (1 : ℝ))) : Near k (fun x => x ^ k * c x) (fun _ => 0) := by
  unfold Near
  refine ((isBigO_refl (fun x : ℝ => x ^ k) (𝓝 0)).mul hc).congr (fun x => ?_) (fun x => ?_) <;> ring

theorem bounded (h : Near k u p) (hp : p =O[𝓝 0] (fun _ => (1 : ℝ))) : u =O[𝓝 0] (fun _ => (1 : ℝ)) := by
  have h0 := h.weaken (Nat.zero_le k)
  unfold Near at h0
  refine ((h0.congr_right fun x => pow_zero x).add hp).congr_left fun x => ?_
  ring

theorem congr (h : Near k u p) (hu : ∀ x, u x = v x) (hp : ∀ x, p x = q x) : Near k v q := by
  rw [← show u = v from funext hu, ← show p = q from funext hp]; exact h

theorem sum {ι : Type} (l : List ι) {f g : ι → ℝ → ℝ} (h : ∀ i ∈ l, Near k (f i) (g i)) :
    Near k (fun x => (l.map (fun i => f i x)).sum) (fun x => (l.map (fun i => g i x)).sum) := by
  induction l with
  | nil => exact refl k _
  | cons a l ih =>
    simp only [List.map_cons, List.sum_cons]
    exact (h a List.mem_cons_self).add (ih fun i hi => h i (List.mem_cons_of_mem _ hi))

end Near

theorem bounded_of_continuous {p : ℝ → ℝ} (h : Continuous p) : p =O[𝓝 0] (fun _ => (1 : ℝ)) :=
  (h.tendsto 0).isBigO_one ℝ

/-- Integration: if `g' = p + O( h^k )` then `g = g( 0 ) + ∫ p + O( h^(k+1) )`. -/
theorem Near.integrate {k : ℕ} {g u p P : ℝ → ℝ} (hg : ∀ᶠ t in 𝓝 (0 : ℝ), HasDerivAt g (u t) t) (h : Near k u p)
    (hP : ∀ t, HasDerivAt P (p t) t) (h0 : g 0 = P 0) : Near (k + 1) g P := by
  unfold Near at *
  obtain ⟨C, hC⟩ := h.bound
  obtain ⟨ε, hε, hball⟩ := Metric.eventually_nhds_iff.mp (hg.and hC)
  apply IsBigO.of_bound C
  rw [Metric.eventually_nhds_iff]
  refine ⟨ε, hε, fun x hx => ?_⟩
  rw [Real.dist_eq, sub_zero] at hx
  have hd : ∀ t ∈ Set.uIcc 0 x, HasDerivWithinAt (fun t => g t - P t) (u t - p t) (Set.uIcc 0 x) t ∧ ‖u t - p t‖ ≤ C * |x| ^ k := by
    intro t ht
    have hle : |t| ≤ |x| := by
      rw [Set.mem_uIcc] at ht
      rcases ht with ⟨h1, h2⟩ | ⟨h1, h2⟩
      · rw [abs_of_nonneg h1, abs_of_nonneg (h1.trans h2)]; exact h2
      · rw [abs_of_nonpos h2, abs_of_nonpos (h1.trans h2)]; linarith
    have ht' : dist t 0 < ε := by rw [Real.dist_eq, sub_zero]; linarith
    obtain ⟨h1, h2⟩ := hball ht'
    refine ⟨(h1.sub (hP t)).hasDerivWithinAt, h2.trans ?_⟩
    have hC0 : 0 ≤ C ∨ C < 0 := le_or_gt 0 C
    rw [norm_pow, Real.norm_eq_abs]
    rcases hC0 with hC0 | hC0
    · exact mul_le_mul_of_nonneg_left (pow_le_pow_left₀ (abs_nonneg _) hle k) hC0
    · -- a negative constant forces `x^k = 0`
      have hx2 := (hball (y := x) (by rw [Real.dist_eq, sub_zero]; exact hx)).2
      rw [norm_pow, Real.norm_eq_abs x] at hx2
      have h3 : 0 ≤ C * |x| ^ k := (norm_nonneg _).trans hx2
      have h4 : |x| ^ k ≤ 0 := by
        by_contra h5
        have := mul_neg_of_neg_of_pos hC0 (not_le.mp h5)
        linarith
      have h5 : |t| ^ k ≤ 0 := (pow_le_pow_left₀ (abs_nonneg _) hle k).trans h4
      have h6 : |t| ^ k = 0 := le_antisymm h5 (by positivity)
      have h7 : |x| ^ k = 0 := le_antisymm h4 (by positivity)
      rw [h6, h7]
  have := Convex.norm_image_sub_le_of_norm_hasDerivWithin_le (fun t ht => (hd t ht).1) (fun t ht => (hd t ht).2) (convex_uIcc 0 x)
    Set.left_mem_uIcc Set.right_mem_uIcc
  rw [h0, sub_self, sub_zero, sub_zero] at this
  calc ‖g x - P x‖ ≤ C * |x| ^ k * ‖x‖ := this
    _ = C * ‖x ^ (k + 1)‖ := by rw [norm_pow, Real.norm_eq_abs, pow_succ]; ring

theorem hasDerivAt_tanh (y : ℝ) : HasDerivAt Real.tanh (1 / Real.cosh y ^ 2) y := by
  have e : Real.tanh = fun y => Real.sinh y / Real.cosh y := funext Real.tanh_eq_sinh_div_cosh
  have h := (Real.hasDerivAt_sinh y).div (Real.hasDerivAt_cosh y) (Real.cosh_pos y).ne'
  have : (Real.cosh y * Real.cosh y - Real.sinh y * Real.sinh y) / Real.cosh y ^ 2 = 1 / Real.cosh y ^ 2 := by
    rw [← pow_two, ← pow_two, Real.cosh_sq_sub_sinh_sq]
  rw [this] at h
  rw [e]
  exact h

/-- The first three derivatives of `tanh` at a point where it has the value `a`. -/
def tanh1 (a : ℝ) : ℝ := 1 - a ^ 2
def tanh2 (a : ℝ) : ℝ := -2 * a * (1 - a ^ 2)
def tanh3 (a : ℝ) : ℝ := (6 * a ^ 2 - 2) * (1 - a ^ 2)

theorem tanh1_eq (y : ℝ) : tanh1 (Real.tanh y) = 1 / Real.cosh y ^ 2 := by
  have h := Real.cosh_sq_sub_sinh_sq y
  have h' := (Real.cosh_pos y).ne'
  unfold tanh1
  rw [Real.tanh_eq_sinh_div_cosh]
  field_simp
  linarith

/-- Expansion of `tanh` around `y` to third order. -/
theorem tanh_expansion (y : ℝ) : Near 4 (fun e => Real.tanh (y + e))
    (fun e => Real.tanh y + tanh1 (Real.tanh y) * e + tanh2 (Real.tanh y) / 2 * e ^ 2 + tanh3 (Real.tanh y) / 6 * e ^ 3) := by
  set a := Real.tanh y with ha
  set g : ℝ → ℝ := fun e => Real.tanh (y + e) with hg
  have hd : ∀ e, HasDerivAt g (1 - g e * g e) e := by
    intro e
    have h1 : HasDerivAt (fun e => y + e) 1 e := by simpa using (hasDerivAt_id' e).const_add y
    have h2 := (hasDerivAt_tanh (y + e)).comp e h1
    rw [← tanh1_eq, mul_one] at h2
    have e3 : 1 - g e * g e = tanh1 (Real.tanh (y + e)) := by unfold tanh1; rw [hg]; ring
    rw [e3]; exact h2
  have hev : ∀ᶠ t in 𝓝 (0 : ℝ), HasDerivAt g (1 - g t * g t) t := Eventually.of_forall hd
  have hgb : g =O[𝓝 0] (fun _ => (1 : ℝ)) := bounded_of_continuous (by
    rw [continuous_iff_continuousAt]; exact fun e => (hd e).continuousAt)
  have h0 : g 0 = a := by rw [hg, ha]; simp
  -- one more order
  have step : ∀ {k : ℕ} {p q P : ℝ → ℝ}, Continuous p → Near k g p → Near k (fun e => 1 - p e * p e) q → (∀ t, HasDerivAt P (q t) t) → P 0 = a →
      Near (k + 1) g P := by
    intro k p q P hp h hq hP hP0
    refine Near.integrate hev ?_ hP (h0.trans hP0.symm)
    exact ((Near.refl k fun _ => 1).sub (h.mul h hgb (bounded_of_continuous hp))).trans hq
  have hpoly : ∀ c0 c1 c2 c3 t : ℝ, HasDerivAt (fun e : ℝ => c0 + c1 * e + c2 / 2 * e ^ 2 + c3 / 6 * e ^ 3) (c1 + c2 * t + c3 / 2 * t ^ 2) t := by
    intro c0 c1 c2 c3 t
    have h1 : HasDerivAt (fun e : ℝ => c1 * e) c1 t := by simpa using (hasDerivAt_id' t).const_mul c1
    have h2 := (hasDerivAt_pow 2 t).const_mul (c2 / 2)
    have h3 := (hasDerivAt_pow 3 t).const_mul (c3 / 6)
    have := ((h1.const_add c0).add h2).add h3
    refine this.congr_deriv ?_
    push_cast
    ring
  have n1 : Near 1 g (fun e => a + 0 * e + 0 / 2 * e ^ 2 + 0 / 6 * e ^ 3) := by
    refine Near.integrate (k := 0) hev (p := fun t => 0 + 0 * t + 0 / 2 * t ^ 2) ?_ ?_ ?_
    · unfold Near
      simp only [pow_zero]
      refine (((isBigO_refl _ _).sub ((hgb.mul hgb).congr_right fun x => by ring)).sub ?_)
      exact bounded_of_continuous (by fun_prop)
    · exact fun t => hpoly a 0 0 0 t
    · rw [h0]; ring
  have n2 : Near 2 g (fun e => a + tanh1 a * e + 0 / 2 * e ^ 2 + 0 / 6 * e ^ 3) := by
    refine step (by fun_prop) n1 (q := fun t => tanh1 a + 0 * t + 0 / 2 * t ^ 2) ?_ (fun t => hpoly _ _ _ _ t) (by ring)
    exact Near.of_eq fun e => by unfold tanh1; ring
  have n3 : Near 3 g (fun e => a + tanh1 a * e + tanh2 a / 2 * e ^ 2 + 0 / 6 * e ^ 3) := by
    refine step (by fun_prop) n2 (q := fun t => tanh1 a + tanh2 a * t + 0 / 2 * t ^ 2) ?_ (fun t => hpoly _ _ _ _ t) (by ring)
    refine (((Near.drop (k := 2) (c := fun _ => -(tanh1 a) ^ 2) (bounded_of_continuous (by fun_prop))).add
      (Near.refl 2 (fun t => tanh1 a + tanh2 a * t)))).congr ?_ ?_
    · intro e; unfold tanh1 tanh2; ring
    · intro e; unfold tanh1 tanh2; ring
  refine step (by fun_prop) n3 (q := fun t => tanh1 a + tanh2 a * t + tanh3 a / 2 * t ^ 2) ?_ (fun t => hpoly _ _ _ _ t) (by ring)
  refine (((Near.drop (k := 3) (c := fun t => -(tanh1 a * tanh2 a) - tanh2 a ^ 2 / 4 * t) (bounded_of_continuous (by fun_prop))).add
    (Near.refl 3 (fun t => tanh1 a + tanh2 a * t + tanh3 a / 2 * t ^ 2)))).congr ?_ ?_
  · intro e; unfold tanh1 tanh2 tanh3; ring
  · intro e; unfold tanh1 tanh2 tanh3; ring

/-- `tanh` of an expansion. -/
theorem Near.tanh {u : ℝ → ℝ} {c0 c1 c2 c3 : ℝ} (hu : Near 4 u (fun h => c0 + c1 * h + c2 * h ^ 2 + c3 * h ^ 3)) :
    Near 4 (fun h => Real.tanh (u h)) (fun h => Real.tanh c0 + tanh1 (Real.tanh c0) * c1 * h +
      (tanh1 (Real.tanh c0) * c2 + tanh2 (Real.tanh c0) / 2 * c1 ^ 2) * h ^ 2 +
      (tanh1 (Real.tanh c0) * c3 + tanh2 (Real.tanh c0) * (c1 * c2) + tanh3 (Real.tanh c0) / 6 * c1 ^ 3) * h ^ 3) := by
  set e : ℝ → ℝ := fun h => u h - c0 with he
  set q : ℝ → ℝ := fun h => c1 * h + c2 * h ^ 2 + c3 * h ^ 3 with hq
  have heq : Near 4 e q := (hu.sub (Near.refl 4 fun _ => c0)).congr (fun h => rfl) (fun h => by rw [hq]; ring)
  have hqb : q =O[𝓝 0] (fun _ => (1 : ℝ)) := bounded_of_continuous (by fun_prop)
  have heb := heq.bounded hqb
  have h1 : Near 1 e (fun _ => 0) := by
    refine (heq.weaken (by norm_num)).trans ?_
    refine (Near.drop (k := 1) (c := fun h => c1 + c2 * h + c3 * h ^ 2) (bounded_of_continuous (by fun_prop))).congr ?_ (fun _ => rfl)
    intro h; rw [hq]; ring
  have hO : e =O[𝓝 0] (fun h : ℝ => h) := by
    have := h1; unfold Near at this
    exact this.congr (fun h => by ring) (fun h => by ring)
  have hlim : Tendsto e (𝓝 0) (𝓝 0) := hO.trans_tendsto tendsto_id
  have hT : Near 4 (fun h => Real.tanh (u h))
      (fun h => Real.tanh c0 + tanh1 (Real.tanh c0) * e h + tanh2 (Real.tanh c0) / 2 * e h ^ 2 + tanh3 (Real.tanh c0) / 6 * e h ^ 3) := by
    have h2 := (tanh_expansion c0)
    unfold Near at h2 ⊢
    have h3 := h2.comp_tendsto hlim
    have h4 := h3.trans (hO.pow 4)
    refine h4.congr_left fun h => ?_
    simp only [Function.comp_apply]
    rw [show c0 + e h = u h by rw [he]; ring]
  have hq2 : Near 4 (fun h => e h * e h) (fun h => q h * q h) := heq.mul heq heb hqb
  have hq3 : Near 4 (fun h => e h * e h * e h) (fun h => q h * q h * q h) :=
    hq2.mul heq heb (bounded_of_continuous (by fun_prop))
  refine hT.trans ?_
  set t1 := tanh1 (Real.tanh c0) with ht1
  set t2 := tanh2 (Real.tanh c0) with ht2
  set t3 := tanh3 (Real.tanh c0) with ht3
  have hs := (((Near.refl 4 fun _ => Real.tanh c0).add (heq.const_mul t1)).add (hq2.const_mul (t2 / 2))).add (hq3.const_mul (t3 / 6))
  refine (hs.congr (fun h => by ring) (fun h => rfl)).trans ?_
  refine ((Near.drop (k := 4) (c := fun h => t2 / 2 * ((c2 + c3 * h) ^ 2 + 2 * c1 * c3) +
      t3 / 6 * (3 * c1 ^ 2 * (c2 + c3 * h) + 3 * c1 * (c2 + c3 * h) ^ 2 * h + (c2 + c3 * h) ^ 3 * h ^ 2))
    (bounded_of_continuous (by fun_prop))).add (Near.refl 4 (fun h => Real.tanh c0 + t1 * c1 * h + (t1 * c2 + t2 / 2 * c1 ^ 2) * h ^ 2 +
      (t1 * c3 + t2 * (c1 * c2) + t3 / 6 * c1 ^ 3) * h ^ 3))).congr ?_ ?_
  · intro h; rw [hq]; ring
  · intro h; ring

theorem tanh_lipschitz (a b : ℝ) : |Real.tanh a - Real.tanh b| ≤ |a - b| := by
  have := Convex.norm_image_sub_le_of_norm_hasDerivWithin_le (f := Real.tanh) (f' := fun y => 1 / Real.cosh y ^ 2) (C := 1) (s := Set.univ) (x := b) (y := a)
    (fun y _ => (hasDerivAt_tanh y).hasDerivWithinAt) (fun y _ => by
      rw [Real.norm_eq_abs, abs_of_nonneg (by positivity), div_le_one (by have := Real.cosh_pos y; positivity)]
      have := Real.one_le_cosh y
      nlinarith) convex_univ (Set.mem_univ _) (Set.mem_univ _)
  simpa using this

theorem Near.tanh_congr {k : ℕ} {u v : ℝ → ℝ} (h : Near k u v) : Near k (fun x => Real.tanh (u x)) (fun x => Real.tanh (v x)) := by
  unfold Near at *
  refine IsBigO.trans (IsBigO.of_bound 1 (Eventually.of_forall fun x => ?_)) h
  rw [one_mul]
  exact tanh_lipschitz _ _

/-! ## vector fields with an expansion -/

/-- The vector field `f`, for the indices below `n`, can be expanded around `x`: along a curve `x + y1 h + y2 h² + y3 h³ + O( h⁴ )` it is
`f( x ) + J y1 h + ( J y2 + H( y1, y1 ) / 2 ) h² + ( J y3 + H( y1, y2 ) + T( y1, y1, y1 ) / 6 ) h³ + O( h⁴ )`, with a linear `J`, a bilinear `H` and a trilinear `T`. -/
structure Expands (f : (Nat → ℝ) → Nat → ℝ) (n : Nat) (x : Nat → ℝ) (J : (Nat → ℝ) → Nat → ℝ) (H : (Nat → ℝ) → (Nat → ℝ) → Nat → ℝ)
    (T : (Nat → ℝ) → (Nat → ℝ) → (Nat → ℝ) → Nat → ℝ) : Prop where
  third : ∀ (y : ℝ → Nat → ℝ) (y1 y2 y3 : Nat → ℝ), (∀ j, j < n → Near 4 (fun h => y h j) (fun h => x j + y1 j * h + y2 j * h ^ 2 + y3 j * h ^ 3)) →
    ∀ i, i < n → Near 4 (fun h => f (y h) i) (fun h => f x i + J y1 i * h + (J y2 i + H y1 y1 i / 2) * h ^ 2 +
      (J y3 i + H y1 y2 i + T y1 y1 y1 i / 6) * h ^ 3)
  lipschitz : ∀ k (y z : ℝ → Nat → ℝ), (∀ j, j < n → Near k (fun h => y h j) (fun h => z h j)) → ∀ i, i < n → Near k (fun h => f (y h) i) (fun h => f (z h) i)
  ext : ∀ y z : Nat → ℝ, (∀ j, j < n → y j = z j) → ∀ i, i < n → f y i = f z i
  J_add : ∀ u v i, J (fun j => u j + v j) i = J u i + J v i
  J_mul : ∀ (c : ℝ) u i, J (fun j => c * u j) i = c * J u i
  H_mul : ∀ (c d : ℝ) u v i, H (fun j => c * u j) (fun j => d * v j) i = c * d * H u v i
  T_mul : ∀ (c : ℝ) u i, T (fun j => c * u j) (fun j => c * u j) (fun j => c * u j) i = c ^ 3 * T u u u i

namespace Expands
variable {f : (Nat → ℝ) → Nat → ℝ} {n : Nat} {x : Nat → ℝ} {J : (Nat → ℝ) → Nat → ℝ} {H : (Nat → ℝ) → (Nat → ℝ) → Nat → ℝ}
  {T : (Nat → ℝ) → (Nat → ℝ) → (Nat → ℝ) → Nat → ℝ}

theorem J_zero (E : Expands f n x J H T) (i : Nat) : J (fun _ => 0) i = 0 := by
  have := E.J_mul 0 (fun _ => 0) i
  simpa using this

theorem H_zero (E : Expands f n x J H T) (u : Nat → ℝ) (i : Nat) : H u (fun _ => 0) i = 0 := by
  have := E.H_mul 1 0 u (fun _ => 0) i
  simpa using this

theorem H_mulr (E : Expands f n x J H T) (d : ℝ) (u v : Nat → ℝ) (i : Nat) : H u (fun j => d * v j) i = d * H u v i := by
  have := E.H_mul 1 d u v i
  simpa using this

/-- Expansion of the exact solution of `dx/dt = f x`. -/
theorem solution (E : Expands f n x J H T) {γ : ℝ → Nat → ℝ} (h0 : ∀ i, i < n → γ 0 i = x i)
    (hγ : ∀ᶠ t in 𝓝 (0 : ℝ), ∀ i, i < n → HasDerivAt (fun t => γ t i) (f (γ t) i) t) : ∀ i, i < n →
    Near 5 (fun h => γ h i) (fun h => x i + f x i * h + J (f x) i / 2 * h ^ 2 + (J (J (f x)) i + H (f x) (f x) i) / 6 * h ^ 3 +
      (J (J (J (f x))) i + J (H (f x) (f x)) i + 3 * H (f x) (J (f x)) i + T (f x) (f x) (f x) i) / 24 * h ^ 4) := by
  have hev : ∀ i, i < n → ∀ᶠ t in 𝓝 (0 : ℝ), HasDerivAt (fun t => γ t i) (f (γ t) i) t := fun i hi => hγ.mono fun t ht => ht i hi
  have hpoly : ∀ c0 c1 c2 c3 c4 t : ℝ, HasDerivAt (fun e : ℝ => c0 + c1 * e + c2 / 2 * e ^ 2 + c3 / 3 * e ^ 3 + c4 / 4 * e ^ 4)
      (c1 + c2 * t + c3 * t ^ 2 + c4 * t ^ 3) t := by
    intro c0 c1 c2 c3 c4 t
    have h1 : HasDerivAt (fun e : ℝ => c1 * e) c1 t := by simpa using (hasDerivAt_id' t).const_mul c1
    have h2 := (hasDerivAt_pow 2 t).const_mul (c2 / 2)
    have h3 := (hasDerivAt_pow 3 t).const_mul (c3 / 3)
    have h4 := (hasDerivAt_pow 4 t).const_mul (c4 / 4)
    have := (((h1.const_add c0).add h2).add h3).add h4
    refine this.congr_deriv ?_
    push_cast
    ring
  -- one more order
  have step : ∀ (k : ℕ), k ≤ 4 → ∀ (y1 y2 y3 c1 c2 c3 c4 : Nat → ℝ),
      (∀ i, i < n → Near k (fun h => γ h i) (fun h => x i + y1 i * h + y2 i * h ^ 2 + y3 i * h ^ 3)) →
      (∀ i, i < n → Near k (fun h => f x i + J y1 i * h + (J y2 i + H y1 y1 i / 2) * h ^ 2 + (J y3 i + H y1 y2 i + T y1 y1 y1 i / 6) * h ^ 3)
        (fun h => c1 i + c2 i * h + c3 i * h ^ 2 + c4 i * h ^ 3)) →
      ∀ i, i < n → Near (k + 1) (fun h => γ h i) (fun h => x i + c1 i * h + c2 i / 2 * h ^ 2 + c3 i / 3 * h ^ 3 + c4 i / 4 * h ^ 4) := by
    intro k hk y1 y2 y3 c1 c2 c3 c4 hy hc i hi
    refine Near.integrate (hev i hi) ?_ (hpoly _ _ _ _ _) (by rw [h0 i hi]; ring)
    refine (E.lipschitz k γ (fun h j => x j + y1 j * h + y2 j * h ^ 2 + y3 j * h ^ 3) hy i hi).trans ?_
    exact ((E.third (fun h j => x j + y1 j * h + y2 j * h ^ 2 + y3 j * h ^ 3) y1 y2 y3 (fun j _ => Near.refl 4 _) i hi).weaken hk).trans (hc i hi)
  have n1 : ∀ i, i < n → Near 1 (fun h => γ h i) (fun h => x i + 0 * h + 0 * h ^ 2 + 0 * h ^ 3) := by
    intro i hi
    have hd := (hev i hi).self_of_nhds
    have hO := hd.differentiableAt.isBigO_sub
    unfold Near
    refine hO.congr (fun h => ?_) (fun h => ?_)
    · dsimp only; rw [h0 i hi]; ring
    · ring
  have n2 : ∀ i, i < n → Near 2 (fun h => γ h i) (fun h => x i + f x i * h + 0 * h ^ 2 + 0 * h ^ 3) := by
    intro i hi
    refine (step 1 (by norm_num) (fun _ => 0) (fun _ => 0) (fun _ => 0) (fun i => f x i) (fun _ => 0) (fun _ => 0) (fun _ => 0) n1 ?_ i hi).congr
      (fun h => rfl) (fun h => by ring)
    intro j hj
    refine ((Near.drop (k := 1) (c := fun h => J (fun _ => 0) j + (J (fun _ => 0) j + H (fun _ => 0) (fun _ => 0) j / 2) * h +
      (J (fun _ => 0) j + H (fun _ => 0) (fun _ => 0) j + T (fun _ => 0) (fun _ => 0) (fun _ => 0) j / 6) * h ^ 2)
      (bounded_of_continuous (by fun_prop))).add (Near.refl 1 fun _ => f x j)).congr (fun h => ?_) (fun h => ?_) <;> ring
  have n3 : ∀ i, i < n → Near 3 (fun h => γ h i) (fun h => x i + f x i * h + (1 / 2 * J (f x) i) * h ^ 2 + 0 * h ^ 3) := by
    intro i hi
    refine (step 2 (by norm_num) (f x) (fun _ => 0) (fun _ => 0) (f x) (J (f x)) (fun _ => 0) (fun _ => 0) n2 ?_ i hi).congr
      (fun h => rfl) (fun h => by ring)
    intro j hj
    refine ((Near.drop (k := 2) (c := fun h => (J (fun _ => 0) j + H (f x) (f x) j / 2) +
      (J (fun _ => 0) j + H (f x) (fun _ => 0) j + T (f x) (f x) (f x) j / 6) * h)
      (bounded_of_continuous (by fun_prop))).add (Near.refl 2 fun h => f x j + J (f x) j * h)).congr (fun h => ?_) (fun h => ?_) <;> ring
  have n4 : ∀ i, i < n → Near 4 (fun h => γ h i)
      (fun h => x i + f x i * h + (1 / 2 * J (f x) i) * h ^ 2 + (1 / 6 * J (J (f x)) i + 1 / 6 * H (f x) (f x) i) * h ^ 3) := by
    intro i hi
    refine (step 3 (by norm_num) (f x) (fun j => 1 / 2 * J (f x) j) (fun _ => 0) (f x) (J (f x)) (fun j => 1 / 2 * J (J (f x)) j + H (f x) (f x) j / 2)
      (fun _ => 0) n3 ?_ i hi).congr (fun h => rfl) (fun h => by ring)
    intro j hj
    refine ((Near.drop (k := 3) (c := fun _ => J (fun _ => 0) j + H (f x) (fun j => 1 / 2 * J (f x) j) j + T (f x) (f x) (f x) j / 6)
      (bounded_of_continuous (by fun_prop))).add
        (Near.refl 3 fun h => f x j + J (f x) j * h + (1 / 2 * J (J (f x)) j + H (f x) (f x) j / 2) * h ^ 2)).congr (fun h => ?_) (fun h => ?_)
    · rw [E.J_mul]; ring
    · ring
  intro i hi
  refine (step 4 le_rfl (f x) (fun j => 1 / 2 * J (f x) j) (fun j => 1 / 6 * J (J (f x)) j + 1 / 6 * H (f x) (f x) j) (f x) (J (f x))
    (fun j => 1 / 2 * J (J (f x)) j + H (f x) (f x) j / 2)
    (fun j => 1 / 6 * J (J (J (f x))) j + 1 / 6 * J (H (f x) (f x)) j + 1 / 2 * H (f x) (J (f x)) j + T (f x) (f x) (f x) j / 6) n4 ?_ i hi).congr
    (fun h => rfl) (fun h => by ring)
  intro j hj
  refine Near.of_eq fun h => ?_
  have e1 := E.H_mul 1 (1 / 2) (f x) (J (f x)) j
  simp only [one_mul] at e1
  rw [E.J_mul, E.J_add, E.J_mul, E.J_mul, e1]

end Expands

end Seldon
