import Verif.Lemmas.Convergence
import Verif.Props.Accuracy
/-!
# Property C113: convergence of the opinions of a whole simulation
-/
set_option linter.unusedSectionVars false
namespace Seldon
open Spec Filter Topology Finset
open _root_.Seldon.Uniform
variable {A G : Type}

namespace Uniform
variable {n : Nat} {a κ M : ℝ}

/-- A solution of `u' = -u + g` with `|g| ≤ M` never leaves `[-M, M]`. -/
theorem upper {u u' : ℝ → ℝ} {b c : ℝ} (hd : ∀ t ∈ Set.Icc b c, HasDerivWithinAt u (u' t) (Set.Icc b c) t) (hu : ∀ t ∈ Set.Icc b c, u' t ≤ -u t + M)
    (h0 : u b ≤ M) : ∀ t ∈ Set.Icc b c, u t ≤ M := by
  have hw : ∀ t ∈ Set.Icc b c, HasDerivWithinAt (fun t => (M - u t) * Real.exp t) ((-u' t) * Real.exp t + (M - u t) * Real.exp t) (Set.Icc b c) t := by
    intro t ht
    have h1 := (hd t ht).const_sub M
    exact h1.mul (Real.hasDerivAt_exp t).hasDerivWithinAt
  have hm : MonotoneOn (fun t => (M - u t) * Real.exp t) (Set.Icc b c) := by
    apply monotoneOn_of_hasDerivWithinAt_nonneg (convex_Icc b c) (fun t ht => (hw t ht).continuousWithinAt)
      (fun t ht => (hw t (interior_subset ht)).mono interior_subset)
    intro t ht
    have := hu t (interior_subset ht)
    have h2 : 0 ≤ (-u' t + (M - u t)) * Real.exp t := mul_nonneg (by linarith) (Real.exp_pos t).le
    linarith
  intro t ht
  have hb : b ∈ Set.Icc b c := ⟨le_rfl, ht.1.trans ht.2⟩
  have := hm hb ht ht.1
  have h3 : 0 ≤ (M - u b) * Real.exp b := mul_nonneg (by linarith) (Real.exp_pos b).le
  have h4 : 0 ≤ (M - u t) * Real.exp t := h3.trans this
  have := nonneg_of_mul_nonneg_left h4 (Real.exp_pos t)
  linarith

theorem field_split {alpha : ℝ} {A : Nat → Nat → ℝ} {i : Nat} (hA : ∀ j, j < n → |A i j| ≤ κ) (y : Nat → ℝ) :
    |field n alpha A y i + y i| ≤ n * κ := by
  have := field_bound (M := 0) (alpha := alpha) (y := fun j => if j = i then 0 else y j) hA (by simp)
  have h2 : |∑ j ∈ range n, A i j * Real.tanh (alpha * y j)| ≤ n * κ := by
    refine (abs_sum_le_sum_abs _ _).trans ?_
    calc ∑ j ∈ range n, |A i j * Real.tanh (alpha * y j)| ≤ ∑ _j ∈ range n, κ := by
          refine sum_le_sum fun j hj => ?_
          rw [abs_mul]
          have h1 := hA j (mem_range.mp hj)
          calc |A i j| * |Real.tanh (alpha * y j)| ≤ κ * 1 := mul_le_mul h1 (abs_tanh_le _) (abs_nonneg _) ((abs_nonneg _).trans h1)
            _ = κ := mul_one _
      _ = n * κ := by rw [sum_const, card_range, nsmul_eq_mul]
  unfold field
  rw [show -y i + ∑ j ∈ range n, A i j * Real.tanh (alpha * y j) + y i = ∑ j ∈ range n, A i j * Real.tanh (alpha * y j) by ring]
  exact h2

/-- On an interval where `y` follows the field, it stays within `M`. -/
theorem stays {alpha : ℝ} {A : Nat → Nat → ℝ} {i : Nat} (hA : ∀ j, j < n → |A i j| ≤ κ) (hM : n * κ ≤ M) {y : ℝ → Nat → ℝ} {b c : ℝ}
    (hd : ∀ t ∈ Set.Icc b c, HasDerivWithinAt (fun t => y t i) (field n alpha A (y t) i) (Set.Icc b c) t) (h0 : |y b i| ≤ M) :
    ∀ t ∈ Set.Icc b c, |y t i| ≤ M := by
  intro t ht
  have hs := fun t => abs_le.mp (field_split (alpha := alpha) hA (y t))
  have h1 := upper (u := fun t => y t i) hd (fun t _ => by have := (hs t).2; linarith) (abs_le.mp h0).2 t ht
  have h2 := upper (u := fun t => -y t i) (M := M) (fun t ht => (hd t ht).neg) (fun t _ => by have := (hs t).1; linarith)
    (by have := (abs_le.mp h0).1; linarith) t ht
  exact abs_le.mpr ⟨by linarith, h1⟩

/-- A history of Runge-Kutta steps converges to the exact solution with fourth order, with constants that depend only on the bounds. -/
theorem converges (n : Nat) (a κ M T : ℝ) (hM : n * κ ≤ M) : ∃ C ε : ℝ, 0 ≤ C ∧ 0 < ε ∧ ∀ (alpha h : ℝ) (K : Nat) (A : Nat → Nat → Nat → ℝ)
    (x : Nat → Nat → ℝ) (y : ℝ → Nat → ℝ), |alpha| ≤ a → 0 ≤ h → h < ε → K * h ≤ T →
    (∀ k, k < K → ∀ i, i < n → ∀ j, j < n → |A k i j| ≤ κ) → (∀ i, i < n → |x 0 i| ≤ M) →
    (∀ k, k < K → ∀ i, i < n → x (k + 1) i = Spec.rk4 (field n alpha (A k)) h (x k) i) →
    FollowsPieces (fun k => field n alpha (A k)) n h K (x 0) y →
    ∀ k, k ≤ K → ∀ i, i < n → |x k i - y (k * h) i| ≤ C * h ^ 4 := by
  obtain ⟨C, ε, hC, hε, hloc⟩ := field_local n a κ M
  set L := 1 + n * (|κ| * |a|) with hL
  have hL0 : 0 ≤ L := by positivity
  set L' := L * (1 + L) ^ 3 with hL'
  have hL'0 : 0 ≤ L' := by positivity
  refine ⟨|T| * C * Real.exp (L' * |T|), min ε 1, by positivity, lt_min hε one_pos, ?_⟩
  intro alpha h K A x y halpha h0 hlt hT hA hx0 hx hy
  have hε' : h < ε := hlt.trans_le (min_le_left _ _)
  have h1 : h ≤ 1 := (hlt.trans_le (min_le_right _ _)).le
  -- the exact solution stays within the bounds
  have hb : ∀ k, k ≤ K → ∀ i, i < n → |y (k * h) i| ≤ M := by
    intro k
    induction k with
    | zero =>
      intro _ i hi
      have := hx0 i hi
      rw [← hy.start i hi] at this
      simpa using this
    | succ k ih =>
      intro hk i hi
      have := stays (fun j hj => hA k (by omega) i hi j hj) hM (fun t ht => hy.deriv k (by omega) t ht i hi) (ih (by omega) i hi) ((k + 1) * h)
        ⟨by nlinarith, le_rfl⟩
      push_cast
      exact this
  have hlip : ∀ k, k < K → ∀ (y z : Nat → ℝ) d, (∀ j, j < n → |y j - z j| ≤ d) → ∀ i, i < n →
      |field n alpha (A k) y i - field n alpha (A k) z i| ≤ L * d := by
    intro k hk y z d hd i hi
    exact field_lipschitz (halpha.trans (le_abs_self a)) hi (fun j hj => (hA k hk i hi j hj).trans (le_abs_self κ)) hd
  -- error of one step
  have hstep : ∀ k, k < K → ∀ i, i < n → |Spec.rk4 (field n alpha (A k)) h (y (k * h)) i - y ((k + 1) * h) i| ≤ C * h ^ 5 := by
    intro k hk i hi
    have hsub : ∀ t, 0 ≤ t → t ≤ h → t + k * h ∈ Set.Icc (k * h) ((k + 1) * h) := fun t ht0 hth => ⟨by linarith, by linarith⟩
    have := hloc i hi
      { alpha := alpha, A := A k, x := y (k * h), S := h, γ := fun t => y (t + k * h), halpha := halpha, hA := hA k hk, hx := hb k hk.le,
        start := fun i _ => by rw [zero_add],
        bound := fun t i hi ht0 hth => stays (fun j hj => hA k hk i hi j hj) hM (fun t ht => hy.deriv k hk t ht i hi) (hb k hk.le i hi) _ (hsub t ht0 hth),
        deriv := fun t i hi ht0 hth => by
          have h1 := hy.deriv k hk (t + k * h) (hsub t ht0 hth) i hi
          have h2 : HasDerivWithinAt (fun t : ℝ => t + k * h) 1 (Set.Icc 0 h) t := ((hasDerivAt_id' t).add_const _).hasDerivWithinAt
          have := h1.scomp (t' := Set.Icc (k * h) ((k + 1) * h)) t h2 (fun t ht => hsub t ht.1 ht.2)
          rw [one_smul] at this
          exact this } h h0 le_rfl hε'
    dsimp only at this
    rwa [show h + k * h = (k + 1) * h by ring] at this
  -- the largest error
  rcases Nat.eq_zero_or_pos n with rfl | hn
  · exact fun k _ i hi => absurd hi (by omega)
  set e : Nat → ℝ := fun k => (range n).sup' ⟨0, mem_range.mpr hn⟩ (fun i => |x k i - y (k * h) i|) with he
  have hle : ∀ k i, i < n → |x k i - y (k * h) i| ≤ e k := fun k i hi => le_sup' (fun i => |x k i - y (k * h) i|) (mem_range.mpr hi)
  have hg := gronwall (e := e) (L := L') (h := h) (c := C * h ^ 5) (K := K) hL'0 h0 (by positivity) (by
    apply sup'_le
    intro i hi
    rw [← hy.start i (mem_range.mp hi)]
    simp) (by
    intro k hk
    apply sup'_le
    intro i hi
    have hi := mem_range.mp hi
    rw [hx k hk i hi]
    have h3 := rk4_lipschitz hL0 (hlip k hk) h0 h1 (hle k) hi
    have h4 := hstep k hk i hi
    push_cast
    calc |Spec.rk4 (field n alpha (A k)) h (x k) i - y ((k + 1) * h) i| = |(Spec.rk4 (field n alpha (A k)) h (x k) i -
          Spec.rk4 (field n alpha (A k)) h (y (k * h)) i) + (Spec.rk4 (field n alpha (A k)) h (y (k * h)) i - y ((k + 1) * h) i)| := by congr 1; ring
      _ ≤ _ := (abs_add_le _ _).trans (add_le_add h3 h4))
  intro k hk i hi
  refine (hle k i hi).trans ((hg k hk).trans ?_)
  have hkT : k * h ≤ |T| := by
    have : (k : ℝ) * h ≤ K * h := mul_le_mul_of_nonneg_right (by exact_mod_cast hk) h0
    exact this.trans (hT.trans (le_abs_self T))
  have hk0 : 0 ≤ k * h := by positivity
  calc (k : ℝ) * (C * h ^ 5) * Real.exp (L' * (k * h)) = (k * h) * (C * h ^ 4) * Real.exp (L' * (k * h)) := by ring
    _ ≤ |T| * (C * h ^ 4) * Real.exp (L' * |T|) := by gcongr
    _ = |T| * C * Real.exp (L' * |T|) * h ^ 4 := by ring

/-! ## first order, with some components held fixed -/

/-- The Runge-Kutta step agrees with the first-order expansion. -/
theorem rk4_first {alpha : ℝ} (ha : |alpha| ≤ a) {A : Nat → Nat → ℝ} (hA : ∀ i, i < n → ∀ j, j < n → |A i j| ≤ κ) {B L : ℝ} (hB : M + n * κ ≤ B)
    (hL : 1 + n * (κ * a) = L) (hL0 : 0 ≤ L) {h : ℝ} (h0 : 0 ≤ h) (h1 : h ≤ 1) {x : Nat → ℝ} (hx : ∀ i, i < n → |x i| ≤ M) {i : Nat} (hi : i < n) :
    |Spec.rk4 (field n alpha A) h x i - (x i + h * field n alpha A x i)| ≤ 3 * L * B * h ^ 2 := by
  set f := field n alpha A with hf
  have k1 : ∀ j, j < n → |f x j| ≤ B := fun j hj => (field_bound (hA j hj) (hx j hj)).trans hB
  have hB0 : 0 ≤ B := (abs_nonneg _).trans (k1 i hi)
  have stage : ∀ (c : ℝ) (k : Nat → ℝ) (D : ℝ), 0 ≤ c → c ≤ h → (∀ j, j < n → |k j| ≤ D) → 0 ≤ D →
      ∀ j, j < n → |f (fun j => x j + c * k j) j| ≤ B + D ∧ |f (fun j => x j + c * k j) j - f x j| ≤ L * (h * D) := by
    intro c k D hc hch hk hD j hj
    have e : ∀ j, j < n → |c * k j| ≤ h * D := fun j hj => by
      rw [abs_mul, abs_of_nonneg hc]
      exact mul_le_mul hch (hk j hj) (abs_nonneg _) h0
    constructor
    · have := field_bound (M := M + h * D) (alpha := alpha) (A := A) (hA j hj) (y := fun j => x j + c * k j)
        ((abs_add_le _ _).trans (add_le_add (hx j hj) (e j hj)))
      have h2 : h * D ≤ D := mul_le_of_le_one_left hD h1
      exact this.trans (by linarith)
    · rw [← hL]
      exact field_lipschitz ha hj (hA j hj) fun j hj => by
        rw [show x j + c * k j - x j = c * k j by ring]; exact e j hj
  have s2 := stage (h / 2) (f x) B (by linarith) (by linarith) k1 hB0
  have s3 := stage (h / 2) _ (B + B) (by linarith) (by linarith) (fun j hj => (s2 j hj).1) (by linarith)
  have s4 := stage h _ (B + (B + B)) h0 le_rfl (fun j hj => (s3 j hj).1) (by linarith)
  have c2 := (s2 i hi).2
  have c3 := (s3 i hi).2
  have c4 := (s4 i hi).2
  unfold Spec.rk4
  generalize f (fun j => x j + h / 2 * f x j) = y2 at *
  generalize f (fun j => x j + h / 2 * y2 j) = y3 at *
  generalize f (fun j => x j + h * y3 j) = y4 at *
  have e : x i + h / 6 * (f x i + 2 * y2 i + 2 * y3 i + y4 i) - (x i + h * f x i) =
      h / 6 * (2 * (y2 i - f x i) + 2 * (y3 i - f x i) + (y4 i - f x i)) := by ring
  rw [e, abs_mul, abs_of_nonneg (by linarith : 0 ≤ h / 6)]
  have hp : 0 ≤ L * (h * B) := by positivity
  have : |2 * (y2 i - f x i) + 2 * (y3 i - f x i) + (y4 i - f x i)| ≤ 9 * (L * (h * B)) := by
    rw [abs_le] at *
    constructor <;> linarith [c2.1, c2.2, c3.1, c3.2, c4.1, c4.2]
  calc h / 6 * _ ≤ h / 6 * (9 * (L * (h * B))) := mul_le_mul_of_nonneg_left this (by linarith)
    _ ≤ 3 * L * B * h ^ 2 := by
      have : 0 ≤ L * B * h ^ 2 := by positivity
      nlinarith

/-- A history of Runge-Kutta steps in which the first `b` components are put back after each step, compared with the exact solution in which they are held fixed. -/
theorem converges_held (n : Nat) (a κ M T : ℝ) (hM : n * κ ≤ M) : ∃ C : ℝ, 0 ≤ C ∧ ∀ (alpha h : ℝ) (K b : Nat) (A : Nat → Nat → Nat → ℝ)
    (x : Nat → Nat → ℝ) (y : ℝ → Nat → ℝ), |alpha| ≤ a → 0 ≤ h → h ≤ 1 → K * h ≤ T →
    (∀ k, k < K → ∀ i, i < n → ∀ j, j < n → |A k i j| ≤ κ) → (∀ i, i < n → |x 0 i| ≤ M) →
    (∀ k, k < K → ∀ i, i < n → i < b → x (k + 1) i = x 0 i) →
    (∀ k, k < K → ∀ i, i < n → b ≤ i → x (k + 1) i = Spec.rk4 (field n alpha (A k)) h (x k) i) →
    FollowsPieces (fun k => heldFixed b (field n alpha (A k))) n h K (x 0) y →
    ∀ k, k ≤ K → ∀ i, i < n → |x k i - y (k * h) i| ≤ C * h := by
  set L := 1 + n * (|κ| * |a|) with hL
  have hL0 : 0 ≤ L := by positivity
  set L' := L * (1 + L) ^ 3 with hL'
  have hL'0 : 0 ≤ L' := by positivity
  set B := |M| + n * |κ| with hB
  have hB0 : 0 ≤ B := by positivity
  refine ⟨|T| * (4 * L * B) * Real.exp (L' * |T|), by positivity, ?_⟩
  intro alpha h K b A x y halpha h0 h1 hT hA hx0 hxb hx hy
  -- on each interval
  have hconst : ∀ k, k < K → ∀ i, i < n → i < b → ∀ t ∈ Set.Icc (k * h) ((k + 1) * h), y t i = y (k * h) i := by
    intro k hk i hi hib t ht
    have hd : ∀ t ∈ Set.Icc (k * h) ((k + 1) * h), HasDerivWithinAt (fun t => y t i) 0 (Set.Icc (k * h) ((k + 1) * h)) t := by
      intro t ht
      have := hy.deriv k hk t ht i hi
      unfold heldFixed at this
      rwa [if_pos hib] at this
    have := Convex.norm_image_sub_le_of_norm_hasDerivWithin_le (C := 0) hd (fun t ht => by simp) (convex_Icc _ _)
      (⟨le_rfl, ht.1.trans ht.2⟩ : (k * h : ℝ) ∈ Set.Icc (k * h) ((k + 1) * h)) ht
    rw [zero_mul] at this
    have := norm_le_zero_iff.mp this
    linarith
  have hpiece : ∀ k, k < K → (∀ i, i < n → |y (k * h) i| ≤ M) → ∀ i, i < n → ∀ t ∈ Set.Icc (k * h) ((k + 1) * h), |y t i| ≤ M := by
    intro k hk hb i hi t ht
    by_cases hib : i < b
    · rw [hconst k hk i hi hib t ht]; exact hb i hi
    · refine stays (alpha := alpha) (fun j hj => hA k hk i hi j hj) hM (fun t ht => ?_) (hb i hi) t ht
      have := hy.deriv k hk t ht i hi
      unfold heldFixed at this
      rwa [if_neg hib] at this
  have hmem : ∀ k : Nat, ((k + 1) * h : ℝ) ∈ Set.Icc (k * h) ((k + 1) * h) := fun k => ⟨by nlinarith, le_rfl⟩
  have hmem0 : ∀ k : Nat, ((k : ℝ) * h) ∈ Set.Icc (k * h) ((k + 1) * h) := fun k => ⟨le_rfl, by nlinarith⟩
  have hb : ∀ k, k ≤ K → ∀ i, i < n → |y (k * h) i| ≤ M := by
    intro k
    induction k with
    | zero =>
      intro _ i hi
      have := hx0 i hi
      rw [← hy.start i hi] at this
      simpa using this
    | succ k ih =>
      intro hk i hi
      have := hpiece k (by omega) (ih (by omega)) i hi _ (hmem k)
      push_cast
      exact this
  have hA' : ∀ k, k < K → ∀ i, i < n → ∀ j, j < n → |A k i j| ≤ |κ| := fun k hk i hi j hj => (hA k hk i hi j hj).trans (le_abs_self κ)
  have hlip : ∀ k, k < K → ∀ (y z : Nat → ℝ) d, (∀ j, j < n → |y j - z j| ≤ d) → ∀ i, i < n →
      |field n alpha (A k) y i - field n alpha (A k) z i| ≤ L * d := by
    intro k hk y z d hd i hi
    exact field_lipschitz (halpha.trans (le_abs_self a)) hi (hA' k hk i hi) hd
  -- error of one step
  have hstep : ∀ k, k < K → ∀ i, i < n → b ≤ i → |Spec.rk4 (field n alpha (A k)) h (y (k * h)) i - y ((k + 1) * h) i| ≤ 4 * L * B * h ^ 2 := by
    intro k hk i hi hib
    have e1 := rk4_first (M := |M|) (B := B) (halpha.trans (le_abs_self a)) (hA' k hk) hB.ge hL.symm hL0 h0 h1
      (fun i hi => (hb k hk.le i hi).trans (le_abs_self M)) hi
    have hmove : ∀ j, j < n → ∀ t ∈ Set.Icc (k * h) ((k + 1) * h), |y t j - y (k * h) j| ≤ B * h := by
      intro j hj t ht
      have hd := fun t ht => hy.deriv k hk t ht j hj
      have := Convex.norm_image_sub_le_of_norm_hasDerivWithin_le (C := B) hd (fun t ht => by
        unfold heldFixed
        split
        · simpa using hB0
        · rw [Real.norm_eq_abs]
          exact field_bound (hA' k hk j hj) ((hpiece k hk (hb k hk.le) j hj t ht).trans (le_abs_self M))) (convex_Icc _ _) (hmem0 k) ht
      refine this.trans (mul_le_mul_of_nonneg_left ?_ hB0)
      rw [Real.norm_eq_abs, abs_of_nonneg (by linarith [ht.1])]
      linarith [ht.2]
    have hd : ∀ t ∈ Set.Icc (k * h) ((k + 1) * h), HasDerivWithinAt (fun t => y t i - (t - k * h) * field n alpha (A k) (y (k * h)) i)
        (field n alpha (A k) (y t) i - field n alpha (A k) (y (k * h)) i) (Set.Icc (k * h) ((k + 1) * h)) t := by
      intro t ht
      have h2 := hy.deriv k hk t ht i hi
      unfold heldFixed at h2
      rw [if_neg (by omega)] at h2
      have h3 : HasDerivWithinAt (fun t : ℝ => (t - k * h) * field n alpha (A k) (y (k * h)) i) (1 * field n alpha (A k) (y (k * h)) i)
          (Set.Icc (k * h) ((k + 1) * h)) t := (((hasDerivAt_id' t).sub_const _).mul_const _).hasDerivWithinAt
      rw [one_mul] at h3
      exact h2.sub h3
    have e2 := Convex.norm_image_sub_le_of_norm_hasDerivWithin_le (C := L * (B * h)) hd (fun t ht => by
      rw [Real.norm_eq_abs]
      exact hlip k hk _ _ _ (fun j hj => hmove j hj t ht) i hi) (convex_Icc _ _) (hmem0 k) (hmem k)
    rw [Real.norm_eq_abs, Real.norm_eq_abs, show (k + 1) * h - k * h = h by ring, abs_of_nonneg h0, sub_self, zero_mul, sub_zero] at e2
    have e3 : Spec.rk4 (field n alpha (A k)) h (y (k * h)) i - y ((k + 1) * h) i =
        (Spec.rk4 (field n alpha (A k)) h (y (k * h)) i - (y (k * h) i + h * field n alpha (A k) (y (k * h)) i)) -
        (y ((k + 1) * h) i - h * field n alpha (A k) (y (k * h)) i - y (k * h) i) := by ring
    rw [e3]
    refine (abs_sub _ _).trans ((add_le_add e1 e2).trans ?_)
    linarith [show 3 * L * B * h ^ 2 + L * (B * h) * h = 4 * L * B * h ^ 2 by ring]
  -- the largest error
  rcases Nat.eq_zero_or_pos n with rfl | hn
  · exact fun k _ i hi => absurd hi (by omega)
  set e : Nat → ℝ := fun k => (range n).sup' ⟨0, mem_range.mpr hn⟩ (fun i => |x k i - y (k * h) i|) with he
  have hle : ∀ k i, i < n → |x k i - y (k * h) i| ≤ e k := fun k i hi => le_sup' (fun i => |x k i - y (k * h) i|) (mem_range.mpr hi)
  have he0 : ∀ k, 0 ≤ e k := fun k => (abs_nonneg _).trans (hle k 0 hn)
  have hbots : ∀ k, k ≤ K → ∀ i, i < n → i < b → y (k * h) i = x 0 i := by
    intro k
    induction k with
    | zero =>
      intro _ i hi _
      have := hy.start i hi
      simpa using this
    | succ k ih =>
      intro hk i hi hib
      have := hconst k (by omega) i hi hib _ (hmem k)
      push_cast
      rw [this]
      exact ih (by omega) i hi hib
  have hg := gronwall (e := e) (L := L') (h := h) (c := 4 * L * B * h ^ 2) (K := K) hL'0 h0 (by positivity) (by
    apply sup'_le
    intro i hi
    rw [← hy.start i (mem_range.mp hi)]
    simp) (by
    intro k hk
    apply sup'_le
    intro i hi
    have hi := mem_range.mp hi
    by_cases hib : i < b
    · rw [hxb k hk i hi hib, hbots (k + 1) (by omega) i hi hib, sub_self, abs_zero]
      have := he0 k
      positivity
    · rw [hx k hk i hi (by omega)]
      have h3 := rk4_lipschitz hL0 (hlip k hk) h0 h1 (hle k) hi
      have h4 := hstep k hk i hi (by omega)
      push_cast
      calc |Spec.rk4 (field n alpha (A k)) h (x k) i - y ((k + 1) * h) i| = |(Spec.rk4 (field n alpha (A k)) h (x k) i -
            Spec.rk4 (field n alpha (A k)) h (y (k * h)) i) + (Spec.rk4 (field n alpha (A k)) h (y (k * h)) i - y ((k + 1) * h) i)| := by congr 1; ring
        _ ≤ _ := (abs_add_le _ _).trans (add_le_add h3 h4))
  intro k hk i hi
  refine (hle k i hi).trans ((hg k hk).trans ?_)
  have hkT : k * h ≤ |T| := by
    have : (k : ℝ) * h ≤ K * h := mul_le_mul_of_nonneg_right (by exact_mod_cast hk) h0
    exact this.trans (hT.trans (le_abs_self T))
  have hk0 : 0 ≤ k * h := by positivity
  calc (k : ℝ) * (4 * L * B * h ^ 2) * Real.exp (L' * (k * h)) = (k * h) * (4 * L * B * h) * Real.exp (L' * (k * h)) := by ring
    _ ≤ |T| * (4 * L * B * h) * Real.exp (L' * |T|) := by gcongr
    _ = |T| * (4 * L * B) * Real.exp (L' * |T|) * h := by ring

/-! ## existence of the exact solutions -/

theorem field_congr {alpha : ℝ} {A : Nat → Nat → ℝ} {i : Nat} (hi : i < n) {y z : Nat → ℝ} (h : ∀ j, j < n → y j = z j) :
    field n alpha A y i = field n alpha A z i := by
  unfold field
  rw [h i hi]
  congr 1
  exact sum_congr rfl fun j hj => by rw [h j (mem_range.mp hj)]

/-- A vector field that is Lipschitz continuous with constant `L` and grows at most like `g |y| + c`. -/
structure Tame (n : Nat) (f : (Nat → ℝ) → Nat → ℝ) (L g c : ℝ) : Prop where
  L0 : 0 ≤ L
  g1 : 1 ≤ g
  c0 : 0 ≤ c
  lipschitz : ∀ (y z : Nat → ℝ) d, (∀ j, j < n → |y j - z j| ≤ d) → ∀ i, i < n → |f y i - f z i| ≤ L * d
  growth : ∀ (y : Nat → ℝ) N, (∀ j, j < n → |y j| ≤ N) → ∀ i, i < n → |f y i| ≤ g * N + c

theorem Tame.congr {f : (Nat → ℝ) → Nat → ℝ} {L g c : ℝ} (hf : Tame n f L g c) {y z : Nat → ℝ} (h : ∀ j, j < n → y j = z j) {i : Nat} (hi : i < n) :
    f y i = f z i := by
  have := hf.lipschitz y z 0 (fun j hj => by rw [h j hj, sub_self, abs_zero]) i hi
  rw [mul_zero] at this
  have := abs_nonpos_iff.mp this
  linarith

theorem Tame.field (alpha : ℝ) {A : Nat → Nat → ℝ} (hA : ∀ i, i < n → ∀ j, j < n → |A i j| ≤ κ) :
    Tame n (field n alpha A) (1 + n * (|κ| * |alpha|)) 1 (n * |κ|) where
  L0 := by positivity
  g1 := le_rfl
  c0 := by positivity
  lipschitz y z d hd i hi := field_lipschitz le_rfl hi (fun j hj => (hA i hi j hj).trans (le_abs_self κ)) hd
  growth y N hy i hi := by
    rw [one_mul]
    exact field_bound (fun j hj => (hA i hi j hj).trans (le_abs_self κ)) (hy i hi)

theorem Tame.held {f : (Nat → ℝ) → Nat → ℝ} {L g c : ℝ} (hf : Tame n f L g c) (b : Nat) : Tame n (heldFixed b f) L g c where
  L0 := hf.L0
  g1 := hf.g1
  c0 := hf.c0
  lipschitz y z d hd i hi := by
    unfold heldFixed
    split
    · rw [sub_self, abs_zero]
      exact mul_nonneg hf.L0 ((abs_nonneg _).trans (hd i hi))
    · exact hf.lipschitz y z d hd i hi
  growth y N hy i hi := by
    unfold heldFixed
    split
    · rw [abs_zero]
      exact add_nonneg (mul_nonneg (zero_le_one.trans hf.g1) ((abs_nonneg _).trans (hy i hi))) hf.c0
    · exact hf.growth y N hy i hi

/-- Existence on one interval. -/
theorem Tame.solution {f : (Nat → ℝ) → Nat → ℝ} {L g c : ℝ} (hf : Tame n f L g c) {h : ℝ} (h0 : 0 ≤ h) (h1 : g * h ≤ 1 / 2) (x : Nat → ℝ) :
    ∃ y : ℝ → Nat → ℝ, (∀ i, i < n → y 0 i = x i) ∧ ∀ t ∈ Set.Icc 0 h, ∀ i, i < n →
      HasDerivWithinAt (fun t => y t i) (f (y t) i) (Set.Icc 0 h) t := by
  set G := fun (y : Fin n → ℝ) (i : Fin n) => f (extend n y) i with hG
  set x0 : Fin n → ℝ := fun i => x i with hx0
  have hc := hf.c0
  have hg1 := hf.g1
  set r : ℝ := ‖x0‖ + c with hr
  have hr0 : 0 ≤ r := by positivity
  have hlip : LipschitzWith (Real.toNNReal L) G := by
    apply LipschitzWith.of_dist_le_mul
    intro y z
    rw [Real.coe_toNNReal _ hf.L0]
    rw [dist_pi_le_iff (mul_nonneg hf.L0 dist_nonneg)]
    intro i
    rw [Real.dist_eq]
    refine hf.lipschitz _ _ _ (fun j hj => ?_) i i.2
    rw [extend_lt y hj, extend_lt z hj, ← Real.dist_eq]
    exact dist_le_pi_dist y z ⟨j, hj⟩
  have hb : ∀ y ∈ Metric.closedBall x0 r, ‖G y‖ ≤ 2 * g * r := by
    intro y hy
    have hy' : ‖y‖ ≤ ‖x0‖ + r := norm_le_of_mem_closedBall hy
    rw [pi_norm_le_iff_of_nonneg (by positivity)]
    intro i
    rw [Real.norm_eq_abs]
    have h2 := hf.growth (extend n y) (‖x0‖ + r) (fun j hj => by
      rw [extend_lt y hj, ← Real.norm_eq_abs]
      exact (norm_le_pi_norm y ⟨j, hj⟩).trans hy') i i.2
    refine h2.trans ?_
    have h3 : c ≤ g * c := le_mul_of_one_le_left hc hg1
    rw [hr]
    linarith [show g * (‖x0‖ + (‖x0‖ + c)) = g * ‖x0‖ * 2 + g * c by ring, show 2 * g * (‖x0‖ + c) = g * ‖x0‖ * 2 + g * c + g * c by ring]
  have hP : IsPicardLindelof (fun _ => G) (tmin := 0) (tmax := h) ⟨0, le_rfl, h0⟩ x0 (Real.toNNReal r) 0 (Real.toNNReal (2 * g * r)) (Real.toNNReal L) := by
    apply IsPicardLindelof.of_time_independent
    · intro y hy
      rw [Real.coe_toNNReal _ hr0] at hy
      rw [Real.coe_toNNReal _ (by positivity)]
      exact hb y hy
    · exact hlip.lipschitzOnWith
    · rw [Real.coe_toNNReal _ hr0, Real.coe_toNNReal _ (by positivity)]
      simp only [sub_zero, sub_self, max_eq_left h0, NNReal.coe_zero]
      nlinarith
  obtain ⟨y, hy0, hy⟩ := hP.exists_eq_forall_mem_Icc_hasDerivWithinAt₀
  refine ⟨fun t => extend n (y t), fun i hi => ?_, fun t ht i hi => ?_⟩
  · have := congrFun hy0 ⟨i, hi⟩
    dsimp only at this ⊢
    rw [extend_lt _ hi, this]
  · have h2 := hasDerivWithinAt_pi.mp (hy t ht) ⟨i, hi⟩
    have e : (fun t => extend n (y t) i) = fun t => y t ⟨i, hi⟩ := by funext t; exact extend_lt _ hi
    rw [e]
    exact h2

/-- Existence on all intervals. -/
theorem pieces_exist {h g : ℝ} (h0 : 0 ≤ h) (h1 : g * h ≤ 1 / 2) (F : Nat → (Nat → ℝ) → Nat → ℝ) (x : Nat → ℝ) :
    ∀ K : Nat, (∀ k, k < K → ∃ L c, Tame n (F k) L g c) → ∃ y, FollowsPieces F n h K x y := by
  intro K
  induction K with
  | zero => exact fun _ => ⟨fun _ => x, fun _ _ => rfl, fun k hk => absurd hk (by omega)⟩
  | succ K ih =>
    intro hA
    obtain ⟨y, hy⟩ := ih fun k hk => hA k (by omega)
    obtain ⟨L, c, hκ⟩ := hA K (by omega)
    obtain ⟨z, hz0, hz⟩ := hκ.solution h0 h1 (y (K * h))
    have hK : (0 : ℝ) ≤ K * h := by positivity
    have e1 : ∀ t, t ≤ K * h → (fun i => if t ≤ K * h then y t i else z (t - K * h) i) = y t := fun t ht => by funext i; rw [if_pos ht]
    have e2 : ∀ t, K * h ≤ t → ∀ i, i < n → (if t ≤ K * h then y t i else z (t - K * h) i) = z (t - K * h) i := by
      intro t ht i hi
      split
      · have : t = K * h := le_antisymm ‹_› ht
        rw [this, sub_self, hz0 i hi]
      · rfl
    refine ⟨fun t i => if t ≤ K * h then y t i else z (t - K * h) i, fun i hi => by rw [if_pos hK]; exact hy.start i hi, fun k hk t ht i hi => ?_⟩
    rcases Nat.lt_succ_iff_lt_or_eq.mp hk with hk' | rfl
    · have hle : ∀ t ∈ Set.Icc (k * h) ((k + 1) * h), t ≤ K * h := by
        intro t ht
        refine ht.2.trans (mul_le_mul_of_nonneg_right ?_ h0)
        exact_mod_cast hk'
      rw [e1 t (hle t ht)]
      exact (hy.deriv k hk' t ht i hi).congr (fun t ht => if_pos (hle t ht)) (if_pos (hle t ht))
    · have hsub : ∀ t ∈ Set.Icc (k * h) ((k + 1) * h), t - k * h ∈ Set.Icc 0 h := fun t ht => ⟨by linarith [ht.1], by linarith [ht.2]⟩
      have h3 := hz (t - k * h) (hsub t ht) i hi
      have h4 : HasDerivWithinAt (fun t : ℝ => t - k * h) 1 (Set.Icc (k * h) ((k + 1) * h)) t := ((hasDerivAt_id' t).sub_const _).hasDerivWithinAt
      have h5 := h3.scomp (t' := Set.Icc 0 h) t h4 hsub
      rw [one_smul] at h5
      rw [hκ.congr (z := z (t - k * h)) (fun j hj => e2 t ht.1 j hj) hi]
      exact h5.congr (fun t ht => e2 t ht.1 i hi) (e2 t ht.1 i hi)

/-- Two solutions of the same pieces agree. -/
theorem pieces_unique {h g : ℝ} (h0 : 0 ≤ h) {F : Nat → (Nat → ℝ) → Nat → ℝ} {x : Nat → ℝ} {K : Nat} (hF : ∀ k, k < K → ∃ L c, Tame n (F k) L g c)
    {y z : ℝ → Nat → ℝ} (hy : FollowsPieces F n h K x y) (hz : FollowsPieces F n h K x z) :
    ∀ k, k < K → ∀ t ∈ Set.Icc (k * h) ((k + 1) * h), ∀ i, i < n → y t i = z t i := by
  have piece : ∀ k, k < K → (∀ i, i < n → y (k * h) i = z (k * h) i) → ∀ t ∈ Set.Icc (k * h) ((k + 1) * h), ∀ i, i < n → y t i = z t i := by
    intro k hk he t ht i hi
    obtain ⟨L, c, hf⟩ := hF k hk
    set G := fun (y : Fin n → ℝ) (i : Fin n) => F k (extend n y) i with hG
    have hlip : LipschitzWith (Real.toNNReal L) G := by
      apply LipschitzWith.of_dist_le_mul
      intro y z
      rw [Real.coe_toNNReal _ hf.L0]
      rw [dist_pi_le_iff (mul_nonneg hf.L0 dist_nonneg)]
      intro i
      rw [Real.dist_eq]
      refine hf.lipschitz _ _ _ (fun j hj => ?_) i i.2
      rw [extend_lt y hj, extend_lt z hj, ← Real.dist_eq]
      exact dist_le_pi_dist y z ⟨j, hj⟩
    have hs : ∀ y, FollowsPieces F n h K x y → ∀ t ∈ Set.Icc (k * h) ((k + 1) * h),
        HasDerivWithinAt (fun t (i : Fin n) => y t i) (G (fun i : Fin n => y t i)) (Set.Icc (k * h) ((k + 1) * h)) t := by
      intro y hy t ht
      rw [hasDerivWithinAt_pi]
      intro i
      have := hy.deriv k hk t ht i i.2
      rw [hf.congr (z := extend n fun i : Fin n => y t i) (fun j hj => (extend_lt (fun i : Fin n => y t i) hj).symm) i.2] at this
      exact this
    have right : ∀ u : ℝ → Fin n → ℝ, ∀ u' t, t ∈ Set.Ico (k * h) ((k + 1) * h) → HasDerivWithinAt u u' (Set.Icc (k * h) ((k + 1) * h)) t →
        HasDerivWithinAt u u' (Set.Ici t) t := by
      intro u u' t ht hu
      refine (hu.mono (Set.Icc_subset_Icc_left ht.1)).mono_of_mem_nhdsWithin ?_
      exact Icc_mem_nhdsGE ht.2
    have := ODE_solution_unique (v := fun _ => G) (K := Real.toNNReal L) (a := k * h) (b := (k + 1) * h) (fun _ => hlip)
      (f := fun t (i : Fin n) => y t i) (g := fun t (i : Fin n) => z t i)
      (fun t ht => (hs y hy t ht).continuousWithinAt) (fun t ht => right _ _ t ht (hs y hy t (Set.Ico_subset_Icc_self ht)))
      (fun t ht => (hs z hz t ht).continuousWithinAt) (fun t ht => right _ _ t ht (hs z hz t (Set.Ico_subset_Icc_self ht)))
      (by funext i; exact he i i.2)
    exact congrFun (this ht) ⟨i, hi⟩
  intro k
  induction k with
  | zero =>
    intro hk
    refine piece 0 hk fun i hi => ?_
    have e : ((0 : Nat) : ℝ) * h = 0 := by simp
    rw [e, hy.start i hi, hz.start i hi]
  | succ k ih =>
    intro hk
    refine piece (k + 1) hk fun i hi => ?_
    push_cast
    exact ih (by omega) _ ⟨by nlinarith, le_rfl⟩ i hi

end Uniform

/-! ## the model -/

/-- The total weight of the entries of agent `i` that refer to agent `j`. -/
def entry (N : Network A ℝ) (i j : Nat) : ℝ := ((row N i).map (fun e => if e.1 = j then e.2 else 0)).sum

theorem weightedSum_entry {N : Network A ℝ} {n i : Nat} (hr : ∀ e ∈ row N i, e.1 < n) (u : Nat → ℝ) :
    weightedSum N u i = ∑ j ∈ range n, entry N i j * u j := by
  unfold weightedSum entry
  generalize row N i = l at hr
  induction l with
  | nil => simp
  | cons e l ih =>
    simp only [List.map_cons, List.sum_cons]
    rw [ih fun e he => hr e (List.mem_cons_of_mem _ he)]
    simp only [add_mul, sum_add_distrib]
    congr 1
    rw [sum_eq_single_of_mem e.1 (mem_range.mpr (hr e List.mem_cons_self))]
    · simp
    · intro j _ hj
      rw [if_neg (Ne.symm hj), zero_mul]

theorem entry_le (N : Network A ℝ) (i j : Nat) : |entry N i j| ≤ absWeight N i := by
  unfold entry absWeight
  induction row N i with
  | nil => simp
  | cons e l ih =>
    simp only [List.map_cons, List.sum_cons]
    refine (abs_add_le _ _).trans (add_le_add ?_ ih)
    split
    · exact le_rfl
    · rw [abs_zero]; exact abs_nonneg _

theorem rate_eq_field (K alpha : ℝ) {N : Network A ℝ} {n : Nat} (hr : ∀ i, ∀ e ∈ row N i, e.1 < n) (m : Nat → ℝ) :
    rate Real.tanh K alpha N m = field n alpha (fun i j => K / m i * entry N i j) := by
  funext y i
  unfold rate field
  rw [weightedSum_entry (hr i), mul_sum]
  congr 1
  exact sum_congr rfl fun j _ => by ring

section
variable [ActiveAgent A ℝ] [LawfulActiveAgent A ℝ]

/-- C113, general form: all numbers `a`, `κ`, `X` and `T` have constants `C` and `ε` such that the following holds for *every* sequence of iterations of `n` agents
without bots, whose networks are well-formed, with `|α| ≤ a`, `|K/m_i| Σ_j |w_ij| ≤ κ` in each network, initial opinions bounded by `X` and `K dt ≤ T`:
let `y` be the exact solution that starts at the initial opinions and follows, between `k dt` and `(k+1) dt`, the opinion dynamics of the network of iteration `k+1`.
If `dt < ε` then the opinions after `k` iterations differ from `y( k dt )` by at most `C dt⁴`. -/
theorem C113_convergence_general (n : Nat) (a κ X T : ℝ) : ∃ C ε : ℝ, 0 ≤ C ∧ 0 < ε ∧
    ∀ (o : MathOps ℝ) (pick : List (Nat × ℝ) → Nat) (r : Rng G ℝ) (K : Nat) (st : Nat → Activity A ℝ G) (y : ℝ → Nat → ℝ), o.tanh = Real.tanh →
    (∀ k, k < K → Activity.iteration o pick r (st k) = .ok (st (k + 1)) ∧ WF (st (k + 1)).network) →
    (st 0).network.agents.length = n → (st 0).p.nBots = 0 → 0 ≤ (st 0).p.dt → (st 0).p.dt < ε → K * (st 0).p.dt ≤ T → |(st 0).p.alpha| ≤ a →
    (∀ k, k < K → ∀ i, i < n → |(st 0).p.K / attr ActiveAgent.reluctance (st 0).network.agents i| * absWeight (st (k + 1)).network i ≤ κ) →
    (∀ i, i < n → |attr ActiveAgent.opinion (st 0).network.agents i| ≤ X) →
    FollowsPieces (fun k => rate Real.tanh (st 0).p.K (st 0).p.alpha (st (k + 1)).network (attr ActiveAgent.reluctance (st 0).network.agents)) n (st 0).p.dt K
      (attr ActiveAgent.opinion (st 0).network.agents) y →
    ∀ k, k ≤ K → ∀ i, i < n → |attr ActiveAgent.opinion (st k).network.agents i - y (k * (st 0).p.dt) i| ≤ C * (st 0).p.dt ^ 4 := by
  obtain ⟨C, ε, hC, hε, H⟩ := converges n a |κ| (max X (n * |κ|)) T (le_max_right _ _)
  refine ⟨C, ε, hC, hε, fun o pick r K st y ho hst hn hb h0 hlt hT ha hκ hX hy => ?_⟩
  have hit : ∀ k, k ≤ K → Iterates (Activity.iteration o pick r) (st 0) k (st k) := by
    intro k
    induction k with
    | zero => exact fun _ => .zero
    | succ k ih => exact fun hk => .succ (ih (by omega)) (hst k (by omega)).1
  have hp : ∀ k, k ≤ K → (st k).p = (st 0).p := fun k hk => (C42_activity (hit k hk)).2.2.1
  have hm : ∀ k, k ≤ K → attr ActiveAgent.reluctance (st k).network.agents = attr ActiveAgent.reluctance (st 0).network.agents := by
    intro k hk; unfold attr; rw [(C42_activity (hit k hk)).2.1]
  have hlen : ∀ k, k ≤ K → (st k).network.agents.length = n := by
    intro k hk
    have := congrArg List.length (C42_activity (hit k hk)).2.1
    rw [← hn]; simpa using this
  have hF : ∀ k, k < K → rate Real.tanh (st 0).p.K (st 0).p.alpha (st (k + 1)).network (attr ActiveAgent.reluctance (st 0).network.agents) =
      field n (st 0).p.alpha (fun i j => (st 0).p.K / attr ActiveAgent.reluctance (st 0).network.agents i * entry (st (k + 1)).network i j) := by
    intro k hk
    apply rate_eq_field
    intro i e he
    have := NetLemmas.row_lt (hst k hk).2 he
    rwa [hlen (k + 1) (by omega)] at this
  refine H (st 0).p.alpha (st 0).p.dt K (fun k i j => (st 0).p.K / attr ActiveAgent.reluctance (st 0).network.agents i * entry (st (k + 1)).network i j)
    (fun k => attr ActiveAgent.opinion (st k).network.agents) y ha h0 hlt hT ?_ ?_ ?_ ?_
  · intro k hk i hi j _
    rw [abs_mul]
    exact (mul_le_mul_of_nonneg_left (entry_le _ i j) (abs_nonneg _)).trans ((hκ k hk i hi).trans (le_abs_self κ))
  · exact fun i hi => (hX i hi).trans (le_max_left _ _)
  · intro k hk i hi
    have := C47_rk4 (hst k hk).1 (hst k hk).2 (i := i) (by rw [hp k hk.le, hb]; omega) (by rw [hlen k hk.le]; exact hi)
    rw [this, ho, hp k hk.le, hm k hk.le, hF k hk]
  · refine ⟨hy.start, fun k hk t ht i hi => ?_⟩
    have := hy.deriv k hk t ht i hi
    rwa [hF k hk] at this

/-- The networks of a run of the probabilistic model are well-formed, and their weights are bounded. -/
theorem probabilistic_bounds {o : MathOps ℝ} {pick : List (Nat × ℝ) → Nat} {r : Rng G ℝ} {K n : Nat} {st : Nat → Activity A ℝ G} {κ : ℝ}
    (hpick : Reservoir.Pick.Valid pick) (hready : (st 0).Ready) (hst : ∀ k, k < K → Activity.iteration o pick r (st k) = .ok (st (k + 1)))
    (hn : (st 0).network.agents.length = n)
    (hκ : ∀ i, i < n → 0 < attr ActiveAgent.reluctance (st 0).network.agents i ∧
      |(st 0).p.K| * n / attr ActiveAgent.reluctance (st 0).network.agents i ≤ κ) :
    ∀ k, k < K → WF (st (k + 1)).network ∧
      ∀ i, i < n → |(st 0).p.K / attr ActiveAgent.reluctance (st 0).network.agents i| * absWeight (st (k + 1)).network i ≤ κ := by
  have hR : ∀ k, k ≤ K → (st k).Ready := by
    intro k
    induction k with
    | zero => exact fun _ => hready
    | succ k ih => exact fun hk => (ih (by omega)).next hpick (hst k (by omega))
  intro k hk
  refine ⟨(hR (k + 1) (by omega)).wf, fun i hi => ?_⟩
  obtain ⟨hm, hκi⟩ := hκ i hi
  obtain ⟨gs, buf, contacts, u', hu', hF, -⟩ := C43_activity (o := o) hpick r (hR k hk.le)
  obtain rfl := Except.ok.inj ((hst k hk).symm.trans hu')
  have hit : Iterates (Activity.iteration o pick r) (st 0) (k + 1) (st (k + 1)) := by
    have : ∀ k, k ≤ K → Iterates (Activity.iteration o pick r) (st 0) k (st k) := by
      intro k
      induction k with
      | zero => exact fun _ => .zero
      | succ k ih => exact fun hk => .succ (ih (by omega)) (hst k (by omega))
    exact this _ (by omega)
  have hlen : (st (k + 1)).network.agents.length = n := by
    have := congrArg List.length (C42_activity hit).2.1
    rw [← hn]; simpa using this
  have hW : absWeight (st (k + 1)).network i ≤ (n : ℝ) :=
    absWeight_le (hF.ones i) (hF.nodup i) (fun e he => by rw [← hlen]; exact NetLemmas.row_lt hF.wf he)
  rw [abs_div, abs_of_pos hm]
  refine le_trans ?_ hκi
  rw [mul_div_right_comm]
  exact mul_le_mul_of_nonneg_left hW (div_nonneg (abs_nonneg _) hm.le)

/-- C113: all numbers `n`, `a`, `κ`, `X` and `T` have constants `C` and `ε` such that for every run of the probabilistic model with `n` agents and without bots,
with `|α| ≤ a`, `|K| n / m_i ≤ κ`, initial opinions bounded by `X` and `K dt ≤ T`, whatever the generator does, the following holds: if `dt < ε` then the opinions
after `k` iterations differ by at most `C dt⁴` from the value at time `k dt` of the exact solution that starts at the initial opinions and follows, between `k dt` and
`(k+1) dt`, the opinion dynamics of the network of iteration `k+1`. -/
theorem C113_convergence (n : Nat) (a κ X T : ℝ) : ∃ C ε : ℝ, 0 ≤ C ∧ 0 < ε ∧
    ∀ (o : MathOps ℝ) (pick : List (Nat × ℝ) → Nat) (r : Rng G ℝ) (K : Nat) (st : Nat → Activity A ℝ G) (y : ℝ → Nat → ℝ), o.tanh = Real.tanh →
    Reservoir.Pick.Valid pick → (st 0).Ready → (∀ k, k < K → Activity.iteration o pick r (st k) = .ok (st (k + 1))) →
    (st 0).network.agents.length = n → (st 0).p.nBots = 0 → 0 ≤ (st 0).p.dt → (st 0).p.dt < ε → K * (st 0).p.dt ≤ T → |(st 0).p.alpha| ≤ a →
    (∀ i, i < n → 0 < attr ActiveAgent.reluctance (st 0).network.agents i ∧
      |(st 0).p.K| * n / attr ActiveAgent.reluctance (st 0).network.agents i ≤ κ) →
    (∀ i, i < n → |attr ActiveAgent.opinion (st 0).network.agents i| ≤ X) →
    FollowsPieces (fun k => rate Real.tanh (st 0).p.K (st 0).p.alpha (st (k + 1)).network (attr ActiveAgent.reluctance (st 0).network.agents)) n (st 0).p.dt K
      (attr ActiveAgent.opinion (st 0).network.agents) y →
    ∀ k, k ≤ K → ∀ i, i < n → |attr ActiveAgent.opinion (st k).network.agents i - y (k * (st 0).p.dt) i| ≤ C * (st 0).p.dt ^ 4 := by
  obtain ⟨C, ε, hC, hε, H⟩ := C113_convergence_general (A := A) (G := G) n a κ X T
  refine ⟨C, ε, hC, hε, fun o pick r K st y ho hpick hready hst hn hb h0 hlt hT ha hκ hX hy => ?_⟩
  have hB := probabilistic_bounds hpick hready hst hn hκ
  exact H o pick r K st y ho (fun k hk => ⟨hst k hk, (hB k hk).1⟩) hn hb h0 hlt hT ha (fun k hk => (hB k hk).2) hX hy

/-- C113 with bots, in the general form: as in `C113_convergence_general` for `dt ≤ 1`, where the opinions of the bots before the run are those of the settings, and `y` is the
exact solution with the opinions of the bots held fixed. The opinions after `k` iterations differ from `y( k dt )` by at most `C dt`
(`C77_bots_sharp`: no better power of `dt` is possible in general, because the bots move during the stages of a step). -/
theorem C113_bots_general (n : Nat) (a κ X T : ℝ) : ∃ C : ℝ, 0 ≤ C ∧
    ∀ (o : MathOps ℝ) (pick : List (Nat × ℝ) → Nat) (r : Rng G ℝ) (K : Nat) (st : Nat → Activity A ℝ G) (y : ℝ → Nat → ℝ), o.tanh = Real.tanh →
    (∀ k, k < K → Activity.iteration o pick r (st k) = .ok (st (k + 1)) ∧ WF (st (k + 1)).network) →
    (st 0).network.agents.length = n →
    (∀ i, i < (st 0).p.nBots → (st 0).p.botOpinion[i]? = some (attr ActiveAgent.opinion (st 0).network.agents i)) →
    0 ≤ (st 0).p.dt → (st 0).p.dt ≤ 1 → K * (st 0).p.dt ≤ T → |(st 0).p.alpha| ≤ a →
    (∀ k, k < K → ∀ i, i < n → |(st 0).p.K / attr ActiveAgent.reluctance (st 0).network.agents i| * absWeight (st (k + 1)).network i ≤ κ) →
    (∀ i, i < n → |attr ActiveAgent.opinion (st 0).network.agents i| ≤ X) →
    FollowsPieces (fun k => heldFixed (st 0).p.nBots
        (rate Real.tanh (st 0).p.K (st 0).p.alpha (st (k + 1)).network (attr ActiveAgent.reluctance (st 0).network.agents))) n (st 0).p.dt K
      (attr ActiveAgent.opinion (st 0).network.agents) y →
    ∀ k, k ≤ K → ∀ i, i < n → |attr ActiveAgent.opinion (st k).network.agents i - y (k * (st 0).p.dt) i| ≤ C * (st 0).p.dt := by
  obtain ⟨C, hC, H⟩ := converges_held n a |κ| (max X (n * |κ|)) T (le_max_right _ _)
  refine ⟨C, hC, fun o pick r K st y ho hst hn hb h0 h1 hT ha hκ hX hy => ?_⟩
  have hit : ∀ k, k ≤ K → Iterates (Activity.iteration o pick r) (st 0) k (st k) := by
    intro k
    induction k with
    | zero => exact fun _ => .zero
    | succ k ih => exact fun hk => .succ (ih (by omega)) (hst k (by omega)).1
  have hp : ∀ k, k ≤ K → (st k).p = (st 0).p := fun k hk => (C42_activity (hit k hk)).2.2.1
  have hm : ∀ k, k ≤ K → attr ActiveAgent.reluctance (st k).network.agents = attr ActiveAgent.reluctance (st 0).network.agents := by
    intro k hk; unfold attr; rw [(C42_activity (hit k hk)).2.1]
  have hlen : ∀ k, k ≤ K → (st k).network.agents.length = n := by
    intro k hk
    have := congrArg List.length (C42_activity (hit k hk)).2.1
    rw [← hn]; simpa using this
  have hF : ∀ k, k < K → rate Real.tanh (st 0).p.K (st 0).p.alpha (st (k + 1)).network (attr ActiveAgent.reluctance (st 0).network.agents) =
      field n (st 0).p.alpha (fun i j => (st 0).p.K / attr ActiveAgent.reluctance (st 0).network.agents i * entry (st (k + 1)).network i j) := by
    intro k hk
    apply rate_eq_field
    intro i e he
    have := NetLemmas.row_lt (hst k hk).2 he
    rwa [hlen (k + 1) (by omega)] at this
  refine H (st 0).p.alpha (st 0).p.dt K (st 0).p.nBots
    (fun k i j => (st 0).p.K / attr ActiveAgent.reluctance (st 0).network.agents i * entry (st (k + 1)).network i j)
    (fun k => attr ActiveAgent.opinion (st k).network.agents) y ha h0 h1 hT ?_ ?_ ?_ ?_ ?_
  · intro k hk i hi j _
    rw [abs_mul]
    exact (mul_le_mul_of_nonneg_left (entry_le _ i j) (abs_nonneg _)).trans ((hκ k hk i hi).trans (le_abs_self κ))
  · exact fun i hi => (hX i hi).trans (le_max_left _ _)
  · intro k hk i hi hib
    obtain ⟨ag, hag, hag'⟩ := (C42_activity (hit (k + 1) (by omega))).2.2.2 (by omega) i hib
    have := hb i hib
    rw [hag'] at this
    rw [Activity.attr_some _ hag]
    exact Option.some.inj this
  · intro k hk i hi hib
    have := C47_rk4 (hst k hk).1 (hst k hk).2 (i := i) (by rw [hp k hk.le]; exact hib) (by rw [hlen k hk.le]; exact hi)
    rw [this, ho, hp k hk.le, hm k hk.le, hF k hk]
  · refine ⟨hy.start, fun k hk t ht i hi => ?_⟩
    have := hy.deriv k hk t ht i hi
    rwa [hF k hk] at this

/-- C113 with bots: as `C113_convergence`, for `dt ≤ 1`, where `y` holds the opinions of the bots fixed: the opinions after `k` iterations differ from `y( k dt )` by at
most `C dt`. -/
theorem C113_bots (n : Nat) (a κ X T : ℝ) : ∃ C : ℝ, 0 ≤ C ∧
    ∀ (o : MathOps ℝ) (pick : List (Nat × ℝ) → Nat) (r : Rng G ℝ) (K : Nat) (st : Nat → Activity A ℝ G) (y : ℝ → Nat → ℝ), o.tanh = Real.tanh →
    Reservoir.Pick.Valid pick → (st 0).Ready → (∀ k, k < K → Activity.iteration o pick r (st k) = .ok (st (k + 1))) →
    (st 0).network.agents.length = n →
    (∀ i, i < (st 0).p.nBots → (st 0).p.botOpinion[i]? = some (attr ActiveAgent.opinion (st 0).network.agents i)) →
    0 ≤ (st 0).p.dt → (st 0).p.dt ≤ 1 → K * (st 0).p.dt ≤ T → |(st 0).p.alpha| ≤ a →
    (∀ i, i < n → 0 < attr ActiveAgent.reluctance (st 0).network.agents i ∧
      |(st 0).p.K| * n / attr ActiveAgent.reluctance (st 0).network.agents i ≤ κ) →
    (∀ i, i < n → |attr ActiveAgent.opinion (st 0).network.agents i| ≤ X) →
    FollowsPieces (fun k => heldFixed (st 0).p.nBots
        (rate Real.tanh (st 0).p.K (st 0).p.alpha (st (k + 1)).network (attr ActiveAgent.reluctance (st 0).network.agents))) n (st 0).p.dt K
      (attr ActiveAgent.opinion (st 0).network.agents) y →
    ∀ k, k ≤ K → ∀ i, i < n → |attr ActiveAgent.opinion (st k).network.agents i - y (k * (st 0).p.dt) i| ≤ C * (st 0).p.dt := by
  obtain ⟨C, hC, H⟩ := C113_bots_general (A := A) (G := G) n a κ X T
  refine ⟨C, hC, fun o pick r K st y ho hpick hready hst hn hb h0 h1 hT ha hκ hX hy => ?_⟩
  have hB := probabilistic_bounds hpick hready hst hn hκ
  exact H o pick r K st y ho (fun k hk => ⟨hst k hk, (hB k hk).1⟩) hn hb h0 h1 hT ha (fun k hk => (hB k hk).2) hX hy

/-- C113: every ready state has runs of any length, and the exact solution, with the opinions of the bots held fixed, exists if `dt ≤ 1/2`, and is unique. -/
theorem C113_exists {o : MathOps ℝ} {pick : List (Nat × ℝ) → Nat} (hp : Reservoir.Pick.Valid pick) (r : Rng G ℝ) {s : Activity A ℝ G} (hs : s.Ready)
    (h0 : 0 ≤ s.p.dt) (h1 : s.p.dt ≤ 1 / 2) (K : Nat) :
    ∃ (st : Nat → Activity A ℝ G) (y : ℝ → Nat → ℝ), st 0 = s ∧ (∀ k, k < K → Activity.iteration o pick r (st k) = .ok (st (k + 1))) ∧
      FollowsPieces (fun k => heldFixed s.p.nBots (rate Real.tanh s.p.K s.p.alpha (st (k + 1)).network (attr ActiveAgent.reluctance s.network.agents)))
        s.network.agents.length s.p.dt K (attr ActiveAgent.opinion s.network.agents) y ∧
      ∀ z, FollowsPieces (fun k => heldFixed s.p.nBots (rate Real.tanh s.p.K s.p.alpha (st (k + 1)).network (attr ActiveAgent.reluctance s.network.agents)))
        s.network.agents.length s.p.dt K (attr ActiveAgent.opinion s.network.agents) z →
        ∀ k, k < K → ∀ t ∈ Set.Icc (k * s.p.dt) ((k + 1) * s.p.dt), ∀ i, i < s.network.agents.length → z t i = y t i := by
  have next : ∀ t : Activity A ℝ G, ∃ u, t.Ready → Activity.iteration o pick r t = .ok u ∧ u.Ready := by
    intro t
    by_cases ht : t.Ready
    · obtain ⟨_, _, _, u, hu, -⟩ := C43_activity (o := o) hp r ht
      exact ⟨u, fun _ => ⟨hu, ht.next hp hu⟩⟩
    · exact ⟨t, fun h => absurd h ht⟩
  choose f hf using next
  have hR : ∀ k, (f^[k] s).Ready := by
    intro k
    induction k with
    | zero => exact hs
    | succ k ih => rw [Function.iterate_succ_apply']; exact (hf _ ih).2
  have hst : ∀ k, Activity.iteration o pick r (f^[k] s) = .ok (f^[k + 1] s) := by
    intro k; rw [Function.iterate_succ_apply']; exact (hf _ (hR k)).1
  have hit : ∀ k, Iterates (Activity.iteration o pick r) s k (f^[k] s) := by
    intro k
    induction k with
    | zero => exact .zero
    | succ k ih => exact .succ ih (hst k)
  have hlen : ∀ k, (f^[k] s).network.agents.length = s.network.agents.length := by
    intro k
    have := congrArg List.length (C42_activity (hit k)).2.1
    simpa using this
  have tame : ∀ k, k < K → ∃ L c, Tame s.network.agents.length
      (heldFixed s.p.nBots (rate Real.tanh s.p.K s.p.alpha (f^[k + 1] s).network (attr ActiveAgent.reluctance s.network.agents))) L 1 c := by
    intro k _
    rw [rate_eq_field (n := s.network.agents.length) _ _ (fun i e he => by
      have := NetLemmas.row_lt (hR (k + 1)).wf he
      rwa [hlen] at this)]
    refine ⟨_, _, (Tame.field (κ := ∑ i ∈ range s.network.agents.length, |s.p.K / attr ActiveAgent.reluctance s.network.agents i| * absWeight (f^[k + 1] s).network i)
      s.p.alpha ?_).held _⟩
    intro i hi j _
    rw [abs_mul]
    refine (mul_le_mul_of_nonneg_left (entry_le _ i j) (abs_nonneg _)).trans ?_
    exact single_le_sum (f := fun i => |s.p.K / attr ActiveAgent.reluctance s.network.agents i| * absWeight (f^[k + 1] s).network i)
      (fun i _ => mul_nonneg (abs_nonneg _) ((abs_nonneg _).trans (entry_le _ i 0))) (mem_range.mpr hi)
  obtain ⟨y, hy⟩ := pieces_exist (n := s.network.agents.length) (g := 1) h0 (by rw [one_mul]; exact h1) _ (attr ActiveAgent.opinion s.network.agents) K tame
  exact ⟨fun k => f^[k] s, y, rfl, fun k _ => hst k, hy, fun z hz => pieces_unique h0 tame hz hy⟩

end

/-- Two agents that move towards each other: for every small enough time step there is a run of two agents up to time 1, it meets all hypotheses of `C113_convergence`,
and its error is bounded by `C dt⁴`. -/
example : ∃ C ε : ℝ, 0 < ε ∧ ∀ (h : ℝ) (K : Nat), 0 ≤ h → h < ε → K * h ≤ 1 → ∃ (st : Nat → Activity (InertialAgent ℝ) ℝ Unit) (y : ℝ → Nat → ℝ),
    st 0 = movingPair.base.withDt h ∧ (∀ k, k < K → Activity.iteration realOps (fun _ => 0) halfRng (st k) = .ok (st (k + 1))) ∧
    FollowsPieces (fun k => rate Real.tanh 1 1 (st (k + 1)).network (attr ActiveAgent.reluctance movingPair.base.network.agents)) 2 h K
        (attr ActiveAgent.opinion movingPair.base.network.agents) y ∧
    ∀ k, k ≤ K → ∀ i, i < 2 → |attr ActiveAgent.opinion (st k).network.agents i - y (k * h) i| ≤ C * h ^ 4 := by
  obtain ⟨C, ε, -, hε, H⟩ := C113_convergence (A := InertialAgent ℝ) (G := Unit) 2 1 2 1 1
  refine ⟨C, min ε (1 / 2), lt_min hε (by norm_num), fun h K h0 h1 hT => ?_⟩
  have hs := movingPair_ready
  have hsh : (movingPair.base.withDt h).Ready := ⟨hs.wf, hs.incoming, ⟨hs.fit.size, hs.fit.bots, hs.fit.botM, hs.fit.botHomophily, hs.fit.nonneg,
    hs.fit.le⟩, hs.botOpinion, hs.probabilistic⟩
  obtain ⟨st, y, e, hst, hy, -⟩ := C113_exists (o := realOps) firstPick_valid halfRng hsh (K := K) h0 (h1.trans_le (min_le_right _ _)).le
  have hz : (movingPair.base.withDt h).p.nBots = 0 := rfl
  have hF : ∀ f : (Nat → ℝ) → Nat → ℝ, heldFixed 0 f = f := fun f => by funext x i; unfold heldFixed; rw [if_neg (Nat.not_lt_zero i)]
  simp only [hz, hF] at hy
  refine ⟨st, y, e, hst, hy, ?_⟩
  have hm : ∀ i, i < 2 → attr ActiveAgent.reluctance (movingPair.base.withDt h).network.agents i = 1 ∧
      |attr ActiveAgent.opinion (movingPair.base.withDt h).network.agents i| ≤ 1 := by
    intro i hi
    rcases i with _ | _ | i
    · exact ⟨rfl, by show |(1 : ℝ)| ≤ 1; norm_num⟩
    · exact ⟨rfl, by show |(0 : ℝ)| ≤ 1; norm_num⟩
    · omega
  have := H realOps (fun _ => 0) halfRng K st y rfl firstPick_valid (by rw [e]; exact hsh) hst (by rw [e]; rfl) (by rw [e]; rfl) (by rw [e]; exact h0)
    (by rw [e]; exact h1.trans_le (min_le_left _ _)) (by rw [e]; exact hT) (by rw [e]; show |(1 : ℝ)| ≤ 1; norm_num)
    (by
      intro i hi
      rw [e, (hm i hi).1]
      refine ⟨one_pos, ?_⟩
      show |(1 : ℝ)| * (2 : ℕ) / 1 ≤ 2
      norm_num) (by intro i hi; rw [e]; exact (hm i hi).2) (by rw [e]; exact hy)
  rw [e] at this
  exact this

/-- A bot and an agent: the hypotheses of `C113_bots` are met by runs of any length with any `dt ≤ 1/2`. -/
example : ∃ C : ℝ, ∀ (h : ℝ) (K : Nat), 0 ≤ h → h ≤ 1 / 2 → K * h ≤ 1 → ∃ (st : Nat → Activity (ActivityAgent ℝ) ℝ Unit) (y : ℝ → Nat → ℝ),
    st 0 = botPair.withDt h ∧ (∀ k, k < K → Activity.iteration realOps (fun _ => 0) halfRng (st k) = .ok (st (k + 1))) ∧
    FollowsPieces (fun k => heldFixed 1 (rate Real.tanh 1 1 (st (k + 1)).network (attr ActiveAgent.reluctance botPair.network.agents))) 2 h K
        (attr ActiveAgent.opinion botPair.network.agents) y ∧
    ∀ k, k ≤ K → ∀ i, i < 2 → |attr ActiveAgent.opinion (st k).network.agents i - y (k * h) i| ≤ C * h := by
  obtain ⟨C, -, H⟩ := C113_bots (A := ActivityAgent ℝ) (G := Unit) 2 1 2 1 1
  refine ⟨C, fun h K h0 h1 hT => ?_⟩
  obtain ⟨st, y, e, hst, hy, -⟩ := C113_exists (o := realOps) firstPick_valid halfRng (botPair_ready h) (K := K) h0 h1
  refine ⟨st, y, e, hst, hy, ?_⟩
  have hm : ∀ i, i < 2 → attr ActiveAgent.reluctance (botPair.withDt h).network.agents i = 1 ∧
      |attr ActiveAgent.opinion (botPair.withDt h).network.agents i| ≤ 1 := by
    intro i hi
    rcases i with _ | _ | i
    · exact ⟨rfl, by show |(1 : ℝ)| ≤ 1; norm_num⟩
    · exact ⟨rfl, by show |(0 : ℝ)| ≤ 1; norm_num⟩
    · omega
  have := H realOps (fun _ => 0) halfRng K st y rfl firstPick_valid (by rw [e]; exact botPair_ready h) hst (by rw [e]; rfl)
    (by
      intro i hi
      rw [e] at hi ⊢
      have : i < 1 := hi
      obtain rfl : i = 0 := by omega
      rfl) (by rw [e]; exact h0) (by rw [e]; show h ≤ 1; linarith) (by rw [e]; exact hT) (by rw [e]; show |(1 : ℝ)| ≤ 1; norm_num)
    (by
      intro i hi
      rw [e, (hm i hi).1]
      refine ⟨one_pos, ?_⟩
      show |(1 : ℝ)| * (2 : ℕ) / 1 ≤ 2
      norm_num) (by intro i hi; rw [e]; exact (hm i hi).2) (by rw [e]; exact hy)
  rw [e] at this
  exact this

end Seldon
