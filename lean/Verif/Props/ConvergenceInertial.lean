import Verif.Lemmas.ConvergenceInertial
/-!
# Property C114: convergence of whole simulations with the inertial model
-/
set_option linter.unusedSectionVars false
namespace Seldon
open Spec Filter Topology Finset
open _root_.Seldon.Uniform
variable {G : Type}

namespace Uniform
variable {n : Nat} {a κ M : ℝ}

theorem abs_le_one_sq (u : ℝ) : |u| ≤ 1 + u ^ 2 := by
  rw [← sq_abs u]
  have h := sq_nonneg (|u| - 1)
  have h2 := abs_nonneg u
  linarith [show (|u| - 1) ^ 2 = |u| ^ 2 - 2 * |u| + 1 by ring]

/-- `1 + y² + ν²` grows at most like `e^{B t}`. -/
theorem energy {alpha : ℝ} {A : Nat → Nat → ℝ} {i : Nat} (hA : ∀ j, j < n → |A i j| ≤ κ) {c : ℝ} (hc : 0 ≤ c) {b e : ℝ} {y ν : ℝ → Nat → ℝ}
    (hd : ∀ t ∈ Set.Icc b e, HasDerivWithinAt (fun t => y t i) (ν t i) (Set.Icc b e) t ∧
      HasDerivWithinAt (fun t => ν t i) (field n alpha A (y t) i - c * ν t i) (Set.Icc b e) t) :
    ∀ t ∈ Set.Icc b e, (1 + y t i ^ 2 + ν t i ^ 2) * Real.exp (-(n * κ * t)) ≤ (1 + y b i ^ 2 + ν b i ^ 2) * Real.exp (-(n * κ * b)) := by
  have hexp : ∀ t : ℝ, HasDerivAt (fun t : ℝ => Real.exp (-(n * κ * t))) (Real.exp (-(n * κ * t)) * (-(n * κ))) t := by
    intro t
    have h1 : HasDerivAt (fun t : ℝ => -(n * κ * t)) (-(n * κ)) t := by
      have := ((hasDerivAt_id' t).const_mul (n * κ)).neg
      rwa [mul_one] at this
    exact h1.exp
  have hw : ∀ t ∈ Set.Icc b e, HasDerivWithinAt (fun t => -((1 + y t i ^ 2 + ν t i ^ 2) * Real.exp (-(n * κ * t))))
      ((n * κ * (1 + y t i ^ 2 + ν t i ^ 2) - (2 * ν t i * (field n alpha A (y t) i + y t i) - 2 * c * ν t i ^ 2)) * Real.exp (-(n * κ * t))) (Set.Icc b e) t := by
    intro t ht
    have h1 := ((((hd t ht).1.pow 2).const_add 1).add ((hd t ht).2.pow 2)).mul (hexp t).hasDerivWithinAt
    refine h1.neg.congr_deriv ?_
    simp only [Pi.add_apply, Pi.pow_apply]
    push_cast
    ring
  have hm : MonotoneOn (fun t => -((1 + y t i ^ 2 + ν t i ^ 2) * Real.exp (-(n * κ * t)))) (Set.Icc b e) := by
    apply monotoneOn_of_hasDerivWithinAt_nonneg (convex_Icc b e) (fun t ht => (hw t ht).continuousWithinAt)
      (fun t ht => (hw t (interior_subset ht)).mono interior_subset)
    intro t _
    refine mul_nonneg ?_ (Real.exp_pos _).le
    have h1 := field_split (alpha := alpha) hA (y t)
    set g := field n alpha A (y t) i + y t i
    have h2 : 2 * ν t i * g ≤ (1 + ν t i ^ 2) * (n * κ) := by
      calc 2 * ν t i * g ≤ |2 * ν t i * g| := le_abs_self _
        _ = |2 * ν t i| * |g| := abs_mul _ _
        _ ≤ (1 + ν t i ^ 2) * (n * κ) := by
          refine mul_le_mul ?_ h1 (abs_nonneg _) (by positivity)
          rw [abs_le]
          constructor <;> nlinarith [sq_nonneg (ν t i - 1), sq_nonneg (ν t i + 1)]
    have h3 : 0 ≤ n * κ := (abs_nonneg _).trans h1
    have h4 : 0 ≤ c * ν t i ^ 2 := by positivity
    have h5 : 0 ≤ n * κ * y t i ^ 2 := by positivity
    nlinarith
  intro t ht
  have := hm ⟨le_rfl, ht.1.trans ht.2⟩ ht ht.1
  dsimp only at this
  linarith

set_option maxHeartbeats 1000000 in
/-- A history of Verlet steps converges to the exact solution with second order, with constants that depend only on the bounds. -/
theorem converges2 (n : Nat) (a cc κ X T : ℝ) (hκ : 0 ≤ κ) : ∃ C : ℝ, 0 ≤ C ∧ ∀ (alpha c h : ℝ) (K : Nat) (A : Nat → Nat → Nat → ℝ)
    (x v : Nat → Nat → ℝ) (y ν : ℝ → Nat → ℝ), |alpha| ≤ a → 0 ≤ c → c ≤ cc → 0 ≤ h → h ≤ 1 → K * h ≤ T →
    (∀ k, k < K → ∀ i, i < n → ∀ j, j < n → |A k i j| ≤ κ) → (∀ i, i < n → |x 0 i| ≤ X ∧ |v 0 i| ≤ X) →
    (∀ k, k < K → VerletStep (field n alpha (A k)) c h n (x k) (v k) (x (k + 1)) (v (k + 1))) →
    FollowsPieces2 (fun k => field n alpha (A k)) c n h K (x 0) (v 0) y ν →
    ∀ k, k ≤ K → ∀ i, i < n → |x k i - y (k * h) i| ≤ C * h ^ 2 ∧ |v k i - ν (k * h) i| ≤ C * h ^ 2 := by
  obtain ⟨a', ha'⟩ : ∃ a', |a| = a' := ⟨_, rfl⟩
  obtain ⟨cc', hcc'⟩ : ∃ c, |cc| = c := ⟨_, rfl⟩
  obtain ⟨M, hM⟩ : ∃ M, (1 + X ^ 2 + X ^ 2) * Real.exp (n * κ * |T|) = M := ⟨_, rfl⟩
  obtain ⟨L, hL⟩ : ∃ L, 1 + n * (κ * a') = L := ⟨_, rfl⟩
  obtain ⟨Acc, hAcc⟩ : ∃ z, M + n * κ + cc' * M = z := ⟨_, rfl⟩
  obtain ⟨P, hP⟩ : ∃ z, L * M + cc' * Acc = z := ⟨_, rfl⟩
  obtain ⟨Q, hQ⟩ : ∃ z, Acc + n * (κ * (2 * a' * a' * M * M + a' * Acc)) + cc' * P = z := ⟨_, rfl⟩
  have ha0 : 0 ≤ a' := by rw [← ha']; positivity
  have hcc0 : 0 ≤ cc' := by rw [← hcc']; positivity
  have hM0 : 0 ≤ M := by rw [← hM]; positivity
  have hL0 : 0 ≤ L := by rw [← hL]; positivity
  have hAcc0 : 0 ≤ Acc := by rw [← hAcc]; positivity
  have hP0 : 0 ≤ P := by rw [← hP]; positivity
  have hQ0 : 0 ≤ Q := by rw [← hQ]; positivity
  obtain ⟨L', hL'⟩ : ∃ z, (1 + L + cc') * (2 + L) = z := ⟨_, rfl⟩
  have hL'0 : 0 ≤ L' := by rw [← hL']; positivity
  obtain ⟨D, hD⟩ : ∃ z, (1 + L) * P + Q = z := ⟨_, rfl⟩
  have hD0 : 0 ≤ D := by rw [← hD]; positivity
  refine ⟨|T| * D * Real.exp (L' * |T|), by positivity, ?_⟩
  intro alpha c h K A x v y ν halpha hc0 hc h0 h1 hT hA hx0 hx hy
  have halpha : |alpha| ≤ a' := (halpha.trans (le_abs_self a)).trans_eq ha'
  have hc : c ≤ cc' := (hc.trans (le_abs_self cc)).trans_eq hcc'
  -- the exact solution stays within the bounds
  have hmem : ∀ k : Nat, ((k + 1) * h : ℝ) ∈ Set.Icc (k * h) ((k + 1) * h) := fun k => ⟨by rw [add_mul]; linarith, le_rfl⟩
  have hKT : ∀ k : Nat, k ≤ K → k * h ≤ |T| := by
    intro k hk
    have : (k : ℝ) * h ≤ K * h := mul_le_mul_of_nonneg_right (by exact_mod_cast hk) h0
    exact this.trans (hT.trans (le_abs_self T))
  have hE : ∀ k, k ≤ K → ∀ i, i < n → (1 + y (k * h) i ^ 2 + ν (k * h) i ^ 2) * Real.exp (-(n * κ * (k * h))) ≤ 1 + X ^ 2 + X ^ 2 := by
    intro k
    induction k with
    | zero =>
      intro _ i hi
      obtain ⟨s1, s2⟩ := hy.start i hi
      obtain ⟨b1, b2⟩ := hx0 i hi
      have e : ((0 : Nat) : ℝ) * h = 0 := by simp
      rw [e, s1, s2, mul_zero, neg_zero, Real.exp_zero, mul_one]
      have q1 := sq_le_sq' (abs_le.mp b1).1 (abs_le.mp b1).2
      have q2 := sq_le_sq' (abs_le.mp b2).1 (abs_le.mp b2).2
      linarith
    | succ k ih =>
      intro hk i hi
      have := energy (hA k (by omega) i hi) hc0 (fun t ht => hy.deriv k (by omega) t ht i hi) _ (hmem k)
      push_cast
      exact this.trans (ih (by omega) i hi)
  have hbound : ∀ k, k < K → ∀ t ∈ Set.Icc (k * h) ((k + 1) * h), ∀ i, i < n → |y t i| ≤ M ∧ |ν t i| ≤ M := by
    intro k hk t ht i hi
    have h2 := (energy (hA k hk i hi) hc0 (fun t ht => hy.deriv k hk t ht i hi) t ht).trans (hE k hk.le i hi)
    have htT : t ≤ |T| := ht.2.trans (by have := hKT (k + 1) hk; push_cast at this; exact this)
    have h3 : 1 + y t i ^ 2 + ν t i ^ 2 ≤ M := by
      have e : (1 + y t i ^ 2 + ν t i ^ 2) = (1 + y t i ^ 2 + ν t i ^ 2) * Real.exp (-(n * κ * t)) * Real.exp (n * κ * t) := by
        rw [mul_assoc, ← Real.exp_add, neg_add_cancel, Real.exp_zero, mul_one]
      rw [e, ← hM]
      refine mul_le_mul h2 (Real.exp_le_exp.mpr ?_) (Real.exp_pos _).le (by positivity)
      exact mul_le_mul_of_nonneg_left htT (by positivity)
    have s1 := sq_nonneg (y t i)
    have s2 := sq_nonneg (ν t i)
    exact ⟨(abs_le_one_sq _).trans (by linarith), (abs_le_one_sq _).trans (by linarith)⟩
  rcases Nat.eq_zero_or_pos n with rfl | hn
  · exact fun k _ i hi => absurd hi (by omega)
  set e : Nat → ℝ := fun k => (range n).sup' ⟨0, mem_range.mpr hn⟩ (fun i => max |x k i - y (k * h) i| |v k i - ν (k * h) i|) with he
  have hle : ∀ k i, i < n → |x k i - y (k * h) i| ≤ e k ∧ |v k i - ν (k * h) i| ≤ e k := fun k i hi => by
    have := le_sup' (fun i => max |x k i - y (k * h) i| |v k i - ν (k * h) i|) (mem_range.mpr hi)
    exact ⟨(le_max_left _ _).trans this, (le_max_right _ _).trans this⟩
  have hloc : ∀ k, k < K → ∀ i, i < n →
      |y (k * h + h) i - (y (k * h) i + ν (k * h) i * h + (field n alpha (A k) (y (k * h)) i - c * ν (k * h) i) * h ^ 2 / 2)| ≤ P * h ^ 3 ∧
      |ν (k * h + h) i - (ν (k * h) i + h / 2 * ((field n alpha (A k) (y (k * h)) i - c * ν (k * h) i) +
        (field n alpha (A k) (y (k * h + h)) i - c * ν (k * h + h) i)))| ≤ Q * h ^ 3 := by
    intro k hk
    have eI : (k + 1) * h = k * h + h := by ring
    have d1 := hy.deriv k hk
    have d2 := hbound k hk
    rw [eI] at d1 d2
    exact verlet_local halpha (hA k hk) hκ hc0 hc h0 h1 d1 d2 hL hAcc hP hQ
  have hg := gronwall (e := e) (L := L') (h := h) (c := D * h ^ 3) (K := K) hL'0 h0 (by positivity) (by
    apply sup'_le
    intro i hi
    obtain ⟨s1, s2⟩ := hy.start i (mem_range.mp hi)
    have e0 : ((0 : Nat) : ℝ) * h = 0 := by simp
    rw [e0, s1, s2]
    simp) (by
    intro k hk
    apply sup'_le
    intro i hi
    have hi := mem_range.mp hi
    have eI : (k + 1) * h = k * h + h := by ring
    have := verlet_stable hL0 (fun y z d hd i hi => by
        have := field_lipschitz (alpha := alpha) halpha hi (hA k hk i hi) hd
        rwa [hL] at this) hc0 hc h0 h1 (hx k hk) (fun i hi => (hloc k hk i hi).1) (fun i hi => (hloc k hk i hi).2) (hle k) i hi
    rw [hL'] at this
    push_cast
    rw [eI]
    have e3 : (1 + L' * h) * e k + (1 + L) * (P * h ^ 3) + Q * h ^ 3 = (1 + L' * h) * e k + D * h ^ 3 := by rw [← hD]; ring
    rw [← e3]
    exact max_le this.1 this.2)
  intro k hk i hi
  have hfin : e k ≤ |T| * D * Real.exp (L' * |T|) * h ^ 2 := by
    refine (hg k hk).trans ?_
    have hk0 : 0 ≤ k * h := by positivity
    have hkT := hKT k hk
    calc (k : ℝ) * (D * h ^ 3) * Real.exp (L' * (k * h)) = (k * h) * (D * h ^ 2) * Real.exp (L' * (k * h)) := by ring
      _ ≤ |T| * (D * h ^ 2) * Real.exp (L' * |T|) := by gcongr
      _ = |T| * D * Real.exp (L' * |T|) * h ^ 2 := by ring
  exact ⟨(hle k i hi).1.trans hfin, (hle k i hi).2.trans hfin⟩

/-- Position and velocity as one vector: the first `n` components are the positions, the next `n` the velocities. -/
def phase (n : Nat) (f : (Nat → ℝ) → Nat → ℝ) (c : ℝ) (w : Nat → ℝ) (i : Nat) : ℝ := if i < n then w (n + i) else f w (i - n) - c * w i

theorem Tame.phase {f : (Nat → ℝ) → Nat → ℝ} {L b c : ℝ} (hf : Tame n f L 1 b) (hc : 0 ≤ c) : Tame (2 * n) (phase n f c) (1 + L + c) (1 + c) b where
  L0 := by have := hf.L0; positivity
  g1 := by linarith
  c0 := hf.c0
  lipschitz y z d hd i hi := by
    have hL := hf.L0
    have hd0 : 0 ≤ d := (abs_nonneg _).trans (hd i hi)
    unfold Uniform.phase
    split
    · refine (hd (n + i) (by omega)).trans ?_
      exact le_mul_of_one_le_left hd0 (by linarith)
    · have h1 := hf.lipschitz y z d (fun j hj => hd j (by omega)) (i - n) (by omega)
      have h2 : |c * (y i - z i)| ≤ c * d := by
        rw [abs_mul, abs_of_nonneg hc]; exact mul_le_mul_of_nonneg_left (hd i hi) hc
      rw [show f y (i - n) - c * y i - (f z (i - n) - c * z i) = (f y (i - n) - f z (i - n)) - c * (y i - z i) by ring]
      refine (abs_sub _ _).trans ((add_le_add h1 h2).trans ?_)
      linarith [show (1 + L + c) * d = d + L * d + c * d by ring]
  growth y N hy i hi := by
    have hb := hf.c0
    have hN : 0 ≤ N := (abs_nonneg _).trans (hy i hi)
    have hcN := mul_nonneg hc hN
    have e : (1 + c) * N = N + c * N := by ring
    unfold Uniform.phase
    split
    · exact (hy (n + i) (by omega)).trans (by linarith)
    · have h1 := hf.growth y N (fun j hj => hy j (by omega)) (i - n) (by omega)
      have h2 : |c * y i| ≤ c * N := by
        rw [abs_mul, abs_of_nonneg hc]; exact mul_le_mul_of_nonneg_left (hy i hi) hc
      exact (abs_sub _ _).trans ((add_le_add h1 h2).trans (by linarith))

theorem pieces_exist2 {h c : ℝ} (h0 : 0 ≤ h) (hc : 0 ≤ c) (h1 : (1 + c) * h ≤ 1 / 2) (F : Nat → (Nat → ℝ) → Nat → ℝ) (x v : Nat → ℝ)
    (K : Nat) (hF : ∀ k, k < K → ∃ L b, Tame n (F k) L 1 b) : ∃ y ν, FollowsPieces2 F c n h K x v y ν := by
  obtain ⟨w, hw⟩ := pieces_exist (n := 2 * n) h0 h1 (fun k => phase n (F k) c) (fun i => if i < n then x i else v (i - n)) K
    (fun k hk => by obtain ⟨L, b, hf⟩ := hF k hk; exact ⟨_, _, hf.phase hc⟩)
  refine ⟨w, fun t i => w t (n + i), fun i hi => ?_, fun k hk t ht i hi => ?_⟩
  · have e1 := hw.start i (by omega)
    have e2 := hw.start (n + i) (by omega)
    rw [if_pos hi] at e1
    rw [if_neg (by omega), Nat.add_sub_cancel_left] at e2
    exact ⟨e1, e2⟩
  · have d1 := hw.deriv k hk t ht i (by omega)
    have d2 := hw.deriv k hk t ht (n + i) (by omega)
    unfold phase at d1 d2
    rw [if_pos hi] at d1
    rw [if_neg (by omega), Nat.add_sub_cancel_left] at d2
    exact ⟨d1, d2⟩

theorem pieces_unique2 {h c : ℝ} (h0 : 0 ≤ h) (hc : 0 ≤ c) {F : Nat → (Nat → ℝ) → Nat → ℝ} {x v : Nat → ℝ} {K : Nat}
    (hF : ∀ k, k < K → ∃ L b, Tame n (F k) L 1 b) {y ν z ζ : ℝ → Nat → ℝ} (hy : FollowsPieces2 F c n h K x v y ν) (hz : FollowsPieces2 F c n h K x v z ζ) :
    ∀ k, k < K → ∀ t ∈ Set.Icc (k * h) ((k + 1) * h), ∀ i, i < n → y t i = z t i ∧ ν t i = ζ t i := by
  have conv : ∀ y ν, FollowsPieces2 F c n h K x v y ν →
      FollowsPieces (fun k => phase n (F k) c) (2 * n) h K (fun i => if i < n then x i else v (i - n)) (fun t i => if i < n then y t i else ν t (i - n)) := by
    intro y ν hy
    refine ⟨fun i hi => ?_, fun k hk t ht i hi => ?_⟩
    · split
      · exact (hy.start i ‹_›).1
      · exact (hy.start (i - n) (by omega)).2
    · obtain ⟨L, b, hf⟩ := hF k hk
      unfold phase
      by_cases hi' : i < n
      · simp only [if_pos hi', Nat.add_sub_cancel_left, if_neg (show ¬ n + i < n by omega)]
        exact (hy.deriv k hk t ht i hi').1
      · simp only [if_neg hi']
        rw [hf.congr (z := y t) (fun j hj => if_pos hj) (show i - n < n by omega)]
        exact (hy.deriv k hk t ht (i - n) (by omega)).2
  intro k hk t ht i hi
  have := pieces_unique h0 (fun k hk => by obtain ⟨L, b, hf⟩ := hF k hk; exact ⟨_, _, hf.phase hc⟩) (conv y ν hy) (conv z ζ hz) k hk t ht
  have e1 := this i (by omega)
  have e2 := this (n + i) (by omega)
  simp only [if_pos hi] at e1
  simp only [if_neg (show ¬ n + i < n by omega), Nat.add_sub_cancel_left] at e2
  exact ⟨e1, e2⟩

end Uniform

/-! ## the model -/

/-- What runs of the inertial model keep. -/
theorem inertial_history {o : MathOps ℝ} {pick : List (Nat × ℝ) → Nat} {r : Rng G ℝ} {K : Nat} {st : Nat → Inertial ℝ G}
    (hst : ∀ k, k < K → Inertial.iteration o pick r (st k) = .ok (st (k + 1))) : ∀ k, k ≤ K →
    Iterates (Inertial.iteration o pick r) (st 0) k (st k) ∧ (st k).base.p = (st 0).base.p ∧ (st k).friction = (st 0).friction ∧
    attr (·.reluctance) (st k).base.network.agents = attr (·.reluctance) (st 0).base.network.agents ∧
    (st k).base.network.agents.length = (st 0).base.network.agents.length := by
  have hit : ∀ k, k ≤ K → Iterates (Inertial.iteration o pick r) (st 0) k (st k) := by
    intro k
    induction k with
    | zero => exact fun _ => .zero
    | succ k ih => exact fun hk => .succ (ih (by omega)) (hst k (by omega))
  intro k hk
  obtain ⟨-, e1, e2, e3, -⟩ := C42_inertial (hit k hk)
  refine ⟨hit k hk, e2, e3, ?_, ?_⟩
  · unfold attr; rw [e1]
  · have := congrArg List.length e1
    simpa using this

/-- C114, general form: all numbers `a`, `cc`, `κ ≥ 0`, `X` and `T` have a constant `C` such that the following holds for *every* sequence of iterations of the inertial
model with `n` agents, without bots, whose networks are well-formed, with `|α| ≤ a`, `0 ≤ friction ≤ cc`, `|K/m_i| Σ_j |w_ij| ≤ κ` in each network, initial opinions and
velocities bounded by `X`, `0 ≤ dt ≤ 1` and `K dt ≤ T`: let `y` with velocity `ν` be the exact solution that starts at the initial opinions and velocities and follows,
between `k dt` and `(k+1) dt`, the opinion dynamics `x'' = D(x) - friction x'` of the network of iteration `k+1`. Then the opinions and velocities after `k` iterations
differ from `y( k dt )` and `ν( k dt )` by at most `C dt²`. -/
theorem C114_convergence_general (n : Nat) (a cc κ X T : ℝ) : ∃ C : ℝ, 0 ≤ C ∧
    ∀ (o : MathOps ℝ) (pick : List (Nat × ℝ) → Nat) (r : Rng G ℝ) (K : Nat) (st : Nat → Inertial ℝ G) (y ν : ℝ → Nat → ℝ), o.tanh = Real.tanh →
    (∀ k, k < K → Inertial.iteration o pick r (st k) = .ok (st (k + 1)) ∧ WF (st (k + 1)).base.network) →
    (st 0).base.network.agents.length = n → (st 0).base.p.nBots = 0 → 0 ≤ (st 0).base.p.dt → (st 0).base.p.dt ≤ 1 → K * (st 0).base.p.dt ≤ T →
    |(st 0).base.p.alpha| ≤ a → 0 ≤ (st 0).friction → (st 0).friction ≤ cc →
    (∀ k, k < K → ∀ i, i < n → |(st 0).base.p.K / attr (·.reluctance) (st 0).base.network.agents i| * absWeight (st (k + 1)).base.network i ≤ κ) →
    (∀ i, i < n → |attr (·.opinion) (st 0).base.network.agents i| ≤ X ∧ |attr (·.velocity) (st 0).base.network.agents i| ≤ X) →
    FollowsPieces2 (fun k => rate Real.tanh (st 0).base.p.K (st 0).base.p.alpha (st (k + 1)).base.network (attr (·.reluctance) (st 0).base.network.agents))
      (st 0).friction n (st 0).base.p.dt K (attr (·.opinion) (st 0).base.network.agents) (attr (·.velocity) (st 0).base.network.agents) y ν →
    ∀ k, k ≤ K → ∀ i, i < n → |attr (·.opinion) (st k).base.network.agents i - y (k * (st 0).base.p.dt) i| ≤ C * (st 0).base.p.dt ^ 2 ∧
      |attr (·.velocity) (st k).base.network.agents i - ν (k * (st 0).base.p.dt) i| ≤ C * (st 0).base.p.dt ^ 2 := by
  obtain ⟨C, hC, H⟩ := converges2 n a cc |κ| X T (abs_nonneg κ)
  refine ⟨C, hC, fun o pick r K st y ν ho hst hn hb h0 h1 hT ha hc0 hc hκ hX hy => ?_⟩
  have hh := inertial_history (fun k hk => (hst k hk).1)
  have hF : ∀ k, k < K → rate Real.tanh (st 0).base.p.K (st 0).base.p.alpha (st (k + 1)).base.network (attr (·.reluctance) (st 0).base.network.agents) =
      field n (st 0).base.p.alpha (fun i j => (st 0).base.p.K / attr (·.reluctance) (st 0).base.network.agents i * entry (st (k + 1)).base.network i j) := by
    intro k hk
    apply rate_eq_field
    intro i e he
    have := NetLemmas.row_lt (hst k hk).2 he
    rwa [(hh (k + 1) (by omega)).2.2.2.2, hn] at this
  refine H (st 0).base.p.alpha (st 0).friction (st 0).base.p.dt K
    (fun k i j => (st 0).base.p.K / attr (·.reluctance) (st 0).base.network.agents i * entry (st (k + 1)).base.network i j)
    (fun k => attr (·.opinion) (st k).base.network.agents) (fun k => attr (·.velocity) (st k).base.network.agents) y ν ha hc0 hc h0 h1 hT ?_ hX ?_ ?_
  · intro k hk i hi j _
    rw [abs_mul]
    exact (mul_le_mul_of_nonneg_left (entry_le _ i j) (abs_nonneg _)).trans ((hκ k hk i hi).trans (le_abs_self κ))
  · intro k hk
    obtain ⟨-, e1, e2, e3, e4⟩ := hh k hk.le
    obtain ⟨x', hV, hx'⟩ := C50_verlet (hst k hk).1 (hst k hk).2 (by
      rw [e1, e2]
      have : 0 ≤ (st 0).friction * (st 0).base.p.dt := mul_nonneg hc0 h0
      linarith)
    rw [e1, e2, e3, e4, ho, hF k hk, hn] at hV
    rw [e1, e4, hb, hn] at hx'
    refine ⟨fun i hi => ?_, fun i hi => ?_⟩
    · rw [hx' i (Nat.zero_le i) hi]
      exact hV.position i hi
    · rw [field_congr hi (fun j hj => hx' j (Nat.zero_le j) hj)]
      exact hV.velocity i hi
  · refine ⟨hy.start, fun k hk t ht i hi => ?_⟩
    have := hy.deriv k hk t ht i hi
    rwa [hF k hk] at this

/-- C114: as the general form, for every run of the probabilistic model: there `|K| n / m_i ≤ κ` suffices, whatever the generator does. -/
theorem C114_convergence (n : Nat) (a cc κ X T : ℝ) : ∃ C : ℝ, 0 ≤ C ∧
    ∀ (o : MathOps ℝ) (pick : List (Nat × ℝ) → Nat) (r : Rng G ℝ) (K : Nat) (st : Nat → Inertial ℝ G) (y ν : ℝ → Nat → ℝ), o.tanh = Real.tanh →
    Reservoir.Pick.Valid pick → (st 0).base.Ready → (∀ k, k < K → Inertial.iteration o pick r (st k) = .ok (st (k + 1))) →
    (st 0).base.network.agents.length = n → (st 0).base.p.nBots = 0 → 0 ≤ (st 0).base.p.dt → (st 0).base.p.dt ≤ 1 → K * (st 0).base.p.dt ≤ T →
    |(st 0).base.p.alpha| ≤ a → 0 ≤ (st 0).friction → (st 0).friction ≤ cc →
    (∀ i, i < n → 0 < attr (·.reluctance) (st 0).base.network.agents i ∧
      |(st 0).base.p.K| * n / attr (·.reluctance) (st 0).base.network.agents i ≤ κ) →
    (∀ i, i < n → |attr (·.opinion) (st 0).base.network.agents i| ≤ X ∧ |attr (·.velocity) (st 0).base.network.agents i| ≤ X) →
    FollowsPieces2 (fun k => rate Real.tanh (st 0).base.p.K (st 0).base.p.alpha (st (k + 1)).base.network (attr (·.reluctance) (st 0).base.network.agents))
      (st 0).friction n (st 0).base.p.dt K (attr (·.opinion) (st 0).base.network.agents) (attr (·.velocity) (st 0).base.network.agents) y ν →
    ∀ k, k ≤ K → ∀ i, i < n → |attr (·.opinion) (st k).base.network.agents i - y (k * (st 0).base.p.dt) i| ≤ C * (st 0).base.p.dt ^ 2 ∧
      |attr (·.velocity) (st k).base.network.agents i - ν (k * (st 0).base.p.dt) i| ≤ C * (st 0).base.p.dt ^ 2 := by
  obtain ⟨C, hC, H⟩ := C114_convergence_general (G := G) n a cc κ X T
  refine ⟨C, hC, fun o pick r K st y ν ho hpick hready hst hn hb h0 h1 hT ha hc0 hc hκ hX hy => ?_⟩
  have hR : ∀ k, k ≤ K → (st k).base.Ready := by
    intro k
    induction k with
    | zero => exact fun _ => hready
    | succ k ih => exact fun hk => Inertial.ready_next hpick (ih (by omega)) (hst k (by omega))
  have hh := inertial_history hst
  refine H o pick r K st y ν ho (fun k hk => ⟨hst k hk, (hR (k + 1) hk).wf⟩) hn hb h0 h1 hT ha hc0 hc (fun k hk i hi => ?_) hX hy
  obtain ⟨hm, hκi⟩ := hκ i hi
  obtain ⟨gs, buf, contacts, u', hu', hF, -⟩ := C43_inertial (o := o) hpick r (hR k hk.le)
  obtain rfl := Except.ok.inj ((hst k hk).symm.trans hu')
  have hlen : (st (k + 1)).base.network.agents.length = n := (hh (k + 1) hk).2.2.2.2.trans hn
  have hW : absWeight (st (k + 1)).base.network i ≤ (n : ℝ) :=
    absWeight_le (hF.ones i) (hF.nodup i) (fun e he => by rw [← hlen]; exact NetLemmas.row_lt hF.wf he)
  rw [abs_div, abs_of_pos hm]
  refine le_trans ?_ hκi
  rw [mul_div_right_comm]
  exact mul_le_mul_of_nonneg_left hW (div_nonneg (abs_nonneg _) hm.le)

/-- C114: every ready state has runs of any length, and the exact solution exists if `(1 + friction) dt ≤ 1/2`, and is unique. -/
theorem C114_exists {o : MathOps ℝ} {pick : List (Nat × ℝ) → Nat} (hp : Reservoir.Pick.Valid pick) (r : Rng G ℝ) {s : Inertial ℝ G} (hs : s.base.Ready)
    (h0 : 0 ≤ s.base.p.dt) (hc : 0 ≤ s.friction) (h1 : (1 + s.friction) * s.base.p.dt ≤ 1 / 2) (K : Nat) :
    ∃ (st : Nat → Inertial ℝ G) (y ν : ℝ → Nat → ℝ), st 0 = s ∧ (∀ k, k < K → Inertial.iteration o pick r (st k) = .ok (st (k + 1))) ∧
      FollowsPieces2 (fun k => rate Real.tanh s.base.p.K s.base.p.alpha (st (k + 1)).base.network (attr (·.reluctance) s.base.network.agents)) s.friction
        s.base.network.agents.length s.base.p.dt K (attr (·.opinion) s.base.network.agents) (attr (·.velocity) s.base.network.agents) y ν ∧
      ∀ z ζ, FollowsPieces2 (fun k => rate Real.tanh s.base.p.K s.base.p.alpha (st (k + 1)).base.network (attr (·.reluctance) s.base.network.agents)) s.friction
        s.base.network.agents.length s.base.p.dt K (attr (·.opinion) s.base.network.agents) (attr (·.velocity) s.base.network.agents) z ζ →
        ∀ k, k < K → ∀ t ∈ Set.Icc (k * s.base.p.dt) ((k + 1) * s.base.p.dt), ∀ i, i < s.base.network.agents.length → z t i = y t i ∧ ζ t i = ν t i := by
  have next : ∀ t : Inertial ℝ G, ∃ u, t.base.Ready → Inertial.iteration o pick r t = .ok u ∧ u.base.Ready := by
    intro t
    by_cases ht : t.base.Ready
    · obtain ⟨_, _, _, u, hu, -⟩ := C43_inertial (o := o) hp r ht
      exact ⟨u, fun _ => ⟨hu, Inertial.ready_next hp ht hu⟩⟩
    · exact ⟨t, fun h => absurd h ht⟩
  choose f hf using next
  have hR : ∀ k, (f^[k] s).base.Ready := by
    intro k
    induction k with
    | zero => exact hs
    | succ k ih => rw [Function.iterate_succ_apply']; exact (hf _ ih).2
  have hst : ∀ k, Inertial.iteration o pick r (f^[k] s) = .ok (f^[k + 1] s) := by
    intro k; rw [Function.iterate_succ_apply']; exact (hf _ (hR k)).1
  have hlen : ∀ k, (f^[k] s).base.network.agents.length = s.base.network.agents.length := fun k =>
    (inertial_history (st := fun k => f^[k] s) (fun k _ => hst k) k le_rfl).2.2.2.2
  have tame : ∀ k, k < K → ∃ L c, Tame s.base.network.agents.length
      (rate Real.tanh s.base.p.K s.base.p.alpha (f^[k + 1] s).base.network (attr (·.reluctance) s.base.network.agents)) L 1 c := by
    intro k _
    rw [rate_eq_field (n := s.base.network.agents.length) _ _ (fun i e he => by
      have := NetLemmas.row_lt (hR (k + 1)).wf he
      rwa [hlen] at this)]
    refine ⟨_, _, Tame.field (κ := ∑ i ∈ range s.base.network.agents.length, |s.base.p.K / attr (·.reluctance) s.base.network.agents i| * absWeight (f^[k + 1] s).base.network i)
      s.base.p.alpha ?_⟩
    intro i hi j _
    rw [abs_mul]
    refine (mul_le_mul_of_nonneg_left (entry_le _ i j) (abs_nonneg _)).trans ?_
    exact single_le_sum (f := fun i => |s.base.p.K / attr (·.reluctance) s.base.network.agents i| * absWeight (f^[k + 1] s).base.network i)
      (fun i _ => mul_nonneg (abs_nonneg _) ((abs_nonneg _).trans (entry_le _ i 0))) (mem_range.mpr hi)
  obtain ⟨y, ν, hy⟩ := pieces_exist2 (n := s.base.network.agents.length) h0 hc h1 _ (attr (·.opinion) s.base.network.agents)
    (attr (·.velocity) s.base.network.agents) K tame
  exact ⟨fun k => f^[k] s, y, ν, rfl, fun k _ => hst k, hy, fun z ζ hz => pieces_unique2 h0 hc tame hz hy⟩

/-- Two agents that move towards each other, with friction 2: for every time step up to `1/6` there is a run up to time 1, it meets all hypotheses of
`C114_convergence`, and its error is bounded by `C dt²`. -/
example : ∃ C : ℝ, ∀ (h : ℝ) (K : Nat), 0 ≤ h → h ≤ 1 / 6 → K * h ≤ 1 → ∃ (st : Nat → Inertial ℝ Unit) (y ν : ℝ → Nat → ℝ),
    st 0 = { movingPair with base := movingPair.base.withDt h } ∧ (∀ k, k < K → Inertial.iteration realOps (fun _ => 0) halfRng (st k) = .ok (st (k + 1))) ∧
    FollowsPieces2 (fun k => rate Real.tanh 1 1 (st (k + 1)).base.network (attr (·.reluctance) movingPair.base.network.agents)) 2 2 h K
        (attr (·.opinion) movingPair.base.network.agents) (attr (·.velocity) movingPair.base.network.agents) y ν ∧
    ∀ k, k ≤ K → ∀ i, i < 2 → |attr (·.opinion) (st k).base.network.agents i - y (k * h) i| ≤ C * h ^ 2 ∧
      |attr (·.velocity) (st k).base.network.agents i - ν (k * h) i| ≤ C * h ^ 2 := by
  obtain ⟨C, -, H⟩ := C114_convergence (G := Unit) 2 1 2 2 1 1
  refine ⟨C, fun h K h0 h1 hT => ?_⟩
  set s : Inertial ℝ Unit := { movingPair with base := movingPair.base.withDt h } with hsd
  have hs := movingPair_ready
  have hsh : s.base.Ready := ⟨hs.wf, hs.incoming, ⟨hs.fit.size, hs.fit.bots, hs.fit.botM, hs.fit.botHomophily, hs.fit.nonneg,
    hs.fit.le⟩, hs.botOpinion, hs.probabilistic⟩
  obtain ⟨st, y, ν, e, hst, hy, -⟩ := C114_exists (o := realOps) firstPick_valid halfRng hsh (K := K) h0 (by show (0 : ℝ) ≤ 2; norm_num)
    (by show (1 + (2 : ℝ)) * h ≤ 1 / 2; linarith)
  refine ⟨st, y, ν, e, hst, hy, ?_⟩
  have hm : ∀ i, i < 2 → attr (·.reluctance) s.base.network.agents i = 1 ∧
      |attr (·.opinion) s.base.network.agents i| ≤ 1 ∧ |attr (·.velocity) s.base.network.agents i| ≤ 1 := by
    intro i hi
    rcases i with _ | _ | i
    · exact ⟨rfl, by show |(1 : ℝ)| ≤ 1; norm_num, by show |(-1 : ℝ)| ≤ 1; norm_num⟩
    · exact ⟨rfl, by show |(0 : ℝ)| ≤ 1; norm_num, by show |(1 : ℝ)| ≤ 1; norm_num⟩
    · omega
  have := H realOps (fun _ => 0) halfRng K st y ν rfl firstPick_valid (by rw [e]; exact hsh) hst (by rw [e]; rfl) (by rw [e]; rfl) (by rw [e]; exact h0)
    (by rw [e]; show h ≤ 1; linarith) (by rw [e]; exact hT) (by rw [e]; show |(1 : ℝ)| ≤ 1; norm_num) (by rw [e]; show (0 : ℝ) ≤ 2; norm_num)
    (by rw [e]; show (2 : ℝ) ≤ 2; norm_num)
    (by
      intro i hi
      rw [e, (hm i hi).1]
      refine ⟨one_pos, ?_⟩
      show |(1 : ℝ)| * (2 : ℕ) / 1 ≤ 2
      norm_num) (by intro i hi; rw [e]; exact (hm i hi).2) (by rw [e]; exact hy)
  rw [e] at this
  exact this

end Seldon
