import Verif.Props.ActivityDynamics
import Verif.Lemmas.Expansion
import Mathlib.Analysis.SpecificLimits.Basic
import Mathlib.Analysis.SpecialFunctions.Trigonometric.DerivHyp
/-!
# Properties C75 and C76: neutral consensus under weak interaction, one-sided opinions stay one-sided
-/
set_option linter.unusedSectionVars false
namespace Seldon
open Spec Filter Topology
variable {A F G : Type}

section
variable [Field F] [LinearOrder F] [IsStrictOrderedRing F]

/-- The factor by which one Runge-Kutta step of size `h` shrinks an opinion that nobody influences: `1 - h + h²/2 - h³/6 + h⁴/24`. -/
def decay (h : F) : F := 1 - h + h ^ 2 / 2 - h ^ 3 / 6 + h ^ 4 / 24

theorem decay_nonneg {h : F} (h0 : 0 ≤ h) (h1 : h ≤ 1) : 0 ≤ decay h := by
  have a2 : 0 ≤ h * h := mul_nonneg h0 h0
  have a3 : 0 ≤ h * h * h := mul_nonneg a2 h0
  unfold decay
  nlinarith [mul_nonneg a3 h0]

theorem decay_lt_one {h : F} (h0 : 0 < h) (h1 : h ≤ 1) : decay h < 1 := by
  have a2 : 0 < h * h := mul_pos h0 h0
  have a3 : 0 < h * h * h := mul_pos a2 h0
  unfold decay
  nlinarith [mul_nonneg a3.le h0.le]

theorem decay_le_one {h : F} (h0 : 0 ≤ h) (h1 : h ≤ 1) : decay h ≤ 1 := by
  rcases h0.eq_or_lt with rfl | h0
  · unfold decay; norm_num
  · exact (decay_lt_one h0 h1).le

/-- Stages two, three and four of the Runge-Kutta method for `dx/dt = -x + c` stay within `M`, if all `|c| ≤ L M` for a small `L`. -/
theorem rk4_stages {h x c1 c2 c3 L M : F} (h0 : 0 ≤ h) (h1 : h ≤ 1) (hL0 : 0 ≤ L) (hL : L * (2 + h) ≤ 2 - h) (hM : 0 ≤ M) (hx : |x| ≤ M)
    (hc1 : |c1| ≤ L * M) :
    |x + h / 2 * (-x + c1)| ≤ M ∧ (|c2| ≤ L * M → |x + h / 2 * (-(x + h / 2 * (-x + c1)) + c2)| ≤ M) ∧
      (|c2| ≤ L * M → |c3| ≤ L * M → |x + h * (-(x + h / 2 * (-(x + h / 2 * (-x + c1)) + c2)) + c3)| ≤ M) := by
  have hL1 : L ≤ 1 := by nlinarith
  have hh2 : 0 ≤ h * h := mul_nonneg h0 h0
  have hh3 : 0 ≤ h * h * h := mul_nonneg hh2 h0
  have l2 : h * h ≤ h := by nlinarith
  have l3 : h * h * h ≤ h * h := by nlinarith
  have b : ∀ a y B : F, 0 ≤ a → |y| ≤ B → -(a * B) ≤ a * y ∧ a * y ≤ a * B := by
    intro a y B ha hy
    obtain ⟨y1, y2⟩ := abs_le.mp hy
    constructor <;> nlinarith
  have hLM : L * M ≤ M := by nlinarith
  refine ⟨?_, ?_, ?_⟩
  · obtain ⟨x1, x2⟩ := b (1 - h / 2) x M (by linarith) hx
    obtain ⟨y1, y2⟩ := b (h / 2) c1 M (by linarith) (hc1.trans hLM)
    rw [abs_le]; constructor <;> linarith
  · intro hc2
    obtain ⟨x1, x2⟩ := b (1 - h / 2 + h * h / 4) x M (by linarith) hx
    obtain ⟨y1, y2⟩ := b (h * h / 4) c1 _ (by linarith) hc1
    obtain ⟨z1, z2⟩ := b (h / 2) c2 _ (by linarith) hc2
    have e : x + h / 2 * (-(x + h / 2 * (-x + c1)) + c2) = (1 - h / 2 + h * h / 4) * x - h * h / 4 * c1 + h / 2 * c2 := by ring
    have k : (1 - h / 2 + h * h / 4) * M + h * h / 4 * (L * M) + h / 2 * (L * M) ≤ M := by
      have : 0 ≤ h / 4 * M * (2 - h - L * (2 + h)) := mul_nonneg (mul_nonneg (by linarith) hM) (by linarith)
      nlinarith
    rw [e, abs_le]; constructor <;> linarith
  · intro hc2 hc3
    obtain ⟨x1, x2⟩ := b (1 - h + h * h / 2 - h * h * h / 4) x M (by linarith) hx
    obtain ⟨y1, y2⟩ := b (h * h * h / 4) c1 _ (by linarith) hc1
    obtain ⟨z1, z2⟩ := b (h * h / 2) c2 _ (by linarith) hc2
    obtain ⟨u1, u2⟩ := b h c3 _ h0 hc3
    have e : x + h * (-(x + h / 2 * (-(x + h / 2 * (-x + c1)) + c2)) + c3) =
        (1 - h + h * h / 2 - h * h * h / 4) * x + h * h * h / 4 * c1 - h * h / 2 * c2 + h * c3 := by ring
    have k : (1 - h + h * h / 2 - h * h * h / 4) * M + h * h * h / 4 * (L * M) + h * h / 2 * (L * M) + h * (L * M) ≤ M := by
      have q1 : 0 ≤ h / 2 * M * (2 - h - L * (2 + h)) := mul_nonneg (mul_nonneg (by linarith) hM) (by linarith)
      have q2 : 0 ≤ h * h * h / 4 * M * (1 - L) := mul_nonneg (mul_nonneg (by linarith) hM) (by linarith)
      nlinarith
    rw [e, abs_le]; constructor <;> linarith

/-- One Runge-Kutta step for `dx/dt = -x + c` with `|c| ≤ L M`, `|x| ≤ M`. -/
theorem rk4_contract {h x c1 c2 c3 c4 B M : F} (h0 : 0 ≤ h) (h1 : h ≤ 1) (hc1 : |c1| ≤ B) (hc2 : |c2| ≤ B) (hc3 : |c3| ≤ B)
    (hc4 : |c4| ≤ B) (hx : |x| ≤ M) :
    |x + h / 6 * ((-x + c1) + 2 * (-(x + h / 2 * (-x + c1)) + c2) + 2 * (-(x + h / 2 * (-(x + h / 2 * (-x + c1)) + c2)) + c3) +
      (-(x + h * (-(x + h / 2 * (-(x + h / 2 * (-x + c1)) + c2)) + c3)) + c4))| ≤ decay h * M + (1 - decay h) * B := by
  have hh2 : 0 ≤ h * h := mul_nonneg h0 h0
  have hh3 : 0 ≤ h * h * h := mul_nonneg hh2 h0
  have l2 : h * h ≤ h := by nlinarith
  have l3 : h * h * h ≤ h * h := by nlinarith
  have e : x + h / 6 * ((-x + c1) + 2 * (-(x + h / 2 * (-x + c1)) + c2) + 2 * (-(x + h / 2 * (-(x + h / 2 * (-x + c1)) + c2)) + c3) +
      (-(x + h * (-(x + h / 2 * (-(x + h / 2 * (-x + c1)) + c2)) + c3)) + c4)) =
      decay h * x + (h / 6 * (1 - h + h * h / 2 - h * h * h / 4)) * c1 +
        (h / 6 * (2 - h + h * h / 2)) * c2 + (h / 6 * (2 - h)) * c3 + h / 6 * c4 := by unfold decay; ring
  rw [e]
  have p0 := decay_nonneg h0 h1
  have p1 : 0 ≤ h / 6 * (1 - h + h * h / 2 - h * h * h / 4) := by
    apply mul_nonneg (by linarith); nlinarith
  have p2 : 0 ≤ h / 6 * (2 - h + h * h / 2) := by
    apply mul_nonneg (by linarith); nlinarith
  have p3 : 0 ≤ h / 6 * (2 - h) := by
    apply mul_nonneg (by linarith); linarith
  have p4 : 0 ≤ h / 6 := by linarith
  have b : ∀ a y B : F, 0 ≤ a → |y| ≤ B → -(a * B) ≤ a * y ∧ a * y ≤ a * B := by
    intro a y B ha hy
    obtain ⟨y1, y2⟩ := abs_le.mp hy
    constructor <;> nlinarith
  obtain ⟨x1, x2⟩ := b _ x _ p0 hx
  obtain ⟨y1, y2⟩ := b _ c1 _ p1 hc1
  obtain ⟨z1, z2⟩ := b _ c2 _ p2 hc2
  obtain ⟨u1, u2⟩ := b _ c3 _ p3 hc3
  obtain ⟨v1, v2⟩ := b _ c4 _ p4 hc4
  have s : (h / 6 * (1 - h + h * h / 2 - h * h * h / 4)) * B +
        (h / 6 * (2 - h + h * h / 2)) * B + (h / 6 * (2 - h)) * B + h / 6 * B = (1 - decay h) * B := by unfold decay; ring
  rw [abs_le]
  constructor <;> linarith

theorem weightedSum_scaled {N : Network A F} {y : Nat → F} {B : F} {i : Nat} (hy : ∀ e ∈ row N i, |y e.1| ≤ B) :
    |weightedSum N y i| ≤ absWeight N i * B := by
  unfold weightedSum absWeight
  generalize row N i = l at hy
  induction l with
  | nil => simp
  | cons e l ih =>
    simp only [List.map_cons, List.sum_cons, add_mul]
    refine (abs_add_le _ _).trans (add_le_add ?_ (ih fun e' he' => hy e' (List.mem_cons_of_mem _ he')))
    rw [abs_mul]
    exact mul_le_mul_of_nonneg_left (hy e List.mem_cons_self) (abs_nonneg _)

/-- One Runge-Kutta step of the opinion dynamics under weak interaction: everything within `M` ends up within `(decay h + (1 - decay h) L) M`. -/
theorem rk4_rate_contract {tanh : F → F} (ht : ∀ y, |tanh y| ≤ |y|) (K alpha : F) (N : Network A F) {m : Nat → F} {h L M : F} {n : Nat}
    (h0 : 0 ≤ h) (h1 : h ≤ 1) (hL0 : 0 ≤ L) (hL : L * (2 + h) ≤ 2 - h)
    (hr : ∀ i, i < n → ∀ e ∈ row N i, e.1 < n) (hm : ∀ i, i < n → 0 < m i)
    (hw : ∀ i, i < n → |K * alpha| * absWeight N i ≤ L * m i) (x : Nat → F) (hx : ∀ i, i < n → |x i| ≤ M) {i : Nat} (hi : i < n) :
    |rk4 (rate tanh K alpha N m) h x i| ≤ (decay h + (1 - decay h) * L) * M := by
  have hM : 0 ≤ M := (abs_nonneg _).trans (hx i hi)
  have hb : ∀ y : Nat → F, (∀ j, j < n → |y j| ≤ M) → ∀ i, i < n →
      |K / m i * weightedSum N (fun j => tanh (alpha * y j)) i| ≤ L * M := by
    intro y hy i hi
    have h1 : |weightedSum N (fun j => tanh (alpha * y j)) i| ≤ absWeight N i * (|alpha| * M) := by
      apply weightedSum_scaled
      intro e he
      refine (ht _).trans ?_
      rw [abs_mul]
      exact mul_le_mul_of_nonneg_left (hy _ (hr i hi e he)) (abs_nonneg _)
    have hmi := hm i hi
    rw [abs_mul, abs_div, abs_of_pos hmi, div_mul_eq_mul_div, div_le_iff₀ hmi]
    calc |K| * |weightedSum N (fun j => tanh (alpha * y j)) i| ≤ |K| * (absWeight N i * (|alpha| * M)) :=
          mul_le_mul_of_nonneg_left h1 (abs_nonneg _)
      _ = (|K * alpha| * absWeight N i) * M := by rw [abs_mul]; ring
      _ ≤ (L * m i) * M := mul_le_mul_of_nonneg_right (hw i hi) hM
      _ = L * M * m i := by ring
  have hb1 := hb x hx
  have s2 : ∀ j, j < n → |x j + h / 2 * rate tanh K alpha N m x j| ≤ M := fun j hj =>
    (rk4_stages (c2 := 0) (c3 := 0) h0 h1 hL0 hL hM (hx j hj) (hb1 j hj)).1
  have hb2 := hb _ s2
  have s3 : ∀ j, j < n → |x j + h / 2 * rate tanh K alpha N m (fun j => x j + h / 2 * rate tanh K alpha N m x j) j| ≤ M := fun j hj =>
    (rk4_stages (c3 := 0) h0 h1 hL0 hL hM (hx j hj) (hb1 j hj)).2.1 (hb2 j hj)
  have hb3 := hb _ s3
  have s4 : ∀ j, j < n → |x j + h * rate tanh K alpha N m (fun j => x j + h / 2 * rate tanh K alpha N m
      (fun j => x j + h / 2 * rate tanh K alpha N m x j) j) j| ≤ M := fun j hj =>
    (rk4_stages h0 h1 hL0 hL hM (hx j hj) (hb1 j hj)).2.2 (hb2 j hj) (hb3 j hj)
  have hb4 := hb _ s4
  have := rk4_contract h0 h1 (hb1 i hi) (hb2 i hi) (hb3 i hi) (hb4 i hi) (hx i hi)
  calc _ ≤ decay h * M + (1 - decay h) * (L * M) := this
    _ = (decay h + (1 - decay h) * L) * M := by ring

section
variable [ActiveAgent A F] [LawfulActiveAgent A F]

/-- C75, one step: no bots, `0 ≤ dt ≤ 1`, `|tanh y| ≤ |y|`, positive reluctances and weak interaction, `|K α| Σ_j |w_ij| ≤ L m_i` for every agent `i` of the
updated network with `L ≤ (2 - dt) / (2 + dt)`: opinions within `M` before the iteration are within `(decay dt + (1 - decay dt) L) M` after it. -/
theorem C75_step {o : MathOps F} (htanh : ∀ y, |o.tanh y| ≤ |y|) {pick : List (Nat × F) → Nat} {r : Rng G F} {s t : Activity A F G}
    (h : Activity.iteration o pick r s = .ok t) (hwf : WF t.network) (hb : s.p.nBots = 0) (h0 : 0 ≤ s.p.dt) (h1 : s.p.dt ≤ 1) {L M : F}
    (hL0 : 0 ≤ L) (hL : L * (2 + s.p.dt) ≤ 2 - s.p.dt)
    (hm : ∀ i, i < s.network.agents.length → 0 < attr ActiveAgent.reluctance s.network.agents i)
    (hw : ∀ i, i < s.network.agents.length → |s.p.K * s.p.alpha| * absWeight t.network i ≤ L * attr ActiveAgent.reluctance s.network.agents i)
    (hx : ∀ i, i < s.network.agents.length → |attr ActiveAgent.opinion s.network.agents i| ≤ M) {i : Nat} (hi : i < s.network.agents.length) :
    |attr ActiveAgent.opinion t.network.agents i| ≤ (decay s.p.dt + (1 - decay s.p.dt) * L) * M := by
  rw [C47_rk4 h hwf (by omega) hi]
  refine rk4_rate_contract htanh _ _ _ h0 h1 hL0 hL ?_ hm hw _ hx hi
  intro i hi e he
  have := NetLemmas.row_lt hwf he
  rw [(Activity.iteration_frame h).1.traits.length] at this
  exact this

/-- C75, all histories of the probabilistic model: no bots, `0 ≤ dt ≤ 1`, and `|K α| n ≤ L m_i` for all `i` with `L ≤ (2 - dt) / (2 + dt)`. After `k`
iterations all opinions are within `(decay dt + (1 - decay dt) L)^k` times a bound of the initial ones, whoever contacted whom. -/
theorem C75_decay {o : MathOps F} (htanh : ∀ y, |o.tanh y| ≤ |y|) {pick : List (Nat × F) → Nat} (hp : Reservoir.Pick.Valid pick) {r : Rng G F}
    {s t : Activity A F G} (h : s.Ready) (hb : s.p.nBots = 0) (h0 : 0 ≤ s.p.dt) (h1 : s.p.dt ≤ 1) {L M : F}
    (hL0 : 0 ≤ L) (hL : L * (2 + s.p.dt) ≤ 2 - s.p.dt)
    (hm : ∀ i, i < s.network.agents.length → 0 < attr ActiveAgent.reluctance s.network.agents i)
    (hw : ∀ i, i < s.network.agents.length →
      |s.p.K * s.p.alpha| * s.network.agents.length ≤ L * attr ActiveAgent.reluctance s.network.agents i)
    (hx : ∀ i, i < s.network.agents.length → |attr ActiveAgent.opinion s.network.agents i| ≤ M)
    {k : Nat} (ht : Iterates (Activity.iteration o pick r) s k t) :
    ∀ i, i < s.network.agents.length → |attr ActiveAgent.opinion t.network.agents i| ≤ (decay s.p.dt + (1 - decay s.p.dt) * L) ^ k * M := by
  have key : t.Ready ∧ ∀ i, i < s.network.agents.length →
      |attr ActiveAgent.opinion t.network.agents i| ≤ (decay s.p.dt + (1 - decay s.p.dt) * L) ^ k * M := by
    induction ht with
    | zero => exact ⟨h, fun i hi => by rw [pow_zero, one_mul]; exact hx i hi⟩
    | @succ k t u ht hu ih =>
      obtain ⟨hr, ih⟩ := ih
      obtain ⟨-, e2, e3, -⟩ := C42_activity ht
      have hlen : t.network.agents.length = s.network.agents.length := by
        have := congrArg List.length e2; simpa using this
      have erel : ∀ i, attr ActiveAgent.reluctance t.network.agents i = attr ActiveAgent.reluctance s.network.agents i := by
        intro i; unfold attr; rw [e2]
      refine ⟨hr.next hp hu, fun i hi => ?_⟩
      obtain ⟨gs, buf, contacts, u', hu', hF, -⟩ := C43_activity (o := o) hp r hr
      obtain rfl := Except.ok.inj (hu.symm.trans hu')
      have hn : u.network.agents.length = s.network.agents.length := by
        rw [(Activity.iteration_frame hu).1.traits.length, hlen]
      have hW : ∀ i, absWeight u.network i ≤ (s.network.agents.length : F) := fun i =>
        absWeight_le (hF.ones i) (hF.nodup i) (fun e he => by rw [← hn]; exact NetLemmas.row_lt hF.wf he)
      have := C75_step htanh hu hF.wf (by rw [e3]; exact hb) (by rw [e3]; exact h0) (by rw [e3]; exact h1) hL0 (by rw [e3]; exact hL)
        (by rw [hlen]; intro i hi; rw [erel]; exact hm i hi)
        (by
          rw [hlen]; intro i hi; rw [erel, e3]
          exact (mul_le_mul_of_nonneg_left (hW i) (abs_nonneg _)).trans (hw i hi))
        (by rw [hlen]; exact ih) (i := i) (by rw [hlen]; exact hi)
      rw [e3] at this
      rw [pow_succ]
      calc _ ≤ _ := this
        _ = _ := by ring
  exact key.2

end
end

theorem abs_tanh_le (y : ℝ) : |Real.tanh y| ≤ |y| := by
  have key : ∀ z : ℝ, 0 ≤ z → Real.tanh z ≤ z := by
    intro z hz
    rw [Real.tanh_eq_sinh_div_cosh, div_le_iff₀ (Real.cosh_pos z)]
    have h1 : MonotoneOn (fun z : ℝ => z * Real.cosh z - Real.sinh z) (Set.Ici 0) := by
      apply monotoneOn_of_deriv_nonneg (convex_Ici 0)
      · fun_prop
      · fun_prop
      · intro w hw
        rw [interior_Ici] at hw
        have hd : HasDerivAt (fun z : ℝ => z * Real.cosh z - Real.sinh z) (1 * Real.cosh w + w * Real.sinh w - Real.cosh w) w :=
          ((hasDerivAt_id' w).mul (Real.hasDerivAt_cosh w)).sub (Real.hasDerivAt_sinh w)
        rw [hd.deriv]
        have := mul_nonneg (le_of_lt hw) (Real.sinh_nonneg_iff.mpr (le_of_lt hw))
        linarith
    have := h1 (Set.mem_Ici.mpr le_rfl) (Set.mem_Ici.mpr hz) hz
    simp only [Real.sinh_zero, zero_mul, sub_zero] at this
    linarith
  have hpos : ∀ z : ℝ, 0 ≤ z → 0 ≤ Real.tanh z := by
    intro z hz
    rw [Real.tanh_eq_sinh_div_cosh]
    exact div_nonneg (Real.sinh_nonneg_iff.mpr hz) (Real.cosh_pos z).le
  rcases le_total 0 y with hy | hy
  · rw [abs_of_nonneg hy, abs_of_nonneg (hpos y hy)]
    exact key y hy
  · have h2 : 0 ≤ -y := by linarith
    rw [← abs_neg, ← Real.tanh_neg, abs_of_nonneg (hpos _ h2), ← abs_neg y, abs_of_nonneg h2]
    exact key _ h2

/-- C75 over the real numbers, with the real hyperbolic tangent: in a run without bots and with `0 < dt ≤ 1` and `|K α| n ≤ L m_i` for all `i`, where
`L ≤ (2 - dt) / (2 + dt)`, every opinion tends to 0, for all draws of the generator. -/
theorem C75_neutral [ActiveAgent A ℝ] [LawfulActiveAgent A ℝ] {o : MathOps ℝ} (ho : o.tanh = Real.tanh) {pick : List (Nat × ℝ) → Nat}
    (hp : Reservoir.Pick.Valid pick) {r : Rng G ℝ} {s : Activity A ℝ G} (h : s.Ready) (hb : s.p.nBots = 0) (h0 : 0 < s.p.dt) (h1 : s.p.dt ≤ 1)
    {L : ℝ} (hL0 : 0 ≤ L) (hL : L * (2 + s.p.dt) ≤ 2 - s.p.dt)
    (hm : ∀ i, i < s.network.agents.length → 0 < attr ActiveAgent.reluctance s.network.agents i)
    (hw : ∀ i, i < s.network.agents.length →
      |s.p.K * s.p.alpha| * s.network.agents.length ≤ L * attr ActiveAgent.reluctance s.network.agents i)
    (run : Nat → Activity A ℝ G) (hrun : ∀ k, Iterates (Activity.iteration o pick r) s k (run k)) {i : Nat} (hi : i < s.network.agents.length) :
    Tendsto (fun k => attr ActiveAgent.opinion (run k).network.agents i) atTop (𝓝 0) := by
  obtain ⟨M, hM⟩ : ∃ M, ∀ i, i < s.network.agents.length → |attr ActiveAgent.opinion s.network.agents i| ≤ M := by
    refine ⟨∑ i ∈ Finset.range s.network.agents.length, |attr ActiveAgent.opinion s.network.agents i|, fun i hi => ?_⟩
    exact Finset.single_le_sum (f := fun i => |attr ActiveAgent.opinion s.network.agents i|) (fun _ _ => abs_nonneg _) (Finset.mem_range.mpr hi)
  have hd0 := decay_nonneg h0.le h1
  have hd1 := decay_lt_one h0 h1
  have hL1 : L < 1 := by nlinarith
  have hρ0 : 0 ≤ decay s.p.dt + (1 - decay s.p.dt) * L := by nlinarith
  have hρ1 : decay s.p.dt + (1 - decay s.p.dt) * L < 1 := by nlinarith
  have hlim : Tendsto (fun k => (decay s.p.dt + (1 - decay s.p.dt) * L) ^ k * M) atTop (𝓝 0) := by
    have := (tendsto_pow_atTop_nhds_zero_of_lt_one hρ0 hρ1).mul_const M
    rwa [zero_mul] at this
  rw [tendsto_zero_iff_abs_tendsto_zero]
  refine squeeze_zero (fun k => abs_nonneg _) (fun k => ?_) hlim
  exact C75_decay (by rw [ho]; exact abs_tanh_le) hp h hb h0.le h1 hL0 hL hm hw hM (hrun k) i hi

/-- The run the hypotheses of `C75_neutral` speak about exists: the iterations of a ready model never fail. -/
theorem C75_run_exists [Field F] [LinearOrder F] [ActiveAgent A F] [LawfulActiveAgent A F] (o : MathOps F) {pick : List (Nat × F) → Nat}
    (hp : Reservoir.Pick.Valid pick) (r : Rng G F) {s : Activity A F G} (h : s.Ready) :
    ∃ run : Nat → Activity A F G, ∀ k, Iterates (Activity.iteration o pick r) s k (run k) := by
  have hex : ∀ k, ∃ t, Iterates (Activity.iteration o pick r) s k t ∧ t.Ready := by
    intro k
    induction k with
    | zero => exact ⟨s, .zero, h⟩
    | succ k ih =>
      obtain ⟨t, ht, hr⟩ := ih
      obtain ⟨_, _, _, u, hu, -⟩ := C43_activity (o := o) hp r hr
      exact ⟨u, .succ ht hu, hr.next hp hu⟩
  choose run hrun using hex
  exact ⟨run, fun k => (hrun k).1⟩

/-! ## C76 -/

/-- What is needed of `tanh`: it is monotone and, for non-negative arguments, does not grow faster than linearly (it is concave there and vanishes at 0). -/
structure Squashing [Field F] [LinearOrder F] (tanh : F → F) : Prop where
  mono : ∀ y z, y ≤ z → tanh y ≤ tanh z
  odd : ∀ y, tanh (-y) = -tanh y
  star : ∀ c y, 0 ≤ c → c ≤ 1 → 0 ≤ y → c * tanh y ≤ tanh (c * y)

section
variable [Field F] [LinearOrder F] [IsStrictOrderedRing F]

theorem Squashing.zero {tanh : F → F} (h : Squashing tanh) : tanh 0 = 0 := by
  have := h.odd 0
  rw [neg_zero] at this
  linarith

theorem Squashing.nonneg {tanh : F → F} (h : Squashing tanh) {y : F} (hy : 0 ≤ y) : 0 ≤ tanh y := by
  rw [← h.zero]; exact h.mono _ _ hy

/-- The influence on agent `i`. -/
def pull (tanh : F → F) (K alpha : F) (N : Network A F) (m : Nat → F) (y : Nat → F) (i : Nat) : F :=
  K / m i * weightedSum N (fun j => tanh (alpha * y j)) i

theorem pull_scaled {tanh : F → F} (ht : Squashing tanh) {K alpha : F} (hK : 0 ≤ K) (ha : 0 ≤ alpha) {N : Network A F} {m : Nat → F} {n : Nat}
    (hr : ∀ i, i < n → ∀ e ∈ row N i, e.1 < n ∧ 0 ≤ e.2) (hm : ∀ i, i < n → 0 < m i) {c : F} (hc0 : 0 ≤ c) (hc1 : c ≤ 1) {y z : Nat → F}
    (hy : ∀ j, j < n → 0 ≤ y j) (hz : ∀ j, j < n → c * y j ≤ z j) {i : Nat} (hi : i < n) :
    c * pull tanh K alpha N m y i ≤ pull tanh K alpha N m z i := by
  unfold pull
  have : c * weightedSum N (fun j => tanh (alpha * y j)) i ≤ weightedSum N (fun j => tanh (alpha * z j)) i := by
    unfold weightedSum
    have hr := hr i hi
    generalize row N i = l at hr
    induction l with
    | nil => simp
    | cons e l ih =>
      simp only [List.map_cons, List.sum_cons, mul_add]
      refine add_le_add ?_ (ih fun e' he' => hr e' (List.mem_cons_of_mem _ he'))
      obtain ⟨h1, h2⟩ := hr e List.mem_cons_self
      calc c * (e.2 * tanh (alpha * y e.1)) = e.2 * (c * tanh (alpha * y e.1)) := by ring
        _ ≤ e.2 * tanh (alpha * z e.1) := by
          apply mul_le_mul_of_nonneg_left _ h2
          refine (ht.star c _ hc0 hc1 (mul_nonneg ha (hy _ h1))).trans (ht.mono _ _ ?_)
          calc c * (alpha * y e.1) = alpha * (c * y e.1) := by ring
            _ ≤ alpha * z e.1 := mul_le_mul_of_nonneg_left (hz _ h1) ha
  calc c * (K / m i * weightedSum N (fun j => tanh (alpha * y j)) i) = K / m i * (c * weightedSum N (fun j => tanh (alpha * y j)) i) := by ring
    _ ≤ _ := mul_le_mul_of_nonneg_left this (div_nonneg hK (hm i hi).le)

theorem pull_nonneg {tanh : F → F} (ht : Squashing tanh) {K alpha : F} (hK : 0 ≤ K) (ha : 0 ≤ alpha) {N : Network A F} {m : Nat → F} {n : Nat}
    (hr : ∀ i, i < n → ∀ e ∈ row N i, e.1 < n ∧ 0 ≤ e.2) (hm : ∀ i, i < n → 0 < m i) {y : Nat → F}
    (hy : ∀ j, j < n → 0 ≤ y j) {i : Nat} (hi : i < n) : 0 ≤ pull tanh K alpha N m y i := by
  have := pull_scaled ht hK ha hr hm le_rfl zero_le_one hy (z := y) (fun j hj => by rw [zero_mul]; exact hy j hj) hi
  rwa [zero_mul] at this

/-- One Runge-Kutta step of the opinion dynamics between agents on the same side: no opinion falls faster than without any influence. -/
theorem rk4_rate_onesided {tanh : F → F} (ht : Squashing tanh) {K alpha : F} (hK : 0 ≤ K) (ha : 0 ≤ alpha) {N : Network A F} {m : Nat → F} {n : Nat}
    {h : F} (h0 : 0 ≤ h) (h1 : h ≤ 2 / 3)
    (hr : ∀ i, i < n → ∀ e ∈ row N i, e.1 < n ∧ 0 ≤ e.2) (hm : ∀ i, i < n → 0 < m i) {x : Nat → F} (hx : ∀ i, i < n → 0 ≤ x i) {i : Nat} (hi : i < n) :
    decay h * x i ≤ rk4 (rate tanh K alpha N m) h x i := by
  have hh2 : 0 ≤ h * h := mul_nonneg h0 h0
  have hh3 : 0 ≤ h * h * h := mul_nonneg hh2 h0
  have l2 : h * h ≤ h := by nlinarith
  have l3 : h * h * h ≤ h * h := by nlinarith
  set y2 : Nat → F := fun j => x j + h / 2 * rate tanh K alpha N m x j with hy2
  set y3 : Nat → F := fun j => x j + h / 2 * rate tanh K alpha N m y2 j with hy3
  set y4 : Nat → F := fun j => x j + h * rate tanh K alpha N m y3 j with hy4
  set C := pull tanh K alpha N m with hC
  have e2 : ∀ j, y2 j = (1 - h / 2) * x j + h / 2 * C x j := by
    intro j; rw [hy2, hC]; unfold rate pull; ring
  have e3 : ∀ j, y3 j = (1 - h / 2 + h * h / 4) * x j - h * h / 4 * C x j + h / 2 * C y2 j := by
    intro j
    have : y3 j = x j + h / 2 * (-y2 j + C y2 j) := rfl
    rw [this, e2]; ring
  have e4 : ∀ j, y4 j = (1 - h + h * h / 2 - h * h * h / 4) * x j + h * h * h / 4 * C x j - h * h / 2 * C y2 j + h * C y3 j := by
    intro j
    have : y4 j = x j + h * (-y3 j + C y3 j) := rfl
    rw [this, e3]; ring
  have c1 : ∀ j, j < n → 0 ≤ C x j := fun j hj => pull_nonneg ht hK ha hr hm hx hj
  have n2 : ∀ j, j < n → 0 ≤ y2 j := by
    intro j hj
    rw [e2]
    exact add_nonneg (mul_nonneg (by linarith) (hx j hj)) (mul_nonneg (by linarith) (c1 j hj))
  have c2 : ∀ j, j < n → 0 ≤ C y2 j := fun j hj => pull_nonneg ht hK ha hr hm n2 hj
  have c21 : ∀ j, j < n → (1 - h / 2) * C x j ≤ C y2 j := fun j hj =>
    pull_scaled ht hK ha hr hm (by linarith) (by linarith) hx (fun k hk => by
      rw [e2]
      have := mul_nonneg (show 0 ≤ h / 2 by linarith) (c1 k hk)
      linarith) hj
  have g21 : ∀ j, j < n → h * C x j ≤ C y2 j := fun j hj => by
    have := mul_nonneg (show 0 ≤ 1 - h / 2 - h by linarith) (c1 j hj)
    have := c21 j hj
    linarith
  have n3 : ∀ j, j < n → 0 ≤ y3 j := by
    intro j hj
    rw [e3]
    have a := mul_nonneg (show 0 ≤ 1 - h / 2 + h * h / 4 by linarith) (hx j hj)
    have b := mul_le_mul_of_nonneg_left (g21 j hj) (show 0 ≤ h / 4 by linarith)
    have c := mul_nonneg (show 0 ≤ h / 4 by linarith) (c2 j hj)
    linarith
  have c32 : ∀ j, j < n → h / 2 * C y2 j ≤ C y3 j := fun j hj =>
    pull_scaled ht hK ha hr hm (by linarith) (by linarith) n2 (fun k hk => by
      rw [e2, e3]
      have a := mul_nonneg (show 0 ≤ 1 - h + h * h / 2 by linarith) (hx k hk)
      have b := mul_le_mul_of_nonneg_left (g21 k hk) (show 0 ≤ h / 2 by linarith)
      linarith) hj
  have c3 : ∀ j, j < n → 0 ≤ C y3 j := fun j hj => pull_nonneg ht hK ha hr hm n3 hj
  have n4 : ∀ j, j < n → 0 ≤ y4 j := by
    intro j hj
    rw [e4]
    have a := mul_nonneg (show 0 ≤ 1 - h + h * h / 2 - h * h * h / 4 by linarith) (hx j hj)
    have b := mul_nonneg (show 0 ≤ h * h * h / 4 by linarith) (c1 j hj)
    have c := mul_le_mul_of_nonneg_left (c32 j hj) h0
    linarith
  have c4 : 0 ≤ C y4 i := pull_nonneg ht hK ha hr hm n4 hi
  have e : rk4 (rate tanh K alpha N m) h x i = decay h * x i + (h / 6 * (1 - h + h * h / 2 - h * h * h / 4)) * C x i +
        (h / 6 * (2 - h + h * h / 2)) * C y2 i + (h / 6 * (2 - h)) * C y3 i + h / 6 * C y4 i := by
    have : rk4 (rate tanh K alpha N m) h x i = x i + h / 6 * ((-x i + C x i) + 2 * (-y2 i + C y2 i) + 2 * (-y3 i + C y3 i) + (-y4 i + C y4 i)) := rfl
    rw [this, e4, e3, e2]; unfold decay; ring
  rw [e]
  have p1 := mul_nonneg (show 0 ≤ h / 6 * (1 - h + h * h / 2 - h * h * h / 4) from mul_nonneg (by linarith) (by linarith)) (c1 i hi)
  have p2 := mul_nonneg (show 0 ≤ h / 6 * (2 - h + h * h / 2) from mul_nonneg (by linarith) (by linarith)) (c2 i hi)
  have p3 := mul_nonneg (show 0 ≤ h / 6 * (2 - h) from mul_nonneg (by linarith) (by linarith)) (c3 i hi)
  have p4 := mul_nonneg (show 0 ≤ h / 6 by linarith) c4
  linarith

theorem rate_neg {tanh : F → F} (ht : ∀ y, tanh (-y) = -tanh y) (K alpha : F) (N : Network A F) (m x : Nat → F) (i : Nat) :
    rate tanh K alpha N m (fun j => -x j) i = -rate tanh K alpha N m x i := by
  have : weightedSum N (fun j => tanh (alpha * -x j)) i = -weightedSum N (fun j => tanh (alpha * x j)) i := by
    unfold weightedSum
    generalize row N i = l
    induction l with
    | nil => simp
    | cons e l ih =>
      simp only [List.map_cons, List.sum_cons]
      rw [ih, mul_neg alpha, ht]; ring
  unfold rate
  rw [this]; ring

theorem rk4_neg {f : (Nat → F) → Nat → F} (hf : ∀ x i, f (fun j => -x j) i = -f x i) (h : F) (x : Nat → F) (i : Nat) :
    rk4 f h (fun j => -x j) i = -rk4 f h x i := by
  have step : ∀ (c : F) (k : Nat → F), (fun j => -x j + c * -k j) = fun j => -(x j + c * k j) := by
    intro c k; funext j; ring
  have e1 : f (fun j => -x j) = fun j => -f x j := funext (hf x)
  unfold rk4
  simp only [e1, step]
  simp only [hf]
  simp only [step]
  simp only [hf]
  simp only [step]
  simp only [hf]
  ring

section
variable [ActiveAgent A F] [LawfulActiveAgent A F]

/-- C76, one step: `K, α ≥ 0`, `0 ≤ dt ≤ 2/3`, positive reluctances and non-negative weights. If all opinions are on one side of 0 (`σ x_i ≥ 0` with `σ = 1` or
`σ = -1`), then after the iteration the opinion of every agent that is not a bot is still on that side, and at least `decay dt` times as far from 0. -/
theorem C76_step {o : MathOps F} (htanh : Squashing o.tanh) {pick : List (Nat × F) → Nat} {r : Rng G F} {s t : Activity A F G}
    (h : Activity.iteration o pick r s = .ok t) (hwf : WF t.network) (hK : 0 ≤ s.p.K) (ha : 0 ≤ s.p.alpha) (h0 : 0 ≤ s.p.dt) (h1 : s.p.dt ≤ 2 / 3)
    (hm : ∀ i, i < s.network.agents.length → 0 < attr ActiveAgent.reluctance s.network.agents i)
    (hw : ∀ i, i < s.network.agents.length → ∀ e ∈ row t.network i, 0 ≤ e.2) {σ : F} (hσ : σ = 1 ∨ σ = -1)
    (hx : ∀ i, i < s.network.agents.length → 0 ≤ σ * attr ActiveAgent.opinion s.network.agents i) {i : Nat} (hi : i < s.network.agents.length)
    (hi' : s.p.nBots ≤ i) :
    decay s.p.dt * (σ * attr ActiveAgent.opinion s.network.agents i) ≤ σ * attr ActiveAgent.opinion t.network.agents i := by
  rw [C47_rk4 h hwf hi' hi]
  have hr : ∀ i, i < s.network.agents.length → ∀ e ∈ row t.network i, e.1 < s.network.agents.length ∧ 0 ≤ e.2 := by
    intro i hi e he
    have := NetLemmas.row_lt hwf he
    rw [(Activity.iteration_frame h).1.traits.length] at this
    exact ⟨this, hw i hi e he⟩
  have := rk4_rate_onesided htanh hK ha h0 h1 hr hm hx hi
  rcases hσ with rfl | rfl
  · simpa using this
  · have e : (fun j => -1 * attr ActiveAgent.opinion s.network.agents j) = fun j => -attr ActiveAgent.opinion s.network.agents j := by
      funext j; ring
    rw [e, rk4_neg (rate_neg htanh.odd _ _ _ _)] at this
    linarith

/-- C76, all histories of the probabilistic model: if all opinions, and the bot opinions, are on one side of 0 and `K, α ≥ 0`, `0 ≤ dt ≤ 2/3`, then all opinions
stay on that side, and after `k` iterations those of the agents that are not bots are at least `decay dt ^ k` times as far from 0 as initially. -/
theorem C76_onesided {o : MathOps F} (htanh : Squashing o.tanh) {pick : List (Nat × F) → Nat} (hp : Reservoir.Pick.Valid pick) {r : Rng G F}
    {s t : Activity A F G} (h : s.Ready) (hK : 0 ≤ s.p.K) (ha : 0 ≤ s.p.alpha) (h0 : 0 ≤ s.p.dt) (h1 : s.p.dt ≤ 2 / 3)
    (hm : ∀ i, i < s.network.agents.length → 0 < attr ActiveAgent.reluctance s.network.agents i) {σ : F} (hσ : σ = 1 ∨ σ = -1)
    (hx : ∀ i, i < s.network.agents.length → 0 ≤ σ * attr ActiveAgent.opinion s.network.agents i)
    (hb : ∀ i, i < s.p.nBots → 0 ≤ σ * s.p.botOpinion.getD i 0)
    {k : Nat} (ht : Iterates (Activity.iteration o pick r) s k t) :
    ∀ i, i < s.network.agents.length → 0 ≤ σ * attr ActiveAgent.opinion t.network.agents i ∧
      (s.p.nBots ≤ i → decay s.p.dt ^ k * (σ * attr ActiveAgent.opinion s.network.agents i) ≤ σ * attr ActiveAgent.opinion t.network.agents i) := by
  have hd := decay_nonneg h0 (h1.trans (by norm_num))
  have key : t.Ready ∧ ∀ i, i < s.network.agents.length → 0 ≤ σ * attr ActiveAgent.opinion t.network.agents i ∧
      (s.p.nBots ≤ i → decay s.p.dt ^ k * (σ * attr ActiveAgent.opinion s.network.agents i) ≤ σ * attr ActiveAgent.opinion t.network.agents i) := by
    induction ht with
    | zero => exact ⟨h, fun i hi => ⟨hx i hi, fun _ => by rw [pow_zero, one_mul]⟩⟩
    | @succ k t u ht hu ih =>
      obtain ⟨hr, ih⟩ := ih
      obtain ⟨-, e2, e3, -⟩ := C42_activity ht
      have hlen : t.network.agents.length = s.network.agents.length := by
        have := congrArg List.length e2; simpa using this
      have erel : ∀ i, attr ActiveAgent.reluctance t.network.agents i = attr ActiveAgent.reluctance s.network.agents i := by
        intro i; unfold attr; rw [e2]
      refine ⟨hr.next hp hu, fun i hi => ?_⟩
      by_cases hbot : i < s.p.nBots
      · obtain ⟨a, ha, ha'⟩ := (Activity.iteration_frame hu).1.bots i (by rw [e3]; exact hbot)
        rw [Activity.attr_some _ ha]
        rw [e3] at ha'
        have := hb i hbot
        rw [List.getD_eq_getElem?_getD, ha'] at this
        exact ⟨this, fun h => absurd h (by omega)⟩
      · obtain ⟨gs, buf, contacts, u', hu', hF, -⟩ := C43_activity (o := o) hp r hr
        obtain rfl := Except.ok.inj (hu.symm.trans hu')
        have := C76_step htanh hu hF.wf (by rw [e3]; exact hK) (by rw [e3]; exact ha) (by rw [e3]; exact h0) (by rw [e3]; exact h1)
          (by rw [hlen]; intro i hi; rw [erel]; exact hm i hi)
          (by intro i _ e he; rw [hF.ones i e he]; exact zero_le_one) hσ
          (by rw [hlen]; exact fun i hi => (ih i hi).1) (i := i) (by rw [hlen]; exact hi) (by rw [e3]; omega)
        rw [e3] at this
        refine ⟨(mul_nonneg hd (ih i hi).1).trans this, fun hni => ?_⟩
        refine le_trans ?_ this
        rw [pow_succ']
        calc _ = decay s.p.dt * (decay s.p.dt ^ k * (σ * attr ActiveAgent.opinion s.network.agents i)) := by ring
          _ ≤ _ := mul_le_mul_of_nonneg_left ((ih i hi).2 hni) hd
  exact key.2

end
end

/-- The real hyperbolic tangent is as assumed. -/
theorem tanh_squashing : Squashing Real.tanh where
  mono y z h := by
    have hd : Differentiable ℝ Real.tanh := fun y => (hasDerivAt_tanh y).differentiableAt
    exact monotone_of_deriv_nonneg hd (fun y => by rw [(hasDerivAt_tanh y).deriv]; positivity) h
  odd := Real.tanh_neg
  star c y h0 h1 hy := by
    have hd : ∀ y, HasDerivAt (fun y => Real.tanh (c * y) - c * Real.tanh y) (1 / Real.cosh (c * y) ^ 2 * c - c * (1 / Real.cosh y ^ 2)) y := by
      intro y
      have hin : HasDerivAt (fun y => c * y) c y := by simpa using (hasDerivAt_id' y).const_mul c
      exact ((hasDerivAt_tanh (c * y)).comp y hin).sub ((hasDerivAt_tanh y).const_mul c)
    have h2 : MonotoneOn (fun y => Real.tanh (c * y) - c * Real.tanh y) (Set.Ici 0) := by
      apply monotoneOn_of_deriv_nonneg (convex_Ici 0)
      · exact fun y _ => (hd y).continuousAt.continuousWithinAt
      · exact fun y _ => (hd y).differentiableAt.differentiableWithinAt
      · intro w hw
        rw [interior_Ici] at hw
        have hw : 0 < w := hw
        rw [(hd w).deriv]
        have hcw : Real.cosh (c * w) ≤ Real.cosh w := by
          rw [Real.cosh_le_cosh, abs_of_nonneg (mul_nonneg h0 hw.le), abs_of_pos hw]
          nlinarith
        have : 1 / Real.cosh w ^ 2 ≤ 1 / Real.cosh (c * w) ^ 2 := by
          apply one_div_le_one_div_of_le
          · have := Real.cosh_pos (c * w); positivity
          · exact pow_le_pow_left₀ (Real.cosh_pos _).le hcw 2
        nlinarith
    have := h2 (Set.mem_Ici.mpr le_rfl) (Set.mem_Ici.mpr hy) hy
    simp only [mul_zero, Real.tanh_zero, sub_zero] at this
    linarith

/-- C76 over the real numbers, with the real hyperbolic tangent. -/
theorem C76_real [ActiveAgent A ℝ] [LawfulActiveAgent A ℝ] {o : MathOps ℝ} (ho : o.tanh = Real.tanh) {pick : List (Nat × ℝ) → Nat}
    (hp : Reservoir.Pick.Valid pick) {r : Rng G ℝ}
    {s t : Activity A ℝ G} (h : s.Ready) (hK : 0 ≤ s.p.K) (ha : 0 ≤ s.p.alpha) (h0 : 0 ≤ s.p.dt) (h1 : s.p.dt ≤ 2 / 3)
    (hm : ∀ i, i < s.network.agents.length → 0 < attr ActiveAgent.reluctance s.network.agents i)
    (hx : ∀ i, i < s.network.agents.length → 0 ≤ attr ActiveAgent.opinion s.network.agents i)
    (hb : ∀ i, i < s.p.nBots → 0 ≤ s.p.botOpinion.getD i 0)
    {k : Nat} (ht : Iterates (Activity.iteration o pick r) s k t) {i : Nat} (hi : i < s.network.agents.length) :
    0 ≤ attr ActiveAgent.opinion t.network.agents i := by
  have := (C76_onesided (o := o) (by rw [ho]; exact tanh_squashing) hp h hK ha h0 h1 hm (σ := 1) (.inl rfl) (by simpa using hx) (by simpa using hb)
    ht i hi).1
  simpa using this

/-! ## concrete cases -/

/-- Weak interaction: the four agents of `Activity.sample` with `K = 1/20`. -/
def Activity.sampleWeak : Activity (ActivityAgent ℚ) ℚ Nat := { Activity.sample with p := { Activity.settings with K := 1 / 20 } }

theorem Activity.sampleWeak_ready : Activity.sampleWeak.Ready where
  wf := by constructor <;> decide +kernel
  incoming := rfl
  fit := by constructor <;> decide +kernel
  botOpinion := by decide +kernel
  probabilistic := rfl

theorem ratTanh_le (y : ℚ) : |ratOps.tanh y| ≤ |y| := by
  show |y / (1 + y * y)| ≤ |y|
  rw [abs_div, abs_of_pos (show (0 : ℚ) < 1 + y * y by nlinarith)]
  exact div_le_self (abs_nonneg _) (by nlinarith)

/-- After `k` iterations all opinions are at most `(997/1000)^k`. -/
example {t : Activity (ActivityAgent ℚ) ℚ Nat} {k : Nat} (ht : Iterates (Activity.iteration ratOps firstMin counterRng) Activity.sampleWeak k t) :
    ∀ i, i < 4 → |attr ActiveAgent.opinion t.network.agents i| ≤
      (decay (1 / 100 : ℚ) + (1 - decay (1 / 100)) * (3 / 5)) ^ k * 1 := by
  refine C75_decay (o := ratOps) ratTanh_le firstMin_valid Activity.sampleWeak_ready rfl ?_ ?_ ?_ ?_ ?_ ?_ ?_ ht
  all_goals decide +kernel

/-- `x / (1 + |x|)` in place of `tanh`. -/
def softOps : MathOps ℚ := { ratOps with tanh := fun x => x / (1 + |x|) }

theorem softOps_squashing : Squashing softOps.tanh where
  mono y z h := by
    show y / (1 + |y|) ≤ z / (1 + |z|)
    have := abs_nonneg y
    have := abs_nonneg z
    rw [div_le_div_iff₀ (by linarith) (by linarith)]
    rcases abs_cases y with ⟨h1, h2⟩ | ⟨h1, h2⟩ <;> rcases abs_cases z with ⟨h3, h4⟩ | ⟨h3, h4⟩ <;> rw [h1, h3] <;> nlinarith
  odd y := by
    show -y / (1 + |-y|) = -(y / (1 + |y|))
    rw [abs_neg, neg_div]
  star c y h0 h1 hy := by
    show c * (y / (1 + |y|)) ≤ c * y / (1 + |c * y|)
    rw [abs_of_nonneg hy, abs_of_nonneg (mul_nonneg h0 hy), ← mul_div_assoc]
    have := mul_nonneg h0 hy
    gcongr
    nlinarith

/-- Four agents with non-negative opinions, the first of them a bot. -/
def Activity.samplePositive : Activity (ActivityAgent ℚ) ℚ Nat :=
  { Activity.sampleBots with
    p := { Activity.sampleBots.p with m := 2 }
    network := ⟨[⟨2, 1, 1⟩, ⟨1, 1, 1⟩, ⟨3, 1, 1⟩, ⟨0, 1, 1⟩], [[], [], [], []], [[], [], [], []], .incoming⟩ }

theorem Activity.samplePositive_ready : Activity.samplePositive.Ready where
  wf := by constructor <;> decide +kernel
  incoming := rfl
  fit := by constructor <;> decide +kernel
  botOpinion := by decide +kernel
  probabilistic := rfl

example {t : Activity (ActivityAgent ℚ) ℚ Nat} {k : Nat} (ht : Iterates (Activity.iteration softOps firstMin counterRng) Activity.samplePositive k t) :
    ∀ i, i < 4 → 0 ≤ 1 * attr ActiveAgent.opinion t.network.agents i ∧
      (1 ≤ i → decay (1 / 100 : ℚ) ^ k * (1 * attr ActiveAgent.opinion Activity.samplePositive.network.agents i) ≤
        1 * attr ActiveAgent.opinion t.network.agents i) := by
  refine C76_onesided (o := softOps) softOps_squashing firstMin_valid Activity.samplePositive_ready ?_ ?_ ?_ ?_ ?_ (.inl rfl) ?_ ?_ ht
  all_goals decide +kernel

end Seldon
