import Verif.Props.Activity
import Mathlib.Tactic.Linarith
import Mathlib.Tactic.Ring
import Mathlib.Tactic.FieldSimp
import Mathlib.Algebra.Order.Field.Basic
import Mathlib.Analysis.Complex.Trigonometric
/-!
# Properties C46, C47, C50: the integrators of the activity-driven and the inertial model
-/
set_option linter.unusedSectionVars false
namespace Seldon
open Spec
variable {A F G : Type}

section
variable [ActiveAgent A F] [LawfulActiveAgent A F] [Field F] [LinearOrder F]

/-- What a successful iteration consists of. -/
theorem Activity.iteration_parts {o : MathOps F} {pick : List (Nat × F) → Nat} {r : Rng G F} {s t : Activity A F G}
    (h : Activity.iteration o pick r s = .ok t) : ∃ (N : Network A F) (l : List A), N.agents = s.network.agents ∧
      t.network = { N with agents := l } ∧ Activity.rkStep o s.p N = .ok l := by
  unfold Activity.iteration at h
  obtain ⟨u, h1, h⟩ := Res.bind_eq_ok.mp h
  obtain ⟨l, h2, h⟩ := Res.bind_eq_ok.mp h
  obtain ⟨e1, e2, -⟩ := Activity.updateNetwork_frame h1
  rw [e2] at h2
  exact ⟨u.network, l, e1, by rw [← Except.ok.inj h], h2⟩

theorem Inertial.iteration_parts {o : MathOps F} {pick : List (Nat × F) → Nat} {r : Rng G F} {s t : Inertial F G}
    (h : Inertial.iteration o pick r s = .ok t) : ∃ (N : Network (InertialAgent F) F) (l : List (InertialAgent F)), N.agents = s.base.network.agents ∧
      t.base.network = { N with agents := l } ∧ Inertial.verletStep o s.base.p s.friction N = .ok l := by
  unfold Inertial.iteration at h
  obtain ⟨u, h1, h⟩ := Res.bind_eq_ok.mp h
  obtain ⟨l, h2, h⟩ := Res.bind_eq_ok.mp h
  obtain ⟨e1, e2, -⟩ := Activity.updateNetwork_frame h1
  rw [e2] at h2
  exact ⟨u.network, l, e1, by rw [← Except.ok.inj h], h2⟩

theorem bots_fit {p : ActivitySettings F} {l : List A} (h : ∀ i, i < p.nBots → ∃ a, l[i]? = some a ∧ p.botOpinion[i]? = some (ActiveAgent.opinion a)) :
    p.nBots ≤ l.length ∧ p.nBots ≤ p.botOpinion.length := by
  by_cases h0 : p.nBots = 0
  · omega
  · obtain ⟨a, h1, h2⟩ := h (p.nBots - 1) (by omega)
    have := (List.getElem?_eq_some_iff.mp h1).1
    have := (List.getElem?_eq_some_iff.mp h2).1
    omega

theorem wf_agents {N : Network A F} {l : List A} (hl : l.length = N.agents.length) (h : WF ({ N with agents := l } : Network A F)) : WF N := by
  refine ⟨?_, ?_, h.lengths, ?_⟩
  · rw [← hl]; exact h.rows
  · rw [← hl]; exact h.wrows
  · rw [← hl]; exact h.range

theorem rate_agents {B : Type} (tanh : F → F) (K alpha : F) (N : Network A F) (l : List B) (m x : Nat → F) (i : Nat) :
    rate tanh K alpha ({ agents := l, neighbours := N.neighbours, weights := N.weights, direction := N.direction } : Network B F) m x i =
      rate tanh K alpha N m x i := rfl

/-! ## C47 -/

theorem rk_exact (o : MathOps F) (p : ActivitySettings F) (N : Network A F) (i : Nat) :
    Activity.rkOpinion o p N i (attr ActiveAgent.opinion N.agents i) =
      rk4 (rate o.tanh p.K p.alpha N (attr ActiveAgent.reluctance N.agents)) p.dt (attr ActiveAgent.opinion N.agents) i := by
  have e : ∀ x : Nat → F, Activity.slope o p N x = rate o.tanh p.K p.alpha N (attr ActiveAgent.reluctance N.agents) x := by
    intro x; funext i; exact Activity.slope_exact o p N x i
  have hh : (1 : F) / ((2 : Nat) : F) * p.dt = p.dt / 2 := by push_cast; ring
  unfold Activity.rkOpinion Activity.stage4 Activity.stage3 Activity.stage2 Activity.stage1 rk4
  simp only [e, hh]
  push_cast
  ring

/-- C47: after a successful iteration of the activity-driven model the opinion of every agent that is not a bot is the result of one
classical Runge-Kutta step of size `dt` for `dx_i/dt = -x_i + (K/m_i) Σ_j w_ij tanh(α x_j)` from the opinions before, with the weights of the
updated network (the one found in the model after the iteration). -/
theorem C47_rk4 {o : MathOps F} {pick : List (Nat × F) → Nat} {r : Rng G F} {s t : Activity A F G}
    (h : Activity.iteration o pick r s = .ok t) (hw : WF t.network) {i : Nat} (hi : s.p.nBots ≤ i) (hi' : i < s.network.agents.length) :
    attr ActiveAgent.opinion t.network.agents i =
      rk4 (rate o.tanh s.p.K s.p.alpha t.network (attr ActiveAgent.reluctance s.network.agents)) s.p.dt
        (attr ActiveAgent.opinion s.network.agents) i := by
  obtain ⟨N, l, hN, ht, hl⟩ := Activity.iteration_parts h
  have hB := (Activity.iteration_frame h).1
  have hlen : l.length = N.agents.length := by
    have := hB.traits.length
    rw [ht] at this
    rw [hN]; exact this
  rw [ht] at hw ⊢
  have hw' := wf_agents hlen hw
  have hb := hB.bots
  rw [ht] at hb
  obtain ⟨b1, b2⟩ := bots_fit hb
  have := Activity.rkStep_eq o s.p hw' (by rw [← hlen]; exact b1) b2
  rw [hl] at this
  obtain rfl := Except.ok.inj this
  have e := Activity.rkStep_eq o s.p hw' (by rw [← hlen]; exact b1) b2
  dsimp only
  rw [Activity.attr_mapIdx _ _ (by rw [hN]; exact hi'), if_neg (by omega), LawfulActiveAgent.opinion_setOpinion,
    ← Activity.attr_lt ActiveAgent.opinion (by rw [hN]; exact hi'), rk_exact, hN]
  rfl

/-- C47: in a ready state the network after the iteration is well-formed, so `C47_rk4` applies to every iteration of every history. -/
theorem C47_history {o : MathOps F} {pick : List (Nat × F) → Nat} (hp : Reservoir.Pick.Valid pick) {r : Rng G F} {s t u : Activity A F G}
    (h : s.Ready) {k : Nat} (ht : Iterates (Activity.iteration o pick r) s k t) (hu : Activity.iteration o pick r t = .ok u) {i : Nat}
    (hi : s.p.nBots ≤ i) (hi' : i < s.network.agents.length) :
    attr ActiveAgent.opinion u.network.agents i =
      rk4 (rate o.tanh s.p.K s.p.alpha u.network (attr ActiveAgent.reluctance s.network.agents)) s.p.dt
        (attr ActiveAgent.opinion t.network.agents) i := by
  have hr : t.Ready := by
    clear hu
    induction ht with
    | zero => exact h
    | succ _ h' ih => exact ih.next hp h'
  obtain ⟨-, e2, e3, -⟩ := C42_activity ht
  have hlen : t.network.agents.length = s.network.agents.length := by
    have := congrArg List.length e2; simpa using this
  have := C47_rk4 hu (hr.next hp hu).wf (i := i) (by rw [e3]; exact hi) (by rw [hlen]; exact hi')
  rw [e3] at this
  rw [this]
  unfold attr
  rw [e2]

end

/-! ## C46 -/

section
variable [Field F] [LinearOrder F] [IsStrictOrderedRing F]

/-- The new value of a Runge-Kutta step for `dx/dt = -x + c` with `|c| ≤ B` (whatever the four values of `c`), `0 ≤ h ≤ 1`. -/
theorem rk4_bound {h x c1 c2 c3 c4 B M : F} (h0 : 0 ≤ h) (h1 : h ≤ 1) (hc1 : |c1| ≤ B) (hc2 : |c2| ≤ B) (hc3 : |c3| ≤ B) (hc4 : |c4| ≤ B)
    (hx : |x| ≤ M) (hB : B ≤ M) :
    |x + h / 6 * ((-x + c1) + 2 * (-(x + h / 2 * (-x + c1)) + c2) + 2 * (-(x + h / 2 * (-(x + h / 2 * (-x + c1)) + c2)) + c3) +
      (-(x + h * (-(x + h / 2 * (-(x + h / 2 * (-x + c1)) + c2)) + c3)) + c4))| ≤ M := by
  have hh2 : 0 ≤ h * h := mul_nonneg h0 h0
  have hh3 : 0 ≤ h * h * h := mul_nonneg hh2 h0
  have l2 : h * h ≤ h := by nlinarith
  have l3 : h * h * h ≤ h * h := by nlinarith
  have l4 : h * h * h * h ≤ h * h * h := by nlinarith
  have e : x + h / 6 * ((-x + c1) + 2 * (-(x + h / 2 * (-x + c1)) + c2) + 2 * (-(x + h / 2 * (-(x + h / 2 * (-x + c1)) + c2)) + c3) +
      (-(x + h * (-(x + h / 2 * (-(x + h / 2 * (-x + c1)) + c2)) + c3)) + c4)) =
      (1 - h + h * h / 2 - h * h * h / 6 + h * h * h * h / 24) * x + (h / 6 * (1 - h + h * h / 2 - h * h * h / 4)) * c1 +
        (h / 6 * (2 - h + h * h / 2)) * c2 + (h / 6 * (2 - h)) * c3 + h / 6 * c4 := by ring
  rw [e]
  have p0 : 0 ≤ 1 - h + h * h / 2 - h * h * h / 6 + h * h * h * h / 24 := by nlinarith [mul_nonneg hh3 h0]
  have p1 : 0 ≤ h / 6 * (1 - h + h * h / 2 - h * h * h / 4) := by
    apply mul_nonneg (by linarith); nlinarith
  have p2 : 0 ≤ h / 6 * (2 - h + h * h / 2) := by
    apply mul_nonneg (by linarith); nlinarith
  have p3 : 0 ≤ h / 6 * (2 - h) := by
    apply mul_nonneg (by linarith); linarith
  have p4 : 0 ≤ h / 6 := by linarith
  have b : ∀ a y : F, 0 ≤ a → |y| ≤ M → -(a * M) ≤ a * y ∧ a * y ≤ a * M := by
    intro a y ha hy
    obtain ⟨y1, y2⟩ := abs_le.mp hy
    constructor <;> nlinarith
  obtain ⟨x1, x2⟩ := b _ x p0 hx
  obtain ⟨y1, y2⟩ := b _ c1 p1 (hc1.trans hB)
  obtain ⟨z1, z2⟩ := b _ c2 p2 (hc2.trans hB)
  obtain ⟨u1, u2⟩ := b _ c3 p3 (hc3.trans hB)
  obtain ⟨v1, v2⟩ := b _ c4 p4 (hc4.trans hB)
  have s : (1 - h + h * h / 2 - h * h * h / 6 + h * h * h * h / 24) * M + (h / 6 * (1 - h + h * h / 2 - h * h * h / 4)) * M +
        (h / 6 * (2 - h + h * h / 2)) * M + (h / 6 * (2 - h)) * M + h / 6 * M = M := by ring
  rw [abs_le]
  constructor <;> linarith

/-- `Σ_j |w_ij|` over the stored entries of agent `i`. -/
def absWeight (N : Network A F) (i : Nat) : F := ((row N i).map (fun e => |e.2|)).sum

theorem weightedSum_bound (N : Network A F) {y : Nat → F} (hy : ∀ j, |y j| ≤ 1) (i : Nat) : |weightedSum N y i| ≤ absWeight N i := by
  unfold weightedSum absWeight
  induction row N i with
  | nil => simp
  | cons e l ih =>
    simp only [List.map_cons, List.sum_cons]
    refine (abs_add_le _ _).trans (add_le_add ?_ ih)
    rw [abs_mul]
    calc |e.2| * |y e.1| ≤ |e.2| * 1 := mul_le_mul_of_nonneg_left (hy _) (abs_nonneg _)
      _ = |e.2| := mul_one _

theorem rk4_rate_bound {tanh : F → F} (ht : ∀ y, |tanh y| ≤ 1) (K alpha : F) (N : Network A F) {m : Nat → F} {h : F} (h0 : 0 ≤ h) (h1 : h ≤ 1)
    (x : Nat → F) {i : Nat} (hm : 0 < m i) :
    |rk4 (rate tanh K alpha N m) h x i| ≤ max |x i| (|K| / m i * absWeight N i) := by
  have hb : ∀ y : Nat → F, |K / m i * weightedSum N (fun j => tanh (alpha * y j)) i| ≤ |K| / m i * absWeight N i := by
    intro y
    rw [abs_mul, abs_div, abs_of_pos hm]
    exact mul_le_mul_of_nonneg_left (weightedSum_bound N (fun j => ht _) i) (div_nonneg (abs_nonneg _) hm.le)
  have := rk4_bound (x := x i) h0 h1
    (hb x)
    (hb (fun j => x j + h / 2 * rate tanh K alpha N m x j))
    (hb (fun j => x j + h / 2 * rate tanh K alpha N m (fun j => x j + h / 2 * rate tanh K alpha N m x j) j))
    (hb (fun j => x j + h * rate tanh K alpha N m (fun j => x j + h / 2 * rate tanh K alpha N m (fun j => x j + h / 2 * rate tanh K alpha N m x j) j) j))
    (le_max_left _ _) (le_max_right |x i| _)
  exact this

section
variable [ActiveAgent A F] [LawfulActiveAgent A F]

/-- C46, one step: for `0 ≤ dt ≤ 1`, a `tanh` with values in `[-1, 1]` and positive reluctance, `|x_i|` after the iteration is at most the larger
of `|x_i|` before and `|K|/m_i Σ_j |w_ij|`, in any network. -/
theorem C46_step {o : MathOps F} (htanh : ∀ y, |o.tanh y| ≤ 1) {pick : List (Nat × F) → Nat} {r : Rng G F} {s t : Activity A F G}
    (h : Activity.iteration o pick r s = .ok t) (hw : WF t.network) (h0 : 0 ≤ s.p.dt) (h1 : s.p.dt ≤ 1) {i : Nat} (hi : s.p.nBots ≤ i)
    (hi' : i < s.network.agents.length) (hm : 0 < attr ActiveAgent.reluctance s.network.agents i) :
    |attr ActiveAgent.opinion t.network.agents i| ≤
      max |attr ActiveAgent.opinion s.network.agents i| (|s.p.K| / attr ActiveAgent.reluctance s.network.agents i * absWeight t.network i) := by
  rw [C47_rk4 h hw hi hi']
  exact rk4_rate_bound htanh _ _ _ h0 h1 _ hm

theorem absWeight_le {N : Network A F} {i n : Nat} (h1 : ∀ e ∈ row N i, e.2 = 1) (h2 : ((row N i).map (·.1)).Nodup)
    (h3 : ∀ e ∈ row N i, e.1 < n) : absWeight N i ≤ n := by
  have e : (row N i).map (fun e => |e.2|) = List.replicate (row N i).length 1 := by
    rw [List.eq_replicate_iff]
    refine ⟨by simp, ?_⟩
    intro b hb
    obtain ⟨e, he, rfl⟩ := List.mem_map.mp hb
    rw [h1 e he, abs_one]
  unfold absWeight
  rw [e, List.sum_replicate, nsmul_eq_mul, mul_one]
  have : ((row N i).map (·.1)).length ≤ n := by
    have hs : ((row N i).map (·.1)) ⊆ List.range n := by
      intro j hj
      obtain ⟨e, he, rfl⟩ := List.mem_map.mp hj
      exact List.mem_range.mpr (h3 e he)
    have := (h2.subperm hs).length_le
    simpa using this
  rw [List.length_map] at this
  exact_mod_cast this

/-- C46: over any number of iterations of the probabilistic model, all opinions are bounded by any number `M` that bounds the initial opinions,
the bot opinions and `|K| n / m_i` for all agents `i`. -/
theorem C46_bounded {o : MathOps F} (htanh : ∀ y, |o.tanh y| ≤ 1) {pick : List (Nat × F) → Nat} (hp : Reservoir.Pick.Valid pick) {r : Rng G F}
    {s t : Activity A F G} (h : s.Ready) (h0 : 0 ≤ s.p.dt) (h1 : s.p.dt ≤ 1) {M : F}
    (hm : ∀ i, i < s.network.agents.length → 0 < attr ActiveAgent.reluctance s.network.agents i)
    (hx : ∀ i, i < s.network.agents.length → |attr ActiveAgent.opinion s.network.agents i| ≤ M)
    (hb : ∀ i, i < s.p.nBots → |s.p.botOpinion.getD i 0| ≤ M)
    (hK : ∀ i, i < s.network.agents.length → |s.p.K| * s.network.agents.length / attr ActiveAgent.reluctance s.network.agents i ≤ M)
    {k : Nat} (ht : Iterates (Activity.iteration o pick r) s k t) :
    ∀ i, i < s.network.agents.length → |attr ActiveAgent.opinion t.network.agents i| ≤ M := by
  have key : t.Ready ∧ ∀ i, i < s.network.agents.length → |attr ActiveAgent.opinion t.network.agents i| ≤ M := by
    induction ht with
    | zero => exact ⟨h, hx⟩
    | @succ k t u ht hu ih =>
      obtain ⟨hr, ih⟩ := ih
      obtain ⟨-, e2, e3, -⟩ := C42_activity ht
      have hlen : t.network.agents.length = s.network.agents.length := by
        have := congrArg List.length e2; simpa using this
      have erel : ∀ i, attr ActiveAgent.reluctance t.network.agents i = attr ActiveAgent.reluctance s.network.agents i := by
        intro i; unfold attr; rw [e2]
      refine ⟨hr.next hp hu, fun i hi => ?_⟩
      by_cases hbot : i < s.p.nBots
      · obtain ⟨a, ha, ha'⟩ := (Activity.iteration_frame hu).1.bots i (by rw [e3]; exact hbot)
        rw [Activity.attr_some _ ha]
        rw [e3] at ha'
        have := hb i hbot
        rw [List.getD_eq_getElem?_getD, ha'] at this
        exact this
      · have hstep := C46_step htanh hu (hr.next hp hu).wf (by rw [e3]; exact h0) (by rw [e3]; exact h1) (i := i) (by rw [e3]; omega)
          (by rw [hlen]; exact hi) (by rw [erel]; exact hm i hi)
        obtain ⟨gs, buf, contacts, u', hu', hF, -⟩ := C43_activity (o := o) hp r hr
        obtain rfl := Except.ok.inj (hu.symm.trans hu')
        have hn : u.network.agents.length = s.network.agents.length := by
          rw [(Activity.iteration_frame hu).1.traits.length, hlen]
        have hW : absWeight u.network i ≤ (s.network.agents.length : F) :=
          absWeight_le (hF.ones i) (hF.nodup i) (fun e he => by rw [← hn]; exact NetLemmas.row_lt hF.wf he)
        rw [erel, e3] at hstep
        refine hstep.trans (max_le (ih i hi) ?_)
        refine le_trans ?_ (hK i hi)
        rw [div_mul_eq_mul_div]
        gcongr
        exact (hm i hi).le
  exact key.2

end
end

/-- C46 over the real numbers, with the real hyperbolic tangent: all opinions of a run of the probabilistic model stay within
`max( max |x_i(0)|, max |bot opinion|, |K| n / min m_i )`, written with any common bound `M`. -/
theorem C46_real [ActiveAgent A ℝ] [LawfulActiveAgent A ℝ] {o : MathOps ℝ} (ho : o.tanh = Real.tanh) {pick : List (Nat × ℝ) → Nat}
    (hp : Reservoir.Pick.Valid pick) {r : Rng G ℝ} {s t : Activity A ℝ G} (h : s.Ready) (h0 : 0 < s.p.dt) (h1 : s.p.dt ≤ 1) {M : ℝ}
    (hm : ∀ i, i < s.network.agents.length → 0 < attr ActiveAgent.reluctance s.network.agents i)
    (hx : ∀ i, i < s.network.agents.length → |attr ActiveAgent.opinion s.network.agents i| ≤ M)
    (hb : ∀ i, i < s.p.nBots → |s.p.botOpinion.getD i 0| ≤ M)
    (hK : ∀ i, i < s.network.agents.length → |s.p.K| * s.network.agents.length / attr ActiveAgent.reluctance s.network.agents i ≤ M)
    {k : Nat} (ht : Iterates (Activity.iteration o pick r) s k t) :
    ∀ i, i < s.network.agents.length → |attr ActiveAgent.opinion t.network.agents i| ≤ M :=
  C46_bounded (by rw [ho]; exact fun y => (Real.abs_tanh_lt_one y).le) hp h h0.le h1 hm hx hb hK ht

/-! ## C50 -/

section
variable [Field F] [LinearOrder F] [IsStrictOrderedRing F]

theorem implicit_velocity {v dt d d' c a : F} (ha : a = 1 / 2) (h : 1 + a * c * dt ≠ 0) :
    (v + a * dt * (d - c * v + d')) / (1 + a * c * dt) =
      v + dt / 2 * (d - c * v + (d' - c * ((v + a * dt * (d - c * v + d')) / (1 + a * c * dt)))) := by
  have hw : (v + a * dt * (d - c * v + d')) / (1 + a * c * dt) * (1 + a * c * dt) = v + a * dt * (d - c * v + d') := div_mul_cancel₀ _ h
  generalize (v + a * dt * (d - c * v + d')) / (1 + a * c * dt) = w at hw ⊢
  subst ha
  linear_combination hw

/-- C50: a successful iteration of the inertial model is one velocity Verlet step with implicit friction for
`x'' = D(x) - friction * x'`, `D_i(x) = -x_i + (K/m_i) Σ_j w_ij tanh(α x_j)`, simultaneously for all agents, from the positions and velocities
before to the positions `x'` and the velocities after the iteration, provided `friction * dt > -2`; the agents that are not bots end up at
`x'` (the bots at their fixed opinions, C42). -/
theorem C50_verlet {o : MathOps F} {pick : List (Nat × F) → Nat} {r : Rng G F} {s t : Inertial F G}
    (h : Inertial.iteration o pick r s = .ok t) (hw : WF t.base.network) (hc : -2 < s.friction * s.base.p.dt) :
    ∃ x' : Nat → F,
      VerletStep (rate o.tanh s.base.p.K s.base.p.alpha t.base.network (attr (·.reluctance) s.base.network.agents)) s.friction s.base.p.dt
        s.base.network.agents.length (attr (·.opinion) s.base.network.agents) (attr (·.velocity) s.base.network.agents)
        x' (attr (·.velocity) t.base.network.agents) ∧
      ∀ i, s.base.p.nBots ≤ i → i < s.base.network.agents.length → attr (·.opinion) t.base.network.agents i = x' i := by
  obtain ⟨N, l, hN, ht, hl⟩ := Inertial.iteration_parts h
  have hB := (Inertial.iteration_frame h).1
  have hlen : l.length = N.agents.length := by
    have := hB.traits.length
    rw [ht] at this
    rw [hN]; exact this
  rw [ht] at hw ⊢
  have hw' := wf_agents hlen hw
  have hb := hB.bots
  rw [ht] at hb
  obtain ⟨b1, b2⟩ := bots_fit hb
  have := Inertial.verletStep_eq o s.base.p s.friction hw' (by rw [← hlen]; exact b1) b2
  rw [hl] at this
  obtain rfl := Except.ok.inj this
  clear hl hlen hw hb b1 this hB ht h
  set x := attr (·.opinion) s.base.network.agents with hx
  set v := attr (·.velocity) s.base.network.agents with hv
  set m := attr (·.reluctance) s.base.network.agents with hm
  set c := s.friction with hcdef
  set p := s.base.p with hp
  have eD : ∀ i, Activity.slope o p N (attr ActiveAgent.opinion N.agents) i = rate o.tanh p.K p.alpha N m x i := by
    intro i
    rw [Activity.slope_exact, hx, hm, hN]
    rfl
  have eM : ∀ i, attr ActiveAgent.reluctance (Inertial.movedNet o p c N).agents i = m i := by
    intro i
    rw [hm, ← hN]
    unfold attr Inertial.movedNet
    congr 1
    apply List.ext_getElem (by simp)
    intro j _ _
    simp only [List.getElem_map, List.getElem_mapIdx]
    rfl
  have eD' : ∀ i, Activity.slope o p (Inertial.movedNet o p c N) (attr ActiveAgent.opinion (Inertial.movedNet o p c N).agents) i =
      rate o.tanh p.K p.alpha N m (attr ActiveAgent.opinion (Inertial.movedNet o p c N).agents) i := by
    intro i
    rw [Activity.slope_exact]
    unfold rate
    rw [eM]
    rfl
  have hn : N.agents.length = s.base.network.agents.length := by rw [hN]
  have eX : ∀ i (hi : i < N.agents.length), N.agents[i].opinion = x i ∧ N.agents[i].velocity = v i := by
    intro i hi
    rw [hx, hv, ← hN, Activity.attr_lt _ hi, Activity.attr_lt _ hi]
    exact ⟨rfl, rfl⟩
  have hx' : ∀ i (hi : i < N.agents.length), attr ActiveAgent.opinion (Inertial.movedNet o p c N).agents i =
      x i + v i * p.dt + 1 / 2 * (rate o.tanh p.K p.alpha N m x i - c * v i) * p.dt * p.dt := by
    intro i hi
    unfold Inertial.movedNet
    rw [Activity.attr_mapIdx _ _ hi]
    show (Inertial.moved o p c N i N.agents[i]).opinion = _
    unfold Inertial.moved
    simp only
    rw [(eX i hi).1, (eX i hi).2, eD]
    push_cast
    rfl
  have hden : (1 : F) + 1 / ((2 : Nat) : F) * c * p.dt ≠ 0 := by
    push_cast
    have : (0 : F) < 1 + 1 / 2 * c * p.dt := by linarith
    exact this.ne'
  refine ⟨attr ActiveAgent.opinion (Inertial.movedNet o p c N).agents, ⟨?_, ?_⟩, ?_⟩
  · intro i hi
    rw [hx' i (by omega)]
    show _ = x i + v i * p.dt + (rate o.tanh p.K p.alpha N m x i - c * v i) * p.dt ^ 2 / 2
    ring
  · intro i hi
    dsimp only
    rw [Activity.attr_mapIdx _ _ (by omega)]
    have e : (if i < p.nBots then ({ Inertial.kicked o p c N i N.agents[i] with opinion := p.botOpinion.getD i 0 } : InertialAgent F)
        else Inertial.kicked o p c N i N.agents[i]).velocity = (Inertial.kicked o p c N i N.agents[i]).velocity := by
      split <;> rfl
    rw [e]
    show (Inertial.kicked o p c N i N.agents[i]).velocity = v i + p.dt / 2 * (rate o.tanh p.K p.alpha N m x i - c * v i +
      (rate o.tanh p.K p.alpha N m (attr ActiveAgent.opinion (Inertial.movedNet o p c N).agents) i -
        c * (Inertial.kicked o p c N i N.agents[i]).velocity))
    unfold Inertial.kicked
    simp only
    rw [eD, eD', (eX i (by omega)).2]
    refine implicit_velocity ?_ ?_
    · push_cast; rfl
    · push_cast at hden ⊢; exact hden
  · intro i hi hi'
    dsimp only
    rw [Activity.attr_mapIdx _ _ (by omega), if_neg (by omega)]
    unfold Inertial.movedNet
    rw [Activity.attr_mapIdx _ _ (by omega)]
    rfl

/-- C50: if all opinions and velocities are zero and there are no bots, then nothing moves. -/
theorem C50_rest {o : MathOps F} (ho : o.tanh 0 = 0) {pick : List (Nat × F) → Nat} {r : Rng G F} {s t : Inertial F G}
    (h : Inertial.iteration o pick r s = .ok t) (hw : WF t.base.network) (hb : s.base.p.nBots = 0)
    (hc : -2 < s.friction * s.base.p.dt)
    (hx : ∀ i, attr (·.opinion) s.base.network.agents i = 0) (hv : ∀ i, attr (·.velocity) s.base.network.agents i = 0)
    {i : Nat} (hi : i < s.base.network.agents.length) :
    attr (·.opinion) t.base.network.agents i = 0 ∧ attr (·.velocity) t.base.network.agents i = 0 := by
  obtain ⟨x', hV, hx'⟩ := C50_verlet h hw hc
  have hz : ∀ y : Nat → F, (∀ j, j < s.base.network.agents.length → y j = 0) → ∀ i, i < s.base.network.agents.length →
      rate o.tanh s.base.p.K s.base.p.alpha t.base.network (attr (·.reluctance) s.base.network.agents) y i = 0 := by
    intro y hy i hi
    unfold rate weightedSum
    have : (row t.base.network i).map (fun e => e.2 * o.tanh (s.base.p.alpha * y e.1)) = (row t.base.network i).map (fun _ => 0) := by
      apply List.map_congr_left
      intro e he
      have hlt := NetLemmas.row_lt hw he
      rw [(Inertial.iteration_frame h).1.traits.length] at hlt
      rw [hy _ hlt, mul_zero, ho, mul_zero]
    rw [this, hy i hi]
    simp
  have e1 : ∀ j, j < s.base.network.agents.length → x' j = 0 := by
    intro j hj
    rw [hV.position j hj, hx, hv, hz _ (fun j _ => hx j) j hj]
    simp
  refine ⟨by rw [hx' i (by omega) hi, e1 i hi], ?_⟩
  have := hV.velocity i hi
  rw [hv, hz _ (fun j _ => hx j) i hi, hz _ e1 i hi] at this
  have hden : (0 : F) < 1 + s.friction * s.base.p.dt / 2 := by linarith
  have h2 : attr (·.velocity) t.base.network.agents i * (1 + s.friction * s.base.p.dt / 2) = 0 := by
    linear_combination this
  rcases mul_eq_zero.mp h2 with h3 | h3
  · exact h3
  · exact absurd h3 hden.ne'

end

/-! ## concrete cases -/

/-- Three inertial agents on the way, with friction. -/
def Inertial.sample : Inertial ℚ Nat where
  base :=
    { counter := ⟨some 3, 0⟩
      p := Activity.settings
      network := ⟨[⟨0, 1, 1, 1⟩, ⟨1/2, 1, 1, 0⟩, ⟨-1/2, 1, 1, 0⟩], [[], [], []], [[], [], []], .incoming⟩
      contactProb := [[], [], []]
      gen := 0 }
  friction := 1

theorem Inertial.sample_ready : Inertial.sample.base.Ready where
  wf := by constructor <;> decide +kernel
  incoming := rfl
  fit := by constructor <;> decide +kernel
  botOpinion := by decide +kernel
  probabilistic := rfl

example : ∃ t, Inertial.iteration ratOps firstMin counterRng Inertial.sample = .ok t ∧ WF t.base.network ∧
    -2 < Inertial.sample.friction * Inertial.sample.base.p.dt := by
  obtain ⟨_, _, _, t, h, -⟩ := C43_inertial (o := ratOps) firstMin_valid counterRng Inertial.sample_ready
  exact ⟨t, h, (Inertial.ready_next firstMin_valid Inertial.sample_ready h).wf, by decide +kernel⟩

example : ∀ t, Activity.iteration ratOps firstMin counterRng Activity.sample = .ok t → ∀ i, i < 4 →
    |attr ActiveAgent.opinion t.network.agents i| ≤ 12 := by
  intro t ht i hi
  refine C46_bounded (o := ratOps) ?_ firstMin_valid Activity.sample_ready (by decide +kernel) (by decide +kernel) (M := 12) ?_ ?_ ?_ ?_
    (.succ .zero ht) i hi
  · intro y
    show |y / (1 + y * y)| ≤ 1
    rw [abs_div, abs_of_pos (show (0 : ℚ) < 1 + y * y by nlinarith), div_le_one (by nlinarith)]
    rw [abs_le]
    constructor <;> nlinarith [sq_nonneg (y - 1), sq_nonneg (y + 1)]
  · decide +kernel
  · decide +kernel
  · decide +kernel
  · decide +kernel

end Seldon
