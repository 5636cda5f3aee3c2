import Verif.Props.Neutral
import Verif.Props.Accuracy
import Verif.Props.Config
import Verif.Lemmas.Stability
/-!
# Properties C83 and C84: for which step sizes the integrators are stable
-/
set_option linter.unusedSectionVars false
namespace Seldon
open Spec Filter Topology
variable {A F G : Type}

/-- The states of a history. -/
theorem iterates_seq {σ : Type} {f : σ → Res σ} {s t : σ} {k : Nat} (h : Iterates f s k t) :
    ∃ st : Nat → σ, st 0 = s ∧ st k = t ∧ (∀ j, j < k → f (st j) = .ok (st (j + 1))) ∧ ∀ j, j ≤ k → Iterates f s j (st j) := by
  induction h with
  | zero =>
    refine ⟨fun _ => s, rfl, rfl, fun j hj => by omega, fun j hj => ?_⟩
    obtain rfl : j = 0 := by omega
    exact .zero
  | @succ k t u h h' ih =>
    obtain ⟨st, h0, hk, hs, hI⟩ := ih
    refine ⟨fun j => if j ≤ k then st j else u, ?_, ?_, ?_, ?_⟩
    · simp only [Nat.zero_le, if_true]; exact h0
    · simp only [show ¬ k + 1 ≤ k by omega, if_false]
    · intro j hj
      simp only [show j ≤ k by omega, if_true]
      by_cases hjk : j + 1 ≤ k
      · rw [if_pos hjk]; exact hs j (by omega)
      · obtain rfl : j = k := by omega
        rw [if_neg hjk, hk]; exact h'
    · intro j hj
      by_cases hjk : j ≤ k
      · simp only [if_pos hjk]; exact hI j hjk
      · obtain rfl : j = k + 1 := by omega
        simp only [if_neg hjk]; exact .succ h h'

/-! ## inertial model -/

/-- One iteration for one agent. -/
theorem Inertial.kick {o : MathOps ℝ} (htanh : ∀ y, |o.tanh y| ≤ 1) {pick : List (Nat × ℝ) → Nat} (hp : Reservoir.Pick.Valid pick)
    {r : Rng G ℝ} {s t : Inertial ℝ G} (hr : s.base.Ready) (h : Inertial.iteration o pick r s = .ok t) (hc : -2 < s.friction * s.base.p.dt)
    {i : Nat} (hi : i < s.base.network.agents.length) (hm : 0 < attr (·.reluctance) s.base.network.agents i) :
    ∃ g g' x', |g| ≤ |s.base.p.K| * s.base.network.agents.length / attr (·.reluctance) s.base.network.agents i ∧
      |g'| ≤ |s.base.p.K| * s.base.network.agents.length / attr (·.reluctance) s.base.network.agents i ∧
      Stability.Kick s.friction s.base.p.dt g g' (attr (·.opinion) s.base.network.agents i) (attr (·.velocity) s.base.network.agents i)
        x' (attr (·.velocity) t.base.network.agents i) ∧
      (s.base.p.nBots ≤ i → attr (·.opinion) t.base.network.agents i = x') := by
  obtain ⟨gs, buf, contacts, t', ht', hF, -⟩ := C43_inertial (o := o) hp r hr
  obtain rfl := Except.ok.inj (h.symm.trans ht')
  obtain ⟨x', hV, hx⟩ := C50_verlet h hF.wf hc
  have hn : t.base.network.agents.length = s.base.network.agents.length := (Inertial.iteration_frame h).1.traits.length
  have hW : absWeight t.base.network i ≤ (s.base.network.agents.length : ℝ) :=
    absWeight_le (hF.ones i) (hF.nodup i) (fun e he => by rw [← hn]; exact NetLemmas.row_lt hF.wf he)
  have hb : ∀ y : Nat → ℝ, |s.base.p.K / attr (·.reluctance) s.base.network.agents i *
      weightedSum t.base.network (fun j => o.tanh (s.base.p.alpha * y j)) i| ≤
        |s.base.p.K| * s.base.network.agents.length / attr (·.reluctance) s.base.network.agents i := by
    intro y
    rw [abs_mul, abs_div, abs_of_pos hm, div_mul_eq_mul_div]
    gcongr
    exact (weightedSum_bound _ (fun j => htanh _) i).trans hW
  refine ⟨_, _, x' i, hb (attr (·.opinion) s.base.network.agents), hb x', ⟨?_, ?_⟩, fun hib => hx i hib hi⟩
  · exact hV.position i hi
  · exact hV.velocity i hi

/-- Any history in which the influences on agent `i` are at most `Γ`. -/
theorem Inertial.kicks_bound {dt f : ℝ} (h0 : 0 < dt) (h2 : dt < 2) (hf : 0 < f) : ∃ C q : ℝ, 0 ≤ C ∧ 0 ≤ q ∧ q < 1 ∧
    ∀ (G : Type) (o : MathOps ℝ) (pick : List (Nat × ℝ) → Nat) (r : Rng G ℝ) (s t : Inertial ℝ G) (k i : Nat) (Γ : ℝ), 0 ≤ Γ →
      (∀ j u w, Iterates (Inertial.iteration o pick r) s j u → Inertial.iteration o pick r u = .ok w → ∃ g g' x', |g| ≤ Γ ∧ |g'| ≤ Γ ∧
        Stability.Kick f dt g g' (attr (·.opinion) u.base.network.agents i) (attr (·.velocity) u.base.network.agents i)
          x' (attr (·.velocity) w.base.network.agents i) ∧
        (s.base.p.nBots ≤ i → attr (·.opinion) w.base.network.agents i = x')) →
      Iterates (Inertial.iteration o pick r) s k t →
      let x := fun u : Inertial ℝ G => attr (·.opinion) u.base.network.agents i
      let v := fun u : Inertial ℝ G => attr (·.velocity) u.base.network.agents i
      (s.base.p.nBots ≤ i → |x t| ≤ C * (q ^ k * (|x s| + |v s|) + Γ) ∧ |v t| ≤ C * (q ^ k * (|x s| + |v s|) + Γ)) ∧
      (i < s.base.p.nBots → |v t| ≤ C * (q ^ k * (|x s| + |v s|) + |s.base.p.botOpinion.getD i 0| + Γ)) := by
  obtain ⟨C, q, hC, hq0, hq1, hB⟩ := Stability.steps_bound hf h0 h2
  obtain ⟨C', q', hC', hq0', hq1', hB'⟩ := Stability.bot_bound hf h0 h2
  refine ⟨max C C', max q q', le_max_of_le_left hC, le_max_of_le_left hq0, max_lt hq1 hq1', ?_⟩
  intro G o pick r s t k i Γ hΓ hkick ht x v
  obtain ⟨st, e0, ek, hs, hI⟩ := iterates_seq ht
  have step : ∀ j, j < k → ∃ g g' x', |g| ≤ Γ ∧ |g'| ≤ Γ ∧ Stability.Kick f dt g g' (x (st j)) (v (st j)) x' (v (st (j + 1))) ∧
      (s.base.p.nBots ≤ i → x (st (j + 1)) = x') := fun j hj => hkick j _ _ (hI j (by omega)) (hs j hj)
  have mono : ∀ a b : ℝ, 0 ≤ a → 0 ≤ b → C * (q ^ k * a + b) ≤ max C C' * (max q q' ^ k * a + b) ∧
      C' * (q' ^ k * a + b) ≤ max C C' * (max q q' ^ k * a + b) := by
    intro a b ha hb
    have hm0 : 0 ≤ max C C' := le_max_of_le_left hC
    constructor
    · gcongr
      · exact le_max_left _ _
      · exact le_max_left _ _
    · gcongr
      · exact le_max_right _ _
      · exact le_max_right _ _
  have hX : 0 ≤ |x s| + |v s| := by positivity
  refine ⟨fun hib => ?_, fun hib => ?_⟩
  · have hS : Stability.Steps f dt Γ k (fun j => x (st j)) (fun j => v (st j)) := by
      intro j hj
      obtain ⟨g, g', x', a, a', hk, hx⟩ := step j hj
      exact ⟨g, g', a, a', by dsimp only; rw [hx hib]; exact hk⟩
    have := hB Γ k _ _ hΓ hS k le_rfl
    rw [e0, ek] at this
    exact ⟨this.1.trans (mono _ _ hX hΓ).1, this.2.trans (mono _ _ hX hΓ).1⟩
  · have hS : ∀ j, j < k → ∃ g g' x', |g| ≤ Γ ∧ |g'| ≤ Γ ∧ Stability.Kick f dt g g' (x (st j)) (v (st j)) x' (v (st (j + 1))) := by
      intro j hj
      obtain ⟨g, g', x', a, a', hk, -⟩ := step j hj
      exact ⟨g, g', x', a, a', hk⟩
    have hbot : ∀ j, 0 < j → j ≤ k → |x (st j)| ≤ |s.base.p.botOpinion.getD i 0| := by
      intro j hj hjk
      obtain ⟨-, -, -, -, c5⟩ := C42_inertial (hI j hjk)
      obtain ⟨a, ha, ha'⟩ := c5 hj i hib
      have e1 : x (st j) = a.opinion := Activity.attr_some (·.opinion) ha
      have e2 : s.base.p.botOpinion.getD i 0 = a.opinion := by rw [List.getD_eq_getElem?_getD, ha']; rfl
      rw [e1, e2]
    have := hB' Γ |s.base.p.botOpinion.getD i 0| k (fun j => x (st j)) (fun j => v (st j)) hΓ (abs_nonneg _) hS hbot k le_rfl
    rw [e0, ek] at this
    refine this.trans ?_
    have h := (mono (|x s| + |v s|) (|s.base.p.botOpinion.getD i 0| + Γ) hX (by positivity)).2
    calc _ = C' * (q' ^ k * (|x s| + |v s|) + (|s.base.p.botOpinion.getD i 0| + Γ)) := by ring
      _ ≤ _ := h
      _ = _ := by ring

/-- C83: For `0 < dt < 2` and positive friction there are constants `C` and `0 ≤ q < 1`, depending on these two settings only, such that after
any number `k` of iterations of the inertial model (probabilistic network), whatever the random draws, the state of every agent that is not a
bot satisfies `|x_i|, |v_i| ≤ C (q^k (|x_i(0)| + |v_i(0)|) + |K| n / m_i)`: opinions and velocities stay bounded, and the initial state is
forgotten exponentially fast.  The velocity of a bot satisfies the same with its opinion added. -/
theorem C83_bounded {dt f : ℝ} (h0 : 0 < dt) (h2 : dt < 2) (hf : 0 < f) : ∃ C q : ℝ, 0 ≤ C ∧ 0 ≤ q ∧ q < 1 ∧
    ∀ (G : Type) (o : MathOps ℝ) (pick : List (Nat × ℝ) → Nat) (r : Rng G ℝ) (s t : Inertial ℝ G) (k i : Nat),
      (∀ y, |o.tanh y| ≤ 1) → Reservoir.Pick.Valid pick → s.base.Ready → s.base.p.dt = dt → s.friction = f →
      Iterates (Inertial.iteration o pick r) s k t → i < s.base.network.agents.length →
      0 < attr (·.reluctance) s.base.network.agents i →
      let x := fun u : Inertial ℝ G => attr (·.opinion) u.base.network.agents i
      let v := fun u : Inertial ℝ G => attr (·.velocity) u.base.network.agents i
      let Γ := |s.base.p.K| * s.base.network.agents.length / attr (·.reluctance) s.base.network.agents i
      (s.base.p.nBots ≤ i → |x t| ≤ C * (q ^ k * (|x s| + |v s|) + Γ) ∧ |v t| ≤ C * (q ^ k * (|x s| + |v s|) + Γ)) ∧
      (i < s.base.p.nBots → |v t| ≤ C * (q ^ k * (|x s| + |v s|) + |s.base.p.botOpinion.getD i 0| + Γ)) := by
  have hfh : 0 < f * dt := mul_pos hf h0
  obtain ⟨C, q, hC, hq0, hq1, hB⟩ := Inertial.kicks_bound h0 h2 hf
  refine ⟨C, q, hC, hq0, hq1, ?_⟩
  intro G o pick r s t k i htanh hp hr hdt hfr ht hi hm x v Γ
  have hΓ : 0 ≤ Γ := by
    have : 0 ≤ |s.base.p.K| * s.base.network.agents.length := by positivity
    exact div_nonneg this hm.le
  refine hB G o pick r s t k i Γ hΓ ?_ ht
  intro j u w hu hw
  have hready : u.base.Ready := by
    clear hw
    induction hu with
    | zero => exact hr
    | succ _ h' ih => exact Inertial.ready_next hp ih h'
  obtain ⟨-, c2, c3, c4, -⟩ := C42_inertial hu
  have hlen : u.base.network.agents.length = s.base.network.agents.length := by
    have := congrArg List.length c2; simpa using this
  have hrel : attr (·.reluctance) u.base.network.agents i = attr (·.reluctance) s.base.network.agents i := by
    unfold attr; rw [c2]
  have := Inertial.kick htanh hp hready hw (by rw [c4, c3, hdt, hfr]; linarith) (i := i) (by rw [hlen]; exact hi)
    (by rw [hrel]; exact hm)
  rw [hrel, hlen, c3, c4, hdt, hfr] at this
  exact this

/-- C83, without interaction (`K = 0`) the quantity `(1 - dt²/4) x² + (1 + friction dt/2)² v²` of an agent that is not a bot decreases in every
iteration by exactly `2 friction dt v²`; without friction it is conserved, so the oscillation never ends and positive friction is needed in
`C83_bounded`. -/
theorem C83_energy {o : MathOps ℝ} (htanh : ∀ y, |o.tanh y| ≤ 1) {pick : List (Nat × ℝ) → Nat} (hp : Reservoir.Pick.Valid pick)
    {r : Rng G ℝ} {s t : Inertial ℝ G} (hr : s.base.Ready) (h : Inertial.iteration o pick r s = .ok t) (hc : 0 ≤ s.friction * s.base.p.dt)
    (hK : s.base.p.K = 0) {i : Nat} (hib : s.base.p.nBots ≤ i) (hi : i < s.base.network.agents.length)
    (hm : 0 < attr (·.reluctance) s.base.network.agents i) :
    let dt := s.base.p.dt
    let x := fun u : Inertial ℝ G => attr (·.opinion) u.base.network.agents i
    let v := fun u : Inertial ℝ G => attr (·.velocity) u.base.network.agents i
    (1 - dt ^ 2 / 4) * x t ^ 2 + (1 + s.friction * dt / 2) ^ 2 * v t ^ 2 =
      (1 - dt ^ 2 / 4) * x s ^ 2 + (1 + s.friction * dt / 2) ^ 2 * v s ^ 2 - 2 * s.friction * dt * v s ^ 2 := by
  obtain ⟨g, g', x', a, a', hk, hx⟩ := Inertial.kick htanh hp hr h (by linarith) hi hm
  rw [hK, abs_zero, zero_mul, zero_div] at a a'
  obtain rfl := abs_nonpos_iff.mp a
  obtain rfl := abs_nonpos_iff.mp a'
  rw [← hx hib] at hk
  exact Stability.energy_step hk

/-- Without interaction every iteration is an unforced kick. -/
theorem Inertial.unforced {o : MathOps ℝ} (htanh : ∀ y, |o.tanh y| ≤ 1) {pick : List (Nat × ℝ) → Nat} (hp : Reservoir.Pick.Valid pick)
    {r : Rng G ℝ} {s t : Inertial ℝ G} {k : Nat} (hr : s.base.Ready) (ht : Iterates (Inertial.iteration o pick r) s k t)
    (hdt : 0 ≤ s.base.p.dt) (hf : 0 ≤ s.friction) (hK : s.base.p.K = 0) {i : Nat}
    (hib : s.base.p.nBots ≤ i) (hi : i < s.base.network.agents.length) (hm : 0 < attr (·.reluctance) s.base.network.agents i) :
    ∃ st : Nat → Inertial ℝ G, st 0 = s ∧ st k = t ∧ ∀ j, j < k → Stability.Kick s.friction s.base.p.dt 0 0 (attr (·.opinion) (st j).base.network.agents i)
      (attr (·.velocity) (st j).base.network.agents i) (attr (·.opinion) (st (j + 1)).base.network.agents i)
      (attr (·.velocity) (st (j + 1)).base.network.agents i) := by
  obtain ⟨st, e0, ek, hs, hI⟩ := iterates_seq ht
  have hready : ∀ j, j ≤ k → (st j).base.Ready := by
    intro j
    induction j with
    | zero => intro _; rw [e0]; exact hr
    | succ j ih => intro hj; exact Inertial.ready_next hp (ih (by omega)) (hs j (by omega))
  refine ⟨st, e0, ek, ?_⟩
  intro j hj
  obtain ⟨-, c2, c3, c4, -⟩ := C42_inertial (hI j (by omega))
  have hlen : (st j).base.network.agents.length = s.base.network.agents.length := by
    have := congrArg List.length c2; simpa using this
  have hrel : attr (·.reluctance) (st j).base.network.agents i = attr (·.reluctance) s.base.network.agents i := by
    unfold attr; rw [c2]
  obtain ⟨g, g', x', a, a', hk, hx⟩ := Inertial.kick htanh hp (hready j (by omega)) (hs j hj)
    (by rw [c4, c3]; have := mul_nonneg hf hdt; linarith) (i := i)
    (by rw [hlen]; exact hi) (by rw [hrel]; exact hm)
  rw [c3, hK, abs_zero, zero_mul, zero_div] at a a'
  obtain rfl := abs_nonpos_iff.mp a
  obtain rfl := abs_nonpos_iff.mp a'
  rw [← hx (by rw [c3]; exact hib), c3, c4] at hk
  exact hk

/-- C83, the limit `dt < 2` is sharp: without interaction (`K = 0`), for `dt ≥ 2` and `friction dt ≤ 2`, the opinion of an agent that starts at
rest grows by the factor `dt²/2 - 1 ≥ 1` in every iteration. -/
theorem C83_unstable {o : MathOps ℝ} (htanh : ∀ y, |o.tanh y| ≤ 1) {pick : List (Nat × ℝ) → Nat} (hp : Reservoir.Pick.Valid pick)
    {r : Rng G ℝ} {s t : Inertial ℝ G} {k : Nat} (hr : s.base.Ready) (ht : Iterates (Inertial.iteration o pick r) s k t)
    (hdt : 2 ≤ s.base.p.dt) (hf : 0 ≤ s.friction) (hfd : s.friction * s.base.p.dt ≤ 2) (hK : s.base.p.K = 0) {i : Nat}
    (hib : s.base.p.nBots ≤ i) (hi : i < s.base.network.agents.length) (hm : 0 < attr (·.reluctance) s.base.network.agents i)
    (hv : attr (·.velocity) s.base.network.agents i = 0) :
    (s.base.p.dt ^ 2 / 2 - 1) ^ k * |attr (·.opinion) s.base.network.agents i| ≤ |attr (·.opinion) t.base.network.agents i| := by
  obtain ⟨st, e0, ek, step⟩ := Inertial.unforced htanh hp hr ht (by linarith) hf hK hib hi hm
  have := Stability.unforced_grows hf hdt hfd step (by simp only [e0]; exact hv) k le_rfl
  simp only [e0, ek] at this
  exact this

/-- C83: for `dt ≥ 2` no friction, however large, makes the model forget the initial state: without interaction the opinion of an agent that starts at rest
never again comes closer to 0 than it was at the start. -/
theorem C83_persistent {o : MathOps ℝ} (htanh : ∀ y, |o.tanh y| ≤ 1) {pick : List (Nat × ℝ) → Nat} (hp : Reservoir.Pick.Valid pick)
    {r : Rng G ℝ} {s t : Inertial ℝ G} {k : Nat} (hr : s.base.Ready) (ht : Iterates (Inertial.iteration o pick r) s k t)
    (hdt : 2 ≤ s.base.p.dt) (hf : 0 ≤ s.friction) (hK : s.base.p.K = 0) {i : Nat}
    (hib : s.base.p.nBots ≤ i) (hi : i < s.base.network.agents.length) (hm : 0 < attr (·.reluctance) s.base.network.agents i)
    (hv : attr (·.velocity) s.base.network.agents i = 0) :
    |attr (·.opinion) s.base.network.agents i| ≤ |attr (·.opinion) t.base.network.agents i| := by
  obtain ⟨st, e0, ek, step⟩ := Inertial.unforced htanh hp hr ht (by linarith) hf hK hib hi hm
  have := Stability.unforced_persists hf hdt step (by simp only [e0]; exact hv) k le_rfl
  simp only [e0, ek] at this
  exact this

/-- The hypotheses of `C83_bounded` are met: two agents moving towards each other, friction 2, `dt = 1/100`. -/
example : ∃ C q : ℝ, 0 ≤ q ∧ q < 1 ∧ ∀ k, ∃ t, Iterates (Inertial.iteration realOps (fun _ => 0) halfRng) movingPair k t ∧
    |attr (·.opinion) t.base.network.agents 0| ≤ C * (q ^ k * (1 + 1) + 2) := by
  obtain ⟨C, q, -, h1, h2, h⟩ := C83_bounded (dt := 1 / 100) (f := 2) (by norm_num) (by norm_num) (by norm_num)
  refine ⟨C, q, h1, h2, fun k => ?_⟩
  obtain ⟨t, ht, -⟩ := C43_total_inertial (o := realOps) firstPick_valid halfRng movingPair_ready k
  have := (h Unit realOps (fun _ => 0) halfRng movingPair t k 0 (fun y => (Real.abs_tanh_lt_one y).le) firstPick_valid movingPair_ready rfl rfl ht
    (by show 0 < 2; norm_num) (by show (0 : ℝ) < 1; norm_num)).1 (Nat.le_refl 0)
  refine ⟨t, ht, ?_⟩
  have e1 : attr (·.opinion) movingPair.base.network.agents 0 = (1 : ℝ) := rfl
  have e2 : attr (·.velocity) movingPair.base.network.agents 0 = (-1 : ℝ) := rfl
  have e3 : attr (·.reluctance) movingPair.base.network.agents 0 = (1 : ℝ) := rfl
  have e4 : movingPair.base.network.agents.length = 2 := rfl
  have e5 : movingPair.base.p.K = 1 := rfl
  simp only [e1, e2, e3, e4, e5] at this
  norm_num at this
  norm_num
  exact this.1

/-- Two agents at rest that do not influence each other, `dt = 3`, friction `1/2`. -/
noncomputable def restingPair : Inertial ℝ Unit where
  base := { movingPair.base with
    p := { movingPair.base.p with dt := 3, K := 0 }
    network := { movingPair.base.network with agents := [⟨1, 1, 1, 0⟩, ⟨1 / 2, 1, 1, 0⟩] } }
  friction := 1 / 2

/-- The hypotheses of `C83_unstable` and `C83_energy` are met: the first opinion grows by the factor 7/2 per iteration. -/
example (k : Nat) : ∃ t, Iterates (Inertial.iteration realOps (fun _ => 0) halfRng) restingPair k t ∧
    (7 / 2) ^ k ≤ |attr (·.opinion) t.base.network.agents 0| := by
  have hR : restingPair.base.Ready := by
    have h := movingPair_ready
    exact ⟨⟨h.wf.rows, h.wf.wrows, h.wf.lengths, h.wf.range⟩, h.incoming,
      ⟨h.fit.size, h.fit.bots, h.fit.botM, h.fit.botHomophily, h.fit.nonneg, h.fit.le⟩, h.botOpinion, h.probabilistic⟩
  obtain ⟨t, ht, -⟩ := C43_total_inertial (o := realOps) firstPick_valid halfRng hR k
  refine ⟨t, ht, ?_⟩
  have := C83_unstable (fun y => (Real.abs_tanh_lt_one y).le) firstPick_valid hR ht (by show (2 : ℝ) ≤ 3; norm_num)
    (by show (0 : ℝ) ≤ 1 / 2; norm_num) (by show (1 / 2 : ℝ) * 3 ≤ 2; norm_num) rfl (i := 0) (Nat.le_refl 0) (by show 0 < 2; norm_num)
    (by show (0 : ℝ) < 1; norm_num) rfl
  have e1 : attr (·.opinion) restingPair.base.network.agents 0 = (1 : ℝ) := rfl
  have e2 : restingPair.base.p.dt = 3 := rfl
  rw [e1, e2] at this
  norm_num at this
  norm_num
  exact this

/-! ## activity-driven model -/

section
variable [Field F] [LinearOrder F] [IsStrictOrderedRing F]

/-- The total weight of the influences in one Runge-Kutta step of size `h`. -/
def rkSum (h : F) : F :=
  |h / 6 * (1 - h + h * h / 2 - h * h * h / 4)| + |h / 6 * (2 - h + h * h / 2)| + |h / 6 * (2 - h)| + |h / 6|

theorem rkSum_nonneg (h : F) : 0 ≤ rkSum h := by unfold rkSum; positivity

/-- One Runge-Kutta step of `dx_i/dt = -x_i + influence`: the opinion is multiplied by `decay h`, up to the influence. -/
theorem rk4_rate_affine {tanh : F → F} (ht : ∀ y, |tanh y| ≤ 1) (K alpha : F) (N : Network A F) {m : Nat → F} (h : F) (x : Nat → F) {i : Nat}
    (hm : 0 < m i) {Γ : F} (hΓ : |K| / m i * absWeight N i ≤ Γ) :
    |rk4 (rate tanh K alpha N m) h x i - decay h * x i| ≤ rkSum h * Γ := by
  have hb : ∀ y : Nat → F, |K / m i * weightedSum N (fun j => tanh (alpha * y j)) i| ≤ Γ := by
    intro y
    rw [abs_mul, abs_div, abs_of_pos hm]
    exact (mul_le_mul_of_nonneg_left (weightedSum_bound N (fun j => ht _) i) (div_nonneg (abs_nonneg _) hm.le)).trans hΓ
  have key : ∀ c1 c2 c3 c4 : F, |c1| ≤ Γ → |c2| ≤ Γ → |c3| ≤ Γ → |c4| ≤ Γ →
      |x i + h / 6 * ((-x i + c1) + 2 * (-(x i + h / 2 * (-x i + c1)) + c2) + 2 * (-(x i + h / 2 * (-(x i + h / 2 * (-x i + c1)) + c2)) + c3) +
      (-(x i + h * (-(x i + h / 2 * (-(x i + h / 2 * (-x i + c1)) + c2)) + c3)) + c4)) - decay h * x i| ≤ rkSum h * Γ := by
    intro c1 c2 c3 c4 b1 b2 b3 b4
    have e : x i + h / 6 * ((-x i + c1) + 2 * (-(x i + h / 2 * (-x i + c1)) + c2) + 2 * (-(x i + h / 2 * (-(x i + h / 2 * (-x i + c1)) + c2)) + c3) +
      (-(x i + h * (-(x i + h / 2 * (-(x i + h / 2 * (-x i + c1)) + c2)) + c3)) + c4)) - decay h * x i =
        h / 6 * (1 - h + h * h / 2 - h * h * h / 4) * c1 + h / 6 * (2 - h + h * h / 2) * c2 + h / 6 * (2 - h) * c3 + h / 6 * c4 := by
      unfold decay; ring
    rw [e]
    have t : ∀ a c : F, |c| ≤ Γ → |a * c| ≤ |a| * Γ := by
      intro a c hc
      rw [abs_mul]; exact mul_le_mul_of_nonneg_left hc (abs_nonneg _)
    unfold rkSum
    simp only [add_mul]
    refine (abs_add_le _ _).trans (add_le_add ((abs_add_le _ _).trans (add_le_add ((abs_add_le _ _).trans (add_le_add ?_ ?_)) ?_)) ?_)
    · exact t _ _ b1
    · exact t _ _ b2
    · exact t _ _ b3
    · exact t _ _ b4
  exact key _ _ _ _ (hb x) (hb (fun j => x j + h / 2 * rate tanh K alpha N m x j))
    (hb (fun j => x j + h / 2 * rate tanh K alpha N m (fun j => x j + h / 2 * rate tanh K alpha N m x j) j))
    (hb (fun j => x j + h * rate tanh K alpha N m (fun j => x j + h / 2 * rate tanh K alpha N m (fun j => x j + h / 2 * rate tanh K alpha N m x j) j) j))

theorem decay_pos (h : F) : 0 < decay h := by
  have e : decay h = ((h ^ 2 - 2 * h + 2) ^ 2 + 4 * (h - 2) ^ 2 + 4) / 24 := by unfold decay; ring
  rw [e]; positivity

theorem decay_lt_iff {h : F} (h0 : 0 < h) : decay h < 1 ↔ h ^ 3 - 4 * h ^ 2 + 12 * h < 24 := by
  have e : decay h - 1 = h * (h ^ 3 - 4 * h ^ 2 + 12 * h - 24) / 24 := by unfold decay; ring
  rw [← sub_neg, e]
  constructor
  · intro hh
    by_contra hc
    have : 0 ≤ h * (h ^ 3 - 4 * h ^ 2 + 12 * h - 24) := mul_nonneg h0.le (by linarith)
    linarith
  · intro hh
    have : h * (h ^ 3 - 4 * h ^ 2 + 12 * h - 24) < 0 := mul_neg_of_pos_of_neg h0 (by linarith)
    linarith

theorem lt_decay_iff {h : F} (h0 : 0 < h) : 1 < decay h ↔ 24 < h ^ 3 - 4 * h ^ 2 + 12 * h := by
  have e : decay h - 1 = h * (h ^ 3 - 4 * h ^ 2 + 12 * h - 24) / 24 := by unfold decay; ring
  rw [← sub_pos, e]
  constructor
  · intro hh
    by_contra hc
    have : h * (h ^ 3 - 4 * h ^ 2 + 12 * h - 24) ≤ 0 := mul_nonpos_of_nonneg_of_nonpos h0.le (by linarith)
    linarith
  · intro hh
    have : 0 < h * (h ^ 3 - 4 * h ^ 2 + 12 * h - 24) := mul_pos h0 (by linarith)
    linarith

variable [ActiveAgent A F] [LawfulActiveAgent A F]

/-- One iteration for one agent. -/
theorem Activity.affine {o : MathOps F} (htanh : ∀ y, |o.tanh y| ≤ 1) {pick : List (Nat × F) → Nat} (hp : Reservoir.Pick.Valid pick)
    {r : Rng G F} {s t : Activity A F G} (hr : s.Ready) (h : Activity.iteration o pick r s = .ok t) {i : Nat} (hib : s.p.nBots ≤ i)
    (hi : i < s.network.agents.length) (hm : 0 < attr ActiveAgent.reluctance s.network.agents i) :
    |attr ActiveAgent.opinion t.network.agents i - decay s.p.dt * attr ActiveAgent.opinion s.network.agents i| ≤
      rkSum s.p.dt * (|s.p.K| * s.network.agents.length / attr ActiveAgent.reluctance s.network.agents i) := by
  obtain ⟨gs, buf, contacts, t', ht', hF, -⟩ := C43_activity (o := o) hp r hr
  obtain rfl := Except.ok.inj (h.symm.trans ht')
  rw [C47_rk4 h hF.wf hib hi]
  refine rk4_rate_affine htanh _ _ _ _ _ hm ?_
  have hn : t.network.agents.length = s.network.agents.length := (Activity.iteration_frame h).1.traits.length
  have hW : absWeight t.network i ≤ (s.network.agents.length : F) :=
    absWeight_le (hF.ones i) (hF.nodup i) (fun e he => by rw [← hn]; exact NetLemmas.row_lt hF.wf he)
  rw [div_mul_eq_mul_div]
  gcongr

/-- The same over `k` iterations, written as a recurrence. -/
theorem Activity.affine_iterates {o : MathOps F} (htanh : ∀ y, |o.tanh y| ≤ 1) {pick : List (Nat × F) → Nat} (hp : Reservoir.Pick.Valid pick)
    {r : Rng G F} {s t u : Activity A F G} {k : Nat} (hr : s.Ready) (ht : Iterates (Activity.iteration o pick r) s k t)
    (hu : Activity.iteration o pick r t = .ok u) {i : Nat} (hib : s.p.nBots ≤ i)
    (hi : i < s.network.agents.length) (hm : 0 < attr ActiveAgent.reluctance s.network.agents i) :
    |attr ActiveAgent.opinion u.network.agents i - decay s.p.dt * attr ActiveAgent.opinion t.network.agents i| ≤
      rkSum s.p.dt * (|s.p.K| * s.network.agents.length / attr ActiveAgent.reluctance s.network.agents i) := by
  have hrt : t.Ready := by
    clear hu
    induction ht with
    | zero => exact hr
    | succ _ h' ih => exact ih.next hp h'
  obtain ⟨-, e2, e3, -⟩ := C42_activity ht
  have hlen : t.network.agents.length = s.network.agents.length := by
    have := congrArg List.length e2; simpa using this
  have erel : attr ActiveAgent.reluctance t.network.agents i = attr ActiveAgent.reluctance s.network.agents i := by
    unfold attr; rw [e2]
  have := Activity.affine htanh hp hrt hu (i := i) (by rw [e3]; exact hib) (by rw [hlen]; exact hi) (by rw [erel]; exact hm)
  rw [e3, hlen, erel] at this
  exact this

/-- C84, stable step sizes: if `0 < dt` and `dt³ - 4 dt² + 12 dt < 24` (i.e. `dt < 2.785…`, see `C84_threshold`) there is a constant `C` that
depends on `dt` only such that, with `q = 1 - dt + dt²/2 - dt³/6 + dt⁴/24`, `0 < q < 1`, after any number `k` of iterations of the activity-driven
model (probabilistic network), whatever the random draws, every agent that is not a bot has `|x_i| ≤ q^k |x_i(0)| + C |K| n / m_i`: opinions
stay bounded and the initial opinion is forgotten exponentially fast. -/
theorem C84_bounded {dt : F} (h0 : 0 < dt) (h1 : dt ^ 3 - 4 * dt ^ 2 + 12 * dt < 24) :
    0 < 1 - dt + dt ^ 2 / 2 - dt ^ 3 / 6 + dt ^ 4 / 24 ∧ 1 - dt + dt ^ 2 / 2 - dt ^ 3 / 6 + dt ^ 4 / 24 < 1 ∧ ∃ C : F, 0 ≤ C ∧
    ∀ (G : Type) (o : MathOps F) (pick : List (Nat × F) → Nat) (r : Rng G F) (s t : Activity A F G) (k i : Nat),
      (∀ y, |o.tanh y| ≤ 1) → Reservoir.Pick.Valid pick → s.Ready → s.p.dt = dt →
      Iterates (Activity.iteration o pick r) s k t → s.p.nBots ≤ i → i < s.network.agents.length →
      0 < attr ActiveAgent.reluctance s.network.agents i →
      |attr ActiveAgent.opinion t.network.agents i| ≤
        (1 - dt + dt ^ 2 / 2 - dt ^ 3 / 6 + dt ^ 4 / 24) ^ k * |attr ActiveAgent.opinion s.network.agents i| +
          C * (|s.p.K| * s.network.agents.length / attr ActiveAgent.reluctance s.network.agents i) := by
  have hq0 : 0 < decay dt := decay_pos dt
  have hq1 : decay dt < 1 := (decay_lt_iff h0).mpr h1
  have h1q : 0 < 1 - decay dt := by linarith
  refine ⟨hq0, hq1, rkSum dt / (1 - decay dt), div_nonneg (rkSum_nonneg _) h1q.le, ?_⟩
  intro G o pick r s t k i htanh hp hr hdt ht hib hi hm
  set Γ := |s.p.K| * s.network.agents.length / attr ActiveAgent.reluctance s.network.agents i with hΓ
  have hΓ0 : 0 ≤ Γ := by rw [hΓ]; exact div_nonneg (by positivity) hm.le
  have hS : 0 ≤ rkSum dt / (1 - decay dt) * Γ := mul_nonneg (div_nonneg (rkSum_nonneg _) h1q.le) hΓ0
  change _ ≤ decay dt ^ k * _ + _
  induction ht with
  | zero => simp only [pow_zero, one_mul]; linarith
  | @succ k t u ht hu ih =>
    have h := Activity.affine_iterates htanh hp hr ht hu hib hi hm
    rw [hdt, ← hΓ] at h
    have h2 : |attr ActiveAgent.opinion u.network.agents i| ≤ decay dt * |attr ActiveAgent.opinion t.network.agents i| + rkSum dt * Γ := by
      have e := abs_add_le (attr ActiveAgent.opinion u.network.agents i - decay dt * attr ActiveAgent.opinion t.network.agents i)
        (decay dt * attr ActiveAgent.opinion t.network.agents i)
      rw [sub_add_cancel, abs_mul (decay dt), abs_of_pos hq0] at e
      linarith
    have h3 := mul_le_mul_of_nonneg_left ih hq0.le
    have e : decay dt * (rkSum dt / (1 - decay dt) * Γ) + rkSum dt * Γ = rkSum dt / (1 - decay dt) * Γ := by
      field_simp; ring
    calc |attr ActiveAgent.opinion u.network.agents i|
        ≤ decay dt * (decay dt ^ k * |attr ActiveAgent.opinion s.network.agents i| + rkSum dt / (1 - decay dt) * Γ) + rkSum dt * Γ := by linarith
      _ = decay dt ^ (k + 1) * |attr ActiveAgent.opinion s.network.agents i| + (decay dt * (rkSum dt / (1 - decay dt) * Γ) + rkSum dt * Γ) := by ring
      _ = _ := by rw [e]

/-- C84, unstable step sizes: if `dt³ - 4 dt² + 12 dt > 24`, then `q = 1 - dt + dt²/2 - dt³/6 + dt⁴/24 > 1` and an agent whose opinion is
larger than `C |K| n / m_i` runs away: `|x_i| ≥ q^k (|x_i(0)| - C |K| n / m_i)` after `k` iterations, whatever the random draws. -/
theorem C84_unstable {dt : F} (h0 : 0 < dt) (h1 : 24 < dt ^ 3 - 4 * dt ^ 2 + 12 * dt) :
    1 < 1 - dt + dt ^ 2 / 2 - dt ^ 3 / 6 + dt ^ 4 / 24 ∧ ∃ C : F, 0 ≤ C ∧
    ∀ (G : Type) (o : MathOps F) (pick : List (Nat × F) → Nat) (r : Rng G F) (s t : Activity A F G) (k i : Nat),
      (∀ y, |o.tanh y| ≤ 1) → Reservoir.Pick.Valid pick → s.Ready → s.p.dt = dt →
      Iterates (Activity.iteration o pick r) s k t → s.p.nBots ≤ i → i < s.network.agents.length →
      0 < attr ActiveAgent.reluctance s.network.agents i →
      (1 - dt + dt ^ 2 / 2 - dt ^ 3 / 6 + dt ^ 4 / 24) ^ k * (|attr ActiveAgent.opinion s.network.agents i| -
          C * (|s.p.K| * s.network.agents.length / attr ActiveAgent.reluctance s.network.agents i)) ≤
        |attr ActiveAgent.opinion t.network.agents i| := by
  have hq0 : 0 < decay dt := decay_pos dt
  have hq1 : 1 < decay dt := (lt_decay_iff h0).mpr h1
  have h1q : 0 < decay dt - 1 := by linarith
  refine ⟨hq1, rkSum dt / (decay dt - 1), div_nonneg (rkSum_nonneg _) h1q.le, ?_⟩
  intro G o pick r s t k i htanh hp hr hdt ht hib hi hm
  set Γ := |s.p.K| * s.network.agents.length / attr ActiveAgent.reluctance s.network.agents i with hΓ
  have hΓ0 : 0 ≤ Γ := by rw [hΓ]; exact div_nonneg (by positivity) hm.le
  have hS : 0 ≤ rkSum dt / (decay dt - 1) * Γ := mul_nonneg (div_nonneg (rkSum_nonneg _) h1q.le) hΓ0
  change decay dt ^ k * _ ≤ _
  have key : decay dt ^ k * (|attr ActiveAgent.opinion s.network.agents i| - rkSum dt / (decay dt - 1) * Γ) ≤
      |attr ActiveAgent.opinion t.network.agents i| - rkSum dt / (decay dt - 1) * Γ := by
    induction ht with
    | zero => simp only [pow_zero, one_mul, le_refl]
    | @succ k t u ht hu ih =>
      have h := Activity.affine_iterates htanh hp hr ht hu hib hi hm
      rw [hdt, ← hΓ] at h
      have h2 : decay dt * |attr ActiveAgent.opinion t.network.agents i| - rkSum dt * Γ ≤ |attr ActiveAgent.opinion u.network.agents i| := by
        have e := abs_sub_abs_le_abs_sub (decay dt * attr ActiveAgent.opinion t.network.agents i) (attr ActiveAgent.opinion u.network.agents i)
        rw [abs_sub_comm, abs_mul (decay dt), abs_of_pos hq0] at e
        linarith
      have h3 := mul_le_mul_of_nonneg_left ih hq0.le
      have e : decay dt * (rkSum dt / (decay dt - 1) * Γ) - rkSum dt * Γ = rkSum dt / (decay dt - 1) * Γ := by
        field_simp; ring
      rw [pow_succ']
      linarith
  linarith

/-- C84: in decimal numbers, step sizes up to 2.78 are stable, step sizes from 2.79 on are not. -/
theorem C84_threshold {dt : F} : (0 < dt → dt ≤ 278 / 100 → dt ^ 3 - 4 * dt ^ 2 + 12 * dt < 24) ∧
    (279 / 100 ≤ dt → 24 < dt ^ 3 - 4 * dt ^ 2 + 12 * dt) := by
  constructor
  · intro h0 h1
    nlinarith [mul_nonneg (sub_nonneg.mpr h1) (show 0 ≤ dt ^ 2 - 122 / 100 * dt + 86084 / 10000 by nlinarith [sq_nonneg (dt - 61 / 100)])]
  · intro h1
    nlinarith [mul_nonneg (sub_nonneg.mpr h1) (show 0 ≤ dt ^ 2 - 121 / 100 * dt + 86241 / 10000 by nlinarith [sq_nonneg (dt - 605 / 1000)])]

end

/-- C84: the settings check does not look at the size of `dt`: it accepts a configuration with any positive step size, if it accepts it with
another one. -/
theorem C84_accepted [Field F] [LinearOrder F] {s : ActivitySettings F} {dt : F} (h : Config.validateActivity s = .ok ()) (hd : 0 < dt) :
    Config.validateActivity { s with dt := dt } = .ok () := by
  unfold Config.validateActivity at h ⊢
  obtain ⟨u, -, h⟩ := Res.bind_eq_ok.mp h
  rw [show Config.check (decide (0 < dt)) = .ok () by unfold Config.check; simp [hd], Res.bind_ok]
  exact h

/-- The hypotheses of `C84_bounded` are met beyond the range of C46, e.g. with `dt = 2`; those of `C84_unstable` with `dt = 3`. -/
example : ∃ C : ℝ, ∀ k, ∃ t, Iterates (Activity.iteration realOps (fun _ => 0) halfRng) (botPair.withDt 2) k t ∧
    |attr ActiveAgent.opinion t.network.agents 1| ≤ (1 - 2 + 2 ^ 2 / 2 - 2 ^ 3 / 6 + 2 ^ 4 / 24) ^ k * 0 + C * 2 := by
  obtain ⟨-, -, C, -, h⟩ := C84_bounded (A := ActivityAgent ℝ) (dt := (2 : ℝ)) (by norm_num) (by norm_num)
  refine ⟨C, fun k => ?_⟩
  obtain ⟨run, hrun⟩ := C75_run_exists realOps firstPick_valid halfRng (botPair_ready 2)
  have := h Unit realOps (fun _ => 0) halfRng (botPair.withDt 2) (run k) k 1 (fun y => (Real.abs_tanh_lt_one y).le) firstPick_valid
    (botPair_ready 2) rfl (hrun k) (Nat.le_refl 1) (by show 1 < 2; norm_num) (by show (0 : ℝ) < 1; norm_num)
  refine ⟨run k, hrun k, ?_⟩
  have e1 : attr ActiveAgent.opinion (botPair.withDt 2).network.agents 1 = (0 : ℝ) := rfl
  have e3 : attr ActiveAgent.reluctance (botPair.withDt 2).network.agents 1 = (1 : ℝ) := rfl
  have e4 : (botPair.withDt 2).network.agents.length = 2 := rfl
  have e5 : (botPair.withDt 2).p.K = 1 := rfl
  rw [e1, e3, e4, e5] at this
  norm_num at this ⊢
  exact this

example : (0 : ℚ) < 3 ∧ (24 : ℚ) < 3 ^ 3 - 4 * 3 ^ 2 + 12 * 3 := by norm_num

end Seldon
