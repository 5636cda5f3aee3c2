import Verif.Lemmas.Coupled
import Verif.Props.MeanDynamics
/-!
# Property C103: weak interaction in the inertial model
-/
set_option linter.unusedSectionVars false
namespace Seldon
open Spec Filter Topology
variable {G : Type}

/-- The influence of the others on agent `i` when the opinions are `y`. -/
noncomputable def Inertial.pull (o : MathOps ℝ) (p : ActivitySettings ℝ) (m : Nat → ℝ) (N : Network (InertialAgent ℝ) ℝ) (y : Nat → ℝ) (i : Nat) : ℝ :=
  p.K / m i * weightedSum N (fun j => o.tanh (p.alpha * y j)) i

theorem Inertial.pull_bound {o : MathOps ℝ} (htanh : ∀ y z, |o.tanh y - o.tanh z| ≤ |y - z|) {p : ActivitySettings ℝ} {m : Nat → ℝ}
    {N : Network (InertialAgent ℝ) ℝ} {n i : Nat} {L W X : ℝ} (hr : ∀ e ∈ row N i, e.1 < n) (hW : absWeight N i ≤ W) (hm : 0 < m i)
    (hw : |p.K * p.alpha| * W ≤ L * m i) {y z : Nat → ℝ} (hX : ∀ l, l < n → |y l - z l| ≤ X) (hX0 : 0 ≤ X) :
    |Inertial.pull o p m N y i - Inertial.pull o p m N z i| ≤ L * X := by
  unfold Inertial.pull
  rw [← mul_sub, weightedSum_sub, abs_mul, abs_div, abs_of_pos hm, div_mul_eq_mul_div, div_le_iff₀ hm]
  have h1 : |weightedSum N (fun j => o.tanh (p.alpha * y j) - o.tanh (p.alpha * z j)) i| ≤ absWeight N i * (|p.alpha| * X) := by
    apply weightedSum_scaled
    intro e he
    refine (htanh _ _).trans ?_
    rw [← mul_sub, abs_mul]
    exact mul_le_mul_of_nonneg_left (hX _ (hr e he)) (abs_nonneg _)
  calc |p.K| * _ ≤ |p.K| * (absWeight N i * (|p.alpha| * X)) := mul_le_mul_of_nonneg_left h1 (abs_nonneg _)
    _ ≤ |p.K| * (W * (|p.alpha| * X)) := by gcongr
    _ = (|p.K * p.alpha| * W) * X := by rw [abs_mul]; ring
    _ ≤ (L * m i) * X := mul_le_mul_of_nonneg_right hw hX0
    _ = L * X * m i := by ring

/-- One iteration without bots. -/
theorem Inertial.kick_exact {o : MathOps ℝ} {pick : List (Nat × ℝ) → Nat} {r : Rng G ℝ} {s t : Inertial ℝ G}
    (h : Inertial.iteration o pick r s = .ok t) (hwf : WF t.base.network) (hc : -2 < s.friction * s.base.p.dt) (hb : s.base.p.nBots = 0) {i : Nat}
    (hi : i < s.base.network.agents.length) :
    ∃ x', (∀ l, l < s.base.network.agents.length → x' l = attr (·.opinion) t.base.network.agents l) ∧
      Stability.Kick s.friction s.base.p.dt
        (Inertial.pull o s.base.p (attr (·.reluctance) s.base.network.agents) t.base.network (attr (·.opinion) s.base.network.agents) i)
        (Inertial.pull o s.base.p (attr (·.reluctance) s.base.network.agents) t.base.network x' i)
        (attr (·.opinion) s.base.network.agents i) (attr (·.velocity) s.base.network.agents i)
        (attr (·.opinion) t.base.network.agents i) (attr (·.velocity) t.base.network.agents i) := by
  obtain ⟨x', hV, hx⟩ := C50_verlet h hwf hc
  have e : ∀ l, l < s.base.network.agents.length → x' l = attr (·.opinion) t.base.network.agents l := fun l hl => (hx l (by omega) hl).symm
  refine ⟨x', e, ?_⟩
  rw [← e i hi]
  exact ⟨hV.position i hi, hV.velocity i hi⟩

/-- Histories without bots whose networks have total weights of at most `W`. -/
def Inertial.Tame (o : MathOps ℝ) (pick : List (Nat × ℝ) → Nat) (r : Rng G ℝ) (s : Inertial ℝ G) (W : ℝ) : Prop :=
  ∀ j u w, Iterates (Inertial.iteration o pick r) s j u → Inertial.iteration o pick r u = .ok w →
    WF w.base.network ∧ ∀ i, i < s.base.network.agents.length → absWeight w.base.network i ≤ W

theorem Inertial.tame {o : MathOps ℝ} {pick : List (Nat × ℝ) → Nat} (hp : Reservoir.Pick.Valid pick) {r : Rng G ℝ} {s : Inertial ℝ G} (h : s.base.Ready) :
    Inertial.Tame o pick r s s.base.network.agents.length := by
  intro j u w hu hw
  have hr : u.base.Ready := by
    clear hw
    induction hu with
    | zero => exact h
    | succ _ h' ih => exact Inertial.ready_next hp ih h'
  have hlen : u.base.network.agents.length = s.base.network.agents.length := by
    have := congrArg List.length (C42_inertial hu).1; simpa using this
  obtain ⟨gs, buf, contacts, w', hw', hF, -⟩ := C43_inertial (o := o) hp r hr
  obtain rfl := Except.ok.inj (hw.symm.trans hw')
  have hn : w.base.network.agents.length = s.base.network.agents.length := by
    rw [(Inertial.iteration_frame hw).1.traits.length, hlen]
  exact ⟨hF.wf, fun i _ => absWeight_le (hF.ones i) (hF.nodup i) (fun e he => by rw [← hn]; exact NetLemmas.row_lt hF.wf he)⟩

theorem Inertial.tame_mean {o : MathOps ℝ} (ho : Spec.Powers o) {pick : List (Nat × ℝ) → Nat} {r : Rng G ℝ} {s : Inertial ℝ G} {c : Nat}
    (h : Spec.MeanField s.base c) : Inertial.Tame o pick r s (s.base.network.agents.length * (c : ℝ) ^ 2) := by
  intro j u w hu hw
  have hlen : u.base.network.agents.length = s.base.network.agents.length := by
    have := congrArg List.length (C42_inertial hu).1; simpa using this
  have hst := (h.iterates_inertial ho hu).inertial ho hw
  have htot := hst.total
  rw [hlen] at htot
  exact ⟨hst.wf, htot⟩

/-- The kicks along a history. -/
theorem Inertial.history {o : MathOps ℝ} {pick : List (Nat × ℝ) → Nat} {r : Rng G ℝ} {s u w : Inertial ℝ G} {W : ℝ} {j : Nat}
    (h : Inertial.Tame o pick r s W) (hb : s.base.p.nBots = 0) (hc : -2 < s.friction * s.base.p.dt)
    (hu : Iterates (Inertial.iteration o pick r) s j u) (hw : Inertial.iteration o pick r u = .ok w) {i : Nat} (hi : i < s.base.network.agents.length) :
    (∀ e ∈ row w.base.network i, e.1 < s.base.network.agents.length) ∧ absWeight w.base.network i ≤ W ∧
    ∃ x', (∀ l, l < s.base.network.agents.length → x' l = attr (·.opinion) w.base.network.agents l) ∧
      Stability.Kick s.friction s.base.p.dt
        (Inertial.pull o s.base.p (attr (·.reluctance) s.base.network.agents) w.base.network (attr (·.opinion) u.base.network.agents) i)
        (Inertial.pull o s.base.p (attr (·.reluctance) s.base.network.agents) w.base.network x' i)
        (attr (·.opinion) u.base.network.agents i) (attr (·.velocity) u.base.network.agents i)
        (attr (·.opinion) w.base.network.agents i) (attr (·.velocity) w.base.network.agents i) := by
  obtain ⟨-, c2, c3, c4, -⟩ := C42_inertial hu
  have hlen : u.base.network.agents.length = s.base.network.agents.length := by
    have := congrArg List.length c2; simpa using this
  have hrel : attr (·.reluctance) u.base.network.agents = attr (·.reluctance) s.base.network.agents := by
    funext l; unfold attr; rw [c2]
  obtain ⟨hwf, hW⟩ := h j u w hu hw
  have hk := Inertial.kick_exact hw hwf (by rw [c3, c4]; exact hc) (by rw [c3]; exact hb) (i := i) (by rw [hlen]; exact hi)
  rw [hlen, hrel, c3, c4] at hk
  refine ⟨fun e he => ?_, hW i hi, hk⟩
  rw [← hlen, ← (Inertial.iteration_frame hw).1.traits.length]
  exact NetLemmas.row_lt hwf he

/-- Both parts of C103 for any histories with bounded weights. -/
theorem Inertial.weak {dt f : ℝ} (h0 : 0 < dt) (h2 : dt < 2) (hf : 0 < f) : ∃ κ C q : ℝ, 0 < κ ∧ 0 ≤ C ∧ 0 ≤ q ∧ q < 1 ∧
    (∀ (G : Type) (o : MathOps ℝ) (pick : List (Nat × ℝ) → Nat) (r : Rng G ℝ) (s t : Inertial ℝ G) (k : Nat) (W M : ℝ),
      (∀ y z, |o.tanh y - o.tanh z| ≤ |y - z|) → o.tanh 0 = 0 → Inertial.Tame o pick r s W → s.base.p.nBots = 0 → s.base.p.dt = dt → s.friction = f →
      (∀ i, i < s.base.network.agents.length → 0 < attr (·.reluctance) s.base.network.agents i) →
      (∀ i, i < s.base.network.agents.length → |s.base.p.K * s.base.p.alpha| * W ≤ κ * attr (·.reluctance) s.base.network.agents i) →
      (∀ i, i < s.base.network.agents.length → |attr (·.opinion) s.base.network.agents i| + |attr (·.velocity) s.base.network.agents i| ≤ M) →
      Iterates (Inertial.iteration o pick r) s k t → ∀ i, i < s.base.network.agents.length →
        |attr (·.opinion) t.base.network.agents i| ≤ C * q ^ k * M ∧ |attr (·.velocity) t.base.network.agents i| ≤ C * q ^ k * M) ∧
    (∀ (G : Type) (o : MathOps ℝ) (pick : List (Nat × ℝ) → Nat) (r : Rng G ℝ) (s t s' t' : Inertial ℝ G) (k : Nat) (W M : ℝ),
      (∀ y z, |o.tanh y - o.tanh z| ≤ |y - z|) → (∀ x, o.pow x 0 = 1) → Inertial.Tame o pick r s W → Inertial.Tame o pick r s' W →
      Spec.SameStart s.base s'.base → s'.base.p = s.base.p → s'.friction = s.friction →
      s'.base.network.agents.map (·.reluctance) = s.base.network.agents.map (·.reluctance) →
      s.base.p.nBots = 0 → s.base.p.dt = dt → s.friction = f →
      (∀ i, i < s.base.network.agents.length → 0 < attr (·.reluctance) s.base.network.agents i) →
      (∀ i, i < s.base.network.agents.length → |s.base.p.K * s.base.p.alpha| * W ≤ κ * attr (·.reluctance) s.base.network.agents i) →
      (∀ i, i < s.base.network.agents.length → |attr (·.opinion) s.base.network.agents i - attr (·.opinion) s'.base.network.agents i| +
        |attr (·.velocity) s.base.network.agents i - attr (·.velocity) s'.base.network.agents i| ≤ M) →
      Iterates (Inertial.iteration o pick r) s k t → Iterates (Inertial.iteration o pick r) s' k t' → ∀ i, i < s.base.network.agents.length →
        |attr (·.opinion) t.base.network.agents i - attr (·.opinion) t'.base.network.agents i| ≤ C * q ^ k * M ∧
        |attr (·.velocity) t.base.network.agents i - attr (·.velocity) t'.base.network.agents i| ≤ C * q ^ k * M) := by
  have hfh : 0 < f * dt := mul_pos hf h0
  obtain ⟨κ, C, q, hκ, hC, hq0, hq1, hB⟩ := Stability.coupled_decay hf h0 h2
  refine ⟨κ, C, q, hκ, hC, hq0, hq1, ?_, ?_⟩
  · intro G o pick r s t k W M htanh hz hT hb hdt hfr hm hw hM ht i hi
    obtain ⟨st, e0, ek, hs, hI⟩ := iterates_seq ht
    have := hB κ s.base.network.agents.length k (fun j => attr (·.opinion) (st j).base.network.agents) (fun j => attr (·.velocity) (st j).base.network.agents) M
      hκ.le le_rfl ?_ (by simpa only [e0] using hM) k le_rfl i hi
    · simpa only [ek] using this
    · intro j hj i hi
      obtain ⟨hrow, hW, x', hx', hk⟩ := Inertial.history hT hb (by rw [hdt, hfr]; linarith) (hI j hj.le) (hs j hj) hi
      rw [hdt, hfr] at hk
      refine ⟨_, _, hk, fun X hX => ?_, fun X hX => ?_⟩
      · have := Inertial.pull_bound htanh hrow hW (hm i hi) (hw i hi) (z := fun _ => 0) (X := X) (by simpa using hX) ((abs_nonneg _).trans (hX i hi))
        have e : Inertial.pull o s.base.p (attr (·.reluctance) s.base.network.agents) (st (j + 1)).base.network (fun _ => 0) i = 0 := by
          unfold Inertial.pull weightedSum
          simp [hz]
        rwa [e, sub_zero] at this
      · have := Inertial.pull_bound htanh hrow hW (hm i hi) (hw i hi) (y := x') (z := fun _ => 0) (X := X)
          (fun l hl => by rw [hx' l hl, sub_zero]; exact hX l hl) ((abs_nonneg _).trans (hX i hi))
        have e : Inertial.pull o s.base.p (attr (·.reluctance) s.base.network.agents) (st (j + 1)).base.network (fun _ => 0) i = 0 := by
          unfold Inertial.pull weightedSum
          simp [hz]
        rwa [e, sub_zero] at this
  · intro G o pick r s t s' t' k W M htanh hpow hT hT' hSS hpp hff hrel hb hdt hfr hm hw hM ht ht' i hi
    obtain ⟨st, e0, ek, hs, hI⟩ := iterates_seq ht
    obtain ⟨st', e0', ek', hs', hI'⟩ := iterates_seq ht'
    have hlen : s'.base.network.agents.length = s.base.network.agents.length := by
      have := congrArg List.length hrel; simpa using this
    have erel : attr (·.reluctance) s'.base.network.agents = attr (·.reluctance) s.base.network.agents := by
      funext l; unfold attr; rw [hrel]
    have := hB κ s.base.network.agents.length k
      (fun j l => attr (·.opinion) (st j).base.network.agents l - attr (·.opinion) (st' j).base.network.agents l)
      (fun j l => attr (·.velocity) (st j).base.network.agents l - attr (·.velocity) (st' j).base.network.agents l) M
      hκ.le le_rfl ?_ (by simpa only [e0, e0'] using hM) k le_rfl i hi
    · simpa only [ek, ek'] using this
    · intro j hj i hi
      obtain ⟨hrow, hW, x', hx', hk⟩ := Inertial.history hT hb (by rw [hdt, hfr]; linarith) (hI j hj.le) (hs j hj) hi
      obtain ⟨-, -, y', hy', hk'⟩ := Inertial.history hT' (by rw [hpp]; exact hb) (by rw [hpp, hff, hdt, hfr]; linarith) (hI' j hj.le) (hs' j hj)
        (i := i) (by rw [hlen]; exact hi)
      have hsame := iterates_rel (R := fun s s' : Inertial ℝ G => Spec.SameStart s.base s'.base)
        (fun a b a' b' h h1 h2 => Spec.SameStart.inertial (by simpa using hpow) h h1 h2) hSS (hI (j + 1) hj) (hI' (j + 1) hj)
      have hrw : ∀ (m : Nat → ℝ) (y : Nat → ℝ) (i : Nat), Inertial.pull o s.base.p m (st' (j + 1)).base.network y i =
          Inertial.pull o s.base.p m (st (j + 1)).base.network y i := by
        intro m y i
        have : row (st' (j + 1)).base.network i = row (st (j + 1)).base.network i := by
          unfold row; rw [hsame.network.neighbours, hsame.network.weights]
        unfold Inertial.pull weightedSum
        rw [this]
      rw [hlen] at hy'
      rw [hpp, hff, erel, hrw, hrw, hdt, hfr] at hk'
      rw [hdt, hfr] at hk
      refine ⟨_, _, hk.diff hk', fun X hX => ?_, fun X hX => ?_⟩
      · exact Inertial.pull_bound htanh hrow hW (hm i hi) (hw i hi) hX ((abs_nonneg _).trans (hX i hi))
      · exact Inertial.pull_bound htanh hrow hW (hm i hi) (hw i hi) (fun l hl => by rw [hx' l hl, hy' l hl]; exact hX l hl) ((abs_nonneg _).trans (hX i hi))


/-- C103: how weak the interaction has to be depends on the time step and the friction only. Then, without bots, all opinions and velocities
decay exponentially, in both modes. -/
theorem C103_decay {dt f : ℝ} (h0 : 0 < dt) (h2 : dt < 2) (hf : 0 < f) : ∃ κ C q : ℝ, 0 < κ ∧ 0 ≤ C ∧ 0 ≤ q ∧ q < 1 ∧
    ∀ (G : Type) (o : MathOps ℝ) (pick : List (Nat × ℝ) → Nat) (r : Rng G ℝ) (s t : Inertial ℝ G) (c k : Nat) (W M : ℝ),
      (∀ y z, |o.tanh y - o.tanh z| ≤ |y - z|) → o.tanh 0 = 0 → s.base.p.nBots = 0 → s.base.p.dt = dt → s.friction = f →
      (Reservoir.Pick.Valid pick ∧ s.base.Ready ∧ W = s.base.network.agents.length ∨
        Spec.Powers o ∧ Spec.MeanField s.base c ∧ W = s.base.network.agents.length * (c : ℝ) ^ 2) →
      (∀ i, i < s.base.network.agents.length → 0 < attr (·.reluctance) s.base.network.agents i) →
      (∀ i, i < s.base.network.agents.length → |s.base.p.K * s.base.p.alpha| * W ≤ κ * attr (·.reluctance) s.base.network.agents i) →
      (∀ i, i < s.base.network.agents.length → |attr (·.opinion) s.base.network.agents i| + |attr (·.velocity) s.base.network.agents i| ≤ M) →
      Iterates (Inertial.iteration o pick r) s k t → ∀ i, i < s.base.network.agents.length →
        |attr (·.opinion) t.base.network.agents i| ≤ C * q ^ k * M ∧ |attr (·.velocity) t.base.network.agents i| ≤ C * q ^ k * M := by
  obtain ⟨κ, C, q, a, b, c, d, h, -⟩ := Inertial.weak h0 h2 hf
  refine ⟨κ, C, q, a, b, c, d, fun G o pick r s t c k W M htanh hz hb hdt hfr hW => ?_⟩
  refine h G o pick r s t k W M htanh hz ?_ hb hdt hfr
  rcases hW with ⟨hp, hr, rfl⟩ | ⟨ho, hm, rfl⟩
  · exact Inertial.tame hp hr
  · exact Inertial.tame_mean ho hm

/-- C103: without homophily, two runs with the same random numbers which differ in the opinions and velocities at the start approach each other
exponentially, in both modes. -/
theorem C103_forget {dt f : ℝ} (h0 : 0 < dt) (h2 : dt < 2) (hf : 0 < f) : ∃ κ C q : ℝ, 0 < κ ∧ 0 ≤ C ∧ 0 ≤ q ∧ q < 1 ∧
    ∀ (G : Type) (o : MathOps ℝ) (pick : List (Nat × ℝ) → Nat) (r : Rng G ℝ) (s t s' t' : Inertial ℝ G) (c k : Nat) (W M : ℝ),
      (∀ y z, |o.tanh y - o.tanh z| ≤ |y - z|) → (∀ x, o.pow x 0 = 1) → s.base.p.nBots = 0 → s.base.p.dt = dt → s.friction = f →
      (Reservoir.Pick.Valid pick ∧ s.base.Ready ∧ s'.base.Ready ∧ W = s.base.network.agents.length ∨
        Spec.Powers o ∧ Spec.MeanField s.base c ∧ Spec.MeanField s'.base c ∧ W = s.base.network.agents.length * (c : ℝ) ^ 2) →
      Spec.SameStart s.base s'.base → s'.base.p = s.base.p → s'.friction = s.friction →
      s'.base.network.agents.map (·.reluctance) = s.base.network.agents.map (·.reluctance) →
      (∀ i, i < s.base.network.agents.length → 0 < attr (·.reluctance) s.base.network.agents i) →
      (∀ i, i < s.base.network.agents.length → |s.base.p.K * s.base.p.alpha| * W ≤ κ * attr (·.reluctance) s.base.network.agents i) →
      (∀ i, i < s.base.network.agents.length → |attr (·.opinion) s.base.network.agents i - attr (·.opinion) s'.base.network.agents i| +
        |attr (·.velocity) s.base.network.agents i - attr (·.velocity) s'.base.network.agents i| ≤ M) →
      Iterates (Inertial.iteration o pick r) s k t → Iterates (Inertial.iteration o pick r) s' k t' → ∀ i, i < s.base.network.agents.length →
        |attr (·.opinion) t.base.network.agents i - attr (·.opinion) t'.base.network.agents i| ≤ C * q ^ k * M ∧
        |attr (·.velocity) t.base.network.agents i - attr (·.velocity) t'.base.network.agents i| ≤ C * q ^ k * M := by
  obtain ⟨κ, C, q, a, b, c, d, -, h⟩ := Inertial.weak h0 h2 hf
  refine ⟨κ, C, q, a, b, c, d, fun G o pick r s t s' t' c k W M htanh hz hb hdt hfr hW hS hp hff hrel => ?_⟩
  have hlen : s'.base.network.agents.length = s.base.network.agents.length := by
    have := congrArg List.length hrel; simpa using this
  rcases hW with ⟨hpick, hr, hr', rfl⟩ | ⟨ho, hm, hm', rfl⟩
  · exact h G o pick r s t s' t' k _ M htanh hz (Inertial.tame hpick hr) (by have := Inertial.tame (o := o) (r := r) hpick hr'; rwa [hlen] at this) hS hp hff hrel hb hdt hfr
  · exact h G o pick r s t s' t' k _ M htanh hz (Inertial.tame_mean ho hm)
      (by have := Inertial.tame_mean (pick := pick) (r := r) ho hm'; rwa [hlen] at this) hS hp hff hrel hb hdt hfr

/-- C103: under weak interaction every opinion and every velocity tends to 0 (the real tanh). -/
theorem C103_limit {dt f : ℝ} (h0 : 0 < dt) (h2 : dt < 2) (hf : 0 < f) : ∃ κ : ℝ, 0 < κ ∧
    ∀ (G : Type) (o : MathOps ℝ) (pick : List (Nat × ℝ) → Nat) (r : Rng G ℝ) (s : Inertial ℝ G) (c : Nat) (W : ℝ) (run : Nat → Inertial ℝ G),
      o.tanh = Real.tanh → s.base.p.nBots = 0 → s.base.p.dt = dt → s.friction = f →
      (Reservoir.Pick.Valid pick ∧ s.base.Ready ∧ W = s.base.network.agents.length ∨
        Spec.Powers o ∧ Spec.MeanField s.base c ∧ W = s.base.network.agents.length * (c : ℝ) ^ 2) →
      (∀ i, i < s.base.network.agents.length → 0 < attr (·.reluctance) s.base.network.agents i) →
      (∀ i, i < s.base.network.agents.length → |s.base.p.K * s.base.p.alpha| * W ≤ κ * attr (·.reluctance) s.base.network.agents i) →
      (∀ k, Iterates (Inertial.iteration o pick r) s k (run k)) → ∀ i, i < s.base.network.agents.length →
        Tendsto (fun k => attr (·.opinion) (run k).base.network.agents i) atTop (𝓝 0) ∧
        Tendsto (fun k => attr (·.velocity) (run k).base.network.agents i) atTop (𝓝 0) := by
  obtain ⟨κ, C, q, a, b, hq0, hq1, h⟩ := C103_decay h0 h2 hf
  refine ⟨κ, a, fun G o pick r s c W run ht hb hdt hfr hW hm hw hrun i hi => ?_⟩
  set M := ∑ i ∈ Finset.range s.base.network.agents.length, (|attr (·.opinion) s.base.network.agents i| + |attr (·.velocity) s.base.network.agents i|) with hM
  have hx : ∀ i, i < s.base.network.agents.length → |attr (·.opinion) s.base.network.agents i| + |attr (·.velocity) s.base.network.agents i| ≤ M := fun i hi =>
    Finset.single_le_sum (f := fun i => |attr (·.opinion) s.base.network.agents i| + |attr (·.velocity) s.base.network.agents i|)
      (fun _ _ => add_nonneg (abs_nonneg _) (abs_nonneg _)) (Finset.mem_range.mpr hi)
  have key := fun k => h G o pick r s (run k) c k W M (by rw [ht]; exact tanh_lipschitz) (by rw [ht]; exact Real.tanh_zero) hb hdt hfr hW hm hw hx (hrun k) i hi
  have lim : Tendsto (fun k : Nat => C * q ^ k * M) atTop (𝓝 0) := by
    have := ((tendsto_pow_atTop_nhds_zero_of_lt_one hq0 hq1).const_mul C).mul_const M
    simpa using this
  exact ⟨squeeze_zero_norm (fun k => (key k).1) lim, squeeze_zero_norm (fun k => (key k).2) lim⟩

/-- Two moving agents with interaction strength `K` and no homophily. -/
noncomputable def weakPair (K x : ℝ) : Inertial ℝ Unit where
  base :=
  { counter := ⟨none, 0⟩
    p := { maxIterations := none, dt := 1 / 100, m := 1, eps := 1 / 100, gamma := 2, alpha := 1, homophily := 0, reciprocity := 0, K := K,
           meanActivities := false, meanWeights := false, nBots := 0, botM := [], botActivity := [], botOpinion := [], botHomophily := [],
           useReluctances := false, reluctanceMean := 1, reluctanceSigma := 1, reluctanceEps := 1, covarianceFactor := 0 }
    network := ⟨[⟨x, 1, 1, -1⟩, ⟨0, 1, 1, 1⟩], [[], []], [[], []], .incoming⟩
    contactProb := [[], []]
    gen := () }
  friction := 2

theorem weakPair_ready (K x : ℝ) : (weakPair K x).base.Ready where
  wf := by
    refine ⟨rfl, rfl, ?_, ?_⟩
    · intro i hi hi'
      have : i < 2 := hi
      rcases i with _ | _ | i
      · rfl
      · rfl
      · omega
    · intro row hrow j hj
      have : row = [] := by simpa [weakPair] using hrow
      rw [this] at hj
      exact absurd hj List.not_mem_nil
  incoming := rfl
  fit := by
    have hc : ∀ i, contactsOf (weakPair K x).base.p i = 1 := by
      intro i
      unfold contactsOf
      rfl
    have hn : (weakPair K x).base.network.agents.length = 2 := rfl
    refine ⟨by rw [hn]; norm_num, Nat.zero_le _, Nat.le_refl 0, Nat.le_refl 0, ?_, ?_⟩
    · intro i hi; rw [hc i]; norm_num
    · intro i hi; rw [hc i]; norm_num [hn]
  botOpinion := Nat.le_refl 0
  probabilistic := rfl

-- the hypotheses are met: two moving agents with a positive interaction
example : ∃ K C q : ℝ, 0 < K ∧ 0 ≤ q ∧ q < 1 ∧ ∀ k, ∃ t, Iterates (Inertial.iteration realOps (fun _ => 0) halfRng) (weakPair K 1) k t ∧
    ∀ i, i < 2 → |attr (·.opinion) t.base.network.agents i| ≤ C * q ^ k * 2 := by
  obtain ⟨κ, C, q, hκ, -, hq0, hq1, h⟩ := C103_decay (dt := 1 / 100) (f := 2) (by norm_num) (by norm_num) (by norm_num)
  refine ⟨κ / 2, C, q, by positivity, hq0, hq1, fun k => ?_⟩
  obtain ⟨t, ht, -⟩ := C43_total_inertial (o := realOps) firstPick_valid halfRng (weakPair_ready (κ / 2) 1) k
  refine ⟨t, ht, fun i hi => (h Unit realOps (fun _ => 0) halfRng (weakPair (κ / 2) 1) t 1 k 2 2 tanh_lipschitz Real.tanh_zero rfl rfl rfl
    (.inl ⟨firstPick_valid, weakPair_ready _ _, by simp [weakPair]⟩) ?_ ?_ ?_ ht i hi).1⟩
  · intro i hi
    have : i < 2 := hi
    rcases i with _ | _ | i <;> first | omega | norm_num [weakPair, attr]
  · intro i hi
    have : i < 2 := hi
    rcases i with _ | _ | i <;> first | omega | (simp [weakPair, attr]; rw [abs_of_pos (by positivity)]; linarith)
  · intro i hi
    have : i < 2 := hi
    rcases i with _ | _ | i <;> first | omega | norm_num [weakPair, attr]

example : ∃ K C q : ℝ, 0 < K ∧ 0 ≤ q ∧ q < 1 ∧ ∀ k, ∃ t t', Iterates (Inertial.iteration realOps (fun _ => 0) halfRng) (weakPair K 1) k t ∧
    Iterates (Inertial.iteration realOps (fun _ => 0) halfRng) (weakPair K 5) k t' ∧
    ∀ i, i < 2 → |attr (·.opinion) t.base.network.agents i - attr (·.opinion) t'.base.network.agents i| ≤ C * q ^ k * 4 := by
  obtain ⟨κ, C, q, hκ, -, hq0, hq1, h⟩ := C103_forget (dt := 1 / 100) (f := 2) (by norm_num) (by norm_num) (by norm_num)
  refine ⟨κ / 2, C, q, by positivity, hq0, hq1, fun k => ?_⟩
  obtain ⟨t, ht, -⟩ := C43_total_inertial (o := realOps) firstPick_valid halfRng (weakPair_ready (κ / 2) 1) k
  obtain ⟨t', ht', -⟩ := C43_total_inertial (o := realOps) firstPick_valid halfRng (weakPair_ready (κ / 2) 5) k
  refine ⟨t, t', ht, ht', fun i hi => (h Unit realOps (fun _ => 0) halfRng (weakPair (κ / 2) 1) t (weakPair (κ / 2) 5) t' 1 k 2 4 tanh_lipschitz
    Real.rpow_zero rfl rfl rfl
    (.inl ⟨firstPick_valid, weakPair_ready _ _, weakPair_ready _ _, by simp [weakPair]⟩) ?_ rfl rfl rfl ?_ ?_ ?_ ht ht' i hi).1⟩
  · exact ⟨⟨rfl, rfl, rfl, rfl, rfl, rfl, rfl, rfl, fun b hb => absurd hb (List.not_mem_nil)⟩, ⟨rfl, rfl, rfl, rfl⟩, rfl, rfl⟩
  · intro i hi
    have : i < 2 := hi
    rcases i with _ | _ | i <;> first | omega | norm_num [weakPair, attr]
  · intro i hi
    have : i < 2 := hi
    rcases i with _ | _ | i <;> first | omega | (simp [weakPair, attr]; rw [abs_of_pos (by positivity)]; linarith)
  · intro i hi
    have : i < 2 := hi
    rcases i with _ | _ | i <;> first | omega | norm_num [weakPair, attr]

end Seldon
