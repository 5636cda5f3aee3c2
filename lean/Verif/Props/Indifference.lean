import Verif.Lemmas.Blind
import Verif.Props.Neutral
import Verif.Props.RunActivity
/-!
# Property C101: without homophily nobody's opinion influences who meets whom, and under weak interaction the initial opinions are forgotten
-/
set_option linter.unusedSectionVars false
namespace Seldon
open Spec Filter Topology
variable {A B F G : Type}

section
variable [ActiveAgent A F] [ActiveAgent B F] [Zero F] [One F] [Sub F] [Mul F] [Add F] [Div F] [Neg F] [NatCast F] [LT F] [LE F] [DecidableLT F]
  [DecidableLE F]

/-- The settings that concern contacts are the same (number of contacts, reciprocity, bots' contacts and homophilies, mean-field or not), and every homophily
is 0.  Nothing is said about `dt`, `K`, `alpha`, the reluctances or the opinions of the bots. -/
structure Spec.Indifferent (p p' : ActivitySettings F) : Prop where
  m : p'.m = p.m
  nBots : p'.nBots = p.nBots
  botM : p'.botM = p.botM
  reciprocity : p'.reciprocity = p.reciprocity
  meanWeights : p'.meanWeights = p.meanWeights
  botHomophily : p'.botHomophily = p.botHomophily
  zero : p.homophily = 0
  zero' : p'.homophily = 0
  botZero : ∀ h ∈ p.botHomophily, h = 0

/-- The same network: the agents have the same activities (not necessarily the same opinions or reluctances, or even the same type), everything else is equal. -/
structure Spec.SameContacts (N : Network A F) (N' : Network B F) : Prop where
  activity : N'.agents.map ActiveAgent.activity = N.agents.map ActiveAgent.activity
  neighbours : N'.neighbours = N.neighbours
  weights : N'.weights = N.weights
  direction : N'.direction = N.direction

theorem Spec.Indifferent.blind {p p' : ActivitySettings F} (h : Spec.Indifferent p p') :
    Blind.settings p' = Blind.settings p ∧ Blind.Indifferent p ∧ Blind.Indifferent p' := by
  refine ⟨?_, ⟨h.zero, h.botZero⟩, ⟨h.zero', by rw [h.botHomophily]; exact h.botZero⟩⟩
  unfold Blind.settings
  rw [h.m, h.nBots, h.botM, h.reciprocity, h.meanWeights, h.botHomophily, h.zero, h.zero']

theorem Spec.sameContacts_blind {N : Network A F} {N' : Network B F} : Spec.SameContacts N N' ↔ Blind.network N' = Blind.network N := by
  have key : N'.agents.map ActiveAgent.activity = N.agents.map ActiveAgent.activity ↔
      N'.agents.map Blind.agent = N.agents.map (Blind.agent (F := F)) := by
    constructor
    · intro h
      have := congrArg (List.map fun x => (⟨0, x, 0⟩ : ActivityAgent F)) h
      rw [List.map_map, List.map_map] at this
      exact this
    · intro h
      have := congrArg (List.map fun x : ActivityAgent F => x.activity) h
      rw [List.map_map, List.map_map] at this
      exact this
  unfold Blind.network Network.mapAgents
  rw [Network.mk.injEq, ← key]
  exact ⟨fun h => ⟨h.1, h.2, h.3, h.4⟩, fun h => ⟨h.1, h.2.1, h.2.2.1, h.2.2.2⟩⟩

/-- Two states from which the networks develop in the same way: the same settings for contacts, the same network, the same contact probabilities (used in the
mean-field model only) and the same state of the random number generator. -/
structure Spec.SameStart (s : Activity A F G) (s' : Activity B F G) : Prop where
  rules : Spec.Indifferent s.p s'.p
  network : Spec.SameContacts s.network s'.network
  contactProb : s'.contactProb = s.contactProb
  gen : s'.gen = s.gen

theorem Spec.SameStart.blind {s : Activity A F G} {s' : Activity B F G} (h : Spec.SameStart s s') : Blind.state s' = Blind.state s := by
  unfold Blind.state
  rw [h.rules.blind.1, Spec.sameContacts_blind.mp h.network, h.contactProb, h.gen]

variable {o : MathOps F} (ho : ∀ x, o.pow x (-0) = 1) {pick : List (Nat × F) → Nat} {r : Rng G F}
include ho

/-- One network update. -/
theorem Spec.SameStart.update {s u : Activity A F G} {s' u' : Activity B F G} (h : Spec.SameStart s s') (hu : Activity.updateNetwork o pick r s = .ok u)
    (hu' : Activity.updateNetwork o pick r s' = .ok u') : Spec.SameStart u u' := by
  have e := Blind.updateNetwork ho pick r h.rules.blind.2.1
  have e' := Blind.updateNetwork ho pick r h.rules.blind.2.2
  rw [hu, Res.map_ok] at e
  rw [hu', Res.map_ok, h.blind, e] at e'
  have e' : Blind.state u = Blind.state u' := Except.ok.inj e'
  have h1 : u.p = s.p := (Activity.updateNetwork_frame hu).2.1
  have h2 : u'.p = s'.p := (Activity.updateNetwork_frame hu').2.1
  unfold Blind.state at e'
  rw [Activity.mk.injEq] at e'
  refine ⟨by rw [h1, h2]; exact h.rules, Spec.sameContacts_blind.mpr e'.2.2.1.symm, e'.2.2.2.1.symm, e'.2.2.2.2.symm⟩

theorem Spec.SameStart.activity [LawfulActiveAgent A F] [LawfulActiveAgent B F] {s t : Activity A F G} {s' t' : Activity B F G} (h : Spec.SameStart s s')
    (ht : Activity.iteration o pick r s = .ok t) (ht' : Activity.iteration o pick r s' = .ok t') : Spec.SameStart t t' := by
  have f := (Activity.iteration_frame ht).1.traits
  have f' := (Activity.iteration_frame ht').1.traits
  unfold Activity.iteration at ht ht'
  obtain ⟨u, h1, ht⟩ := Res.bind_eq_ok.mp ht
  obtain ⟨u', h1', ht'⟩ := Res.bind_eq_ok.mp ht'
  obtain ⟨l, -, ht⟩ := Res.bind_eq_ok.mp ht
  obtain ⟨l', -, ht'⟩ := Res.bind_eq_ok.mp ht'
  obtain rfl := Except.ok.inj ht
  obtain rfl := Except.ok.inj ht'
  have k : Spec.SameStart { s with counter := s.counter.tick } { s' with counter := s'.counter.tick } := ⟨h.rules, h.network, h.contactProb, h.gen⟩
  have k := Spec.SameStart.update ho k h1 h1'
  exact ⟨k.rules, ⟨f'.1.trans (h.network.activity.trans f.1.symm), k.network.neighbours, k.network.weights, k.network.direction⟩, k.contactProb, k.gen⟩

theorem Spec.SameStart.inertial {s t s' t' : Inertial F G} (h : Spec.SameStart s.base s'.base)
    (ht : Inertial.iteration o pick r s = .ok t) (ht' : Inertial.iteration o pick r s' = .ok t') : Spec.SameStart t.base t'.base := by
  have f := (Inertial.iteration_frame ht).1.traits
  have f' := (Inertial.iteration_frame ht').1.traits
  unfold Inertial.iteration at ht ht'
  obtain ⟨u, h1, ht⟩ := Res.bind_eq_ok.mp ht
  obtain ⟨u', h1', ht'⟩ := Res.bind_eq_ok.mp ht'
  obtain ⟨l, -, ht⟩ := Res.bind_eq_ok.mp ht
  obtain ⟨l', -, ht'⟩ := Res.bind_eq_ok.mp ht'
  obtain rfl := Except.ok.inj ht
  obtain rfl := Except.ok.inj ht'
  have k : Spec.SameStart { s.base with counter := s.base.counter.tick } { s'.base with counter := s'.base.counter.tick } :=
    ⟨h.rules, h.network, h.contactProb, h.gen⟩
  have k := Spec.SameStart.update ho k h1 h1'
  exact ⟨k.rules, ⟨f'.1.trans (h.network.activity.trans f.1.symm), k.network.neighbours, k.network.weights, k.network.direction⟩, k.contactProb, k.gen⟩

theorem Spec.SameStart.mixed [LawfulActiveAgent A F] {s t : Activity A F G} {s' t' : Inertial F G} (h : Spec.SameStart s s'.base)
    (ht : Activity.iteration o pick r s = .ok t) (ht' : Inertial.iteration o pick r s' = .ok t') : Spec.SameStart t t'.base := by
  have f := (Activity.iteration_frame ht).1.traits
  have f' := (Inertial.iteration_frame ht').1.traits
  unfold Activity.iteration at ht
  unfold Inertial.iteration at ht'
  obtain ⟨u, h1, ht⟩ := Res.bind_eq_ok.mp ht
  obtain ⟨u', h1', ht'⟩ := Res.bind_eq_ok.mp ht'
  obtain ⟨l, -, ht⟩ := Res.bind_eq_ok.mp ht
  obtain ⟨l', -, ht'⟩ := Res.bind_eq_ok.mp ht'
  obtain rfl := Except.ok.inj ht
  obtain rfl := Except.ok.inj ht'
  have k : Spec.SameStart { s with counter := s.counter.tick } { s'.base with counter := s'.base.counter.tick } :=
    ⟨h.rules, h.network, h.contactProb, h.gen⟩
  have k := Spec.SameStart.update ho k h1 h1'
  exact ⟨k.rules, ⟨f'.1.trans (h.network.activity.trans f.1.symm), k.network.neighbours, k.network.weights, k.network.direction⟩, k.contactProb, k.gen⟩

omit ho in
/-- Two histories of the same length, step by step. -/
theorem iterates_rel {S T : Type} {f : S → Res S} {f' : T → Res T} {R : S → T → Prop}
    (hR : ∀ a b a' b', R a a' → f a = .ok b → f' a' = .ok b' → R b b') {s t : S} {s' t' : T} {k : Nat} (h : R s s')
    (ht : Iterates f s k t) (ht' : Iterates f' s' k t') : R t t' := by
  induction ht generalizing t' with
  | zero => cases ht'; exact h
  | succ _ h1 ih =>
    cases ht' with
    | succ h2 h3 => exact hR _ _ _ _ (ih h2) h1 h3

/-- C101 (activity-driven model): if all homophilies are 0, then two runs with the same activities, the same contact settings and the same random numbers have
the same network (and the same generator state) after every iteration, whatever the opinions, reluctances, `K`, `alpha`, `dt` and the opinions of the bots are in
the two runs.  For every arithmetic in which `x^(-0) = 1`, in particular IEEE double precision. -/
theorem C101_network [LawfulActiveAgent A F] [LawfulActiveAgent B F] {s t : Activity A F G} {s' t' : Activity B F G} {k : Nat} (h : Spec.SameStart s s')
    (ht : Iterates (Activity.iteration o pick r) s k t) (ht' : Iterates (Activity.iteration o pick r) s' k t') :
    t'.network.neighbours = t.network.neighbours ∧ t'.network.weights = t.network.weights ∧ t'.network.direction = t.network.direction ∧ t'.gen = t.gen := by
  have := iterates_rel (R := fun s s' => Spec.SameStart s s') (fun a b a' b' h h1 h2 => Spec.SameStart.activity ho h h1 h2) h ht ht'
  exact ⟨this.network.neighbours, this.network.weights, this.network.direction, this.gen⟩

/-- C101 (inertial model): the same, also for different velocities and frictions. -/
theorem C101_inertial {s t s' t' : Inertial F G} {k : Nat} (h : Spec.SameStart s.base s'.base)
    (ht : Iterates (Inertial.iteration o pick r) s k t) (ht' : Iterates (Inertial.iteration o pick r) s' k t') :
    t'.base.network.neighbours = t.base.network.neighbours ∧ t'.base.network.weights = t.base.network.weights ∧
      t'.base.network.direction = t.base.network.direction ∧ t'.base.gen = t.base.gen := by
  have := iterates_rel (R := fun s s' : Inertial F G => Spec.SameStart s.base s'.base)
    (fun a b a' b' h h1 h2 => Spec.SameStart.inertial ho h h1 h2) h ht ht'
  exact ⟨this.network.neighbours, this.network.weights, this.network.direction, this.gen⟩

/-- C101 (both models): the activity-driven and the inertial model build the same networks. -/
theorem C101_models [LawfulActiveAgent A F] {s t : Activity A F G} {s' t' : Inertial F G} {k : Nat} (h : Spec.SameStart s s'.base)
    (ht : Iterates (Activity.iteration o pick r) s k t) (ht' : Iterates (Inertial.iteration o pick r) s' k t') :
    t'.base.network.neighbours = t.network.neighbours ∧ t'.base.network.weights = t.network.weights ∧
      t'.base.network.direction = t.network.direction ∧ t'.base.gen = t.gen := by
  have := iterates_rel (R := fun (s : Activity A F G) (s' : Inertial F G) => Spec.SameStart s s'.base)
    (fun a b a' b' h h1 h2 => Spec.SameStart.mixed ho h h1 h2) h ht ht'
  exact ⟨this.network.neighbours, this.network.weights, this.network.direction, this.gen⟩

end

/-! ## forgetting the initial opinions -/

section
variable [Field F] [LinearOrder F] [IsStrictOrderedRing F]

theorem weightedSum_sub (N : Network A F) (y z : Nat → F) (i : Nat) :
    weightedSum N y i - weightedSum N z i = weightedSum N (fun j => y j - z j) i := by
  unfold weightedSum
  induction row N i with
  | nil => simp
  | cons e l ih =>
    simp only [List.map_cons, List.sum_cons]
    rw [← ih]; ring

/-- One Runge-Kutta step brings two solutions closer together under weak interaction. -/
theorem rk4_rate_forget {tanh : F → F} (ht : ∀ y z, |tanh y - tanh z| ≤ |y - z|) (K alpha : F) (N : Network A F) {m : Nat → F} {h L M : F} {n : Nat}
    (h0 : 0 ≤ h) (h1 : h ≤ 1) (hL0 : 0 ≤ L) (hL : L * (2 + h) ≤ 2 - h)
    (hr : ∀ i, i < n → ∀ e ∈ row N i, e.1 < n) (hm : ∀ i, i < n → 0 < m i)
    (hw : ∀ i, i < n → |K * alpha| * absWeight N i ≤ L * m i) (x y : Nat → F) (hx : ∀ i, i < n → |x i - y i| ≤ M) {i : Nat} (hi : i < n) :
    |rk4 (rate tanh K alpha N m) h x i - rk4 (rate tanh K alpha N m) h y i| ≤ (decay h + (1 - decay h) * L) * M := by
  have hM : 0 ≤ M := (abs_nonneg _).trans (hx i hi)
  set C : (Nat → F) → (Nat → F) → Nat → F := fun x y i =>
    K / m i * weightedSum N (fun j => tanh (alpha * x j)) i - K / m i * weightedSum N (fun j => tanh (alpha * y j)) i with hC
  have hb : ∀ x y : Nat → F, (∀ j, j < n → |x j - y j| ≤ M) → ∀ i, i < n → |C x y i| ≤ L * M := by
    intro x y hy i hi
    have e : C x y i = K / m i * weightedSum N (fun j => tanh (alpha * x j) - tanh (alpha * y j)) i := by
      rw [hC, ← weightedSum_sub]; ring
    have h1 : |weightedSum N (fun j => tanh (alpha * x j) - tanh (alpha * y j)) i| ≤ absWeight N i * (|alpha| * M) := by
      apply weightedSum_scaled
      intro e he
      refine (ht _ _).trans ?_
      rw [← mul_sub, abs_mul]
      exact mul_le_mul_of_nonneg_left (hy _ (hr i hi e he)) (abs_nonneg _)
    have hmi := hm i hi
    rw [e, abs_mul, abs_div, abs_of_pos hmi, div_mul_eq_mul_div, div_le_iff₀ hmi]
    calc |K| * _ ≤ |K| * (absWeight N i * (|alpha| * M)) := mul_le_mul_of_nonneg_left h1 (abs_nonneg _)
      _ = (|K * alpha| * absWeight N i) * M := by rw [abs_mul]; ring
      _ ≤ (L * m i) * M := mul_le_mul_of_nonneg_right (hw i hi) hM
      _ = L * M * m i := by ring
  have hR : ∀ x y i, rate tanh K alpha N m x i - rate tanh K alpha N m y i = -(x i - y i) + C x y i := by
    intro x y i
    show (-x i + K / m i * weightedSum N (fun j => tanh (alpha * x j)) i) - (-y i + K / m i * weightedSum N (fun j => tanh (alpha * y j)) i) = _
    rw [hC]; ring
  set R := rate tanh K alpha N m with hRdef
  set x2 : Nat → F := fun j => x j + h / 2 * R x j with hx2
  set y2 : Nat → F := fun j => y j + h / 2 * R y j with hy2
  set x3 : Nat → F := fun j => x j + h / 2 * R x2 j with hx3
  set y3 : Nat → F := fun j => y j + h / 2 * R y2 j with hy3
  set x4 : Nat → F := fun j => x j + h * R x3 j with hx4
  set y4 : Nat → F := fun j => y j + h * R y3 j with hy4
  have d2 : ∀ j, x2 j - y2 j = (x j - y j) + h / 2 * (-(x j - y j) + C x y j) := by
    intro j; rw [← hR]; simp only [hx2, hy2]; ring
  have d3 : ∀ j, x3 j - y3 j = (x j - y j) + h / 2 * (-((x j - y j) + h / 2 * (-(x j - y j) + C x y j)) + C x2 y2 j) := by
    intro j; rw [← d2, ← hR]; simp only [hx3, hy3]; ring
  have d4 : ∀ j, x4 j - y4 j = (x j - y j) + h * (-((x j - y j) + h / 2 * (-((x j - y j) + h / 2 * (-(x j - y j) + C x y j)) + C x2 y2 j)) + C x3 y3 j) := by
    intro j; rw [← d3, ← hR]; simp only [hx4, hy4]; ring
  have hb1 := hb x y hx
  have hb2 := hb x2 y2 (fun j hj => by
    rw [d2]; exact (rk4_stages (c2 := 0) (c3 := 0) h0 h1 hL0 hL hM (hx j hj) (hb1 j hj)).1)
  have hb3 := hb x3 y3 (fun j hj => by
    rw [d3]; exact (rk4_stages (c3 := 0) h0 h1 hL0 hL hM (hx j hj) (hb1 j hj)).2.1 (hb2 j hj))
  have hb4 := hb x4 y4 (fun j hj => by
    rw [d4]; exact (rk4_stages h0 h1 hL0 hL hM (hx j hj) (hb1 j hj)).2.2 (hb2 j hj) (hb3 j hj))
  have key := rk4_contract h0 h1 (hb1 i hi) (hb2 i hi) (hb3 i hi) (hb4 i hi) (hx i hi)
  have e : rk4 R h x i - rk4 R h y i = (x i - y i) + h / 6 * ((R x i - R y i) + 2 * (R x2 i - R y2 i) + 2 * (R x3 i - R y3 i) + (R x4 i - R y4 i)) := by
    have e1 : rk4 R h x i = x i + h / 6 * (R x i + 2 * R x2 i + 2 * R x3 i + R x4 i) := rfl
    have e2 : rk4 R h y i = y i + h / 6 * (R y i + 2 * R y2 i + 2 * R y3 i + R y4 i) := rfl
    rw [e1, e2]; ring
  rw [e, hR, hR, hR, hR, d4, d3, d2]
  calc _ ≤ decay h * M + (1 - decay h) * (L * M) := key
    _ = (decay h + (1 - decay h) * L) * M := by ring

section
variable [ActiveAgent A F] [LawfulActiveAgent A F]

/-- C101, forgetting: two runs of the probabilistic model with the same settings, activities, reluctances and random numbers, all homophilies 0, bots allowed,
`0 ≤ dt ≤ 1`, and weak interaction (`|K α| n ≤ L m_i` with `L ≤ (2 - dt) / (2 + dt)`): whatever the two initial opinions are, after `k` iterations the opinions
of the two runs differ by at most `(decay dt + (1 - decay dt) L)^k` times what they differed initially. -/
theorem C101_forget {o : MathOps F} (ho : ∀ x, o.pow x 0 = 1) (htanh : ∀ y z, |o.tanh y - o.tanh z| ≤ |y - z|) {pick : List (Nat × F) → Nat}
    (hp : Reservoir.Pick.Valid pick) {r : Rng G F} {s s' t t' : Activity A F G} (h : s.Ready) (h' : s'.Ready) (hs : Spec.SameStart s s') (hpp : s'.p = s.p)
    (hrel : s'.network.agents.map ActiveAgent.reluctance = s.network.agents.map ActiveAgent.reluctance)
    (h0 : 0 ≤ s.p.dt) (h1 : s.p.dt ≤ 1) {L M : F} (hL0 : 0 ≤ L) (hL : L * (2 + s.p.dt) ≤ 2 - s.p.dt)
    (hm : ∀ i, i < s.network.agents.length → 0 < attr ActiveAgent.reluctance s.network.agents i)
    (hw : ∀ i, i < s.network.agents.length →
      |s.p.K * s.p.alpha| * s.network.agents.length ≤ L * attr ActiveAgent.reluctance s.network.agents i)
    (hx : ∀ i, i < s.network.agents.length → |attr ActiveAgent.opinion s.network.agents i - attr ActiveAgent.opinion s'.network.agents i| ≤ M)
    {k : Nat} (ht : Iterates (Activity.iteration o pick r) s k t) (ht' : Iterates (Activity.iteration o pick r) s' k t') :
    ∀ i, i < s.network.agents.length →
      |attr ActiveAgent.opinion t.network.agents i - attr ActiveAgent.opinion t'.network.agents i| ≤ (decay s.p.dt + (1 - decay s.p.dt) * L) ^ k * M := by
  have hρ : 0 ≤ decay s.p.dt + (1 - decay s.p.dt) * L := by
    have := decay_nonneg h0 h1
    have := decay_le_one h0 h1
    nlinarith
  have key : t.Ready ∧ t'.Ready ∧ Spec.SameStart t t' ∧ ∀ i, i < s.network.agents.length →
      |attr ActiveAgent.opinion t.network.agents i - attr ActiveAgent.opinion t'.network.agents i| ≤
        (decay s.p.dt + (1 - decay s.p.dt) * L) ^ k * M := by
    induction ht generalizing t' with
    | zero =>
      cases ht'
      exact ⟨h, h', hs, fun i hi => by rw [pow_zero, one_mul]; exact hx i hi⟩
    | @succ k t u ht hu ih =>
      cases ht' with
      | @succ _ v' _ ht' hu' =>
      obtain ⟨hr, hr', hst, ih⟩ := ih ht'
      obtain ⟨-, e2, e3, -⟩ := C42_activity ht
      obtain ⟨-, e2', e3', -⟩ := C42_activity ht'
      have hlen : t.network.agents.length = s.network.agents.length := by
        have := congrArg List.length e2; simpa using this
      have hlens : s'.network.agents.length = s.network.agents.length := by
        have := congrArg List.length hrel; simpa using this
      have hlen' : v'.network.agents.length = s.network.agents.length := by
        have := congrArg List.length e2'; simp only [List.length_map] at this; rw [this, hlens]
      have erel : attr ActiveAgent.reluctance t.network.agents = attr ActiveAgent.reluctance s.network.agents := by
        funext i; unfold attr; rw [e2]
      have erel' : attr ActiveAgent.reluctance v'.network.agents = attr ActiveAgent.reluctance s.network.agents := by
        funext i; unfold attr; rw [e2', hrel]
      have hsu := Spec.SameStart.activity (by simpa using ho) hst hu hu'
      refine ⟨hr.next hp hu, hr'.next hp hu', hsu, fun i hi => ?_⟩
      by_cases hbot : i < s.p.nBots
      · obtain ⟨a, ha, ha'⟩ := (Activity.iteration_frame hu).1.bots i (by rw [e3]; exact hbot)
        obtain ⟨b, hb, hb'⟩ := (Activity.iteration_frame hu').1.bots i (by rw [e3', hpp]; exact hbot)
        rw [e3] at ha'
        rw [e3', hpp, ha'] at hb'
        rw [Activity.attr_some _ ha, Activity.attr_some _ hb, Option.some.inj hb', sub_self, abs_zero]
        exact mul_nonneg (pow_nonneg hρ _) ((abs_nonneg _).trans (hx i hi))
      · obtain ⟨gs, buf, contacts, v, hv, hF, -⟩ := C43_activity (o := o) hp r hr
        obtain rfl := Except.ok.inj (hu.symm.trans hv)
        obtain ⟨gs', buf', contacts', w', hw', hF', -⟩ := C43_activity (o := o) hp r hr'
        have ew' := Except.ok.inj (hu'.symm.trans hw')
        rw [← ew'] at hF'
        have hn : u.network.agents.length = s.network.agents.length := by
          rw [(Activity.iteration_frame hu).1.traits.length, hlen]
        have hW : ∀ i, absWeight u.network i ≤ (s.network.agents.length : F) := fun i =>
          absWeight_le (hF.ones i) (hF.nodup i) (fun e he => by rw [← hn]; exact NetLemmas.row_lt hF.wf he)
        have hrow : ∀ i, row t'.network i = row u.network i := by
          intro i; unfold row; rw [hsu.network.neighbours, hsu.network.weights]
        have hrate : rate o.tanh s.p.K s.p.alpha t'.network (attr ActiveAgent.reluctance s.network.agents) =
            rate o.tanh s.p.K s.p.alpha u.network (attr ActiveAgent.reluctance s.network.agents) := by
          funext x i; unfold rate weightedSum; rw [hrow]
        rw [C47_rk4 hu hF.wf (by rw [e3]; omega) (by rw [hlen]; exact hi),
          C47_rk4 hu' hF'.wf (by rw [e3', hpp]; omega) (by rw [hlen']; exact hi), e3, e3', hpp, erel, erel', hrate]
        have := rk4_rate_forget htanh s.p.K s.p.alpha u.network h0 h1 hL0 hL
          (fun i _ e he => by rw [← hn]; exact NetLemmas.row_lt hF.wf he) hm
          (fun i hi => (mul_le_mul_of_nonneg_left (hW i) (abs_nonneg _)).trans (hw i hi)) _ _ ih hi
        refine this.trans (le_of_eq ?_)
        rw [pow_succ]; ring
  exact key.2.2.2

end
end

/-- C101 over the real numbers, with the real functions: the two runs get arbitrarily close, for all draws of the generator. -/
theorem C101_limit [ActiveAgent A ℝ] [LawfulActiveAgent A ℝ] {o : MathOps ℝ} (ho : o.pow = fun x y => x ^ y) (htanh : o.tanh = Real.tanh)
    {pick : List (Nat × ℝ) → Nat} (hp : Reservoir.Pick.Valid pick) {r : Rng G ℝ} {s s' : Activity A ℝ G} (h : s.Ready) (h' : s'.Ready)
    (hs : Spec.SameStart s s') (hpp : s'.p = s.p)
    (hrel : s'.network.agents.map ActiveAgent.reluctance = s.network.agents.map ActiveAgent.reluctance)
    (h0 : 0 < s.p.dt) (h1 : s.p.dt ≤ 1) {L : ℝ} (hL0 : 0 ≤ L) (hL : L * (2 + s.p.dt) ≤ 2 - s.p.dt)
    (hm : ∀ i, i < s.network.agents.length → 0 < attr ActiveAgent.reluctance s.network.agents i)
    (hw : ∀ i, i < s.network.agents.length →
      |s.p.K * s.p.alpha| * s.network.agents.length ≤ L * attr ActiveAgent.reluctance s.network.agents i)
    (run run' : Nat → Activity A ℝ G) (hrun : ∀ k, Iterates (Activity.iteration o pick r) s k (run k))
    (hrun' : ∀ k, Iterates (Activity.iteration o pick r) s' k (run' k)) {i : Nat} (hi : i < s.network.agents.length) :
    Tendsto (fun k => attr ActiveAgent.opinion (run k).network.agents i - attr ActiveAgent.opinion (run' k).network.agents i) atTop (𝓝 0) := by
  obtain ⟨M, hM⟩ : ∃ M, ∀ i, i < s.network.agents.length →
      |attr ActiveAgent.opinion s.network.agents i - attr ActiveAgent.opinion s'.network.agents i| ≤ M := by
    refine ⟨∑ i ∈ Finset.range s.network.agents.length,
      |attr ActiveAgent.opinion s.network.agents i - attr ActiveAgent.opinion s'.network.agents i|, fun i hi => ?_⟩
    exact Finset.single_le_sum (f := fun i => |attr ActiveAgent.opinion s.network.agents i - attr ActiveAgent.opinion s'.network.agents i|)
      (fun _ _ => abs_nonneg _) (Finset.mem_range.mpr hi)
  have hd0 := decay_nonneg h0.le h1
  have hd1 := decay_lt_one h0 h1
  have hL1 : L < 1 := by nlinarith
  have hρ0 : 0 ≤ decay s.p.dt + (1 - decay s.p.dt) * L := by nlinarith
  have hρ1 : decay s.p.dt + (1 - decay s.p.dt) * L < 1 := by nlinarith
  have hlim : Tendsto (fun k => (decay s.p.dt + (1 - decay s.p.dt) * L) ^ k * M) atTop (𝓝 0) := by
    have := (tendsto_pow_atTop_nhds_zero_of_lt_one hρ0 hρ1).mul_const M
    rwa [zero_mul] at this
  rw [tendsto_zero_iff_abs_tendsto_zero]
  refine squeeze_zero (fun k => abs_nonneg _) (fun k => ?_) hlim
  exact C101_forget (by intro x; rw [ho]; exact Real.rpow_zero x) (by rw [htanh]; exact tanh_lipschitz) hp h h' hs hpp hrel h0.le h1 hL0 hL hm hw hM
    (hrun k) (hrun' k) i hi

/-! ## the files a program writes -/

/-- The network files among the files written. -/
def Spec.networkFiles (files : List FileWrite) : List FileWrite := files.filter fun f => "network_".toList.isPrefixOf f.name

section
variable [ActiveAgent A F] [ActiveAgent B F] [Zero F] [One F] [Sub F] [Mul F] [Add F] [Div F] [Neg F] [NatCast F] [LT F] [LE F] [DecidableLT F]
  [DecidableLE F]

theorem Spec.SameContacts.toFile {N : Network A F} {N' : Network B F} (h : Spec.SameContacts N N') (T : Text.Double F) :
    NetworkIO.toFile T N' = NetworkIO.toFile T N := by
  have hn : N'.nAgents = N.nAgents := by
    have := congrArg List.length h.activity
    simpa [Network.nAgents] using this
  unfold NetworkIO.toFile Network.getNeighbours Network.getWeights
  rw [hn, h.neighbours, h.weights]

theorem networkFiles_append (a b : List FileWrite) : Spec.networkFiles (a ++ b) = Spec.networkFiles a ++ Spec.networkFiles b := List.filter_append ..

theorem writeOpinions_files {R : Simulation.Render A F} {N : Network A F} {k : Nat} {tr tr' : List FileWrite}
    (h : Simulation.writeOpinions R N k tr = .ok tr') : Spec.networkFiles tr' = Spec.networkFiles tr := by
  unfold Simulation.writeOpinions at h
  obtain ⟨c, -, h⟩ := Res.bind_eq_ok.mp h
  rw [← Except.ok.inj h, networkFiles_append]
  have : Spec.networkFiles [⟨Simulation.opinionsName k, c⟩] = [] := by
    unfold Spec.networkFiles Simulation.opinionsName
    simp [List.isPrefixOf]
  rw [this, List.append_nil]

theorem outputOpinions_files {R : Simulation.Render A F} {o : OutputSettings} {N : Network A F} {k : Nat} {tr tr' : List FileWrite}
    (h : Simulation.outputOpinions R o N k tr = .ok tr') : Spec.networkFiles tr' = Spec.networkFiles tr := by
  unfold Simulation.outputOpinions at h
  obtain ⟨b, -, h⟩ := Res.bind_eq_ok.mp h
  split at h
  · exact writeOpinions_files h
  · rw [← Except.ok.inj h]

theorem writeNetwork_files {R : Simulation.Render A F} {R' : Simulation.Render B F} (hR : R'.text = R.text) {N : Network A F} {N' : Network B F}
    (hN : Spec.SameContacts N N') {k : Nat} {tr tr' u u' : List FileWrite} (h : Simulation.writeNetwork R N k tr = .ok u)
    (h' : Simulation.writeNetwork R' N' k tr' = .ok u') (ht : Spec.networkFiles tr' = Spec.networkFiles tr) :
    Spec.networkFiles u' = Spec.networkFiles u := by
  unfold Simulation.writeNetwork at h h'
  rw [hR, hN.toFile] at h'
  obtain ⟨c, hc, h⟩ := Res.bind_eq_ok.mp h
  obtain ⟨c', hc', h'⟩ := Res.bind_eq_ok.mp h'
  obtain rfl := Except.ok.inj (hc.symm.trans hc')
  rw [← Except.ok.inj h, ← Except.ok.inj h', networkFiles_append, networkFiles_append, ht]

theorem outputNetwork_files {R : Simulation.Render A F} {R' : Simulation.Render B F} (hR : R'.text = R.text) {o : OutputSettings} {N : Network A F}
    {N' : Network B F} (hN : Spec.SameContacts N N') {k : Nat} {tr tr' u u' : List FileWrite} (h : Simulation.outputNetwork R o N k tr = .ok u)
    (h' : Simulation.outputNetwork R' o N' k tr' = .ok u') (ht : Spec.networkFiles tr' = Spec.networkFiles tr) :
    Spec.networkFiles u' = Spec.networkFiles u := by
  unfold Simulation.outputNetwork at h h'
  obtain ⟨b, hb, h⟩ := Res.bind_eq_ok.mp h
  obtain ⟨b', hb', h'⟩ := Res.bind_eq_ok.mp h'
  obtain rfl := Except.ok.inj (hb.symm.trans hb')
  cases b with
  | true => exact writeNetwork_files hR hN h h' ht
  | false => rw [← Except.ok.inj h, ← Except.ok.inj h', ht]

/-- Two runs whose states stay related, with the same network and the same iteration count, write the same network files. -/
theorem run_files {S S' : Type} {M : Machine A F S} {M' : Machine B F S'} {R : Simulation.Render A F} {R' : Simulation.Render B F} (hR : R'.text = R.text)
    {o : OutputSettings} {Q : S → S' → Prop} (hstep : ∀ s t s' t', Q s s' → M.iteration s = .ok t → M'.iteration s' = .ok t' → Q t t')
    (hreset : ∀ s s', Q s s' → Q (M.reset s) (M'.reset s')) (hfin : ∀ s s', Q s s' → M'.finished s' = M.finished s)
    (hcount : ∀ s s', Q s s' → M'.nIterations s' = M.nIterations s) (hnet : ∀ s s', Q s s' → Spec.SameContacts (M.network s) (M'.network s'))
    {fuel : Nat} {s : S} {s' : S'} (hs : Q s s') {t : S} {t' : S'} {fs fs' : List FileWrite}
    (h : Simulation.run M R o fuel s = .ok (t, fs)) (h' : Simulation.run M' R' o fuel s' = .ok (t', fs')) :
    Spec.networkFiles fs' = Spec.networkFiles fs := by
  have loop : ∀ fuel (s : S) (s' : S') (tr tr' : List FileWrite), Q s s' → Spec.networkFiles tr' = Spec.networkFiles tr →
      Simulation.runLoop M R o fuel (s, tr) = .ok (t, fs) → Simulation.runLoop M' R' o fuel (s', tr') = .ok (t', fs') →
      Spec.networkFiles fs' = Spec.networkFiles fs := by
    intro fuel
    induction fuel with
    | zero =>
      intro s s' tr tr' hs ht h h'
      unfold Simulation.runLoop at h h'
      dsimp only at h h'
      rw [hfin s s' hs] at h'
      split at h
      · rename_i hf
        rw [if_pos hf] at h'
        have e := Except.ok.inj h
        have e' := Except.ok.inj h'
        rw [← (Prod.mk.inj e).2, ← (Prod.mk.inj e').2, ht]
      · cases h
    | succ fuel ih =>
      intro s s' tr tr' hs ht h h'
      unfold Simulation.runLoop at h h'
      dsimp only at h h'
      rw [hfin s s' hs] at h'
      split at h
      · rename_i hf
        rw [if_pos hf] at h'
        have e := Except.ok.inj h
        have e' := Except.ok.inj h'
        rw [← (Prod.mk.inj e).2, ← (Prod.mk.inj e').2, ht]
      · rename_i hf
        rw [if_neg hf] at h'
        obtain ⟨u, hu, h⟩ := Res.bind_eq_ok.mp h
        obtain ⟨u', hu', h'⟩ := Res.bind_eq_ok.mp h'
        obtain ⟨w, hw, h⟩ := Res.bind_eq_ok.mp h
        obtain ⟨w', hw', h'⟩ := Res.bind_eq_ok.mp h'
        have hq := hstep _ _ _ _ hs hu hu'
        refine ih u u' w w' hq ?_ h h'
        unfold Simulation.output at hw hw'
        obtain ⟨v, hv, hw⟩ := Res.bind_eq_ok.mp hw
        obtain ⟨v', hv', hw'⟩ := Res.bind_eq_ok.mp hw'
        rw [hcount u u' hq] at hw'
        exact outputNetwork_files hR (hnet u u' hq) hw hw' (by rw [outputOpinions_files hv, outputOpinions_files hv', ht])
  unfold Simulation.run at h h'
  obtain ⟨tr, htr, h⟩ := Res.bind_eq_ok.mp h
  obtain ⟨tr', htr', h'⟩ := Res.bind_eq_ok.mp h'
  refine loop fuel _ _ tr tr' (hreset s s' hs) ?_ h h'
  unfold Simulation.initialOutput at htr htr'
  split at htr
  · rename_i hi
    rw [if_pos hi] at htr'
    obtain ⟨v, hv, htr⟩ := Res.bind_eq_ok.mp htr
    obtain ⟨v', hv', htr'⟩ := Res.bind_eq_ok.mp htr'
    rw [writeOpinions_files htr, writeOpinions_files htr']
    exact writeNetwork_files hR (hnet s s' hs) hv hv' rfl
  · rename_i hi
    rw [if_neg hi] at htr'
    rw [← Except.ok.inj htr, ← Except.ok.inj htr']

end

section
variable [Zero F] [One F] [Sub F] [Mul F] [Add F] [Div F] [Neg F] [NatCast F] [IntCast F] [LT F] [LE F] [DecidableLT F] [DecidableLE F]
open Program

theorem Activity.create_p [ActiveAgent A F] [Inhabited A] {o : MathOps F} {r : Rng G F} {p : ActivitySettings F} {N : Network A F} {g : G}
    {s : Activity A F G} (h : Activity.create o r p N g = .ok s) : s.p = p := by
  unfold Activity.create at h
  obtain ⟨⟨a, g'⟩, -, h⟩ := Res.bind_eq_ok.mp h
  obtain ⟨b, -, h⟩ := Res.bind_eq_ok.mp h
  obtain ⟨c, -, h⟩ := Res.bind_eq_ok.mp h
  rw [← Except.ok.inj h]

/-- C101 (program): an activity-driven program whose configuration sets all homophilies to 0 is run twice, with two agent files that agree in the activities.
If both runs succeed, they write the same network files, whatever opinions and reluctances the two files contain. -/
theorem C101_program {env : Env F G} (ho : ∀ x, env.math.pow x (-0) = 1) {config : String} {output network : Option String} {fileA fileB : String}
    {contentsA contentsB : List Char} {agentsA agentsB : List (ActivityAgent F)} {doc : Config.Doc F} {options : Config.Options F}
    {p : ActivitySettings F} {fuel : Nat} {filesA filesB : List FileWrite}
    (hdoc : readConfig env config = .ok doc) (hparse : Config.parse env.convert env.fresh doc = .ok options)
    (hmodel : options.model = .activityDriven) (hset : options.settings = .activity p) (hz : p.homophily = 0) (hbz : ∀ h ∈ p.botHomophily, h = 0)
    (hA : env.files fileA = some contentsA) (hB : env.files fileB = some contentsB)
    (hreadA : AgentIO.fromFile (AgentIO.activity env.text) contentsA = .ok agentsA)
    (hreadB : AgentIO.fromFile (AgentIO.activity env.text) contentsB = .ok agentsB)
    (hact : agentsB.map (·.activity) = agentsA.map (·.activity))
    (h : main env ⟨config, output, some fileA, network⟩ fuel = .ok filesA) (h' : main env ⟨config, output, some fileB, network⟩ fuel = .ok filesB) :
    Spec.networkFiles filesB = Spec.networkFiles filesA := by
  have part : ∀ {file : String} {contents : List Char} {agents : List (ActivityAgent F)} {files : List FileWrite},
      env.files file = some contents → AgentIO.fromFile (AgentIO.activity env.text) contents = .ok agents →
      main env ⟨config, output, some file, network⟩ fuel = .ok files → ∃ N g s t, createNetwork env .activity options network (env.seed options.rngSeed) = .ok (N, g) ∧
        Activity.create (A := ActivityAgent F) env.math env.rng p N g = .ok s ∧
        Simulation.run (machine env .activity) (render env .activity) options.output fuel
          (.activity { s with network := { s.network with agents := agents } }) = .ok (t, files) := by
    intro file contents agents files hf hr h
    unfold main at h
    dsimp only at h
    rw [hdoc] at h
    change (Config.parse env.convert env.fresh doc >>= fun options => _) = _ at h
    rw [hparse] at h
    change (Config.validate options >>= fun _ => _) = _ at h
    obtain ⟨_, -, h⟩ := Res.bind_eq_ok.mp h
    obtain ⟨k, hk, h⟩ := Res.bind_eq_ok.mp h
    have : k = .activity := by
      unfold agentKind at hk; rw [hmodel] at hk; exact (Except.ok.inj hk).symm
    subst this
    obtain ⟨⟨t, fs⟩, hrun, h⟩ := Res.bind_eq_ok.mp h
    obtain rfl := Except.ok.inj h
    unfold simulate at hrun
    obtain ⟨m, hm, hrun⟩ := Res.bind_eq_ok.mp hrun
    unfold construct at hm
    obtain ⟨⟨N, g⟩, hN, hm⟩ := Res.bind_eq_ok.mp hm
    obtain ⟨m', hm', hm⟩ := Res.bind_eq_ok.mp hm
    unfold chooseModel at hm'
    rw [hmodel, hset] at hm'
    unfold createActivity at hm'
    obtain ⟨s, hs, hm'⟩ := Res.bind_eq_ok.mp hm'
    obtain rfl := Except.ok.inj hm'
    unfold replaceAgents at hm
    dsimp only at hm
    obtain ⟨c, hc, hm⟩ := Res.bind_eq_ok.mp hm
    obtain ⟨l, hl, hm⟩ := Res.bind_eq_ok.mp hm
    unfold getFileContents at hc
    rw [hf] at hc
    obtain rfl := Except.ok.inj hc
    have hl : AgentIO.fromFile (AgentIO.activity env.text) contents = .ok l := hl
    obtain rfl := Except.ok.inj (hr.symm.trans hl)
    obtain rfl := Except.ok.inj hm
    exact ⟨N, g, s, t, hN, hs, hrun⟩
  obtain ⟨N, g, s, t, hN, hs, h⟩ := part hA hreadA h
  obtain ⟨N', g', s', t', hN', hs', h'⟩ := part hB hreadB h'
  obtain ⟨rfl, rfl⟩ := Prod.mk.inj (Except.ok.inj (hN.symm.trans hN'))
  obtain rfl := Except.ok.inj (hs.symm.trans hs')
  have hsp := Activity.create_p hs
  let Q : ModelState F G .activity → ModelState F G .activity → Prop := fun a b => ∃ u v : Activity (ActivityAgent F) F G,
    a = .activity u ∧ b = .activity v ∧ Spec.SameStart u v ∧ v.counter = u.counter
  refine run_files (A := ActivityAgent F) (B := ActivityAgent F) (Q := Q) rfl ?_ ?_ ?_ ?_ ?_ ?_ h h'
  · rintro a b a' b' ⟨u, v, rfl, rfl, hq, hc⟩ h1 h2
    cases e1 : Activity.iteration env.math env.pick env.rng u with
    | error e =>
      have : (Activity.iteration env.math env.pick env.rng u).map ModelState.activity = .ok b := h1
      rw [e1] at this; cases this
    | ok u1 =>
      cases e2 : Activity.iteration env.math env.pick env.rng v with
      | error e =>
        have : (Activity.iteration env.math env.pick env.rng v).map ModelState.activity = .ok b' := h2
        rw [e2] at this; cases this
      | ok v1 =>
        have h1 : (Activity.iteration env.math env.pick env.rng u).map ModelState.activity = .ok b := h1
        have h2 : (Activity.iteration env.math env.pick env.rng v).map ModelState.activity = .ok b' := h2
        rw [e1] at h1
        rw [e2] at h2
        refine ⟨u1, v1, (Except.ok.inj h1).symm, (Except.ok.inj h2).symm, Spec.SameStart.activity ho hq e1 e2, ?_⟩
        rw [(Activity.iteration_frame e1).2.2, (Activity.iteration_frame e2).2.2, hc]
  · rintro _ _ ⟨u, v, rfl, rfl, hq, hc⟩
    exact ⟨u.reset, v.reset, rfl, rfl, ⟨hq.rules, hq.network, hq.contactProb, hq.gen⟩, by unfold Activity.reset; rw [hc]⟩
  · rintro _ _ ⟨u, v, rfl, rfl, hq, hc⟩
    show v.counter.finished = u.counter.finished
    rw [hc]
  · rintro _ _ ⟨u, v, rfl, rfl, hq, hc⟩
    show v.counter.nIterations = u.counter.nIterations
    rw [hc]
  · rintro _ _ ⟨u, v, rfl, rfl, hq, hc⟩
    exact hq.network
  · refine ⟨_, _, rfl, rfl, ⟨⟨rfl, rfl, rfl, rfl, rfl, rfl, ?_, ?_, ?_⟩, ⟨hact, rfl, rfl, rfl⟩, rfl, rfl⟩, rfl⟩
    · rw [hsp]; exact hz
    · rw [hsp]; exact hz
    · rw [hsp]; exact hbz

end
/-! ## concrete cases -/

/-- Functions with `x^0 = 1`, and the identity cut off at -1 and 1 in place of `tanh`. -/
def flatOps : MathOps ℚ :=
  { ratOps with pow := fun x y => if y = 0 then 1 else if y < 0 then 1 / x else x, tanh := fun x => max (min x 1) (-1) }

theorem flatOps_tanh (y z : ℚ) : |flatOps.tanh y - flatOps.tanh z| ≤ |y - z| :=
  (abs_max_sub_max_le_abs _ _ _).trans (abs_min_sub_min_le_max y 1 z 1 |>.trans (by simp))

/-- Weak interaction without homophily, one of the four agents is a bot. -/
def Activity.flat : Activity (ActivityAgent ℚ) ℚ Nat :=
  { Activity.sample with
    p := { Activity.settings with K := 1 / 20, homophily := 0, nBots := 1, botM := [2], botActivity := [1], botOpinion := [2], botHomophily := [0] } }

/-- The same with other opinions. -/
def Activity.flat' : Activity (ActivityAgent ℚ) ℚ Nat :=
  { Activity.flat with network := { Activity.flat.network with agents := [⟨5, 1, 1⟩, ⟨-3, 1/5, 1⟩, ⟨0, 1, 1⟩, ⟨7, 1/5, 1⟩] } }

theorem Activity.flat_ready : Activity.flat.Ready ∧ Activity.flat'.Ready := by
  refine ⟨⟨?_, rfl, ?_, ?_, rfl⟩, ⟨?_, rfl, ?_, ?_, rfl⟩⟩
  · constructor <;> decide +kernel
  · constructor <;> decide +kernel
  · decide +kernel
  · constructor <;> decide +kernel
  · constructor <;> decide +kernel
  · decide +kernel

theorem Activity.flat_same : Spec.SameStart Activity.flat Activity.flat' where
  rules := ⟨rfl, rfl, rfl, rfl, rfl, rfl, rfl, rfl, by decide +kernel⟩
  network := ⟨rfl, rfl, rfl, rfl⟩
  contactProb := rfl
  gen := rfl

example {t t' : Activity (ActivityAgent ℚ) ℚ Nat} {k : Nat} (ht : Iterates (Activity.iteration flatOps firstMin counterRng) Activity.flat k t)
    (ht' : Iterates (Activity.iteration flatOps firstMin counterRng) Activity.flat' k t') :
    t'.network.neighbours = t.network.neighbours ∧ ∀ i, i < 4 → |attr ActiveAgent.opinion t.network.agents i - attr ActiveAgent.opinion t'.network.agents i| ≤
      (decay (1 / 100 : ℚ) + (1 - decay (1 / 100)) * (3 / 5)) ^ k * 6 := by
  refine ⟨(C101_network (o := flatOps) (fun _ => rfl) Activity.flat_same ht ht').1, ?_⟩
  refine C101_forget (o := flatOps) (fun _ => rfl) flatOps_tanh firstMin_valid Activity.flat_ready.1 Activity.flat_ready.2 Activity.flat_same rfl rfl
    ?_ ?_ ?_ ?_ ?_ ?_ ?_ ht ht'
  all_goals decide +kernel

/-- A program with five agents and all homophilies 0; numbers are read by their first digit. -/
def Env.flat : Env ℚ Nat where
  rng := counterRng
  seed k := k.toNat
  fresh := 7
  math := flatOps
  pick := firstMin
  isqrt := Nat.sqrt
  text := ⟨fun _ => ['0'], fun s => .ok (((s.filter Char.isDigit).head?.map fun c => ((c.toNat - 48 : Nat) : ℚ)).getD 0)⟩
  files f :=
    if f = "conf.toml" then some []
    else if f = "a.txt" then some "0, 1, 1, 1\n1, 2, 1, 1\n2, 3, 1, 1\n3, 4, 0, 1\n4, 5, 1, 1\n".toList
    else if f = "b.txt" then some "0, 9, 1, 1\n1, 8, 1, 2\n2, 0, 1, 1\n3, 4, 0, 1\n4, 1, 1, 3\n".toList
    else none
  toml _ := some fun s k =>
    if s = "ActivityDriven" ∧ k = "homophily" then some (.float 0)
    else if s = "ActivityDriven" ∧ k = "bot_homophily" then some (.arr [.float 0])
    else if s = "model" ∧ k = "max_iterations" then some (.int 1)
    else if s = "io" ∧ k = "n_output_network" then some (.int 1)
    else Config.activityDoc s k
  convert := Config.strict


theorem Env.flat_runs : (Program.main Env.flat ⟨"conf.toml", none, some "a.txt", none⟩ 1).toOption.isSome = true ∧
    (Program.main Env.flat ⟨"conf.toml", none, some "b.txt", none⟩ 1).toOption.isSome = true := by
  decide +kernel

open Program in
-- the hypotheses of C101_program are met: the two agent files differ in opinions and reluctances, and both runs succeed
example : ∃ filesA filesB, main Env.flat ⟨"conf.toml", none, some "a.txt", none⟩ 1 = .ok filesA ∧
    main Env.flat ⟨"conf.toml", none, some "b.txt", none⟩ 1 = .ok filesB ∧ Spec.networkFiles filesB = Spec.networkFiles filesA := by
  have hA := Env.flat_runs.1
  have hB := Env.flat_runs.2
  cases eA : main Env.flat ⟨"conf.toml", none, some "a.txt", none⟩ 1 with
  | error e => rw [eA] at hA; cases hA
  | ok filesA =>
    cases eB : main Env.flat ⟨"conf.toml", none, some "b.txt", none⟩ 1 with
    | error e => rw [eB] at hB; cases hB
    | ok filesB =>
      refine ⟨filesA, filesB, rfl, rfl, ?_⟩
      exact C101_program (env := Env.flat) (fun _ => rfl) (doc := _)
        (options := { Config.activityOptions with
          output := { Config.activityOptions.output with nOutputNetwork := some 1 }
          settings := .activity { Config.activitySettings with maxIterations := some 1, homophily := 0, botHomophily := [0] } })
        (agentsA := [⟨1, 1, 1⟩, ⟨2, 1, 1⟩, ⟨3, 1, 1⟩, ⟨4, 0, 1⟩, ⟨5, 1, 1⟩])
        (agentsB := [⟨9, 1, 1⟩, ⟨8, 1, 2⟩, ⟨0, 1, 1⟩, ⟨4, 0, 1⟩, ⟨1, 1, 3⟩])
        rfl (by with_unfolding_all rfl) rfl rfl rfl (by decide) rfl rfl (by decide +kernel) (by decide +kernel) rfl eA eB

/-- Without `homophily = 0` the opinions do influence the network: the same two runs with homophily 1 differ after one iteration. -/
example : (Activity.iteration flatOps firstMin counterRng { Activity.flat with p := { Activity.flat.p with homophily := 1, botHomophily := [1] } }).toOption.map
      (fun t => t.network.neighbours) ≠
    (Activity.iteration flatOps firstMin counterRng { Activity.flat' with p := { Activity.flat'.p with homophily := 1, botHomophily := [1] } }).toOption.map
      (fun t => t.network.neighbours) := by
  decide +kernel

end Seldon
