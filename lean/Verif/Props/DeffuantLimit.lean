import Verif.Lemmas.Gossip
import Verif.Props.Deffuant
/-!
# C37 (the schedule of an iteration) and C64: Deffuant opinions converge
-/
set_option linter.unusedSectionVars false
namespace Seldon
open Spec Filter Topology
variable {F G : Type}

/-- A sequence of interactions leading from state `s` to state `t`: `ps` lists the pairs that `select_interacting_agent_pair`
returned, each followed by the update rule for that pair. -/
inductive Meets [Add F] [Mul F] [Sub F] [Zero F] [Neg F] [LT F] [DecidableLT F] (r : Rng G F) :
    Deffuant (SimpleAgent F) F G → List (Nat × Nat) → Deffuant (SimpleAgent F) F G → Prop where
  | nil {s} : Meets r s [] s
  | cons {s s₁ s₂ t a b ps} (hp : Deffuant.selectPair r s = .ok ([a, b], s₁)) (hu : Deffuant.updateRule a b s₁ = .ok s₂)
      (h : Meets r s₂ ps t) : Meets r s ((a, b) :: ps) t

/-- The state in which the interactions of an iteration start (`Model::iteration` has counted the iteration). -/
def Deffuant.ticked {A : Type} (s : Deffuant A F G) : Deffuant A F G := { s with counter := s.counter.tick }

theorem Meets.snoc [Add F] [Mul F] [Sub F] [Zero F] [Neg F] [LT F] [DecidableLT F] {r : Rng G F}
    {s s₀ s₁ t : Deffuant (SimpleAgent F) F G} {ps : List (Nat × Nat)} {a b : Nat} (h : Meets r s ps s₀)
    (hp : Deffuant.selectPair r s₀ = .ok ([a, b], s₁)) (hu : Deffuant.updateRule a b s₁ = .ok t) :
    Meets r s (ps ++ [(a, b)]) t := by
  induction h with
  | nil => exact .cons hp hu .nil
  | cons hp' hu' _ ih => exact .cons hp' hu' (ih hp)

section
variable [CommRing F] [LinearOrder F] [IsStrictOrderedRing F]

/-- C37: an iteration makes exactly as many interactions as there are agents, each between a pair returned by
`select_interacting_agent_pair`: two distinct agents without network (if there are two), an agent and one of its neighbours
with network. -/
theorem C37_schedule {r : Rng G F} (hr : r.IntLawful) {s t : Deffuant (SimpleAgent F) F G} (h : s.Ready)
    (hs : Deffuant.iteration r Deffuant.updateRule s = .ok t) :
    ∃ ps : List (Nat × Nat), ps.length = s.network.agents.length ∧ Meets r s.ticked ps t ∧
      ∀ p ∈ ps, p.1 < s.network.agents.length ∧ p.2 < s.network.agents.length ∧
        (s.useNetwork = false → 2 ≤ s.network.agents.length → p.1 ≠ p.2) ∧
        (s.useNetwork = true → p.2 ∈ s.network.neighbours.getD p.1 []) := by
  refine (Deffuant.loop_ok (σ := Deffuant (SimpleAgent F) F G) (f := fun _ s => Deffuant.interact r Deffuant.updateRule s)
    (fun i u => i ≤ s.network.agents.length → Deffuant.Frame s u ∧
      ∃ ps : List (Nat × Nat), ps.length = i ∧ Meets r s.ticked ps u ∧
      ∀ p ∈ ps, p.1 < s.network.agents.length ∧ p.2 < s.network.agents.length ∧
        (s.useNetwork = false → 2 ≤ s.network.agents.length → p.1 ≠ p.2) ∧
        (s.useNetwork = true → p.2 ∈ s.network.neighbours.getD p.1 [])) ?_ ?_ hs (le_refl _)).2
  · intro i u v hI hv hi
    obtain ⟨hF, ps, hl, hm, hps⟩ := hI (by omega)
    have hpos : 0 < u.network.agents.length := by rw [hF.n]; omega
    obtain ⟨a, b, g, h1, ha, hb, h4, h5⟩ := Deffuant.selectPair_ok hr (hF.ready h) hpos
    have hupd : Deffuant.updateRule a b { u with gen := g } = .ok v := by
      unfold Deffuant.interact at hv
      simp only [h1, Res.bind_ok, rd, List.getElem?_cons_zero, List.getElem?_cons_succ, List.getElem?_eq_getElem ha,
        List.getElem?_eq_getElem hb] at hv
      exact hv
    obtain ⟨hF', -⟩ := Deffuant.updateRule_sound (s := { u with gen := g }) ha hb hupd
    have hF'' : Deffuant.Frame u v := ⟨hF'.1, hF'.2, hF'.3, hF'.4, hF'.5, hF'.6, hF'.7, hF'.8⟩
    refine ⟨hF.trans hF'', ps ++ [(a, b)], by simp [hl], hm.snoc h1 hupd, ?_⟩
    intro p hp
    rcases List.mem_append.mp hp with hp | hp
    · exact hps p hp
    · simp only [List.mem_singleton] at hp
      subst hp
      rw [hF.n] at ha hb h4
      rw [hF.useNetwork] at h4 h5
      rw [hF.neighbours] at h5
      exact ⟨ha, hb, fun hu h2 => Nat.ne_of_lt (h4 hu h2), h5⟩
  · intro _
    exact ⟨⟨rfl, rfl, rfl, rfl, rfl, rfl, rfl, rfl⟩, [], rfl, .nil, by simp⟩

/-- What a sequence of interactions does to the opinions. -/
theorem Meets.meetings {r : Rng G F} {s t : Deffuant (SimpleAgent F) F G} {ps : List (Nat × Nat)} (h : Meets r s ps t) :
    Deffuant.Frame s t ∧ (∀ p ∈ ps, p.1 < s.network.agents.length ∧ p.2 < s.network.agents.length) ∧
      opinionOf t.network.agents = Spec.meetings s.threshold s.mu ps (opinionOf s.network.agents) := by
  induction h with
  | nil => exact ⟨.refl _, by simp, rfl⟩
  | @cons s s₁ s₂ t a b ps hp hu _ ih =>
    obtain ⟨g, rfl⟩ := Deffuant.selectPair_gen hp
    have hab : a < s.network.agents.length ∧ b < s.network.agents.length := by
      unfold Deffuant.updateRule at hu
      obtain ⟨x, hx, hu'⟩ := Res.bind_eq_ok.mp hu
      obtain ⟨y, hy, -⟩ := Res.bind_eq_ok.mp hu'
      rw [rd_eq_ok, List.getElem?_eq_some_iff] at hx hy
      exact ⟨hx.1, hy.1⟩
    obtain ⟨hF', ho⟩ := Deffuant.updateRule_sound (s := { s with gen := g }) hab.1 hab.2 hu
    have hF : Deffuant.Frame s s₂ := ⟨hF'.1, hF'.2, hF'.3, hF'.4, hF'.5, hF'.6, hF'.7, hF'.8⟩
    obtain ⟨i1, i2, i3⟩ := ih
    refine ⟨hF.trans i1, ?_, ?_⟩
    · intro p hpp
      rcases List.mem_cons.mp hpp with rfl | hpp
      · exact hab
      · have := i2 p hpp
        rwa [hF.n] at this
    · rw [i3, ho, hF.threshold, hF.mu]
      rfl

end

/-! ## C64 -/

/-- `st 0, st 1, ...` are the states after successive iterations. -/
def Deffuant.Trajectory [Add F] [Mul F] [Sub F] [Zero F] [Neg F] [LT F] [DecidableLT F] (r : Rng G F)
    (st : Nat → Deffuant (SimpleAgent F) F G) : Prop :=
  ∀ t, Deffuant.iteration r Deffuant.updateRule (st t) = .ok (st (t + 1))

theorem Deffuant.Trajectory.frame [CommRing F] [LinearOrder F] [IsStrictOrderedRing F] {r : Rng G F}
    {st : Nat → Deffuant (SimpleAgent F) F G} (T : Deffuant.Trajectory r st) : ∀ t, Deffuant.Frame (st 0) (st t) := by
  intro t
  induction t with
  | zero => exact .refl _
  | succ t ih => exact ih.trans (Deffuant.iteration_schedule (T t)).1

theorem Deffuant.Trajectory.process {r : Rng G ℝ} {st : Nat → Deffuant (SimpleAgent ℝ) ℝ G}
    (T : Deffuant.Trajectory r st) : ∃ ps : Nat → List (Nat × Nat), (∀ t, (ps t).length = (st 0).network.agents.length) ∧
      Gossip.Process (st 0).network.agents.length (st 0).threshold (st 0).mu ps (fun t => opinionOf (st t).network.agents) := by
  have h : ∀ t, ∃ ps : List (Nat × Nat), ps.length = (st 0).network.agents.length ∧
      Gossip.Valid (st 0).network.agents.length ps ∧
      opinionOf (st (t + 1)).network.agents = Spec.meetings (st 0).threshold (st 0).mu ps (opinionOf (st t).network.agents) := by
    intro t
    obtain ⟨-, ps, h1, h2, h3⟩ := Deffuant.iteration_schedule (T t)
    have hF := T.frame t
    rw [hF.n] at h1 h2
    rw [hF.threshold, hF.mu] at h3
    exact ⟨ps, h1, h2, h3⟩
  choose ps h1 h2 h3 using h
  exact ⟨ps, h1, ⟨h2, h3⟩⟩

/-- C64: for `0 ≤ mu < 1` the opinion of every agent converges, whatever the random numbers (and so whatever pairs are
drawn), the threshold, the network and the starting opinions. -/
theorem C64_converges {r : Rng G ℝ} {st : Nat → Deffuant (SimpleAgent ℝ) ℝ G} (T : Deffuant.Trajectory r st)
    (h0 : 0 ≤ (st 0).mu) (h1 : (st 0).mu < 1) :
    ∃ y : Nat → ℝ, ∀ i, i < (st 0).network.agents.length →
      Tendsto (fun t => opinionOf (st t).network.agents i) atTop (𝓝 (y i)) := by
  obtain ⟨ps, hl, P⟩ := T.process
  have h : ∀ i, ∃ y, i < (st 0).network.agents.length → Tendsto (fun t => opinionOf (st t).network.agents i) atTop (𝓝 y) := by
    intro i
    by_cases hi : i < (st 0).network.agents.length
    · obtain ⟨y, hy⟩ := P.converges h0 h1 (fun t => (hl t).le) hi
      exact ⟨y, fun _ => hy⟩
    · exact ⟨0, fun h => absurd h hi⟩
  choose y hy using h
  exact ⟨y, hy⟩

/-- C64: for `0 < mu < 1` the limits form clusters: two agents that are drawn as a pair in infinitely many iterations end up
with the same opinion, or at least `homophily_threshold` apart.  (`ps t` are the pairs drawn in iteration `t`; they exist by
`C37_schedule`.) -/
theorem C64_clusters {r : Rng G ℝ} {st : Nat → Deffuant (SimpleAgent ℝ) ℝ G}
    (h0 : 0 < (st 0).mu) (h1 : (st 0).mu < 1) {ps : Nat → List (Nat × Nat)}
    (hlen : ∀ t, (ps t).length = (st 0).network.agents.length)
    (hps : ∀ t, Meets r (st t).ticked (ps t) (st (t + 1))) {y : Nat → ℝ}
    (hy : ∀ i, i < (st 0).network.agents.length → Tendsto (fun t => opinionOf (st t).network.agents i) atTop (𝓝 (y i)))
    {a b : Nat} (hab : ∃ᶠ t in atTop, (a, b) ∈ ps t) :
    y a = y b ∨ (st 0).threshold ≤ |y a - y b| := by
  have hF : ∀ t, Deffuant.Frame (st 0) (st t) := by
    intro t
    induction t with
    | zero => exact .refl _
    | succ t ih =>
      have := (hps t).meetings.1
      exact ih.trans ⟨this.1, this.2, this.3, this.4, this.5, this.6, this.7, this.8⟩
  have P : Gossip.Process (st 0).network.agents.length (st 0).threshold (st 0).mu ps
      (fun t => opinionOf (st t).network.agents) := by
    refine ⟨fun t p hp => ?_, fun t => ?_⟩
    · have := (hps t).meetings.2.1 p hp
      rw [show (st t).ticked.network.agents.length = (st t).network.agents.length from rfl, (hF t).n] at this
      exact this
    · have := (hps t).meetings.2.2
      rw [show (st t).ticked.threshold = (st t).threshold from rfl, show (st t).ticked.mu = (st t).mu from rfl,
        (hF t).threshold, (hF t).mu] at this
      exact this
  obtain ⟨t, ht⟩ := hab.exists
  have hv := P.valid t (a, b) ht
  exact P.separated h0 h1 (fun t => (hlen t).le) (hy a hv.1) (hy b hv.2) hab

/-- C64: the limits lie in every interval that contains the starting opinions, and have the same sum. -/
theorem C64_limit_hull {r : Rng G ℝ} {st : Nat → Deffuant (SimpleAgent ℝ) ℝ G} (T : Deffuant.Trajectory r st)
    (h0 : 0 ≤ (st 0).mu) (h1 : (st 0).mu ≤ 1) {y : Nat → ℝ}
    (hy : ∀ i, i < (st 0).network.agents.length → Tendsto (fun t => opinionOf (st t).network.agents i) atTop (𝓝 (y i))) :
    (∀ lo hi : ℝ, (∀ x ∈ opinions (st 0).network.agents, lo ≤ x ∧ x ≤ hi) →
      ∀ i, i < (st 0).network.agents.length → lo ≤ y i ∧ y i ≤ hi) ∧
    ∑ i ∈ Finset.range (st 0).network.agents.length, y i = (opinions (st 0).network.agents).sum := by
  have hit : ∀ t, Iterates (Deffuant.iteration r Deffuant.updateRule) (st 0) t (st t) := by
    intro t
    induction t with
    | zero => exact .zero
    | succ t ih => exact .succ ih (T t)
  constructor
  · intro lo hi hx i hi'
    have hb : ∀ t, lo ≤ opinionOf (st t).network.agents i ∧ opinionOf (st t).network.agents i ≤ hi := fun t =>
      C34_hull h0 h1 (hit t) hx _ (Deffuant.mem_opinions.mpr ⟨i, by rw [(T.frame t).n]; exact hi', rfl⟩)
    exact ⟨ge_of_tendsto' (hy i hi') fun t => (hb t).1, le_of_tendsto' (hy i hi') fun t => (hb t).2⟩
  · have ht := tendsto_finsetSum (Finset.range (st 0).network.agents.length) (fun i hi => hy i (Finset.mem_range.mp hi))
    have hc : (fun t => ∑ i ∈ Finset.range (st 0).network.agents.length, opinionOf (st t).network.agents i) =
        fun _ => (opinions (st 0).network.agents).sum := by
      funext t
      rw [← C33_sum (hit t), Deffuant.sum_opinions, (T.frame t).n]
    rw [hc] at ht
    exact tendsto_nhds_unique ht tendsto_const_nhds

/-- Trajectories exist from every ready state, for every lawful generator. -/
theorem C64_trajectory_exists [CommRing F] [LinearOrder F] [IsStrictOrderedRing F] {r : Rng G F} (hr : r.IntLawful)
    {s : Deffuant (SimpleAgent F) F G} (h : s.Ready) :
    ∃ st : Nat → Deffuant (SimpleAgent F) F G, st 0 = s ∧ Deffuant.Trajectory r st := by
  classical
  let nxt : Deffuant (SimpleAgent F) F G → Deffuant (SimpleAgent F) F G :=
    fun s => match Deffuant.iteration r Deffuant.updateRule s with | .ok t => t | .error _ => s
  let st : Nat → Deffuant (SimpleAgent F) F G := fun k => Nat.rec s (fun _ t => nxt t) k
  have hstep : ∀ k, (st k).Ready ∧ Deffuant.iteration r Deffuant.updateRule (st k) = .ok (st (k + 1)) := by
    intro k
    induction k with
    | zero =>
      obtain ⟨t, ht⟩ := Deffuant.iteration_total hr h
      refine ⟨h, ?_⟩
      show Deffuant.iteration r Deffuant.updateRule s = .ok (nxt s)
      simp only [nxt, ht]
    | succ k ih =>
      have hr' : (st (k + 1)).Ready := (Deffuant.iteration_schedule ih.2).1.ready ih.1
      obtain ⟨t, ht⟩ := Deffuant.iteration_total hr hr'
      refine ⟨hr', ?_⟩
      show Deffuant.iteration r Deffuant.updateRule (st (k + 1)) = .ok (nxt (st (k + 1)))
      simp only [nxt, ht]
  exact ⟨st, rfl, fun k => (hstep k).2⟩

/-! ### `mu = 1` is different -/

/-- A generator that always answers 0. -/
noncomputable def zeroRng : Rng Unit ℝ := ⟨fun g => (0, g), fun a _ g => (a, g), fun g => (0, g)⟩

theorem zeroRng_lawful : zeroRng.IntLawful := ⟨fun _ _ _ _ => le_refl _, fun _ _ _ h => h⟩

/-- Three agents without network. -/
noncomputable def swapState (c : Counter) (x y z : ℝ) : Deffuant (SimpleAgent ℝ) ℝ Unit :=
  ⟨c, 2, 1, false, ⟨[⟨x⟩, ⟨y⟩, ⟨z⟩], [[], [], []], [[], [], []], .incoming⟩, ()⟩

theorem swap_interact (c : Counter) (x y z : ℝ) (h : |x - y| < 2) :
    Deffuant.interact zeroRng Deffuant.updateRule (swapState c x y z) = .ok (swapState c y x z) := by
  have hp : Deffuant.selectPair zeroRng (swapState c x y z) = .ok ([0, 1], swapState c x y z) := by rfl
  unfold Deffuant.interact
  rw [hp, Res.bind_ok]
  show (do
    let _ ← rd [(⟨x⟩ : SimpleAgent ℝ), ⟨y⟩, ⟨z⟩] 0
    let _ ← rd [(⟨x⟩ : SimpleAgent ℝ), ⟨y⟩, ⟨z⟩] 1
    Deffuant.updateRule 0 1 (swapState c x y z)) = _
  rw [show rd [(⟨x⟩ : SimpleAgent ℝ), ⟨y⟩, ⟨z⟩] 0 = .ok ⟨x⟩ from rfl, Res.bind_ok,
    show rd [(⟨x⟩ : SimpleAgent ℝ), ⟨y⟩, ⟨z⟩] 1 = .ok ⟨y⟩ from rfl, Res.bind_ok]
  unfold Deffuant.updateRule
  rw [show rd (swapState c x y z).network.agents 0 = .ok ⟨x⟩ from rfl, Res.bind_ok,
    show rd (swapState c x y z).network.agents 1 = .ok ⟨y⟩ from rfl, Res.bind_ok]
  simp only [Deffuant.cabs_abs]
  rw [if_pos (show |x - y| < (swapState c x y z).threshold from h)]
  show Except.ok (⟨c, 2, 1, false, ⟨[⟨x - 1 * (x - y)⟩, ⟨y + 1 * (x - y)⟩, ⟨z⟩], [[], [], []], [[], [], []], .incoming⟩, ()⟩ :
    Deffuant (SimpleAgent ℝ) ℝ Unit) = _
  rw [show x - 1 * (x - y) = y by ring, show y + 1 * (x - y) = x by ring]
  rfl

/-- C64 fails for `mu = 1` (accepted by `validate_settings`): three agents, always the same pair drawn: two opinions are
exchanged in every iteration, for ever. -/
theorem C64_mu_one : ∃ (st : Nat → Deffuant (SimpleAgent ℝ) ℝ Unit), Deffuant.Trajectory zeroRng st ∧ (st 0).mu = 1 ∧
    (st 0).Ready ∧ ¬ ∃ y, Tendsto (fun t => opinionOf (st t).network.agents 0) atTop (𝓝 y) := by
  let st : Nat → Deffuant (SimpleAgent ℝ) ℝ Unit := fun t =>
    if t % 2 = 0 then swapState ⟨none, t⟩ 0 1 0 else swapState ⟨none, t⟩ 1 0 0
  have hit : ∀ (c : Counter) (x y z : ℝ), |x - y| < 2 →
      Deffuant.iteration zeroRng Deffuant.updateRule (swapState c x y z) = .ok (swapState c.tick y x z) := by
    intro c x y z h
    have h' : |y - x| < 2 := by rwa [abs_sub_comm]
    show loop 3 (fun _ s => Deffuant.interact zeroRng Deffuant.updateRule s) (swapState c.tick x y z) = _
    rw [loop_succ, loop_succ, loop_succ]
    show ((((Except.ok (swapState c.tick x y z) : Res _) >>= fun s => Deffuant.interact zeroRng Deffuant.updateRule s) >>=
      fun s => Deffuant.interact zeroRng Deffuant.updateRule s) >>= fun s => Deffuant.interact zeroRng Deffuant.updateRule s) = _
    rw [Res.bind_ok, swap_interact _ _ _ _ h, Res.bind_ok, swap_interact _ _ _ _ h', Res.bind_ok, swap_interact _ _ _ _ h]
  have h01 : |(0 : ℝ) - 1| < 2 := by norm_num
  have h10 : |(1 : ℝ) - 0| < 2 := by norm_num
  refine ⟨st, ?_, rfl, ⟨⟨rfl, rfl, ?_, ?_⟩, by show 3 < 2 ^ 64; decide, by intro h; cases h⟩, ?_⟩
  · intro t
    by_cases h : t % 2 = 0
    · have e1 : st t = swapState ⟨none, t⟩ 0 1 0 := if_pos h
      have e2 : st (t + 1) = swapState ⟨none, t + 1⟩ 1 0 0 := if_neg (by omega)
      rw [e1, e2, hit _ _ _ _ h01]; rfl
    · have e1 : st t = swapState ⟨none, t⟩ 1 0 0 := if_neg h
      have e2 : st (t + 1) = swapState ⟨none, t + 1⟩ 0 1 0 := if_pos (by omega)
      rw [e1, e2, hit _ _ _ _ h10]; rfl
  · show ∀ (i : Nat) (h : i < 3) (h' : i < 3), ([[], [], []] : List (List ℝ))[i].length = ([[], [], []] : List (List Nat))[i].length
    intro i h _
    match i, h with
    | 0, _ => rfl
    | 1, _ => rfl
    | 2, _ => rfl
  · show ∀ row ∈ ([[], [], []] : List (List Nat)), ∀ j ∈ row, j < 3
    intro row hrow j hj
    simp at hrow
    subst hrow
    simp at hj
  · rintro ⟨y, hy⟩
    have hev : ∀ t, opinionOf (st (2 * t)).network.agents 0 = 0 := by
      intro t
      have : st (2 * t) = swapState ⟨none, 2 * t⟩ 0 1 0 := if_pos (by omega)
      rw [this]; rfl
    have hod : ∀ t, opinionOf (st (2 * t + 1)).network.agents 0 = 1 := by
      intro t
      have : st (2 * t + 1) = swapState ⟨none, 2 * t + 1⟩ 1 0 0 := if_neg (by omega)
      rw [this]; rfl
    have h2 : Tendsto (fun t : Nat => 2 * t) atTop atTop := tendsto_atTop_mono (fun t => by simp only [id]; omega) tendsto_id
    have h3 : Tendsto (fun t : Nat => 2 * t + 1) atTop atTop := tendsto_atTop_mono (fun t => by simp only [id]; omega) tendsto_id
    have t1 := hy.comp h2
    have t2 := hy.comp h3
    have e1 : (fun t => opinionOf (st t).network.agents 0) ∘ (fun t : Nat => 2 * t) = fun _ => 0 := funext hev
    have e2 : (fun t => opinionOf (st t).network.agents 0) ∘ (fun t : Nat => 2 * t + 1) = fun _ => 1 := funext hod
    rw [e1] at t1
    rw [e2] at t2
    have := tendsto_nhds_unique t1 tendsto_const_nhds
    have := tendsto_nhds_unique t2 tendsto_const_nhds
    linarith

end Seldon
