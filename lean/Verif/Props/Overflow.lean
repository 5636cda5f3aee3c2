import Verif.Lemmas.ActivityIeee
import Verif.Props.Activity
import Verif.Props.RunActivity
/-!
# Property C82: opinions of the activity-driven model never become NaN or infinite in double precision
-/
set_option linter.unusedSectionVars false
namespace Seldon
open Spec Ieee Program
variable {A G : Type} {R : Rounding}

/-- Reasonable parameters: `M` bounds the initial opinions and the bot opinions, and 3/2 times `|K| n / m_i`.  All numbers are finite doubles;
the time step is at most 1 and not absurdly small. -/
structure Activity.Tame [ActiveAgent A (Ieee R)] (s : Activity A (Ieee R) G) (M : ℝ) : Prop where
  lower : 1 ≤ M
  upper : M ≤ 2 ^ 1000
  size : s.network.agents.length ≤ 2 ^ 40
  dt : ∃ h : Dbl R, s.p.dt = fin h ∧ 2 ^ (-40 : ℤ) ≤ h.val ∧ h.val ≤ 1
  alpha : ∃ a : Dbl R, s.p.alpha = fin a
  coupling : ∃ K : Dbl R, s.p.K = fin K ∧ ∀ i, i < s.network.agents.length →
    ∃ m : Dbl R, attr ActiveAgent.reluctance s.network.agents i = fin m ∧ 2 ^ (-1000 : ℤ) ≤ m.val ∧ m.val ≤ 2 ^ 1000 ∧
      3 / 2 * |K.val| * s.network.agents.length ≤ M * m.val
  opinions : ∀ i, i < s.network.agents.length → Within M (attr ActiveAgent.opinion s.network.agents i)
  bots : ∀ i, i < s.p.nBots → Within M (s.p.botOpinion.getD i 0)

section
variable [ActiveAgent A (Ieee R)] [LawfulActiveAgent A (Ieee R)]

/-- one iteration -/
theorem Activity.Tame.next {o : MathOps (Ieee R)} (ht : ∀ a, a ≠ nan → Within 1 (o.tanh a)) {pick : List (Nat × Ieee R) → Nat}
    (hp : Reservoir.Pick.Valid pick) {r : Rng G (Ieee R)} {s t : Activity A (Ieee R) G} (h : s.Ready) {M : ℝ} (hT : s.Tame M)
    (hs : Activity.iteration o pick r s = .ok t) : t.Tame M := by
  obtain ⟨gs, buf, contacts, t', ht', hF, -⟩ := C43_activity (o := o) hp r h
  obtain rfl := Except.ok.inj (hs.symm.trans ht')
  have hB := (Activity.iteration_frame hs).1
  have hp' := (Activity.iteration_frame hs).2.1
  have hlen := hB.traits.length
  have hrel : ∀ i, attr ActiveAgent.reluctance t.network.agents i = attr ActiveAgent.reluctance s.network.agents i := by
    intro i; unfold attr; rw [hB.traits.2]
  obtain ⟨h', hdt, hd0, hd1⟩ := hT.dt
  obtain ⟨al, hal⟩ := hT.alpha
  obtain ⟨K, hK, hKm⟩ := hT.coupling
  refine ⟨hT.lower, hT.upper, by rw [hlen]; exact hT.size, by rw [hp']; exact ⟨h', hdt, hd0, hd1⟩, by rw [hp']; exact ⟨al, hal⟩,
    ⟨K, by rw [hp']; exact hK, fun i hi => by rw [hrel, hlen]; exact hKm i (by omega)⟩, ?_, by rw [hp']; exact hT.bots⟩
  -- the parts of the iteration
  unfold Activity.iteration at hs
  obtain ⟨u, h1, hs⟩ := Res.bind_eq_ok.mp hs
  obtain ⟨l, h2, hs⟩ := Res.bind_eq_ok.mp hs
  obtain ⟨e1, e2, -⟩ := Activity.updateNetwork_frame h1
  rw [e2] at h2
  have e1' : u.network.agents = s.network.agents := e1
  have ht2 : t.network = { u.network with agents := l } := by rw [← Except.ok.inj hs]
  have hl : l.length = u.network.agents.length := by rw [ht2] at hlen; rw [e1']; exact hlen
  have hwt := hF.wf
  rw [ht2] at hwt
  have hw : WF u.network := by
    refine ⟨?_, ?_, hwt.lengths, ?_⟩
    · rw [← hl]; exact hwt.rows
    · rw [← hl]; exact hwt.wrows
    · rw [← hl]; exact hwt.range
  have hrow : ∀ i, row u.network i = row t.network i := by intro i; rw [ht2]; rfl
  have hlt : ∀ i, ∀ e ∈ row u.network i, e.1 < u.network.agents.length := fun i e he => NetLemmas.row_lt hw he
  have hcount : ∀ i, (row u.network i).length ≤ u.network.agents.length := by
    intro i
    have hnd := hF.nodup i
    rw [← hrow] at hnd
    have hsub : ((row u.network i).map (·.1)) ⊆ List.range u.network.agents.length := by
      intro j hj
      obtain ⟨e, he, rfl⟩ := List.mem_map.mp hj
      exact List.mem_range.mpr (hlt i e he)
    have := (hnd.subperm hsub).length_le
    simpa using this
  have hstep := Activity.rkStep_eq o s.p hw (by rw [e1']; exact h.fit.bots) h.botOpinion
  have h2' : Activity.rkStep o s.p u.network = .ok l := h2
  rw [h2'] at hstep
  have hstep' := Except.ok.inj hstep
  intro i hi
  rw [hlen] at hi
  have hi' : i < u.network.agents.length := by rw [e1']; exact hi
  rw [ht2]
  show Within M (attr ActiveAgent.opinion l i)
  rw [hstep', Activity.attr_mapIdx _ _ hi']
  by_cases hb : i < s.p.nBots
  · rw [if_pos hb, LawfulActiveAgent.opinion_setOpinion]
    exact hT.bots i hb
  · rw [if_neg hb, LawfulActiveAgent.opinion_setOpinion, ← Activity.attr_lt ActiveAgent.opinion hi']
    refine Activity.rkOpinion_fin (W := 1) ht hal hK hdt hd0 hd1 le_rfl hT.lower hT.upper (by rw [e1']; exact hT.size) ?_ ?_ hcount hlt ?_ hi'
    · rw [e1']; simpa only [mul_one] using hKm
    · intro j _ e he; rw [hF.ones j e (by rw [← hrow]; exact he)]; exact ⟨1, rfl, by rw [one_val, abs_one]⟩
    · rw [e1']; exact hT.opinions

/-- C82: in IEEE double precision with overflow, infinities and NaN, with any rounding to nearest and any `tanh` whose values are finite and in
`[-1, 1]`: over any number of iterations of the probabilistic activity-driven model every opinion is a finite number, of size at most `M`, where
`M ≥ 1` is any number that bounds the initial opinions, the bot opinions and `3/2 |K| n / m_i`.  The run itself never fails. -/
theorem C82_bounded {o : MathOps (Ieee R)} (ht : ∀ a, a ≠ nan → Within 1 (o.tanh a)) {pick : List (Nat × Ieee R) → Nat}
    (hp : Reservoir.Pick.Valid pick) {r : Rng G (Ieee R)} {s : Activity A (Ieee R) G} (h : s.Ready) {M : ℝ} (hT : s.Tame M) (k : Nat) :
    ∃ t, Iterates (Activity.iteration o pick r) s k t ∧ t.network.agents.length = s.network.agents.length ∧
      ∀ a ∈ t.network.agents, Within M (ActiveAgent.opinion a) := by
  obtain ⟨t, hit, -⟩ := C43_total (o := o) hp r h k
  have key : t.Ready ∧ t.Tame M ∧ t.network.agents.length = s.network.agents.length := by
    induction hit with
    | zero => exact ⟨h, hT, rfl⟩
    | succ _ h' ih =>
      obtain ⟨i1, i2, i3⟩ := ih
      exact ⟨i1.next hp h', i2.next ht hp i1 h', by rw [(Activity.iteration_frame h').1.traits.length, i3]⟩
  refine ⟨t, hit, key.2.2, ?_⟩
  intro a ha
  obtain ⟨i, hi, rfl⟩ := List.getElem_of_mem ha
  have := key.2.1.opinions i hi
  rwa [Activity.attr_lt _ hi] at this

end

/-! ## the whole program -/

namespace Spec.Ieee

theorem unit_fin {u : Ieee R} (h0 : 0 ≤ u) (h1 : u < 1) : ∃ d : Dbl R, u = fin d ∧ 0 ≤ d.val ∧ d.val < 1 := by
  cases u with
  | fin d => exact ⟨d, rfl, h0, h1⟩
  | pinf => exact absurd h1 id
  | ninf => exact absurd h0 id
  | nan => exact absurd h0 id

/-- an opinion drawn uniformly from `[-1, 1)` is a finite number in `[-1, 1]` -/
theorem drawOpinion_fin {r : Rng G (Ieee R)} (hr : r.Lawful) (g : G) : Within 1 (Activity.drawOpinion r g).1 := by
  obtain ⟨u, hu, h0, h1⟩ := unit_fin (hr.unit_nonneg g) (hr.unit_lt_one g)
  show Within 1 ((r.unit g).1 * (1 - -1) + -1)
  rw [hu]
  have hb : (2 : ℝ) ≤ 2 ^ 1020 := by
    calc (2 : ℝ) = 2 ^ 1 := by norm_num
      _ ≤ 2 ^ 1020 := pow_le_pow_right₀ (by norm_num) (by norm_num)
  have d2 : IsDouble 2 := by exact_mod_cast isDouble_nat (n := 2) (by norm_num)
  have e1 : (1 - -1 : Ieee R) = fin (Dbl.ofReal R (1 + 1)) := by
    show ofReal R ((1 : Dbl R).val + (-(-(1 : Dbl R))).val) = _
    simp only [neg_val, one_val, neg_neg]
    exact ofReal_fin R (le_trans (by rw [abs_of_nonneg (by norm_num)]; norm_num) hb)
  have v1 : (Dbl.ofReal R (1 + 1)).val = 2 := by
    show R.round (1 + 1) = 2
    rw [show (1 : ℝ) + 1 = 2 by norm_num, R.fix d2]
  have e2 : (fin u * fin (Dbl.ofReal R (1 + 1)) : Ieee R) = fin (Dbl.ofReal R (u.val * 2)) := by
    show ofReal R _ = _
    rw [v1]
    exact ofReal_fin R (le_trans (by rw [abs_of_nonneg (by linarith)]; linarith) hb)
  have b0 : 0 ≤ R.round (u.val * 2) := R.nonneg (by linarith)
  have b1 : R.round (u.val * 2) ≤ 2 := R.le_of_le d2 (by linarith)
  have e3 : (fin (Dbl.ofReal R (u.val * 2)) + -1 : Ieee R) = fin (Dbl.ofReal R (R.round (u.val * 2) + -1)) := by
    show ofReal R _ = _
    exact ofReal_fin R (le_trans (by
      show |R.round (u.val * 2) + -1| ≤ 2
      rw [abs_le]; constructor <;> linarith) hb)
  rw [e1, e2, e3]
  refine ⟨_, rfl, ?_⟩
  exact round_abs_le R Dbl.isDouble_one (by rw [abs_le]; constructor <;> linarith)

end Spec.Ieee

section
variable [ActiveAgent A (Ieee R)] [LawfulActiveAgent A (Ieee R)] [Inhabited A]

/-- The agents a model starts with. -/
theorem Activity.created_fin {o : MathOps (Ieee R)} {r : Rng G (Ieee R)} (hr : r.Lawful) {p : ActivitySettings (Ieee R)} (hu : p.useReluctances = false)
    {agents : List A} {g : G} {M : ℝ} (hM : 1 ≤ M) (hb : ∀ i, i < p.nBots → Within M (p.botOpinion.getD i 0)) {i : Nat} (hi : i < agents.length) :
    Within M (attr ActiveAgent.opinion (Activity.createdAgents o r p agents g) i) ∧
      attr ActiveAgent.reluctance (Activity.createdAgents o r p agents g) i = ActiveAgent.reluctance agents[i] := by
  have hop : ∀ (a : A) g, ActiveAgent.opinion (Activity.initialAgent o r p a g).1 = (Activity.drawOpinion r g).1 := by
    intro a g
    simp only [Activity.initialAgent, hu]
    split <;> simp [LawfulActiveAgent.opinion_setActivity, LawfulActiveAgent.opinion_setOpinion]
  have hre : ∀ (a : A) g, ActiveAgent.reluctance (Activity.initialAgent o r p a g).1 = ActiveAgent.reluctance a := by
    intro a g
    simp only [Activity.initialAgent, hu]
    split <;> simp [LawfulActiveAgent.reluctance_setActivity, LawfulActiveAgent.reluctance_setOpinion]
  unfold Activity.createdAgents
  rw [Activity.attr_mapIdx _ _ hi, Activity.attr_mapIdx _ _ hi]
  dsimp only
  by_cases h : i < p.nBots
  · rw [if_pos h]
    simp only [LawfulActiveAgent.opinion_setActivity, LawfulActiveAgent.opinion_setOpinion, LawfulActiveAgent.reluctance_setActivity,
      LawfulActiveAgent.reluctance_setOpinion]
    exact ⟨hb i h, hre _ _⟩
  · rw [if_neg h, hop, hre]
    obtain ⟨d, h1, h2⟩ := drawOpinion_fin hr (Activity.drawState o r p agents g i)
    exact ⟨⟨d, h1, h2.trans hM⟩, rfl⟩
end

theorem iterates_unique {σ : Type} {f : σ → Res σ} {s t u : σ} {k : Nat} (h : Iterates f s k t) (h' : Iterates f s k u) : t = u := by
  induction h generalizing u with
  | zero => cases h'; rfl
  | succ _ e ih =>
    cases h' with
    | succ h2 e2 =>
      obtain rfl := ih h2
      exact Except.ok.inj (e.symm.trans e2)

section
variable {env : Env (Ieee R) G} {args : Args} {options : Config.Options (Ieee R)}

/-- C82 for the whole program: a run of the probabilistic activity-driven model without reluctances, from an accepted configuration, completes, and
every opinion in every state it writes is a finite number of size at most `M`, where `M ≥ 1` is any number that bounds the bot opinions and
`3/2 |K| n` (`num_agents = n`).  With the default seed or any other, for every outcome of the random draws. -/
theorem C82_program {s : ActivitySettings (Ieee R)} (he : env.Safe) (hr : env.rng.Lawful) (ht : ∀ a, a ≠ nan → Within 1 (env.math.tanh a))
    (h : Accepted env args options) (hout : SaneOutput options) (hs : options.settings = .activity s)
    (hc : SaneContacts s options.network.nAgents) {K : Nat} (hK : s.maxIterations = some (K : Int)) (hK' : K < 2 ^ 31) {fuel : Nat} (hf : K ≤ fuel)
    (hmean : s.meanWeights = false) (hu : s.useReluctances = false) {M : ℝ} (hM : 1 ≤ M) (hM' : M ≤ 2 ^ 1000)
    (hdt : ∃ h : Dbl R, s.dt = fin h ∧ 2 ^ (-40 : ℤ) ≤ h.val ∧ h.val ≤ 1) (hal : ∃ a : Dbl R, s.alpha = fin a)
    (hcoup : ∃ k : Dbl R, s.K = fin k ∧ 3 / 2 * |k.val| * options.network.nAgents ≤ M)
    (hb : ∀ i, i < s.nBots → Within M (s.botOpinion.getD i 0)) :
    ∃ (N : Nat → Network (ActivityAgent (Ieee R)) (Ieee R)) (tr : List FileWrite), main env args fuel = .ok tr ∧
      List.Forall₂ (Fulfils (render env .activity)) tr (wanted options.output N K) ∧ ActivityRun s options.network.nAgents K N ∧
      ∀ k, k ≤ K → ∀ a ∈ (N k).agents, Within M a.opinion := by
  obtain ⟨m, st, tr, hmain, hfiles, hrun, hsound, hp, ⟨g, hag⟩, hit⟩ := activity_states he h hout hs hc hK hK' hf
  refine ⟨_, tr, hmain, hfiles, hrun, ?_⟩
  have hready : m.Ready := by
    rcases hsound with h' | ⟨h', -⟩
    · exact h'
    · have := h'.mean; rw [hp, hmean] at this; cases this
  have hlen : m.network.agents.length = options.network.nAgents := by rw [hag, Activity.createdAgents_length, List.length_replicate]
  have hcr : ∀ i, i < options.network.nAgents → Within M (attr ActiveAgent.opinion m.network.agents i) ∧
      attr ActiveAgent.reluctance m.network.agents i = 1 := by
    intro i hi
    have := Activity.created_fin (o := env.math) (A := ActivityAgent (Ieee R)) (agents := List.replicate options.network.nAgents default) (g := g)
      hr hu hM hb (i := i) (by simpa using hi)
    rw [hag]
    refine ⟨this.1, this.2.trans ?_⟩
    rw [List.getElem_replicate]
    rfl
  obtain ⟨c, hc1, hc2⟩ := hcoup
  have hT : m.reset.Tame M := by
    refine ⟨hM, hM', ?_, by rw [show m.reset.p = s from hp]; exact hdt, by rw [show m.reset.p = s from hp]; exact hal,
      ⟨c, by rw [show m.reset.p = s from hp]; exact hc1, ?_⟩, ?_, by rw [show m.reset.p = s from hp]; exact hb⟩
    · show m.network.agents.length ≤ _
      have := h.size
      omega
    · show ∀ i, i < m.network.agents.length → _
      intro i hi
      rw [hlen] at hi
      refine ⟨1, (hcr i hi).2, ?_, ?_, ?_⟩
      · rw [one_val]
        exact zpow_le_one_of_nonpos₀ (by norm_num) (by norm_num)
      · rw [one_val]; exact one_le_pow₀ (by norm_num)
      · show 3 / 2 * |c.val| * (m.network.agents.length : ℝ) ≤ _
        rw [hlen, one_val, mul_one]; exact hc2
    · show ∀ i, i < m.network.agents.length → _
      intro i hi
      exact (hcr i (by omega)).1
  have hR : m.reset.Ready := ⟨hready.wf, hready.incoming, hready.fit, hready.botOpinion, hready.probabilistic⟩
  intro k hk a ha
  obtain ⟨t, ht1, -, ht2⟩ := C82_bounded (o := env.math) ht he.pick (r := env.rng) hR hT k
  obtain rfl : t = st k := iterates_unique ht1 (hit k hk)
  exact ht2 a ha

end

/-! ## a concrete case -/

namespace Overflow

/-- The correctly rounded hyperbolic tangent. -/
noncomputable def tanh : Ieee R → Ieee R
  | .fin d => ofReal R (Real.tanh d.val)
  | .pinf => 1
  | .ninf => -1
  | .nan => nan

theorem tanh_within (a : Ieee R) (h : a ≠ nan) : Within 1 (tanh a) := by
  cases a with
  | fin d =>
    have h1 : |Real.tanh d.val| ≤ 1 := (Real.abs_tanh_lt_one _).le
    exact ⟨_, ofReal_fin R (h1.trans (one_le_pow₀ (by norm_num))), round_abs_le R Dbl.isDouble_one h1⟩
  | pinf => exact ⟨1, rfl, by rw [one_val, abs_one]⟩
  | ninf => exact ⟨-1, rfl, by rw [neg_val, one_val, abs_neg, abs_one]⟩
  | nan => exact absurd rfl h

/-- Only `tanh` matters here. -/
noncomputable def ops (R : Rounding) : MathOps (Ieee R) :=
  { pow := fun _ _ => 1, log := fun _ => 0, tanh := tanh, powNat := fun _ _ => 1, erf := fun _ => 0, erfinv := fun _ => 0, sqrt := fun _ => 1,
    exp := fun _ => 1, pi := 1 }

noncomputable def half (R : Rounding) : Dbl R := ⟨1 / 2, ⟨1, -1, by norm_num, by norm_num, by norm_num⟩⟩

/-- Three agents, one of them a bot with opinion -1; `K = 1`, `dt = 1/2`, one contact each. -/
noncomputable def settings (R : Rounding) : ActivitySettings (Ieee R) where
  maxIterations := some 3
  dt := fin (half R)
  m := 1
  eps := fin (half R)
  gamma := 1
  alpha := 1
  homophily := fin (half R)
  reciprocity := fin (half R)
  K := 1
  meanActivities := false
  meanWeights := false
  nBots := 1
  botM := [1]
  botActivity := [1]
  botOpinion := [-1]
  botHomophily := [1]
  useReluctances := false
  reluctanceMean := 1
  reluctanceSigma := 1
  reluctanceEps := 1
  covarianceFactor := 0

noncomputable def start (R : Rounding) : Activity (ActivityAgent (Ieee R)) (Ieee R) Unit where
  counter := ⟨some 3, 0⟩
  p := settings R
  network := ⟨[⟨-1, 1, 1⟩, ⟨1, 1, 1⟩, ⟨fin (half R), 1, 1⟩], [[], [], []], [[], [], []], .incoming⟩
  contactProb := [[], [], []]
  gen := ()

theorem start_ready : (start R).Ready where
  wf := by
    refine ⟨rfl, rfl, ?_, ?_⟩
    · intro i h h'
      match i, h with
      | 0, _ => rfl
      | 1, _ => rfl
      | 2, _ => rfl
    · intro row hrow j hj
      simp only [start, List.mem_cons, List.not_mem_nil, or_false] at hrow
      rcases hrow with rfl | rfl | rfl <;> cases hj
  incoming := rfl
  fit := by
    have c : ∀ i, contactsOf (settings R) i = 1 := by
      intro i
      unfold contactsOf
      rcases i with _ | i <;> simp [settings]
    refine ⟨?_, ?_, ?_, ?_, ?_, ?_⟩
    · show 3 < 2 ^ 64; norm_num
    · show 1 ≤ 3; norm_num
    · show 1 ≤ 1; norm_num
    · show 1 ≤ 1; norm_num
    · intro i _
      show 0 ≤ contactsOf (settings R) i
      rw [c]; norm_num
    · intro i _
      show contactsOf (settings R) i ≤ ((3 : Nat) : Int)
      rw [c]; norm_num
  botOpinion := le_refl 1
  probabilistic := rfl

theorem one_within {M : ℝ} (h : 1 ≤ M) : Within M (1 : Ieee R) := ⟨1, rfl, by rw [one_val, abs_one]; exact h⟩

theorem start_tame : (start R).Tame 5 where
  lower := by norm_num
  upper := by
    calc (5 : ℝ) ≤ 2 ^ 3 := by norm_num
      _ ≤ 2 ^ 1000 := pow_le_pow_right₀ (by norm_num) (by norm_num)
  size := by show 3 ≤ 2 ^ 40; norm_num
  dt := ⟨half R, rfl, by show (2 : ℝ) ^ (-40 : ℤ) ≤ 1 / 2; norm_num, by show (1 / 2 : ℝ) ≤ 1; norm_num⟩
  alpha := ⟨1, rfl⟩
  coupling := by
    refine ⟨1, rfl, ?_⟩
    show ∀ i, i < 3 → _
    intro i hi
    have e : attr ActiveAgent.reluctance (start R).network.agents i = 1 := by
      match i, hi with
      | 0, _ => rfl
      | 1, _ => rfl
      | 2, _ => rfl
    refine ⟨1, e, ?_, ?_, ?_⟩
    · rw [one_val]; exact zpow_le_one_of_nonpos₀ (by norm_num) (by norm_num)
    · rw [one_val]; exact one_le_pow₀ (by norm_num)
    · show 3 / 2 * |(1 : Dbl R).val| * ((3 : Nat) : ℝ) ≤ 5 * (1 : Dbl R).val
      rw [one_val, abs_one]; norm_num
  opinions := by
    show ∀ i, i < 3 → _
    intro i hi
    match i, hi with
    | 0, _ => exact ⟨-1, rfl, by rw [neg_val, one_val, abs_neg, abs_one]; norm_num⟩
    | 1, _ => exact one_within (by norm_num)
    | 2, _ => exact ⟨half R, rfl, by show |(1 / 2 : ℝ)| ≤ 5; rw [abs_of_pos (by norm_num)]; norm_num⟩
  bots := by
    show ∀ i, i < 1 → _
    intro i hi
    match i, hi with
    | 0, _ => exact ⟨-1, rfl, by rw [neg_val, one_val, abs_neg, abs_one]; norm_num⟩

/-- A million iterations of the example: all opinions are finite and at most 5 in size. -/
example (r : Rng Unit (Ieee R)) : ∃ t, Iterates (Activity.iteration (ops R) (fun _ => 0) r) (start R) 1000000 t ∧
    t.network.agents.length = 3 ∧ ∀ a ∈ t.network.agents, Within 5 a.opinion :=
  C82_bounded tanh_within ⟨fun _ h => List.length_pos_iff.mpr h⟩ start_ready start_tame 1000000

/-! the whole program, with the default parameters -/

theorem lit_fin {a b : Nat} (ha : a ≤ 2 ^ 53) (hb : b ≤ 2 ^ 53) (h0 : 0 < b) :
    ∃ d : Dbl R, (Config.lit a b : Ieee R) = fin d ∧ |d.val - a / b| ≤ 1 / 1000 * |(a : ℝ) / b| + 1 / 10 ^ 6 := by
  obtain ⟨x, hx, vx⟩ := natCast_fin (R := R) ha
  obtain ⟨y, hy, vy⟩ := natCast_fin (R := R) hb
  have b0 : (1 : ℝ) ≤ b := by exact_mod_cast h0
  have hq : |x.val / y.val| ≤ 2 ^ 53 := by
    rw [vx, vy, abs_of_nonneg (by positivity), div_le_iff₀ (by linarith)]
    have : (a : ℝ) ≤ 2 ^ 53 := by exact_mod_cast ha
    nlinarith
  obtain ⟨z, hz, ez⟩ := div_fin (R := R) (x := x) (y := y) (by rw [vy]; positivity) (hq.trans (pow_le_pow_right₀ (by norm_num) (by norm_num)))
  refine ⟨z, by unfold Config.lit; rw [hx, hy, hz], ?_⟩
  rw [vx, vy] at ez
  have hu := ulp_le
  have ht := tiny_le
  have h1 : ulp ≤ 1 / 1000 := hu.trans (by norm_num)
  have h2 : ulp ≤ 1 / 10 ^ 6 := hu.trans (by norm_num)
  have h3 : ulp * |(a : ℝ) / b| ≤ 1 / 1000 * |(a : ℝ) / b| := mul_le_mul_of_nonneg_right h1 (abs_nonneg _)
  linarith

/-- Five agents, nothing said but the number of iterations and of contacts. -/
def doc (R : Rounding) : Config.Doc (Ieee R) := fun s k =>
  if s = "simulation" ∧ k = "model" then some (.str "ActivityDriven")
  else if s = "network" ∧ k = "number_of_agents" then some (.int 5)
  else if s = "network" ∧ k = "connections_per_agent" then some (.int 1)
  else if s = "model" ∧ k = "max_iterations" then some (.int 1000)
  else if s = "io" ∧ k = "n_output_agents" then some (.int 500)
  else if s = "ActivityDriven" ∧ k = "m" then some (.int 3)
  else none

/-- What is read for the model. -/
noncomputable def defaults (R : Rounding) : ActivitySettings (Ieee R) where
  maxIterations := some 1000
  dt := Config.lit 1 100
  m := 3
  eps := Config.lit 1 100
  gamma := Config.lit 21 10
  alpha := Config.lit 3 1
  homophily := Config.lit 1 2
  reciprocity := Config.lit 1 2
  K := Config.lit 3 1
  meanActivities := false
  meanWeights := false
  nBots := 0
  botM := []
  botActivity := []
  botOpinion := []
  botHomophily := []
  useReluctances := false
  reluctanceMean := Config.lit 1 1
  reluctanceSigma := Config.lit 1 4
  reluctanceEps := Config.lit 1 100
  covarianceFactor := 0

noncomputable def options (R : Rounding) : Config.Options (Ieee R) where
  model := .activityDriven
  modelString := "ActivityDriven"
  rngSeed := 7
  output := { nOutputNetwork := none, nOutputAgents := some 500, printProgress := false, outputInitial := true, startOutput := 1, startNumberingFrom := 0 }
  settings := .activity (defaults R)
  network := ⟨none, 5, 1⟩

/-- The same as `Env.sample`, in double precision. -/
noncomputable def env (R : Rounding) (r : Rng Nat (Ieee R)) : Env (Ieee R) Nat where
  rng := r
  seed k := k.toNat
  fresh := 7
  math := ops R
  pick := fun _ => 0
  isqrt := Nat.sqrt
  text := ⟨fun _ => ['0'], fun _ => .ok 0⟩
  files f := if f = "conf.toml" then some [] else none
  toml _ := some (doc R)
  convert :=
    { double := fun n => match n with | .float x => some x | .int k => some (k : Ieee R) | _ => none
      int := fun n => match n with | .int k => if -2 ^ 31 ≤ k ∧ k < 2 ^ 31 then some k else none | _ => none
      size := fun n => match n with | .int k => if 0 ≤ k ∧ k < 2 ^ 63 then some k.toNat else none | _ => none
      bool := fun n => match n with | .bool b => some b | _ => none
      str := fun n => match n with | .str s => some s | _ => none
      ofInt := fun k => k
      trunc := fun _ => some 0 }

theorem defaults_valid : ValidActivity (defaults R) := by
  have pos : ∀ a b : Nat, 0 < a → a ≤ 1000 → 0 < b → b ≤ 1000 → (0 : Ieee R) < Config.lit a b := by
    intro a b ha ha' hb hb'
    obtain ⟨d, h1, h2⟩ := lit_fin (R := R) (a := a) (b := b) (by omega) (by omega) hb
    rw [h1]
    show (0 : ℝ) < d.val
    have : (1 : ℝ) / 1000 ≤ a / b := by
      have a1 : (1 : ℝ) ≤ a := by exact_mod_cast ha
      have b1 : (1 : ℝ) ≤ b := by exact_mod_cast hb
      have b2 : (b : ℝ) ≤ 1000 := by exact_mod_cast hb'
      rw [div_le_div_iff₀ (by norm_num) (by linarith)]; nlinarith
    rw [abs_of_nonneg (by linarith : (0 : ℝ) ≤ a / b)] at h2
    have := (abs_le.mp h2).1
    linarith
  have weak : ∀ a : Ieee R, 0 < a → 0 ≤ a := by
    intro a h
    cases a with
    | fin d => exact (show (0 : Dbl R).val ≤ d.val from le_of_lt (show (0 : Dbl R).val < d.val from h))
    | pinf => trivial
    | ninf => exact absurd h id
    | nan => exact absurd h id
  refine ⟨pos _ _ (by decide) (by decide) (by decide) (by decide), by show (0 : Int) ≤ 3; decide, pos _ _ (by decide) (by decide) (by decide) (by decide), ?_,
    weak _ (pos _ _ (by decide) (by decide) (by decide) (by decide)), weak _ (pos _ _ (by decide) (by decide) (by decide) (by decide)),
    pos _ _ (by decide) (by decide) (by decide) (by decide), pos _ _ (by decide) (by decide) (by decide) (by decide),
    pos _ _ (by decide) (by decide) (by decide) (by decide), ?_, le_refl 0, le_refl 0, le_refl 0, le_refl 0⟩
  · obtain ⟨x, h1, h2⟩ := natCast_fin (R := R) (n := 2) (by norm_num)
    obtain ⟨d, h3, h4⟩ := lit_fin (R := R) (a := 21) (b := 10) (by norm_num) (by norm_num) (by norm_num)
    show ((2 : Nat) : Ieee R) < Config.lit 21 10
    rw [h1, h3]
    show x.val < d.val
    rw [h2]
    rw [abs_of_nonneg (show (0 : ℝ) ≤ ((21 : Nat) : ℝ) / ((10 : Nat) : ℝ) by positivity)] at h4
    have := (abs_le.mp h4).1
    push_cast at this ⊢
    linarith
  · show (-1 : Dbl R).val ≤ (0 : Dbl R).val ∧ (0 : Dbl R).val ≤ (1 : Dbl R).val
    rw [neg_val, one_val]
    show (-1 : ℝ) ≤ 0 ∧ (0 : ℝ) ≤ 1
    norm_num

theorem accepted (r : Rng Nat (Ieee R)) : Accepted (env R r) ⟨"conf.toml", none, none, none⟩ (options R) := by
  refine ⟨⟨doc R, rfl, by with_unfolding_all rfl⟩, ?_, rfl, rfl, by show 5 < 2 ^ 31; norm_num⟩
  exact (C53_validate (options R) trivial).1.mpr ⟨by show 0 < 1; norm_num, defaults_valid⟩

/-- A run of 1000 iterations with the default parameters and five agents: no opinion is ever larger than 23 in size. -/
example (r : Rng Nat (Ieee R)) (hr : r.Lawful) : ∃ (N : Nat → Network (ActivityAgent (Ieee R)) (Ieee R)) (tr : List FileWrite),
    main (env R r) ⟨"conf.toml", none, none, none⟩ 1000 = .ok tr ∧ tr.length = 4 ∧ ∀ k, k ≤ 1000 → ∀ a ∈ (N k).agents, Within 23 a.opinion := by
  obtain ⟨N, tr, h1, h2, -, h3⟩ := C82_program (env := env R r) (options := options R) (s := defaults R) (K := 1000) (fuel := 1000) (M := 23)
    ⟨⟨hr.int_ge, hr.int_le⟩, ⟨fun _ h => List.length_pos_iff.mpr h⟩, fun L _ => Nat.sqrt_eq L⟩ hr tanh_within (accepted r)
    ⟨by show some 500 ≠ some 0; decide, by show none ≠ some 0; decide⟩ rfl
    ⟨by show (3 : Int) ≤ 5; decide, by show 0 ≤ 5; decide, fun i k hi => absurd hi (Nat.not_lt_zero i)⟩ rfl (by norm_num) (le_refl _) rfl rfl
    (by norm_num)
    (by
      calc (23 : ℝ) ≤ 2 ^ 5 := by norm_num
        _ ≤ 2 ^ 1000 := pow_le_pow_right₀ (by norm_num) (by norm_num))
    (by
      obtain ⟨d, h1, h2⟩ := lit_fin (R := R) (a := 1) (b := 100) (by norm_num) (by norm_num) (by norm_num)
      refine ⟨d, h1, ?_, ?_⟩
      · have := (abs_le.mp h2).1
        rw [abs_of_nonneg (by positivity)] at this
        norm_num at this ⊢
        linarith
      · have := (abs_le.mp h2).2
        rw [abs_of_nonneg (by positivity)] at this
        norm_num at this ⊢
        linarith)
    (by
      obtain ⟨d, h1, -⟩ := lit_fin (R := R) (a := 3) (b := 1) (by norm_num) (by norm_num) (by norm_num)
      exact ⟨d, h1⟩)
    (by
      obtain ⟨d, h1, h2⟩ := lit_fin (R := R) (a := 3) (b := 1) (by norm_num) (by norm_num) (by norm_num)
      refine ⟨d, h1, ?_⟩
      rw [abs_of_nonneg (show (0 : ℝ) ≤ ((3 : Nat) : ℝ) / ((1 : Nat) : ℝ) by positivity)] at h2
      obtain ⟨h3, h4⟩ := abs_le.mp h2
      have : |d.val| ≤ 3.01 := by rw [abs_le]; norm_num at h3 h4 ⊢; constructor <;> linarith
      show 3 / 2 * |d.val| * ((5 : Nat) : ℝ) ≤ 23
      push_cast
      linarith)
    (fun i hi => absurd hi (Nat.not_lt_zero i))
  refine ⟨N, tr, h1, ?_, h3⟩
  rw [h2.length_eq]
  show (wanted (options R).output N 1000).length = 4
  unfold wanted
  rw [List.length_append, List.length_flatMap]
  have e : ((List.range 1000).map (fun k => (wantedAt (options R).output (N (k + 1)) (k + 1)).length)) =
      (List.range 1000).map (fun k => if 500 ∣ k + 1 then 1 else 0) := by
    apply List.map_congr_left
    intro k _
    unfold wantedAt
    have e1 : Requested (options R).output.nOutputAgents (options R).output.startOutput (k + 1) ↔ 500 ∣ k + 1 := by
      constructor
      · rintro ⟨m, hm, hd, -⟩
        obtain rfl : (500 : Nat) = m := Option.some.inj hm
        exact hd
      · intro hd; exact ⟨500, rfl, hd, by show 1 ≤ k + 1; omega⟩
    have e2 : ¬ Requested (options R).output.nOutputNetwork (options R).output.startOutput (k + 1) := by
      rintro ⟨m, hm, -⟩; cases hm
    rw [if_neg e2, List.append_nil]
    by_cases h : 500 ∣ k + 1
    · rw [if_pos (e1.mpr h), if_pos h]; rfl
    · rw [if_neg (fun h' => h (e1.mp h')), if_neg h]; rfl
  rw [e]
  have e3 : ((List.range 1000).map (fun k => if 500 ∣ k + 1 then 1 else 0)).sum = 2 := by decide +kernel
  rw [e3]
  rfl

end Overflow
end Seldon
