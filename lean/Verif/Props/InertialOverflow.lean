import Verif.Lemmas.InertialIeee
import Verif.Lemmas.Lyapunov
import Verif.Props.Overflow
/-!
# Property C104: opinions and velocities of the inertial model never become NaN or infinite in double precision
-/
set_option linter.unusedSectionVars false
namespace Seldon
open Spec Ieee Program
variable {G : Type} {R : Rounding}

/-- Reasonable parameters: the friction `f` is between `2⁻⁸` and `2⁸`, the time step between `2⁻¹⁵` and 1, and `M` bounds the bot opinions and
3/2 times `|K| n / m_i`.  All numbers are finite doubles. -/
structure Inertial.Reasonable (s : Inertial (Ieee R) G) (f : Dbl R) (M : ℝ) : Prop where
  lower : 1 ≤ M
  upper : M ≤ 2 ^ 940
  size : s.base.network.agents.length ≤ 2 ^ 28
  friction : s.friction = fin f ∧ 2 ^ (-8 : ℤ) ≤ f.val ∧ f.val ≤ 2 ^ 8
  dt : ∃ h : Dbl R, s.base.p.dt = fin h ∧ 2 ^ (-15 : ℤ) ≤ h.val ∧ h.val ≤ 1
  alpha : ∃ a : Dbl R, s.base.p.alpha = fin a
  coupling : ∃ K : Dbl R, s.base.p.K = fin K ∧ ∀ i, i < s.base.network.agents.length →
    ∃ m : Dbl R, attr ActiveAgent.reluctance s.base.network.agents i = fin m ∧ 2 ^ (-1000 : ℤ) ≤ m.val ∧ m.val ≤ 2 ^ 1000 ∧
      3 / 2 * |K.val| * s.base.network.agents.length ≤ M * m.val
  bots : ∀ i, i < s.base.p.nBots → Within M (s.base.p.botOpinion.getD i 0)

namespace Inertial

/-- the bound of the form -/
noncomputable def bound (f M : ℝ) : ℝ := 400 * (1 + f) ^ 2 * M / f

theorem bound_eq {f M : ℝ} (hf : 0 < f) : 400 * (1 + f) ^ 2 * M = f * bound f M := by
  unfold bound; field_simp

theorem bound_le {f M : ℝ} (f0 : 2 ^ (-8 : ℤ) ≤ f) (f1 : f ≤ 2 ^ 8) (h0 : 1 ≤ M) (h1 : M ≤ 2 ^ 940) : bound f M ≤ 2 ^ 980 := by
  have fb : (1 : ℝ) / 2 ^ 8 ≤ f := by refine le_trans (le_of_eq ?_) f0; norm_num
  have fp : 0 < f := by linarith [show (0 : ℝ) < 1 / 2 ^ 8 by norm_num]
  unfold bound
  rw [div_le_iff₀ fp]
  have e : (2 : ℝ) ^ 980 = 2 ^ 940 * 2 ^ 40 := by rw [← pow_add]
  rw [e]
  have p : (0 : ℝ) < 2 ^ 940 := by positivity
  have a : 400 * (1 + f) ^ 2 ≤ 2 ^ 40 * f := by
    have : (1 + f) ^ 2 ≤ (1 + 2 ^ 8) ^ 2 := by gcongr
    nlinarith
  calc 400 * (1 + f) ^ 2 * M ≤ 2 ^ 40 * f * 2 ^ 940 := mul_le_mul a h1 (by linarith) (by positivity)
    _ = _ := by ring

/-- all agents are calm -/
def AllCalm (s : Inertial (Ieee R) G) (f : Dbl R) (M : ℝ) : Prop :=
  ∀ h : Dbl R, s.base.p.dt = fin h → ∀ i (hi : i < s.base.network.agents.length),
    Calm f.val h.val M (bound f.val M) (i < s.base.p.nBots) s.base.network.agents[i]

/-- one iteration -/
theorem Reasonable.next {o : MathOps (Ieee R)} (ht : ∀ a, a ≠ nan → Within 1 (o.tanh a)) {pick : List (Nat × Ieee R) → Nat}
    (hp : Reservoir.Pick.Valid pick) {r : Rng G (Ieee R)} {s t : Inertial (Ieee R) G} (hR : s.base.Ready) {f : Dbl R} {M : ℝ}
    (hT : s.Reasonable f M) (hC : s.AllCalm f M) (hs : Inertial.iteration o pick r s = .ok t) : t.Reasonable f M ∧ t.AllCalm f M := by
  obtain ⟨gs, buf, contacts, t', ht', hF, -⟩ := C43_inertial (o := o) hp r hR
  obtain rfl := Except.ok.inj (hs.symm.trans ht')
  obtain ⟨hB, hp', -, hfr⟩ := Inertial.iteration_frame hs
  have hlen := hB.traits.length
  have hrel : ∀ i, attr ActiveAgent.reluctance t.base.network.agents i = attr ActiveAgent.reluctance s.base.network.agents i := by
    intro i; unfold attr; rw [hB.traits.2]
  obtain ⟨hf, f0, f1⟩ := hT.friction
  obtain ⟨al, hal⟩ := hT.alpha
  obtain ⟨K, hK, hKm⟩ := hT.coupling
  refine ⟨⟨hT.lower, hT.upper, by rw [hlen]; exact hT.size, by rw [hfr]; exact hT.friction, by rw [hp']; exact hT.dt, by rw [hp']; exact hT.alpha,
    ⟨K, by rw [hp']; exact hK, fun i hi => by rw [hrel, hlen]; exact hKm i (by omega)⟩, by rw [hp']; exact hT.bots⟩, ?_⟩
  obtain ⟨h, hdt, h0, h1⟩ := hT.dt
  intro h2 hdt2
  rw [hp', hdt] at hdt2
  obtain rfl : h = h2 := by injection hdt2
  rw [hp']
  -- the parts of the iteration
  unfold Inertial.iteration at hs
  obtain ⟨u, e1, hs⟩ := Res.bind_eq_ok.mp hs
  obtain ⟨l, e2, hs⟩ := Res.bind_eq_ok.mp hs
  obtain ⟨g1, g2, -⟩ := Activity.updateNetwork_frame e1
  rw [g2] at e2
  have g1' : u.network.agents = s.base.network.agents := g1
  have ht2 : t.base.network = { u.network with agents := l } := by rw [← Except.ok.inj hs]
  have hl : l.length = u.network.agents.length := by rw [ht2] at hlen; rw [g1']; exact hlen
  have hwt := hF.wf
  rw [ht2] at hwt
  have hw : WF u.network := by
    refine ⟨?_, ?_, hwt.lengths, ?_⟩
    · rw [← hl]; exact hwt.rows
    · rw [← hl]; exact hwt.wrows
    · rw [← hl]; exact hwt.range
  have hrow : ∀ i, row u.network i = row t.base.network i := by intro i; rw [ht2]; rfl
  have hlt : ∀ i, ∀ e ∈ row u.network i, e.1 < u.network.agents.length := fun i e he => NetLemmas.row_lt hw he
  have hcount : ∀ i, (row u.network i).length ≤ u.network.agents.length := by
    intro i
    have hnd := hF.nodup i
    rw [← hrow] at hnd
    have hsub : ((row u.network i).map (·.1)) ⊆ List.range u.network.agents.length := by
      intro j hj
      obtain ⟨e, he, rfl⟩ := List.mem_map.mp hj
      exact List.mem_range.mpr (hlt i e he)
    have := (hnd.subperm hsub).length_le
    simpa using this
  have hstep := Inertial.verletStep_eq o s.base.p s.friction hw (by rw [g1']; exact hR.fit.bots) hR.botOpinion
  have e2' : Inertial.verletStep o s.base.p s.friction u.network = .ok l := e2
  rw [e2'] at hstep
  have hl2 := Except.ok.inj hstep
  intro i hi
  rw [hlen] at hi
  have hi' : i < u.network.agents.length := by rw [g1']; exact hi
  have fp : 0 < f.val := lt_of_lt_of_le (by positivity) f0
  obtain ⟨x, v, k1, k2, k3, k4⟩ := kicked_fin (bot := fun i => i < s.base.p.nBots) (W := 1) ht hal hK hdt h0 h1 f0 f1 le_rfl hT.lower (bound_eq fp)
    (bound_le f0 f1 hT.lower hT.upper) (by rw [g1']; exact hT.size) (by rw [g1']; simpa only [mul_one] using hKm)
    (fun j _ e he => ⟨1, hF.ones j e (by rw [← hrow]; exact he), by rw [one_val, abs_one]⟩) hcount hlt
    (fun j hj => by
      have := hC h hdt j (by rw [← g1']; exact hj)
      have e : u.network.agents[j] = s.base.network.agents[j]'(by rw [← g1']; exact hj) := by simp only [g1']
      rw [e]; exact this) hi'
  have hget : t.base.network.agents[i] = (if i < s.base.p.nBots then { kicked o s.base.p s.friction u.network i u.network.agents[i] with
      opinion := s.base.p.botOpinion.getD i 0 } else kicked o s.base.p s.friction u.network i u.network.agents[i]) := by
    have : t.base.network.agents = l := by rw [ht2]
    simp only [this, hl2, List.getElem_mapIdx]
  rw [hget, hf]
  by_cases hb : i < s.base.p.nBots
  · rw [if_pos hb]
    obtain ⟨b, hb1, hb2⟩ := hT.bots i hb
    exact ⟨b, v, hb1, k2, fun h => absurd hb h, fun _ => ⟨hb2, k4 hb⟩⟩
  · rw [if_neg hb]
    exact ⟨x, v, k1, k2, k3, fun h => absurd h hb⟩

/-- Numbers of size at most `M` are calm. -/
theorem calm_start {f h : Dbl R} (f0 : 2 ^ (-8 : ℤ) ≤ f.val) (f1 : f.val ≤ 2 ^ 8) (h0 : 2 ^ (-15 : ℤ) ≤ h.val) (h1 : h.val ≤ 1) {M : ℝ} (hM : 1 ≤ M)
    {a : InertialAgent (Ieee R)} (hx : Within M a.opinion) (hv : Within M a.velocity) (b : Prop) : Calm f.val h.val M (bound f.val M) b a := by
  obtain ⟨x, hx1, hx2⟩ := hx
  obtain ⟨v, hv1, hv2⟩ := hv
  have fp : 0 < f.val := lt_of_lt_of_le (by positivity) f0
  have hp : 0 < h.val := lt_of_lt_of_le (by positivity) h0
  obtain ⟨-, b1, -, b2⟩ := margin (n := 0) f0 f1 h0 h1 hM (by norm_num) (bound_eq (M := M) fp)
  set B := bound f.val M with hB
  have fh : 0 < f.val * h.val := mul_pos fp hp
  have fh1 : f.val * h.val ≤ f.val := by nlinarith
  have hd : |(1 + f.val * h.val / 2) * v.val| ≤ (1 + f.val) * M := by
    rw [abs_mul, abs_of_pos (by linarith)]
    exact mul_le_mul (by linarith) hv2 (abs_nonneg _) (by linarith)
  have hd' : |(1 + f.val * h.val / 2) * v.val| ≤ B / 400 := by linarith
  have hx3 : |x.val| ≤ B / 400 := by linarith
  have B0 : 0 < B := by linarith
  refine ⟨x, v, hx1, hv1, fun _ => ?_, fun _ => ⟨hx2, by linarith⟩⟩
  refine (Stability.form_upper fp _ _).trans ?_
  have q1 : x.val ^ 2 ≤ (B / 400) ^ 2 := sq_le_sq' (by linarith [(abs_le.mp hx3).1]) (abs_le.mp hx3).2
  have q2 : ((1 + f.val * h.val / 2) * v.val) ^ 2 ≤ (B / 400) ^ 2 := sq_le_sq' (by linarith [(abs_le.mp hd').1]) (abs_le.mp hd').2
  nlinarith [sq_nonneg B]

theorem calm_within {f h : Dbl R} (f0 : 2 ^ (-8 : ℤ) ≤ f.val) (f1 : f.val ≤ 2 ^ 8) (h0 : 2 ^ (-15 : ℤ) ≤ h.val) (h1 : h.val ≤ 1) {M : ℝ} (hM : 1 ≤ M)
    {a : InertialAgent (Ieee R)} {b : Prop} (hC : Calm f.val h.val M (bound f.val M) b a) :
    Within (500 * (1 + f.val) ^ 2 / f.val * M) a.opinion ∧ Within (500 * (1 + f.val) ^ 2 / f.val * M) a.velocity := by
  obtain ⟨x, v, hx, hv, c1, c2⟩ := hC.holds
  have fp : 0 < f.val := lt_of_lt_of_le (by positivity) f0
  have hp : 0 < h.val := lt_of_lt_of_le (by positivity) h0
  obtain ⟨-, b1, -, b2⟩ := margin (n := 0) f0 f1 h0 h1 hM (by norm_num) (bound_eq (M := M) fp)
  have e : 500 * (1 + f.val) ^ 2 / f.val * M = 5 / 4 * bound f.val M := by unfold bound; ring
  rw [e]
  set B := bound f.val M with hB
  have B0 : 0 < B := by linarith
  have fh : 0 < f.val * h.val := mul_pos fp hp
  have hv' : |v.val| ≤ |(1 + f.val * h.val / 2) * v.val| := by
    rw [abs_mul, abs_of_pos (show 0 < 1 + f.val * h.val / 2 by linarith)]
    nlinarith [abs_nonneg v.val]
  by_cases hb : b
  · obtain ⟨d1, d2⟩ := c2 hb
    exact ⟨⟨x, hx, by linarith⟩, ⟨v, hv, by linarith⟩⟩
  · obtain ⟨d1, d2⟩ := Stability.form_bound fp hp.le h1 B0.le (c1 hb)
    exact ⟨⟨x, hx, d1⟩, ⟨v, hv, hv'.trans d2⟩⟩

end Inertial

/-- C104: in IEEE double precision with overflow, infinities and NaN, with any rounding to nearest and any `tanh` whose values are finite and in
`[-1, 1]`: over any number of iterations of the probabilistic inertial model with friction `f` every opinion and every velocity is a finite number,
of size at most `500 (1 + f)² / f · M`, where `M ≥ 1` is any number that bounds the initial opinions and velocities, the bot opinions and
`3/2 |K| n / m_i`.  The run itself never fails. -/
theorem C104_bounded {o : MathOps (Ieee R)} (ht : ∀ a, a ≠ nan → Within 1 (o.tanh a)) {pick : List (Nat × Ieee R) → Nat}
    (hp : Reservoir.Pick.Valid pick) {r : Rng G (Ieee R)} {s : Inertial (Ieee R) G} (h : s.base.Ready) {f : Dbl R} {M : ℝ} (hT : s.Reasonable f M)
    (hx : ∀ a ∈ s.base.network.agents, Within M a.opinion) (hv : ∀ a ∈ s.base.network.agents, Within M a.velocity) (k : Nat) :
    ∃ t, Iterates (Inertial.iteration o pick r) s k t ∧ t.base.network.agents.length = s.base.network.agents.length ∧
      ∀ a ∈ t.base.network.agents, Within (500 * (1 + f.val) ^ 2 / f.val * M) a.opinion ∧ Within (500 * (1 + f.val) ^ 2 / f.val * M) a.velocity := by
  obtain ⟨t, hit, -⟩ := C43_total_inertial (o := o) hp r h k
  obtain ⟨-, f0, f1⟩ := hT.friction
  have start : s.AllCalm f M := by
    intro d hd i hi
    obtain ⟨d', hd', h0, h1⟩ := hT.dt
    obtain rfl : d' = d := by rw [hd] at hd'; injection hd'.symm
    exact Inertial.calm_start f0 f1 h0 h1 hT.lower (hx _ (List.getElem_mem hi)) (hv _ (List.getElem_mem hi)) _
  have key : t.base.Ready ∧ (t.Reasonable f M ∧ t.AllCalm f M) ∧ t.base.network.agents.length = s.base.network.agents.length := by
    induction hit with
    | zero => exact ⟨h, ⟨hT, start⟩, rfl⟩
    | succ _ h' ih =>
      obtain ⟨i1, i2, i3⟩ := ih
      exact ⟨Inertial.ready_next hp i1 h', i2.1.next ht hp i1 i2.2 h', by rw [(Inertial.iteration_frame h').1.traits.length, i3]⟩
  refine ⟨t, hit, key.2.2, ?_⟩
  intro a ha
  obtain ⟨i, hi, rfl⟩ := List.getElem_of_mem ha
  obtain ⟨d, hd, h0, h1⟩ := key.2.1.1.dt
  exact Inertial.calm_within f0 f1 h0 h1 hT.lower (key.2.1.2 d hd i hi)

/-! ## the whole program -/

section
variable {env : Env (Ieee R) G} {args : Args} {options : Config.Options (Ieee R)}

/-- Everything before the run, with the agents the model starts with. -/
theorem Accepted.inertial_created {s : Config.InertialSettings (Ieee R)} (he : env.Safe) (h : Accepted env args options)
    (hs : options.settings = .inertial s) (hc : SaneContacts s.base options.network.nAgents) :
    ∃ m : Inertial (Ieee R) G, m.base.Sound ∧ m.base.p = s.base ∧ m.friction = s.friction ∧
      m.base.counter.maxIterations = s.base.maxIterations.map Network.toSize ∧
      (∃ g, m.base.network.agents = Activity.createdAgents env.math env.rng s.base (List.replicate options.network.nAgents default) g) ∧
      ∀ fuel, main env args fuel =
        (Simulation.run (Inertial.machine env.math env.pick env.rng) (render env .inertial) options.output fuel m).map (·.2) := by
  obtain ⟨N, g, hN, hwf, hag, hin⟩ := NetworkGen.nConnections_total (A := InertialAgent (Ieee R)) he.rng options.network.nAgents options.network.nConnections true
    (env.seed options.rngSeed)
  have hlen : N.agents.length = options.network.nAgents := by rw [hag]; simp
  have hv : 0 ≤ s.friction ∧ ValidActivity s.base := by have := h.validModel.2; rw [hs] at this; exact this
  obtain ⟨m, h1, h2, h3, h4, h5, h6⟩ := Activity.create_sound env.math env.rng hv.2 hwf hin (by rw [hlen]; exact h.size) (by rw [hlen]; exact hc) g
  have hagents : m.network.agents = Activity.createdAgents env.math env.rng s.base N.agents g := by
    have e := Activity.create_eq env.math env.rng (p := s.base) (N := N) g (by rw [hlen]; exact hc.bots) hv.2.botOpinion hv.2.botActivity
    rw [h1] at e
    rw [Except.ok.inj e]
    by_cases hm : s.base.meanWeights <;> simp [hm]
  refine ⟨⟨m, s.friction⟩, h2, h3, rfl, h4, ⟨g, by rw [← hag]; exact hagents⟩, fun fuel => ?_⟩
  have hk : kindOf options = .inertial := by unfold kindOf; rw [hs]
  rw [h.main_eq fuel]
  rw [hk]
  have hN' : NetworkGen.nConnections (A := Agent (Ieee R) .inertial) env.rng options.network.nAgents options.network.nConnections true
      (env.seed options.rngSeed) = .ok (N, g) := hN
  have hc := (C56_compatible env options h.matching g).2.2.1 s hs N
  rw [h1, Res.bind_ok] at hc
  rw [hN', Res.bind_ok]
  dsimp only
  rw [hc, Res.bind_ok, (embeds_inertial env).run]
  cases Simulation.run (Inertial.machine env.math env.pick env.rng) (render env .inertial) options.output fuel ⟨m, s.friction⟩ <;> rfl

/-- Agents start at rest. -/
theorem Inertial.created_rest (o : MathOps (Ieee R)) (r : Rng G (Ieee R)) (p : ActivitySettings (Ieee R)) (n : Nat) (g : G) :
    ∀ a ∈ Activity.createdAgents o r p (List.replicate n (default : InertialAgent (Ieee R))) g, a.velocity = 0 := by
  intro a ha
  unfold Activity.createdAgents at ha
  obtain ⟨i, hi, rfl⟩ := List.mem_mapIdx.mp ha
  have e : ∀ (b : InertialAgent (Ieee R)) g, (Activity.initialAgent o r p b g).1.velocity = b.velocity := by
    intro b g
    simp only [Activity.initialAgent]
    cases p.useReluctances <;> cases p.meanActivities <;> rfl
  rw [List.getElem_replicate]
  dsimp only
  split
  · exact (e _ _).trans rfl
  · rw [e]; rfl

/-- C104 for the whole program: a run of the probabilistic inertial model without reluctances, from an accepted configuration, completes, and every
opinion and velocity in every state it writes is a finite number of size at most `500 (1 + f)² / f · M`, where `M ≥ 1` is any number that bounds
the bot opinions and `3/2 |K| n` (`num_agents = n`).  With the default seed or any other, for every outcome of the random draws. -/
theorem C104_program {s : Config.InertialSettings (Ieee R)} (he : env.Safe) (hr : env.rng.Lawful) (ht : ∀ a, a ≠ nan → Within 1 (env.math.tanh a))
    (h : Accepted env args options) (hout : SaneOutput options) (hs : options.settings = .inertial s)
    (hc : SaneContacts s.base options.network.nAgents) (hn : options.network.nAgents ≤ 2 ^ 28) {K : Nat} (hK : s.base.maxIterations = some (K : Int))
    (hK' : K < 2 ^ 31) {fuel : Nat} (hf : K ≤ fuel) (hmean : s.base.meanWeights = false) (hu : s.base.useReluctances = false) {M : ℝ} (hM : 1 ≤ M)
    (hM' : M ≤ 2 ^ 940) {f : Dbl R} (hfr : s.friction = fin f) (f0 : 2 ^ (-8 : ℤ) ≤ f.val) (f1 : f.val ≤ 2 ^ 8)
    (hdt : ∃ h : Dbl R, s.base.dt = fin h ∧ 2 ^ (-15 : ℤ) ≤ h.val ∧ h.val ≤ 1) (hal : ∃ a : Dbl R, s.base.alpha = fin a)
    (hcoup : ∃ k : Dbl R, s.base.K = fin k ∧ 3 / 2 * |k.val| * options.network.nAgents ≤ M)
    (hb : ∀ i, i < s.base.nBots → Within M (s.base.botOpinion.getD i 0)) :
    ∃ (N : Nat → Network (InertialAgent (Ieee R)) (Ieee R)) (tr : List FileWrite), main env args fuel = .ok tr ∧
      List.Forall₂ (Fulfils (render env .inertial)) tr (wanted options.output N K) ∧
      ∀ k, k ≤ K → (N k).agents.length = options.network.nAgents ∧ ∀ a ∈ (N k).agents,
        Within (500 * (1 + f.val) ^ 2 / f.val * M) a.opinion ∧ Within (500 * (1 + f.val) ^ 2 / f.val * M) a.velocity := by
  obtain ⟨m, hsound, hp, hfric, hmax, ⟨g, hag⟩, hmain⟩ := h.inertial_created he hs hc
  have hmax' : m.base.counter.maxIterations = some K := by rw [hmax, hK, Option.map_some, toSize_nat hK']
  obtain ⟨st, tr, hrun, h0, hI, hfiles, hstep⟩ := (Inertial.countedSound he.pick env.rng K).files (render env .inertial)
    hout.agents hout.network (s := m) ⟨hsound, hmax'⟩ hf
  refine ⟨fun k => (st k).base.network, tr, by rw [hmain, hrun]; rfl, hfiles, ?_⟩
  have hready : m.base.Ready := by
    rcases hsound with h' | ⟨h', -⟩
    · exact h'
    · have := h'.mean; rw [hp, hmean] at this; cases this
  have hlen : m.base.network.agents.length = options.network.nAgents := by rw [hag, Activity.createdAgents_length, List.length_replicate]
  have hcr : ∀ i, i < options.network.nAgents → Within M (attr ActiveAgent.opinion m.base.network.agents i) ∧
      attr ActiveAgent.reluctance m.base.network.agents i = 1 := by
    intro i hi
    have := Activity.created_fin (o := env.math) (A := InertialAgent (Ieee R)) (agents := List.replicate options.network.nAgents default) (g := g)
      hr hu hM hb (i := i) (by simpa using hi)
    rw [hag]
    refine ⟨this.1, this.2.trans ?_⟩
    rw [List.getElem_replicate]
    rfl
  obtain ⟨c, hc1, hc2⟩ := hcoup
  have hT : m.reset.Reasonable f M := by
    refine ⟨hM, hM', ?_, ⟨?_, f0, f1⟩, by rw [show m.reset.base.p = s.base from hp]; exact hdt,
      by rw [show m.reset.base.p = s.base from hp]; exact hal,
      ⟨c, by rw [show m.reset.base.p = s.base from hp]; exact hc1, ?_⟩, by rw [show m.reset.base.p = s.base from hp]; exact hb⟩
    · show m.base.network.agents.length ≤ _
      omega
    · show m.friction = _
      rw [hfric, hfr]
    · show ∀ i, i < m.base.network.agents.length → _
      intro i hi
      rw [hlen] at hi
      refine ⟨1, (hcr i hi).2, ?_, ?_, ?_⟩
      · rw [one_val]
        exact zpow_le_one_of_nonpos₀ (by norm_num) (by norm_num)
      · rw [one_val]; exact one_le_pow₀ (by norm_num)
      · show 3 / 2 * |c.val| * (m.base.network.agents.length : ℝ) ≤ _
        rw [hlen, one_val, mul_one]; exact hc2
  have hR : m.reset.base.Ready := ⟨hready.wf, hready.incoming, hready.fit, hready.botOpinion, hready.probabilistic⟩
  intro k hk
  obtain ⟨t, ht1, ht2, ht3⟩ := C104_bounded (o := env.math) ht he.pick (r := env.rng) hR hT
    (by
      intro a ha
      obtain ⟨i, hi, rfl⟩ := List.getElem_of_mem ha
      have := (hcr i (by rw [← hlen]; exact hi)).1
      have hi2 : i < m.base.network.agents.length := hi
      rwa [Activity.attr_lt _ hi2] at this)
    (by
      intro a ha
      have ha' : a ∈ m.base.network.agents := ha
      rw [hag] at ha'
      rw [Inertial.created_rest _ _ _ _ _ a ha']
      exact ⟨0, rfl, by show |(0 : ℝ)| ≤ M; rw [abs_zero]; linarith⟩) k
  obtain rfl : t = st k := iterates_unique ht1 (hI k hk).1
  exact ⟨ht2.trans hlen, ht3⟩

end

/-! ## a concrete case -/

namespace Overflow

/-- The three agents of `start`, with friction 1; the second moves. -/
noncomputable def moving (R : Rounding) : Inertial (Ieee R) Unit where
  base :=
    { counter := ⟨some 3, 0⟩
      p := settings R
      network := ⟨[⟨-1, 1, 1, 0⟩, ⟨1, 1, 1, fin (half R)⟩, ⟨fin (half R), 1, 1, 0⟩], [[], [], []], [[], [], []], .incoming⟩
      contactProb := [[], [], []]
      gen := () }
  friction := 1

theorem moving_ready : (moving R).base.Ready where
  wf := by
    refine ⟨rfl, rfl, ?_, ?_⟩
    · intro i h h'
      match i, h with
      | 0, _ => rfl
      | 1, _ => rfl
      | 2, _ => rfl
    · intro row hrow j hj
      simp only [moving, List.mem_cons, List.not_mem_nil, or_false] at hrow
      rcases hrow with rfl | rfl | rfl <;> cases hj
  incoming := rfl
  fit := (start_ready (R := R)).fit
  botOpinion := le_refl 1
  probabilistic := rfl

theorem moving_reasonable : (moving R).Reasonable 1 5 where
  lower := by norm_num
  upper := by
    calc (5 : ℝ) ≤ 2 ^ 3 := by norm_num
      _ ≤ 2 ^ 940 := pow_le_pow_right₀ (by norm_num) (by norm_num)
  size := by show 3 ≤ 2 ^ 28; norm_num
  friction := ⟨rfl, by rw [one_val]; norm_num, by rw [one_val]; norm_num⟩
  dt := ⟨half R, rfl, by show (2 : ℝ) ^ (-15 : ℤ) ≤ 1 / 2; norm_num, by show (1 / 2 : ℝ) ≤ 1; norm_num⟩
  alpha := ⟨1, rfl⟩
  coupling := by
    refine ⟨1, rfl, ?_⟩
    show ∀ i, i < 3 → _
    intro i hi
    have e : attr ActiveAgent.reluctance (moving R).base.network.agents i = 1 := by
      match i, hi with
      | 0, _ => rfl
      | 1, _ => rfl
      | 2, _ => rfl
    refine ⟨1, e, ?_, ?_, ?_⟩
    · rw [one_val]; exact zpow_le_one_of_nonpos₀ (by norm_num) (by norm_num)
    · rw [one_val]; exact one_le_pow₀ (by norm_num)
    · show 3 / 2 * |(1 : Dbl R).val| * ((3 : Nat) : ℝ) ≤ 5 * (1 : Dbl R).val
      rw [one_val, abs_one]; norm_num
  bots := (start_tame (R := R)).bots

/-- A million iterations of the example: all opinions and velocities are finite and at most 10000 in size. -/
example (r : Rng Unit (Ieee R)) : ∃ t, Iterates (Inertial.iteration (ops R) (fun _ => 0) r) (moving R) 1000000 t ∧
    t.base.network.agents.length = 3 ∧ ∀ a ∈ t.base.network.agents, Within 10000 a.opinion ∧ Within 10000 a.velocity := by
  have z : Within 5 (0 : Ieee R) := ⟨0, rfl, by show |(0 : ℝ)| ≤ 5; norm_num⟩
  have hf : Within 5 (fin (half R) : Ieee R) := ⟨half R, rfl, by show |(1 / 2 : ℝ)| ≤ 5; rw [abs_of_pos (by norm_num)]; norm_num⟩
  have h1 : Within 5 (1 : Ieee R) := one_within (by norm_num)
  have h2 : Within 5 (-1 : Ieee R) := ⟨-1, rfl, by rw [neg_val, one_val, abs_neg, abs_one]; norm_num⟩
  obtain ⟨t, e1, e2, e3⟩ := C104_bounded (o := ops R) (pick := fun _ => 0) (r := r) tanh_within ⟨fun _ h => List.length_pos_iff.mpr h⟩ moving_ready
    moving_reasonable
    (by
      intro a ha
      simp only [moving, List.mem_cons, List.not_mem_nil, or_false] at ha
      rcases ha with rfl | rfl | rfl
      · exact h2
      · exact h1
      · exact hf)
    (by
      intro a ha
      simp only [moving, List.mem_cons, List.not_mem_nil, or_false] at ha
      rcases ha with rfl | rfl | rfl
      · exact z
      · exact hf
      · exact z) 1000000
  have e : 500 * (1 + (1 : Dbl R).val) ^ 2 / (1 : Dbl R).val * 5 = (10000 : ℝ) := by rw [one_val]; norm_num
  rw [e] at e3
  exact ⟨t, e1, e2, e3⟩

/-! the whole program, with the default parameters -/

/-- `doc` for the inertial model. -/
def inertialDoc (R : Rounding) : Config.Doc (Ieee R) := fun s k =>
  if s = "simulation" ∧ k = "model" then some (.str "ActivityDrivenInertial")
  else if s = "ActivityDrivenInertial" then doc R "ActivityDriven" k
  else doc R s k

noncomputable def inertialOptions (R : Rounding) : Config.Options (Ieee R) :=
  { options R with
    model := .activityDrivenInertial
    modelString := "ActivityDrivenInertial"
    settings := .inertial ⟨defaults R, Config.lit 1 1⟩ }

noncomputable def inertialEnv (R : Rounding) (r : Rng Nat (Ieee R)) : Env (Ieee R) Nat := { env R r with toml := fun _ => some (inertialDoc R) }

theorem inertial_accepted (r : Rng Nat (Ieee R)) : Accepted (inertialEnv R r) ⟨"conf.toml", none, none, none⟩ (inertialOptions R) := by
  refine ⟨⟨inertialDoc R, rfl, by with_unfolding_all rfl⟩, ?_, rfl, rfl, by show 5 < 2 ^ 31; norm_num⟩
  refine (C53_validate (inertialOptions R) trivial).1.mpr ⟨by show 0 < 1; norm_num, ?_, defaults_valid⟩
  obtain ⟨d, h1, h2⟩ := lit_fin (R := R) (a := 1) (b := 1) (by norm_num) (by norm_num) (by norm_num)
  show (0 : Ieee R) ≤ Config.lit 1 1
  rw [h1]
  show (0 : ℝ) ≤ d.val
  have := (abs_le.mp h2).1
  norm_num at this
  linarith

/-- A run of 1000 iterations with the default parameters and five agents: nothing is ever larger than 50000 in size. -/
example (r : Rng Nat (Ieee R)) (hr : r.Lawful) : ∃ (N : Nat → Network (InertialAgent (Ieee R)) (Ieee R)) (tr : List FileWrite),
    main (inertialEnv R r) ⟨"conf.toml", none, none, none⟩ 1000 = .ok tr ∧
    ∀ k, k ≤ 1000 → (N k).agents.length = 5 ∧ ∀ a ∈ (N k).agents, Within 50000 a.opinion ∧ Within 50000 a.velocity := by
  obtain ⟨f, hf1, hf2⟩ := lit_fin (R := R) (a := 1) (b := 1) (by norm_num) (by norm_num) (by norm_num)
  have hf3 : |f.val - 1| ≤ 1 / 500 := by
    norm_num at hf2 ⊢
    linarith
  obtain ⟨hf4, hf5⟩ := abs_le.mp hf3
  obtain ⟨N, tr, h1, -, h3⟩ := C104_program (env := inertialEnv R r) (options := inertialOptions R) (s := ⟨defaults R, Config.lit 1 1⟩) (K := 1000)
    (fuel := 1000) (M := 23)
    ⟨⟨hr.int_ge, hr.int_le⟩, ⟨fun _ h => List.length_pos_iff.mpr h⟩, fun L _ => Nat.sqrt_eq L⟩ hr tanh_within (inertial_accepted r)
    ⟨by show some 500 ≠ some 0; decide, by show none ≠ some 0; decide⟩ rfl
    ⟨by show (3 : Int) ≤ 5; decide, by show 0 ≤ 5; decide, fun i k hi => absurd hi (Nat.not_lt_zero i)⟩ (by show 5 ≤ 2 ^ 28; norm_num) rfl
    (by norm_num) (le_refl _) rfl rfl (by norm_num)
    (by
      calc (23 : ℝ) ≤ 2 ^ 5 := by norm_num
        _ ≤ 2 ^ 940 := pow_le_pow_right₀ (by norm_num) (by norm_num))
    hf1 (by norm_num; linarith) (by linarith)
    (by
      obtain ⟨d, h1, h2⟩ := lit_fin (R := R) (a := 1) (b := 100) (by norm_num) (by norm_num) (by norm_num)
      refine ⟨d, h1, ?_, ?_⟩
      · have := (abs_le.mp h2).1
        rw [abs_of_nonneg (by positivity)] at this
        norm_num at this ⊢
        linarith
      · have := (abs_le.mp h2).2
        rw [abs_of_nonneg (by positivity)] at this
        norm_num at this ⊢
        linarith)
    (by
      obtain ⟨d, h1, -⟩ := lit_fin (R := R) (a := 3) (b := 1) (by norm_num) (by norm_num) (by norm_num)
      exact ⟨d, h1⟩)
    (by
      obtain ⟨d, h1, h2⟩ := lit_fin (R := R) (a := 3) (b := 1) (by norm_num) (by norm_num) (by norm_num)
      refine ⟨d, h1, ?_⟩
      rw [abs_of_nonneg (show (0 : ℝ) ≤ ((3 : Nat) : ℝ) / ((1 : Nat) : ℝ) by positivity)] at h2
      obtain ⟨h3, h4⟩ := abs_le.mp h2
      have : |d.val| ≤ 3.01 := by rw [abs_le]; norm_num at h3 h4 ⊢; constructor <;> linarith
      show 3 / 2 * |d.val| * ((5 : Nat) : ℝ) ≤ 23
      push_cast
      linarith)
    (fun i hi => absurd hi (Nat.not_lt_zero i))
  have hb : 500 * (1 + f.val) ^ 2 / f.val * 23 ≤ 50000 := by
    have fp : 0 < f.val := by linarith
    rw [div_mul_eq_mul_div, div_le_iff₀ fp]
    nlinarith
  have mono : ∀ a : Ieee R, Within (500 * (1 + f.val) ^ 2 / f.val * 23) a → Within 50000 a := fun a ⟨d, e1, e2⟩ => ⟨d, e1, e2.trans hb⟩
  exact ⟨N, tr, h1, fun k hk => ⟨(h3 k hk).1, fun a ha => ⟨mono _ ((h3 k hk).2 a ha).1, mono _ ((h3 k hk).2 a ha).2⟩⟩⟩

end Overflow
end Seldon
