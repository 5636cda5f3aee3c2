import Verif.Lemmas.ActivityCreate
import Verif.Props.Bivariate
/-!
# Property C61: the initial agents of the activity-driven models
-/
namespace Seldon
open Spec
variable {A F G : Type}

/-- C61: a normally drawn agent: its opinion lies in [-1, 1), its activity in [eps, 1] and, with reluctances, its reluctance is at least
`reluctance_eps`. -/
theorem initialAgent_range [ActiveAgent A ℝ] [LawfulActiveAgent A ℝ] {r : Rng G ℝ} (hr : r.Lawful) {p : ActivitySettings ℝ}
    (he0 : 0 < p.eps) (he1 : p.eps < 1) (hg : 1 < p.gamma) (hs : 0 < p.reluctanceSigma) (a : A) (g : G) :
    (-1 ≤ ActiveAgent.opinion (Activity.initialAgent realOps r p a g).1 ∧ ActiveAgent.opinion (Activity.initialAgent realOps r p a g).1 < 1) ∧
    (p.meanActivities = false → p.eps ≤ ActiveAgent.activity (Activity.initialAgent realOps r p a g).1 ∧
      ActiveAgent.activity (Activity.initialAgent realOps r p a g).1 ≤ 1) ∧
    (p.meanActivities = true → ActiveAgent.activity (Activity.initialAgent realOps r p a g).1 = Dist.powerLawMean realOps p.eps p.gamma) ∧
    (p.useReluctances = true → p.reluctanceEps ≤ ActiveAgent.reluctance (Activity.initialAgent realOps r p a g).1) ∧
    (p.useReluctances = false → ActiveAgent.reluctance (Activity.initialAgent realOps r p a g).1 = ActiveAgent.reluctance a) := by
  have hop : ActiveAgent.opinion (Activity.initialAgent realOps r p a g).1 = (r.unit g).1 * (1 - -1) + -1 := by
    unfold Activity.initialAgent Activity.drawOpinion
    simp only
    split <;> split <;> simp only [LawfulActiveAgent.opinion_setOpinion, LawfulActiveAgent.opinion_setActivity, LawfulActiveAgent.opinion_setReluctance]
  have hact : p.meanActivities = false → ActiveAgent.activity (Activity.initialAgent realOps r p a g).1 =
      Dist.powerLawInverse realOps p.eps p.gamma (Dist.stdCdf realOps (Dist.bivariate realOps r p.covarianceFactor (r.unit g).2).1.1) := by
    intro h
    unfold Activity.initialAgent Activity.drawOpinion Dist.copula
    simp only [h, Bool.false_eq_true, if_false]
    split <;> simp only [LawfulActiveAgent.activity_setActivity, LawfulActiveAgent.activity_setReluctance]
  have hmean : p.meanActivities = true → ActiveAgent.activity (Activity.initialAgent realOps r p a g).1 = Dist.powerLawMean realOps p.eps p.gamma := by
    intro h
    unfold Activity.initialAgent
    simp only [h, if_true, LawfulActiveAgent.activity_setActivity]
  have hrel : p.useReluctances = true → ActiveAgent.reluctance (Activity.initialAgent realOps r p a g).1 =
      Dist.truncatedInverse realOps p.reluctanceMean p.reluctanceSigma p.reluctanceEps
        (Dist.stdCdf realOps (Dist.bivariate realOps r p.covarianceFactor (r.unit g).2).1.2) := by
    intro h
    unfold Activity.initialAgent Activity.drawOpinion Dist.copula
    simp only [h, if_true]
    split <;> simp only [LawfulActiveAgent.reluctance_setActivity, LawfulActiveAgent.reluctance_setReluctance]
  have hrel' : p.useReluctances = false → ActiveAgent.reluctance (Activity.initialAgent realOps r p a g).1 = ActiveAgent.reluctance a := by
    intro h
    unfold Activity.initialAgent
    simp only [h, Bool.false_eq_true, if_false]
    split <;> simp only [LawfulActiveAgent.reluctance_setActivity, LawfulActiveAgent.reluctance_setOpinion]
  refine ⟨?_, ?_, hmean, ?_, hrel'⟩
  · rw [hop]
    have h0 := hr.unit_nonneg g
    have h1 := hr.unit_lt_one g
    constructor <;> linarith
  · intro h
    rw [hact h]
    have hb := stdCdf_bounds (Dist.bivariate realOps r p.covarianceFactor (r.unit g).2).1.1
    exact (C25_inverse he0 he1 hg).2.2.2 _ hb.1.le hb.2.le
  · intro h
    rw [hrel h]
    have hb := stdCdf_bounds (Dist.bivariate realOps r p.covarianceFactor (r.unit g).2).1.2
    exact (C26_range hs).1 _ hb.1.le hb.2

/-- C61: for every random outcome the construction of an activity-driven (or inertial) model succeeds, keeps the number of agents, gives the
bots their configured opinions and activities, and every other agent an opinion in [-1, 1), an activity in [eps, 1] (the mean activity with
`mean_activities`) and a reluctance of at least `reluctance_eps` (its previous one, by default 1, without reluctances). -/
theorem C61_initial [ActiveAgent A ℝ] [LawfulActiveAgent A ℝ] [Inhabited A] {r : Rng G ℝ} (hr : r.Lawful) {p : ActivitySettings ℝ}
    {N : Network A ℝ} (g : G) (he0 : 0 < p.eps) (he1 : p.eps < 1) (hg : 1 < p.gamma) (hs : 0 < p.reluctanceSigma)
    (hn : p.nBots ≤ N.agents.length) (ho : p.nBots ≤ p.botOpinion.length) (ha : p.nBots ≤ p.botActivity.length) :
    ∃ s, Activity.create realOps r p N g = .ok s ∧ s.network.agents.length = N.agents.length ∧
      ∀ i (hi : i < s.network.agents.length) (hi' : i < N.agents.length),
        (i < p.nBots → p.botOpinion[i]? = some (ActiveAgent.opinion s.network.agents[i]) ∧
          p.botActivity[i]? = some (ActiveAgent.activity s.network.agents[i])) ∧
        (p.nBots ≤ i → (-1 ≤ ActiveAgent.opinion s.network.agents[i] ∧ ActiveAgent.opinion s.network.agents[i] < 1) ∧
          (p.meanActivities = false → p.eps ≤ ActiveAgent.activity s.network.agents[i] ∧ ActiveAgent.activity s.network.agents[i] ≤ 1) ∧
          (p.meanActivities = true → ActiveAgent.activity s.network.agents[i] = Dist.powerLawMean realOps p.eps p.gamma)) ∧
        (p.useReluctances = true → p.reluctanceEps ≤ ActiveAgent.reluctance s.network.agents[i]) ∧
        (p.useReluctances = false → ActiveAgent.reluctance s.network.agents[i] = ActiveAgent.reluctance N.agents[i]) := by
  refine ⟨_, Activity.create_eq realOps r g hn ho ha, ?_, ?_⟩
  · simp only
    split <;> exact Activity.createdAgents_length ..
  · simp only
    intro i hi hi'
    have key : ∀ (l : List A) (hl : l = Activity.createdAgents realOps r p N.agents g) (hi : i < l.length), l[i] =
        let a := (Activity.initialAgent realOps r p N.agents[i] (Activity.drawState realOps r p N.agents g i)).1
        if i < p.nBots then ActiveAgent.setActivity (p.botActivity.getD i 0) (ActiveAgent.setOpinion (p.botOpinion.getD i 0) a) else a := by
      intro l hl hi
      subst hl
      simp [Activity.createdAgents]
    have hag : ∀ (M : Network A ℝ), (if p.meanWeights = true then
        (⟨Activity.createdAgents realOps r p N.agents g, List.replicate N.agents.length (List.range N.agents.length),
          List.replicate N.agents.length (List.replicate N.agents.length 0), .incoming⟩ : Network A ℝ)
        else { N with agents := Activity.createdAgents realOps r p N.agents g }) = M →
        M.agents = Activity.createdAgents realOps r p N.agents g := by
      rintro M rfl
      split <;> rfl
    have e := key _ (hag _ rfl) hi
    simp only at e
    have hrange := initialAgent_range hr he0 he1 hg hs N.agents[i] (Activity.drawState realOps r p N.agents g i)
    rw [e]
    by_cases hb : i < p.nBots
    · simp only [hb, if_true]
      refine ⟨fun _ => ⟨?_, ?_⟩, fun h => absurd h (by omega), ?_, ?_⟩
      · rw [LawfulActiveAgent.opinion_setActivity, LawfulActiveAgent.opinion_setOpinion]
        simp [show i < p.botOpinion.length by omega]
      · rw [LawfulActiveAgent.activity_setActivity]
        simp [show i < p.botActivity.length by omega]
      · rw [LawfulActiveAgent.reluctance_setActivity, LawfulActiveAgent.reluctance_setOpinion]
        exact hrange.2.2.2.1
      · rw [LawfulActiveAgent.reluctance_setActivity, LawfulActiveAgent.reluctance_setOpinion]
        exact hrange.2.2.2.2
    · simp only [hb, if_false]
      exact ⟨fun h => absurd h (by simp), fun _ => ⟨hrange.1, hrange.2.1, hrange.2.2.1⟩, hrange.2.2.2.1, hrange.2.2.2.2⟩

theorem loop_fail {σ : Type} {n m : Nat} {f : Nat → σ → Res σ} {s t : σ} {e : Fault} (h : loop n f s = .ok t) (hf : f n t = .error e)
    (hm : n < m) : loop m f s = .error e := by
  induction m with
  | zero => omega
  | succ m ih =>
    unfold loop
    rcases Nat.lt_succ_iff_lt_or_eq.mp hm with h' | rfl
    · rw [ih h']; rfl
    · rw [h, Res.bind_ok, hf]

/-- C61: with more bots than agents (which `validate_settings` does not exclude) the construction runs into undefined behaviour. -/
theorem C61_too_many_bots [ActiveAgent A F] [Inhabited A] [Zero F] [One F] [Sub F] [Mul F] [Add F] [Div F] [Neg F] [NatCast F] (o : MathOps F)
    (r : Rng G F) {p : ActivitySettings F} {N : Network A F} (g : G) (hn : N.agents.length < p.nBots) (ho : p.nBots ≤ p.botOpinion.length)
    (ha : p.nBots ≤ p.botActivity.length) : Activity.create o r p N g = .error .ub := by
  unfold Activity.create
  simp only
  rw [Activity.drawAgents_eq, Res.bind_ok]
  simp only
  set l := N.agents.mapIdx (fun i a => (Activity.initialAgent o r p a (Activity.drawState o r p N.agents g i)).1) with hl
  have hlen : l.length = N.agents.length := by simp [hl]
  have hp : Activity.initBots p l = .error .ub := by
    unfold Activity.initBots
    have h := loop_modify (m := l.length) (c := l) (f := fun i agents => do
      let a ← rd agents i
      let x ← rd p.botOpinion i
      let v ← rd p.botActivity i
      wr agents i (ActiveAgent.setActivity v (ActiveAgent.setOpinion x a)))
      (fun i a => ActiveAgent.setActivity (p.botActivity.getD i 0) (ActiveAgent.setOpinion (p.botOpinion.getD i 0) a)) (le_refl _) (by
        intro i c' a hi _ ha' _
        rw [rd_eq_ok.mpr ha', Res.bind_ok, rd_getD 0 (by omega), Res.bind_ok, rd_getD 0 (by omega), Res.bind_ok,
          wr_lt _ (List.getElem?_eq_some_iff.mp ha').1])
    refine loop_fail h ?_ (by omega)
    have : rd (l.mapIdx (fun i a => if i < l.length then ActiveAgent.setActivity (p.botActivity.getD i 0)
        (ActiveAgent.setOpinion (p.botOpinion.getD i 0) a) else a)) l.length = .error .ub := by
      unfold rd
      rw [List.getElem?_eq_none (by simp)]
    rw [this]; rfl
  rw [hp]; rfl

/-- The default settings meet the hypotheses (and so do settings with bots). -/
example : ∃ (p : ActivitySettings ℝ) (N : Network (ActivityAgent ℝ) ℝ), 0 < p.eps ∧ p.eps < 1 ∧ 1 < p.gamma ∧ 0 < p.reluctanceSigma ∧
    p.nBots ≤ N.agents.length ∧ p.nBots ≤ p.botOpinion.length ∧ p.nBots ≤ p.botActivity.length ∧ p.nBots = 1 :=
  ⟨{ maxIterations := none, dt := 0.01, m := 1, eps := 0.01, gamma := 2.1, alpha := 3, homophily := 0.5, reciprocity := 0.5, K := 3,
     meanActivities := false, meanWeights := false, nBots := 1, botM := [1], botActivity := [1], botOpinion := [2], botHomophily := [0],
     useReluctances := true, reluctanceMean := 1, reluctanceSigma := 0.25, reluctanceEps := 0.01, covarianceFactor := 0 },
   ⟨[⟨0, 0, 1⟩, ⟨0, 0, 1⟩], [[], []], [[], []], .incoming⟩, by norm_num, by norm_num, by norm_num, by norm_num, by simp, by simp, by simp, rfl⟩

end Seldon
