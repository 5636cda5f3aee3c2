import Verif.Lemmas.Draws
import Verif.Lemmas.Tape
import Verif.Props.InitialAgents
/-!
# C69: the initial agents are independent and follow the documented laws
-/
namespace Seldon
open Spec MeasureTheory ProbabilityTheory
open scoped ENNReal
variable {A G : Type} [MeasurableSpace G] {μ : Measure G} {r : Rng G ℝ}

theorem erf_measurable : Measurable erf := erf_continuous.measurable

theorem erfInverse_outside {y : ℝ} (h : ¬ (-1 < y ∧ y < 1)) : erfInverse y = 0 := by
  unfold erfInverse
  rw [dif_neg]
  rintro ⟨x, rfl⟩
  exact h ⟨neg_one_lt_erf x, erf_lt_one x⟩

theorem erfInverse_measurable : Measurable erfInverse := by
  refine measurable_of_Iic fun a => ?_
  have : erfInverse ⁻¹' Set.Iic a = (Set.Ioo (-1) 1 ∩ Set.Iic (erf a)) ∪ ((Set.Ioo (-1) 1)ᶜ ∩ {_x | 0 ≤ a}) := by
    ext y
    by_cases hy : -1 < y ∧ y < 1
    · have h1 : erfInverse y ≤ a ↔ y ≤ erf a := by
        rw [← erf_strictMono.le_iff_le, erf_inverse hy.1 hy.2]
      simp [hy, h1]
    · have hy' : y ∉ Set.Ioo (-1 : ℝ) 1 := hy
      simp [hy', erfInverse_outside hy]
  rw [this]
  exact (measurableSet_Ioo.inter measurableSet_Iic).union (measurableSet_Ioo.compl.inter (MeasurableSet.const _))

theorem stdCdf_measurable : Measurable (Dist.stdCdf realOps) := by
  have : Dist.stdCdf realOps = fun x => 1 / ((2 : ℕ) : ℝ) * (1 + erf (x / Real.sqrt ((2 : ℕ) : ℝ))) := rfl
  rw [this]
  exact ((erf_measurable.comp (measurable_id.div_const _)).const_add 1).const_mul _

theorem powerLawInverse_measurable (eps gamma : ℝ) : Measurable (Dist.powerLawInverse realOps eps gamma) := by
  have : Dist.powerLawInverse realOps eps gamma = fun x => ((1 - eps ^ (1 - gamma)) * x + eps ^ (1 - gamma)) ^ (1 / (1 - gamma)) := rfl
  rw [this]
  exact ((measurable_id.const_mul _).add_const _).pow_const _

theorem truncatedInverse_measurable (mean sigma eps : ℝ) : Measurable (Dist.truncatedInverse realOps mean sigma eps) := by
  have : Dist.truncatedInverse realOps mean sigma eps = fun y => erfInverse (((2 : ℕ) : ℝ) * (y * (1 - Dist.gaussCdf realOps mean sigma eps) +
      Dist.gaussCdf realOps mean sigma eps) - 1) * Real.sqrt ((2 : ℕ) : ℝ) * sigma + mean := rfl
  rw [this]
  refine (((erfInverse_measurable.comp ?_).mul_const _).mul_const _).add_const _
  exact (((measurable_id.mul_const _).add_const _).const_mul _).sub_const _

/-- Two successive normal draws are standard normal and independent. -/
theorem Spec.FreshDraws.standardNormals [IsProbabilityMeasure μ] (h : FreshDraws r μ) : StandardNormals μ r := by
  have h1 : Draws (fun g => (((r.normal g).1, (r.normal (r.normal g).2).1), (r.normal (r.normal g).2).2)) ((gaussianReal 0 1).prod (gaussianReal 0 1)) μ :=
    h.normal.both h.normal
  have hpair : MeasurePreserving (fun g => ((r.normal g).1, (r.normal (r.normal g).2).1)) μ ((gaussianReal 0 1).prod (gaussianReal 0 1)) :=
    measurePreserving_fst.comp h1
  have hm1 : Measurable fun g => (r.normal g).1 := measurable_fst.comp h.normal.measurable
  have hm2 : Measurable fun g => (r.normal (r.normal g).2).1 := (measurable_snd (α := ℝ) (β := ℝ)).comp hpair.measurable
  have e1 : μ.map (fun g => (r.normal g).1) = gaussianReal 0 1 := (measurePreserving_fst.comp hpair).map_eq
  have e2 : μ.map (fun g => (r.normal (r.normal g).2).1) = gaussianReal 0 1 := (measurePreserving_snd.comp hpair).map_eq
  refine ⟨⟨hm1.aemeasurable, e1⟩, ⟨hm2.aemeasurable, e2⟩, ?_⟩
  rw [indepFun_iff_map_prod_eq_prod_map_map hm1.aemeasurable hm2.aemeasurable, e1, e2]
  exact hpair.map_eq

/-- The law of an activity and a reluctance. -/
noncomputable def copulaLaw (c : ℝ) (inv1 inv2 : ℝ → ℝ) : Measure (ℝ × ℝ) :=
  ((gaussianReal 0 1).prod (gaussianReal 0 1)).map fun z =>
    (inv1 (Dist.stdCdf realOps (Dist.correlate realOps c z.1 z.2).1), inv2 (Dist.stdCdf realOps (Dist.correlate realOps c z.1 z.2).2))

theorem copula_measurable (c : ℝ) {inv1 inv2 : ℝ → ℝ} (h1 : Measurable inv1) (h2 : Measurable inv2) : Measurable fun z : ℝ × ℝ =>
    (inv1 (Dist.stdCdf realOps (Dist.correlate realOps c z.1 z.2).1), inv2 (Dist.stdCdf realOps (Dist.correlate realOps c z.1 z.2).2)) := by
  refine (h1.comp (stdCdf_measurable.comp measurable_fst)).prodMk (h2.comp (stdCdf_measurable.comp ?_))
  have : (fun z : ℝ × ℝ => (Dist.correlate realOps c z.1 z.2).2) = fun z => c * z.1 + Real.sqrt (1 - c * c) * z.2 := rfl
  rw [this]
  exact (measurable_fst.const_mul _).add (measurable_snd.const_mul _)

theorem copula_draws [IsProbabilityMeasure μ] (h : FreshDraws r μ) (c : ℝ) {inv1 inv2 : ℝ → ℝ} (h1 : Measurable inv1) (h2 : Measurable inv2) :
    Draws (Dist.copula realOps r c inv1 inv2) (copulaLaw c inv1 inv2) μ :=
  (h.normal.both h.normal).map (copula_measurable c h1 h2)

theorem opinion_draws [IsProbabilityMeasure μ] (h : FreshDraws r μ) : Draws (Activity.drawOpinion r) (uniform.map fun u => u * (1 - -1) + -1) μ :=
  h.unit.map (φ := fun u : ℝ => u * (1 - -1) + -1) (by fun_prop)

/-- What is drawn for one agent: the opinion, and the activity with the reluctance. -/
noncomputable def agentDraw (r : Rng G ℝ) (p : ActivitySettings ℝ) (g : G) : (ℝ × ℝ × ℝ) × G :=
  let x := Activity.drawOpinion r g
  let z := Dist.copula realOps r p.covarianceFactor (Dist.powerLawInverse realOps p.eps p.gamma)
    (Dist.truncatedInverse realOps p.reluctanceMean p.reluctanceSigma p.reluctanceEps) x.2
  ((x.1, z.1), z.2)

section
variable [ActiveAgent A ℝ] [LawfulActiveAgent A ℝ]

/-- Opinion, activity and reluctance of an agent. -/
def agentData (a : A) : ℝ × ℝ × ℝ := (ActiveAgent.opinion a, ActiveAgent.activity a, ActiveAgent.reluctance a)

/-- The set looks only at what is drawn: not at the reluctance if reluctances are off, not at the activity if every agent gets the mean activity. -/
def OnlyDrawn (p : ActivitySettings ℝ) (S : Set (ℝ × ℝ × ℝ)) : Prop :=
  (p.useReluctances = false → ∀ x a b b', (x, a, b) ∈ S ↔ (x, a, b') ∈ S) ∧ (p.meanActivities = true → ∀ x a a' b, (x, a, b) ∈ S ↔ (x, a', b) ∈ S)

omit [MeasurableSpace G] [LawfulActiveAgent A ℝ] in
theorem initialAgent_state (p : ActivitySettings ℝ) (a : A) (g : G) : (Activity.initialAgent realOps r p a g).2 = (agentDraw r p g).2 := rfl

omit [MeasurableSpace G] in
theorem initialAgent_draw {p : ActivitySettings ℝ} {S : Set (ℝ × ℝ × ℝ)} (hS : OnlyDrawn p S) (a : A) (g : G) :
    agentData (Activity.initialAgent realOps r p a g).1 ∈ S ↔ (agentDraw r p g).1 ∈ S := by
  unfold Activity.initialAgent agentDraw agentData
  cases hr : p.useReluctances <;> cases hm : p.meanActivities <;>
    simp only [if_true, Bool.false_eq_true, if_false, LawfulActiveAgent.opinion_setOpinion, LawfulActiveAgent.opinion_setActivity,
      LawfulActiveAgent.opinion_setReluctance, LawfulActiveAgent.activity_setActivity, LawfulActiveAgent.activity_setReluctance,
      LawfulActiveAgent.reluctance_setReluctance, LawfulActiveAgent.reluctance_setActivity, LawfulActiveAgent.reluctance_setOpinion]
  · exact hS.1 hr _ _ _ _
  · exact (hS.1 hr _ _ _ _).trans (hS.2 hm _ _ _ _)
  · exact hS.2 hm _ _ _ _

omit [MeasurableSpace G] [LawfulActiveAgent A ℝ] in
theorem drawState_after [Inhabited A] (p : ActivitySettings ℝ) (l : List A) (g : G) (i : ℕ) :
    Activity.drawState realOps r p l g i = after (agentDraw r p) i g := by
  induction i with
  | zero => rfl
  | succ i ih => rw [Activity.drawState, initialAgent_state, ih, after_succ]

/-- C69: if the generator draws independent uniform and standard normal numbers, the initial agents (other than bots) are independent, and each of them has
an opinion that is uniform between -1 and 1 and independent of the agent's activity and reluctance, an activity with the documented power law and a
reluctance with the documented truncated normal law; without a covariance factor these two are independent too.  (Reluctances are not drawn if they are switched off, activities not if every agent gets the mean
activity: `OnlyDrawn`.) -/
theorem C69_initial_law [Inhabited A] [IsProbabilityMeasure μ] (h : FreshDraws r μ) {p : ActivitySettings ℝ} (he0 : 0 < p.eps) (he1 : p.eps < 1)
    (hg : 1 < p.gamma) (hs : 0 < p.reluctanceSigma) (hc0 : -1 ≤ p.covarianceFactor) (hc1 : p.covarianceFactor ≤ 1) :
    ∃ (opinions : Measure ℝ) (rest : Measure (ℝ × ℝ)), IsProbabilityMeasure opinions ∧ IsProbabilityMeasure rest ∧
      (∀ x, -1 ≤ x → x ≤ 1 → opinions {v | v ≤ x} = ENNReal.ofReal ((x + 1) / 2)) ∧
      (∀ x, p.eps < x → x < 1 → rest {z | z.1 ≤ x} = ENNReal.ofReal (∫ t in p.eps..x, powerLawDensity p.eps p.gamma t)) ∧
      (∀ x, p.reluctanceEps < x → rest {z | z.2 ≤ x} =
        ENNReal.ofReal (∫ t in p.reluctanceEps..x, Dist.truncatedPdf realOps p.reluctanceMean p.reluctanceSigma p.reluctanceEps t)) ∧
      (p.covarianceFactor = 0 → rest = (rest.map Prod.fst).prod (rest.map Prod.snd)) ∧
      ∀ {N : Network A ℝ}, p.nBots ≤ N.agents.length → p.nBots ≤ p.botOpinion.length → p.nBots ≤ p.botActivity.length →
        ∀ S : ℕ → Set (ℝ × ℝ × ℝ), (∀ i, MeasurableSet (S i)) → (∀ i, OnlyDrawn p (S i)) →
          μ {g | ∃ s, Activity.create realOps r p N g = .ok s ∧ s.network.agents.length = N.agents.length ∧
              ∀ i (hi : i < s.network.agents.length), p.nBots ≤ i → agentData s.network.agents[i] ∈ S i} =
            ∏ i ∈ Finset.Ico p.nBots N.agents.length, (opinions.prod rest) (S i) := by
  have m1 := powerLawInverse_measurable p.eps p.gamma
  have m2 := truncatedInverse_measurable p.reluctanceMean p.reluctanceSigma p.reluctanceEps
  have mc := copula_measurable p.covarianceFactor m1 m2
  set inv1 := Dist.powerLawInverse realOps p.eps p.gamma with hi1
  set inv2 := Dist.truncatedInverse realOps p.reluctanceMean p.reluctanceSigma p.reluctanceEps with hi2
  have d1 := opinion_draws h
  have d2 := copula_draws h p.covarianceFactor m1 m2
  have pr1 : IsProbabilityMeasure (uniform.map fun u : ℝ => u * (1 - -1) + -1) := Measure.isProbabilityMeasure_map (by fun_prop)
  have pr2 : IsProbabilityMeasure (copulaLaw p.covarianceFactor inv1 inv2) := Measure.isProbabilityMeasure_map mc.aemeasurable
  have hcop := C28_copula h.standardNormals hc0 hc1 he0 he1 hg (mean := p.reluctanceMean) (reps := p.reluctanceEps) hs
  have pull : ∀ T : Set (ℝ × ℝ), MeasurableSet T → copulaLaw p.covarianceFactor inv1 inv2 T = μ {g | (Dist.copula realOps r p.covarianceFactor inv1 inv2 g).1 ∈ T} := by
    intro T hT
    have := d2.measure_preimage ((hT.prod MeasurableSet.univ).nullMeasurableSet)
    rw [Measure.prod_prod, measure_univ, mul_one] at this
    rw [← this]
    congr 1
    ext g; simp
  refine ⟨uniform.map fun u : ℝ => u * (1 - -1) + -1, copulaLaw p.covarianceFactor inv1 inv2, pr1, pr2, ?_, ?_, ?_, ?_, ?_⟩
  · intro x hx0 hx1
    have e0 : {v : ℝ | v ≤ x} = Set.Iic x := rfl
    rw [e0, Measure.map_apply (by fun_prop) measurableSet_Iic]
    have e : (fun u : ℝ => u * (1 - -1) + -1) ⁻¹' Set.Iic x = Set.Iic ((x + 1) / 2) := by
      ext u
      simp only [Set.mem_preimage, Set.mem_Iic]
      constructor <;> intro h <;> linarith
    rw [e, uniform, Measure.restrict_apply measurableSet_Iic]
    rcases hx1.lt_or_eq with h1 | rfl
    · have : Set.Iic ((x + 1) / 2) ∩ Set.Ioo 0 1 = Set.Ioc 0 ((x + 1) / 2) := by
        ext u
        simp only [Set.mem_inter_iff, Set.mem_Iic, Set.mem_Ioo, Set.mem_Ioc]
        constructor
        · rintro ⟨a, b, -⟩; exact ⟨b, a⟩
        · rintro ⟨a, b⟩; exact ⟨b, a, by linarith⟩
      rw [this, Real.volume_Ioc, sub_zero]
    · have : Set.Iic (((1 : ℝ) + 1) / 2) ∩ Set.Ioo 0 1 = Set.Ioo 0 1 := by
        rw [Set.inter_eq_right]
        intro u hu
        have := hu.2
        simp only [Set.mem_Iic]; linarith
      rw [this, Real.volume_Ioo]; norm_num
  · intro x hx hx1
    rw [pull _ (measurableSet_le measurable_fst measurable_const)]
    exact hcop.1 x hx hx1
  · intro x hx
    rw [pull _ (measurableSet_le measurable_snd measurable_const)]
    exact hcop.2 x hx
  · intro hc
    have e : copulaLaw p.covarianceFactor inv1 inv2 =
        ((gaussianReal 0 1).map (inv1 ∘ Dist.stdCdf realOps)).prod ((gaussianReal 0 1).map (inv2 ∘ Dist.stdCdf realOps)) := by
      rw [Measure.map_prod_map _ _ (m1.comp stdCdf_measurable) (m2.comp stdCdf_measurable)]
      unfold copulaLaw
      congr 1
      funext z
      have : Dist.correlate realOps p.covarianceFactor z.1 z.2 = (z.1, z.2) := by
        show (z.1, p.covarianceFactor * z.1 + Real.sqrt (1 - p.covarianceFactor * p.covarianceFactor) * z.2) = _
        rw [hc]; simp
      rw [this]; rfl
    have q1 : IsProbabilityMeasure ((gaussianReal 0 1).map (inv1 ∘ Dist.stdCdf realOps)) :=
      Measure.isProbabilityMeasure_map (m1.comp stdCdf_measurable).aemeasurable
    have q2 : IsProbabilityMeasure ((gaussianReal 0 1).map (inv2 ∘ Dist.stdCdf realOps)) :=
      Measure.isProbabilityMeasure_map (m2.comp stdCdf_measurable).aemeasurable
    rw [e]
    congr 1
    · exact measurePreserving_fst.map_eq.symm
    · exact measurePreserving_snd.map_eq.symm
  · intro N hn ho ha S hS hD
    have d : Draws (agentDraw r p) ((uniform.map fun u : ℝ => u * (1 - -1) + -1).prod (copulaLaw p.covarianceFactor inv1 inv2)) μ := d1.both d2
    have key := d.iid N.agents.length (S := fun i => if p.nBots ≤ i then S i else Set.univ) fun i => by
      split
      · exact hS i
      · exact MeasurableSet.univ
    have hprod : ∏ i ∈ Finset.range N.agents.length, ((uniform.map fun u : ℝ => u * (1 - -1) + -1).prod (copulaLaw p.covarianceFactor inv1 inv2))
        (if p.nBots ≤ i then S i else Set.univ) = ∏ i ∈ Finset.Ico p.nBots N.agents.length,
          ((uniform.map fun u : ℝ => u * (1 - -1) + -1).prod (copulaLaw p.covarianceFactor inv1 inv2)) (S i) := by
      rw [Finset.range_eq_Ico, ← Finset.prod_Ico_consecutive _ (Nat.zero_le _) hn]
      rw [Finset.prod_eq_one, one_mul]
      · refine Finset.prod_congr rfl fun i hi => ?_
        rw [if_pos (Finset.mem_Ico.mp hi).1]
      · intro i hi
        rw [if_neg (by have := (Finset.mem_Ico.mp hi).2; omega), measure_univ]
    rw [hprod] at key
    rw [← key]
    congr 1
    ext g
    simp only [Set.mem_ofPred_eq]
    -- the agents of the created model
    have hag : ∀ s, Activity.create realOps r p N g = .ok s → s.network.agents = Activity.createdAgents realOps r p N.agents g := by
      intro s hcs
      rw [Activity.create_eq realOps r g hn ho ha] at hcs
      cases hcs
      simp only
      split <;> rfl
    have hdata : ∀ i (hi : i < (Activity.createdAgents realOps r p N.agents g).length), p.nBots ≤ i →
        (agentData (Activity.createdAgents realOps r p N.agents g)[i] ∈ S i ↔ (agentDraw r p (after (agentDraw r p) i g)).1 ∈ S i) := by
      intro i hi hb
      simp only [Activity.createdAgents, List.getElem_mapIdx]
      rw [if_neg (by omega), initialAgent_draw (hD i), drawState_after]
    constructor
    · rintro ⟨s, hcs, hl, hall⟩ i hi
      split
      · rename_i hb
        have := hall i (by omega) hb
        simp only [hag s hcs] at this
        rwa [hdata i (by rw [Activity.createdAgents_length]; exact hi) hb] at this
      · trivial
    · intro hall
      obtain ⟨s, hcs⟩ : ∃ s, Activity.create realOps r p N g = .ok s := ⟨_, Activity.create_eq realOps r g hn ho ha⟩
      have e := hag s hcs
      refine ⟨s, hcs, by rw [e, Activity.createdAgents_length], ?_⟩
      intro i hi hb
      have hi' : i < (Activity.createdAgents realOps r p N.agents g).length := by rw [← e]; exact hi
      simp only [e]
      rw [hdata i hi' hb]
      have := hall i (by rw [Activity.createdAgents_length] at hi'; exact hi')
      rwa [if_pos hb] at this

end

/-- Such generators exist, and the settings of the examples meet the conditions. -/
example : ∃ (p : ActivitySettings ℝ) (N : Network (ActivityAgent ℝ) ℝ), FreshDraws twoTapes (tapes.prod (tapesOf (gaussianReal 0 1))) ∧ 0 < p.eps ∧
    p.eps < 1 ∧ 1 < p.gamma ∧ 0 < p.reluctanceSigma ∧ -1 ≤ p.covarianceFactor ∧ p.covarianceFactor ≤ 1 ∧ p.nBots ≤ N.agents.length ∧
    p.nBots ≤ p.botOpinion.length ∧ p.nBots ≤ p.botActivity.length ∧ p.nBots = 1 ∧ N.agents.length = 3 ∧
    OnlyDrawn p {z | z.1 ≤ 0 ∧ 1 / 2 ≤ z.2.1 ∧ z.2.2 < 1} :=
  ⟨{ maxIterations := none, dt := 0.01, m := 1, eps := 0.01, gamma := 2.1, alpha := 3, homophily := 0.5, reciprocity := 0.5, K := 3,
     meanActivities := false, meanWeights := false, nBots := 1, botM := [1], botActivity := [1], botOpinion := [2], botHomophily := [0],
     useReluctances := true, reluctanceMean := 1, reluctanceSigma := 0.25, reluctanceEps := 0.01, covarianceFactor := 0.5 },
   ⟨[⟨0, 0, 1⟩, ⟨0, 0, 1⟩, ⟨0, 0, 1⟩], [[], [], []], [[], [], []], .incoming⟩, twoTapes_fresh, by norm_num, by norm_num, by norm_num, by norm_num,
   by norm_num, by norm_num, by simp, by simp, by simp, rfl, rfl, by simp [OnlyDrawn]⟩

end Seldon
