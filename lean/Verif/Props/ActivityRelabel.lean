import Verif.Lemmas.ActivityFinal
import Verif.Props.Relabel
/-!
# C88: the numbering of the agents is immaterial in the activity-driven and inertial models
-/
set_option linter.unusedSectionVars false
namespace Seldon
open Spec MeasureTheory
open scoped ENNReal
variable {A G : Type}

theorem relabelled_lt {σ : Equiv.Perm ℕ} {xs ys : List A} (h : Relabelled σ xs ys) (i : ℕ) : σ i < xs.length ↔ i < xs.length := by
  have := h.2 i
  constructor
  · intro hi
    by_contra hc
    rw [List.getElem?_eq_none (l := xs) (by omega), List.getElem?_eq_none_iff, h.1] at this
    omega
  · intro hi
    by_contra hc
    rw [List.getElem?_eq_none (by rw [h.1]; omega), eq_comm, List.getElem?_eq_none_iff] at this
    omega

theorem relabelled_all {σ : Equiv.Perm ℕ} {xs ys : List A} (h : Relabelled σ xs ys) {P : A → Prop} (hP : ∀ a ∈ xs, P a) : ∀ a ∈ ys, P a := by
  intro a ha
  obtain ⟨i, hi⟩ := List.mem_iff_getElem?.mp ha
  obtain ⟨j, rfl⟩ := σ.surjective i
  rw [h.2] at hi
  exact hP a (List.mem_of_getElem? hi)

theorem Spec.RelabelledSettings.finite {σ : Equiv.Perm ℕ} {p p' : ActivitySettings XR} (h : RelabelledSettings σ p p') (hf : FiniteSettings p)
    (h1 : ∀ x ∈ p'.botHomophily, ∃ r, x = XR.fin r) (h2 : ∀ x ∈ p'.botOpinion, ∃ r, x = XR.fin r) : FiniteSettings p' := by
  obtain ⟨e1, e2, e3, -, -, e6, e7, -⟩ := h.eqs
  exact ⟨by rw [e3]; exact hf.dt, by rw [e1]; exact hf.K, by rw [e2]; exact hf.alpha, by rw [e7]; exact hf.reciprocity, by rw [e6]; exact hf.homophily, h1, h2⟩

section
variable [MeasurableSpace G] {μ : Measure G} [IsProbabilityMeasure μ] {o : MathOps XR} {pick : List (ℕ × XR) → ℕ} {r : Rng G XR}

section activity
variable [ActiveAgent A XR] [LawfulActiveAgent A XR] {s s' : Activity A XR G} {σ : Equiv.Perm ℕ}

/-- C88 (activity-driven model): give the agents other numbers, that is, agent `i` is now called `σ i`, and likewise for the settings of the bots.  Then the
agents after `t` iterations have the same distribution, with the numbers changed in the same way. -/
theorem C88_activity (hr : DrawsUniform r μ) (hp : Reservoir.Pick.Min pick) (ho : o.toOps = XR.ops) (ht : ∀ x, ∃ y, o.tanh (XR.fin x) = XR.fin y)
    (hs : s.Ready) (hs' : s'.Ready) (hset : RelabelledSettings σ s.p s'.p) (hag : Relabelled σ s.network.agents s'.network.agents)
    (hf : FiniteSettings s.p) (hf' : FiniteSettings s'.p) (ha : ∀ a ∈ s.network.agents, FiniteAgent a)
    (hm : ∀ i, i < s.network.agents.length → 0 < contactsOf s.p i ∧ contactsOf s.p i < s.network.agents.length)
    (t : ℕ) {y y' : List A} (hy : Relabelled σ y y') :
    μ {g | ∃ u, Iterates (Activity.iteration o pick r) { s' with gen := g } t u ∧ u.network.agents = y'} =
      μ {g | ∃ u, Iterates (Activity.iteration o pick r) { s with gen := g } t u ∧ u.network.agents = y} := by
  have hσ := relabelled_lt hag
  have hm' : ∀ i, i < s'.network.agents.length → 0 < contactsOf s'.p i ∧ contactsOf s'.p i < s'.network.agents.length := by
    intro i hi
    obtain ⟨j, rfl⟩ := σ.surjective i
    rw [hset.contacts, hag.1]
    exact hm j (by rw [hag.1, hσ] at hi; exact hi)
  have S := activityStepper (r := r) (o := o) ⟨hp.lt⟩ ht hs hf hm
  have S' := activityStepper (r := r) (o := o) ⟨hp.lt⟩ ht hs' hf' hm'
  rw [hag.1] at S'
  have := (S.finals_relabel S' hr hp ho hσ hset (fun N M h1 h2 => rkAgents_relabel hset h1 h2) hy t s.network s'.network ⟨hs.wf, hs.incoming, rfl, ha⟩
    ⟨hs'.wf, hs'.incoming, hag.1, relabelled_all hag ha⟩ hag).2.2
  have hset1 : ∀ (u : Activity A XR G) (z : List A), u.p.meanWeights = false →
      {g | ∃ v, Iterates (Activity.iteration o pick r) { u with gen := g } t v ∧ v.network.agents = z} = Finals (activityStep o pick r u) z t u.network := by
    intro u z h0
    ext g
    exact iterates_iff (gen := fun v : Activity A XR G => v.gen) (network := fun v : Activity A XR G => v.network) (good := fun v => v.p = u.p)
      (fun v hv => activity_congr (s := { u with network := v.network, gen := v.gen }) h0 hv rfl rfl)
      (fun v w hv hw => (Activity.iteration_frame hw).2.1.trans hv) z t { u with gen := g } rfl
  rw [hset1 s' y' hs'.probabilistic, hset1 s y hs.probabilistic, this]

/-- C88 (activity-driven model, histories): the same for the whole history of the agents and the networks, not only for the agents at the end. -/
theorem C88_activity_history (hr : DrawsUniform r μ) (hp : Reservoir.Pick.Min pick) (ho : o.toOps = XR.ops) (ht : ∀ x, ∃ y, o.tanh (XR.fin x) = XR.fin y)
    (hs : s.Ready) (hs' : s'.Ready) (hset : RelabelledSettings σ s.p s'.p) (hag : Relabelled σ s.network.agents s'.network.agents)
    (hf : FiniteSettings s.p) (hf' : FiniteSettings s'.p) (ha : ∀ a ∈ s.network.agents, FiniteAgent a)
    (hm : ∀ i, i < s.network.agents.length → 0 < contactsOf s.p i ∧ contactsOf s.p i < s.network.agents.length)
    (t : ℕ) {ys ys' : ℕ → List A} (hys : ∀ k, Relabelled σ (ys k) (ys' k)) {R R' : ℕ → ℕ → ℕ → Prop}
    (hR : ∀ k i j, i < s.network.agents.length → j < s.network.agents.length → (R' k (σ i) (σ j) ↔ R k i j)) :
    μ {g | HasHistory (Activity.iteration o pick r) (·.network) s.network.agents.length { s' with gen := g } t ys' R'} =
      μ {g | HasHistory (Activity.iteration o pick r) (·.network) s.network.agents.length { s with gen := g } t ys R} := by
  have hσ := relabelled_lt hag
  have hm' : ∀ i, i < s'.network.agents.length → 0 < contactsOf s'.p i ∧ contactsOf s'.p i < s'.network.agents.length := by
    intro i hi
    obtain ⟨j, rfl⟩ := σ.surjective i
    rw [hset.contacts, hag.1]
    exact hm j (by rw [hag.1, hσ] at hi; exact hi)
  have S := activityStepper (r := r) (o := o) ⟨hp.lt⟩ ht hs hf hm
  have S' := activityStepper (r := r) (o := o) ⟨hp.lt⟩ ht hs' hf' hm'
  rw [hag.1] at S'
  have := (S.histories_relabel S' hr hp ho hσ hset (fun N M h1 h2 => rkAgents_relabel hset h1 h2) t ys ys' R R' hys hR s.network s'.network
    ⟨hs.wf, hs.incoming, rfl, ha⟩ ⟨hs'.wf, hs'.incoming, hag.1, relabelled_all hag ha⟩ hag).2.2
  have hset1 : ∀ (u : Activity A XR G) (n : ℕ) (zs : ℕ → List A) (Q : ℕ → ℕ → ℕ → Prop), u.p.meanWeights = false →
      {g | HasHistory (Activity.iteration o pick r) (·.network) n { u with gen := g } t zs Q} = Histories (activityStep o pick r u) n t zs Q u.network := by
    intro u n zs Q h0
    ext g
    exact hasHistory_iff (gen := fun v : Activity A XR G => v.gen) (network := fun v : Activity A XR G => v.network) (good := fun v => v.p = u.p)
      (fun v hv => activity_congr (s := { u with network := v.network, gen := v.gen }) h0 hv rfl rfl)
      (fun v w hv hw => (Activity.iteration_frame hw).2.1.trans hv) n t zs Q { u with gen := g } rfl
  rw [hset1 s' _ ys' R' hs'.probabilistic, hset1 s _ ys R hs.probabilistic, this]

end activity

section inertial
variable {s s' : Inertial XR G} {σ : Equiv.Perm ℕ}

/-- C88 (inertial model): the same for opinions and velocities. -/
theorem C88_inertial (hr : DrawsUniform r μ) (hp : Reservoir.Pick.Min pick) (ho : o.toOps = XR.ops) (ht : ∀ x, ∃ y, o.tanh (XR.fin x) = XR.fin y)
    (hs : s.base.Ready) (hs' : s'.base.Ready) (hset : RelabelledSettings σ s.base.p s'.base.p) (hag : Relabelled σ s.base.network.agents s'.base.network.agents)
    (hf : FiniteSettings s.base.p) (hf' : FiniteSettings s'.base.p) (ha : ∀ a ∈ s.base.network.agents, FiniteAgent a ∧ ∃ v, a.velocity = XR.fin v)
    (hfr : s'.friction = s.friction) (hc : ∃ c, s.friction = XR.fin c) (h0 : 1 + 1 / ((2 : ℕ) : XR) * s.friction * s.base.p.dt ≠ 0)
    (hm : ∀ i, i < s.base.network.agents.length → 0 < contactsOf s.base.p i ∧ contactsOf s.base.p i < s.base.network.agents.length)
    (t : ℕ) {y y' : List (InertialAgent XR)} (hy : Relabelled σ y y') :
    μ {g | ∃ u, Iterates (Inertial.iteration o pick r) { s' with base := { s'.base with gen := g } } t u ∧ u.base.network.agents = y'} =
      μ {g | ∃ u, Iterates (Inertial.iteration o pick r) { s with base := { s.base with gen := g } } t u ∧ u.base.network.agents = y} := by
  have hσ := relabelled_lt hag
  have hm' : ∀ i, i < s'.base.network.agents.length → 0 < contactsOf s'.base.p i ∧ contactsOf s'.base.p i < s'.base.network.agents.length := by
    intro i hi
    obtain ⟨j, rfl⟩ := σ.surjective i
    rw [hset.contacts, hag.1]
    exact hm j (by rw [hag.1, hσ] at hi; exact hi)
  have S := inertialStepper (r := r) (o := o) ⟨hp.lt⟩ ht hs hf hc h0 hm
  have S' := inertialStepper (r := r) (o := o) ⟨hp.lt⟩ ht hs' hf' (by rw [hfr]; exact hc) (by rw [hfr, hset.eqs.2.2.1]; exact h0) hm'
  rw [hag.1, hfr] at S'
  have := (S.finals_relabel S' hr hp ho hσ hset (fun N M h1 h2 => verletAgents_relabel hset h1 h2) hy t s.base.network s'.base.network ⟨hs.wf, hs.incoming, rfl, ha⟩
    ⟨hs'.wf, hs'.incoming, hag.1, relabelled_all hag ha⟩ hag).2.2
  have hset1 : ∀ (u : Inertial XR G) (z : List (InertialAgent XR)), u.base.p.meanWeights = false →
      {g | ∃ v, Iterates (Inertial.iteration o pick r) { u with base := { u.base with gen := g } } t v ∧ v.base.network.agents = z} =
        Finals (inertialStep o pick r u) z t u.base.network := by
    intro u z h0
    ext g
    exact iterates_iff (gen := fun v : Inertial XR G => v.base.gen) (network := fun v : Inertial XR G => v.base.network)
      (good := fun v => v.base.p = u.base.p ∧ v.friction = u.friction)
      (fun v hv => inertial_congr (s := { u with base := { u.base with network := v.base.network, gen := v.base.gen } }) h0 hv.1 hv.2 rfl rfl)
      (fun v w hv hw => ⟨(Inertial.iteration_frame hw).2.1.trans hv.1, (Inertial.iteration_frame hw).2.2.2.trans hv.2⟩) z t
      { u with base := { u.base with gen := g } } ⟨rfl, rfl⟩
  rw [hset1 s' y' hs'.probabilistic, hset1 s y hs.probabilistic, this]

/-- C88 (inertial model, histories): the same for the whole history of the agents and the networks. -/
theorem C88_inertial_history (hr : DrawsUniform r μ) (hp : Reservoir.Pick.Min pick) (ho : o.toOps = XR.ops) (ht : ∀ x, ∃ y, o.tanh (XR.fin x) = XR.fin y)
    (hs : s.base.Ready) (hs' : s'.base.Ready) (hset : RelabelledSettings σ s.base.p s'.base.p) (hag : Relabelled σ s.base.network.agents s'.base.network.agents)
    (hf : FiniteSettings s.base.p) (hf' : FiniteSettings s'.base.p) (ha : ∀ a ∈ s.base.network.agents, FiniteAgent a ∧ ∃ v, a.velocity = XR.fin v)
    (hfr : s'.friction = s.friction) (hc : ∃ c, s.friction = XR.fin c) (h0 : 1 + 1 / ((2 : ℕ) : XR) * s.friction * s.base.p.dt ≠ 0)
    (hm : ∀ i, i < s.base.network.agents.length → 0 < contactsOf s.base.p i ∧ contactsOf s.base.p i < s.base.network.agents.length)
    (t : ℕ) {ys ys' : ℕ → List (InertialAgent XR)} (hys : ∀ k, Relabelled σ (ys k) (ys' k)) {R R' : ℕ → ℕ → ℕ → Prop}
    (hR : ∀ k i j, i < s.base.network.agents.length → j < s.base.network.agents.length → (R' k (σ i) (σ j) ↔ R k i j)) :
    μ {g | HasHistory (Inertial.iteration o pick r) (·.base.network) s.base.network.agents.length { s' with base := { s'.base with gen := g } } t ys' R'} =
      μ {g | HasHistory (Inertial.iteration o pick r) (·.base.network) s.base.network.agents.length { s with base := { s.base with gen := g } } t ys R} := by
  have hσ := relabelled_lt hag
  have hm' : ∀ i, i < s'.base.network.agents.length → 0 < contactsOf s'.base.p i ∧ contactsOf s'.base.p i < s'.base.network.agents.length := by
    intro i hi
    obtain ⟨j, rfl⟩ := σ.surjective i
    rw [hset.contacts, hag.1]
    exact hm j (by rw [hag.1, hσ] at hi; exact hi)
  have S := inertialStepper (r := r) (o := o) ⟨hp.lt⟩ ht hs hf hc h0 hm
  have S' := inertialStepper (r := r) (o := o) ⟨hp.lt⟩ ht hs' hf' (by rw [hfr]; exact hc) (by rw [hfr, hset.eqs.2.2.1]; exact h0) hm'
  rw [hag.1, hfr] at S'
  have := (S.histories_relabel S' hr hp ho hσ hset (fun N M h1 h2 => verletAgents_relabel hset h1 h2) t ys ys' R R' hys hR s.base.network s'.base.network
    ⟨hs.wf, hs.incoming, rfl, ha⟩ ⟨hs'.wf, hs'.incoming, hag.1, relabelled_all hag ha⟩ hag).2.2
  have hset1 : ∀ (u : Inertial XR G) (n : ℕ) (zs : ℕ → List (InertialAgent XR)) (Q : ℕ → ℕ → ℕ → Prop), u.base.p.meanWeights = false →
      {g | HasHistory (Inertial.iteration o pick r) (·.base.network) n { u with base := { u.base with gen := g } } t zs Q} =
        Histories (inertialStep o pick r u) n t zs Q u.base.network := by
    intro u n zs Q h0
    ext g
    exact hasHistory_iff (gen := fun v : Inertial XR G => v.base.gen) (network := fun v : Inertial XR G => v.base.network)
      (good := fun v => v.base.p = u.base.p ∧ v.friction = u.friction)
      (fun v hv => inertial_congr (s := { u with base := { u.base with network := v.base.network, gen := v.base.gen } }) h0 hv.1 hv.2 rfl rfl)
      (fun v w hv hw => ⟨(Inertial.iteration_frame hw).2.1.trans hv.1, (Inertial.iteration_frame hw).2.2.2.trans hv.2⟩) n t zs Q
      { u with base := { u.base with gen := g } } ⟨rfl, rfl⟩
  rw [hset1 s' _ ys' R' hs'.probabilistic, hset1 s _ ys R hs.probabilistic, this]

end inertial
end

/-! ## The hypotheses are met -/

/-- The three agents of `xrSample` with time step 1. -/
noncomputable def xrMoving : Activity (ActivityAgent XR) XR (ℕ → ℝ) := { xrSample with p := { xrSample.p with dt := 1 } }

/-- `xrMoving` with the first two agents exchanged. -/
noncomputable def xrSwapped : Activity (ActivityAgent XR) XR (ℕ → ℝ) :=
  { xrMoving with network := { xrSample.network with agents := [⟨XR.fin 1, XR.fin (1 / 2), 1⟩, ⟨XR.fin 0, XR.fin (1 / 2), 1⟩, ⟨XR.fin 2, XR.fin (1 / 2), 1⟩] } }

theorem xrMoving_settings : RelabelledSettings (Equiv.swap 0 1) xrMoving.p xrMoving.p where
  rest := rfl
  bots i := by
    show _ < 0 ↔ _ < 0
    simp
  botM i hi := absurd hi (Nat.not_lt_zero i)
  botHomophily i hi := absurd hi (Nat.not_lt_zero i)
  botOpinion i hi := absurd hi (Nat.not_lt_zero i)

theorem xrMoving_finite : FiniteSettings xrMoving.p where
  dt := ⟨1, rfl⟩
  K := ⟨1, rfl⟩
  alpha := ⟨1, rfl⟩
  reciprocity := ⟨_, rfl⟩
  homophily := ⟨_, rfl⟩
  botHomophily := by intro h hh; exact absurd hh (by simp [xrMoving, xrSample])
  botOpinion := by intro h hh; exact absurd hh (by simp [xrMoving, xrSample])

theorem xrMoving_fit : Activity.ContactsFit xrMoving.p 3 :=
  ⟨by norm_num, Nat.zero_le _, Nat.zero_le _, Nat.zero_le _, fun i _ => by show (0 : ℤ) ≤ contactsOf xrSample.p i; rw [xrSample_contacts]; norm_num,
    fun i _ => by show contactsOf xrSample.p i ≤ (3 : ℕ); rw [xrSample_contacts]; norm_num⟩

theorem xrMoving_ready : xrMoving.Ready := ⟨xrSample_ready.wf, rfl, xrMoving_fit, xrSample_ready.botOpinion, rfl⟩

theorem xrSwapped_ready : xrSwapped.Ready :=
  ⟨⟨xrSample_ready.wf.rows, xrSample_ready.wf.wrows, xrSample_ready.wf.lengths, xrSample_ready.wf.range⟩, rfl, xrMoving_fit, xrSample_ready.botOpinion, rfl⟩

theorem xrMoving_agents : ∀ a ∈ xrMoving.network.agents, FiniteAgent a := by
  intro a ha
  have : a = ⟨XR.fin 0, XR.fin (1 / 2), 1⟩ ∨ a = ⟨XR.fin 1, XR.fin (1 / 2), 1⟩ ∨ a = ⟨XR.fin 2, XR.fin (1 / 2), 1⟩ := by simpa [xrMoving, xrSample] using ha
  rcases this with rfl | rfl | rfl <;> exact ⟨⟨_, rfl⟩, ⟨_, rfl⟩, ⟨1, rfl, one_ne_zero⟩⟩

theorem xrMoving_contacts (i : ℕ) (_ : i < xrMoving.network.agents.length) : 0 < contactsOf xrMoving.p i ∧ contactsOf xrMoving.p i < xrMoving.network.agents.length := by
  show (0 : ℤ) < contactsOf xrSample.p i ∧ contactsOf xrSample.p i < (3 : ℕ)
  rw [xrSample_contacts]
  norm_num

example (t : ℕ) (a b c : ActivityAgent XR) :
    tapes {g | ∃ u, Iterates (Activity.iteration xrOps exPick tapeRng) { xrSwapped with gen := g } t u ∧ u.network.agents = [b, a, c]} =
      tapes {g | ∃ u, Iterates (Activity.iteration xrOps exPick tapeRng) { xrMoving with gen := g } t u ∧ u.network.agents = [a, b, c]} :=
  C88_activity (s := xrMoving) (s' := xrSwapped) (o := xrOps) tapeRng_uniform exPick_min rfl (fun x => ⟨x, rfl⟩) xrMoving_ready xrSwapped_ready xrMoving_settings
    (relabelled_swap _ _ _) xrMoving_finite xrMoving_finite xrMoving_agents xrMoving_contacts t (relabelled_swap _ _ _)

/-- The same agents with velocities. -/
noncomputable def xrInertial : Inertial XR (ℕ → ℝ) where
  base := { counter := xrMoving.counter, p := xrMoving.p, contactProb := xrMoving.contactProb, gen := 0,
            network := { agents := [⟨XR.fin 0, XR.fin (1 / 2), 1, 1⟩, ⟨XR.fin 1, XR.fin (1 / 2), 1, 0⟩, ⟨XR.fin 2, XR.fin (1 / 2), 1, 0⟩],
                         neighbours := xrMoving.network.neighbours, weights := xrMoving.network.weights, direction := .incoming } }
  friction := 1

noncomputable def xrInertialSwapped : Inertial XR (ℕ → ℝ) :=
  { xrInertial with base := { xrInertial.base with network := { xrInertial.base.network with
      agents := [⟨XR.fin 1, XR.fin (1 / 2), 1, 0⟩, ⟨XR.fin 0, XR.fin (1 / 2), 1, 1⟩, ⟨XR.fin 2, XR.fin (1 / 2), 1, 0⟩] } } }

example (t : ℕ) (a b c : InertialAgent XR) :
    tapes {g | ∃ u, Iterates (Inertial.iteration xrOps exPick tapeRng) { xrInertialSwapped with base := { xrInertialSwapped.base with gen := g } } t u ∧
        u.base.network.agents = [b, a, c]} =
      tapes {g | ∃ u, Iterates (Inertial.iteration xrOps exPick tapeRng) { xrInertial with base := { xrInertial.base with gen := g } } t u ∧
        u.base.network.agents = [a, b, c]} := by
  refine C88_inertial (s := xrInertial) (s' := xrInertialSwapped) (o := xrOps) tapeRng_uniform exPick_min rfl (fun x => ⟨x, rfl⟩)
    ⟨⟨xrSample_ready.wf.rows, xrSample_ready.wf.wrows, xrSample_ready.wf.lengths, xrSample_ready.wf.range⟩, rfl, xrMoving_fit, xrSample_ready.botOpinion, rfl⟩
    ⟨⟨xrSample_ready.wf.rows, xrSample_ready.wf.wrows, xrSample_ready.wf.lengths, xrSample_ready.wf.range⟩, rfl, xrMoving_fit, xrSample_ready.botOpinion, rfl⟩
    xrMoving_settings (relabelled_swap _ _ _) xrMoving_finite xrMoving_finite ?_ rfl ⟨1, rfl⟩ ?_ xrMoving_contacts t (relabelled_swap _ _ _)
  · intro a ha
    have : a = ⟨XR.fin 0, XR.fin (1 / 2), 1, 1⟩ ∨ a = ⟨XR.fin 1, XR.fin (1 / 2), 1, 0⟩ ∨ a = ⟨XR.fin 2, XR.fin (1 / 2), 1, 0⟩ := by simpa [xrInertial] using ha
    rcases this with rfl | rfl | rfl
    · exact ⟨⟨⟨_, rfl⟩, ⟨_, rfl⟩, ⟨1, rfl, one_ne_zero⟩⟩, ⟨1, rfl⟩⟩
    · exact ⟨⟨⟨_, rfl⟩, ⟨_, rfl⟩, ⟨1, rfl, one_ne_zero⟩⟩, ⟨0, rfl⟩⟩
    · exact ⟨⟨⟨_, rfl⟩, ⟨_, rfl⟩, ⟨1, rfl, one_ne_zero⟩⟩, ⟨0, rfl⟩⟩
  · show (1 : XR) + 1 / ((2 : ℕ) : XR) * 1 * 1 ≠ 0
    have h1 : (1 : XR) / ((2 : ℕ) : XR) = XR.fin (1 / ((2 : ℕ) : ℝ)) := XR.div_fin 1 _ (by norm_num)
    rw [h1, show (1 : XR) = XR.fin 1 from rfl, XR.mul_fin, XR.mul_fin, XR.add_fin, XR.zero_def]
    intro h
    have : (1 : ℝ) + 1 / ((2 : ℕ) : ℝ) * 1 * 1 = 0 := by injection h
    norm_num at this

end Seldon
