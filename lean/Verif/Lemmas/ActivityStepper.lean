import Verif.Lemmas.ActivityHistory
import Verif.Props.ContactLaw
/-!
# Helper lemmas: the activity-driven and the inertial model as steppers
-/
set_option linter.unusedSectionVars false
namespace Seldon
open Spec MeasureTheory
open scoped ENNReal
variable {A G : Type}

/-! ## numbers stay finite -/

theorem attr_fin {f : A → XR} {xs : List A} (h : ∀ a ∈ xs, XR.IsFin (f a)) (i : ℕ) : XR.IsFin (attr f xs i) := by
  by_cases hi : i < xs.length
  · rw [Activity.attr_lt f hi]
    exact h _ (List.getElem_mem hi)
  · unfold attr
    rw [List.getD_eq_getElem?_getD, List.getElem?_eq_none (by simpa using hi)]
    exact XR.isFin_zero

section
variable [ActiveAgent A XR] {o : MathOps XR} {p : ActivitySettings XR}

theorem slope_fin (ht : ∀ x, XR.IsFin (o.tanh (XR.fin x))) (hp : FiniteSettings p) {N : Network A XR} (hN : Plain N) (ha : ∀ a ∈ N.agents, FiniteAgent a)
    {x : ℕ → XR} (hx : ∀ i, XR.IsFin (x i)) (i : ℕ) : XR.IsFin (Activity.slope o p N x i) := by
  unfold Activity.slope
  have key : ∀ (l : List (ℕ × XR)) (c : XR), (∀ e ∈ l, i < N.agents.length ∧ e.2 = 1) → XR.IsFin c →
      XR.IsFin (l.foldl (fun acc e => acc + 1 / attr ActiveAgent.reluctance N.agents i * p.K * e.2 * o.tanh (p.alpha * x e.1)) c) := by
    intro l
    induction l with
    | nil => intro c _ hc; exact hc
    | cons e l ih =>
      intro c hl hc
      rw [List.foldl_cons]
      obtain ⟨hi, he⟩ := hl e (List.mem_cons_self ..)
      refine ih _ (fun e he => hl e (List.mem_cons_of_mem _ he)) (hc.add ?_)
      obtain ⟨q, hq, hq0⟩ := (ha _ (List.getElem_mem hi)).reluctance
      have hr : attr ActiveAgent.reluctance N.agents i = XR.fin q := by rw [Activity.attr_lt _ hi, hq]
      have hax : XR.IsFin (p.alpha * x e.1) := XR.IsFin.mul hp.alpha (hx _)
      refine XR.IsFin.mul (XR.IsFin.mul (XR.IsFin.mul (XR.IsFin.div XR.isFin_one ⟨q, hr⟩ ?_) hp.K) ⟨1, he⟩) ?_
      · rw [hr]
        intro h0
        exact hq0 (by injection h0)
      · rw [hax.eq]; exact ht _
  refine key _ _ (fun e he => ⟨?_, hN.ones i e he⟩) (hx i).neg
  by_contra hc
  rw [row_none hN.wf (by omega)] at he
  simp at he

theorem half_fin : XR.IsFin (1 / ((2 : ℕ) : XR)) := XR.isFin_one.div (XR.isFin_nat 2) (XR.nat_ne_zero (by norm_num))

theorem rkOpinion_fin (ht : ∀ x, XR.IsFin (o.tanh (XR.fin x))) (hp : FiniteSettings p) {N : Network A XR} (hN : Plain N) (ha : ∀ a ∈ N.agents, FiniteAgent a)
    (i : ℕ) {x : XR} (hx : XR.IsFin x) : XR.IsFin (Activity.rkOpinion o p N i x) := by
  have h0 : ∀ i, XR.IsFin (attr ActiveAgent.opinion N.agents i) := attr_fin fun a h => (ha a h).opinion
  have h1 : ∀ i, XR.IsFin (Activity.stage1 o p N i) := slope_fin ht hp hN ha h0
  have h2 : ∀ i, XR.IsFin (Activity.stage2 o p N i) := slope_fin ht hp hN ha fun j => (h0 j).add ((half_fin.mul hp.dt).mul (h1 j))
  have h3 : ∀ i, XR.IsFin (Activity.stage3 o p N i) := slope_fin ht hp hN ha fun j => (h0 j).add ((half_fin.mul hp.dt).mul (h2 j))
  have h4 : ∀ i, XR.IsFin (Activity.stage4 o p N i) := slope_fin ht hp hN ha fun j => (h0 j).add (XR.IsFin.mul hp.dt (h3 j))
  unfold Activity.rkOpinion
  exact hx.add ((XR.IsFin.mul hp.dt ((((h1 i).add ((XR.isFin_nat 2).mul (h2 i))).add ((XR.isFin_nat 2).mul (h3 i))).add (h4 i))).div (XR.isFin_nat 6)
    (XR.nat_ne_zero (by norm_num)))

theorem getD_fin {l : List XR} (h : ∀ x ∈ l, XR.IsFin x) (i : ℕ) : XR.IsFin (l.getD i 0) := by
  rw [List.getD_eq_getElem?_getD]
  by_cases hi : i < l.length
  · rw [List.getElem?_eq_getElem hi]; exact h _ (List.getElem_mem hi)
  · rw [List.getElem?_eq_none (by omega)]; exact XR.isFin_zero

theorem Spec.FiniteAgent.set [LawfulActiveAgent A XR] {a : A} (h : FiniteAgent a) {x : XR} (hx : XR.IsFin x) : FiniteAgent (ActiveAgent.setOpinion x a) where
  opinion := by rw [LawfulActiveAgent.opinion_setOpinion]; exact hx
  activity := by rw [LawfulActiveAgent.activity_setOpinion]; exact h.activity
  reluctance := by rw [LawfulActiveAgent.reluctance_setOpinion]; exact h.reluctance

theorem rkAgents_fin [LawfulActiveAgent A XR] (ht : ∀ x, XR.IsFin (o.tanh (XR.fin x))) (hp : FiniteSettings p) {N : Network A XR} (hN : Plain N)
    (ha : ∀ a ∈ N.agents, FiniteAgent a) : ∀ a ∈ rkAgents o p N, FiniteAgent a := by
  intro a h
  obtain ⟨i, hi, rfl⟩ := List.getElem_of_mem h
  unfold rkAgents at hi ⊢
  rw [List.getElem_mapIdx]
  have hi' : i < N.agents.length := by simpa using hi
  have h1 := ha _ (List.getElem_mem hi')
  have h2 := h1.set (rkOpinion_fin ht hp hN ha i h1.opinion)
  split
  · exact h2.set (getD_fin hp.botOpinion i)
  · exact h2

theorem numbers_of_fin (hp : FiniteSettings p) {xs : List A} (ha : ∀ a ∈ xs, FiniteAgent a) :
    Numbers p xs (fun i => (attr ActiveAgent.opinion xs i).num) (fun i => (attr ActiveAgent.activity xs i).num) (fun i => (homophilyFor p i).num) p.reciprocity.num where
  opinion i hi := by
    rw [Activity.attr_lt _ hi]
    exact XR.IsFin.eq (ha _ (List.getElem_mem hi)).opinion
  activity i hi := by
    rw [Activity.attr_lt _ hi]
    exact XR.IsFin.eq (ha _ (List.getElem_mem hi)).activity
  homophily i _ := by
    refine XR.IsFin.eq ?_
    unfold homophilyFor
    split
    · exact getD_fin hp.botHomophily i
    · exact hp.homophily
  reciprocity := XR.IsFin.eq hp.reciprocity

omit [ActiveAgent A XR] in
theorem wf_resize {N : Network A XR} {l : List A} (hl : l.length = N.agents.length) (h : WF ({ N with agents := l } : Network A XR)) : WF N := by
  refine ⟨?_, ?_, h.lengths, ?_⟩
  · rw [← hl]; exact h.rows
  · rw [← hl]; exact h.wrows
  · rw [← hl]; exact h.range

theorem settings_refl (p : ActivitySettings XR) : RelabelledSettings (Equiv.refl ℕ) p p :=
  ⟨rfl, fun _ => Iff.rfl, fun _ _ => rfl, fun _ _ => rfl, fun _ _ => rfl⟩

theorem relabelled_refl_eq {xs ys : List A} (h : Relabelled (Equiv.refl ℕ) xs ys) : ys = xs := List.ext_getElem? fun i => h.2 i

theorem relabelled_of_eq {xs ys : List A} (h : xs = ys) : Relabelled (Equiv.refl ℕ) xs ys := by subst h; exact ⟨rfl, fun _ => rfl⟩

end

/-! ## the activity-driven model -/

section
variable [ActiveAgent A XR] [LawfulActiveAgent A XR] {o : MathOps XR} {pick : List (ℕ × XR) → ℕ} {r : Rng G XR}

/-- One iteration from the network `N` and the state `g` of the generator. -/
noncomputable def activityStep (o : MathOps XR) (pick : List (ℕ × XR) → ℕ) (r : Rng G XR) (s : Activity A XR G) (N : Network A XR) (g : G) : Res (Network A XR × G) :=
  (Activity.iteration o pick r { s with network := N, gen := g }).map fun t => (t.network, t.gen)

theorem activityStepper (hp : Reservoir.Pick.Valid pick) (ht : ∀ x, XR.IsFin (o.tanh (XR.fin x))) {s : Activity A XR G} (hs : s.Ready) (hf : FiniteSettings s.p)
    (hm : ∀ i, i < s.network.agents.length → 0 < contactsOf s.p i ∧ contactsOf s.p i < s.network.agents.length) :
    Stepper o pick r s s.network.agents.length (activityStep o pick r s) (rkAgents o s.p)
      (fun xs => xs.length = s.network.agents.length ∧ ∀ a ∈ xs, FiniteAgent a) where
  size xs h := h.1
  updates N h1 h2 h3 := updates_activity (o := o) (r := r) hp (s := { s with network := N })
    ⟨h1, h2, by show Activity.ContactsFit s.p N.agents.length; rw [h3.1]; exact hs.fit, hs.botOpinion, hs.probabilistic⟩
  moves := by
    intro N g M g' h1 h2 h3 h4 h5
    obtain ⟨t, e1, e2⟩ := map_eq_ok.mp h5
    obtain ⟨rfl, -⟩ := Prod.mk.inj e2
    have hlen := (Activity.iteration_frame e1).1.traits.length
    unfold Activity.iteration at e1
    obtain ⟨u, h6, e1⟩ := Res.bind_eq_ok.mp e1
    obtain ⟨l, h7, e1⟩ := Res.bind_eq_ok.mp e1
    obtain ⟨f1, f2, -⟩ := Activity.updateNetwork_frame h6
    dsimp only at f1 f2
    rw [f2] at h7
    obtain rfl := Except.ok.inj e1
    dsimp only at h4 hlen ⊢
    have hlu : l.length = u.network.agents.length := by rw [f1]; exact hlen
    rw [Activity.rkStep_eq o s.p (wf_resize hlu h4) (by rw [f1, h3.1]; exact hs.fit.bots) hs.botOpinion] at h7
    rw [← Except.ok.inj h7, ← f1]
    rfl
  length N := by simp [rkAgents]
  inv N h1 h2 := ⟨by simpa [rkAgents] using h2.1, rkAgents_fin ht hf h1 h2.2⟩
  same N M h1 h2 := relabelled_refl_eq (rkAgents_relabel (settings_refl _) (relabelled_of_eq h1) h2)
  numbers xs h := numbers_of_fin hf h.2
  contacts := hm

theorem update_congr {s u : Activity A XR G} (h0 : s.p.meanWeights = false) (hp : u.p = s.p) (hN : u.network = s.network) (hg : u.gen = s.gen) :
    (Activity.updateNetwork o pick r u).map (fun t => (t.network, t.gen)) = (Activity.updateNetwork o pick r s).map (fun t => (t.network, t.gen)) := by
  unfold Activity.updateNetwork
  rw [hp, if_pos h0, if_pos h0]
  unfold Activity.updateProbabilistic
  dsimp only
  rw [hp, hN, hg]
  cases loop s.network.nAgents (fun i t => Activity.activate o pick r s.p i t) ⟨s.network.switchDirectionFlag, [], [], s.gen⟩ with
  | error e => rfl
  | ok t =>
    rw [Res.bind_ok, Res.bind_ok]
    cases loop s.network.nAgents (fun i t' => Activity.reciprocate r s.p.reciprocity t.edges i t') (t.network, t.gen) with
    | error e => rfl
    | ok v =>
      rw [Res.bind_ok, Res.bind_ok]
      cases v.1.toggle with
      | error e => rfl
      | ok N => rfl

theorem activity_congr {s u : Activity A XR G} (h0 : s.p.meanWeights = false) (hp : u.p = s.p) (hN : u.network = s.network) (hg : u.gen = s.gen) :
    (Activity.iteration o pick r u).map (fun t => (t.network, t.gen)) = (Activity.iteration o pick r s).map (fun t => (t.network, t.gen)) := by
  have h := update_congr (o := o) (pick := pick) (r := r) (s := { s with counter := s.counter.tick }) (u := { u with counter := u.counter.tick }) h0 hp hN hg
  unfold Activity.iteration
  cases h1 : Activity.updateNetwork o pick r { u with counter := u.counter.tick } with
  | error e =>
    cases h2 : Activity.updateNetwork o pick r { s with counter := s.counter.tick } with
    | error e' => rw [h1, h2] at h; obtain rfl := Except.error.inj h; rfl
    | ok b => rw [h1, h2] at h; cases h
  | ok a =>
    cases h2 : Activity.updateNetwork o pick r { s with counter := s.counter.tick } with
    | error e' => rw [h1, h2] at h; cases h
    | ok b =>
      rw [h1, h2] at h
      obtain ⟨e1, e2⟩ := Prod.mk.inj (Except.ok.inj h)
      have e3 : a.p = b.p := (Activity.updateNetwork_frame h1).2.1.trans (hp.trans (Activity.updateNetwork_frame h2).2.1.symm)
      rw [Res.bind_ok, Res.bind_ok, e1, e3]
      cases Activity.rkStep o b.p b.network with
      | error e => rfl
      | ok l => show Except.ok _ = Except.ok _; rw [e2]

end

/-! ## the inertial model -/

section
variable {o : MathOps XR} {pick : List (ℕ × XR) → ℕ} {r : Rng G XR}

theorem moved_fin (ht : ∀ x, XR.IsFin (o.tanh (XR.fin x))) {p : ActivitySettings XR} (hp : FiniteSettings p) {c : XR} (hc : XR.IsFin c)
    {N : Network (InertialAgent XR) XR} (hN : Plain N) (ha : ∀ a ∈ N.agents, FiniteAgent a ∧ XR.IsFin a.velocity) (i : ℕ) {a : InertialAgent XR}
    (h : FiniteAgent a ∧ XR.IsFin a.velocity) : FiniteAgent (Inertial.moved o p c N i a) ∧ XR.IsFin (Inertial.moved o p c N i a).velocity := by
  have h0 : ∀ i, XR.IsFin (attr ActiveAgent.opinion N.agents i) := attr_fin fun a h => (ha a h).1.opinion
  have h1 := slope_fin (o := o) ht hp hN (fun a h => (ha a h).1) h0 i
  refine ⟨h.1.set (x := a.opinion + a.velocity * p.dt + 1 / ((2 : ℕ) : XR) * (Activity.slope o p N (attr ActiveAgent.opinion N.agents) i - c * a.velocity) * p.dt * p.dt) ?_,
    h.2⟩
  exact (XR.IsFin.add h.1.opinion (h.2.mul hp.dt)).add (((half_fin.mul (h1.sub (hc.mul h.2))).mul hp.dt).mul hp.dt)

theorem kicked_fin (ht : ∀ x, XR.IsFin (o.tanh (XR.fin x))) {p : ActivitySettings XR} (hp : FiniteSettings p) {c : XR} (hc : XR.IsFin c)
    (h0 : 1 + 1 / ((2 : ℕ) : XR) * c * p.dt ≠ 0) {N : Network (InertialAgent XR) XR} (hN : Plain N) (ha : ∀ a ∈ N.agents, FiniteAgent a ∧ XR.IsFin a.velocity)
    (i : ℕ) {a : InertialAgent XR} (h : FiniteAgent a ∧ XR.IsFin a.velocity) :
    FiniteAgent (Inertial.kicked o p c N i a) ∧ XR.IsFin (Inertial.kicked o p c N i a).velocity := by
  have hm := moved_fin ht hp hc hN ha
  have hop : ∀ i, XR.IsFin (attr ActiveAgent.opinion N.agents i) := attr_fin fun a h => (ha a h).1.opinion
  have h1 := slope_fin (o := o) ht hp hN (fun a h => (ha a h).1) hop i
  have hM : Plain (Inertial.movedNet o p c N) := hN.agents (by simp)
  have hMa : ∀ a ∈ (Inertial.movedNet o p c N).agents, FiniteAgent a := by
    intro b hb
    obtain ⟨j, hj, rfl⟩ := List.getElem_of_mem hb
    unfold Inertial.movedNet at hj ⊢
    dsimp only at hj ⊢
    rw [List.getElem_mapIdx]
    exact (hm j (ha _ (List.getElem_mem _))).1
  have h2 := slope_fin (o := o) ht hp hM hMa (attr_fin fun a h => (hMa a h).opinion) i
  refine ⟨⟨(hm i h).1.opinion, (hm i h).1.activity, (hm i h).1.reluctance⟩, ?_⟩
  exact (h.2.add ((half_fin.mul hp.dt).mul ((h1.sub (hc.mul h.2)).add h2))).div (XR.isFin_one.add ((half_fin.mul hc).mul hp.dt)) h0

theorem verletAgents_fin (ht : ∀ x, XR.IsFin (o.tanh (XR.fin x))) {p : ActivitySettings XR} (hp : FiniteSettings p) {c : XR} (hc : XR.IsFin c)
    (h0 : 1 + 1 / ((2 : ℕ) : XR) * c * p.dt ≠ 0) {N : Network (InertialAgent XR) XR} (hN : Plain N) (ha : ∀ a ∈ N.agents, FiniteAgent a ∧ XR.IsFin a.velocity) :
    ∀ a ∈ verletAgents o p c N, FiniteAgent a ∧ XR.IsFin a.velocity := by
  intro a h
  obtain ⟨i, hi, rfl⟩ := List.getElem_of_mem h
  unfold verletAgents at hi ⊢
  rw [List.getElem_mapIdx]
  have hi' : i < N.agents.length := by simpa using hi
  have h2 := kicked_fin ht hp hc h0 hN ha i (ha _ (List.getElem_mem hi'))
  split
  · exact ⟨h2.1.set (getD_fin hp.botOpinion i), h2.2⟩
  · exact h2

/-- One iteration from the network `N` and the state `g` of the generator. -/
noncomputable def inertialStep (o : MathOps XR) (pick : List (ℕ × XR) → ℕ) (r : Rng G XR) (s : Inertial XR G) (N : Network (InertialAgent XR) XR) (g : G) :
    Res (Network (InertialAgent XR) XR × G) :=
  (Inertial.iteration o pick r { s with base := { s.base with network := N, gen := g } }).map fun t => (t.base.network, t.base.gen)

theorem inertialStepper (hp : Reservoir.Pick.Valid pick) (ht : ∀ x, XR.IsFin (o.tanh (XR.fin x))) {s : Inertial XR G} (hs : s.base.Ready) (hf : FiniteSettings s.base.p)
    (hc : XR.IsFin s.friction) (h0 : 1 + 1 / ((2 : ℕ) : XR) * s.friction * s.base.p.dt ≠ 0)
    (hm : ∀ i, i < s.base.network.agents.length → 0 < contactsOf s.base.p i ∧ contactsOf s.base.p i < s.base.network.agents.length) :
    Stepper o pick r s.base s.base.network.agents.length (inertialStep o pick r s) (verletAgents o s.base.p s.friction)
      (fun xs => xs.length = s.base.network.agents.length ∧ ∀ a ∈ xs, FiniteAgent a ∧ XR.IsFin a.velocity) where
  size xs h := h.1
  updates N h1 h2 h3 := updates_inertial (o := o) (r := r) hp (s := { s with base := { s.base with network := N } })
    ⟨h1, h2, by show Activity.ContactsFit s.base.p N.agents.length; rw [h3.1]; exact hs.fit, hs.botOpinion, hs.probabilistic⟩
  moves := by
    intro N g M g' h1 h2 h3 h4 h5
    obtain ⟨t, e1, e2⟩ := map_eq_ok.mp h5
    obtain ⟨rfl, -⟩ := Prod.mk.inj e2
    have hlen := (Inertial.iteration_frame e1).1.traits.length
    unfold Inertial.iteration at e1
    obtain ⟨u, h6, e1⟩ := Res.bind_eq_ok.mp e1
    obtain ⟨l, h7, e1⟩ := Res.bind_eq_ok.mp e1
    obtain ⟨f1, f2, -⟩ := Activity.updateNetwork_frame h6
    dsimp only at f1 f2
    rw [f2] at h7
    obtain rfl := Except.ok.inj e1
    dsimp only at h4 hlen h7 ⊢
    have hlu : l.length = u.network.agents.length := by rw [f1]; exact hlen
    rw [Inertial.verletStep_eq o s.base.p s.friction (wf_resize hlu h4) (by rw [f1, h3.1]; exact hs.fit.bots) hs.botOpinion] at h7
    rw [← Except.ok.inj h7, ← f1]
    rfl
  length N := by simp [verletAgents]
  inv N h1 h2 := ⟨by simpa [verletAgents] using h2.1, verletAgents_fin ht hf hc h0 h1 h2.2⟩
  same N M h1 h2 := relabelled_refl_eq (verletAgents_relabel (settings_refl _) (relabelled_of_eq h1) h2)
  numbers xs h := numbers_of_fin hf fun a ha => (h.2 a ha).1
  contacts := hm

end

/-! ## histories of states and histories of networks -/

theorem inertial_congr {o : MathOps XR} {pick : List (ℕ × XR) → ℕ} {r : Rng G XR} {s u : Inertial XR G} (h0 : s.base.p.meanWeights = false)
    (hp : u.base.p = s.base.p) (hc : u.friction = s.friction) (hN : u.base.network = s.base.network) (hg : u.base.gen = s.base.gen) :
    (Inertial.iteration o pick r u).map (fun t => (t.base.network, t.base.gen)) = (Inertial.iteration o pick r s).map (fun t => (t.base.network, t.base.gen)) := by
  have h := update_congr (o := o) (pick := pick) (r := r) (s := { s.base with counter := s.base.counter.tick }) (u := { u.base with counter := u.base.counter.tick })
    h0 hp hN hg
  unfold Inertial.iteration
  cases h1 : Activity.updateNetwork o pick r { u.base with counter := u.base.counter.tick } with
  | error e =>
    cases h2 : Activity.updateNetwork o pick r { s.base with counter := s.base.counter.tick } with
    | error e' => rw [h1, h2] at h; obtain rfl := Except.error.inj h; rfl
    | ok b => rw [h1, h2] at h; cases h
  | ok a =>
    cases h2 : Activity.updateNetwork o pick r { s.base with counter := s.base.counter.tick } with
    | error e' => rw [h1, h2] at h; cases h
    | ok b =>
      rw [h1, h2] at h
      obtain ⟨e1, e2⟩ := Prod.mk.inj (Except.ok.inj h)
      have e3 : a.p = b.p := (Activity.updateNetwork_frame h1).2.1.trans (hp.trans (Activity.updateNetwork_frame h2).2.1.symm)
      rw [Res.bind_ok, Res.bind_ok, e1, e3, hc]
      cases Inertial.verletStep o b.p s.friction b.network with
      | error e => rfl
      | ok l => show Except.ok _ = Except.ok _; rw [e2]

theorem hasHistory_iff {S : Type} {iteration : S → Res S} {network : S → Network A XR} {gen : S → G} {step : Network A XR → G → Res (Network A XR × G)}
    {good : S → Prop} (hstep : ∀ u, good u → (iteration u).map (fun t => (network t, gen t)) = step (network u) (gen u))
    (hnext : ∀ u t, good u → iteration u = .ok t → good t) (n t : ℕ) : ∀ (ys : ℕ → List A) (R : ℕ → ℕ → ℕ → Prop) (u : S), good u →
      (HasHistory iteration network n u t ys R ↔ gen u ∈ Histories step n t ys R (network u)) := by
  induction t with
  | zero =>
    intro ys R u _
    exact ⟨fun _ => trivial, fun _ => ⟨fun _ => u, rfl, fun k hk => absurd hk (Nat.not_lt_zero k)⟩⟩
  | succ t ih =>
    intro ys R u hu
    constructor
    · rintro ⟨st, rfl, h⟩
      obtain ⟨h1, h2, h3⟩ := h 0 (Nat.succ_pos t)
      have hs := hstep _ hu
      rw [h1] at hs
      refine ⟨network (st 1), gen (st 1), hs.symm, h2, h3, ?_⟩
      refine (ih _ _ (st 1) (hnext _ _ hu h1)).mp ⟨fun k => st (k + 1), rfl, fun k hk => h (k + 1) (by omega)⟩
    · rintro ⟨M, g', h1, h2, h3, h4⟩
      rw [← hstep _ hu] at h1
      obtain ⟨v, h5, h6⟩ := map_eq_ok.mp h1
      obtain ⟨rfl, rfl⟩ := Prod.mk.inj h6
      obtain ⟨st, rfl, h⟩ := (ih _ _ v (hnext _ _ hu h5)).mpr h4
      refine ⟨fun k => Nat.casesOn k u st, rfl, fun k hk => ?_⟩
      cases k with
      | zero => exact ⟨h5, h2, h3⟩
      | succ k => exact h k (by omega)

end Seldon
