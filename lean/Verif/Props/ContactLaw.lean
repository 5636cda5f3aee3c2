import Verif.Lemmas.ContactPhase
/-!
# C71: the law of the random network of the activity-driven and inertial models

`outcomes n k` is the finite set of all possible outcomes of one update: for each of the `n` agents the list of the agents it contacts (nobody, or `k i`
different agents), and the list of the one-way contacts that are reciprocated (`mem_outcomes`).
-/
namespace Seldon
open Spec MeasureTheory
open scoped ENNReal
variable {A G : Type}

section
variable [ActiveAgent A XR] [MeasurableSpace G] {μ : Measure G} [IsProbabilityMeasure μ]
  {o : MathOps XR} {pick : List (ℕ × XR) → ℕ} {r : Rng G XR} {x a h : ℕ → ℝ} {q : ℝ} {c : ℕ → List ℕ}

omit [MeasurableSpace G] [ActiveAgent A XR] in
theorem map_eq_ok {α β : Type} {m : Res α} {f : α → β} {b : β} : m.map f = .ok b ↔ ∃ t, m = .ok t ∧ f t = b := by
  cases m with
  | error e => simp [Except.map]
  | ok t => simp [Except.map]

omit [MeasurableSpace G] in
theorem updates_activity [LawfulActiveAgent A XR] (hp : Reservoir.Pick.Valid pick) {s : Activity A XR G} (hs : Activity.Ready s) :
    Updates o pick r s fun g => (Activity.iteration o pick r { s with gen := g }).map fun t => (t.network, t.gen) := by
  intro g
  obtain ⟨gs, buf, contacts, t, e1, e2, e3⟩ := C43_activity (o := o) hp r (s := { s with gen := g }) ⟨hs.wf, hs.incoming, hs.fit, hs.botOpinion, hs.probabilistic⟩
  refine ⟨gs, buf, contacts, t.network, ?_, e2⟩
  refine map_eq_ok.mpr ⟨t, e1, ?_⟩
  rw [e3]

omit [MeasurableSpace G] in
theorem updates_inertial (hp : Reservoir.Pick.Valid pick) {s : Inertial XR G} (hs : Activity.Ready s.base) :
    Updates o pick r s.base fun g => (Inertial.iteration o pick r { s with base := { s.base with gen := g } }).map fun t => (t.base.network, t.base.gen) := by
  intro g
  obtain ⟨gs, buf, contacts, t, e1, e2, e3⟩ := C43_inertial (o := o) hp r (s := { s with base := { s.base with gen := g } })
    ⟨hs.wf, hs.incoming, hs.fit, hs.botOpinion, hs.probabilistic⟩
  refine ⟨gs, buf, contacts, t.base.network, ?_, e2⟩
  refine map_eq_ok.mpr ⟨t, e1, ?_⟩
  rw [e3]

/-- C71 (who contacts whom): with a generator that draws independent uniform numbers, in one iteration of the activity-driven model each agent is activated
with the probability `activity` (cut off at 0 and 1), an activated agent contacts `m` agents drawn without replacement with the weights
`max( |x_i - x_j|, 1e-10 )^(-homophily)`, each contact that is not mutual is reciprocated with the probability `reciprocity`, all this independently of each
other; and the state in which the generator is left is fresh, so that the next iteration is independent of this one given the opinions. -/
theorem C71_contacts [LawfulActiveAgent A XR] (hr : DrawsUniform r μ) (hp : Reservoir.Pick.Min pick) (ho : o.toOps = XR.ops) {s : Activity A XR G}
    (hs : Activity.Ready s) (hn : Numbers s.p s.network.agents x a h q)
    (hm : ∀ i, i < s.network.agents.length → 0 < contactsOf s.p i ∧ contactsOf s.p i < s.network.agents.length)
    (hc : ∀ i, i < s.network.agents.length → Choice s.network.agents.length (contactsOf s.p i).toNat (c i)) {kept : List (ℕ × ℕ)}
    (hk : kept.Sublist (oneWay s.network.agents.length c)) {T : Set G} (hT : MeasurableSet T) :
    μ {g | ∃ (gs : ℕ → G) (buf contacts : ℕ → List ℕ) (t : Activity A XR G), Activity.iteration o pick r { s with gen := g } = .ok t ∧
      FromContacts o pick r s.p s.network.agents g t.network gs buf contacts ∧ (∀ i, i < s.network.agents.length → contacts i = c i) ∧
      (keep r s.p.reciprocity (oneWay s.network.agents.length contacts) (gs s.network.agents.length)).1 = kept ∧ t.gen ∈ T} =
    ENNReal.ofReal ((∏ i ∈ Finset.range s.network.agents.length, contactLaw (a i) (contactWeight (h i) x i) s.network.agents.length (c i)) *
        keepLaw q (oneWay s.network.agents.length c) kept) * μ T := by
  rw [← (happens_law hr hp ho (updates_activity ⟨hp.lt⟩ hs) hn hm hc hk hT).2]
  congr 1
  ext g
  constructor
  · rintro ⟨gs, buf, contacts, t, e1, e2, e3, e4, e5⟩
    exact ⟨gs, buf, contacts, t.network, t.gen, map_eq_ok.mpr ⟨t, e1, rfl⟩, e2, e3, e4, e5⟩
  · rintro ⟨gs, buf, contacts, N, g', e1, e2, e3, e4, e5⟩
    obtain ⟨t, e6, e7⟩ := map_eq_ok.mp e1
    obtain ⟨rfl, rfl⟩ := Prod.mk.inj e7
    exact ⟨gs, buf, contacts, t, e6, e2, e3, e4, e5⟩

/-- C71 (inertial model): the same. -/
theorem C71_contacts_inertial (hr : DrawsUniform r μ) (hp : Reservoir.Pick.Min pick) (ho : o.toOps = XR.ops) {s : Inertial XR G}
    (hs : Activity.Ready s.base) (hn : Numbers s.base.p s.base.network.agents x a h q)
    (hm : ∀ i, i < s.base.network.agents.length → 0 < contactsOf s.base.p i ∧ contactsOf s.base.p i < s.base.network.agents.length)
    (hc : ∀ i, i < s.base.network.agents.length → Choice s.base.network.agents.length (contactsOf s.base.p i).toNat (c i)) {kept : List (ℕ × ℕ)}
    (hk : kept.Sublist (oneWay s.base.network.agents.length c)) {T : Set G} (hT : MeasurableSet T) :
    μ {g | ∃ (gs : ℕ → G) (buf contacts : ℕ → List ℕ) (t : Inertial XR G),
      Inertial.iteration o pick r { s with base := { s.base with gen := g } } = .ok t ∧
      FromContacts o pick r s.base.p s.base.network.agents g t.base.network gs buf contacts ∧ (∀ i, i < s.base.network.agents.length → contacts i = c i) ∧
      (keep r s.base.p.reciprocity (oneWay s.base.network.agents.length contacts) (gs s.base.network.agents.length)).1 = kept ∧ t.base.gen ∈ T} =
    ENNReal.ofReal ((∏ i ∈ Finset.range s.base.network.agents.length, contactLaw (a i) (contactWeight (h i) x i) s.base.network.agents.length (c i)) *
        keepLaw q (oneWay s.base.network.agents.length c) kept) * μ T := by
  rw [← (happens_law hr hp ho (updates_inertial ⟨hp.lt⟩ hs) hn hm hc hk hT).2]
  congr 1
  ext g
  constructor
  · rintro ⟨gs, buf, contacts, t, e1, e2, e3, e4, e5⟩
    exact ⟨gs, buf, contacts, t.base.network, t.base.gen, map_eq_ok.mpr ⟨t, e1, rfl⟩, e2, e3, e4, e5⟩
  · rintro ⟨gs, buf, contacts, N, g', e1, e2, e3, e4, e5⟩
    obtain ⟨t, e6, e7⟩ := map_eq_ok.mp e1
    obtain ⟨rfl, rfl⟩ := Prod.mk.inj e7
    exact ⟨gs, buf, contacts, t, e6, e2, e3, e4, e5⟩

open scoped Classical in
/-- C71 (the network): the probability that, after one iteration, exactly the agents with `R i j` have the edge from `i` to `j` is the sum of the
probabilities of all contacts and reciprocations that give this network. -/
theorem C71_network [LawfulActiveAgent A XR] (hr : DrawsUniform r μ) (hp : Reservoir.Pick.Min pick) (ho : o.toOps = XR.ops) {s : Activity A XR G}
    (hs : Activity.Ready s) (hn : Numbers s.p s.network.agents x a h q)
    (hm : ∀ i, i < s.network.agents.length → 0 < contactsOf s.p i ∧ contactsOf s.p i < s.network.agents.length)
    (R : Fin s.network.agents.length → Fin s.network.agents.length → Prop) {T : Set G} (hT : MeasurableSet T) :
    μ {g | ∃ t, Activity.iteration o pick r { s with gen := g } = .ok t ∧
      (∀ i j : Fin s.network.agents.length, (i : ℕ) ∈ (row t.network j).map (·.1) ↔ R i j) ∧ t.gen ∈ T} =
    (∑ z ∈ outcomes s.network.agents.length (fun i => (contactsOf s.p i).toNat) with
        ∀ i j : Fin s.network.agents.length, ((j : ℕ) ∈ z.1 i ∨ ((j : ℕ), (i : ℕ)) ∈ z.2) ↔ R i j,
      ENNReal.ofReal ((∏ i : Fin s.network.agents.length, contactLaw (a i) (contactWeight (h i) x i) s.network.agents.length (z.1 i)) *
        keepLaw q (oneWay s.network.agents.length (fromFin z.1)) z.2)) * μ T := by
  refine (event_law (P := fun c kept => ∀ i j : Fin s.network.agents.length, ((j : ℕ) ∈ c i ∨ ((j : ℕ), (i : ℕ)) ∈ kept) ↔ R i j) hr hp ho
    (updates_activity ⟨hp.lt⟩ hs) hn hm hT ?_).2
  intro g gs buf contacts N g' kept e1 e2 e3
  obtain ⟨t, e4, e5⟩ := map_eq_ok.mp e1
  obtain ⟨rfl, rfl⟩ := Prod.mk.inj e5
  have hedges : ∀ i j : Fin s.network.agents.length, (i : ℕ) ∈ (row t.network j).map (·.1) ↔ ((j : ℕ) ∈ contacts i ∨ ((j : ℕ), (i : ℕ)) ∈ kept) := by
    intro i j
    rw [e2.edges i j i.2 j.2, e3]
  constructor
  · rintro ⟨t', h1, h2, h3⟩
    rw [e4] at h1
    obtain rfl := Except.ok.inj h1
    exact ⟨fun i j => (hedges i j).symm.trans (h2 i j), h3⟩
  · rintro ⟨h2, h3⟩
    exact ⟨t, e4, fun i j => (hedges i j).trans (h2 i j), h3⟩

/-- C71 (independence): what different agents contact is independent of each other. -/
theorem C71_independent [LawfulActiveAgent A XR] (hr : DrawsUniform r μ) (hp : Reservoir.Pick.Min pick) (ho : o.toOps = XR.ops) {s : Activity A XR G}
    (hs : Activity.Ready s) (hn : Numbers s.p s.network.agents x a h q)
    (hm : ∀ i, i < s.network.agents.length → 0 < contactsOf s.p i ∧ contactsOf s.p i < s.network.agents.length)
    (B : Fin s.network.agents.length → Set (List ℕ)) [∀ i, DecidablePred (· ∈ B i)] :
    μ {g | ∃ (gs : ℕ → G) (buf contacts : ℕ → List ℕ) (t : Activity A XR G), Activity.iteration o pick r { s with gen := g } = .ok t ∧
      FromContacts o pick r s.p s.network.agents g t.network gs buf contacts ∧ ∀ i : Fin s.network.agents.length, contacts i ∈ B i} =
    ∏ i : Fin s.network.agents.length, ENNReal.ofReal
      (∑ b ∈ choices s.network.agents.length (contactsOf s.p i).toNat with b ∈ B i, contactLaw (a i) (contactWeight (h i) x i) s.network.agents.length b) := by
  have hset : {g | ∃ (gs : ℕ → G) (buf contacts : ℕ → List ℕ) (t : Activity A XR G), Activity.iteration o pick r { s with gen := g } = .ok t ∧
      FromContacts o pick r s.p s.network.agents g t.network gs buf contacts ∧ ∀ i : Fin s.network.agents.length, contacts i ∈ B i} =
      ⋃ d ∈ Fintype.piFinset fun i : Fin s.network.agents.length => (choices s.network.agents.length (contactsOf s.p i).toNat).filter (fun b => b ∈ B i),
        Leads o pick r s.p s.network.agents (fromFin d) Set.univ := by
    ext g
    rw [Set.mem_iUnion₂]
    obtain ⟨gs, buf, contacts, N, g', kept, e1, e2, e3, e4, e5⟩ := happens_exists (⟨hp.lt⟩ : Reservoir.Pick.Valid pick) (updates_activity (o := o) (r := r) ⟨hp.lt⟩ hs) hm g
    obtain ⟨t, e6, e7⟩ := map_eq_ok.mp e1
    obtain ⟨rfl, rfl⟩ := Prod.mk.inj e7
    constructor
    · rintro ⟨gs', buf', contacts', t', h1, h2, h3⟩
      obtain ⟨u1, u2⟩ := phase_unique e2.phase h2.phase (e2.start.trans h2.start.symm)
      refine ⟨fun i => contacts i, Fintype.mem_piFinset.mpr fun i => Finset.mem_filter.mpr ⟨mem_choices.mpr (e4 i i.2), ?_⟩, gs, buf, contacts, e2.start,
        e2.phase, fun i hi => by simp [fromFin, hi], trivial⟩
      rw [u2 i i.2]
      exact h3 i
    · rintro ⟨d, hd, gs', buf', contacts', h1, h2, h3, -⟩
      obtain ⟨u1, u2⟩ := phase_unique e2.phase h2 (e2.start.trans h1.symm)
      refine ⟨gs, buf, contacts, t, e6, e2, fun i => ?_⟩
      rw [u2 i i.2, h3 i i.2]
      have := (Finset.mem_filter.mp (Fintype.mem_piFinset.mp hd i)).2
      simpa [fromFin] using this
  have hlaw : ∀ d ∈ Fintype.piFinset fun i : Fin s.network.agents.length =>
      (choices s.network.agents.length (contactsOf s.p i).toNat).filter (fun b => b ∈ B i), _ := fun d hd =>
    contacts_law (c := fromFin d) (T := Set.univ) hr hp ho hn hm (fun i hi => by
      have := mem_choices.mp (Finset.mem_filter.mp (Fintype.mem_piFinset.mp hd ⟨i, hi⟩)).1
      simpa [fromFin, hi] using this) MeasurableSet.univ
  rw [hset, measure_biUnion_finset₀]
  · rw [Finset.sum_congr rfl fun d hd => (hlaw d hd).2]
    rw [← ENNReal.ofReal_prod_of_nonneg fun i _ => Finset.sum_nonneg fun b _ => contactLaw_nonneg _ _ _ _ _, Finset.prod_univ_sum,
      ENNReal.ofReal_sum_of_nonneg fun d _ => Finset.prod_nonneg fun i _ => contactLaw_nonneg _ _ _ _ _]
    refine Finset.sum_congr rfl fun d _ => ?_
    rw [measure_univ, mul_one, Finset.prod_range]
    simp only [fromFin, Fin.is_lt, dif_pos, Fin.eta]
  · intro d _ d' _ hne
    refine Disjoint.aedisjoint (Set.disjoint_left.mpr ?_)
    rintro g ⟨gs, buf, contacts, h1, h2, h3, -⟩ ⟨gs', buf', contacts', h1', h2', h3', -⟩
    obtain ⟨u1, u2⟩ := phase_unique h2 h2' (h1.trans h1'.symm)
    refine hne (funext fun i => ?_)
    have := (h3 i i.2).symm.trans ((u2 i i.2).trans (h3' i i.2))
    simpa [fromFin] using this
  · exact fun d hd => (hlaw d hd).1

/-- C71 (one agent): its contacts, without regard to the others. -/
theorem C71_agent [LawfulActiveAgent A XR] (hr : DrawsUniform r μ) (hp : Reservoir.Pick.Min pick) (ho : o.toOps = XR.ops) {s : Activity A XR G}
    (hs : Activity.Ready s) (hn : Numbers s.p s.network.agents x a h q)
    (hm : ∀ i, i < s.network.agents.length → 0 < contactsOf s.p i ∧ contactsOf s.p i < s.network.agents.length) {i : ℕ} (hi : i < s.network.agents.length)
    (B : Set (List ℕ)) [DecidablePred (· ∈ B)] :
    μ {g | ∃ (gs : ℕ → G) (buf contacts : ℕ → List ℕ) (t : Activity A XR G), Activity.iteration o pick r { s with gen := g } = .ok t ∧
      FromContacts o pick r s.p s.network.agents g t.network gs buf contacts ∧ contacts i ∈ B} =
    ENNReal.ofReal (∑ b ∈ choices s.network.agents.length (contactsOf s.p i).toNat with b ∈ B,
      contactLaw (a i) (contactWeight (h i) x i) s.network.agents.length b) := by
  classical
  have := C71_independent hr hp ho hs hn hm (fun j => if (j : ℕ) = i then B else Set.univ)
  rw [Finset.prod_eq_single ⟨i, hi⟩] at this
  · simp only [if_true] at this
    refine Eq.trans ?_ (this.trans (by congr))
    congr 1
    ext g
    constructor
    · rintro ⟨gs, buf, contacts, t, e1, e2, e3⟩
      refine ⟨gs, buf, contacts, t, e1, e2, fun j => ?_⟩
      split
      · rename_i e; rw [e]; exact e3
      · trivial
    · rintro ⟨gs, buf, contacts, t, e1, e2, e3⟩
      exact ⟨gs, buf, contacts, t, e1, e2, by simpa using e3 ⟨i, hi⟩⟩
  · intro j _ hj
    have hj' : (j : ℕ) ≠ i := fun e => hj (Fin.ext e)
    simp only [hj', if_false, Set.mem_univ, Finset.filter_true]
    have hmj := hm j j.2
    rw [contactLaw_total (a j) (h j) j.2 (by omega) (by omega), ENNReal.ofReal_one]
  · simp

/-- C71: an agent is activated with the probability `activity`. -/
theorem C71_activated [LawfulActiveAgent A XR] (hr : DrawsUniform r μ) (hp : Reservoir.Pick.Min pick) (ho : o.toOps = XR.ops) {s : Activity A XR G}
    (hs : Activity.Ready s) (hn : Numbers s.p s.network.agents x a h q)
    (hm : ∀ i, i < s.network.agents.length → 0 < contactsOf s.p i ∧ contactsOf s.p i < s.network.agents.length) {i : ℕ} (hi : i < s.network.agents.length) :
    μ {g | ∃ (gs : ℕ → G) (buf contacts : ℕ → List ℕ) (t : Activity A XR G), Activity.iteration o pick r { s with gen := g } = .ok t ∧
      FromContacts o pick r s.p s.network.agents g t.network gs buf contacts ∧ contacts i ≠ []} = ENNReal.ofReal (clip (a i)) := by
  classical
  have e := C71_agent hr hp ho hs hn hm hi {b | b ≠ []}
  simp only [Set.mem_ofPred_eq] at e
  rw [e]
  congr 1
  have h1 := contactLaw_total (x := x) (a i) (h i) hi (k := (contactsOf s.p i).toNat) (by have := hm i hi; omega) (by have := hm i hi; omega)
  rw [← Finset.sum_filter_add_sum_filter_not _ (fun b => b ≠ [])] at h1
  have h2 : ∑ b ∈ choices s.network.agents.length (contactsOf s.p i).toNat with ¬ b ≠ [],
      contactLaw (a i) (contactWeight (h i) x i) s.network.agents.length b = 1 - clip (a i) := by
    have : (choices s.network.agents.length (contactsOf s.p i).toNat).filter (fun b => ¬ b ≠ []) = {[]} := by
      ext b
      rw [Finset.mem_filter, Finset.mem_singleton, not_not]
      exact ⟨fun h => h.2, fun h => ⟨mem_choices.mpr (Or.inl h), h⟩⟩
    rw [this, Finset.sum_singleton, contactLaw, if_pos rfl]
  rw [h2] at h1
  linarith

/-- C71 (`m = 1`): an agent contacts another one with a probability proportional to the weight. -/
theorem C71_single [LawfulActiveAgent A XR] (hr : DrawsUniform r μ) (hp : Reservoir.Pick.Min pick) (ho : o.toOps = XR.ops) {s : Activity A XR G}
    (hs : Activity.Ready s) (hn : Numbers s.p s.network.agents x a h q)
    (hm : ∀ i, i < s.network.agents.length → 0 < contactsOf s.p i ∧ contactsOf s.p i < s.network.agents.length) {i j : ℕ} (hi : i < s.network.agents.length)
    (hj : j < s.network.agents.length) (h1 : contactsOf s.p i = 1) :
    μ {g | ∃ (gs : ℕ → G) (buf contacts : ℕ → List ℕ) (t : Activity A XR G), Activity.iteration o pick r { s with gen := g } = .ok t ∧
      FromContacts o pick r s.p s.network.agents g t.network gs buf contacts ∧ contacts i = [j]} =
    ENNReal.ofReal (clip (a i) * (contactWeight (h i) x i j / ∑ k ∈ Finset.range s.network.agents.length, contactWeight (h i) x i k)) := by
  classical
  have e := C71_agent hr hp ho hs hn hm hi {[j]}
  simp only [Set.mem_singleton_iff] at e
  rw [e]
  congr 1
  have : (choices s.network.agents.length (contactsOf s.p i).toNat).filter (fun b => b = [j]) = {[j]} := by
    ext b
    rw [Finset.mem_filter, Finset.mem_singleton]
    exact ⟨fun h => h.2, fun h => ⟨mem_choices.mpr (Or.inr ⟨by rw [h, h1]; rfl, by rw [h]; simp, by rw [h]; simpa using hj⟩), h⟩⟩
  rw [Finset.sum_congr (by convert this using 1) fun _ _ => rfl, Finset.sum_singleton, contactLaw, if_neg (by simp)]
  simp [successive, hj]

/-- C71: almost surely nobody contacts itself. -/
theorem C71_no_self [LawfulActiveAgent A XR] (hr : DrawsUniform r μ) (hp : Reservoir.Pick.Min pick) (ho : o.toOps = XR.ops) {s : Activity A XR G}
    (hs : Activity.Ready s) (hn : Numbers s.p s.network.agents x a h q)
    (hm : ∀ i, i < s.network.agents.length → 0 < contactsOf s.p i ∧ contactsOf s.p i < s.network.agents.length) :
    ∀ᵐ g ∂μ, ∃ (gs : ℕ → G) (buf contacts : ℕ → List ℕ) (t : Activity A XR G), Activity.iteration o pick r { s with gen := g } = .ok t ∧
      FromContacts o pick r s.p s.network.agents g t.network gs buf contacts ∧ ∀ i, i < s.network.agents.length → i ∉ contacts i := by
  classical
  have hzero : ∀ (w : ℕ → ℝ) (t : List ℕ) (S : Finset ℕ) (i : ℕ), i ∈ t → w i = 0 → successive w S t = 0 := by
    intro w t
    induction t with
    | nil => intro S i hi; simp at hi
    | cons b t ih =>
      intro S i hi h0
      unfold successive
      split
      · rcases List.mem_cons.mp hi with rfl | hi
        · rw [h0]; simp
        · rw [ih _ i hi h0, mul_zero]
      · rfl
  have hnull : ∀ i, i < s.network.agents.length → ∀ᵐ g ∂μ, g ∉ {g | ∃ (gs : ℕ → G) (buf contacts : ℕ → List ℕ) (t : Activity A XR G),
      Activity.iteration o pick r { s with gen := g } = .ok t ∧
      FromContacts o pick r s.p s.network.agents g t.network gs buf contacts ∧ contacts i ∈ {b : List ℕ | i ∈ b}} := by
    intro i hi
    refine measure_eq_zero_iff_ae_notMem.mp ?_
    rw [C71_agent hr hp ho hs hn hm hi {b | i ∈ b}, Finset.sum_eq_zero, ENNReal.ofReal_zero]
    intro b hb
    have hib : i ∈ b := (Finset.mem_filter.mp hb).2
    rw [contactLaw, if_neg (List.ne_nil_of_mem hib), hzero _ _ _ i (List.mem_reverse.mpr hib) contactWeight_self, mul_zero]
  have hall : ∀ᵐ g ∂μ, ∀ i ∈ Finset.range s.network.agents.length, g ∉ {g | ∃ (gs : ℕ → G) (buf contacts : ℕ → List ℕ) (t : Activity A XR G),
      Activity.iteration o pick r { s with gen := g } = .ok t ∧
      FromContacts o pick r s.p s.network.agents g t.network gs buf contacts ∧ contacts i ∈ {b : List ℕ | i ∈ b}} := by
    rw [Filter.eventually_all_finset]
    exact fun i hi => hnull i (Finset.mem_range.mp hi)
  filter_upwards [hall] with g hg
  obtain ⟨gs, buf, contacts, N, g', kept, e1, e2, -⟩ := happens_exists (⟨hp.lt⟩ : Reservoir.Pick.Valid pick) (updates_activity (o := o) (r := r) ⟨hp.lt⟩ hs) hm g
  obtain ⟨t, e6, e7⟩ := map_eq_ok.mp e1
  obtain ⟨rfl, rfl⟩ := Prod.mk.inj e7
  exact ⟨gs, buf, contacts, t, e6, e2, fun i hi hmem => hg i (Finset.mem_range.mpr hi) ⟨gs, buf, contacts, t, e6, e2, hmem⟩⟩

end

/-! ## non-vacuity -/

/-- Elementary functions; the sampling uses only `pow` and `log`. -/
noncomputable def xrOps : MathOps XR := { XR.ops with tanh := id, powNat := fun x _ => x, erf := id, erfinv := id, sqrt := XR.sqrt, exp := id, pi := XR.fin Real.pi }

/-- Three agents with the opinions 0, 1 and 2 and activity 1/2, homophily 1, one contact each, reciprocity 1/2. -/
noncomputable def xrSample : Activity (ActivityAgent XR) XR (ℕ → ℝ) where
  counter := ⟨none, 0⟩
  p := { maxIterations := none, dt := 0, m := 1, eps := 1, gamma := 1, alpha := 1, homophily := XR.fin 1, reciprocity := XR.fin (1 / 2), K := 1,
         meanActivities := false, meanWeights := false, nBots := 0, botM := [], botActivity := [], botOpinion := [], botHomophily := [],
         useReluctances := false, reluctanceMean := 1, reluctanceSigma := 1, reluctanceEps := 1, covarianceFactor := 0 }
  network := ⟨[⟨XR.fin 0, XR.fin (1 / 2), 1⟩, ⟨XR.fin 1, XR.fin (1 / 2), 1⟩, ⟨XR.fin 2, XR.fin (1 / 2), 1⟩], [[], [], []], [[], [], []], .incoming⟩
  contactProb := [[], [], []]
  gen := 0

theorem xrSample_contacts (i : ℕ) : contactsOf xrSample.p i = 1 := rfl

theorem xrSample_ready : Activity.Ready xrSample where
  wf := ⟨rfl, rfl, by
    intro k h1 h2
    have : k < 3 := h1
    interval_cases k <;> rfl, by
    intro row hrow j hj
    have : row = [] := by
      have : row ∈ ([[], [], []] : List (List ℕ)) := hrow
      simpa using this
    rw [this] at hj
    simp at hj⟩
  incoming := rfl
  fit := ⟨by show 3 < _; norm_num, Nat.zero_le _, Nat.zero_le _, Nat.zero_le _, fun i _ => by rw [xrSample_contacts]; norm_num,
    fun i _ => by rw [xrSample_contacts]; show (1 : ℤ) ≤ (3 : ℕ); norm_num⟩
  botOpinion := Nat.zero_le _
  probabilistic := rfl

theorem xrSample_numbers : Numbers xrSample.p xrSample.network.agents (fun i => i) (fun _ => 1 / 2) (fun _ => 1) (1 / 2) where
  opinion := by
    intro i hi
    have : i < 3 := hi
    interval_cases i
    · show XR.fin 0 = XR.fin ((0 : ℕ) : ℝ); norm_num
    · show XR.fin 1 = XR.fin ((1 : ℕ) : ℝ); norm_num
    · show XR.fin 2 = XR.fin ((2 : ℕ) : ℝ); norm_num
  activity := by
    intro i hi
    have : i < 3 := hi
    interval_cases i <;> rfl
  homophily := fun i _ => rfl
  reciprocity := rfl

/-- Agent 0 contacts agent 1 with probability 1/2 · 2/3 = 1/3: it is activated with probability 1/2, and the weights are 1 and 1/2. -/
example : tapes {g | ∃ (gs : ℕ → ℕ → ℝ) (buf contacts : ℕ → List ℕ) (t : Activity (ActivityAgent XR) XR (ℕ → ℝ)),
    Activity.iteration xrOps exPick tapeRng { xrSample with gen := g } = .ok t ∧
    FromContacts xrOps exPick tapeRng xrSample.p xrSample.network.agents g t.network gs buf contacts ∧ contacts 0 = [1]} = ENNReal.ofReal (1 / 3) := by
  rw [C71_single tapeRng_uniform exPick_min rfl xrSample_ready xrSample_numbers
    (fun i hi => by rw [xrSample_contacts]; show (0 : ℤ) < 1 ∧ (1 : ℤ) < (3 : ℕ); norm_num) (i := 0) (j := 1) (by show 0 < 3; norm_num)
    (by show 1 < 3; norm_num) (xrSample_contacts 0)]
  have hlen : xrSample.network.agents.length = 3 := rfl
  rw [hlen]
  congr 1
  have h1 : contactWeight 1 (fun i : ℕ => (i : ℝ)) 0 1 = 1 := by norm_num [contactWeight]
  have h2 : contactWeight 1 (fun i : ℕ => (i : ℝ)) 0 2 = 1 / 2 := by norm_num [contactWeight, Real.rpow_neg]
  rw [Finset.sum_range_succ, Finset.sum_range_succ, Finset.sum_range_one, h1, h2, contactWeight_self]
  norm_num [clip]

end Seldon
