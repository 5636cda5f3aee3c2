import Verif.Lemmas.ActivityNetwork
import Verif.Lemmas.ActivityFrame
import Verif.Lemmas.Verlet
import Verif.Props.Simulation
import Verif.Props.Sampling
import Verif.Props.NetworkGen
/-!
# Properties C42–C45 (activity-driven and inertial models: bots, network update) and C51 for these models
-/
set_option linter.unusedSectionVars false
namespace Seldon
open Spec
variable {A F G : Type}

section
variable [ActiveAgent A F] [Zero F] [One F] [Sub F] [Mul F] [Add F] [Div F] [Neg F] [NatCast F] [LT F] [LE F] [DecidableLT F] [DecidableLE F]

/-! ## C42 -/

/-- C42 (activity-driven): after any number of iterations all agents have the activities and reluctances they started with, the
parameters are unchanged, and after at least one iteration each of the first `n_bots` agents has exactly its `bot_opinion`.  No
assumption on the state: this holds whenever the iterations do not fail. -/
theorem C42_activity [LawfulActiveAgent A F] {o : MathOps F} {pick : List (Nat × F) → Nat} {r : Rng G F} {s t : Activity A F G} {k : Nat}
    (h : Iterates (Activity.iteration o pick r) s k t) :
    t.network.agents.map ActiveAgent.activity = s.network.agents.map ActiveAgent.activity ∧
    t.network.agents.map ActiveAgent.reluctance = s.network.agents.map ActiveAgent.reluctance ∧ t.p = s.p ∧
    (0 < k → ∀ i, i < s.p.nBots → ∃ a, t.network.agents[i]? = some a ∧ s.p.botOpinion[i]? = some (ActiveAgent.opinion a)) := by
  induction h with
  | zero => exact ⟨rfl, rfl, rfl, fun h => absurd h (by omega)⟩
  | succ _ h' ih =>
    obtain ⟨hB, hp, -⟩ := Activity.iteration_frame h'
    obtain ⟨i1, i2, i3, -⟩ := ih
    refine ⟨hB.traits.1.trans i1, hB.traits.2.trans i2, hp.trans i3, fun _ => ?_⟩
    have := hB.bots
    rw [i3] at this
    exact this

/-- C42 (inertial). -/
theorem C42_inertial {o : MathOps F} {pick : List (Nat × F) → Nat} {r : Rng G F} {s t : Inertial F G} {k : Nat}
    (h : Iterates (Inertial.iteration o pick r) s k t) :
    t.base.network.agents.map (·.activity) = s.base.network.agents.map (·.activity) ∧
    t.base.network.agents.map (·.reluctance) = s.base.network.agents.map (·.reluctance) ∧ t.base.p = s.base.p ∧ t.friction = s.friction ∧
    (0 < k → ∀ i, i < s.base.p.nBots → ∃ a, t.base.network.agents[i]? = some a ∧ s.base.p.botOpinion[i]? = some a.opinion) := by
  induction h with
  | zero => exact ⟨rfl, rfl, rfl, rfl, fun h => absurd h (by omega)⟩
  | succ _ h' ih =>
    obtain ⟨hB, hp, -, hf⟩ := Inertial.iteration_frame h'
    obtain ⟨i1, i2, i3, i4, -⟩ := ih
    refine ⟨hB.traits.1.trans i1, hB.traits.2.trans i2, hp.trans i3, hf.trans i4, fun _ => ?_⟩
    have := hB.bots
    rw [i3] at this
    exact this

/-! ## C43 -/

/-- A state in which the probabilistic update can take place: well-formed network of incoming edges, bot vectors long enough,
numbers of contacts between 0 and the number of agents. -/
structure Activity.Ready (s : Activity A F G) : Prop where
  wf : WF s.network
  incoming : s.network.direction = .incoming
  fit : Activity.ContactsFit s.p s.network.agents.length
  botOpinion : s.p.nBots ≤ s.p.botOpinion.length
  probabilistic : s.p.meanWeights = false

/-- The network `N` is what the contact phase described by `gs`, `buf`, `contacts` leads to. -/
structure FromContacts (o : MathOps F) (pick : List (Nat × F) → Nat) (r : Rng G F) (p : ActivitySettings F) (agents : List A) (g : G)
    (N : Network A F) (gs : Nat → G) (buf contacts : Nat → List Nat) : Prop where
  /-- the contact phase starts with generator state `g` -/
  start : gs 0 = g
  /-- who contacts whom is decided as specified -/
  phase : ContactPhase o pick r p agents gs buf contacts
  wf : WF N
  incoming : N.direction = .incoming
  /-- all weights are 1 -/
  ones : ∀ i, ∀ e ∈ row N i, e.2 = 1
  /-- no duplicate edges -/
  nodup : ∀ i, ((row N i).map (·.1)).Nodup
  /-- `j` listens to `i` iff `i` contacted `j`, or `j` contacted `i`, this was not mutual and it was reciprocated: the random number
  drawn for it was below `reciprocity` -/
  edges : ∀ i j, i < agents.length → j < agents.length → (i ∈ (row N j).map (·.1) ↔
    j ∈ contacts i ∨ (j, i) ∈ (keep r p.reciprocity (oneWay agents.length contacts) (gs agents.length)).1)

theorem Activity.update_spec {o : MathOps F} {pick : List (Nat × F) → Nat} (hp : Reservoir.Pick.Valid pick) (r : Rng G F)
    {s : Activity A F G} (h : Activity.Ready s) :
    ∃ (gs : Nat → G) (buf contacts : Nat → List Nat) (t : Activity A F G), Activity.updateNetwork o pick r s = .ok t ∧
      FromContacts o pick r s.p s.network.agents s.gen t.network gs buf contacts ∧ t.network.agents = s.network.agents ∧
      t.gen = (keep r s.p.reciprocity (oneWay s.network.agents.length contacts) (gs s.network.agents.length)).2 := by
  obtain ⟨gs, buf, contacts, h0, h1, h2, h3, M, e1, e2, hM, e3, e4, e5⟩ := Activity.updateProbabilistic_eq (o := o) hp r h.wf h.fit
  refine ⟨gs, buf, contacts, _, (by unfold Activity.updateNetwork; rw [if_pos h.probabilistic, e5]), ?_, ?_, rfl⟩
  · have hn : M.agents.length = s.network.agents.length := by rw [e1]
    have hrow : ∀ j, j < s.network.agents.length → (row M j).map (·.1) =
        Activity.outRow contacts (keep r s.p.reciprocity (oneWay s.network.agents.length contacts) (gs s.network.agents.length)).1 j := by
      intro j hj
      rw [NetLemmas.row_fst hM (by rw [e1]; exact hj), e3, NetLemmas.getD_map_range _ _ hj]
    have hones : ∀ j, j < s.network.agents.length → ∀ e ∈ row M j, e.2 = 1 := by
      intro j hj e he
      have : e.2 ∈ (row M j).map (·.2) := List.mem_map_of_mem he
      rw [NetLemmas.row_snd hM (by rw [e1]; exact hj), e4, NetLemmas.getD_map_range _ _ hj] at this
      exact (List.mem_replicate.mp this).2
    have hmem : ∀ i j, j < s.network.agents.length → (i ∈ (row (NetLemmas.toggled M) j).map (·.1) ↔
        i < s.network.agents.length ∧ j ∈ (row M i).map (·.1)) := by
      intro i j hj
      rw [NetLemmas.row_toggled (by rw [e1]; exact hj)]
      simp only [NetLemmas.entries, List.mem_map, List.mem_filter, List.mem_flatMap, List.mem_range, decide_eq_true_eq, hn]
      constructor
      · rintro ⟨_, ⟨_, ⟨⟨k, hk, e, he, rfl⟩, rfl⟩, rfl⟩, rfl⟩
        exact ⟨hk, e, he, rfl⟩
      · rintro ⟨hi, e, he, rfl⟩
        exact ⟨_, ⟨_, ⟨⟨i, hi, e, he, rfl⟩, rfl⟩, rfl⟩, rfl⟩
    have hnodup : ∀ j, (Activity.outRow contacts (keep r s.p.reciprocity (oneWay s.network.agents.length contacts)
        (gs s.network.agents.length)).1 j).Nodup := by
      apply Activity.nodup_outRow h2
      · exact (Activity.nodup_oneWay h2).sublist (Activity.keep_sublist _ _ _ _)
      · rintro ⟨a, b⟩ he
        exact (Activity.mem_oneWay.mp ((Activity.keep_sublist _ _ _ _).subset he)).2.2
    constructor
    · exact h0
    · exact h1
    · exact NetLemmas.wf_toggled
    · show opposite M.direction = _
      rw [e2, NetLemmas.opposite_opposite, h.incoming]
    · intro i e he
      change e ∈ row (NetLemmas.toggled M) i at he
      have hi : i < s.network.agents.length := by
        have := NetLemmas.mem_row_imp_lt he
        have hl : (NetLemmas.toggled M).neighbours.length = M.agents.length := NetLemmas.wf_toggled.rows
        omega
      rw [NetLemmas.row_toggled (by rw [e1]; exact hi)] at he
      simp only [NetLemmas.entries, List.mem_map, List.mem_filter, List.mem_flatMap, List.mem_range] at he
      obtain ⟨_, ⟨⟨k, hk, e, he, rfl⟩, -⟩, rfl⟩ := he
      exact hones k (by omega) e he
    · intro i
      by_cases hi : i < s.network.agents.length
      · rw [NetLemmas.row_toggled (by rw [e1]; exact hi)]
        simp only [NetLemmas.entries, hn]
        rw [List.filter_flatMap, List.map_map, List.map_flatMap, List.nodup_flatMap]
        constructor
        · intro k hk
          have hk' := List.mem_range.mp hk
          have hnd := hnodup k
          rw [← hrow k hk'] at hnd
          rw [List.filter_map, List.map_map]
          apply List.Nodup.map_on
          · intro x hx y hy _
            simp only [List.mem_filter, Function.comp, decide_eq_true_eq] at hx hy
            have h1 := hones k hk' x hx.1
            have h2 := hones k hk' y hy.1
            exact Prod.ext (hx.2.trans hy.2.symm) (h1.trans h2.symm)
          · exact (List.Nodup.of_map _ hnd).filter _
        · apply List.Pairwise.imp _ (List.nodup_range (n := s.network.agents.length))
          intro a b hab
          rw [Function.onFun, List.disjoint_left]
          intro x h1 h2
          simp only [List.mem_map, List.mem_filter, Function.comp] at h1 h2
          obtain ⟨_, ⟨⟨_, _, rfl⟩, _⟩, rfl⟩ := h1
          obtain ⟨_, ⟨⟨_, _, rfl⟩, _⟩, h3⟩ := h2
          exact hab h3.symm
      · have : row (NetLemmas.toggled M) i = [] := by
          unfold row
          have : (NetLemmas.toggled M).neighbours.getD i [] = [] := by
            have hl : (NetLemmas.toggled M).neighbours.length = M.agents.length := NetLemmas.wf_toggled.rows
            rw [List.getD_eq_getElem?_getD, List.getElem?_eq_none (by omega)]
            rfl
          rw [this]; rfl
        rw [this]; exact List.nodup_nil
    · intro i j hi hj
      rw [hmem i j hj, hrow i hi]
      unfold Activity.outRow
      simp only [hi, true_and, List.mem_append, List.mem_map, List.mem_filter, decide_eq_true_eq]
      constructor
      · rintro (h | ⟨⟨a, b⟩, ⟨h, rfl⟩, rfl⟩)
        · exact .inl h
        · exact .inr h
      · rintro (h | h)
        · exact .inl h
        · exact .inr ⟨_, ⟨h, rfl⟩, rfl⟩
  · exact e1

/-- C43: in every ready state an iteration of the activity-driven model succeeds (no undefined behaviour), and the network after it
consists exactly of the contacts and their reciprocations. -/
theorem C43_activity [LawfulActiveAgent A F] {o : MathOps F} {pick : List (Nat × F) → Nat} (hp : Reservoir.Pick.Valid pick) (r : Rng G F)
    {s : Activity A F G} (h : Activity.Ready s) :
    ∃ (gs : Nat → G) (buf contacts : Nat → List Nat) (t : Activity A F G), Activity.iteration o pick r s = .ok t ∧
      FromContacts o pick r s.p s.network.agents s.gen t.network gs buf contacts ∧
      t.gen = (keep r s.p.reciprocity (oneWay s.network.agents.length contacts) (gs s.network.agents.length)).2 := by
  obtain ⟨gs, buf, contacts, t, h1, h2, h3, h4⟩ := Activity.update_spec (o := o) hp r (s := { s with counter := s.counter.tick })
    ⟨h.wf, h.incoming, h.fit, h.botOpinion, h.probabilistic⟩
  have hp' := (Activity.updateNetwork_frame h1).2.1
  simp only at h2 h3 h4 hp'
  obtain ⟨l, h5, hl⟩ : ∃ l, Activity.rkStep o s.p t.network = .ok l ∧ l.length = t.network.agents.length :=
    ⟨_, Activity.rkStep_eq o s.p h2.wf (by rw [h3]; exact h.fit.bots) h.botOpinion, by simp⟩
  refine ⟨gs, buf, contacts, { t with network := { t.network with agents := l } }, ?_, ?_, h4⟩
  · unfold Activity.iteration
    rw [h1, Res.bind_ok, hp', h5, Res.bind_ok]
  · refine ⟨h2.start, h2.phase, ⟨?_, ?_, h2.wf.lengths, ?_⟩, h2.incoming, h2.ones, h2.nodup, h2.edges⟩
    · simpa [hl] using h2.wf.rows
    · simpa [hl] using h2.wf.wrows
    · simpa [hl] using h2.wf.range

/-- C43 (inertial model): the same. -/
theorem C43_inertial {o : MathOps F} {pick : List (Nat × F) → Nat} (hp : Reservoir.Pick.Valid pick) (r : Rng G F)
    {s : Inertial F G} (h : Activity.Ready s.base) :
    ∃ (gs : Nat → G) (buf contacts : Nat → List Nat) (t : Inertial F G), Inertial.iteration o pick r s = .ok t ∧
      FromContacts o pick r s.base.p s.base.network.agents s.base.gen t.base.network gs buf contacts ∧
      t.base.gen = (keep r s.base.p.reciprocity (oneWay s.base.network.agents.length contacts) (gs s.base.network.agents.length)).2 := by
  obtain ⟨gs, buf, contacts, t, h1, h2, h3, h4⟩ := Activity.update_spec (o := o) hp r (s := { s.base with counter := s.base.counter.tick })
    ⟨h.wf, h.incoming, h.fit, h.botOpinion, h.probabilistic⟩
  have hp' := (Activity.updateNetwork_frame h1).2.1
  simp only at h2 h3 h4 hp'
  obtain ⟨l, h5, hl⟩ : ∃ l, Inertial.verletStep o s.base.p s.friction t.network = .ok l ∧ l.length = t.network.agents.length :=
    ⟨_, Inertial.verletStep_eq o s.base.p s.friction h2.wf (by rw [h3]; exact h.fit.bots) h.botOpinion, by simp⟩
  refine ⟨gs, buf, contacts, { s with base := { t with network := { t.network with agents := l } } }, ?_, ?_, h4⟩
  · unfold Inertial.iteration
    rw [h1, Res.bind_ok, hp', h5, Res.bind_ok]
  · refine ⟨h2.start, h2.phase, ⟨?_, ?_, h2.wf.lengths, ?_⟩, h2.incoming, h2.ones, h2.nodup, h2.edges⟩
    · simpa [hl] using h2.wf.rows
    · simpa [hl] using h2.wf.wrows
    · simpa [hl] using h2.wf.range

/-- Readiness is preserved, -/
theorem Activity.Ready.next [LawfulActiveAgent A F] {o : MathOps F} {pick : List (Nat × F) → Nat} (hp : Reservoir.Pick.Valid pick) {r : Rng G F}
    {s t : Activity A F G} (h : Activity.Ready s) (ht : Activity.iteration o pick r s = .ok t) : Activity.Ready t := by
  obtain ⟨gs, buf, contacts, u, h1, h2, -⟩ := C43_activity (o := o) hp r h
  rw [ht] at h1
  obtain rfl := Except.ok.inj h1
  obtain ⟨hB, hp', -⟩ := Activity.iteration_frame ht
  exact ⟨h2.wf, h2.incoming, by rw [hp', hB.traits.length]; exact h.fit, by rw [hp']; exact h.botOpinion, by rw [hp']; exact h.probabilistic⟩

/-- also by the inertial model. -/
theorem Inertial.ready_next {o : MathOps F} {pick : List (Nat × F) → Nat} (hp : Reservoir.Pick.Valid pick) {r : Rng G F}
    {s t : Inertial F G} (h : Activity.Ready s.base) (ht : Inertial.iteration o pick r s = .ok t) : Activity.Ready t.base := by
  obtain ⟨gs, buf, contacts, u, h1, h2, -⟩ := C43_inertial (o := o) hp r h
  rw [ht] at h1
  obtain rfl := Except.ok.inj h1
  obtain ⟨hB, hp', -⟩ := Inertial.iteration_frame ht
  exact ⟨h2.wf, h2.incoming, by rw [hp', hB.traits.length]; exact h.fit, by rw [hp']; exact h.botOpinion, by rw [hp']; exact h.probabilistic⟩

/-- C43: any number of iterations succeeds. -/
theorem C43_total [LawfulActiveAgent A F] {o : MathOps F} {pick : List (Nat × F) → Nat} (hp : Reservoir.Pick.Valid pick) (r : Rng G F)
    {s : Activity A F G} (h : Activity.Ready s) (k : Nat) : ∃ t, Iterates (Activity.iteration o pick r) s k t ∧ Activity.Ready t := by
  induction k with
  | zero => exact ⟨s, .zero, h⟩
  | succ k ih =>
    obtain ⟨t, ht, hr⟩ := ih
    obtain ⟨_, _, _, u, hu, -⟩ := C43_activity (o := o) hp r hr
    exact ⟨u, .succ ht hu, hr.next hp hu⟩

theorem C43_total_inertial {o : MathOps F} {pick : List (Nat × F) → Nat} (hp : Reservoir.Pick.Valid pick) (r : Rng G F)
    {s : Inertial F G} (h : Activity.Ready s.base) (k : Nat) : ∃ t, Iterates (Inertial.iteration o pick r) s k t ∧ Activity.Ready t.base := by
  induction k with
  | zero => exact ⟨s, .zero, h⟩
  | succ k ih =>
    obtain ⟨t, ht, hr⟩ := ih
    obtain ⟨_, _, _, u, hu, -⟩ := C43_inertial (o := o) hp r hr
    exact ⟨u, .succ ht hu, Inertial.ready_next hp hr hu⟩

/-- C43: the weights with which contacts are chosen are `max( |x_i - x_j|, 1e-10 )^(-homophily)`, and 0 for the agent itself. -/
theorem C43_weights (o : MathOps F) (h : F) (agents : List A) (i j : Nat) (hi : i < agents.length) (hj : j < agents.length) :
    Activity.weight o h agents i j = if j = i then 0 else
      o.pow (cmax (1 / ((10 ^ 10 : Nat) : F)) (cabs (ActiveAgent.opinion agents[i] - ActiveAgent.opinion agents[j]))) (-h) := by
  unfold Activity.weight
  split
  · rfl
  · simp [hi, hj]

/-! ## C45 -/

/-- C45: an activated agent that should contact at least one agent contacts exactly that many distinct existing agents. -/
theorem C45_contacts_partial {o : MathOps F} {pick : List (Nat × F) → Nat} (hp : Reservoir.Pick.Valid pick) {r : Rng G F} {p : ActivitySettings F}
    {agents : List A} {gs : Nat → G} {buf contacts : Nat → List Nat} (h : ContactPhase o pick r p agents gs buf contacts)
    {i : Nat} (hi : i < agents.length) (ha : Activated r agents[i] (gs i)) (h0 : 0 < contactsOf p i) (hn : contactsOf p i ≤ agents.length) :
    ((contacts i).length : Int) = contactsOf p i ∧ (contacts i).Nodup ∧ ∀ j ∈ contacts i, j < agents.length := by
  obtain ⟨b, g', h1, h2, h3, h4⟩ := Reservoir.sample_spec (o := o.toOps) (r := r) hp (k := (contactsOf p i).toNat) (n := agents.length)
    (weight := Activity.weight o (homophilyFor p i) agents i) (by omega) (by omega) (buf i) (r.unit (gs i)).2
  have := (h.active i hi ha).2
  rw [h1] at this
  obtain ⟨rfl, -⟩ := Prod.mk.inj (Except.ok.inj this)
  exact ⟨by omega, h3, h4⟩

/-- C45: if nobody should contact anybody (`m = 0` and all `bot_m = 0`) then nobody does. -/
theorem C45_nobody {o : MathOps F} {pick : List (Nat × F) → Nat} {r : Rng G F} {p : ActivitySettings F}
    {agents : List A} {gs : Nat → G} {buf contacts : Nat → List Nat} (h : ContactPhase o pick r p agents gs buf contacts)
    (h0 : ∀ i, i < agents.length → contactsOf p i = 0) {i : Nat} (hi : i < agents.length) : contacts i = [] := by
  have key : ∀ k, k < agents.length → buf k = [] → contacts k = [] ∧ buf (k + 1) = [] := by
    intro k hk hb
    by_cases ha : Activated r agents[k] (gs k)
    · obtain ⟨e1, e2⟩ := h.active k hk ha
      rw [h0 k hk] at e2
      have : contacts k = buf k := by
        have := (Prod.mk.inj (Except.ok.inj e2)).1
        exact this.symm
      rw [this, e1, this]
      exact ⟨hb, hb⟩
    · obtain ⟨e1, e2, -⟩ := h.passive k hk ha
      rw [e1]; exact ⟨e2, hb⟩
  have all : ∀ k, k ≤ i → buf k = [] := by
    intro k
    induction k with
    | zero => intro _; exact h.empty
    | succ k ih => intro hk; exact (key k (by omega) (ih (by omega))).2
  exact (key i hi (all i (le_refl i))).1

/-- C45 (what is wrong in the remaining case): an activated agent that should contact nobody contacts the agents that the agent
activated before it contacted. -/
theorem C45_reuse {o : MathOps F} {pick : List (Nat × F) → Nat} {r : Rng G F} {p : ActivitySettings F}
    {agents : List A} {gs : Nat → G} {buf contacts : Nat → List Nat} (h : ContactPhase o pick r p agents gs buf contacts)
    {i : Nat} (hi : i + 1 < agents.length) (ha : Activated r agents[i] (gs i)) (ha' : Activated r agents[i + 1] (gs (i + 1)))
    (h0 : contactsOf p (i + 1) = 0) : contacts (i + 1) = contacts i := by
  have e1 := (h.active i (by omega) ha).1
  have e2 := (h.active (i + 1) hi ha').2
  rw [h0] at e2
  have := (Prod.mk.inj (Except.ok.inj e2)).1
  rw [← this, e1]

end

/-! ## C44 -/

section
variable [ActiveAgent A F] [Zero F] [One F] [Sub F] [Mul F] [Add F] [Div F] [Neg F] [NatCast F] [LinearOrder F]

theorem keep_none {r : Rng G F} (hr : r.Lawful) {c : F} (hc : c ≤ 0) (l : List (Nat × Nat)) (g : G) : (keep r c l g).1 = [] := by
  induction l generalizing g with
  | nil => rfl
  | cons e l ih =>
    simp only [keep]
    rw [if_neg (not_lt.mpr (le_trans hc (hr.unit_nonneg g)))]
    exact ih _

theorem keep_all {r : Rng G F} (hr : r.Lawful) {c : F} (hc : 1 ≤ c) (l : List (Nat × Nat)) (g : G) : (keep r c l g).1 = l := by
  induction l generalizing g with
  | nil => rfl
  | cons e l ih =>
    simp only [keep]
    rw [if_pos (lt_of_lt_of_le (hr.unit_lt_one g) hc), ih]

/-- C44: with reciprocity 0 the edges are exactly the contacts. -/
theorem C44_none {o : MathOps F} {pick : List (Nat × F) → Nat} {r : Rng G F} (hr : r.Lawful) {p : ActivitySettings F}
    {agents : List A} {g : G} {N : Network A F} {gs : Nat → G} {buf contacts : Nat → List Nat}
    (h : FromContacts o pick r p agents g N gs buf contacts) (hc : p.reciprocity = 0) {i j : Nat} (hi : i < agents.length)
    (hj : j < agents.length) : i ∈ (row N j).map (·.1) ↔ j ∈ contacts i := by
  rw [h.edges i j hi hj, keep_none hr (by rw [hc])]
  simp

/-- C44: with reciprocity 1 (or more) the network is symmetric: an edge in either direction wherever there was a contact. -/
theorem C44_all {o : MathOps F} {pick : List (Nat × F) → Nat} {r : Rng G F} (hr : r.Lawful) {p : ActivitySettings F}
    {agents : List A} {g : G} {N : Network A F} {gs : Nat → G} {buf contacts : Nat → List Nat}
    (h : FromContacts o pick r p agents g N gs buf contacts) (hc : 1 ≤ p.reciprocity) {i j : Nat} (hi : i < agents.length)
    (hj : j < agents.length) :
    (i ∈ (row N j).map (·.1) ↔ j ∈ contacts i ∨ i ∈ contacts j) ∧
    (i ∈ (row N j).map (·.1) ↔ j ∈ (row N i).map (·.1)) := by
  have key : ∀ i j, i < agents.length → j < agents.length → (i ∈ (row N j).map (·.1) ↔ j ∈ contacts i ∨ i ∈ contacts j) := by
    intro i j hi hj
    rw [h.edges i j hi hj, keep_all hr hc, Activity.mem_oneWay]
    constructor
    · rintro (h | ⟨-, h, -⟩)
      · exact .inl h
      · exact .inr h
    · rintro (h | h)
      · exact .inl h
      · by_cases h' : j ∈ contacts i
        · exact .inl h'
        · exact .inr ⟨hj, h, h'⟩
  exact ⟨key i j hi hj, by rw [key i j hi hj, key j i hj hi, or_comm]⟩

end

/-! ## C51 for these models -/

section
variable [ActiveAgent A F] [LawfulActiveAgent A F] [Zero F] [One F] [Sub F] [Mul F] [Add F] [Div F] [Neg F] [NatCast F] [LT F] [LE F]
  [DecidableLT F] [DecidableLE F]

theorem Activity.counts (o : MathOps F) (pick : List (Nat × F) → Nat) (r : Rng G F) : (Activity.machine (A := A) o pick r).Counts where
  reset s := rfl
  iteration s t h := by
    show t.counter.nIterations = s.counter.nIterations + 1
    rw [(Activity.iteration_frame h).2.2]; rfl

theorem Inertial.counts (o : MathOps F) (pick : List (Nat × F) → Nat) (r : Rng G F) : (Inertial.machine (F := F) o pick r).Counts where
  reset s := rfl
  iteration s t h := by
    show t.base.counter.nIterations = s.base.counter.nIterations + 1
    rw [(Inertial.iteration_frame h).2.2.1]; rfl

/-- C51, activity-driven model: with `max_iterations = N` a run from any ready state makes exactly `N` iterations; without it a run never
ends. -/
theorem C51_activity {o : MathOps F} {pick : List (Nat × F) → Nat} (hp : Reservoir.Pick.Valid pick) {r : Rng G F}
    {s : Activity A F G} (h : s.Ready) :
    (∀ N, s.counter.maxIterations = some N →
      (∃ st, IsRun (Activity.machine o pick r) (Activity.reset s) N st) ∧
      ∀ K st, IsRun (Activity.machine o pick r) (Activity.reset s) K st → K = N) ∧
    (s.counter.maxIterations = none → ∀ R out fuel t, Simulation.run (Activity.machine o pick r) R out fuel s ≠ .ok t) := by
  have hM := Activity.counts (A := A) o pick r
  have hreset : ∀ s : Activity A F G, s.Ready → s.reset.Ready := fun s hs => ⟨hs.wf, hs.incoming, hs.fit, hs.botOpinion, hs.probabilistic⟩
  have hmax : ∀ s t : Activity A F G, Activity.iteration o pick r s = .ok t → t.counter.maxIterations = s.counter.maxIterations := by
    intro s t ht
    rw [(Activity.iteration_frame ht).2.2]; rfl
  constructor
  · intro N hN
    have hI : ∀ s : Activity A F G, (s.Ready ∧ s.counter.maxIterations = some N) →
        ∃ t, (Activity.machine o pick r).iteration s = .ok t ∧ (t.Ready ∧ t.counter.maxIterations = some N) := by
      rintro s ⟨h1, h2⟩
      obtain ⟨_, _, _, t, ht, -⟩ := C43_activity (o := o) hp r h1
      exact ⟨t, ht, h1.next hp ht, (hmax s t ht).trans h2⟩
    have hfin : ∀ s : Activity A F G, (s.Ready ∧ s.counter.maxIterations = some N) →
        ((Activity.machine o pick r).finished s = true ↔ N ≤ (Activity.machine o pick r).nIterations s) := by
      rintro s ⟨-, h2⟩
      simp [Activity.machine, Activity.finished, Counter.finished, h2]
    refine ⟨?_, fun K st hK => ?_⟩
    · obtain ⟨st, hst, -⟩ := C51_reaches hM _ N (fun s hs => ⟨hreset s hs.1, hs.2⟩) hI hfin (s := s) ⟨h, hN⟩
      exact ⟨st, hst⟩
    · refine C51_exactly hM _ N (fun s hs => ⟨hreset s hs.1, hs.2⟩) ?_ hfin (s := s) ⟨h, hN⟩ hK
      intro s t hs ht
      obtain ⟨t', ht', hs'⟩ := hI s hs
      obtain rfl := Except.ok.inj (ht'.symm.trans ht)
      exact hs'
  · intro hN R out fuel t
    refine C51_never (fun s => s.counter.maxIterations = none) (fun s hs => hs) ?_ ?_ R out fuel (s := s) hN t
    · intro s t hs ht
      exact (hmax s t ht).trans hs
    · intro s hs
      simp [Activity.machine, Activity.finished, Counter.finished, hs]

/-- C51, inertial model. -/
theorem C51_inertial {o : MathOps F} {pick : List (Nat × F) → Nat} (hp : Reservoir.Pick.Valid pick) {r : Rng G F}
    {s : Inertial F G} (h : s.base.Ready) :
    (∀ N, s.base.counter.maxIterations = some N →
      (∃ st, IsRun (Inertial.machine o pick r) (Inertial.reset s) N st) ∧
      ∀ K st, IsRun (Inertial.machine o pick r) (Inertial.reset s) K st → K = N) ∧
    (s.base.counter.maxIterations = none → ∀ R out fuel t, Simulation.run (Inertial.machine o pick r) R out fuel s ≠ .ok t) := by
  have hM := Inertial.counts (F := F) o pick r
  have hreset : ∀ s : Inertial F G, s.base.Ready → s.reset.base.Ready := fun s hs => ⟨hs.wf, hs.incoming, hs.fit, hs.botOpinion, hs.probabilistic⟩
  have hmax : ∀ s t : Inertial F G, Inertial.iteration o pick r s = .ok t → t.base.counter.maxIterations = s.base.counter.maxIterations := by
    intro s t ht
    rw [(Inertial.iteration_frame ht).2.2.1]; rfl
  constructor
  · intro N hN
    have hI : ∀ s : Inertial F G, (s.base.Ready ∧ s.base.counter.maxIterations = some N) →
        ∃ t, (Inertial.machine o pick r).iteration s = .ok t ∧ (t.base.Ready ∧ t.base.counter.maxIterations = some N) := by
      rintro s ⟨h1, h2⟩
      obtain ⟨_, _, _, t, ht, -⟩ := C43_inertial (o := o) hp r h1
      exact ⟨t, ht, Inertial.ready_next hp h1 ht, (hmax s t ht).trans h2⟩
    have hfin : ∀ s : Inertial F G, (s.base.Ready ∧ s.base.counter.maxIterations = some N) →
        ((Inertial.machine o pick r).finished s = true ↔ N ≤ (Inertial.machine o pick r).nIterations s) := by
      rintro s ⟨-, h2⟩
      simp [Inertial.machine, Inertial.finished, Counter.finished, h2]
    refine ⟨?_, fun K st hK => ?_⟩
    · obtain ⟨st, hst, -⟩ := C51_reaches hM (fun s => s.base.Ready ∧ s.base.counter.maxIterations = some N) N
        (fun s hs => ⟨hreset s hs.1, hs.2⟩) hI hfin (s := s) ⟨h, hN⟩
      exact ⟨st, hst⟩
    · refine C51_exactly hM (fun s => s.base.Ready ∧ s.base.counter.maxIterations = some N) N
        (fun s hs => ⟨hreset s hs.1, hs.2⟩) ?_ hfin (s := s) ⟨h, hN⟩ hK
      intro s t hs ht
      obtain ⟨t', ht', hs'⟩ := hI s hs
      obtain rfl := Except.ok.inj (ht'.symm.trans ht)
      exact hs'
  · intro hN R out fuel t
    refine C51_never (fun s => s.base.counter.maxIterations = none) (fun s hs => hs) ?_ ?_ R out fuel (s := s) hN t
    · intro s t hs ht
      exact (hmax s t ht).trans hs
    · intro s hs
      simp [Inertial.machine, Inertial.finished, Counter.finished, hs]

end
/-! ## concrete cases -/

/-- Stand-ins for the transcendental functions that can be evaluated over `ℚ` (only used in examples). -/
def ratOps : MathOps ℚ where
  pow x y := if y < 0 then 1 / x else x
  log x := x - 1
  tanh x := x / (1 + x * x)
  powNat x k := x ^ k
  erf x := x / (1 + x * x)
  erfinv x := x
  sqrt x := x
  exp _ := 1
  pi := 3

/-- The first item with the smallest key. -/
def firstMin (l : List (Nat × ℚ)) : Nat :=
  (l.mapIdx (fun i x => (i, x.2))).foldl (fun b x => if x.2 < (l.getD b (0, 0)).2 then x.1 else b) 0

theorem firstMin_valid : Reservoir.Pick.Valid firstMin := by
  constructor
  intro l hl
  unfold firstMin
  have : ∀ (m : List (Nat × ℚ)) (b : Nat), b < l.length → (∀ x ∈ m, x.1 < l.length) →
      m.foldl (fun b x => if x.2 < (l.getD b (0, 0)).2 then x.1 else b) b < l.length := by
    intro m
    induction m with
    | nil => intro b hb _; exact hb
    | cons x m ih =>
      intro b hb hm
      rw [List.foldl_cons]
      apply ih
      · split
        · exact hm x (by simp)
        · exact hb
      · intro y hy; exact hm y (by simp [hy])
  apply this _ _ (List.length_pos_iff.mpr hl)
  intro x hx
  simp only [List.mem_mapIdx] at hx
  obtain ⟨i, hi, rfl⟩ := hx
  exact hi

/-- Default settings, over `ℚ`, with two contacts per agent. -/
def Activity.settings : ActivitySettings ℚ where
  maxIterations := some 3
  dt := 1/100
  m := 2
  eps := 1/100
  gamma := 21/10
  alpha := 3
  homophily := 1/2
  reciprocity := 1/2
  K := 3
  meanActivities := false
  meanWeights := false
  nBots := 0
  botM := []
  botActivity := []
  botOpinion := []
  botHomophily := []
  useReluctances := false
  reluctanceMean := 1
  reluctanceSigma := 1/4
  reluctanceEps := 1/100
  covarianceFactor := 0

/-- Four agents, with activities 1 and 1/5. -/
def Activity.sample : Activity (ActivityAgent ℚ) ℚ Nat where
  counter := ⟨some 3, 0⟩
  p := Activity.settings
  network := ⟨[⟨0, 1, 1⟩, ⟨1/2, 1/5, 1⟩, ⟨-1/2, 1, 1⟩, ⟨1, 1/5, 1⟩], [[], [], [], []], [[], [], [], []], .incoming⟩
  contactProb := [[], [], [], []]
  gen := 0

/-- With one bot that makes one contact, while the other agents make none. -/
def Activity.sampleBots : Activity (ActivityAgent ℚ) ℚ Nat :=
  { Activity.sample with p := { Activity.settings with m := 0, nBots := 1, botM := [1], botActivity := [1], botOpinion := [2], botHomophily := [1] } }

theorem Activity.sample_ready : Activity.sample.Ready where
  wf := by constructor <;> decide +kernel
  incoming := rfl
  fit := by constructor <;> decide +kernel
  botOpinion := by decide +kernel
  probabilistic := rfl

theorem Activity.sampleBots_ready : Activity.sampleBots.Ready where
  wf := by constructor <;> decide +kernel
  incoming := rfl
  fit := by constructor <;> decide +kernel
  botOpinion := by decide +kernel
  probabilistic := rfl

/-- One iteration: all four agents are activated and contact two agents each (the stand-in functions allow self-contacts). -/
example : (Activity.iteration ratOps firstMin counterRng Activity.sample).map (fun t => (t.network.neighbours, t.network.weights)) =
    .ok ([[0, 1, 2, 3], [0, 2, 3], [0, 1], [0, 1]], [[1, 1, 1, 1], [1, 1, 1], [1, 1], [1, 1]]) := by decide +kernel

example : ∃ gs buf contacts t, Activity.iteration ratOps firstMin counterRng Activity.sample = .ok t ∧
    FromContacts ratOps firstMin counterRng Activity.sample.p Activity.sample.network.agents Activity.sample.gen t.network gs buf contacts :=
  let ⟨gs, buf, contacts, t, h, h', _⟩ := C43_activity firstMin_valid counterRng Activity.sample_ready
  ⟨gs, buf, contacts, t, h, h'⟩

/-- C45 refuted for `m = 0` in the presence of a bot with contacts: the agents 1, 2 and 3 are activated and should contact nobody, but
each of them contacts agent 2, which the bot (agent 0) has contacted (reciprocity is 0, so all edges are contacts). -/
theorem C45_not_exact : (Activity.iteration ratOps firstMin counterRng
      { Activity.sampleBots with p := { Activity.sampleBots.p with reciprocity := 0 } }).map (fun t => t.network.neighbours) =
    .ok [[], [], [0, 1, 2, 3], []] ∧ ∀ i, 1 ≤ i → contactsOf Activity.sampleBots.p i = 0 := by
  refine ⟨by decide +kernel, ?_⟩
  intro i hi
  unfold contactsOf
  rw [if_neg (by show ¬ i < 1; omega)]
  rfl

/-- After one iteration the bot has its configured opinion. -/
example {t : Activity (ActivityAgent ℚ) ℚ Nat} (h : Iterates (Activity.iteration ratOps firstMin counterRng) Activity.sampleBots 7 t) :
    ∃ a, t.network.agents[0]? = some a ∧ a.opinion = 2 := by
  obtain ⟨a, h1, h2⟩ := (C42_activity h).2.2.2 (by decide) 0 (by decide)
  exact ⟨a, h1, (Option.some.inj h2).symm⟩

end Seldon
