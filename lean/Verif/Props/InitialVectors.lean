import Verif.Lemmas.InitialVectors
import Verif.Props.Fixation
/-!
# C97: the binary-vector Deffuant model started with random vectors
-/
set_option linter.unusedSectionVars false
namespace Seldon
open Spec MeasureTheory Filter
open scoped ENNReal Topology
variable {G : Type} [MeasurableSpace G] {μ : Measure G}

/-- A vector of `d` entries, each of them 0 or 1. -/
def Spec.BinaryVector (d : ℕ) (bs : List Int) : Prop := bs.length = d ∧ ∀ b ∈ bs, b = 0 ∨ b = 1

/-- The vector with 0 and 1 exchanged at the positions in `K`. -/
def Spec.exchanged (K : Finset ℕ) (bs : List Int) : List Int := bs.mapIdx fun k b => if k ∈ K then 1 - b else b

/-- Started with the generator in state `g`, the model is initialised and makes `t` iterations, and then its agents are `ys`. -/
def Spec.ArrivesAt (r : Rng G ℝ) (dim : ℕ) (s : Deffuant DiscreteVectorAgent ℝ G) (t : ℕ) (ys : List DiscreteVectorAgent) (g : G) : Prop :=
  ∃ u v, Deffuant.initializeVectors r dim { s with gen := g } = .ok u ∧ Iterates (Deffuant.iteration r (Deffuant.updateVector r)) u t v ∧ v.network.agents = ys

/-- Started with the generator in state `g`, the model is initialised and goes on with, after some iteration, all agents having the vector `c`, forever. -/
def Spec.EndsIn (r : Rng G ℝ) (dim : ℕ) (s : Deffuant DiscreteVectorAgent ℝ G) (c : List Int) (g : G) : Prop :=
  ∃ st : ℕ → Deffuant DiscreteVectorAgent ℝ G, Deffuant.initializeVectors r dim { s with gen := g } = .ok (st 0) ∧
    (∀ t, Deffuant.iteration r (Deffuant.updateVector r) (st t) = .ok (st (t + 1))) ∧ ∃ T, ∀ t, T ≤ t → ∀ x ∈ (st t).network.agents, x.opinion = c

namespace Deffuant

theorem exchanged_exchanged (K : Finset ℕ) (bs : List Int) : exchanged K (exchanged K bs) = bs := by
  refine List.ext_getElem (by simp [exchanged]) fun k h1 h2 => ?_
  simp only [exchanged, List.getElem_mapIdx]
  split <;> simp

theorem exchanged_bits {K : Finset ℕ} {d : ℕ} {bs : List Int} (h : IsBits d bs) : IsBits d (exchanged K bs) := by
  refine ⟨by simp [exchanged, h.1], fun b hb => ?_⟩
  obtain ⟨k, hk, rfl⟩ := List.mem_iff_getElem.mp hb
  simp only [exchanged, List.getElem_mapIdx]
  have hk' : k < bs.length := by simpa [exchanged] using hk
  rcases h.2 bs[k] (List.getElem_mem hk') with e | e <;> rw [e] <;> split <;> simp

/-- All agents with the values exchanged. -/
def turned (K : Finset ℕ) (xs : List DiscreteVectorAgent) : List DiscreteVectorAgent := xs.map fun x => ⟨exchanged K x.opinion⟩

theorem turned_turned (K : Finset ℕ) (xs : List DiscreteVectorAgent) : turned K (turned K xs) = xs := by
  unfold turned
  rw [List.map_map]
  conv_rhs => rw [← List.map_id xs]
  refine List.map_congr_left fun x _ => ?_
  simp [exchanged_exchanged]

/-- The state with other agents and another generator. -/
def base (s : Deffuant DiscreteVectorAgent ℝ G) (xs : List DiscreteVectorAgent) (g : G) : Deffuant DiscreteVectorAgent ℝ G :=
  { s with network := { s.network with agents := xs }, gen := g }

/-- From the vectors `xs`, after `t` iterations the vectors are `ys`. -/
def leads (r : Rng G ℝ) (s : Deffuant DiscreteVectorAgent ℝ G) (t : ℕ) (ys xs : List DiscreteVectorAgent) : Set G :=
  {g | ∃ v, Iterates (iteration r (updateVector r)) (base s xs g) t v ∧ v.network.agents = ys}

theorem arrives_iff (r : Rng G ℝ) (dim : ℕ) (s : Deffuant DiscreteVectorAgent ℝ G) (t : ℕ) (ys : List DiscreteVectorAgent) (g : G) :
    ArrivesAt r dim s t ys g ↔ ∃ xs g', (.ok (drawVectors r dim s.network.agents.length g) : Res (List DiscreteVectorAgent × G)) = .ok (xs, g') ∧
      g' ∈ leads r s t ys xs := by
  unfold ArrivesAt
  simp only [initializeVectors_draw, Except.ok.injEq]
  constructor
  · rintro ⟨u, v, rfl, h1, h2⟩
    exact ⟨_, _, rfl, v, h1, h2⟩
  · rintro ⟨xs, g', h, v, h1, h2⟩
    refine ⟨_, v, rfl, ?_, h2⟩
    rw [h]
    exact h1

theorem leads_turned (r : Rng G ℝ) (s : Deffuant DiscreteVectorAgent ℝ G) (t : ℕ) (K : Finset ℕ) (ys xs : List DiscreteVectorAgent) :
    leads r s t (turned K ys) xs = leads r s t ys (turned K xs) := by
  have hφ : ∀ k, Function.Injective fun b : Int => if k ∈ K then 1 - b else b := by
    intro k b c h
    dsimp only at h
    split at h <;> omega
  have key : ∀ xs ys g, g ∈ leads r s t ys xs → g ∈ leads r s t (turned K ys) (turned K xs) := by
    rintro xs ys g ⟨v, h1, h2⟩
    have hren : Renamed (fun k b => if k ∈ K then 1 - b else b) (base s xs g) (base s (turned K xs) g) := (renamed_iff _ _ _).mpr rfl
    obtain ⟨t', e1, e2⟩ := (C92_answers hφ hren).1 v h1
    refine ⟨t', e1, ?_⟩
    rw [(renamed_iff _ _ _).mp e2, ← h2]
    rfl
  ext g
  constructor
  · intro h
    have := key _ _ _ h
    rwa [turned_turned] at this
  · intro h
    have := key _ _ _ h
    rwa [turned_turned] at this

theorem base_frame {s : Deffuant DiscreteVectorAgent ℝ G} {xs : List DiscreteVectorAgent} (h : xs.length = s.network.agents.length) (g : G) : Frame s (base s xs g) :=
  ⟨rfl, rfl, rfl, rfl, rfl, rfl, h, rfl⟩

theorem leads_measurable {r : Rng G ℝ} [IsProbabilityMeasure μ] (hr : r.IntLawful) (hi : FairIntegers r μ) (hu : Draws r.unit uniform μ)
    {s : Deffuant DiscreteVectorAgent ℝ G} (hs : s.Ready) (hn : 2 ≤ s.network.agents.length) {dim : ℕ} {xs : List DiscreteVectorAgent}
    (hl : xs.length = s.network.agents.length) (hd : Dim dim xs) (t : ℕ) (ys : List DiscreteVectorAgent) : MeasurableSet (leads r s t ys xs) := by
  classical
  obtain ⟨final, f1, -, f3, -⟩ := final_score (μ := μ) (s := base s xs s.gen) hr hi hu ((base_frame hl _).ready hs) (by rw [(base_frame hl s.gen).n]; exact hn) hd
  have := f3 t (fun zs => if zs = ys then 1 else 0) (measurableSet_singleton 1)
  convert this using 1
  ext g
  simp only [Set.mem_preimage, Set.mem_singleton_iff]
  constructor
  · rintro ⟨v, h1, h2⟩
    rw [if_pos]
    rw [← iterates_unique h1 (f1 g t)]
    exact h2
  · intro h
    refine ⟨_, f1 g t, ?_⟩
    by_contra hc
    rw [if_neg hc] at h
    norm_num at h

theorem hits_turned {r : Rng G ℝ} [IsProbabilityMeasure μ] (hr : r.IntLawful) (hi : FairIntegers r μ) (d n : ℕ) (K : Finset ℕ) (xs : List DiscreteVectorAgent) :
    μ (hits (fun g => .ok (drawVectors r d n g)) (turned K xs) Set.univ) = μ (hits (fun g => .ok (drawVectors r d n g)) xs Set.univ) := by
  have hgood : ∀ xs : List DiscreteVectorAgent, (xs.length = n ∧ ∀ x ∈ xs, IsBits d x.opinion) →
      ((turned K xs).length = n ∧ ∀ x ∈ turned K xs, IsBits d x.opinion) := by
    rintro xs ⟨h1, h2⟩
    refine ⟨by simp [turned, h1], fun x hx => ?_⟩
    obtain ⟨y, hy, rfl⟩ := List.mem_map.mp hx
    exact exchanged_bits (h2 y hy)
  have hbad : ∀ xs : List DiscreteVectorAgent, ¬ (xs.length = n ∧ ∀ x ∈ xs, IsBits d x.opinion) →
      hits (fun g => .ok (drawVectors r d n g)) xs Set.univ = ∅ := by
    intro xs h
    refine Fresh.hits_never _ ?_
    rintro ⟨g, g', e⟩
    refine h ?_
    have e := Except.ok.inj e
    rw [show xs = (drawVectors r d n g).1 by rw [e]]
    exact ⟨drawVectors_length r d n g, drawVectors_bits hr d n g⟩
  by_cases h : xs.length = n ∧ ∀ x ∈ xs, IsBits d x.opinion
  · rw [(drawVectors_law hi d n h.1 h.2 MeasurableSet.univ).2, (drawVectors_law hi d n (hgood _ h).1 (hgood _ h).2 MeasurableSet.univ).2]
  · rw [hbad _ h, hbad]
    intro hc
    have := hgood _ hc
    rw [turned_turned] at this
    exact h this

theorem arrives_law {r : Rng G ℝ} [IsProbabilityMeasure μ] (hr : r.IntLawful) (hi : FairIntegers r μ) (hu : Draws r.unit uniform μ)
    {s : Deffuant DiscreteVectorAgent ℝ G} (hs : s.Ready) (hn : 2 ≤ s.network.agents.length) (dim t : ℕ) (ys : List DiscreteVectorAgent) :
    MeasurableSet {g | ArrivesAt r dim s t ys g} ∧
      μ {g | ArrivesAt r dim s t ys g} = expect (fun g => .ok (drawVectors r dim s.network.agents.length g)) μ fun xs => μ (leads r s t ys xs) := by
  simp only [arrives_iff]
  refine Fresh.after_sum (drawVectors_fresh hi dim _) (S := leads r s t ys) ?_
  intro xs g g' e
  have e := Except.ok.inj e
  have hx : xs = (drawVectors r dim s.network.agents.length g).1 := by rw [e]
  refine leads_measurable (dim := dim) (μ := μ) hr hi hu hs hn ?_ ?_ t ys
  · rw [hx, drawVectors_length]
  · intro x h
    rw [hx] at h
    exact (drawVectors_bits hr dim _ g x h).1

end Deffuant

variable {r : Rng G ℝ} [IsProbabilityMeasure μ] {s : Deffuant DiscreteVectorAgent ℝ G}

/-- C97: initialisation gives every list of binary vectors with the same probability, `2 ^ (-dim)` for each agent, independently of the state of the generator
that it leaves; the vectors that the agents had before do not matter. -/
theorem C97_initial (hi : FairIntegers r μ) (s : Deffuant DiscreteVectorAgent ℝ G) (dim : ℕ) {xs : List DiscreteVectorAgent}
    (hl : xs.length = s.network.agents.length) (hb : ∀ x ∈ xs, BinaryVector dim x.opinion) {S : Set G} (hS : MeasurableSet S) :
    μ {g | ∃ u, Deffuant.initializeVectors r dim { s with gen := g } = .ok u ∧ u.network.agents = xs ∧ u.gen ∈ S} =
      (1 / 2) ^ (s.network.agents.length * dim) * μ S := by
  rw [← (Deffuant.drawVectors_law hi dim _ hl hb hS).2]
  congr 1
  ext g
  simp only [Deffuant.initializeVectors_draw, Except.ok.injEq, hits, Set.mem_ofPred_eq]
  constructor
  · rintro ⟨u, rfl, h1, h2⟩
    exact ⟨_, Prod.ext h1 rfl, h2⟩
  · rintro ⟨g', h1, h2⟩
    exact ⟨_, rfl, by rw [h1], by rw [h1]; exact h2⟩

/-- C97: at any later time, too, the two values of a question are exchangeable: with 0 and 1 exchanged at the positions in `K`, a list of vectors is as likely as
before, for every network, threshold and `mu`. -/
theorem C97_symmetric (hr : r.IntLawful) (hi : FairIntegers r μ) (hu : Draws r.unit uniform μ) (hs : s.Ready) (hn : 2 ≤ s.network.agents.length) (dim t : ℕ)
    (K : Finset ℕ) (ys : List DiscreteVectorAgent) :
    μ {g | ArrivesAt r dim s t (ys.map fun x => ⟨exchanged K x.opinion⟩) g} = μ {g | ArrivesAt r dim s t ys g} := by
  rw [(Deffuant.arrives_law hr hi hu hs hn dim t ys).2]
  refine (Deffuant.arrives_law hr hi hu hs hn dim t (Deffuant.turned K ys)).2.trans ?_
  simp only [Deffuant.leads_turned]
  unfold expect
  rw [← Equiv.tsum_eq (Function.Involutive.toPerm (Deffuant.turned K) (Deffuant.turned_turned K))]
  refine tsum_congr fun xs => ?_
  show μ (hits _ (Deffuant.turned K xs) _) * μ (Deffuant.leads r s t ys (Deffuant.turned K (Deffuant.turned K xs))) = _
  rw [Deffuant.turned_turned, Deffuant.hits_turned hr hi]

namespace Deffuant

theorem exchanged_to {d : ℕ} {c c' : List Int} (h : IsBits d c) (h' : IsBits d c') :
    exchanged ((Finset.range d).filter fun k => c[k]? ≠ c'[k]?) c = c' := by
  refine List.ext_getElem (by simp [exchanged, h.1, h'.1]) fun k h1 h2 => ?_
  have hk : k < c.length := by simpa [exchanged] using h1
  simp only [exchanged, List.getElem_mapIdx, Finset.mem_filter, Finset.mem_range, List.getElem?_eq_getElem hk, List.getElem?_eq_getElem h2, ne_eq, Option.some.injEq]
  have e1 := h.2 _ (List.getElem_mem hk)
  have e2 := h'.2 _ (List.getElem_mem h2)
  have : k < d := by rw [← h.1]; exact hk
  split <;> omega

/-- Started with random vectors, the agents agree in the end. -/
theorem random_consensus (hr : r.IntLawful) (hi : FairIntegers r μ) (hu : Draws r.unit uniform μ) (hs : s.Ready)
    (hsym : s.useNetwork = true → ∀ a b, a < s.network.agents.length → b ∈ s.network.neighbours.getD a [] → a ∈ s.network.neighbours.getD b [])
    (hc : ∀ i j, i < s.network.agents.length → j < s.network.agents.length → Relation.ReflTransGen s.CanMeet i j) {dim : ℕ} (hθ : (dim : ℝ) < s.threshold)
    (hn : 2 ≤ s.network.agents.length) :
    ∀ᵐ g ∂μ, ∃ st : ℕ → Deffuant DiscreteVectorAgent ℝ G, initializeVectors r dim { s with gen := g } = .ok (st 0) ∧ TrajectoryV r st ∧
      ∃ T c, IsBits dim c ∧ ∀ t, T ≤ t → (st t).network.agents = List.replicate s.network.agents.length ⟨c⟩ := by
  have key := (drawVectors_fresh (μ := μ) hi dim s.network.agents.length).ae_after (P := fun xs g => ∃ st : ℕ → Deffuant DiscreteVectorAgent ℝ G,
      st 0 = base s xs g ∧ TrajectoryV r st ∧ ∃ T c, ∀ t, T ≤ t → ∀ x ∈ (st t).network.agents, x.opinion = c) (by
    intro xs g g' e
    have e := Except.ok.inj e
    have hx : xs = (drawVectors r dim s.network.agents.length g).1 := by rw [e]
    have hl : xs.length = s.network.agents.length := by rw [hx, drawVectors_length]
    have hF := base_frame hl s.gen
    exact C85_consensus (s := base s xs s.gen) hr hi hu (hF.ready hs) (by rw [hF.n]; exact hsym) (d := dim) (by
      intro x h
      have h : x ∈ xs := h
      rw [hx] at h
      exact (drawVectors_bits hr dim _ g x h).1) hθ (by
      rw [hF.n]
      intro i j h1 h2
      refine Relation.ReflTransGen.mono (r := s.CanMeet) ?_ i j (hc i j h1 h2)
      rintro a b ⟨h3, h4, h5, h6⟩
      exact ⟨by rw [hF.n]; exact h3, by rw [hF.n]; exact h4, h5, h6⟩))
  filter_upwards [key] with g hg
  obtain ⟨st, h0, hT, T, c, hcons⟩ := hg _ _ rfl
  have hinit : initializeVectors r dim { s with gen := g } = .ok (st 0) := by
    rw [initializeVectors_draw, h0]
    rfl
  have hbin := fun t => C39_binary hr hinit (trajectoryV_iterates hT t)
  refine ⟨st, hinit, hT, T, c, ?_, fun t ht => List.eq_replicate_iff.mpr ⟨(hbin t).1, fun x hx => ?_⟩⟩
  · have hl : 0 < (st T).network.agents.length := by rw [(hbin T).1]; show 0 < s.network.agents.length; omega
    rw [← hcons T le_rfl _ (List.getElem_mem hl)]
    exact (hbin T).2 _ (List.getElem_mem hl)
  · have := hcons t ht x hx
    cases x
    simpa using this

theorem arrives_trajectory {dim : ℕ} {g : G} {st : ℕ → Deffuant DiscreteVectorAgent ℝ G} (h0 : initializeVectors r dim { s with gen := g } = .ok (st 0))
    (hT : TrajectoryV r st) (t : ℕ) (ys : List DiscreteVectorAgent) : ArrivesAt r dim s t ys g ↔ (st t).network.agents = ys := by
  constructor
  · rintro ⟨u, v, h1, h2, h3⟩
    rw [h0] at h1
    rw [← Except.ok.inj h1] at h2
    rw [← h3, iterates_unique h2 (trajectoryV_iterates hT t)]
  · intro h
    exact ⟨_, _, h0, trajectoryV_iterates hT t, h⟩

theorem ends_trajectory {dim : ℕ} {g : G} {st : ℕ → Deffuant DiscreteVectorAgent ℝ G} (h0 : initializeVectors r dim { s with gen := g } = .ok (st 0))
    (hT : TrajectoryV r st) {n T : ℕ} (hn : 0 < n) {c : List Int} (hc : ∀ t, T ≤ t → (st t).network.agents = List.replicate n ⟨c⟩) (c' : List Int) :
    EndsIn r dim s c' g ↔ c = c' := by
  constructor
  · rintro ⟨st', h1, h2, T', h3⟩
    have e := h3 (max T T') (le_max_right _ _)
    have h5 : st' 0 = st 0 := Except.ok.inj (h1.symm.trans h0)
    have h4 := trajectoryV_iterates (r := r) h2 (max T T')
    rw [h5] at h4
    rw [iterates_unique h4 (trajectoryV_iterates hT _), hc _ (le_max_left _ _)] at e
    exact e ⟨c⟩ (List.mem_replicate.mpr ⟨by omega, rfl⟩)
  · rintro rfl
    refine ⟨st, h0, hT, T, fun t ht x hx => ?_⟩
    rw [hc t ht] at hx
    rw [(List.mem_replicate.mp hx).2]

end Deffuant

/-- C97: if being neighbours is mutual, any two agents are connected by agents that can meet and the threshold exceeds the dimension, then all agents end up with
the same vector, and every binary vector is equally likely to be it. -/
theorem C97_uniform (hr : r.IntLawful) (hi : FairIntegers r μ) (hu : Draws r.unit uniform μ) (hs : s.Ready) (hn : 2 ≤ s.network.agents.length)
    (hsym : s.useNetwork = true → ∀ a b, a < s.network.agents.length → b ∈ s.network.neighbours.getD a [] → a ∈ s.network.neighbours.getD b [])
    (hc : ∀ i j, i < s.network.agents.length → j < s.network.agents.length → Relation.ReflTransGen s.CanMeet i j) {dim : ℕ} (hθ : (dim : ℝ) < s.threshold)
    {c : List Int} (hb : BinaryVector dim c) : μ {g | EndsIn r dim s c g} = (1 / 2) ^ dim := by
  have hn0 : 0 < s.network.agents.length := by omega
  have hcons := Deffuant.random_consensus hr hi hu hs hsym hc hθ hn
  -- the event is a limit of events at finite times
  have hlim : ∀ c, ∀ᵐ g ∂μ, Tendsto (fun t => {g | ArrivesAt r dim s t (List.replicate s.network.agents.length ⟨c⟩) g}.indicator (fun _ => (1 : ℝ)) g) atTop
      (𝓝 ({g | EndsIn r dim s c g}.indicator (fun _ => (1 : ℝ)) g)) := by
    intro c
    filter_upwards [hcons] with g ⟨st, h0, hT, T, c', _, h⟩
    refine tendsto_const_nhds.congr' ?_
    filter_upwards [eventually_ge_atTop T] with t ht
    have e1 := Deffuant.arrives_trajectory h0 hT t (List.replicate s.network.agents.length ⟨c⟩)
    have e2 := Deffuant.ends_trajectory h0 hT hn0 h c
    rw [h t ht, List.replicate_inj] at e1
    have e3 : EndsIn r dim s c g ↔ ArrivesAt r dim s t (List.replicate s.network.agents.length ⟨c⟩) g := by
      rw [e1, e2]
      constructor
      · rintro rfl; exact ⟨rfl, .inr rfl⟩
      · rintro ⟨-, h | h⟩
        · omega
        · exact (DiscreteVectorAgent.mk.inj h)
    by_cases hE : EndsIn r dim s c g
    · rw [Set.indicator_of_mem (s := {g | EndsIn r dim s c g}) hE, Set.indicator_of_mem (s := {g | ArrivesAt r dim s t _ g}) (e3.mp hE)]
    · rw [Set.indicator_of_notMem (s := {g | EndsIn r dim s c g}) hE, Set.indicator_of_notMem (s := {g | ArrivesAt r dim s t _ g}) (fun hc => hE (e3.mpr hc))]
  have hmeas : ∀ t c, MeasurableSet {g | ArrivesAt r dim s t (List.replicate s.network.agents.length ⟨c⟩) g} :=
    fun t c => (Deffuant.arrives_law hr hi hu hs hn dim t _).1
  have hEm : ∀ c, NullMeasurableSet {g | EndsIn r dim s c g} μ := by
    intro c
    refine (aemeasurable_indicator_const_iff (1 : ℝ)).mp ?_
    exact (aestronglyMeasurable_of_tendsto_ae atTop (fun t => (measurable_const.indicator (hmeas t c)).aestronglyMeasurable) (hlim c)).aemeasurable
  have hconv : ∀ c, Tendsto (fun t => μ.real {g | ArrivesAt r dim s t (List.replicate s.network.agents.length ⟨c⟩) g}) atTop (𝓝 (μ.real {g | EndsIn r dim s c g})) := by
    intro c
    have := tendsto_integral_of_dominated_convergence (fun _ => (1 : ℝ)) (fun t => (measurable_const.indicator (hmeas t c)).aestronglyMeasurable)
      (integrable_const 1) (fun t => Filter.Eventually.of_forall fun g => by
        unfold Set.indicator
        split <;> simp) (hlim c)
    simpa only [integral_indicator (hmeas _ c), integral_indicator₀ (hEm c), setIntegral_const, smul_eq_mul, mul_one] using this
  have hequal : ∀ c', BinaryVector dim c' → μ {g | EndsIn r dim s c' g} = μ {g | EndsIn r dim s c g} := by
    intro c' hb'
    have e : ∀ t, μ.real {g | ArrivesAt r dim s t (List.replicate s.network.agents.length ⟨c'⟩) g} =
        μ.real {g | ArrivesAt r dim s t (List.replicate s.network.agents.length ⟨c⟩) g} := by
      intro t
      have := C97_symmetric hr hi hu hs hn dim t ((Finset.range dim).filter fun k => c[k]? ≠ c'[k]?) (List.replicate s.network.agents.length ⟨c⟩)
      rw [List.map_replicate, Deffuant.exchanged_to hb hb'] at this
      rw [Measure.real, this]
      rfl
    have h1 := hconv c'
    simp only [e] at h1
    have h2 := tendsto_nhds_unique h1 (hconv c)
    exact (ENNReal.toReal_eq_toReal_iff' (measure_ne_top _ _) (measure_ne_top _ _)).mp h2
  -- exactly one of the 2 ^ dim events happens
  have hvec : ∀ v : Fin dim → Fin 2, BinaryVector dim (List.ofFn fun k => ((v k : ℕ) : Int)) := by
    intro v
    refine ⟨List.length_ofFn, fun b hb => ?_⟩
    obtain ⟨k, rfl⟩ := List.mem_ofFn.mp hb
    have := (v k).isLt
    omega
  have hdisj : Pairwise fun v w : Fin dim → Fin 2 => AEDisjoint μ {g | EndsIn r dim s (List.ofFn fun k => ((v k : ℕ) : Int)) g} {g | EndsIn r dim s (List.ofFn fun k => ((w k : ℕ) : Int)) g} := by
    intro v w hvw
    refine measure_mono_null (t := {g | ¬ ∃ st : ℕ → Deffuant DiscreteVectorAgent ℝ G, Deffuant.initializeVectors r dim { s with gen := g } = .ok (st 0) ∧ Deffuant.TrajectoryV r st ∧
      ∃ T c, Deffuant.IsBits dim c ∧ ∀ t, T ≤ t → (st t).network.agents = List.replicate s.network.agents.length ⟨c⟩}) ?_ (ae_iff.mp hcons)
    rintro g ⟨h1, h2⟩ ⟨st, h0, hT, T, c', -, h⟩
    rw [Set.mem_ofPred_eq, Deffuant.ends_trajectory h0 hT hn0 h] at h1 h2
    rw [h1, List.ofFn_inj] at h2
    refine hvw (funext fun k => Fin.ext ?_)
    exact_mod_cast congrFun h2 k
  have hall : μ (⋃ v : Fin dim → Fin 2, {g | EndsIn r dim s (List.ofFn fun k => ((v k : ℕ) : Int)) g}) = 1 := by
    refine (prob_compl_eq_zero_iff₀ (NullMeasurableSet.iUnion fun v => hEm _)).mp (measure_eq_zero_iff_ae_notMem.mpr ?_)
    filter_upwards [hcons] with g ⟨st, h0, hT, T, c', hb', h⟩
    refine not_not.mpr (Set.mem_iUnion.mpr ?_)
    refine ⟨fun k => if c'[k]? = some 1 then 1 else 0, (Deffuant.ends_trajectory h0 hT hn0 h _).mpr ?_⟩
    refine List.ext_getElem (by rw [List.length_ofFn, hb'.1]) fun k h1 h2 => ?_
    rw [List.getElem_ofFn]
    show c'[k] = (((if c'[k]? = some 1 then 1 else 0 : Fin 2) : ℕ) : Int)
    rw [List.getElem?_eq_getElem h1]
    rcases hb'.2 _ (List.getElem_mem h1) with e | e <;> rw [e] <;> simp
  rw [measure_iUnion₀ hdisj fun v => hEm _, tsum_fintype, Finset.sum_congr rfl fun v _ => hequal _ (hvec v), Finset.sum_const, Finset.card_univ, Fintype.card_fun,
    Fintype.card_fin, Fintype.card_fin, nsmul_eq_mul] at hall
  rw [one_div, ← ENNReal.inv_pow]
  refine ENNReal.eq_inv_of_mul_eq_one_left ?_
  rw [mul_comm]
  simpa using hall

/-- C97 (from the constructor, with or without `use_network`, for every `mu`): with a threshold above the dimension the random vectors given by the
initialisation end in a consensus on one vector, and every binary vector has the same probability to be it. -/
theorem C97_created (hr : r.IntLawful) (hi : FairIntegers r μ) (hu : Draws r.unit uniform μ) {isqrt : Nat → Nat} {max : Option Int} {thr mu : ℝ} {un : Bool}
    {N : Network DiscreteVectorAgent ℝ} {g₀ : G} {s : Deffuant DiscreteVectorAgent ℝ G} (hw : WF N) (hN : N.agents.length < 2 ^ 64) (hn : 2 ≤ N.agents.length)
    (hc : Deffuant.create isqrt max thr mu un N g₀ = .ok s) {dim : ℕ} (hθ : (dim : ℝ) < thr) {c : List Int} (hb : BinaryVector dim c) :
    μ {g | EndsIn r dim s c g} = (1 / 2) ^ dim := by
  obtain ⟨hs, hthr, hsym⟩ := Deffuant.create_mutual hw hN hc
  have hfacts : s.network.agents.length = N.agents.length ∧
      ∀ i j, i < s.network.agents.length → j < s.network.agents.length → Relation.ReflTransGen s.CanMeet i j := by
    cases un with
    | false =>
      unfold Deffuant.create at hc
      simp only [Bool.false_eq_true, if_false, Except.ok.injEq] at hc
      subst hc
      exact ⟨rfl, C74_plain_connected rfl⟩
    | true =>
      unfold Deffuant.create at hc
      rw [if_pos rfl] at hc
      dsimp only at hc
      split at hc
      · cases hc
      · rename_i hsq
        rw [ne_eq, not_not] at hsq
        obtain ⟨M, hM, hc⟩ := Res.bind_eq_ok.mp hc
        cases hc
        obtain ⟨M', hM', -, hl, -, -, -, -, hconn⟩ := C14_lattice (A := DiscreteVectorAgent) (isqrt N.nAgents) (0 : ℝ)
        rw [hM] at hM'
        cases hM'
        rw [hsq] at hl hconn
        refine ⟨hl, C74_network_connected hs ?_⟩
        dsimp only
        rw [show M.agents.length = N.nAgents from hl]
        exact hconn
  exact C97_uniform hr hi hu hs (by rw [hfacts.1]; exact hn) hsym hfacts.2 (by rw [hthr]; exact hθ) hb

/-! ## The hypotheses are met -/

/-- The three agents, given random vectors with one entry: both values win with probability 1/2 (`mu = 1/2`, without network). -/
example : tapes {g | EndsIn fairRng 1 threeBits [1] g} = 1 / 2 := by
  have := C97_uniform fairRng_lawful fairRng_fair fairRng_unit threeBits_ready (by simp [threeBits]) (fun h => by cases h) (C74_plain_connected rfl) (dim := 1)
    (by norm_num [threeBits]) (c := [1]) ⟨rfl, by simp⟩
  simpa using this

/-- After 7 iterations the outcome 0, 1, 1 is as likely as the outcome 1, 0, 0. -/
example : tapes {g | ArrivesAt fairRng 1 threeBits 7 [⟨[1]⟩, ⟨[0]⟩, ⟨[0]⟩] g} = tapes {g | ArrivesAt fairRng 1 threeBits 7 [⟨[0]⟩, ⟨[1]⟩, ⟨[1]⟩] g} := by
  have := C97_symmetric fairRng_lawful fairRng_fair fairRng_unit threeBits_ready (by simp [threeBits]) 1 7 {0} [⟨[0]⟩, ⟨[1]⟩, ⟨[1]⟩]
  simpa [exchanged] using this

/-- The initialisation gives these three vectors with probability 1/8. -/
example : tapes {g | ∃ u, Deffuant.initializeVectors fairRng 1 { threeBits with gen := g } = .ok u ∧ u.network.agents = [⟨[0]⟩, ⟨[1]⟩, ⟨[1]⟩] ∧ u.gen ∈ Set.univ} =
    (1 / 2) ^ 3 := by
  have := C97_initial fairRng_fair threeBits 1 (xs := [⟨[0]⟩, ⟨[1]⟩, ⟨[1]⟩]) rfl (by
    intro x hx
    simp only [List.mem_cons, List.not_mem_nil, or_false] at hx
    rcases hx with rfl | rfl | rfl <;> exact ⟨rfl, by simp⟩) MeasurableSet.univ
  rw [this]
  simp [threeBits]

end Seldon
