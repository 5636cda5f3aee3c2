import Verif.Props.DeffuantLaw
import Verif.Lemmas.Mirror
/-!
# C91: the number of final clusters of the Deffuant model; C92: its units and labels are immaterial
-/
set_option linter.unusedSectionVars false
namespace Seldon
open Spec Filter Topology MeasureTheory
variable {A F G : Type}

/-! ## C91 -/

/-- Numbers in `[lo, hi]` of which any two are at least `d` apart: there are at most `(hi - lo) / d + 1` of them. -/
theorem card_separated {d : ℝ} (V : Finset ℝ) : ∀ {lo hi : ℝ}, lo ≤ hi → (∀ v ∈ V, lo ≤ v ∧ v ≤ hi) → (∀ v ∈ V, ∀ w ∈ V, v ≠ w → d ≤ |v - w|) →
    0 ≤ d → ((V.card : ℝ) - 1) * d ≤ hi - lo := by
  induction V using Finset.induction_on_max with
  | empty =>
    intro lo hi h _ _ hd
    simp only [Finset.card_empty, Nat.cast_zero, zero_sub, neg_mul, one_mul]
    linarith
  | insert a V hmax ih =>
    intro lo hi h hb hs hd
    have ha : a ∉ V := fun hc => lt_irrefl _ (hmax a hc)
    rw [Finset.card_insert_of_notMem ha]
    have hab := hb a (Finset.mem_insert_self a V)
    rcases V.eq_empty_or_nonempty with rfl | ⟨v, hv⟩
    · simp only [Finset.card_empty, zero_add, Nat.cast_one, sub_self, zero_mul]
      linarith
    · have hgap : ∀ w ∈ V, w ≤ a - d := by
        intro w hw
        have h1 := hs a (Finset.mem_insert_self a V) w (Finset.mem_insert_of_mem hw) (hmax w hw).ne'
        rw [abs_of_pos (sub_pos.mpr (hmax w hw))] at h1
        linarith
      have hb' : ∀ w ∈ V, lo ≤ w ∧ w ≤ a - d := fun w hw => ⟨(hb w (Finset.mem_insert_of_mem hw)).1, hgap w hw⟩
      have := ih (lo := lo) (hi := a - d) ((hb' v hv).1.trans (hb' v hv).2) hb'
        (fun v hv w hw => hs v (Finset.mem_insert_of_mem hv) w (Finset.mem_insert_of_mem hw)) hd
      push_cast
      linarith

/-- C91: without network and with fair, independent draws (`0 < mu < 1`, non-negative threshold) the agents almost surely end in clusters: every opinion
converges, any two different final opinions are at least the threshold apart, so if the initial opinions lie in `[lo, hi]` the number `c` of different final
opinions satisfies `(c - 1) · threshold ≤ hi - lo`; the final opinions, each counted as often as it has agents, have the sum of the initial opinions. -/
theorem C91_clusters [MeasurableSpace G] {μ : Measure G} {r : Rng G ℝ} [IsProbabilityMeasure μ] (hr : r.IntLawful) (h : FairIntegers r μ)
    {s : Deffuant (SimpleAgent ℝ) ℝ G} (hs : s.Ready) (hu : s.useNetwork = false) (h0 : 0 < s.mu) (h1 : s.mu < 1) (ht : 0 ≤ s.threshold) {lo hi : ℝ} (hlh : lo ≤ hi)
    (hx : ∀ x ∈ opinions s.network.agents, lo ≤ x ∧ x ≤ hi) :
    ∀ᵐ g ∂μ, ∃ st : Nat → Deffuant (SimpleAgent ℝ) ℝ G, st 0 = { s with gen := g } ∧ Deffuant.Trajectory r st ∧
      ∃ (V : Finset ℝ) (y : Nat → ℝ),
        (∀ i, i < s.network.agents.length → y i ∈ V ∧ Tendsto (fun t => opinionOf (st t).network.agents i) atTop (𝓝 (y i))) ∧
        (∀ v ∈ V, (∃ i, i < s.network.agents.length ∧ y i = v) ∧ lo ≤ v ∧ v ≤ hi) ∧ (∀ v ∈ V, ∀ w ∈ V, v ≠ w → s.threshold ≤ |v - w|) ∧
        ((V.card : ℝ) - 1) * s.threshold ≤ hi - lo ∧
        ∑ v ∈ V, (((Finset.range s.network.agents.length).filter fun i => y i = v).card : ℝ) * v = (opinions s.network.agents).sum := by
  classical
  filter_upwards [C74_clusters hr h hs h0 h1] with g ⟨st, hst, T, y, hy, hcl⟩
  have e1 : (st 0).mu = s.mu := by rw [hst]
  have e3 : (st 0).network.agents = s.network.agents := by rw [hst]
  obtain ⟨hb, hsum⟩ := C64_limit_hull T (by rw [e1]; exact h0.le) (by rw [e1]; exact h1.le) (y := y) (by rw [e3]; exact hy)
  rw [e3] at hb hsum
  have hbox := hb lo hi hx
  let V := (Finset.range s.network.agents.length).image y
  have hV : ∀ v ∈ V, ∃ i, i < s.network.agents.length ∧ y i = v := by
    intro v hv
    obtain ⟨i, hi, e⟩ := Finset.mem_image.mp hv
    exact ⟨i, Finset.mem_range.mp hi, e⟩
  have hsep : ∀ v ∈ V, ∀ w ∈ V, v ≠ w → s.threshold ≤ |v - w| := by
    intro v hv w hw hne
    obtain ⟨i, hi, rfl⟩ := hV v hv
    obtain ⟨j, hj, rfl⟩ := hV w hw
    have hij : i ≠ j := fun e => hne (by rw [e])
    exact (hcl i j ⟨hi, hj, hij, fun hc => by rw [hu] at hc; cases hc⟩).resolve_left hne
  have hin : ∀ v ∈ V, lo ≤ v ∧ v ≤ hi := by
    intro v hv
    obtain ⟨i, hi, rfl⟩ := hV v hv
    exact hbox i hi
  refine ⟨st, hst, T, V, y, fun i hi => ⟨Finset.mem_image_of_mem _ (Finset.mem_range.mpr hi), hy i hi⟩, fun v hv => ⟨hV v hv, hin v hv⟩, hsep,
    card_separated V hlh hin hsep ht, ?_⟩
  rw [← hsum, ← Finset.sum_fiberwise_of_maps_to (t := V) (g := y) (fun i hi => Finset.mem_image_of_mem _ hi)]
  refine Finset.sum_congr rfl fun v _ => ?_
  rw [Finset.sum_congr rfl (fun i hi => (Finset.mem_filter.mp hi).2), Finset.sum_const, nsmul_eq_mul]

/-- C91 (from the constructor): with the initial opinions `i / n` set by `initialize_agents`, the number `c` of different final opinions satisfies
`(c - 1) · threshold < 1`; with a threshold of 1 or more there is consensus, with more than 1/2 there are at most two clusters. -/
theorem C91_created [MeasurableSpace G] {μ : Measure G} {r : Rng G ℝ} [IsProbabilityMeasure μ] (hr : r.IntLawful) (h : FairIntegers r μ)
    {isqrt : Nat → Nat} {max : Option Int} {thr mu : ℝ} {N : Network (SimpleAgent ℝ) ℝ} {g₀ : G} (hN : WF N) (hsize : N.agents.length < 2 ^ 64)
    (h0 : 0 < mu) (h1 : mu < 1) (ht : 0 ≤ thr) :
    ∃ s₀ s, Deffuant.create isqrt max thr mu false N g₀ = .ok s₀ ∧ s₀.initializeAgents = .ok s ∧
      (∀ i, i < N.agents.length → opinionOf s.network.agents i = (i : ℝ) / N.agents.length) ∧
      ∀ᵐ g ∂μ, ∃ st : Nat → Deffuant (SimpleAgent ℝ) ℝ G, st 0 = { s with gen := g } ∧ Deffuant.Trajectory r st ∧
        ∃ V : Finset ℝ, (∀ i, i < N.agents.length → ∃ v ∈ V, Tendsto (fun t => opinionOf (st t).network.agents i) atTop (𝓝 v)) ∧
          (∀ v ∈ V, ∀ w ∈ V, v ≠ w → thr ≤ |v - w|) ∧ ((V.card : ℝ) - 1) * thr < 1 := by
  refine ⟨⟨⟨max.map Network.toSize, 0⟩, thr, mu, false, N, g₀⟩, ⟨⟨max.map Network.toSize, 0⟩, thr, mu, false,
    { N with agents := (List.range N.agents.length).map (fun i : Nat => (⟨(i : ℝ) / (N.agents.length : ℝ)⟩ : SimpleAgent ℝ)) }, g₀⟩, rfl, ?_, ?_, ?_⟩
  · unfold Deffuant.initializeAgents
    rw [DeGroot.spread_eq]
    rfl
  · intro i hi
    simp [opinionOf, opinions, hi]
  · have hlen : ((List.range N.agents.length).map (fun i : Nat => (⟨(i : ℝ) / (N.agents.length : ℝ)⟩ : SimpleAgent ℝ))).length = N.agents.length := by simp
    rcases Nat.eq_zero_or_pos N.agents.length with hz | hpos
    · have := C91_clusters hr h (s := ⟨⟨max.map Network.toSize, 0⟩, thr, mu, false,
        { N with agents := (List.range N.agents.length).map (fun i : Nat => (⟨(i : ℝ) / (N.agents.length : ℝ)⟩ : SimpleAgent ℝ)) }, g₀⟩)
        ⟨⟨by rw [hlen]; exact hN.rows, by rw [hlen]; exact hN.wrows, hN.lengths, by rw [hlen]; exact hN.range⟩, by rw [hlen]; exact hsize, fun hc => by cases hc⟩
        rfl h0 h1 ht (lo := 0) (hi := 0) (le_refl _) (by
          intro x hx
          obtain ⟨ag, hag, rfl⟩ := List.mem_map.mp hx
          obtain ⟨i, hi', rfl⟩ := List.mem_map.mp hag
          rw [List.mem_range] at hi'
          omega)
      filter_upwards [this] with g ⟨st, e1, e2, V, y, e3, e4, e5, e6, _⟩
      rw [hlen] at e3
      refine ⟨st, e1, e2, V, fun i hi => ⟨_, e3 i hi⟩, e5, ?_⟩
      linarith
    · have hposF : (0 : ℝ) < N.agents.length := by exact_mod_cast hpos
      have := C91_clusters hr h (s := ⟨⟨max.map Network.toSize, 0⟩, thr, mu, false,
        { N with agents := (List.range N.agents.length).map (fun i : Nat => (⟨(i : ℝ) / (N.agents.length : ℝ)⟩ : SimpleAgent ℝ)) }, g₀⟩)
        ⟨⟨by rw [hlen]; exact hN.rows, by rw [hlen]; exact hN.wrows, hN.lengths, by rw [hlen]; exact hN.range⟩, by rw [hlen]; exact hsize, fun hc => by cases hc⟩
        rfl h0 h1 ht (lo := 0) (hi := ((N.agents.length - 1 : Nat) : ℝ) / N.agents.length) (by positivity) (by
          intro x hx
          obtain ⟨ag, hag, rfl⟩ := List.mem_map.mp hx
          obtain ⟨i, hi', rfl⟩ := List.mem_map.mp hag
          rw [List.mem_range] at hi'
          constructor
          · exact div_nonneg (Nat.cast_nonneg _) hposF.le
          · apply div_le_div_of_nonneg_right _ hposF.le
            exact_mod_cast (by omega : i ≤ N.agents.length - 1))
      filter_upwards [this] with g ⟨st, e1, e2, V, y, e3, e4, e5, e6, _⟩
      rw [hlen] at e3
      refine ⟨st, e1, e2, V, fun i hi => ⟨_, e3 i hi⟩, e5, ?_⟩
      have : ((N.agents.length - 1 : Nat) : ℝ) / N.agents.length < 1 := by
        rw [div_lt_one hposF]
        exact_mod_cast (by omega : N.agents.length - 1 < N.agents.length)
      linarith

/-! ## C92: units -/

section
variable [Field F] [LinearOrder F] [IsStrictOrderedRing F]

/-- `s'` is `s` with the opinions measured in other units: `x' = a x + b`, and the threshold, a difference of opinions, `|a|` times as large. -/
structure InUnits (a b : F) (s s' : Deffuant (SimpleAgent F) F G) : Prop where
  size : s'.network.agents.length = s.network.agents.length
  opinion : ∀ i, i < s.network.agents.length → opinionOf s'.network.agents i = a * opinionOf s.network.agents i + b
  threshold : s'.threshold = |a| * s.threshold
  mu : s'.mu = s.mu
  useNetwork : s'.useNetwork = s.useNetwork
  neighbours : s'.network.neighbours = s.network.neighbours
  weights : s'.network.weights = s.network.weights
  direction : s'.network.direction = s.network.direction
  counter : s'.counter = s.counter
  gen : s'.gen = s.gen

namespace Deffuant

def rescaleAgent (a b : F) (x : SimpleAgent F) : SimpleAgent F := ⟨a * x.opinion + b⟩

def rescale (a b : F) (s : Deffuant (SimpleAgent F) F G) : Deffuant (SimpleAgent F) F G :=
  { s with threshold := |a| * s.threshold, network := { s.network with agents := s.network.agents.map (rescaleAgent a b) } }

theorem inUnits_iff (a b : F) (s s' : Deffuant (SimpleAgent F) F G) : InUnits a b s s' ↔ s' = rescale a b s := by
  constructor
  · rintro ⟨h1, h2, h3, h4, h5, h6, h7, h8, h9, h10⟩
    have e : s'.network.agents = s.network.agents.map (rescaleAgent a b) := by
      refine List.ext_getElem (by simpa using h1) fun i hi1 hi2 => ?_
      have hi : i < s.network.agents.length := by omega
      have := h2 i hi
      rw [DeGroot.opinionOf_lt hi1, DeGroot.opinionOf_lt hi] at this
      rw [List.getElem_map]
      cases hx : s'.network.agents[i] with
      | mk x => rw [hx] at this; unfold rescaleAgent; rw [← this]
    rcases s' with ⟨c, th, m, u, ⟨ag, nb, w, d⟩, g⟩
    simp only at h3 h4 h5 h6 h7 h8 h9 h10 e
    subst h3 h4 h5 h6 h7 h8 h9 h10 e
    rfl
  · rintro rfl
    refine ⟨by simp [rescale], fun i hi => ?_, rfl, rfl, rfl, rfl, rfl, rfl, rfl, rfl⟩
    rw [DeGroot.opinionOf_lt (by simpa [rescale] using hi), DeGroot.opinionOf_lt hi]
    simp [rescale, rescaleAgent]

theorem selectPair_rescale (r : Rng G F) (a b : F) (s : Deffuant (SimpleAgent F) F G) :
    selectPair r (rescale a b s) = (selectPair r s).map fun p => (p.1, rescale a b p.2) := by
  unfold selectPair Network.nAgents rescale
  dsimp only
  rw [List.length_map]
  split
  · rw [Res.map_bind]
    exact Res.bind_congr fun p => rfl
  · rw [Res.map_bind]
    refine Res.bind_congr fun p => ?_
    rw [Res.map_bind]
    exact Res.bind_congr fun p => rfl

theorem updateRule_rescale {a : F} (ha : a ≠ 0) (b : F) (i j : Nat) (s : Deffuant (SimpleAgent F) F G) :
    updateRule i j (rescale a b s) = (updateRule i j s).map (rescale a b) := by
  unfold updateRule
  rw [show (rescale a b s).network.agents = s.network.agents.map (rescaleAgent a b) from rfl, rd_map, rd_map, Res.bind_map, Res.map_bind]
  refine Res.bind_congr fun x => ?_
  rw [Res.bind_map, Res.map_bind]
  refine Res.bind_congr fun y => ?_
  have e1 : (rescaleAgent a b x).opinion - (rescaleAgent a b y).opinion = a * (x.opinion - y.opinion) := by
    unfold rescaleAgent
    ring
  dsimp only
  rw [e1, cabs_abs, cabs_abs, show (rescale a b s).threshold = |a| * s.threshold from rfl, show (rescale a b s).mu = s.mu from rfl, abs_mul]
  have hpos : 0 < |a| := abs_pos.mpr ha
  by_cases hc : |x.opinion - y.opinion| < s.threshold
  · rw [if_pos hc, if_pos ((mul_lt_mul_iff_of_pos_left hpos).mpr hc),
      show (⟨(rescaleAgent a b x).opinion - s.mu * (a * (x.opinion - y.opinion))⟩ : SimpleAgent F) =
        rescaleAgent a b ⟨x.opinion - s.mu * (x.opinion - y.opinion)⟩ by unfold rescaleAgent; congr 1; ring, wr_map, Res.bind_map, Res.map_bind]
    refine Res.bind_congr fun ag => ?_
    rw [rd_map, Res.bind_map, Res.map_bind]
    refine Res.bind_congr fun z => ?_
    rw [show (⟨(rescaleAgent a b z).opinion + s.mu * (a * (x.opinion - y.opinion))⟩ : SimpleAgent F) =
        rescaleAgent a b ⟨z.opinion + s.mu * (x.opinion - y.opinion)⟩ by unfold rescaleAgent; congr 1; ring, wr_map, Res.bind_map, Res.map_bind]
    exact Res.bind_congr fun ag => rfl
  · rw [if_neg hc, if_neg (fun h => hc ((mul_lt_mul_iff_of_pos_left hpos).mp h))]
    rfl

theorem iteration_rescale (r : Rng G F) {a : F} (ha : a ≠ 0) (b : F) (s : Deffuant (SimpleAgent F) F G) :
    iteration r updateRule (rescale a b s) = (iteration r updateRule s).map (rescale a b) := by
  unfold iteration
  rw [show (rescale a b s).network.nAgents = s.network.nAgents by simp [rescale, Network.nAgents]]
  refine loop_map (rescale a b) (fun _ t _ => ?_) { s with counter := s.counter.tick }
  unfold interact
  rw [selectPair_rescale, Res.bind_map, Res.map_bind]
  refine Res.bind_congr fun p => ?_
  rw [Res.map_bind]
  refine Res.bind_congr fun i => ?_
  rw [show (rescale a b p.2).network.agents = p.2.network.agents.map (rescaleAgent a b) from rfl, rd_map, Res.bind_map, Res.map_bind]
  refine Res.bind_congr fun _ => ?_
  rw [Res.map_bind]
  refine Res.bind_congr fun j => ?_
  rw [rd_map, Res.bind_map, Res.map_bind]
  exact Res.bind_congr fun _ => updateRule_rescale ha b i j p.2

end Deffuant

/-- C92 (units, one iteration): an iteration with the opinions in other units fails exactly if the original one does, in the same way, and otherwise gives its
result in these units, with the same random numbers. -/
theorem C92_step {r : Rng G F} {a b : F} (ha : a ≠ 0) {s s' : Deffuant (SimpleAgent F) F G} (h : InUnits a b s s') :
    (∀ e, Deffuant.iteration r Deffuant.updateRule s' = .error e ↔ Deffuant.iteration r Deffuant.updateRule s = .error e) ∧
    (∀ t', Deffuant.iteration r Deffuant.updateRule s' = .ok t' ↔ ∃ t, Deffuant.iteration r Deffuant.updateRule s = .ok t ∧ InUnits a b t t') := by
  obtain rfl := (Deffuant.inUnits_iff a b s s').mp h
  rw [Deffuant.iteration_rescale r ha]
  cases Deffuant.iteration r Deffuant.updateRule s with
  | error e => exact ⟨fun e' => by simp [Except.map], fun t' => by simp [Except.map]⟩
  | ok t =>
    refine ⟨fun e' => by simp [Except.map], fun t' => ?_⟩
    constructor
    · intro he
      exact ⟨t, rfl, (Deffuant.inUnits_iff _ _ _ _).mpr (Except.ok.inj he).symm⟩
    · rintro ⟨u, hu, hi⟩
      obtain rfl := Except.ok.inj hu
      rw [(Deffuant.inUnits_iff _ _ _ _).mp hi]
      rfl

/-- C92 (units): the scale and the zero of the opinions are immaterial: with `x' = a x + b` for the initial opinions and the threshold times `|a|`, the same
holds after any number of iterations, for the same random numbers, and the run is as long. -/
theorem C92_units {r : Rng G F} {a b : F} (ha : a ≠ 0) {s s' : Deffuant (SimpleAgent F) F G} (h : InUnits a b s s') {k : Nat} :
    (∀ t, Iterates (Deffuant.iteration r Deffuant.updateRule) s k t → ∃ t', Iterates (Deffuant.iteration r Deffuant.updateRule) s' k t' ∧ InUnits a b t t') ∧
    (∀ t', Iterates (Deffuant.iteration r Deffuant.updateRule) s' k t' → ∃ t, Iterates (Deffuant.iteration r Deffuant.updateRule) s k t ∧ InUnits a b t t') := by
  constructor
  · intro t ht
    induction ht with
    | zero => exact ⟨s', .zero, h⟩
    | succ h1 h2 ih =>
      obtain ⟨t', e1, e2⟩ := ih
      exact ⟨_, .succ e1 (((C92_step ha e2).2 _).mpr ⟨_, h2, (Deffuant.inUnits_iff _ _ _ _).mpr rfl⟩), (Deffuant.inUnits_iff _ _ _ _).mpr rfl⟩
  · intro t' ht
    induction ht with
    | zero => exact ⟨s, .zero, h⟩
    | succ h1 h2 ih =>
      obtain ⟨t, e1, e2⟩ := ih
      obtain ⟨u, e3, e4⟩ := ((C92_step ha e2).2 _).mp h2
      exact ⟨u, .succ e1 e3, e4⟩

end

/-! ## C92: the two values of a question -/

/-- `s'` is `s` with the answers to question `k` renamed by `φ k` (for `φ k 0 = 1`, `φ k 1 = 0`: yes and no exchanged). -/
structure Renamed (φ : Nat → Int → Int) (s s' : Deffuant DiscreteVectorAgent F G) : Prop where
  size : s'.network.agents.length = s.network.agents.length
  dimension : ∀ i (h : i < s.network.agents.length) (h' : i < s'.network.agents.length),
    s'.network.agents[i].opinion.length = s.network.agents[i].opinion.length
  answer : ∀ i (h : i < s.network.agents.length) (h' : i < s'.network.agents.length) k (hk : k < s.network.agents[i].opinion.length)
    (hk' : k < s'.network.agents[i].opinion.length), s'.network.agents[i].opinion[k] = φ k s.network.agents[i].opinion[k]
  threshold : s'.threshold = s.threshold
  mu : s'.mu = s.mu
  useNetwork : s'.useNetwork = s.useNetwork
  neighbours : s'.network.neighbours = s.network.neighbours
  weights : s'.network.weights = s.network.weights
  direction : s'.network.direction = s.network.direction
  counter : s'.counter = s.counter
  gen : s'.gen = s.gen

namespace Deffuant

def renameAgent (φ : Nat → Int → Int) (x : DiscreteVectorAgent) : DiscreteVectorAgent := ⟨x.opinion.mapIdx φ⟩

def rename (φ : Nat → Int → Int) (s : Deffuant DiscreteVectorAgent F G) : Deffuant DiscreteVectorAgent F G :=
  { s with network := { s.network with agents := s.network.agents.map (renameAgent φ) } }

theorem renamed_iff (φ : Nat → Int → Int) (s s' : Deffuant DiscreteVectorAgent F G) : Renamed φ s s' ↔ s' = rename φ s := by
  constructor
  · rintro ⟨h1, h2, h2', h3, h4, h5, h6, h7, h8, h9, h10⟩
    have e : s'.network.agents = s.network.agents.map (renameAgent φ) := by
      refine List.ext_getElem (by simpa using h1) fun i hi1 hi2 => ?_
      have hi : i < s.network.agents.length := by omega
      rw [List.getElem_map]
      have e : s'.network.agents[i].opinion = s.network.agents[i].opinion.mapIdx φ := by
        refine List.ext_getElem (by simpa using h2 i hi hi1) fun k hk1 hk2 => ?_
        rw [List.getElem_mapIdx]
        exact h2' i hi hi1 k (by simpa using hk2) hk1
      cases hx : s'.network.agents[i] with
      | mk x => rw [hx] at e; unfold renameAgent; rw [← e]
    rcases s' with ⟨c, th, m, u, ⟨ag, nb, w, d⟩, g⟩
    simp only at h3 h4 h5 h6 h7 h8 h9 h10 e
    subst h3 h4 h5 h6 h7 h8 h9 h10 e
    rfl
  · rintro rfl
    exact ⟨by simp [rename], fun i h h' => by simp [rename, renameAgent], fun i h h' k hk hk' => by simp [rename, renameAgent], rfl, rfl, rfl, rfl, rfl, rfl, rfl, rfl⟩

theorem rd_mapIdx {α β : Type} (f : Nat → α → β) (l : List α) (i : Nat) : rd (l.mapIdx f) i = (rd l i).map (f i) := by
  unfold rd
  rw [List.getElem?_mapIdx]
  cases l[i]? <;> rfl

theorem wr_mapIdx {α β : Type} (f : Nat → α → β) (l : List α) (i : Nat) (a : α) : wr (l.mapIdx f) i (f i a) = (wr l i a).map (List.mapIdx f) := by
  unfold wr
  rw [List.length_mapIdx]
  split
  · rw [Res.map_ok]
    congr 1
    refine List.ext_getElem (by simp) fun k h1 h2 => ?_
    simp only [List.getElem_set, List.getElem_mapIdx]
    split
    · rename_i h; rw [h]
    · rfl
  · rfl

theorem hamming_mapIdx {φ : Nat → Int → Int} (hφ : ∀ k, Function.Injective (φ k)) (v w : List Int) : hamming (v.mapIdx φ) (w.mapIdx φ) = hamming v w := by
  unfold hamming
  rw [List.length_mapIdx, List.length_mapIdx]
  split
  · rfl
  · have := loop_map (φ := (id : Int → Int)) (n := w.length) (f := fun i (d : Int) => do
      let a ← rd v i
      let b ← rd w i
      if a ≠ b then .ok (d + 1) else .ok d) (f' := fun i (d : Int) => do
      let a ← rd (v.mapIdx φ) i
      let b ← rd (w.mapIdx φ) i
      if a ≠ b then .ok (d + 1) else .ok d) (fun i d _ => by
        dsimp only [id]
        rw [rd_mapIdx, rd_mapIdx, Res.bind_map, Res.map_bind]
        refine Res.bind_congr fun a => ?_
        rw [Res.bind_map, Res.map_bind]
        refine Res.bind_congr fun b => ?_
        simp only [ne_eq, (hφ i).eq_iff]
        split <;> rfl) 0
    dsimp only [id] at this
    rw [this]
    cases loop w.length _ (0 : Int) <;> rfl

theorem selectPair_rename (r : Rng G F) (φ : Nat → Int → Int) (s : Deffuant DiscreteVectorAgent F G) :
    selectPair r (rename φ s) = (selectPair r s).map fun p => (p.1, rename φ p.2) := by
  unfold selectPair Network.nAgents rename
  dsimp only
  rw [List.length_map]
  split
  · rw [Res.map_bind]
    exact Res.bind_congr fun p => rfl
  · rw [Res.map_bind]
    refine Res.bind_congr fun p => ?_
    rw [Res.map_bind]
    exact Res.bind_congr fun p => rfl

section
variable [LT F] [DecidableLT F]

theorem convince_rename (r : Rng G F) {φ : Nat → Int → Int} (hφ : ∀ k, Function.Injective (φ k)) (mu : F) (a b k : Nat) (t : List DiscreteVectorAgent × G) :
    convince r mu a b k (t.1.map (renameAgent φ), t.2) = (convince r mu a b k t).map fun t => (t.1.map (renameAgent φ), t.2) := by
  have hwr : ∀ (i : Nat) (l : List DiscreteVectorAgent) (v : List Int), wr (l.map (renameAgent φ)) i ⟨v.mapIdx φ⟩ = (wr l i ⟨v⟩).map (List.map (renameAgent φ)) :=
    fun i l v => wr_map (renameAgent φ) l i ⟨v⟩
  unfold convince
  dsimp only
  rw [rd_map, rd_map, Res.bind_map, Res.map_bind]
  refine Res.bind_congr fun x => ?_
  rw [Res.bind_map, Res.map_bind]
  refine Res.bind_congr fun y => ?_
  rw [show (renameAgent φ x).opinion = x.opinion.mapIdx φ from rfl, show (renameAgent φ y).opinion = y.opinion.mapIdx φ from rfl, rd_mapIdx, rd_mapIdx, Res.bind_map, Res.map_bind]
  refine Res.bind_congr fun xk => ?_
  rw [Res.bind_map, Res.map_bind]
  refine Res.bind_congr fun yk => ?_
  simp only [ne_eq, (hφ k).eq_iff]
  split
  · split
    · split
      · rw [wr_mapIdx, Res.bind_map, Res.map_bind]
        refine Res.bind_congr fun op => ?_
        rw [hwr, Res.bind_map, Res.map_bind]
        exact Res.bind_congr fun ag => rfl
      · rw [wr_mapIdx, Res.bind_map, Res.map_bind]
        refine Res.bind_congr fun op => ?_
        rw [hwr, Res.bind_map, Res.map_bind]
        exact Res.bind_congr fun ag => rfl
    · rw [wr_mapIdx, Res.bind_map, Res.map_bind]
      refine Res.bind_congr fun op => ?_
      rw [hwr, Res.bind_map, Res.map_bind]
      exact Res.bind_congr fun ag => rfl
  · rfl

theorem updateVector_rename [IntCast F] (r : Rng G F) {φ : Nat → Int → Int} (hφ : ∀ k, Function.Injective (φ k)) (i j : Nat) (s : Deffuant DiscreteVectorAgent F G) :
    updateVector r i j (rename φ s) = (updateVector r i j s).map (rename φ) := by
  unfold updateVector
  rw [show (rename φ s).network.agents = s.network.agents.map (renameAgent φ) from rfl, rd_map, rd_map, Res.bind_map, Res.map_bind]
  refine Res.bind_congr fun x => ?_
  rw [Res.bind_map, Res.map_bind]
  refine Res.bind_congr fun y => ?_
  dsimp only
  rw [show (renameAgent φ x).opinion = x.opinion.mapIdx φ from rfl, show (renameAgent φ y).opinion = y.opinion.mapIdx φ from rfl, hamming_mapIdx hφ, Res.map_bind,
    List.length_mapIdx]
  refine Res.bind_congr fun d => ?_
  rw [show (rename φ s).threshold = s.threshold from rfl, show (rename φ s).mu = s.mu from rfl, show (rename φ s).gen = s.gen from rfl]
  split
  · rw [loop_map (fun t : List DiscreteVectorAgent × G => (t.1.map (renameAgent φ), t.2)) (f := fun k t => convince r s.mu i j k t)
      (fun k t _ => convince_rename r hφ s.mu i j k t) (s.network.agents, s.gen), Res.bind_map, Res.map_bind]
    exact Res.bind_congr fun t => rfl
  · rfl

theorem iteration_rename [IntCast F] (r : Rng G F) {φ : Nat → Int → Int} (hφ : ∀ k, Function.Injective (φ k)) (s : Deffuant DiscreteVectorAgent F G) :
    iteration r (updateVector r) (rename φ s) = (iteration r (updateVector r) s).map (rename φ) := by
  unfold iteration
  rw [show (rename φ s).network.nAgents = s.network.nAgents by simp [rename, Network.nAgents]]
  refine loop_map (rename φ) (fun _ t _ => ?_) { s with counter := s.counter.tick }
  unfold interact
  rw [selectPair_rename, Res.bind_map, Res.map_bind]
  refine Res.bind_congr fun p => ?_
  rw [Res.map_bind]
  refine Res.bind_congr fun i => ?_
  rw [show (rename φ p.2).network.agents = p.2.network.agents.map (renameAgent φ) from rfl, rd_map, Res.bind_map, Res.map_bind]
  refine Res.bind_congr fun _ => ?_
  rw [Res.map_bind]
  refine Res.bind_congr fun j => ?_
  rw [rd_map, Res.bind_map, Res.map_bind]
  exact Res.bind_congr fun _ => updateVector_rename r hφ i j p.2

end
end Deffuant

section
variable [LT F] [DecidableLT F] [IntCast F]

/-- C92 (answers, one iteration): with the answers to each question renamed one-to-one, an iteration fails exactly if the original one does, in the same way, and
otherwise gives its result with the answers renamed, with the same random numbers. -/
theorem C92_answers_step {r : Rng G F} {φ : Nat → Int → Int} (hφ : ∀ k, Function.Injective (φ k)) {s s' : Deffuant DiscreteVectorAgent F G} (h : Renamed φ s s') :
    (∀ e, Deffuant.iteration r (Deffuant.updateVector r) s' = .error e ↔ Deffuant.iteration r (Deffuant.updateVector r) s = .error e) ∧
    (∀ t', Deffuant.iteration r (Deffuant.updateVector r) s' = .ok t' ↔ ∃ t, Deffuant.iteration r (Deffuant.updateVector r) s = .ok t ∧ Renamed φ t t') := by
  obtain rfl := (Deffuant.renamed_iff φ s s').mp h
  rw [Deffuant.iteration_rename r hφ]
  cases Deffuant.iteration r (Deffuant.updateVector r) s with
  | error e => exact ⟨fun e' => by simp [Except.map], fun t' => by simp [Except.map]⟩
  | ok t =>
    refine ⟨fun e' => by simp [Except.map], fun t' => ?_⟩
    constructor
    · intro he
      exact ⟨t, rfl, (Deffuant.renamed_iff _ _ _).mpr (Except.ok.inj he).symm⟩
    · rintro ⟨u, hu, hi⟩
      obtain rfl := Except.ok.inj hu
      rw [(Deffuant.renamed_iff _ _ _).mp hi]
      rfl

/-- C92 (answers): in the model with binary vectors it does not matter which answer to a question is called 0 and which 1: renaming them in the initial vectors
renames them in all later ones, for the same random numbers. -/
theorem C92_answers {r : Rng G F} {φ : Nat → Int → Int} (hφ : ∀ k, Function.Injective (φ k)) {s s' : Deffuant DiscreteVectorAgent F G} (h : Renamed φ s s') {k : Nat} :
    (∀ t, Iterates (Deffuant.iteration r (Deffuant.updateVector r)) s k t → ∃ t', Iterates (Deffuant.iteration r (Deffuant.updateVector r)) s' k t' ∧ Renamed φ t t') ∧
    (∀ t', Iterates (Deffuant.iteration r (Deffuant.updateVector r)) s' k t' → ∃ t, Iterates (Deffuant.iteration r (Deffuant.updateVector r)) s k t ∧ Renamed φ t t') := by
  constructor
  · intro t ht
    induction ht with
    | zero => exact ⟨s', .zero, h⟩
    | succ h1 h2 ih =>
      obtain ⟨t', e1, e2⟩ := ih
      exact ⟨_, .succ e1 (((C92_answers_step hφ e2).2 _).mpr ⟨_, h2, (Deffuant.renamed_iff _ _ _).mpr rfl⟩), (Deffuant.renamed_iff _ _ _).mpr rfl⟩
  · intro t' ht
    induction ht with
    | zero => exact ⟨s, .zero, h⟩
    | succ h1 h2 ih =>
      obtain ⟨t, e1, e2⟩ := ih
      obtain ⟨u, e3, e4⟩ := ((C92_answers_step hφ e2).2 _).mp h2
      exact ⟨u, .succ e1 e3, e4⟩

end

/-! ## The hypotheses are met -/

/-- Three agents with opinions 0, 1/2, 1, threshold 2: one cluster. -/
example : ∀ᵐ g ∂tapes, ∃ st : Nat → Deffuant (SimpleAgent ℝ) ℝ (ℕ → ℝ), st 0 = threeAgents g ∧ Deffuant.Trajectory fairRng st ∧
    ∃ V : Finset ℝ, V.card ≤ 1 ∧ ∀ i, i < 3 → ∃ v ∈ V, Tendsto (fun t => opinionOf (st t).network.agents i) atTop (𝓝 v) := by
  have := C91_clusters fairRng_lawful fairRng_fair (threeAgents_ready 0) rfl (by norm_num [threeAgents]) (by norm_num [threeAgents]) (by norm_num [threeAgents]) (lo := 0) (hi := 1)
    (by norm_num) (by
      intro x hx
      simp only [threeAgents, opinions, List.map_cons, List.map_nil, List.mem_cons, List.not_mem_nil, or_false] at hx
      rcases hx with rfl | rfl | rfl <;> norm_num)
  filter_upwards [this] with g ⟨st, e1, e2, V, y, e3, _, _, e6, _⟩
  refine ⟨st, e1, e2, V, ?_, fun i hi => ⟨_, e3 i hi⟩⟩
  have e6 : ((V.card : ℝ) - 1) * 2 ≤ 1 - 0 := e6
  have : (V.card : ℝ) < 2 := by linarith
  have : V.card < 2 := by exact_mod_cast this
  omega

/-- The three agents with opinions from -1 to 1 instead of 0 to 1: `x' = 2 x - 1`, threshold 4. -/
example (g : ℕ → ℝ) : InUnits 2 (-1) (threeAgents g) ⟨⟨none, 0⟩, 4, 1 / 4, false, ⟨[⟨-1⟩, ⟨0⟩, ⟨1⟩], [[], [], []], [[], [], []], .incoming⟩, g⟩ := by
  refine ⟨rfl, fun i hi => ?_, by norm_num [threeAgents], rfl, rfl, rfl, rfl, rfl, rfl, rfl⟩
  match i, hi with
  | 0, _ => norm_num [threeAgents, opinionOf, opinions]
  | 1, _ => norm_num [threeAgents, opinionOf, opinions]
  | 2, _ => norm_num [threeAgents, opinionOf, opinions]

/-- Two agents and two questions, the answers to the first one exchanged. -/
example : (∀ k, Function.Injective fun v : Int => if k = 0 then 1 - v else v) ∧ Renamed (fun k v => if k = 0 then 1 - v else v)
    (⟨⟨none, 0⟩, 3, 1 / 2, false, ⟨[⟨[0, 1]⟩, ⟨[1, 1]⟩], [[], []], [[], []], .incoming⟩, ()⟩ : Deffuant DiscreteVectorAgent ℚ Unit)
    ⟨⟨none, 0⟩, 3, 1 / 2, false, ⟨[⟨[1, 1]⟩, ⟨[0, 1]⟩], [[], []], [[], []], .incoming⟩, ()⟩ := by
  refine ⟨fun k v w h => ?_, (Deffuant.renamed_iff _ _ _).mpr rfl⟩
  dsimp only at h
  split at h <;> omega

end Seldon
