import Verif.Lemmas.Rescale
import Verif.Props.Mirror
import Verif.Props.ContactLaw
import Verif.Props.Indifference
/-!
# Property C105: units of opinions and of reluctances in the activity-driven and inertial models
-/
set_option linter.unusedSectionVars false
namespace Seldon
open Spec
variable {A F G : Type}

/-- `s'` describes the same situation as `s` with opinions measured in a unit that is `u` times smaller and reluctances in a unit `c` times smaller: opinions
(of agents and bots) are multiplied by `u`, reluctances by `c`, `K` by `c u`, and `alpha` is divided by `u`.  All other settings and attributes of agents, the
edges and weights, the random number generator and the iteration counter are the same. -/
structure InOtherUnits [Mul F] [Div F] (u c : F) (s s' : Activity (ActivityAgent F) F G) : Prop where
  opinions : s'.network.agents.map (·.opinion) = s.network.agents.map (fun a => u * a.opinion)
  activities : s'.network.agents.map (·.activity) = s.network.agents.map (·.activity)
  reluctances : s'.network.agents.map (·.reluctance) = s.network.agents.map (fun a => c * a.reluctance)
  neighbours : s'.network.neighbours = s.network.neighbours
  weights : s'.network.weights = s.network.weights
  direction : s'.network.direction = s.network.direction
  contactProb : s'.contactProb = s.contactProb
  gen : s'.gen = s.gen
  counter : s'.counter = s.counter
  settings : s'.p = { s.p with botOpinion := s.p.botOpinion.map (fun x => u * x), K := c * u * s.p.K, alpha := s.p.alpha / u }

/-- The same for the inertial model, where the velocities are multiplied by `u` as well. -/
structure InOtherUnitsInertial [Mul F] [Div F] (u c : F) (s s' : Inertial F G) : Prop where
  opinions : s'.base.network.agents.map (·.opinion) = s.base.network.agents.map (fun a => u * a.opinion)
  velocities : s'.base.network.agents.map (·.velocity) = s.base.network.agents.map (fun a => u * a.velocity)
  activities : s'.base.network.agents.map (·.activity) = s.base.network.agents.map (·.activity)
  reluctances : s'.base.network.agents.map (·.reluctance) = s.base.network.agents.map (fun a => c * a.reluctance)
  neighbours : s'.base.network.neighbours = s.base.network.neighbours
  weights : s'.base.network.weights = s.base.network.weights
  direction : s'.base.network.direction = s.base.network.direction
  contactProb : s'.base.contactProb = s.base.contactProb
  gen : s'.base.gen = s.base.gen
  counter : s'.base.counter = s.base.counter
  settings : s'.base.p = { s.base.p with botOpinion := s.base.p.botOpinion.map (fun x => u * x), K := c * u * s.base.p.K, alpha := s.base.p.alpha / u }
  friction : s'.friction = s.friction

section
variable [Field F] [LinearOrder F] [IsStrictOrderedRing F] {u c : F}

theorem inOtherUnits_iff (s s' : Activity (ActivityAgent F) F G) : InOtherUnits u c s s' ↔ s' = Units.state u c s := by
  constructor
  · intro h
    have e : s'.network.agents = s.network.agents.map (UnitAgent.scale u c) := by
      apply List.ext_getElem?
      intro i
      have h1 := congrArg (·[i]?) h.opinions
      have h2 := congrArg (·[i]?) h.activities
      have h3 := congrArg (·[i]?) h.reluctances
      simp only [List.getElem?_map] at h1 h2 h3
      rw [List.getElem?_map]
      cases ha : s'.network.agents[i]? <;> cases hb : s.network.agents[i]? <;> rw [ha, hb] at h1 h2 h3
      · rfl
      · simp at h1
      · simp at h1
      · rename_i a b
        simp only [Option.map_some, Option.some.injEq] at h1 h2 h3
        cases a; cases b; simp_all [UnitAgent.scale]
    rcases s' with ⟨c, p, ⟨ag, nb, w, d⟩, cp, g⟩
    obtain ⟨-, -, -, h4, h5, h6, h7, h8, h9, h10⟩ := h
    simp only at e h4 h5 h6 h7 h8 h9 h10
    subst h4 h5 h6 h7 h8 h9 h10 e
    rfl
  · rintro rfl
    constructor <;> simp [Units.state, Units.network, Network.mapAgents, UnitAgent.scale, Units.settings, Function.comp_def]

theorem inOtherUnitsInertial_iff (s s' : Inertial F G) : InOtherUnitsInertial u c s s' ↔ s' = Units.inertial u c s := by
  constructor
  · intro h
    have e : s'.base.network.agents = s.base.network.agents.map (UnitAgent.scale u c) := by
      apply List.ext_getElem?
      intro i
      have h1 := congrArg (·[i]?) h.opinions
      have h1' := congrArg (·[i]?) h.velocities
      have h2 := congrArg (·[i]?) h.activities
      have h3 := congrArg (·[i]?) h.reluctances
      simp only [List.getElem?_map] at h1 h1' h2 h3
      rw [List.getElem?_map]
      cases ha : s'.base.network.agents[i]? <;> cases hb : s.base.network.agents[i]? <;> rw [ha, hb] at h1 h1' h2 h3
      · rfl
      · simp at h1
      · simp at h1
      · rename_i a b
        simp only [Option.map_some, Option.some.injEq] at h1 h1' h2 h3
        cases a; cases b; simp_all [UnitAgent.scale]
    rcases s' with ⟨⟨c, p, ⟨ag, nb, w, d⟩, cp, g⟩, f⟩
    obtain ⟨-, -, -, -, h4, h5, h6, h7, h8, h9, h10, h11⟩ := h
    simp only at e h4 h5 h6 h7 h8 h9 h10 h11
    subst h4 h5 h6 h7 h8 h9 h10 h11 e
    rfl
  · rintro rfl
    constructor <;>
      simp [Units.inertial, Units.state, Units.network, Network.mapAgents, UnitAgent.scale, Units.settings, Function.comp_def]

variable {o : MathOps F} {pick : List (Nat × F) → Nat} {r : Rng G F}

/-- C105 (activity-driven model), one iteration: in other units the iteration fails in the same way, or leads to the same state in the other units.  The unit of
the reluctances is arbitrary; the unit of opinions can be changed if all homophilies are 0. -/
theorem C105_step (u0 : u ≠ 0) (c0 : c ≠ 0) {s s' : Activity (ActivityAgent F) F G} (h : InOtherUnits u c s s')
    (hu : u = 1 ∨ ((∀ x, o.pow x (-0) = 1) ∧ s.p.homophily = 0 ∧ ∀ b ∈ s.p.botHomophily, b = 0)) :
    (∀ t, Activity.iteration o pick r s = .ok t → ∃ t', Activity.iteration o pick r s' = .ok t' ∧ InOtherUnits u c t t') ∧
    (∀ e, Activity.iteration o pick r s = .error e → Activity.iteration o pick r s' = .error e) := by
  obtain rfl := (inOtherUnits_iff _ _).mp h
  rw [Units.iteration (hu.imp id fun h => h.1) u0 c0 pick r (hu.imp id fun h => h.2)]
  constructor
  · intro t ht
    rw [ht]
    exact ⟨_, rfl, (inOtherUnits_iff _ _).mpr rfl⟩
  · intro e he
    rw [he]; rfl

/-- C105 (activity-driven model): the trajectory in other units is the same trajectory in other units, for all numbers of iterations, in both modes, with or
without bots. -/
theorem C105_activity (u0 : u ≠ 0) (c0 : c ≠ 0) {s s' t : Activity (ActivityAgent F) F G} (h : InOtherUnits u c s s')
    (hu : u = 1 ∨ ((∀ x, o.pow x (-0) = 1) ∧ s.p.homophily = 0 ∧ ∀ b ∈ s.p.botHomophily, b = 0)) {k : Nat}
    (ht : Iterates (Activity.iteration o pick r) s k t) : ∃ t', Iterates (Activity.iteration o pick r) s' k t' ∧ InOtherUnits u c t t' := by
  have key : (∃ t', Iterates (Activity.iteration o pick r) s' k t' ∧ InOtherUnits u c t t') ∧ t.p = s.p := by
    induction ht with
    | zero => exact ⟨⟨s', .zero, h⟩, rfl⟩
    | succ _ hv ih =>
      obtain ⟨⟨t', h1, h2⟩, hp⟩ := ih
      obtain ⟨v', h3, h4⟩ := (C105_step u0 c0 h2 (by rw [hp]; exact hu)).1 _ hv
      exact ⟨⟨v', .succ h1 h3, h4⟩, (Activity.iteration_frame hv).2.1.trans hp⟩
  exact key.1

/-- C105 (inertial model). -/
theorem C105_inertial (u0 : u ≠ 0) (c0 : c ≠ 0) {s s' t : Inertial F G} (h : InOtherUnitsInertial u c s s')
    (hu : u = 1 ∨ ((∀ x, o.pow x (-0) = 1) ∧ s.base.p.homophily = 0 ∧ ∀ b ∈ s.base.p.botHomophily, b = 0)) {k : Nat}
    (ht : Iterates (Inertial.iteration o pick r) s k t) : ∃ t', Iterates (Inertial.iteration o pick r) s' k t' ∧ InOtherUnitsInertial u c t t' := by
  have key : (∃ t', Iterates (Inertial.iteration o pick r) s' k t' ∧ InOtherUnitsInertial u c t t') ∧ t.base.p = s.base.p := by
    induction ht with
    | zero => exact ⟨⟨s', .zero, h⟩, rfl⟩
    | succ _ hv ih =>
      obtain ⟨⟨t', h1, h2⟩, hp⟩ := ih
      obtain rfl := (inOtherUnitsInertial_iff _ _).mp h2
      refine ⟨⟨_, .succ h1 ?_, (inOtherUnitsInertial_iff _ _).mpr rfl⟩, (Inertial.iteration_frame hv).2.1.trans hp⟩
      rw [Units.inertialIteration (hu.imp id fun h => h.1) u0 c0 pick r (by rw [Units.Fits, hp]; exact hu.imp id fun h => h.2), hv]
      rfl
  exact key.1

end

/-! ## with homophily: the same law -/

theorem successive_scale {w w' : ℕ → ℝ} {l : ℝ} (hl : l ≠ 0) (t : List ℕ) : ∀ (S : Finset ℕ), (∀ j ∈ S, w' j = l * w j) → successive w' S t = successive w S t := by
  induction t with
  | nil => intro S _; rfl
  | cons i t ih =>
    intro S h
    unfold successive
    split
    · rename_i hi
      rw [ih (S.erase i) fun j hj => h j (Finset.mem_of_mem_erase hj), h i hi, Finset.sum_congr rfl h, ← Finset.mul_sum, mul_div_mul_left _ _ hl]
    · rfl

theorem contactWeight_scale {u h : ℝ} {x : ℕ → ℝ} {n i : ℕ} (hi : i < n)
    (hx : ∀ i j, i < n → j < n → i ≠ j → 1 / 10 ^ 10 ≤ |x i - x j| ∧ 1 / 10 ^ 10 ≤ |u| * |x i - x j|) (j : ℕ) (hj : j ∈ Finset.range n) :
    contactWeight h (fun i => u * x i) i j = |u| ^ (-h) * contactWeight h x i j := by
  unfold contactWeight
  split
  · rw [mul_zero]
  · rename_i hji
    obtain ⟨h1, h2⟩ := hx i j hi (Finset.mem_range.mp hj) (Ne.symm hji)
    rw [← mul_sub, abs_mul, max_eq_right h1, max_eq_right h2, Real.mul_rpow (abs_nonneg u) (abs_nonneg _)]

section
open MeasureTheory
open scoped ENNReal
variable [ActiveAgent A XR] [MeasurableSpace G] {μ : Measure G} [IsProbabilityMeasure μ]
  {o : MathOps XR} {pick : List (ℕ × XR) → ℕ} {r : Rng G XR} {x a h : ℕ → ℝ} {q : ℝ}

/-- C105, who meets whom with homophily: multiplying all opinions by `u ≠ 0` does not change the law of the random network of an iteration (nor the law of
the generator it leaves), as long as no two opinions are closer than the cut-off `1e-10` in either unit. -/
theorem C105_law [LawfulActiveAgent A XR] (hr : DrawsUniform r μ) (hp : Reservoir.Pick.Min pick) (ho : o.toOps = XR.ops) {s s' : Activity A XR G}
    (hs : s.Ready) (hs' : s'.Ready) (hlen : s'.network.agents.length = s.network.agents.length) {u : ℝ} (u0 : u ≠ 0)
    (hn : Numbers s.p s.network.agents x a h q) (hn' : Numbers s'.p s'.network.agents (fun i => u * x i) a h q)
    (hcon : ∀ i, contactsOf s'.p i = contactsOf s.p i)
    (hm : ∀ i, i < s.network.agents.length → 0 < contactsOf s.p i ∧ contactsOf s.p i < s.network.agents.length)
    (hx : ∀ i j, i < s.network.agents.length → j < s.network.agents.length → i ≠ j → 1 / 10 ^ 10 ≤ |x i - x j| ∧ 1 / 10 ^ 10 ≤ |u| * |x i - x j|)
    (R : ℕ → ℕ → Prop) {T : Set G} (hT : MeasurableSet T) :
    μ {g | ∃ t, Activity.iteration o pick r { s' with gen := g } = .ok t ∧
      (∀ i j, i < s.network.agents.length → j < s.network.agents.length → (i ∈ (row t.network j).map (·.1) ↔ R i j)) ∧ t.gen ∈ T} =
    μ {g | ∃ t, Activity.iteration o pick r { s with gen := g } = .ok t ∧
      (∀ i j, i < s.network.agents.length → j < s.network.agents.length → (i ∈ (row t.network j).map (·.1) ↔ R i j)) ∧ t.gen ∈ T} := by
  classical
  have fin : ∀ {n : ℕ} {P : ℕ → ℕ → Prop}, (∀ i j, i < n → j < n → P i j) ↔ ∀ i j : Fin n, P i j :=
    fun {n P} => ⟨fun h i j => h i j i.2 j.2, fun h i j hi hj => h ⟨i, hi⟩ ⟨j, hj⟩⟩
  have e := C71_network hr hp ho hs hn hm (fun i j => R i j) hT
  have e' := C71_network hr hp ho hs' hn' (by intro i hi; rw [hcon, hlen]; exact hm i (by omega)) (fun i j => R i j) hT
  simp only [fin (n := s.network.agents.length)]
  rw [e]
  have e2 : ∀ t : Activity A XR G, (∀ i j : Fin s.network.agents.length, ((i : ℕ) ∈ (row t.network j).map (·.1) ↔ R i j)) ↔
      ∀ i j : Fin s'.network.agents.length, ((i : ℕ) ∈ (row t.network j).map (·.1) ↔ R i j) := by
    intro t
    rw [← fin (P := fun i j => i ∈ (row t.network j).map (·.1) ↔ R i j), ← fin (P := fun i j => i ∈ (row t.network j).map (·.1) ↔ R i j), hlen]
  simp only [e2]
  rw [e']
  clear e e' e2
  congr 1
  generalize hn'' : s'.network.agents.length = n' at *
  obtain rfl := hlen
  have hk : (fun i => (contactsOf s'.p i).toNat) = fun i => (contactsOf s.p i).toNat := by funext i; rw [hcon]
  rw [hk]
  refine Finset.sum_congr rfl fun z _ => ?_
  congr 2
  refine Finset.prod_congr rfl fun i _ => ?_
  unfold contactLaw
  rw [successive_scale (l := |u| ^ (-h i)) (Real.rpow_pos_of_pos (abs_pos.mpr u0) _).ne' _ _ (contactWeight_scale i.2 hx)]

end

/-! ## concrete cases -/

/-- With homophily and a bot: twice the reluctances and twice `K`. -/
example : ∃ t t' : Activity (ActivityAgent ℚ) ℚ Nat, Activity.iteration ratOps firstMin counterRng Activity.sampleBots = .ok t ∧
    Activity.iteration ratOps firstMin counterRng (Units.state 1 2 Activity.sampleBots) = .ok t' ∧ InOtherUnits 1 2 t t' := by
  obtain ⟨_, _, _, t, h, -⟩ := C43_activity (o := ratOps) firstMin_valid counterRng Activity.sampleBots_ready
  obtain ⟨t', h', m⟩ := (C105_step (o := ratOps) (pick := firstMin) (r := counterRng) one_ne_zero two_ne_zero ((inOtherUnits_iff _ _).mpr rfl)
    (Or.inl rfl)).1 t h
  exact ⟨t, t', h, h', m⟩

/-- Without homophily: opinions in another unit, any number of iterations. -/
example (k : Nat) : ∃ t t' : Activity (ActivityAgent ℚ) ℚ Nat, Iterates (Activity.iteration flatOps firstMin counterRng) Activity.flat k t ∧
    Iterates (Activity.iteration flatOps firstMin counterRng) (Units.state 3 (1 / 2) Activity.flat) k t' ∧ InOtherUnits 3 (1 / 2) t t' := by
  obtain ⟨t, h, -⟩ := C43_total (o := flatOps) firstMin_valid counterRng Activity.flat_ready.1 k
  obtain ⟨t', h', m⟩ := C105_activity (u := 3) (c := 1 / 2) (o := flatOps) (pick := firstMin) (r := counterRng) (by norm_num) (by norm_num) ((inOtherUnits_iff _ _).mpr rfl)
    (Or.inr ⟨fun _ => rfl, by decide +kernel, by decide +kernel⟩) h
  exact ⟨t, t', h, h', m⟩

/-- The three agents of `xrSample` with the opinions 0, 5 and 10 instead of 0, 1 and 2. -/
noncomputable def xrSampleFive : Activity (ActivityAgent XR) XR (ℕ → ℝ) :=
  { xrSample with
    network := ⟨[⟨XR.fin 0, XR.fin (1 / 2), 1⟩, ⟨XR.fin 5, XR.fin (1 / 2), 1⟩, ⟨XR.fin 10, XR.fin (1 / 2), 1⟩], [[], [], []], [[], [], []], .incoming⟩ }

theorem xrSampleFive_ready : xrSampleFive.Ready where
  wf := by
    refine ⟨rfl, rfl, ?_, ?_⟩
    · intro k h1 h2
      have : k < 3 := h1
      interval_cases k <;> rfl
    · intro row hrow j hj
      have : row = [] := by
        have : row ∈ ([[], [], []] : List (List ℕ)) := hrow
        simpa using this
      rw [this] at hj
      simp at hj
  incoming := rfl
  fit := xrSample_ready.fit
  botOpinion := Nat.zero_le _
  probabilistic := rfl

theorem xrSampleFive_numbers : Numbers xrSampleFive.p xrSampleFive.network.agents (fun i => 5 * (i : ℝ)) (fun _ => 1 / 2) (fun _ => 1) (1 / 2) where
  opinion := by
    intro i hi
    have : i < 3 := hi
    interval_cases i
    · show XR.fin 0 = XR.fin (5 * ((0 : ℕ) : ℝ)); norm_num
    · show XR.fin 5 = XR.fin (5 * ((1 : ℕ) : ℝ)); norm_num
    · show XR.fin 10 = XR.fin (5 * ((2 : ℕ) : ℝ)); norm_num
  activity := by
    intro i hi
    have : i < 3 := hi
    interval_cases i <;> rfl
  homophily := fun i _ => rfl
  reciprocity := rfl

/-- Who meets whom has the same law for the opinions 0, 5, 10 as for 0, 1, 2. -/
example (R : ℕ → ℕ → Prop) : tapes {g | ∃ t, Activity.iteration xrOps exPick tapeRng { xrSampleFive with gen := g } = .ok t ∧
      (∀ i j, i < xrSample.network.agents.length → j < xrSample.network.agents.length → (i ∈ (row t.network j).map (·.1) ↔ R i j)) ∧ t.gen ∈ Set.univ} =
    tapes {g | ∃ t, Activity.iteration xrOps exPick tapeRng { xrSample with gen := g } = .ok t ∧
      (∀ i j, i < xrSample.network.agents.length → j < xrSample.network.agents.length → (i ∈ (row t.network j).map (·.1) ↔ R i j)) ∧ t.gen ∈ Set.univ} := by
  have hl : xrSample.network.agents.length = 3 := rfl
  refine C105_law (u := 5) tapeRng_uniform exPick_min rfl xrSample_ready xrSampleFive_ready rfl (by norm_num) xrSample_numbers xrSampleFive_numbers
    (fun _ => rfl) (fun i hi => by rw [xrSample_contacts, hl]; norm_num) ?_ R MeasurableSet.univ
  rw [hl]
  intro i j hi hj hij
  interval_cases i <;> interval_cases j <;> first | exact absurd rfl hij | norm_num

end Seldon
