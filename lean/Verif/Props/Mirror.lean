import Verif.Lemmas.Mirror
import Verif.Props.ActivityDynamics
/-!
# Property C48: mirror symmetry
-/
set_option linter.unusedSectionVars false
namespace Seldon
open Spec
variable {A F G : Type}

/-- `s'` is the mirror image of `s`: opinions and the opinions of the bots have changed sign, all other settings and attributes of agents,
the edges and weights, the random number generator and the iteration counter are the same. -/
structure MirrorImage [Neg F] (s s' : Activity (ActivityAgent F) F G) : Prop where
  opinions : s'.network.agents.map (·.opinion) = s.network.agents.map (fun a => -a.opinion)
  activities : s'.network.agents.map (·.activity) = s.network.agents.map (·.activity)
  reluctances : s'.network.agents.map (·.reluctance) = s.network.agents.map (·.reluctance)
  neighbours : s'.network.neighbours = s.network.neighbours
  weights : s'.network.weights = s.network.weights
  direction : s'.network.direction = s.network.direction
  contactProb : s'.contactProb = s.contactProb
  gen : s'.gen = s.gen
  counter : s'.counter = s.counter
  settings : s'.p = { s.p with botOpinion := s.p.botOpinion.map (fun x => -x) }

/-- The same for the inertial model, where the velocities change sign as well. -/
structure MirrorImageInertial [Neg F] (s s' : Inertial F G) : Prop where
  opinions : s'.base.network.agents.map (·.opinion) = s.base.network.agents.map (fun a => -a.opinion)
  velocities : s'.base.network.agents.map (·.velocity) = s.base.network.agents.map (fun a => -a.velocity)
  activities : s'.base.network.agents.map (·.activity) = s.base.network.agents.map (·.activity)
  reluctances : s'.base.network.agents.map (·.reluctance) = s.base.network.agents.map (·.reluctance)
  neighbours : s'.base.network.neighbours = s.base.network.neighbours
  weights : s'.base.network.weights = s.base.network.weights
  direction : s'.base.network.direction = s.base.network.direction
  contactProb : s'.base.contactProb = s.base.contactProb
  gen : s'.base.gen = s.base.gen
  counter : s'.base.counter = s.base.counter
  settings : s'.base.p = { s.base.p with botOpinion := s.base.p.botOpinion.map (fun x => -x) }
  friction : s'.friction = s.friction

section
variable [Zero F] [One F] [Sub F] [Mul F] [Add F] [Div F] [Neg F] [NatCast F] [LT F] [LE F] [DecidableLT F] [DecidableLE F] [MirrorArith F]

theorem mirrorImage_iff (s s' : Activity (ActivityAgent F) F G) : MirrorImage s s' ↔ s' = Mirror.state s := by
  constructor
  · intro h
    have e : s'.network.agents = s.network.agents.map MirrorAgent.reflect := by
      apply List.ext_getElem?
      intro i
      have h1 := congrArg (·[i]?) h.opinions
      have h2 := congrArg (·[i]?) h.activities
      have h3 := congrArg (·[i]?) h.reluctances
      simp only [List.getElem?_map] at h1 h2 h3
      rw [List.getElem?_map]
      cases ha : s'.network.agents[i]? <;> cases hb : s.network.agents[i]? <;> rw [ha, hb] at h1 h2 h3 <;> simp_all [MirrorAgent.reflect]
      rename_i a b
      cases a; cases b; simp_all
    rcases s' with ⟨c, p, ⟨ag, nb, w, d⟩, cp, g⟩
    obtain ⟨-, -, -, h4, h5, h6, h7, h8, h9, h10⟩ := h
    simp only at e h4 h5 h6 h7 h8 h9 h10
    subst h4 h5 h6 h7 h8 h9 h10 e
    rfl
  · rintro rfl
    constructor <;> simp [Mirror.state, Mirror.network, Network.mapAgents, MirrorAgent.reflect, Mirror.settings, Function.comp_def]

theorem mirrorImageInertial_iff (s s' : Inertial F G) : MirrorImageInertial s s' ↔ s' = Mirror.inertial s := by
  constructor
  · intro h
    have e : s'.base.network.agents = s.base.network.agents.map MirrorAgent.reflect := by
      apply List.ext_getElem?
      intro i
      have h1 := congrArg (·[i]?) h.opinions
      have h1' := congrArg (·[i]?) h.velocities
      have h2 := congrArg (·[i]?) h.activities
      have h3 := congrArg (·[i]?) h.reluctances
      simp only [List.getElem?_map] at h1 h1' h2 h3
      rw [List.getElem?_map]
      cases ha : s'.base.network.agents[i]? <;> cases hb : s.base.network.agents[i]? <;> rw [ha, hb] at h1 h1' h2 h3 <;>
        simp_all [MirrorAgent.reflect]
      rename_i a b
      cases a; cases b; simp_all
    rcases s' with ⟨⟨c, p, ⟨ag, nb, w, d⟩, cp, g⟩, f⟩
    obtain ⟨-, -, -, -, h4, h5, h6, h7, h8, h9, h10, h11⟩ := h
    simp only at e h4 h5 h6 h7 h8 h9 h10 h11
    subst h4 h5 h6 h7 h8 h9 h10 h11 e
    rfl
  · rintro rfl
    constructor <;>
      simp [Mirror.inertial, Mirror.state, Mirror.network, Network.mapAgents, MirrorAgent.reflect, Mirror.settings, Function.comp_def]

/-- C48: one iteration from a mirrored state fails in the same way, or leads to the mirror image. -/
theorem C48_step {o : MathOps F} (ho : ∀ x, o.tanh (-x) = -o.tanh x) (pick : List (Nat × F) → Nat) (r : Rng G F)
    {s s' : Activity (ActivityAgent F) F G} (h : MirrorImage s s') :
    (∀ t, Activity.iteration o pick r s = .ok t → ∃ t', Activity.iteration o pick r s' = .ok t' ∧ MirrorImage t t') ∧
    (∀ e, Activity.iteration o pick r s = .error e → Activity.iteration o pick r s' = .error e) := by
  obtain rfl := (mirrorImage_iff _ _).mp h
  rw [Mirror.iteration ho]
  constructor
  · intro t ht
    rw [ht]
    exact ⟨_, rfl, (mirrorImage_iff _ _).mpr rfl⟩
  · intro e he
    rw [he]; rfl

/-- C48 (activity-driven model): from the mirrored state every trajectory is the mirror image, for all numbers of iterations, in both
modes, with or without bots. -/
theorem C48_activity {o : MathOps F} (ho : ∀ x, o.tanh (-x) = -o.tanh x) (pick : List (Nat × F) → Nat) (r : Rng G F)
    {s s' t : Activity (ActivityAgent F) F G} (h : MirrorImage s s') {k : Nat} (ht : Iterates (Activity.iteration o pick r) s k t) :
    ∃ t', Iterates (Activity.iteration o pick r) s' k t' ∧ MirrorImage t t' := by
  induction ht with
  | zero => exact ⟨s', .zero, h⟩
  | succ _ hu ih =>
    obtain ⟨t', h1, h2⟩ := ih
    obtain ⟨u', h3, h4⟩ := (C48_step ho pick r h2).1 _ hu
    exact ⟨u', .succ h1 h3, h4⟩

/-- C48 (inertial model). -/
theorem C48_inertial {o : MathOps F} (ho : ∀ x, o.tanh (-x) = -o.tanh x) (pick : List (Nat × F) → Nat) (r : Rng G F)
    {s s' t : Inertial F G} (h : MirrorImageInertial s s') {k : Nat} (ht : Iterates (Inertial.iteration o pick r) s k t) :
    ∃ t', Iterates (Inertial.iteration o pick r) s' k t' ∧ MirrorImageInertial t t' := by
  induction ht with
  | zero => exact ⟨s', .zero, h⟩
  | succ _ hu ih =>
    obtain ⟨t', h1, h2⟩ := ih
    obtain rfl := (mirrorImageInertial_iff _ _).mp h2
    refine ⟨_, .succ h1 ?_, (mirrorImageInertial_iff _ _).mpr rfl⟩
    rw [Mirror.inertialIteration ho, hu]
    rfl

end

/-- The real `tanh` is odd, so C48 applies to it. -/
example (o : MathOps ℝ) (h : o.tanh = Real.tanh) : ∀ x, o.tanh (-x) = -o.tanh x := by
  rw [h]; exact Real.tanh_neg

/-- A concrete pair of trajectories (with a bot). -/
example : ∃ t t' : Activity (ActivityAgent ℚ) ℚ Nat, Activity.iteration ratOps firstMin counterRng Activity.sampleBots = .ok t ∧
    Activity.iteration ratOps firstMin counterRng (Mirror.state Activity.sampleBots) = .ok t' ∧ MirrorImage t t' := by
  obtain ⟨_, _, _, t, h, -⟩ := C43_activity (o := ratOps) firstMin_valid counterRng Activity.sampleBots_ready
  obtain ⟨t', h', m⟩ := (C48_step (o := ratOps) (fun x => by
    show -x / (1 + -x * -x) = -(x / (1 + x * x))
    rw [neg_mul_neg, neg_div]) firstMin counterRng ((mirrorImage_iff _ _).mpr rfl)).1 t h
  exact ⟨t, t', h, h', m⟩

end Seldon
