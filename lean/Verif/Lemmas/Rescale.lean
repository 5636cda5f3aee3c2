import Verif.Lemmas.Blind
/-!
# Lemmas: units of opinions and of reluctances in the activity-driven and inertial models
-/
set_option linter.unusedSectionVars false
namespace Seldon
open Spec
variable {A F G : Type}

/-- An agent in other units: opinion (and velocity) times `u`, reluctance times `c`. -/
class UnitAgent (A : Type) (F : outParam Type) [ActiveAgent A F] [Mul F] where
  scale : F → F → A → A
  opinion_scale : ∀ (u c : F) (a : A), ActiveAgent.opinion (scale u c a) = u * ActiveAgent.opinion a
  activity_scale : ∀ (u c : F) (a : A), ActiveAgent.activity (scale u c a) = ActiveAgent.activity a
  reluctance_scale : ∀ (u c : F) (a : A), ActiveAgent.reluctance (scale u c a) = c * ActiveAgent.reluctance a
  setOpinion_scale : ∀ (u c x : F) (a : A), ActiveAgent.setOpinion (u * x) (scale u c a) = scale u c (ActiveAgent.setOpinion x a)

instance [Mul F] : UnitAgent (ActivityAgent F) F where
  scale u c a := { a with opinion := u * a.opinion, reluctance := c * a.reluctance }
  opinion_scale _ _ _ := rfl
  activity_scale _ _ _ := rfl
  reluctance_scale _ _ _ := rfl
  setOpinion_scale _ _ _ _ := rfl

instance [Mul F] : UnitAgent (InertialAgent F) F where
  scale u c a := { a with opinion := u * a.opinion, reluctance := c * a.reluctance, velocity := u * a.velocity }
  opinion_scale _ _ _ := rfl
  activity_scale _ _ _ := rfl
  reluctance_scale _ _ _ := rfl
  setOpinion_scale _ _ _ _ := rfl

namespace Units
open UnitAgent Blind

section
variable [ActiveAgent A F] [Field F] [LinearOrder F] [IsStrictOrderedRing F] [UnitAgent A F] (u c : F)

/-- Settings in other units. -/
def settings (p : ActivitySettings F) : ActivitySettings F :=
  { p with botOpinion := p.botOpinion.map (u * ·), K := c * u * p.K, alpha := p.alpha / u }

/-- Network in other units. -/
def network (N : Network A F) : Network A F := N.mapAgents (scale u c)

/-- State in other units. -/
def state (s : Activity A F G) : Activity A F G := { s with p := settings u c s.p, network := network u c s.network }

theorem nAgents (N : Network A F) : (network u c N).nAgents = N.nAgents := by simp [network, Network.mapAgents, Network.nAgents]

/-- Other units of opinions are only considered without homophily. -/
def Fits (p : ActivitySettings F) : Prop := u = 1 ∨ Blind.Indifferent p

variable {u} {o : MathOps F} (ho : u = 1 ∨ ∀ x, o.pow x (-0) = 1)

include ho in
theorem weight {h : F} (hu : u = 1 ∨ h = 0) (agents : List A) (i : Nat) :
    Activity.weight o h (agents.map (scale u c)) i = Activity.weight o h agents i := by
  funext j
  unfold Activity.weight
  split
  · rfl
  · rw [List.getElem?_map, List.getElem?_map]
    cases agents[i]? with
    | none => rfl
    | some a =>
      cases agents[j]? with
      | none => rfl
      | some b =>
        simp only [Option.map_some, opinion_scale]
        rcases ho with rfl | ho
        · rw [one_mul, one_mul]
        · rcases hu with rfl | rfl
          · rw [one_mul, one_mul]
          · rw [ho, ho]

theorem Fits.of {p : ActivitySettings F} (hp : Fits u p) {i : Nat} {h : F} (hh : Activity.homophilyOf p i = .ok h) : u = 1 ∨ h = 0 :=
  hp.imp id fun hp => hp.of hh

variable (u) in
/-- Intermediate state in other units. -/
def contacting (t : Activity.Contacting A F G) : Activity.Contacting A F G := { t with network := network u c t.network }

include ho in
theorem contact (pick : List (Nat × F) → Nat) (r : Rng G F) {p : ActivitySettings F} (hp : Fits u p) (i : Nat) (t : Activity.Contacting A F G)
    (g : G) : Activity.contact o pick r (settings u c p) i (contacting u c t) g = (Activity.contact o pick r p i t g).map (contacting u c) := by
  unfold Activity.contact
  simp only [Res.map_bind]
  show (Activity.contactsWanted p i >>= fun m => Activity.homophilyOf p i >>= fun h => _) = _
  refine Res.bind_congr fun m => bind_congr_ok fun h hh => ?_
  have e1 : (contacting u c t).network.nAgents = t.network.nAgents := nAgents u c _
  have e2 : Activity.weight o h (contacting u c t).network.agents i = Activity.weight o h t.network.agents i := weight c ho (hp.of hh) _ i
  rw [e1, e2]
  show (Reservoir.sample o.toOps pick r m t.network.nAgents (Activity.weight o h t.network.agents i) t.contacted g >>= _) = _
  refine Res.bind_congr fun l => ?_
  obtain ⟨l, g'⟩ := l
  simp only
  show ((((network u c t.network).setNeighboursConst i l 1).run) >>= _) = _
  unfold network
  rw [Mirror.setNeighboursConst, Res.bind_map]
  rfl

include ho in
theorem activate (pick : List (Nat × F) → Nat) (r : Rng G F) {p : ActivitySettings F} (hp : Fits u p) (i : Nat) (t : Activity.Contacting A F G) :
    Activity.activate o pick r (settings u c p) i (contacting u c t) = (Activity.activate o pick r p i t).map (contacting u c) := by
  unfold Activity.activate
  simp only [Res.map_bind]
  show (rd (t.network.agents.map (scale u c)) i >>= _) = _
  rw [rd_map, Res.bind_map]
  refine Res.bind_congr fun a => ?_
  rw [activity_scale]
  show (if (r.unit t.gen).1 < ActiveAgent.activity a then _ else _) = _
  split
  · exact contact c ho pick r hp i t _
  · show ((((network u c t.network).setNeighboursConst i [] 0).run) >>= _) = _
    unfold network
    rw [Mirror.setNeighboursConst, Res.bind_map, Res.map_bind]
    rfl

variable (u) in
/-- Intermediate state of the second phase in other units. -/
def pair (t : Network A F × G) : Network A F × G := (network u c t.1, t.2)

theorem reciprocateEdge (r : Rng G F) (q : F) (edges : List (Nat × Nat)) (i k : Nat) (t : Network A F × G) :
    Activity.reciprocateEdge r q edges i k (pair u c t) = (Activity.reciprocateEdge r q edges i k t).map (pair u c) := by
  unfold Activity.reciprocateEdge
  simp only [Res.map_bind]
  show (rd t.1.neighbours i >>= _) = _
  refine Res.bind_congr fun row => Res.bind_congr fun j => ?_
  split
  · rfl
  · show (if (r.unit t.2).1 < q then _ else _) = _
    split
    · split
      · rfl
      · show ((((network u c t.1).pushBack j i 1).run) >>= _) = _
        unfold network
        rw [Mirror.pushBack, Res.bind_map, Res.map_bind]
        rfl
    · rfl

theorem reciprocate (r : Rng G F) (q : F) (edges : List (Nat × Nat)) (i : Nat) (t : Network A F × G) :
    Activity.reciprocate r q edges i (pair u c t) = (Activity.reciprocate r q edges i t).map (pair u c) := by
  unfold Activity.reciprocate
  simp only [Res.map_bind]
  show (t.1.getNeighbours i >>= _) = _
  refine Res.bind_congr fun row => ?_
  exact loop_map (pair u c) (fun k t _ => reciprocateEdge c r q edges i k t) t

include ho in
theorem updateProbabilistic (pick : List (Nat × F) → Nat) (r : Rng G F) {s : Activity A F G} (hp : Fits u s.p) :
    Activity.updateProbabilistic o pick r (state u c s) = (Activity.updateProbabilistic o pick r s).map (state u c) := by
  unfold Activity.updateProbabilistic
  simp only [Res.map_bind]
  have e1 : (state u c s).network.nAgents = s.network.nAgents := nAgents u c _
  rw [e1]
  have e2 := loop_map (n := s.network.nAgents) (contacting (A := A) (F := F) (G := G) u c) (f := fun i t => Activity.activate o pick r s.p i t)
    (f' := fun i t => Activity.activate o pick r (settings u c s.p) i t) (fun i t _ => activate c ho pick r hp i t)
    ⟨s.network.switchDirectionFlag, [], [], s.gen⟩
  show (loop _ (fun i t => Activity.activate o pick r (settings u c s.p) i t) (contacting u c ⟨s.network.switchDirectionFlag, [], [], s.gen⟩) >>= _) = _
  rw [e2, Res.bind_map]
  refine Res.bind_congr fun t => ?_
  have e3 := loop_map (n := s.network.nAgents) (pair u c) (f := fun i t' => Activity.reciprocate r s.p.reciprocity t.edges i t')
    (f' := fun i t' => Activity.reciprocate r s.p.reciprocity t.edges i t') (fun i t' _ => reciprocate c r s.p.reciprocity t.edges i t')
    (t.network, t.gen)
  show (loop _ (fun i t' => Activity.reciprocate r s.p.reciprocity t.edges i t') (pair u c (t.network, t.gen)) >>= _) = _
  rw [e3, Res.bind_map]
  refine Res.bind_congr fun v => ?_
  obtain ⟨N, g⟩ := v
  show ((network u c N).toggle >>= _) = _
  simp only [Res.map_bind]
  unfold network
  rw [Mirror.toggle, Res.bind_map]
  rfl

theorem resetMean (i : Nat) (t : Network A F × List (List F)) :
    Activity.resetMean i (network u c t.1, t.2) = (Activity.resetMean i t).map (fun t => (network u c t.1, t.2)) := by
  unfold Activity.resetMean
  simp only [Res.map_bind]
  rw [nAgents]
  unfold network
  rw [Mirror.setWeights, Res.bind_map]
  rfl

theorem addWeight (N : Network A F) (i k : Nat) (x : F) :
    Activity.addWeight (network u c N) i k x = (Activity.addWeight N i k x).map (network u c) := by
  unfold Activity.addWeight
  simp only [Res.map_bind]
  show (N.getWeights i >>= _) = _
  refine Res.bind_congr fun row => Res.bind_congr fun w => ?_
  unfold network
  rw [Mirror.pokeWeight]

theorem meanPair (q : F) (P : List (List F)) (i j : Nat) (N : Network A F) :
    Activity.meanPair q P i j (network u c N) = (Activity.meanPair q P i j N).map (network u c) := by
  unfold Activity.meanPair
  simp only [Res.map_bind, addWeight, Res.bind_map]

include ho in
theorem updateMean {s : Activity A F G} (hp : Fits u s.p) : Activity.updateMean o (state u c s) = (Activity.updateMean o s).map (state u c) := by
  unfold Activity.updateMean
  simp only [Res.map_bind]
  have e1 : (state u c s).network.nAgents = s.network.nAgents := nAgents u c _
  rw [e1]
  have e2 := loop_map (n := s.network.nAgents) (fun t : Network A F × List (List F) => (network u c t.1, t.2))
    (f := fun i t => Activity.resetMean i t) (f' := fun i t => Activity.resetMean i t) (fun i t _ => resetMean c i t) (s.network, s.contactProb)
  show (loop _ (fun i t => Activity.resetMean i t) (network u c s.network, s.contactProb) >>= _) = _
  rw [e2, Res.bind_map]
  refine Res.bind_congr fun t => ?_
  obtain ⟨N, P⟩ := t
  simp only
  have e3 : (fun i P => Activity.contactProbs o (state u c s).p (network u c N).agents i P) = fun i P => Activity.contactProbs o s.p N.agents i P := by
    funext i P
    unfold Activity.contactProbs
    show (Activity.homophilyOf s.p i >>= _) = _
    refine bind_congr_ok fun h hh => ?_
    have hl : (network u c N).agents.length = N.agents.length := by simp [network, Network.mapAgents]
    rw [hl, show (network u c N).agents = N.agents.map (scale u c) from rfl, weight c ho (hp.of hh)]
    refine Res.bind_congr fun norm => ?_
    show (Activity.contactsWanted s.p i >>= _) = _
    refine Res.bind_congr fun m => ?_
    rw [rd_map, Res.bind_map]
    simp only [activity_scale]
  rw [e3]
  refine Res.bind_congr fun P => ?_
  have e4 := loop_map (n := s.network.nAgents) (network u c)
    (f := fun i N => loop s.network.nAgents (fun j N => Activity.meanPair s.p.reciprocity P i j N) N)
    (f' := fun i N => loop s.network.nAgents (fun j N => Activity.meanPair s.p.reciprocity P i j N) N)
    (fun i N _ => loop_map (network u c) (fun j N _ => meanPair c s.p.reciprocity P i j N) N) N
  show (loop _ (fun i N => loop s.network.nAgents (fun j N => Activity.meanPair s.p.reciprocity P i j N) N) (network u c N) >>= _) = _
  rw [e4, Res.bind_map]
  rfl

include ho in
theorem updateNetwork (pick : List (Nat × F) → Nat) (r : Rng G F) {s : Activity A F G} (hp : Fits u s.p) :
    Activity.updateNetwork o pick r (state u c s) = (Activity.updateNetwork o pick r s).map (state u c) := by
  unfold Activity.updateNetwork
  show (if s.p.meanWeights = false then _ else _) = _
  split
  · exact updateProbabilistic c ho pick r hp
  · exact updateMean c ho hp

/-! ## integration -/

variable {c} (u0 : u ≠ 0) (c0 : c ≠ 0)

include u0 c0 in
theorem slopeTerm (p : ActivitySettings F) (agents : List A) (ns : List Nat) (ws : List F) {x x' : Nat → Res F}
    (hx : ∀ i, x' i = (x i).map (u * ·)) (i j : Nat) (k : List F) :
    Activity.slopeTerm o (settings u c p) (agents.map (scale u c)) ns ws x' i j (k.map (u * ·)) =
      (Activity.slopeTerm o p agents ns ws x i j k).map (List.map (u * ·)) := by
  unfold Activity.slopeTerm
  simp only [Res.map_bind]
  refine Res.bind_congr fun jIndex => ?_
  rw [rd_map, Res.bind_map]
  refine Res.bind_congr fun cur => ?_
  rw [rd_map, Res.bind_map]
  refine Res.bind_congr fun a => Res.bind_congr fun w => ?_
  rw [hx, Res.bind_map]
  refine Res.bind_congr fun y => ?_
  rw [← wr_map, reluctance_scale]
  congr 1
  show u * cur + 1 / (c * ActiveAgent.reluctance a) * (c * u * p.K) * w * o.tanh (p.alpha / u * (u * y)) = _
  have e1 : p.alpha / u * (u * y) = p.alpha * y := by rw [← mul_assoc, div_mul_cancel₀ _ u0]
  have e2 : 1 / (c * ActiveAgent.reluctance a) * (c * u * p.K) = u * (1 / ActiveAgent.reluctance a * p.K) := by
    rw [one_div, mul_inv, one_div]
    have : c⁻¹ * (ActiveAgent.reluctance a)⁻¹ * (c * u * p.K) = c⁻¹ * c * (u * ((ActiveAgent.reluctance a)⁻¹ * p.K)) := by ring
    rw [this, inv_mul_cancel₀ c0, one_mul]
  rw [e1, e2]
  ring

include u0 c0 in
theorem eulerSlopes (p : ActivitySettings F) (N : Network A F) {x x' : Nat → Res F} (hx : ∀ i, x' i = (x i).map (u * ·)) :
    Activity.eulerSlopes o (settings u c p) (network u c N) x' = (Activity.eulerSlopes o p N x).map (List.map (u * ·)) := by
  unfold Activity.eulerSlopes
  rw [nAgents]
  have e : List.replicate N.nAgents (0 : F) = (List.replicate N.nAgents (0 : F)).map (u * ·) := by
    rw [List.map_replicate, mul_zero]
  conv_lhs => rw [e]
  apply loop_map (List.map (u * ·))
  intro i k _
  simp only [Res.map_bind]
  show (N.getNeighbours i >>= fun ns => N.getWeights i >>= fun ws => _) = _
  refine Res.bind_congr fun ns => Res.bind_congr fun ws => ?_
  rw [hx, Res.bind_map]
  refine Res.bind_congr fun y => ?_
  rw [show -(u * y) = u * (-y) by ring, wr_map (u * ·), Res.bind_map]
  refine Res.bind_congr fun k => ?_
  exact loop_map (List.map (u * ·)) (fun j k _ => slopeTerm u0 c0 p N.agents ns ws hx i j k) k

theorem opinionAt (N : Network A F) (i : Nat) : Activity.opinionAt (network u c N) i = (Activity.opinionAt N i).map (u * ·) := by
  unfold Activity.opinionAt
  show (rd (N.agents.map (scale u c)) i >>= _) = _
  rw [rd_map, Res.bind_map, Res.map_bind]
  refine Res.bind_congr fun a => ?_
  rw [opinion_scale]; rfl

theorem opinionShifted (N : Network A F) (h : F) (k : List F) (i : Nat) :
    Activity.opinionShifted (network u c N) h (k.map (u * ·)) i = (Activity.opinionShifted N h k i).map (u * ·) := by
  unfold Activity.opinionShifted
  show (rd (N.agents.map (scale u c)) i >>= _) = _
  simp only [rd_map, Res.bind_map, Res.map_bind]
  refine Res.bind_congr fun a => Res.bind_congr fun x => ?_
  rw [opinion_scale, show u * ActiveAgent.opinion a + h * (u * x) = u * (ActiveAgent.opinion a + h * x) by ring]; rfl

theorem rkUpdate (dt : F) (k1 k2 k3 k4 : List F) (i : Nat) (agents : List A) :
    Activity.rkUpdate dt (k1.map (u * ·)) (k2.map (u * ·)) (k3.map (u * ·)) (k4.map (u * ·)) i (agents.map (scale u c)) =
      (Activity.rkUpdate dt k1 k2 k3 k4 i agents).map (List.map (scale u c)) := by
  unfold Activity.rkUpdate
  simp only [rd_map, Res.bind_map, Res.map_bind]
  refine Res.bind_congr fun a => Res.bind_congr fun a1 => Res.bind_congr fun a2 => Res.bind_congr fun a3 => Res.bind_congr fun a4 => ?_
  rw [← wr_map]
  congr 1
  rw [← setOpinion_scale, opinion_scale]
  congr 1
  ring

theorem resetBots (p : ActivitySettings F) (agents : List A) :
    Activity.resetBots (settings u c p) (agents.map (scale u c)) = (Activity.resetBots p agents).map (List.map (scale u c)) := by
  unfold Activity.resetBots
  apply loop_map (List.map (scale u c))
  intro i agents _
  show (rd (agents.map (scale u c)) i >>= fun a => rd (p.botOpinion.map (u * ·)) i >>= _) = _
  simp only [rd_map, Res.bind_map, Res.map_bind]
  refine Res.bind_congr fun a => Res.bind_congr fun x => ?_
  rw [← wr_map, setOpinion_scale]

include u0 c0 in
theorem rkStep (p : ActivitySettings F) (N : Network A F) :
    Activity.rkStep o (settings u c p) (network u c N) = (Activity.rkStep o p N).map (List.map (scale u c)) := by
  unfold Activity.rkStep
  simp only [Res.map_bind]
  rw [eulerSlopes u0 c0 p N (opinionAt N), Res.bind_map]
  refine Res.bind_congr fun k1 => ?_
  rw [eulerSlopes u0 c0 p N (fun i => opinionShifted N _ k1 i), Res.bind_map]
  refine Res.bind_congr fun k2 => ?_
  rw [eulerSlopes u0 c0 p N (fun i => opinionShifted N _ k2 i), Res.bind_map]
  refine Res.bind_congr fun k3 => ?_
  rw [eulerSlopes u0 c0 p N (fun i => opinionShifted N _ k3 i), Res.bind_map]
  refine Res.bind_congr fun k4 => ?_
  rw [nAgents]
  have := loop_map (n := N.nAgents) (List.map (scale u c : A → A)) (f := fun i agents => Activity.rkUpdate p.dt k1 k2 k3 k4 i agents)
    (f' := fun i agents => Activity.rkUpdate p.dt (k1.map (u * ·)) (k2.map (u * ·)) (k3.map (u * ·)) (k4.map (u * ·)) i agents)
    (fun i agents _ => rkUpdate p.dt k1 k2 k3 k4 i agents) N.agents
  show (loop _ (fun i agents => Activity.rkUpdate p.dt (k1.map (u * ·)) (k2.map (u * ·)) (k3.map (u * ·)) (k4.map (u * ·)) i agents)
    (N.agents.map (scale u c)) >>= _) = _
  rw [this, Res.bind_map]
  refine Res.bind_congr fun agents => ?_
  exact resetBots p agents

include ho u0 c0 in
theorem iteration (pick : List (Nat × F) → Nat) (r : Rng G F) {s : Activity A F G} (hp : Fits u s.p) :
    Activity.iteration o pick r (state u c s) = (Activity.iteration o pick r s).map (state u c) := by
  unfold Activity.iteration
  simp only [Res.map_bind]
  rw [show ({ state u c s with counter := (state u c s).counter.tick } : Activity A F G) = state u c { s with counter := s.counter.tick } from rfl,
    updateNetwork c ho pick r (s := { s with counter := s.counter.tick }) hp, Res.bind_map]
  refine Res.bind_congr fun v => ?_
  show (Activity.rkStep o (settings u c v.p) (network u c v.network) >>= _) = _
  rw [rkStep u0 c0, Res.bind_map]
  rfl

end

/-! ## inertial model -/
section
variable [Field F] [LinearOrder F] [IsStrictOrderedRing F] (u c : F)

/-- State of the inertial model in other units. -/
def inertial (s : Inertial F G) : Inertial F G := { s with base := state u c s.base }

variable {u c}

theorem movePosition (dt f : F) (d : List F) (i : Nat) (agents : List (InertialAgent F)) :
    Inertial.movePosition dt f (d.map (u * ·)) i (agents.map (scale u c)) = (Inertial.movePosition dt f d i agents).map (List.map (scale u c)) := by
  unfold Inertial.movePosition
  simp only [rd_map, Res.bind_map, Res.map_bind]
  refine Res.bind_congr fun a => Res.bind_congr fun x => ?_
  rw [← wr_map]
  congr 1
  simp only [scale, InertialAgent.mk.injEq, true_and, and_true]
  ring

theorem moveVelocity (dt f : F) (d d' : List F) (i : Nat) (agents : List (InertialAgent F)) :
    Inertial.moveVelocity dt f (d.map (u * ·)) (d'.map (u * ·)) i (agents.map (scale u c)) =
      (Inertial.moveVelocity dt f d d' i agents).map (List.map (scale u c)) := by
  unfold Inertial.moveVelocity
  simp only [rd_map, Res.bind_map, Res.map_bind]
  refine Res.bind_congr fun a => Res.bind_congr fun x => Res.bind_congr fun y => ?_
  rw [← wr_map]
  congr 1
  simp only [scale, InertialAgent.mk.injEq, true_and]
  rw [← mul_div_assoc]
  congr 1
  ring

variable {o : MathOps F} (ho : u = 1 ∨ ∀ x, o.pow x (-0) = 1) (u0 : u ≠ 0) (c0 : c ≠ 0)

include u0 c0 in
theorem verletStep (p : ActivitySettings F) (f : F) (N : Network (InertialAgent F) F) :
    Inertial.verletStep o (settings u c p) f (network u c N) = (Inertial.verletStep o p f N).map (List.map (scale u c)) := by
  unfold Inertial.verletStep
  simp only [Res.map_bind]
  rw [eulerSlopes u0 c0 p N (opinionAt N), Res.bind_map]
  refine Res.bind_congr fun d => ?_
  rw [nAgents]
  have := loop_map (n := N.nAgents) (List.map (scale u c : InertialAgent F → InertialAgent F)) (f := fun i agents => Inertial.movePosition p.dt f d i agents)
    (f' := fun i agents => Inertial.movePosition p.dt f (d.map (u * ·)) i agents)
    (fun i agents _ => movePosition p.dt f d i agents) N.agents
  show (loop _ (fun i agents => Inertial.movePosition p.dt f (d.map (u * ·)) i agents) (N.agents.map (scale u c)) >>= _) = _
  rw [this, Res.bind_map]
  refine Res.bind_congr fun agents => ?_
  show (Activity.eulerSlopes o (settings u c p) (network u c { N with agents := agents }) (Activity.opinionAt (network u c { N with agents := agents })) >>= _) = _
  rw [eulerSlopes u0 c0 p _ (opinionAt { N with agents := agents }), Res.bind_map]
  refine Res.bind_congr fun d' => ?_
  have := loop_map (n := ({ N with agents := agents } : Network (InertialAgent F) F).nAgents) (List.map (scale u c : InertialAgent F → InertialAgent F))
    (f := fun i agents => Inertial.moveVelocity p.dt f d d' i agents)
    (f' := fun i agents => Inertial.moveVelocity p.dt f (d.map (u * ·)) (d'.map (u * ·)) i agents)
    (fun i agents _ => moveVelocity p.dt f d d' i agents) agents
  show (loop (network u c { N with agents := agents }).nAgents (fun i agents => Inertial.moveVelocity p.dt f (d.map (u * ·)) (d'.map (u * ·)) i agents)
    (agents.map (scale u c)) >>= _) = _
  rw [nAgents, this, Res.bind_map]
  exact Res.bind_congr fun agents => resetBots p agents

include ho u0 c0 in
theorem inertialIteration (pick : List (Nat × F) → Nat) (r : Rng G F) {s : Inertial F G} (hp : Fits u s.base.p) :
    Inertial.iteration o pick r (inertial u c s) = (Inertial.iteration o pick r s).map (inertial u c) := by
  unfold Inertial.iteration
  simp only [Res.map_bind]
  rw [show ({ (inertial u c s).base with counter := (inertial u c s).base.counter.tick } : Activity (InertialAgent F) F G) =
    state u c { s.base with counter := s.base.counter.tick } from rfl,
    updateNetwork c ho pick r (s := { s.base with counter := s.base.counter.tick }) hp, Res.bind_map]
  refine Res.bind_congr fun v => ?_
  show (Inertial.verletStep o (settings u c v.p) s.friction (network u c v.network) >>= _) = _
  rw [verletStep u0 c0, Res.bind_map]
  rfl

end
end Units
end Seldon
