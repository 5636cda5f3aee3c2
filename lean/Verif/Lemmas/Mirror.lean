import Verif.Model.Activity
import Verif.Lemmas.Integration
import Verif.Lemmas.Deffuant
/-!
# Lemmas: reflecting all opinions commutes with the activity-driven and inertial models
-/
set_option linter.unusedSectionVars false
namespace Seldon
open Spec
variable {A F G : Type}

/-! ## maps and outcomes -/

theorem Res.bind_map {α β γ : Type} (x : Res α) (f : α → β) (g : β → Res γ) : (x.map f) >>= g = x >>= fun a => g (f a) := by
  cases x <;> rfl

theorem Res.map_bind {α β γ : Type} (x : Res α) (g : α → Res β) (f : β → γ) : (x >>= g).map f = x >>= fun a => (g a).map f := by
  cases x <;> rfl

theorem Res.map_ok {α β : Type} (a : α) (f : α → β) : (Except.ok a : Res α).map f = .ok (f a) := rfl
theorem Res.map_error {α β : Type} (e : Fault) (f : α → β) : (Except.error e : Res α).map f = .error e := rfl

theorem Res.bind_congr {α β : Type} {x : Res α} {f g : α → Res β} (h : ∀ a, f a = g a) : x >>= f = x >>= g := by
  cases x
  · rfl
  · exact h _

theorem rd_map {α β : Type} (f : α → β) (l : List α) (i : Nat) : rd (l.map f) i = (rd l i).map f := by
  unfold rd
  rw [List.getElem?_map]
  cases l[i]? <;> rfl

theorem wr_map {α β : Type} (f : α → β) (l : List α) (i : Nat) (a : α) : wr (l.map f) i (f a) = (wr l i a).map (List.map f) := by
  unfold wr
  rw [List.length_map]
  split
  · simp only [Res.map_ok, List.map_set]
  · rfl

theorem loop_map {σ τ : Type} (φ : σ → τ) {n : Nat} {f : Nat → σ → Res σ} {f' : Nat → τ → Res τ}
    (h : ∀ i s, i < n → f' i (φ s) = (f i s).map φ) (s : σ) : loop n f' (φ s) = (loop n f s).map φ := by
  induction n with
  | zero => rfl
  | succ n ih =>
    rw [loop_succ, loop_succ, ih (fun i s hi => h i s (by omega)), Res.bind_map, Res.map_bind]
    exact Res.bind_congr (fun a => h n a (by omega))

/-! ## reflection -/

/-- The laws of arithmetic the reflection relies on: they hold in every ordered field, and also for rounded arithmetic (round to nearest is
symmetric), identifying `0` and `-0`. -/
class MirrorArith (F : Type) [Zero F] [One F] [Sub F] [Mul F] [Add F] [Div F] [Neg F] [NatCast F] [LT F] [DecidableLT F] : Prop where
  r_neg_zero : -(0 : F) = 0
  r_neg_add : ∀ a b : F, -a + -b = -(a + b)
  r_neg_sub : ∀ a b : F, -a - -b = -(a - b)
  r_mul_neg : ∀ a b : F, a * -b = -(a * b)
  r_neg_mul : ∀ a b : F, -a * b = -(a * b)
  r_neg_div : ∀ a b : F, -a / b = -(a / b)
  r_abs_neg : ∀ a : F, cmax (1 / ((10 ^ 10 : Nat) : F)) (cabs (-a)) = cmax (1 / ((10 ^ 10 : Nat) : F)) (cabs a)

instance [Field F] [LinearOrder F] [IsStrictOrderedRing F] : MirrorArith F where
  r_neg_zero := _root_.neg_zero
  r_neg_add a b := by ring
  r_neg_sub a b := by ring
  r_mul_neg a b := by ring
  r_neg_mul a b := by ring
  r_neg_div a b := by ring
  r_abs_neg a := by rw [Deffuant.cabs_abs, Deffuant.cabs_abs, _root_.abs_neg]

/-- Reflection of an agent: its opinion (and velocity) changes sign, the rest stays. -/
class MirrorAgent (A : Type) (F : outParam Type) [ActiveAgent A F] [Neg F] where
  reflect : A → A
  opinion_flip : ∀ a : A, ActiveAgent.opinion (reflect a) = -ActiveAgent.opinion a
  activity_flip : ∀ a : A, ActiveAgent.activity (reflect a) = ActiveAgent.activity a
  reluctance_flip : ∀ a : A, ActiveAgent.reluctance (reflect a) = ActiveAgent.reluctance a
  setOpinion_flip : ∀ (x : F) (a : A), ActiveAgent.setOpinion (-x) (reflect a) = reflect (ActiveAgent.setOpinion x a)

instance [Neg F] : MirrorAgent (ActivityAgent F) F where
  reflect a := { a with opinion := -a.opinion }
  opinion_flip _ := rfl
  activity_flip _ := rfl
  reluctance_flip _ := rfl
  setOpinion_flip _ _ := rfl

instance [Neg F] : MirrorAgent (InertialAgent F) F where
  reflect a := { a with opinion := -a.opinion, velocity := -a.velocity }
  opinion_flip _ := rfl
  activity_flip _ := rfl
  reluctance_flip _ := rfl
  setOpinion_flip _ _ := rfl

/-- The same network with other agents. -/
def Network.mapAgents {B : Type} (f : A → B) (N : Network A F) : Network B F := ⟨N.agents.map f, N.neighbours, N.weights, N.direction⟩

namespace Mirror
open MirrorAgent MirrorArith

section
variable {B : Type} (f : A → B) (N : Network A F)

theorem setNeighboursConst (i : Nat) (ns : List Nat) (w : F) :
    ((N.mapAgents f).setNeighboursConst i ns w).run = ((N.setNeighboursConst i ns w).run).map (Network.mapAgents f) := by
  unfold Network.setNeighboursConst Network.mapAgents
  simp only
  cases wr N.neighbours i ns with
  | error e => rfl
  | ok a => cases wr N.weights i (List.replicate ns.length w) <;> rfl

theorem setWeights (i : Nat) (ws : List F) :
    ((N.mapAgents f).setWeights i ws).run = ((N.setWeights i ws).run).map (Network.mapAgents f) := by
  unfold Network.setWeights Network.mapAgents
  simp only
  cases rd N.neighbours i with
  | error e => rfl
  | ok a =>
    simp only
    split
    · rfl
    · cases wr N.weights i ws <;> rfl

theorem pushBack (i j : Nat) (w : F) : ((N.mapAgents f).pushBack i j w).run = ((N.pushBack i j w).run).map (Network.mapAgents f) := by
  unfold Network.pushBack Network.mapAgents
  simp only
  cases N.neighbours[i]? with
  | none => rfl
  | some a => cases N.weights[i]? <;> rfl

theorem pokeWeight (i k : Nat) (w : F) : ((N.mapAgents f).pokeWeight i k w).run = ((N.pokeWeight i k w).run).map (Network.mapAgents f) := by
  unfold Network.pokeWeight Network.mapAgents
  simp only
  cases rd N.weights i with
  | error e => rfl
  | ok a =>
    simp only
    cases wr a k w <;> rfl

theorem toggle : (N.mapAgents f).toggle = N.toggle.map (Network.mapAgents f) := by
  unfold Network.toggle
  simp only [Res.map_bind]
  have e : (N.mapAgents f).nAgents = N.nAgents := by simp [Network.mapAgents, Network.nAgents]
  rw [e]
  rfl

end

section
variable [ActiveAgent A F] [Zero F] [One F] [Sub F] [Mul F] [Add F] [Div F] [Neg F] [NatCast F] [LT F] [LE F] [DecidableLT F] [DecidableLE F]
variable [MirrorAgent A F] [MirrorArith F]

/-- Reflected settings: the opinions of the bots change sign. -/
def settings (p : ActivitySettings F) : ActivitySettings F := { p with botOpinion := p.botOpinion.map (-·) }

/-- Reflected network. -/
def network (N : Network A F) : Network A F := N.mapAgents reflect

/-- Reflected state. -/
def state (s : Activity A F G) : Activity A F G := { s with p := settings s.p, network := network s.network }

theorem nAgents (N : Network A F) : (network N).nAgents = N.nAgents := by simp [network, Network.mapAgents, Network.nAgents]

theorem weight (o : MathOps F) (h : F) (agents : List A) (i : Nat) : Activity.weight o h (agents.map reflect) i = Activity.weight o h agents i := by
  funext j
  unfold Activity.weight
  split
  · rfl
  · rw [List.getElem?_map, List.getElem?_map]
    cases agents[i]? with
    | none => rfl
    | some a =>
      cases agents[j]? with
      | none => rfl
      | some b =>
        simp only [Option.map_some, opinion_flip]
        rw [r_neg_sub, r_abs_neg]

/-- Reflected intermediate state. -/
def contacting (t : Activity.Contacting A F G) : Activity.Contacting A F G := { t with network := network t.network }

theorem contact (o : MathOps F) (pick : List (Nat × F) → Nat) (r : Rng G F) (p : ActivitySettings F) (i : Nat) (t : Activity.Contacting A F G)
    (g : G) : Activity.contact o pick r (settings p) i (contacting t) g = (Activity.contact o pick r p i t g).map contacting := by
  unfold Activity.contact
  simp only [Res.map_bind]
  show (Activity.contactsWanted p i >>= fun m => Activity.homophilyOf p i >>= fun h => _) = _
  refine Res.bind_congr fun m => Res.bind_congr fun h => ?_
  have e1 : (contacting t).network.nAgents = t.network.nAgents := nAgents _
  have e2 : Activity.weight o h (contacting t).network.agents i = Activity.weight o h t.network.agents i := weight o h _ i
  rw [e1, e2]
  show (Reservoir.sample o.toOps pick r m t.network.nAgents (Activity.weight o h t.network.agents i) t.contacted g >>= _) = _
  refine Res.bind_congr fun c => ?_
  obtain ⟨c, g'⟩ := c
  simp only
  show ((((network t.network).setNeighboursConst i c 1).run) >>= _) = _
  unfold network
  rw [setNeighboursConst, Res.bind_map]
  rfl

theorem activate (o : MathOps F) (pick : List (Nat × F) → Nat) (r : Rng G F) (p : ActivitySettings F) (i : Nat) (t : Activity.Contacting A F G) :
    Activity.activate o pick r (settings p) i (contacting t) = (Activity.activate o pick r p i t).map contacting := by
  unfold Activity.activate
  simp only [Res.map_bind]
  show (rd (t.network.agents.map reflect) i >>= _) = _
  rw [rd_map, Res.bind_map]
  refine Res.bind_congr fun a => ?_
  rw [activity_flip]
  show (if (r.unit t.gen).1 < ActiveAgent.activity a then _ else _) = _
  split
  · exact contact ..
  · show ((((network t.network).setNeighboursConst i [] 0).run) >>= _) = _
    unfold network
    rw [setNeighboursConst, Res.bind_map, Res.map_bind]
    rfl

/-- Reflected intermediate state of the second phase. -/
def pair (t : Network A F × G) : Network A F × G := (network t.1, t.2)

theorem reciprocateEdge (r : Rng G F) (c : F) (edges : List (Nat × Nat)) (i k : Nat) (t : Network A F × G) :
    Activity.reciprocateEdge r c edges i k (pair t) = (Activity.reciprocateEdge r c edges i k t).map pair := by
  unfold Activity.reciprocateEdge
  simp only [Res.map_bind]
  show (rd t.1.neighbours i >>= _) = _
  refine Res.bind_congr fun row => Res.bind_congr fun j => ?_
  split
  · rfl
  · show (if (r.unit t.2).1 < c then _ else _) = _
    split
    · split
      · rfl
      · show ((((network t.1).pushBack j i 1).run) >>= _) = _
        unfold network
        rw [pushBack, Res.bind_map, Res.map_bind]
        rfl
    · rfl

theorem reciprocate (r : Rng G F) (c : F) (edges : List (Nat × Nat)) (i : Nat) (t : Network A F × G) :
    Activity.reciprocate r c edges i (pair t) = (Activity.reciprocate r c edges i t).map pair := by
  unfold Activity.reciprocate
  simp only [Res.map_bind]
  show (t.1.getNeighbours i >>= _) = _
  refine Res.bind_congr fun row => ?_
  exact loop_map pair (fun k t _ => reciprocateEdge r c edges i k t) t

theorem updateProbabilistic (o : MathOps F) (pick : List (Nat × F) → Nat) (r : Rng G F) (s : Activity A F G) :
    Activity.updateProbabilistic o pick r (state s) = (Activity.updateProbabilistic o pick r s).map state := by
  unfold Activity.updateProbabilistic
  simp only [Res.map_bind]
  have e1 : (state s).network.nAgents = s.network.nAgents := nAgents _
  rw [e1]
  have e2 := loop_map (n := s.network.nAgents) (contacting (A := A) (F := F) (G := G)) (f := fun i t => Activity.activate o pick r s.p i t)
    (f' := fun i t => Activity.activate o pick r (settings s.p) i t) (fun i t _ => activate o pick r s.p i t)
    ⟨s.network.switchDirectionFlag, [], [], s.gen⟩
  show (loop _ (fun i t => Activity.activate o pick r (settings s.p) i t) (contacting ⟨s.network.switchDirectionFlag, [], [], s.gen⟩) >>= _) = _
  rw [e2, Res.bind_map]
  refine Res.bind_congr fun t => ?_
  have e3 := loop_map (n := s.network.nAgents) pair (f := fun i t' => Activity.reciprocate r s.p.reciprocity t.edges i t')
    (f' := fun i t' => Activity.reciprocate r s.p.reciprocity t.edges i t') (fun i t' _ => reciprocate r s.p.reciprocity t.edges i t')
    (t.network, t.gen)
  show (loop _ (fun i t' => Activity.reciprocate r s.p.reciprocity t.edges i t') (pair (t.network, t.gen)) >>= _) = _
  rw [e3, Res.bind_map]
  refine Res.bind_congr fun u => ?_
  obtain ⟨N, g⟩ := u
  show ((network N).toggle >>= _) = _
  simp only [Res.map_bind]
  unfold network
  rw [toggle, Res.bind_map]
  rfl

theorem resetMean (i : Nat) (t : Network A F × List (List F)) :
    Activity.resetMean i (network t.1, t.2) = (Activity.resetMean i t).map (fun t => (network t.1, t.2)) := by
  unfold Activity.resetMean
  simp only [Res.map_bind]
  rw [nAgents]
  unfold network
  rw [setWeights, Res.bind_map]
  rfl

theorem addWeight (N : Network A F) (i k : Nat) (x : F) : Activity.addWeight (network N) i k x = (Activity.addWeight N i k x).map network := by
  unfold Activity.addWeight
  simp only [Res.map_bind]
  show (N.getWeights i >>= _) = _
  refine Res.bind_congr fun row => Res.bind_congr fun w => ?_
  unfold network
  rw [pokeWeight]

theorem meanPair (c : F) (P : List (List F)) (i j : Nat) (N : Network A F) :
    Activity.meanPair c P i j (network N) = (Activity.meanPair c P i j N).map network := by
  unfold Activity.meanPair
  simp only [Res.map_bind, addWeight, Res.bind_map]

theorem updateMean (o : MathOps F) (s : Activity A F G) : Activity.updateMean o (state s) = (Activity.updateMean o s).map state := by
  unfold Activity.updateMean
  simp only [Res.map_bind]
  have e1 : (state s).network.nAgents = s.network.nAgents := nAgents _
  rw [e1]
  have e2 := loop_map (n := s.network.nAgents) (fun t : Network A F × List (List F) => (network t.1, t.2))
    (f := fun i t => Activity.resetMean i t) (f' := fun i t => Activity.resetMean i t) (fun i t _ => resetMean i t) (s.network, s.contactProb)
  show (loop _ (fun i t => Activity.resetMean i t) (network s.network, s.contactProb) >>= _) = _
  rw [e2, Res.bind_map]
  refine Res.bind_congr fun t => ?_
  obtain ⟨N, P⟩ := t
  simp only
  have e3 : (fun i P => Activity.contactProbs o (state s).p (network N).agents i P) = fun i P => Activity.contactProbs o s.p N.agents i P := by
    funext i P
    unfold Activity.contactProbs
    show (Activity.homophilyOf s.p i >>= _) = _
    refine Res.bind_congr fun h => ?_
    have hl : (network N).agents.length = N.agents.length := by simp [network, Network.mapAgents]
    rw [hl, show (network N).agents = N.agents.map reflect from rfl, weight]
    refine Res.bind_congr fun norm => ?_
    show (Activity.contactsWanted s.p i >>= _) = _
    refine Res.bind_congr fun m => ?_
    rw [rd_map, Res.bind_map]
    simp only [activity_flip]
  rw [e3]
  refine Res.bind_congr fun P => ?_
  have e4 := loop_map (n := s.network.nAgents) network
    (f := fun i N => loop s.network.nAgents (fun j N => Activity.meanPair s.p.reciprocity P i j N) N)
    (f' := fun i N => loop s.network.nAgents (fun j N => Activity.meanPair s.p.reciprocity P i j N) N)
    (fun i N _ => loop_map network (fun j N _ => meanPair s.p.reciprocity P i j N) N) N
  show (loop _ (fun i N => loop s.network.nAgents (fun j N => Activity.meanPair s.p.reciprocity P i j N) N) (network N) >>= _) = _
  rw [e4, Res.bind_map]
  rfl

theorem updateNetwork (o : MathOps F) (pick : List (Nat × F) → Nat) (r : Rng G F) (s : Activity A F G) :
    Activity.updateNetwork o pick r (state s) = (Activity.updateNetwork o pick r s).map state := by
  unfold Activity.updateNetwork
  show (if s.p.meanWeights = false then _ else _) = _
  split
  · exact updateProbabilistic ..
  · exact updateMean ..

/-! ## integration -/

variable {o : MathOps F} (ho : ∀ x, o.tanh (-x) = -o.tanh x)

include ho in
theorem slopeTerm (p : ActivitySettings F) (agents : List A) (ns : List Nat) (ws : List F) {x x' : Nat → Res F}
    (hx : ∀ i, x' i = (x i).map (-·)) (i j : Nat) (k : List F) :
    Activity.slopeTerm o (settings p) (agents.map reflect) ns ws x' i j (k.map (-·)) =
      (Activity.slopeTerm o p agents ns ws x i j k).map (List.map (-·)) := by
  unfold Activity.slopeTerm
  simp only [Res.map_bind]
  refine Res.bind_congr fun jIndex => ?_
  rw [rd_map, Res.bind_map]
  refine Res.bind_congr fun cur => ?_
  rw [rd_map, Res.bind_map]
  refine Res.bind_congr fun a => Res.bind_congr fun w => ?_
  rw [hx, Res.bind_map]
  refine Res.bind_congr fun y => ?_
  rw [← wr_map, reluctance_flip]
  congr 1
  show -cur + 1 / ActiveAgent.reluctance a * p.K * w * o.tanh (p.alpha * -y) = _
  rw [r_mul_neg, ho, r_mul_neg, r_neg_add]

include ho in
theorem eulerSlopes (p : ActivitySettings F) (N : Network A F) {x x' : Nat → Res F} (hx : ∀ i, x' i = (x i).map (-·)) :
    Activity.eulerSlopes o (settings p) (network N) x' = (Activity.eulerSlopes o p N x).map (List.map (-·)) := by
  unfold Activity.eulerSlopes
  rw [nAgents]
  have e : List.replicate N.nAgents (0 : F) = (List.replicate N.nAgents (0 : F)).map (-·) := by
    rw [List.map_replicate, r_neg_zero]
  conv_lhs => rw [e]
  apply loop_map (List.map (-·))
  intro i k _
  simp only [Res.map_bind]
  show (N.getNeighbours i >>= fun ns => N.getWeights i >>= fun ws => _) = _
  refine Res.bind_congr fun ns => Res.bind_congr fun ws => ?_
  rw [hx, Res.bind_map]
  refine Res.bind_congr fun y => ?_
  rw [wr_map (-·), Res.bind_map]
  refine Res.bind_congr fun k => ?_
  exact loop_map (List.map (-·)) (fun j k _ => slopeTerm ho p N.agents ns ws hx i j k) k

theorem opinionAt (N : Network A F) (i : Nat) : Activity.opinionAt (network N) i = (Activity.opinionAt N i).map (-·) := by
  unfold Activity.opinionAt
  show (rd (N.agents.map reflect) i >>= _) = _
  rw [rd_map, Res.bind_map, Res.map_bind]
  refine Res.bind_congr fun a => ?_
  rw [opinion_flip]; rfl

theorem opinionShifted (N : Network A F) (h : F) (k : List F) (i : Nat) :
    Activity.opinionShifted (network N) h (k.map (-·)) i = (Activity.opinionShifted N h k i).map (-·) := by
  unfold Activity.opinionShifted
  show (rd (N.agents.map reflect) i >>= _) = _
  simp only [rd_map, Res.bind_map, Res.map_bind]
  refine Res.bind_congr fun a => Res.bind_congr fun x => ?_
  rw [opinion_flip, r_mul_neg, r_neg_add]; rfl

theorem rkUpdate (dt : F) (k1 k2 k3 k4 : List F) (i : Nat) (agents : List A) :
    Activity.rkUpdate dt (k1.map (-·)) (k2.map (-·)) (k3.map (-·)) (k4.map (-·)) i (agents.map reflect) =
      (Activity.rkUpdate dt k1 k2 k3 k4 i agents).map (List.map reflect) := by
  unfold Activity.rkUpdate
  simp only [rd_map, Res.bind_map, Res.map_bind]
  refine Res.bind_congr fun a => Res.bind_congr fun a1 => Res.bind_congr fun a2 => Res.bind_congr fun a3 => Res.bind_congr fun a4 => ?_
  rw [← wr_map]
  congr 1
  rw [← setOpinion_flip, opinion_flip]
  congr 1
  simp only [r_mul_neg, r_neg_add, r_neg_div]

theorem resetBots (p : ActivitySettings F) (agents : List A) :
    Activity.resetBots (settings p) (agents.map reflect) = (Activity.resetBots p agents).map (List.map reflect) := by
  unfold Activity.resetBots
  apply loop_map (List.map reflect)
  intro i agents _
  show (rd (agents.map reflect) i >>= fun a => rd (p.botOpinion.map (-·)) i >>= _) = _
  simp only [rd_map, Res.bind_map, Res.map_bind]
  refine Res.bind_congr fun a => Res.bind_congr fun x => ?_
  rw [← wr_map, setOpinion_flip]

include ho in
theorem rkStep (p : ActivitySettings F) (N : Network A F) :
    Activity.rkStep o (settings p) (network N) = (Activity.rkStep o p N).map (List.map reflect) := by
  unfold Activity.rkStep
  simp only [Res.map_bind]
  rw [eulerSlopes ho p N (opinionAt N), Res.bind_map]
  refine Res.bind_congr fun k1 => ?_
  rw [eulerSlopes ho p N (fun i => opinionShifted N _ k1 i), Res.bind_map]
  refine Res.bind_congr fun k2 => ?_
  rw [eulerSlopes ho p N (fun i => opinionShifted N _ k2 i), Res.bind_map]
  refine Res.bind_congr fun k3 => ?_
  rw [eulerSlopes ho p N (fun i => opinionShifted N _ k3 i), Res.bind_map]
  refine Res.bind_congr fun k4 => ?_
  rw [nAgents]
  have := loop_map (n := N.nAgents) (List.map (reflect : A → A)) (f := fun i agents => Activity.rkUpdate p.dt k1 k2 k3 k4 i agents)
    (f' := fun i agents => Activity.rkUpdate p.dt (k1.map (-·)) (k2.map (-·)) (k3.map (-·)) (k4.map (-·)) i agents)
    (fun i agents _ => rkUpdate p.dt k1 k2 k3 k4 i agents) N.agents
  show (loop _ (fun i agents => Activity.rkUpdate p.dt (k1.map (-·)) (k2.map (-·)) (k3.map (-·)) (k4.map (-·)) i agents)
    (N.agents.map reflect) >>= _) = _
  rw [this, Res.bind_map]
  refine Res.bind_congr fun agents => ?_
  exact resetBots p agents

include ho in
theorem iteration (pick : List (Nat × F) → Nat) (r : Rng G F) (s : Activity A F G) :
    Activity.iteration o pick r (state s) = (Activity.iteration o pick r s).map state := by
  unfold Activity.iteration
  simp only [Res.map_bind]
  rw [show ({ state s with counter := (state s).counter.tick } : Activity A F G) = state { s with counter := s.counter.tick } from rfl,
    updateNetwork, Res.bind_map]
  refine Res.bind_congr fun u => ?_
  show (Activity.rkStep o (settings u.p) (network u.network) >>= _) = _
  rw [rkStep ho, Res.bind_map]
  rfl

end

/-! ## inertial model -/
section
variable [Zero F] [One F] [Sub F] [Mul F] [Add F] [Div F] [Neg F] [NatCast F] [LT F] [LE F] [DecidableLT F] [DecidableLE F] [MirrorArith F]

/-- Reflected state of the inertial model. -/
def inertial (s : Inertial F G) : Inertial F G := { s with base := state s.base }

theorem movePosition (dt c : F) (d : List F) (i : Nat) (agents : List (InertialAgent F)) :
    Inertial.movePosition dt c (d.map (-·)) i (agents.map reflect) = (Inertial.movePosition dt c d i agents).map (List.map reflect) := by
  unfold Inertial.movePosition
  simp only [rd_map, Res.bind_map, Res.map_bind]
  refine Res.bind_congr fun a => Res.bind_congr fun x => ?_
  rw [← wr_map]
  congr 1
  simp only [reflect, r_mul_neg, r_neg_mul, r_neg_sub, r_neg_add]

theorem moveVelocity (dt c : F) (d d' : List F) (i : Nat) (agents : List (InertialAgent F)) :
    Inertial.moveVelocity dt c (d.map (-·)) (d'.map (-·)) i (agents.map reflect) = (Inertial.moveVelocity dt c d d' i agents).map (List.map reflect) := by
  unfold Inertial.moveVelocity
  simp only [rd_map, Res.bind_map, Res.map_bind]
  refine Res.bind_congr fun a => Res.bind_congr fun x => Res.bind_congr fun y => ?_
  rw [← wr_map]
  congr 1
  simp only [reflect, r_mul_neg, r_neg_sub, r_neg_add, r_neg_div]

variable {o : MathOps F} (ho : ∀ x, o.tanh (-x) = -o.tanh x)

include ho in
theorem verletStep (p : ActivitySettings F) (c : F) (N : Network (InertialAgent F) F) :
    Inertial.verletStep o (settings p) c (network N) = (Inertial.verletStep o p c N).map (List.map reflect) := by
  unfold Inertial.verletStep
  simp only [Res.map_bind]
  rw [eulerSlopes ho p N (opinionAt N), Res.bind_map]
  refine Res.bind_congr fun d => ?_
  rw [nAgents]
  have := loop_map (n := N.nAgents) (List.map (reflect : InertialAgent F → InertialAgent F)) (f := fun i agents => Inertial.movePosition p.dt c d i agents)
    (f' := fun i agents => Inertial.movePosition p.dt c (d.map (-·)) i agents)
    (fun i agents _ => movePosition p.dt c d i agents) N.agents
  show (loop _ (fun i agents => Inertial.movePosition p.dt c (d.map (-·)) i agents) (N.agents.map reflect) >>= _) = _
  rw [this, Res.bind_map]
  refine Res.bind_congr fun agents => ?_
  show (Activity.eulerSlopes o (settings p) (network { N with agents := agents }) (Activity.opinionAt (network { N with agents := agents })) >>= _) = _
  rw [eulerSlopes ho p _ (opinionAt { N with agents := agents }), Res.bind_map]
  refine Res.bind_congr fun d' => ?_
  have := loop_map (n := ({ N with agents := agents } : Network (InertialAgent F) F).nAgents) (List.map (reflect : InertialAgent F → InertialAgent F))
    (f := fun i agents => Inertial.moveVelocity p.dt c d d' i agents)
    (f' := fun i agents => Inertial.moveVelocity p.dt c (d.map (-·)) (d'.map (-·)) i agents)
    (fun i agents _ => moveVelocity p.dt c d d' i agents) agents
  show (loop (network { N with agents := agents }).nAgents (fun i agents => Inertial.moveVelocity p.dt c (d.map (-·)) (d'.map (-·)) i agents) (agents.map reflect) >>= _) = _
  rw [nAgents, this, Res.bind_map]
  exact Res.bind_congr fun agents => resetBots p agents

include ho in
theorem inertialIteration (pick : List (Nat × F) → Nat) (r : Rng G F) (s : Inertial F G) :
    Inertial.iteration o pick r (inertial s) = (Inertial.iteration o pick r s).map inertial := by
  unfold Inertial.iteration
  simp only [Res.map_bind]
  rw [show ({ (inertial s).base with counter := (inertial s).base.counter.tick } : Activity (InertialAgent F) F G) =
    state { s.base with counter := s.base.counter.tick } from rfl, updateNetwork, Res.bind_map]
  refine Res.bind_congr fun u => ?_
  show (Inertial.verletStep o (settings u.p) s.friction (network u.network) >>= _) = _
  rw [verletStep ho, Res.bind_map]
  rfl

end
end Mirror
end Seldon
