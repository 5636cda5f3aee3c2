import Verif.Lemmas.Mirror
/-!
# Lemmas: without homophily the network update only depends on the activities, not on opinions, reluctances or the parameters of the dynamics
-/
set_option linter.unusedSectionVars false
namespace Seldon
open Spec
variable {A F G : Type}

namespace Blind
variable [ActiveAgent A F] [Zero F] [One F] [Sub F] [Mul F] [Add F] [Div F] [Neg F] [NatCast F] [LT F] [LE F] [DecidableLT F] [DecidableLE F]

/-- What is left of an agent: its activity. -/
def agent (a : A) : ActivityAgent F := ⟨0, ActiveAgent.activity a, 0⟩

/-- What is left of the settings: those that concern the contacts. -/
def settings (p : ActivitySettings F) : ActivitySettings F where
  maxIterations := none
  dt := 0
  m := p.m
  eps := 0
  gamma := 0
  alpha := 0
  homophily := p.homophily
  reciprocity := p.reciprocity
  K := 0
  meanActivities := false
  meanWeights := p.meanWeights
  nBots := p.nBots
  botM := p.botM
  botActivity := []
  botOpinion := []
  botHomophily := p.botHomophily
  useReluctances := false
  reluctanceMean := 0
  reluctanceSigma := 0
  reluctanceEps := 0
  covarianceFactor := 0

/-- The network with stripped agents. -/
def network (N : Network A F) : Network (ActivityAgent F) F := N.mapAgents agent

/-- The stripped state. -/
def state (s : Activity A F G) : Activity (ActivityAgent F) F G := ⟨⟨none, 0⟩, settings s.p, network s.network, s.contactProb, s.gen⟩

theorem nAgents (N : Network A F) : (network N).nAgents = N.nAgents := by simp [network, Network.mapAgents, Network.nAgents]

/-- All homophilies are 0. -/
def Indifferent (p : ActivitySettings F) : Prop := p.homophily = 0 ∧ ∀ h ∈ p.botHomophily, h = 0

theorem Indifferent.of {p : ActivitySettings F} (hp : Indifferent p) {i : Nat} {h : F} (hh : Activity.homophilyOf p i = .ok h) : h = 0 := by
  unfold Activity.homophilyOf at hh
  split at hh
  · exact hp.2 h (List.mem_of_getElem? (rd_eq_ok.mp hh))
  · rw [← Except.ok.inj hh]; exact hp.1

theorem bind_congr_ok {α β : Type} {x : Res α} {f g : α → Res β} (h : ∀ a, x = .ok a → f a = g a) : x >>= f = x >>= g := by
  cases x with
  | error e => rfl
  | ok a => exact h a rfl

variable {o : MathOps F} (ho : ∀ x, o.pow x (-0) = 1)
include ho

theorem weight (agents : List A) (i : Nat) : Activity.weight o 0 (agents.map agent) i = Activity.weight o 0 agents i := by
  funext j
  unfold Activity.weight
  split
  · rfl
  · rw [List.getElem?_map, List.getElem?_map]
    cases agents[i]? with
    | none => rfl
    | some a =>
      cases agents[j]? with
      | none => rfl
      | some b => simp only [Option.map_some, ho]

omit ho in
/-- The stripped intermediate state. -/
def contacting (t : Activity.Contacting A F G) : Activity.Contacting (ActivityAgent F) F G := ⟨network t.network, t.contacted, t.edges, t.gen⟩

theorem contact (pick : List (Nat × F) → Nat) (r : Rng G F) {p : ActivitySettings F} (hp : Indifferent p) (i : Nat) (t : Activity.Contacting A F G)
    (g : G) : Activity.contact o pick r (settings p) i (contacting t) g = (Activity.contact o pick r p i t g).map contacting := by
  unfold Activity.contact
  simp only [Res.map_bind]
  show (Activity.contactsWanted p i >>= fun m => Activity.homophilyOf p i >>= fun h => _) = _
  refine Res.bind_congr fun m => bind_congr_ok fun h hh => ?_
  obtain rfl := hp.of hh
  have e1 : (contacting t).network.nAgents = t.network.nAgents := nAgents _
  have e2 : Activity.weight o 0 (contacting t).network.agents i = Activity.weight o 0 t.network.agents i := weight ho _ i
  rw [e1, e2]
  show (Reservoir.sample o.toOps pick r m t.network.nAgents (Activity.weight o 0 t.network.agents i) t.contacted g >>= _) = _
  refine Res.bind_congr fun c => ?_
  obtain ⟨c, g'⟩ := c
  simp only
  show ((((network t.network).setNeighboursConst i c 1).run) >>= _) = _
  unfold network
  rw [Mirror.setNeighboursConst, Res.bind_map]
  rfl

theorem activate (pick : List (Nat × F) → Nat) (r : Rng G F) {p : ActivitySettings F} (hp : Indifferent p) (i : Nat) (t : Activity.Contacting A F G) :
    Activity.activate o pick r (settings p) i (contacting t) = (Activity.activate o pick r p i t).map contacting := by
  unfold Activity.activate
  simp only [Res.map_bind]
  show (rd (t.network.agents.map agent) i >>= _) = _
  rw [rd_map, Res.bind_map]
  refine Res.bind_congr fun a => ?_
  show (if (r.unit t.gen).1 < ActiveAgent.activity a then _ else _) = _
  split
  · exact contact ho pick r hp i t _
  · show ((((network t.network).setNeighboursConst i [] 0).run) >>= _) = _
    unfold network
    rw [Mirror.setNeighboursConst, Res.bind_map, Res.map_bind]
    rfl

omit ho in
/-- The stripped intermediate state of the second phase. -/
def pair (t : Network A F × G) : Network (ActivityAgent F) F × G := (network t.1, t.2)

omit ho in
theorem reciprocateEdge (r : Rng G F) (c : F) (edges : List (Nat × Nat)) (i k : Nat) (t : Network A F × G) :
    Activity.reciprocateEdge r c edges i k (pair t) = (Activity.reciprocateEdge r c edges i k t).map pair := by
  unfold Activity.reciprocateEdge
  simp only [Res.map_bind]
  show (rd t.1.neighbours i >>= _) = _
  refine Res.bind_congr fun row => Res.bind_congr fun j => ?_
  split
  · rfl
  · show (if (r.unit t.2).1 < c then _ else _) = _
    split
    · split
      · rfl
      · show ((((network t.1).pushBack j i 1).run) >>= _) = _
        unfold network
        rw [Mirror.pushBack, Res.bind_map, Res.map_bind]
        rfl
    · rfl

omit ho in
theorem reciprocate (r : Rng G F) (c : F) (edges : List (Nat × Nat)) (i : Nat) (t : Network A F × G) :
    Activity.reciprocate r c edges i (pair t) = (Activity.reciprocate r c edges i t).map pair := by
  unfold Activity.reciprocate
  simp only [Res.map_bind]
  show (t.1.getNeighbours i >>= _) = _
  refine Res.bind_congr fun row => ?_
  exact loop_map pair (fun k t _ => reciprocateEdge r c edges i k t) t

theorem updateProbabilistic (pick : List (Nat × F) → Nat) (r : Rng G F) {s : Activity A F G} (hp : Indifferent s.p) :
    Activity.updateProbabilistic o pick r (state s) = (Activity.updateProbabilistic o pick r s).map state := by
  unfold Activity.updateProbabilistic
  simp only [Res.map_bind]
  have e1 : (state s).network.nAgents = s.network.nAgents := nAgents _
  rw [e1]
  have e2 := loop_map (n := s.network.nAgents) (contacting (A := A) (F := F) (G := G)) (f := fun i t => Activity.activate o pick r s.p i t)
    (f' := fun i t => Activity.activate o pick r (settings s.p) i t) (fun i t _ => activate ho pick r hp i t)
    ⟨s.network.switchDirectionFlag, [], [], s.gen⟩
  show (loop _ (fun i t => Activity.activate o pick r (settings s.p) i t) (contacting ⟨s.network.switchDirectionFlag, [], [], s.gen⟩) >>= _) = _
  rw [e2, Res.bind_map]
  refine Res.bind_congr fun t => ?_
  have e3 := loop_map (n := s.network.nAgents) pair (f := fun i t' => Activity.reciprocate r s.p.reciprocity t.edges i t')
    (f' := fun i t' => Activity.reciprocate r s.p.reciprocity t.edges i t') (fun i t' _ => reciprocate r s.p.reciprocity t.edges i t')
    (t.network, t.gen)
  show (loop _ (fun i t' => Activity.reciprocate r s.p.reciprocity t.edges i t') (pair (t.network, t.gen)) >>= _) = _
  rw [e3, Res.bind_map]
  refine Res.bind_congr fun u => ?_
  obtain ⟨N, g⟩ := u
  show ((network N).toggle >>= _) = _
  simp only
  unfold network
  rw [Mirror.toggle, Res.bind_map]
  rfl

omit ho in
theorem resetMean (i : Nat) (t : Network A F × List (List F)) :
    Activity.resetMean i (network t.1, t.2) = (Activity.resetMean i t).map (fun t => (network t.1, t.2)) := by
  unfold Activity.resetMean
  simp only [Res.map_bind]
  rw [nAgents]
  unfold network
  rw [Mirror.setWeights, Res.bind_map]
  rfl

omit ho in
theorem addWeight (N : Network A F) (i k : Nat) (x : F) : Activity.addWeight (network N) i k x = (Activity.addWeight N i k x).map network := by
  unfold Activity.addWeight
  simp only [Res.map_bind]
  show (N.getWeights i >>= _) = _
  refine Res.bind_congr fun row => Res.bind_congr fun w => ?_
  unfold network
  rw [Mirror.pokeWeight]

omit ho in
theorem meanPair (c : F) (P : List (List F)) (i j : Nat) (N : Network A F) :
    Activity.meanPair c P i j (network N) = (Activity.meanPair c P i j N).map network := by
  unfold Activity.meanPair
  simp only [Res.map_bind, addWeight, Res.bind_map]

theorem updateMean {s : Activity A F G} (hp : Indifferent s.p) : Activity.updateMean o (state s) = (Activity.updateMean o s).map state := by
  unfold Activity.updateMean
  simp only [Res.map_bind]
  have e1 : (state s).network.nAgents = s.network.nAgents := nAgents _
  rw [e1]
  have e2 := loop_map (n := s.network.nAgents) (fun t : Network A F × List (List F) => (network t.1, t.2))
    (f := fun i t => Activity.resetMean i t) (f' := fun i t => Activity.resetMean i t) (fun i t _ => resetMean i t) (s.network, s.contactProb)
  show (loop _ (fun i t => Activity.resetMean i t) (network s.network, s.contactProb) >>= _) = _
  rw [e2, Res.bind_map]
  refine Res.bind_congr fun t => ?_
  obtain ⟨N, P⟩ := t
  simp only
  have e3 : (fun i P => Activity.contactProbs o (state s).p (network N).agents i P) = fun i P => Activity.contactProbs o s.p N.agents i P := by
    funext i P
    unfold Activity.contactProbs
    show (Activity.homophilyOf s.p i >>= _) = _
    refine bind_congr_ok fun h hh => ?_
    obtain rfl := hp.of hh
    have hl : (network N).agents.length = N.agents.length := by simp [network, Network.mapAgents]
    rw [hl, show (network N).agents = N.agents.map agent from rfl, weight ho]
    refine Res.bind_congr fun norm => ?_
    show (Activity.contactsWanted s.p i >>= _) = _
    refine Res.bind_congr fun m => ?_
    rw [rd_map, Res.bind_map]
    rfl
  rw [e3]
  refine Res.bind_congr fun P => ?_
  have e4 := loop_map (n := s.network.nAgents) network
    (f := fun i N => loop s.network.nAgents (fun j N => Activity.meanPair s.p.reciprocity P i j N) N)
    (f' := fun i N => loop s.network.nAgents (fun j N => Activity.meanPair s.p.reciprocity P i j N) N)
    (fun i N _ => loop_map network (fun j N _ => meanPair s.p.reciprocity P i j N) N) N
  show (loop _ (fun i N => loop s.network.nAgents (fun j N => Activity.meanPair s.p.reciprocity P i j N) N) (network N) >>= _) = _
  rw [e4, Res.bind_map]
  rfl

theorem updateNetwork (pick : List (Nat × F) → Nat) (r : Rng G F) {s : Activity A F G} (hp : Indifferent s.p) :
    Activity.updateNetwork o pick r (state s) = (Activity.updateNetwork o pick r s).map state := by
  unfold Activity.updateNetwork
  show (if s.p.meanWeights = false then _ else _) = _
  split
  · exact updateProbabilistic ho pick r hp
  · exact updateMean ho hp

end Blind
end Seldon
