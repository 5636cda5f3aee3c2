import Verif.Lemmas.MeanField
import Verif.Lemmas.Integration
/-!
# Lemmas: construction of the activity-driven and inertial models
-/
set_option linter.unusedSectionVars false
namespace Seldon
open Spec
variable {A F G : Type}

namespace Activity
section
variable [ActiveAgent A F] [Inhabited A] [Zero F] [One F] [Sub F] [Mul F] [Add F] [Div F] [Neg F] [NatCast F]

/-- The generator state when agent `i` is drawn. -/
def drawState (o : MathOps F) (r : Rng G F) (p : ActivitySettings F) (agents : List A) (g : G) : Nat → G
  | 0 => g
  | i + 1 => (initialAgent o r p (agents.getD i default) (drawState o r p agents g i)).2

theorem drawAgents_eq (o : MathOps F) (r : Rng G F) (p : ActivitySettings F) (agents : List A) (g : G) :
    drawAgents o r p agents g = .ok (agents.mapIdx (fun i a => (initialAgent o r p a (drawState o r p agents g i)).1),
      drawState o r p agents g agents.length) := by
  unfold drawAgents
  obtain ⟨⟨l, g'⟩, ht, hl, hg, hv⟩ := loop_inv (n := agents.length) (f := fun i (t : List A × G) => do
      let a ← rd t.1 i
      let (a, g) := initialAgent o r p a t.2
      let agents ← wr t.1 i a
      .ok (agents, g)) (s := (agents, g))
    (fun k t => t.1.length = agents.length ∧ t.2 = drawState o r p agents g k ∧
      ∀ i : Nat, t.1[i]? = agents[i]?.map (fun a => if i < k then (initialAgent o r p a (drawState o r p agents g i)).1 else a))
    ⟨rfl, rfl, by simp⟩ (by
      rintro k ⟨l, g'⟩ hk ⟨hl, hg, hv⟩
      simp only at hl hg hv
      subst hg
      have e : l[k]? = some agents[k] := by rw [hv]; simp [hk]
      obtain ⟨hk', e'⟩ := List.getElem?_eq_some_iff.mp e
      refine ⟨(l.set k (initialAgent o r p agents[k] (drawState o r p agents g k)).1, drawState o r p agents g (k + 1)), ?_, ?_, rfl, ?_⟩
      · rw [rd_lt hk', Res.bind_ok, e']
        simp only
        rw [wr_lt _ hk', Res.bind_ok]
        simp [drawState, hk]
      · simpa using hl
      · intro i
        simp only
        rw [List.getElem?_set]
        by_cases hik : k = i
        · subst hik
          simp [hk, hk']
        · rw [if_neg hik, hv]
          have : (i < k + 1) = (i < k) := by apply propext; omega
          simp only [this])
  rw [ht]
  simp only at hl hg hv
  congr 2
  apply List.ext_getElem?
  intro i
  rw [hv, List.getElem?_mapIdx]
  by_cases hi : i < agents.length
  · simp [hi]
  · simp [hi]

theorem initBots_eq {p : ActivitySettings F} {agents : List A} (hn : p.nBots ≤ agents.length) (h1 : p.nBots ≤ p.botOpinion.length)
    (h2 : p.nBots ≤ p.botActivity.length) :
    initBots p agents = .ok (agents.mapIdx (fun i a => if i < p.nBots then
      ActiveAgent.setActivity (p.botActivity.getD i 0) (ActiveAgent.setOpinion (p.botOpinion.getD i 0) a) else a)) := by
  unfold initBots
  apply loop_modify _ hn
  intro i c' a hi _ ha _
  rw [rd_eq_ok.mpr ha, Res.bind_ok, rd_getD 0 (by omega), Res.bind_ok, rd_getD 0 (by omega), Res.bind_ok,
    wr_lt _ (List.getElem?_eq_some_iff.mp ha).1]

/-- The agents after construction. -/
def createdAgents (o : MathOps F) (r : Rng G F) (p : ActivitySettings F) (agents : List A) (g : G) : List A :=
  agents.mapIdx (fun i a =>
    let a := (initialAgent o r p a (drawState o r p agents g i)).1
    if i < p.nBots then ActiveAgent.setActivity (p.botActivity.getD i 0) (ActiveAgent.setOpinion (p.botOpinion.getD i 0) a) else a)

theorem createdAgents_length (o : MathOps F) (r : Rng G F) (p : ActivitySettings F) (agents : List A) (g : G) :
    (createdAgents o r p agents g).length = agents.length := by simp [createdAgents]

theorem create_eq (o : MathOps F) (r : Rng G F) {p : ActivitySettings F} {N : Network A F} (g : G) (hn : p.nBots ≤ N.agents.length)
    (h1 : p.nBots ≤ p.botOpinion.length) (h2 : p.nBots ≤ p.botActivity.length) :
    create o r p N g = .ok ⟨⟨p.maxIterations.map Network.toSize, 0⟩, p,
      if p.meanWeights then ⟨createdAgents o r p N.agents g, List.replicate N.agents.length (List.range N.agents.length),
        List.replicate N.agents.length (List.replicate N.agents.length 0), .incoming⟩ else { N with agents := createdAgents o r p N.agents g },
      List.replicate N.agents.length [], drawState o r p N.agents g N.agents.length⟩ := by
  unfold create
  simp only
  rw [drawAgents_eq, Res.bind_ok]
  simp only
  rw [initBots_eq (by simpa using hn) h1 h2, Res.bind_ok, List.mapIdx_mapIdx]
  unfold meanNetwork
  by_cases h : p.meanWeights
  · simp only [h, if_true, NetworkGen.fullyConnected_eq, Res.bind_ok, Network.nAgents]
    simp [Network.ofLists, createdAgents]
    rfl
  · simp only [h, if_false, Bool.false_eq_true, Res.bind_ok]
    rfl

end
end Activity
end Seldon
