import Verif.Lemmas.Integration
/-!
# Lemmas: the Verlet step of the inertial model
-/
set_option linter.unusedSectionVars false
namespace Seldon
open Spec
variable {A F G : Type}

namespace Inertial
variable [Zero F] [One F] [Sub F] [Mul F] [Add F] [Div F] [Neg F] [NatCast F] [LT F] [LE F] [DecidableLT F] [DecidableLE F]
open Activity

/-- The agent `i` after the position update, evaluated as in the code. -/
def moved (o : MathOps F) (p : ActivitySettings F) (c : F) (N : Network (InertialAgent F) F) (i : Nat) (a : InertialAgent F) : InertialAgent F :=
  { a with opinion := a.opinion + a.velocity * p.dt +
      1 / ((2 : Nat) : F) * (slope o p N (attr ActiveAgent.opinion N.agents) i - c * a.velocity) * p.dt * p.dt }

/-- The network after the position update. -/
def movedNet (o : MathOps F) (p : ActivitySettings F) (c : F) (N : Network (InertialAgent F) F) : Network (InertialAgent F) F :=
  { N with agents := N.agents.mapIdx (moved o p c N) }

/-- The agent `i` after position and velocity update, evaluated as in the code. -/
def kicked (o : MathOps F) (p : ActivitySettings F) (c : F) (N : Network (InertialAgent F) F) (i : Nat) (a : InertialAgent F) : InertialAgent F :=
  { moved o p c N i a with velocity :=
      (a.velocity + 1 / ((2 : Nat) : F) * p.dt * (slope o p N (attr ActiveAgent.opinion N.agents) i - c * a.velocity +
        slope o p (movedNet o p c N) (attr ActiveAgent.opinion (movedNet o p c N).agents) i)) / (1 + 1 / ((2 : Nat) : F) * c * p.dt) }

theorem wf_moved {o : MathOps F} {p : ActivitySettings F} {c : F} {N : Network (InertialAgent F) F} (h : WF N) : WF (movedNet o p c N) where
  rows := by simpa [movedNet] using h.rows
  wrows := by simpa [movedNet] using h.wrows
  lengths := h.lengths
  range := by simpa [movedNet] using h.range

theorem mapIdx_lt {α : Type} (l : List α) (f : Nat → α → α) : l.mapIdx (fun i a => if i < l.length then f i a else a) = l.mapIdx f := by
  apply List.ext_getElem?
  intro i
  simp only [List.getElem?_mapIdx]
  by_cases hi : i < l.length
  · simp [hi]
  · rw [List.getElem?_eq_none (by omega)]; rfl

/-- Closed form of the Verlet step with the bots. -/
theorem verletStep_eq (o : MathOps F) (p : ActivitySettings F) (c : F) {N : Network (InertialAgent F) F} (h : WF N)
    (hn : p.nBots ≤ N.agents.length) (hb : p.nBots ≤ p.botOpinion.length) :
    verletStep o p c N = .ok (N.agents.mapIdx (fun i a =>
      if i < p.nBots then { kicked o p c N i a with opinion := p.botOpinion.getD i 0 } else kicked o p c N i a)) := by
  have e1 : eulerSlopes o p N (opinionAt N) =
      .ok ((List.range N.agents.length).map (slope o p N (attr ActiveAgent.opinion N.agents))) :=
    eulerSlopes_eq o p h (fun i hi => opinionAt_ok N hi)
  have e2 : loop N.nAgents (fun i agents => movePosition p.dt c
      ((List.range N.agents.length).map (slope o p N (attr ActiveAgent.opinion N.agents))) i agents) N.agents =
      .ok (movedNet o p c N).agents := by
    unfold movedNet
    simp only
    rw [← mapIdx_lt N.agents (moved o p c N)]
    apply loop_modify (moved o p c N) (le_refl _)
    intro i c' a hi hl ha _
    unfold Network.nAgents at hi
    unfold movePosition
    rw [rd_eq_ok.mpr ha, Res.bind_ok, rd_lt (by simpa using hi), Res.bind_ok]
    dsimp only
    rw [wr_lt _ (by omega)]
    simp [moved]
  have hw := wf_moved (o := o) (p := p) (c := c) h
  have e3 : eulerSlopes o p (movedNet o p c N) (opinionAt (movedNet o p c N)) =
      .ok ((List.range (movedNet o p c N).agents.length).map
        (slope o p (movedNet o p c N) (attr ActiveAgent.opinion (movedNet o p c N).agents))) :=
    eulerSlopes_eq o p hw (fun i hi => opinionAt_ok _ hi)
  have hl : (movedNet o p c N).agents.length = N.agents.length := by simp [movedNet]
  have e4 : loop (movedNet o p c N).nAgents (fun i agents => moveVelocity p.dt c
      ((List.range N.agents.length).map (slope o p N (attr ActiveAgent.opinion N.agents)))
      ((List.range (movedNet o p c N).agents.length).map
        (slope o p (movedNet o p c N) (attr ActiveAgent.opinion (movedNet o p c N).agents))) i agents) (movedNet o p c N).agents =
      .ok (N.agents.mapIdx (kicked o p c N)) := by
    have := loop_modify (m := (movedNet o p c N).nAgents) (c := (movedNet o p c N).agents)
      (f := fun i agents => moveVelocity p.dt c
      ((List.range N.agents.length).map (slope o p N (attr ActiveAgent.opinion N.agents)))
      ((List.range (movedNet o p c N).agents.length).map
        (slope o p (movedNet o p c N) (attr ActiveAgent.opinion (movedNet o p c N).agents))) i agents)
      (fun i a => { a with velocity :=
      (a.velocity + 1 / ((2 : Nat) : F) * p.dt * (slope o p N (attr ActiveAgent.opinion N.agents) i - c * a.velocity +
        slope o p (movedNet o p c N) (attr ActiveAgent.opinion (movedNet o p c N).agents) i)) / (1 + 1 / ((2 : Nat) : F) * c * p.dt) })
      (le_refl _) (by
        intro i c' a hi hl' ha _
        unfold Network.nAgents at hi
        unfold moveVelocity
        rw [rd_eq_ok.mpr ha, Res.bind_ok, rd_lt (by simp; omega), Res.bind_ok, rd_lt (by simpa using hi), Res.bind_ok]
        dsimp only
        rw [wr_lt _ (by omega)]
        simp)
    rw [this]
    congr 1
    apply List.ext_getElem?
    intro i
    simp only [movedNet, List.getElem?_mapIdx, Option.map_map]
    by_cases hi : i < N.agents.length
    · rw [List.getElem?_eq_getElem hi]
      simp [Network.nAgents, hi, kicked, moved, movedNet]
    · rw [List.getElem?_eq_none (by omega)]; rfl
  unfold verletStep
  simp only [e1, Res.bind_ok, e2]
  change (do
    let driftNext ← eulerSlopes o p (movedNet o p c N) (opinionAt (movedNet o p c N))
    let agents ← loop (movedNet o p c N).nAgents (fun i agents => moveVelocity p.dt c
      ((List.range N.agents.length).map (slope o p N (attr ActiveAgent.opinion N.agents))) driftNext i agents) (movedNet o p c N).agents
    resetBots p agents) = _
  simp only [e3, e4, Res.bind_ok]
  rw [resetBots_eq p (by simpa using hn) hb]
  congr 1
  apply List.ext_getElem?
  intro i
  simp only [List.getElem?_mapIdx, Option.map_map]
  by_cases hi : i < N.agents.length
  · rw [List.getElem?_eq_getElem hi]
    simp [ActiveAgent.setOpinion]
  · rw [List.getElem?_eq_none (by omega)]; rfl

end Inertial
end Seldon
