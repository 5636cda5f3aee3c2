import Verif.Spec.Ode
import Verif.Lemmas.Network
import Verif.Lemmas.Deffuant
import Mathlib.Tactic.FieldSimp
/-!
# Lemmas: slopes, Runge-Kutta and Verlet steps
-/
set_option linter.unusedSectionVars false
namespace Seldon
open Spec
variable {A F G : Type}

/-- The agent attributes are independent. -/
class LawfulActiveAgent (A : Type) (F : outParam Type) [ActiveAgent A F] : Prop where
  opinion_setOpinion : ∀ (x : F) (a : A), ActiveAgent.opinion (ActiveAgent.setOpinion x a) = x
  activity_setOpinion : ∀ (x : F) (a : A), ActiveAgent.activity (ActiveAgent.setOpinion x a) = ActiveAgent.activity a
  reluctance_setOpinion : ∀ (x : F) (a : A), ActiveAgent.reluctance (ActiveAgent.setOpinion x a) = ActiveAgent.reluctance a
  opinion_setActivity : ∀ (x : F) (a : A), ActiveAgent.opinion (ActiveAgent.setActivity x a) = ActiveAgent.opinion a
  activity_setActivity : ∀ (x : F) (a : A), ActiveAgent.activity (ActiveAgent.setActivity x a) = x
  reluctance_setActivity : ∀ (x : F) (a : A), ActiveAgent.reluctance (ActiveAgent.setActivity x a) = ActiveAgent.reluctance a
  opinion_setReluctance : ∀ (x : F) (a : A), ActiveAgent.opinion (ActiveAgent.setReluctance x a) = ActiveAgent.opinion a
  activity_setReluctance : ∀ (x : F) (a : A), ActiveAgent.activity (ActiveAgent.setReluctance x a) = ActiveAgent.activity a
  reluctance_setReluctance : ∀ (x : F) (a : A), ActiveAgent.reluctance (ActiveAgent.setReluctance x a) = x

instance : LawfulActiveAgent (ActivityAgent F) F := by constructor <;> intros <;> rfl
instance : LawfulActiveAgent (InertialAgent F) F := by constructor <;> intros <;> rfl

/-- A loop that modifies the first `m` entries of a list, each once. -/
theorem loop_modify {α : Type} {m : Nat} {f : Nat → List α → Res (List α)} {c : List α} (v : Nat → α → α) (hm : m ≤ c.length)
    (hf : ∀ i c' a, i < m → c'.length = c.length → c'[i]? = some a → c[i]? = some a → f i c' = .ok (c'.set i (v i a))) :
    loop m f c = .ok (c.mapIdx (fun i a => if i < m then v i a else a)) := by
  obtain ⟨t, ht, hl, hv⟩ := loop_inv (n := m) (f := f) (s := c)
    (fun k t => t.length = c.length ∧ ∀ i, t[i]? = c[i]?.map (fun a => if i < k then v i a else a)) ⟨rfl, by simp⟩ (by
      intro k t hk ⟨h1, h2⟩
      have hkc : k < c.length := by omega
      have e : t[k]? = some c[k] := by rw [h2]; simp [hkc]
      refine ⟨_, hf k t _ hk h1 e (by simp [hkc]), by simpa using h1, ?_⟩
      intro i
      rw [List.getElem?_set]
      by_cases hik : k = i
      · subst hik
        simp [h1, hkc]
      · rw [if_neg hik, h2]
        have : (i < k + 1) = (i < k) := by
          apply propext; omega
        simp only [this])
  rw [ht]
  congr 1
  apply List.ext_getElem?
  intro i
  rw [hv, List.getElem?_mapIdx]

namespace Activity

theorem attr_lt [Zero F] (f : A → F) {agents : List A} {i : Nat} (h : i < agents.length) : attr f agents i = f agents[i] := by
  simp [attr, h]

theorem attr_some [Zero F] (f : A → F) {agents : List A} {i : Nat} {a : A} (h : agents[i]? = some a) : attr f agents i = f a := by
  obtain ⟨hi, rfl⟩ := List.getElem?_eq_some_iff.mp h
  exact attr_lt f hi

theorem attr_mapIdx [Zero F] (f : A → F) (v : Nat → A → A) {agents : List A} {i : Nat} (h : i < agents.length) :
    attr f (agents.mapIdx v) i = f (v i agents[i]) := by
  rw [attr_lt f (by simpa using h)]; simp

section
variable [ActiveAgent A F] [Zero F] [One F] [Sub F] [Mul F] [Add F] [Div F] [Neg F] [NatCast F] [LT F] [LE F] [DecidableLT F] [DecidableLE F]

/-- The slope of agent `i` for the opinions `x`, evaluated as in the code. -/
def slope (o : MathOps F) (p : ActivitySettings F) (N : Network A F) (x : Nat → F) (i : Nat) : F :=
  (row N i).foldl (fun acc e => acc + 1 / attr ActiveAgent.reluctance N.agents i * p.K * e.2 * o.tanh (p.alpha * x e.1)) (-(x i))

theorem slopeTerm_eq (o : MathOps F) (p : ActivitySettings F) {N : Network A F} (h : WF N) {opinion : Nat → Res F} {x : Nat → F}
    (hx : ∀ i, i < N.agents.length → opinion i = .ok (x i)) {i : Nat} (hi : i < N.agents.length) {k : List F}
    (hk : k.length = N.agents.length) {j : Nat} (hj : j < (row N i).length) (acc : F) :
    slopeTerm o p N.agents (N.neighbours.getD i []) (N.weights.getD i []) opinion i j (k.set i acc) =
      .ok (k.set i (acc + 1 / attr ActiveAgent.reluctance N.agents i * p.K * (row N i)[j].2 * o.tanh (p.alpha * x (row N i)[j].1))) := by
  have hw := NetLemmas.WF.row_len h hi
  have hj' : j < (N.neighbours.getD i []).length := by rw [← NetLemmas.row_length h hi]; exact hj
  have hlt := NetLemmas.row_lt h (List.getElem_mem hj)
  have hr : (row N i)[j] = ((N.neighbours.getD i [])[j], (N.weights.getD i [])[j]'(by omega)) := by simp [row]
  rw [hr] at hlt ⊢
  unfold slopeTerm
  rw [rd_lt hj', Res.bind_ok, rd_lt (by simp; omega), Res.bind_ok, rd_lt hi, Res.bind_ok, rd_lt (by omega), Res.bind_ok, hx _ hlt,
    Res.bind_ok, wr_lt _ (by simp; omega)]
  simp only [List.getElem_set_self, List.set_set]
  rw [attr_lt _ hi]

/-- Closed form of `get_euler_slopes`. -/
theorem eulerSlopes_eq (o : MathOps F) (p : ActivitySettings F) {N : Network A F} (h : WF N) {opinion : Nat → Res F} {x : Nat → F}
    (hx : ∀ i, i < N.agents.length → opinion i = .ok (x i)) :
    eulerSlopes o p N opinion = .ok ((List.range N.agents.length).map (slope o p N x)) := by
  unfold eulerSlopes Network.nAgents
  apply loop_set _ (by simp)
  intro i k hi hk
  unfold Network.getNeighbours Network.getWeights
  rw [rd_getD [] (by rw [h.rows]; exact hi), Res.bind_ok, rd_getD [] (by rw [h.wrows]; exact hi), Res.bind_ok,
    hx i hi, Res.bind_ok, wr_lt _ (by omega), Res.bind_ok]
  have := loop_eq (n := (N.neighbours.getD i []).length)
    (f := fun j k => slopeTerm o p N.agents (N.neighbours.getD i []) (N.weights.getD i []) opinion i j k)
    (fun m => k.set i (((row N i).take m).foldl (fun acc e => acc + 1 / attr ActiveAgent.reluctance N.agents i * p.K * e.2 * o.tanh (p.alpha * x e.1)) (-(x i)))) (by
      intro j hj
      have hj' : j < (row N i).length := by rw [NetLemmas.row_length h hi]; exact hj
      rw [slopeTerm_eq o p h hx hi hk hj', List.take_succ_eq_append_getElem hj', List.foldl_append]
      rfl)
  simp only [List.take_zero, List.foldl_nil] at this
  rw [this]
  rw [List.take_of_length_le (by rw [NetLemmas.row_length h hi])]
  rfl

theorem opinionAt_ok (N : Network A F) {i : Nat} (hi : i < N.agents.length) :
    opinionAt N i = .ok (attr ActiveAgent.opinion N.agents i) := by
  unfold opinionAt; rw [rd_lt hi, attr_lt _ hi]; rfl

theorem opinionShifted_ok (N : Network A F) (h : F) (k : Nat → F) {i : Nat} (hi : i < N.agents.length) :
    opinionShifted N h ((List.range N.agents.length).map k) i = .ok (attr ActiveAgent.opinion N.agents i + h * k i) := by
  unfold opinionShifted
  rw [rd_lt hi, Res.bind_ok, rd_lt (by simpa using hi), attr_lt _ hi]
  simp

/-! the four stages -/
def stage1 (o : MathOps F) (p : ActivitySettings F) (N : Network A F) : Nat → F := slope o p N (attr ActiveAgent.opinion N.agents)
def stage2 (o : MathOps F) (p : ActivitySettings F) (N : Network A F) : Nat → F :=
  slope o p N (fun j => attr ActiveAgent.opinion N.agents j + 1 / ((2 : Nat) : F) * p.dt * stage1 o p N j)
def stage3 (o : MathOps F) (p : ActivitySettings F) (N : Network A F) : Nat → F :=
  slope o p N (fun j => attr ActiveAgent.opinion N.agents j + 1 / ((2 : Nat) : F) * p.dt * stage2 o p N j)
def stage4 (o : MathOps F) (p : ActivitySettings F) (N : Network A F) : Nat → F :=
  slope o p N (fun j => attr ActiveAgent.opinion N.agents j + p.dt * stage3 o p N j)

/-- The opinion of agent `i` after the Runge-Kutta step, evaluated as in the code. -/
def rkOpinion (o : MathOps F) (p : ActivitySettings F) (N : Network A F) (i : Nat) (x : F) : F :=
  x + p.dt * (stage1 o p N i + ((2 : Nat) : F) * stage2 o p N i + ((2 : Nat) : F) * stage3 o p N i + stage4 o p N i) / ((6 : Nat) : F)

theorem resetBots_eq (p : ActivitySettings F) {agents : List A} (hn : p.nBots ≤ agents.length) (hb : p.nBots ≤ p.botOpinion.length) :
    resetBots p agents = .ok (agents.mapIdx (fun i a => if i < p.nBots then ActiveAgent.setOpinion (p.botOpinion.getD i 0) a else a)) := by
  unfold resetBots
  apply loop_modify (fun i a => ActiveAgent.setOpinion (p.botOpinion.getD i 0) a) hn
  intro i c' a hi hl ha _
  rw [rd_eq_ok.mpr ha, Res.bind_ok, rd_getD 0 (by omega), Res.bind_ok, wr_lt _ (by omega)]

/-- Closed form of the Runge-Kutta step with the bots. -/
theorem rkStep_eq (o : MathOps F) (p : ActivitySettings F) {N : Network A F} (h : WF N) (hn : p.nBots ≤ N.agents.length)
    (hb : p.nBots ≤ p.botOpinion.length) :
    rkStep o p N = .ok (N.agents.mapIdx (fun i a =>
      if i < p.nBots then ActiveAgent.setOpinion (p.botOpinion.getD i 0) (ActiveAgent.setOpinion (rkOpinion o p N i (ActiveAgent.opinion a)) a)
      else ActiveAgent.setOpinion (rkOpinion o p N i (ActiveAgent.opinion a)) a)) := by
  have e1 : eulerSlopes o p N (opinionAt N) = .ok ((List.range N.agents.length).map (stage1 o p N)) :=
    eulerSlopes_eq o p h (fun i hi => opinionAt_ok N hi)
  have e2 : eulerSlopes o p N (opinionShifted N (1 / ((2 : Nat) : F) * p.dt) ((List.range N.agents.length).map (stage1 o p N))) =
      .ok ((List.range N.agents.length).map (stage2 o p N)) := eulerSlopes_eq o p h (fun i hi => opinionShifted_ok N _ _ hi)
  have e3 : eulerSlopes o p N (opinionShifted N (1 / ((2 : Nat) : F) * p.dt) ((List.range N.agents.length).map (stage2 o p N))) =
      .ok ((List.range N.agents.length).map (stage3 o p N)) := eulerSlopes_eq o p h (fun i hi => opinionShifted_ok N _ _ hi)
  have e4 : eulerSlopes o p N (opinionShifted N p.dt ((List.range N.agents.length).map (stage3 o p N))) =
      .ok ((List.range N.agents.length).map (stage4 o p N)) := eulerSlopes_eq o p h (fun i hi => opinionShifted_ok N _ _ hi)
  have e5 : loop N.nAgents (fun i agents => rkUpdate p.dt ((List.range N.agents.length).map (stage1 o p N))
      ((List.range N.agents.length).map (stage2 o p N)) ((List.range N.agents.length).map (stage3 o p N))
      ((List.range N.agents.length).map (stage4 o p N)) i agents) N.agents =
      .ok (N.agents.mapIdx (fun i a => if i < N.nAgents then ActiveAgent.setOpinion (rkOpinion o p N i (ActiveAgent.opinion a)) a else a)) := by
    apply loop_modify (fun i a => ActiveAgent.setOpinion (rkOpinion o p N i (ActiveAgent.opinion a)) a) (le_refl _)
    intro i c' a hi hl ha _
    unfold Network.nAgents at hi
    unfold rkUpdate
    rw [rd_eq_ok.mpr ha, Res.bind_ok, rd_lt (by simpa using hi), Res.bind_ok, rd_lt (by simpa using hi), Res.bind_ok,
      rd_lt (by simpa using hi), Res.bind_ok, rd_lt (by simpa using hi), Res.bind_ok, wr_lt _ (by omega)]
    simp [rkOpinion]
  unfold rkStep
  simp only [e1, e2, e3, e4, e5, Res.bind_ok]
  rw [resetBots_eq p (by simpa using hn) hb]
  congr 1
  apply List.ext_getElem?
  intro i
  simp only [List.getElem?_mapIdx, Option.map_map]
  by_cases hi : i < N.agents.length
  · rw [List.getElem?_eq_getElem hi]
    simp [Network.nAgents, hi]
  · rw [List.getElem?_eq_none (by omega)]; rfl

end

/-- In exact arithmetic the slope is the right-hand side of the ODE. -/
theorem slope_exact [ActiveAgent A F] [Field F] [LT F] [LE F] [DecidableLT F] [DecidableLE F] (o : MathOps F) (p : ActivitySettings F)
    (N : Network A F) (x : Nat → F) (i : Nat) :
    slope o p N x i = rate o.tanh p.K p.alpha N (attr ActiveAgent.reluctance N.agents) x i := by
  unfold slope rate weightedSum
  have : ∀ (l : List (Nat × F)) (b c : F), l.foldl (fun acc e => acc + 1 / b * p.K * e.2 * o.tanh (p.alpha * x e.1)) c =
      c + p.K / b * (l.map (fun e => e.2 * o.tanh (p.alpha * x e.1))).sum := by
    intro l b
    induction l with
    | nil => intro c; simp
    | cons e l ih => intro c; rw [List.foldl_cons, ih]; simp; ring
  rw [this]

end Activity
end Seldon
