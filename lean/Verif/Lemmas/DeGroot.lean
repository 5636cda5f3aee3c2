import Verif.Spec.Dynamics
import Verif.Model.DeGroot
import Verif.Lemmas.Network
/-!
# Lemmas for the DeGroot model
-/
set_option linter.unusedSectionVars false
namespace Seldon
open Spec

/-- A loop that sets every entry of a list once. -/
theorem loop_set {α : Type} {n : Nat} {f : Nat → List α → Res (List α)} {c : List α} (v : Nat → α) (hc : c.length = n)
    (hf : ∀ i c, i < n → c.length = n → f i c = .ok (c.set i (v i))) : loop n f c = .ok ((List.range n).map v) := by
  obtain ⟨t, ht, hl, hv⟩ := loop_inv (n := n) (f := f) (s := c)
    (fun k t => t.length = n ∧ ∀ i, i < k → t[i]? = some (v i)) ⟨hc, by simp⟩ (by
      intro i t hi ⟨h1, h2⟩
      refine ⟨_, hf i t hi h1, by simpa using h1, ?_⟩
      intro j hj
      rw [List.getElem?_set]
      split
      · next h => subst h; simp [h1, hi]
      · exact h2 j (by omega))
  rw [ht]
  congr 1
  apply List.ext_getElem?
  intro i
  by_cases hi : i < n
  · rw [hv i hi]; simp [hi]
  · rw [List.getElem?_eq_none (by omega), List.getElem?_eq_none (by simp; omega)]

namespace DeGroot
variable {F : Type}

theorem spread_eq [NatCast F] [Div F] (agents : List (SimpleAgent F)) :
    spread agents = .ok ((List.range agents.length).map (fun i : Nat => (⟨(i : F) / (agents.length : F)⟩ : SimpleAgent F))) := by
  unfold spread
  apply loop_set _ rfl
  intro i c hi hc
  rw [rd_lt (by omega), wr_lt _ (by omega)]; rfl

section
variable [Zero F] [Add F] [Mul F] [Sub F] [Neg F] [LT F] [DecidableLT F]

omit [Add F] [Mul F] [Sub F] [Neg F] [LT F] [DecidableLT F] in
theorem opinionOf_lt {agents : List (SimpleAgent F)} {i : Nat} (h : i < agents.length) : opinionOf agents i = agents[i].opinion := by
  simp [opinionOf, opinions, h]

/-- The opinions after one iteration. -/
def stepAgents (N : Network (SimpleAgent F) F) : List (SimpleAgent F) :=
  (List.range N.agents.length).map (fun i => ⟨weightedSumLR N (opinionOf N.agents) i⟩)

theorem addTerm_eq {N : Network (SimpleAgent F) F} (h : WF N) {i : Nat} (hi : i < N.agents.length) {copy : List (SimpleAgent F)}
    (hc : copy.length = N.agents.length) {j : Nat} (hj : j < (N.neighbours.getD i []).length) (acc : F) :
    addTerm N.agents (N.neighbours.getD i []) (N.weights.getD i []) i j (copy.set i ⟨acc⟩) =
      .ok (copy.set i ⟨acc + ((row N i)[j]'(by rw [NetLemmas.row_length h hi]; exact hj)).2 *
        opinionOf N.agents ((row N i)[j]'(by rw [NetLemmas.row_length h hi]; exact hj)).1⟩) := by
  have hw := NetLemmas.WF.row_len h hi
  have hlt := NetLemmas.row_lt h (List.getElem_mem (l := row N i) (n := j) (by rw [NetLemmas.row_length h hi]; exact hj))
  have hr : (row N i)[j]'(by rw [NetLemmas.row_length h hi]; exact hj) = ((N.neighbours.getD i [])[j], (N.weights.getD i [])[j]'(by omega)) := by
    simp [row]
  rw [hr] at hlt ⊢
  unfold addTerm
  rw [rd_lt hj, Res.bind_ok, rd_lt (by omega), Res.bind_ok, rd_lt (by simp; omega), Res.bind_ok, rd_lt hlt, Res.bind_ok,
    wr_lt _ (by simp; omega)]
  simp only [List.getElem_set_self, List.set_set]
  rw [opinionOf_lt hlt]

theorem updateCopy_eq {N : Network (SimpleAgent F) F} (h : WF N) {i : Nat} (hi : i < N.agents.length) {copy : List (SimpleAgent F)}
    (hc : copy.length = N.agents.length) :
    updateCopy N i copy = .ok (copy.set i ⟨weightedSumLR N (opinionOf N.agents) i⟩) := by
  unfold updateCopy Network.getNeighbours Network.getWeights
  rw [rd_getD [] (by rw [h.rows]; exact hi), Res.bind_ok, rd_getD [] (by rw [h.wrows]; exact hi), Res.bind_ok,
    wr_lt _ (by omega), Res.bind_ok]
  have := loop_eq (n := (N.neighbours.getD i []).length)
    (f := fun j copy => addTerm N.agents (N.neighbours.getD i []) (N.weights.getD i []) i j copy)
    (fun k => copy.set i ⟨((row N i).take k).foldl (fun acc e => acc + e.2 * opinionOf N.agents e.1) 0⟩) (by
      intro j hj
      rw [addTerm_eq h hi hc hj]
      have hj' : j < (row N i).length := by rw [NetLemmas.row_length h hi]; exact hj
      rw [List.take_succ_eq_append_getElem hj', List.foldl_append]
      rfl)
  simp only [List.take_zero, List.foldl_nil] at this
  rw [this]
  rw [List.take_of_length_le (by rw [NetLemmas.row_length h hi])]
  rfl

/-- The largest opinion change between two lists of agents, evaluated as in the code. -/
def maxChange (old new : List (SimpleAgent F)) : F :=
  (old.zip new).foldl (fun m e => cmax m (cabs (e.1.opinion - e.2.opinion))) 0

theorem writeBack_eq {old new : List (SimpleAgent F)} (hl : new.length = old.length) :
    loop old.length (fun i r => writeBack new i r) (0, old) = .ok (maxChange old new, new) := by
  have := loop_eq (n := old.length) (f := fun i r => writeBack new i r)
    (fun k => (((old.zip new).take k).foldl (fun m e => cmax m (cabs (e.1.opinion - e.2.opinion))) 0, new.take k ++ old.drop k)) (by
      intro i hi
      unfold writeBack
      have h1 : (new.take i ++ old.drop i)[i]? = some old[i] := by
        rw [List.getElem?_append_right (by simp), List.getElem?_drop]
        simp [show min i new.length = i by omega, hi]
      rw [rd_eq_ok.mpr h1, Res.bind_ok, rd_lt (by omega), Res.bind_ok, wr_lt _ (by simp; omega), Res.bind_ok]
      congr 2
      · rw [List.take_succ_eq_append_getElem (by simp; omega), List.foldl_append]
        simp
      · rw [List.set_append_right _ _ (by simp), List.take_succ_eq_append_getElem (by omega)]
        simp only [List.length_take, show min i new.length = i by omega, Nat.sub_self]
        rw [List.drop_eq_getElem_cons hi, List.set_cons_zero, List.append_assoc]
        rfl)
  simp only [List.take_zero, List.foldl_nil, List.drop_zero, List.nil_append] at this
  rw [this, List.take_of_length_le (by simp [hl]), List.take_of_length_le (by omega), List.drop_of_length_le (by omega), List.append_nil]
  rfl

omit [Sub F] [Neg F] [LT F] [DecidableLT F] in
theorem stepAgents_length (N : Network (SimpleAgent F) F) : (stepAgents N).length = N.agents.length := by simp [stepAgents]

/-- Closed form of one iteration. -/
theorem iteration_eq {s : DeGroot F} (h : WF s.network) (hc : s.copy.length = s.network.agents.length) :
    s.iteration = .ok { s with
      counter := s.counter.tick, maxDiff := some (maxChange s.network.agents (stepAgents s.network)),
      network := { s.network with agents := stepAgents s.network }, copy := stepAgents s.network } := by
  have h1 : loop s.network.agents.length (fun i copy => updateCopy s.network i copy) s.copy = .ok (stepAgents s.network) :=
    loop_set _ hc (fun i c hi hc => updateCopy_eq h hi hc)
  have h2 := writeBack_eq (stepAgents_length s.network)
  unfold iteration
  simp only [h1, h2, Res.bind_ok]

end
end DeGroot
end Seldon
