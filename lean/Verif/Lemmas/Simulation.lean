import Verif.Spec.Run
import Verif.Spec.Graph
import Verif.Lemmas.NetworkIO
import Verif.Lemmas.AgentIO
/-!
# Lemmas about `Simulation::run`
-/
namespace Seldon
open Spec
variable {A F S : Type}

/-- The iteration counter counts. -/
structure Machine.Counts (M : Machine A F S) : Prop where
  reset : ∀ s, M.nIterations (M.reset s) = 0
  iteration : ∀ s t, M.iteration s = .ok t → M.nIterations t = M.nIterations s + 1

namespace Simulation

theorem due_ok {n : Option Nat} {start k : Nat} {b : Bool} (h : due n start k = .ok b) :
    (b = true ↔ Requested n start k) := by
  unfold due at h
  cases n with
  | none => simp only [Except.ok.injEq] at h; subst h; simp [Requested]
  | some n =>
    simp only at h
    split at h
    · next hs =>
      split at h
      · cases h
      · simp only [Except.ok.injEq] at h; subst h
        simp [Requested, hs, Nat.dvd_iff_mod_eq_zero]
    · next hs =>
      simp only [Except.ok.injEq] at h; subst h
      simp [Requested, hs]

theorem due_total {n : Option Nat} (hn : n ≠ some 0) (start k : Nat) : ∃ b, due n start k = .ok b := by
  unfold due
  cases n with
  | none => exact ⟨_, rfl⟩
  | some n =>
    have : n ≠ 0 := fun h => hn (by rw [h])
    simp only [this, if_false]
    split <;> exact ⟨_, rfl⟩

theorem writeOpinions_ok {R : Render A F} {N : Network A F} {k : Nat} {tr tr' : List FileWrite}
    (h : writeOpinions R N k tr = .ok tr') : ∃ w, tr' = tr ++ [w] ∧ Fulfils R w ⟨.opinions, k, N⟩ := by
  obtain ⟨c, h1, h2⟩ := Res.bind_eq_ok.mp h
  simp only [Except.ok.injEq] at h2
  exact ⟨_, h2.symm, rfl, h1⟩

theorem writeNetwork_ok {R : Render A F} {N : Network A F} {k : Nat} {tr tr' : List FileWrite}
    (h : writeNetwork R N k tr = .ok tr') : ∃ w, tr' = tr ++ [w] ∧ Fulfils R w ⟨.network, k, N⟩ := by
  obtain ⟨c, h1, h2⟩ := Res.bind_eq_ok.mp h
  simp only [Except.ok.injEq] at h2
  exact ⟨_, h2.symm, rfl, h1⟩

theorem output_ok {R : Render A F} {o : OutputSettings} {N : Network A F} {k : Nat} {tr tr' : List FileWrite}
    (h : output R o N k tr = .ok tr') : ∃ ws, tr' = tr ++ ws ∧ List.Forall₂ (Fulfils R) ws (wantedAt o N k) := by
  obtain ⟨tr1, h2, h⟩ := Res.bind_eq_ok.mp h
  obtain ⟨b, h1, h2⟩ := Res.bind_eq_ok.mp h2
  obtain ⟨b', h3, h⟩ := Res.bind_eq_ok.mp h
  have e1 := due_ok h1
  have e2 := due_ok h3
  have p1 : ∃ ws, tr1 = tr ++ ws ∧ List.Forall₂ (Fulfils R) ws
      (if Requested o.nOutputAgents o.startOutput k then [⟨.opinions, k + o.startNumberingFrom, N⟩] else []) := by
    by_cases hb : b = true
    · rw [if_pos hb] at h2
      rw [if_pos (e1.mp hb)]
      obtain ⟨w, hw, hf⟩ := writeOpinions_ok h2
      exact ⟨[w], hw, .cons hf .nil⟩
    · rw [if_neg hb] at h2
      rw [if_neg (fun hh => hb (e1.mpr hh))]
      simp only [Except.ok.injEq] at h2
      exact ⟨[], by simp [h2], .nil⟩
  have p2 : ∃ ws, tr' = tr1 ++ ws ∧ List.Forall₂ (Fulfils R) ws
      (if Requested o.nOutputNetwork o.startOutput k then [⟨.network, k + o.startNumberingFrom, N⟩] else []) := by
    by_cases hb : b' = true
    · rw [if_pos hb] at h
      rw [if_pos (e2.mp hb)]
      obtain ⟨w, hw, hf⟩ := writeNetwork_ok h
      exact ⟨[w], hw, .cons hf .nil⟩
    · rw [if_neg hb] at h
      rw [if_neg (fun hh => hb (e2.mpr hh))]
      simp only [Except.ok.injEq] at h
      exact ⟨[], by simp [h], .nil⟩
  obtain ⟨w1, hw1, f1⟩ := p1
  obtain ⟨w2, hw2, f2⟩ := p2
  refine ⟨w1 ++ w2, by rw [hw2, hw1, List.append_assoc], ?_⟩
  exact List.rel_append f1 f2

/-- Soundness of the loop: a successful loop is a run, and the files written are the wanted ones. -/
theorem loop_ok {M : Machine A F S} (hM : M.Counts) {R : Render A F} {o : OutputSettings} :
    ∀ (fuel : Nat) {s : S} {tr : List FileWrite} {t : S × List FileWrite}, runLoop M R o fuel (s, tr) = .ok t →
      ∃ K st ws, K ≤ fuel ∧ IsRun M s K st ∧ t = (st K, tr ++ ws) ∧
        (∀ k, k ≤ K → M.nIterations (st k) = M.nIterations s + k) ∧
        List.Forall₂ (Fulfils R) ws ((List.range K).flatMap
          (fun k => wantedAt o (M.network (st (k + 1))) (M.nIterations s + (k + 1)))) := by
  intro fuel
  induction fuel with
  | zero =>
    intro s tr t h
    unfold runLoop at h
    by_cases hf : M.finished s = true
    · rw [if_pos hf] at h
      simp only [Except.ok.injEq] at h
      subst h
      exact ⟨0, fun _ => s, [], le_refl _, ⟨rfl, by simp, by simp, hf⟩, by simp, by intro k hk; simp; omega, by simp⟩
    · rw [if_neg hf] at h; cases h
  | succ fuel ih =>
    intro s tr t h
    unfold runLoop at h
    by_cases hf : M.finished s = true
    · rw [if_pos hf] at h
      simp only [Except.ok.injEq] at h
      subst h
      exact ⟨0, fun _ => s, [], by omega, ⟨rfl, by simp, by simp, hf⟩, by simp, by intro k hk; simp; omega, by simp⟩
    · rw [if_neg hf] at h
      obtain ⟨s1, h1, h⟩ := Res.bind_eq_ok.mp h
      obtain ⟨tr1, h2, h⟩ := Res.bind_eq_ok.mp h
      obtain ⟨K, st, ws, hK, hrun, ht, hn, hw⟩ := ih h
      obtain ⟨ws0, htr1, hw0⟩ := output_ok h2
      have hn1 := hM.iteration s s1 h1
      refine ⟨K + 1, fun k => match k with | 0 => s | k + 1 => st k, ws0 ++ ws, by omega, ⟨rfl, ?_, ?_, hrun.stop⟩, ?_, ?_, ?_⟩
      · intro k hk
        cases k with
        | zero => simpa using hf
        | succ k => exact hrun.going k (by omega)
      · intro k hk
        cases k with
        | zero => simp only [hrun.start]; exact h1
        | succ k => exact hrun.step k (by omega)
      · rw [ht, htr1, List.append_assoc]
      · intro k hk
        cases k with
        | zero => simp
        | succ k => simp only; rw [hn k (by omega), hn1]; omega
      · rw [List.range_succ_eq_map, List.flatMap_cons, List.flatMap_map]
        refine List.rel_append ?_ ?_
        · simp only [hrun.start]; rw [← hn1]; exact hw0
        · have : (fun a => wantedAt o (M.network (st (a + 1))) (M.nIterations s + (a.succ + 1))) =
            (fun k => wantedAt o (M.network (st (k + 1))) (M.nIterations s1 + (k + 1))) := by
            funext k; rw [hn1]; congr 1; omega
          simp only [Nat.succ_eq_add_one] at this ⊢
          rw [this]; exact hw

theorem initialOutput_ok {R : Render A F} {o : OutputSettings} {N : Network A F} {tr : List FileWrite}
    (h : initialOutput R o N = .ok tr) : List.Forall₂ (Fulfils R) tr (wantedInitially o N) := by
  unfold initialOutput at h
  unfold wantedInitially
  by_cases hb : o.outputInitial = true
  · rw [if_pos hb] at h ⊢
    obtain ⟨tr1, h1, h2⟩ := Res.bind_eq_ok.mp h
    obtain ⟨w1, e1, f1⟩ := writeNetwork_ok h1
    obtain ⟨w2, e2, f2⟩ := writeOpinions_ok h2
    subst e1; subst e2
    exact .cons f1 (.cons f2 .nil)
  · rw [if_neg hb] at h ⊢
    simp only [Except.ok.injEq] at h
    subst h; exact .nil

/-- The text of a network with enough rows can always be written. -/
def Renderable (R : Render A F) (N : Network A F) : Prop :=
  (∃ c, AgentIO.toFile R.agents N.agents = .ok c) ∧ ∃ c, NetworkIO.toFile R.text N = .ok c

theorem agents_toFile_total (fmt : AgentIO.Format A) (agents : List A) : ∃ c, AgentIO.toFile fmt agents = .ok c := by
  unfold AgentIO.toFile
  obtain ⟨c, hc, -⟩ := loop_inv (n := agents.length) (f := fun i s => do
      let a ← rd agents i
      .ok (s ++ (Text.padLeft 5 (Text.decimal i) ++ ", ".toList ++ Text.padLeft 25 (fmt.toString a) ++ "\n".toList)))
    (s := AgentIO.header fmt) (fun _ _ => True) trivial (by
      intro i t hi _
      refine ⟨_, by rw [rd_lt hi, Res.bind_ok], trivial⟩)
  exact ⟨c, hc⟩

theorem weightsText_total (T : Text.Double F) (last : Bool) (ws : List F) (row : List Char) :
    ∃ c, NetworkIO.weightsText T last ws row = .ok c := by
  unfold NetworkIO.weightsText
  obtain ⟨c, hc, -⟩ := loop_inv (n := ws.length) (f := fun k row => do
      let w ← rd ws k
      if k = Text.subSz ws.length 1 then
        if last then .ok (row ++ Text.padLeft 25 (T.fmt w)) else .ok (row ++ Text.padLeft 25 (T.fmt w) ++ "\n".toList)
      else .ok (row ++ Text.padLeft 25 (T.fmt w) ++ ", ".toList))
    (s := row) (fun _ _ => True) trivial (by
      intro i t hi _
      rw [rd_lt hi, Res.bind_ok]
      split
      · split <;> exact ⟨_, rfl, trivial⟩
      · exact ⟨_, rfl, trivial⟩)
  exact ⟨c, hc⟩

theorem network_toFile_total (T : Text.Double F) {N : Network A F} (h : WF N) : ∃ c, NetworkIO.toFile T N = .ok c := by
  unfold NetworkIO.toFile
  obtain ⟨c, hc, -⟩ := loop_inv (n := N.nAgents) (f := fun i s => do
      let ns ← N.getNeighbours i
      let ws ← N.getWeights i
      let row ← NetworkIO.networkRow T N.nAgents i ns ws
      .ok (s ++ row))
    (s := NetworkIO.header) (fun _ _ => True) trivial (by
      intro i t hi _
      have hi' : i < N.agents.length := hi
      unfold Network.getNeighbours Network.getWeights
      rw [rd_lt (by rw [h.rows]; exact hi'), Res.bind_ok, rd_lt (by rw [h.wrows]; exact hi'), Res.bind_ok]
      unfold NetworkIO.networkRow
      obtain ⟨c, hc⟩ := weightsText_total T (decide (i = Text.subSz N.nAgents 1)) (N.weights[i]'(by rw [h.wrows]; exact hi'))
        ((if N.neighbours[i]'(by rw [h.rows]; exact hi') = [] then
            Text.padLeft 5 (Text.decimal i) ++ ", ".toList ++ Text.padLeft 5 (Text.decimal (N.neighbours[i]'(by rw [h.rows]; exact hi')).length) ++ "\n".toList
          else Text.padLeft 5 (Text.decimal i) ++ ", ".toList ++ Text.padLeft 5 (Text.decimal (N.neighbours[i]'(by rw [h.rows]; exact hi')).length) ++ ", ".toList) ++
          (N.neighbours[i]'(by rw [h.rows]; exact hi')).flatMap (fun j => Text.padLeft 5 (Text.decimal j) ++ ", ".toList))
      refine ⟨t ++ c, ?_, trivial⟩
      simp only [hc, Res.bind_ok])
  exact ⟨c, hc⟩

theorem renderable_of_wf (R : Render A F) {N : Network A F} (h : WF N) : Renderable R N :=
  ⟨agents_toFile_total _ _, network_toFile_total _ h⟩

theorem output_total {R : Render A F} {o : OutputSettings} {N : Network A F} (hN : Renderable R N) (h1 : o.nOutputAgents ≠ some 0)
    (h2 : o.nOutputNetwork ≠ some 0) (k : Nat) (tr : List FileWrite) : ∃ tr', output R o N k tr = .ok tr' := by
  obtain ⟨b, hb⟩ := due_total h1 o.startOutput k
  obtain ⟨b', hb'⟩ := due_total h2 o.startOutput k
  obtain ⟨c, hc⟩ := hN.1
  obtain ⟨c', hc'⟩ := hN.2
  unfold output outputOpinions outputNetwork writeOpinions writeNetwork
  simp only [hb, hb', hc, hc', Res.bind_ok]
  cases b <;> cases b' <;> simp

/-- Completeness of the loop. -/
theorem loop_total {M : Machine A F S} {R : Render A F} {o : OutputSettings} (h1 : o.nOutputAgents ≠ some 0)
    (h2 : o.nOutputNetwork ≠ some 0) : ∀ (K : Nat) {s : S} {st : Nat → S} (tr : List FileWrite) {fuel : Nat}, K ≤ fuel → IsRun M s K st →
      (∀ k, k ≤ K → Renderable R (M.network (st k))) → ∃ tr', runLoop M R o fuel (s, tr) = .ok (st K, tr') := by
  intro K
  induction K with
  | zero =>
    intro s st tr fuel hf hrun hR
    have : M.finished s = true := by rw [← hrun.start]; exact hrun.stop
    refine ⟨tr, ?_⟩
    cases fuel <;> (unfold runLoop; rw [if_pos this, hrun.start])
  | succ K ih =>
    intro s st tr fuel hf hrun hR
    obtain ⟨fuel, rfl⟩ : ∃ f, fuel = f + 1 := ⟨fuel - 1, by omega⟩
    have hgo : ¬ M.finished s = true := by rw [← hrun.start, hrun.going 0 (by omega)]; simp
    have hst : M.iteration s = .ok (st 1) := by rw [← hrun.start]; exact hrun.step 0 (by omega)
    obtain ⟨tr1, htr1⟩ := output_total (hR 1 (by omega)) h1 h2 (M.nIterations (st 1)) tr
    obtain ⟨tr', htr'⟩ := ih (s := st 1) (st := fun k => st (k + 1)) tr1 (fuel := fuel) (by omega)
      ⟨rfl, fun k hk => hrun.going (k + 1) (by omega), fun k hk => hrun.step (k + 1) (by omega), hrun.stop⟩
      (fun k hk => hR (k + 1) (by omega))
    refine ⟨tr', ?_⟩
    unfold runLoop
    simp only [if_neg hgo, hst, htr1, Res.bind_ok, htr']

theorem initialOutput_total {R : Render A F} {N : Network A F} (hN : Renderable R N) (o : OutputSettings) :
    ∃ tr, initialOutput R o N = .ok tr := by
  obtain ⟨c, hc⟩ := hN.1
  obtain ⟨c', hc'⟩ := hN.2
  unfold initialOutput writeNetwork writeOpinions
  split
  · simp only [hc, hc', Res.bind_ok]; exact ⟨_, rfl⟩
  · exact ⟨_, rfl⟩

theorem decimal_inj {a b : Nat} (h : Text.decimal a = Text.decimal b) : a = b := by
  rw [← Text.decimal_val a, ← Text.decimal_val b, h]

theorem head_append {c : Char} {a : List Char} (b d : List Char) (h : a.head? = some c) : (a ++ b ++ d).head? = some c := by
  cases a with
  | nil => cases h
  | cons x a => exact h

theorem head_opinions (k : Nat) : (fileName .opinions k).head? = some 'o' :=
  head_append (Text.decimal k) _ (by decide)

theorem head_network (k : Nat) : (fileName .network k).head? = some 'n' :=
  head_append (Text.decimal k) _ (by decide)

theorem fileName_inj {k k' : FileKind} {a b : Nat} (h : fileName k a = fileName k' b) : k = k' ∧ a = b := by
  cases k <;> cases k'
  · exact ⟨rfl, decimal_inj (List.append_cancel_left (List.append_cancel_right h))⟩
  · exact absurd ((head_opinions a).symm.trans ((congrArg List.head? h).trans (head_network b))) (by decide)
  · exact absurd ((head_opinions b).symm.trans ((congrArg List.head? h.symm).trans (head_network a))) (by decide)
  · exact ⟨rfl, decimal_inj (List.append_cancel_left (List.append_cancel_right h))⟩

end Simulation
end Seldon
