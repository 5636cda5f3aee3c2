import Verif.Lemmas.Integration
/-!
# Lemmas: what a successful update of the activity-driven models leaves alone
-/
set_option linter.unusedSectionVars false
namespace Seldon
open Spec
variable {A F G : Type}

theorem run_ok {A W : Type} {e : Network.Effect A W} {N : Network A W} (h : e.run = .ok N) : N = e.1 := by
  unfold Network.Effect.run at h
  split at h
  · exact (Except.ok.inj h).symm
  · cases h

theorem toggle_agents {A W : Type} {N M : Network A W} (h : N.toggle = .ok M) : M.agents = N.agents := by
  obtain ⟨t, -, h⟩ := Res.bind_eq_ok.mp h
  rw [← Except.ok.inj h]; rfl

theorem setNeighboursConst_agents {A W : Type} (N : Network A W) (i : Nat) (ns : List Nat) (w : W) :
    (N.setNeighboursConst i ns w).1.agents = N.agents := by
  unfold Network.setNeighboursConst
  cases wr N.neighbours i ns with
  | error e => rfl
  | ok a =>
    dsimp only
    cases wr N.weights i (List.replicate ns.length w) <;> rfl

theorem pushBack_agents {A W : Type} (N : Network A W) (i j : Nat) (w : W) : (N.pushBack i j w).1.agents = N.agents := by
  unfold Network.pushBack
  cases N.neighbours[i]? with
  | none => rfl
  | some a =>
    dsimp only
    cases N.weights[i]? <;> rfl

theorem setWeights_agents {A W : Type} (N : Network A W) (i : Nat) (ws : List W) : (N.setWeights i ws).1.agents = N.agents := by
  unfold Network.setWeights
  cases rd N.neighbours i with
  | error e => rfl
  | ok a =>
    dsimp only
    split
    · rfl
    · cases wr N.weights i ws <;> rfl

theorem pokeWeight_agents {A W : Type} (N : Network A W) (i k : Nat) (w : W) : (N.pokeWeight i k w).1.agents = N.agents := by
  unfold Network.pokeWeight
  cases rd N.weights i with
  | error e => rfl
  | ok a =>
    dsimp only
    cases wr a k w <;> rfl

/-- Loop rule with the bound on the index. -/
theorem loop_ok_lt {σ : Type} {f : Nat → σ → Res σ} (I : Nat → σ → Prop) {n : Nat} {s t : σ}
    (hf : ∀ i s t, i < n → I i s → f i s = .ok t → I (i + 1) t) (h0 : I 0 s) (h : loop n f s = .ok t) : I n t := by
  induction n generalizing t with
  | zero => cases h; exact h0
  | succ n ih =>
    rw [loop_succ] at h
    obtain ⟨u, h1, h2⟩ := Res.bind_eq_ok.mp h
    exact hf n u t (Nat.lt_succ_self n) (ih (fun i s t hi => hf i s t (Nat.lt_succ_of_lt hi)) h1) h2

namespace Activity
section
variable [ActiveAgent A F] [Zero F] [One F] [Sub F] [Mul F] [Add F] [Div F] [Neg F] [NatCast F] [LT F] [LE F] [DecidableLT F] [DecidableLE F]

theorem activate_agents {o : MathOps F} {pick : List (Nat × F) → Nat} {r : Rng G F} {p : ActivitySettings F} {i : Nat}
    {t t' : Contacting A F G} (h : activate o pick r p i t = .ok t') : t'.network.agents = t.network.agents := by
  unfold activate at h
  simp only at h
  obtain ⟨a, -, h⟩ := Res.bind_eq_ok.mp h
  split at h
  · unfold contact at h
    obtain ⟨m, -, h⟩ := Res.bind_eq_ok.mp h
    obtain ⟨hh, -, h⟩ := Res.bind_eq_ok.mp h
    obtain ⟨⟨c, g⟩, -, h⟩ := Res.bind_eq_ok.mp h
    obtain ⟨N, hN, h⟩ := Res.bind_eq_ok.mp h
    rw [← Except.ok.inj h]
    simp only
    rw [run_ok hN, setNeighboursConst_agents]
  · obtain ⟨N, hN, h⟩ := Res.bind_eq_ok.mp h
    rw [← Except.ok.inj h]
    simp only
    rw [run_ok hN, setNeighboursConst_agents]

theorem reciprocateEdge_agents {r : Rng G F} {c : F} {edges : List (Nat × Nat)} {i k : Nat} {t t' : Network A F × G}
    (h : reciprocateEdge r c edges i k t = .ok t') : t'.1.agents = t.1.agents := by
  unfold reciprocateEdge at h
  obtain ⟨row, -, h⟩ := Res.bind_eq_ok.mp h
  obtain ⟨j, -, h⟩ := Res.bind_eq_ok.mp h
  split at h
  · rw [← Except.ok.inj h]
  · simp only at h
    split at h
    · split at h
      · cases h
      · obtain ⟨N, hN, h⟩ := Res.bind_eq_ok.mp h
        rw [← Except.ok.inj h]
        simp only
        rw [run_ok hN, pushBack_agents]
    · rw [← Except.ok.inj h]

theorem reciprocate_agents {r : Rng G F} {c : F} {edges : List (Nat × Nat)} {i : Nat} {t t' : Network A F × G}
    (h : reciprocate r c edges i t = .ok t') : t'.1.agents = t.1.agents := by
  unfold reciprocate at h
  obtain ⟨row, -, h⟩ := Res.bind_eq_ok.mp h
  exact Deffuant.loop_ok (fun _ u => u.1.agents = t.1.agents) (fun i u v hI hv => by rw [reciprocateEdge_agents hv, hI]) rfl h

theorem addWeight_agents {N M : Network A F} {i k : Nat} {x : F} (h : addWeight N i k x = .ok M) : M.agents = N.agents := by
  unfold addWeight at h
  obtain ⟨row, -, h⟩ := Res.bind_eq_ok.mp h
  obtain ⟨w, -, h⟩ := Res.bind_eq_ok.mp h
  rw [run_ok h, pokeWeight_agents]

theorem meanPair_agents {c : F} {P : List (List F)} {i j : Nat} {N M : Network A F} (h : meanPair c P i j N = .ok M) : M.agents = N.agents := by
  unfold meanPair at h
  obtain ⟨_, -, h⟩ := Res.bind_eq_ok.mp h
  obtain ⟨_, -, h⟩ := Res.bind_eq_ok.mp h
  obtain ⟨_, -, h⟩ := Res.bind_eq_ok.mp h
  obtain ⟨_, -, h⟩ := Res.bind_eq_ok.mp h
  obtain ⟨N', h1, h⟩ := Res.bind_eq_ok.mp h
  rw [addWeight_agents h, addWeight_agents h1]

theorem resetMean_agents {i : Nat} {t t' : Network A F × List (List F)} (h : resetMean i t = .ok t') : t'.1.agents = t.1.agents := by
  unfold resetMean at h
  simp only at h
  obtain ⟨N, h1, h⟩ := Res.bind_eq_ok.mp h
  obtain ⟨P, -, h⟩ := Res.bind_eq_ok.mp h
  rw [← Except.ok.inj h]
  simp only
  rw [run_ok h1, setWeights_agents]

/-- A network update changes neither agents, nor parameters, nor the iteration counter. -/
theorem updateNetwork_frame {o : MathOps F} {pick : List (Nat × F) → Nat} {r : Rng G F} {s t : Activity A F G}
    (h : updateNetwork o pick r s = .ok t) : t.network.agents = s.network.agents ∧ t.p = s.p ∧ t.counter = s.counter := by
  unfold updateNetwork at h
  split at h
  · unfold updateProbabilistic at h
    simp only at h
    obtain ⟨u, h1, h⟩ := Res.bind_eq_ok.mp h
    obtain ⟨⟨N, g⟩, h2, h⟩ := Res.bind_eq_ok.mp h
    obtain ⟨M, h3, h⟩ := Res.bind_eq_ok.mp h
    rw [← Except.ok.inj h]
    refine ⟨?_, rfl, rfl⟩
    simp only
    have e1 : u.network.agents = s.network.agents :=
      Deffuant.loop_ok (σ := Contacting A F G) (fun _ u => u.network.agents = s.network.agents)
        (fun i u v hI hv => by rw [activate_agents hv, hI]) rfl h1
    have e2 : N.agents = u.network.agents :=
      Deffuant.loop_ok (σ := Network A F × G) (fun _ v => v.1.agents = u.network.agents)
        (fun i u v hI hv => by rw [reciprocate_agents hv, hI]) rfl h2
    rw [toggle_agents h3, e2, e1]
  · unfold updateMean at h
    simp only at h
    obtain ⟨⟨N, P⟩, h1, h⟩ := Res.bind_eq_ok.mp h
    obtain ⟨P', h2, h⟩ := Res.bind_eq_ok.mp h
    obtain ⟨M, h3, h⟩ := Res.bind_eq_ok.mp h
    rw [← Except.ok.inj h]
    refine ⟨?_, rfl, rfl⟩
    simp only
    have e1 : N.agents = s.network.agents :=
      Deffuant.loop_ok (σ := Network A F × List (List F)) (fun _ v => v.1.agents = s.network.agents)
        (fun i u v hI hv => by rw [resetMean_agents hv, hI]) rfl h1
    have e2 : M.agents = N.agents :=
      Deffuant.loop_ok (σ := Network A F) (fun _ v => v.agents = N.agents)
        (fun i u v hI hv => by
          rw [Deffuant.loop_ok (σ := Network A F) (fun _ w => w.agents = u.agents)
            (fun j a b hI hb => by rw [meanPair_agents hb, hI]) rfl hv, hI]) rfl h3
    rw [e2, e1]

/-- Same number of agents, with the same activities and reluctances. -/
def SameTraits (l l' : List A) : Prop :=
  l'.map ActiveAgent.activity = l.map ActiveAgent.activity ∧ l'.map ActiveAgent.reluctance = l.map ActiveAgent.reluctance

theorem SameTraits.refl (l : List A) : SameTraits l l := ⟨rfl, rfl⟩
theorem SameTraits.trans {a b c : List A} (h : SameTraits a b) (h' : SameTraits b c) : SameTraits a c :=
  ⟨h'.1.trans h.1, h'.2.trans h.2⟩

theorem SameTraits.length {a b : List A} (h : SameTraits a b) : b.length = a.length := by
  have := congrArg List.length h.1
  simpa using this

theorem sameTraits_set {l : List A} {i : Nat} {a b : A} (ha : l[i]? = some a) (h1 : ActiveAgent.activity b = ActiveAgent.activity a)
    (h2 : ActiveAgent.reluctance b = ActiveAgent.reluctance a) : SameTraits l (l.set i b) := by
  obtain ⟨hi, rfl⟩ := List.getElem?_eq_some_iff.mp ha
  constructor
  · apply List.ext_getElem (by simp)
    intro k _ _
    simp only [List.getElem_map, List.getElem_set]
    split
    · rename_i h; subst h; exact h1
    · rfl
  · apply List.ext_getElem (by simp)
    intro k _ _
    simp only [List.getElem_map, List.getElem_set]
    split
    · rename_i h; subst h; exact h2
    · rfl

theorem rkUpdate_traits [LawfulActiveAgent A F] {dt : F} {k1 k2 k3 k4 : List F} {i : Nat} {l l' : List A} (h : rkUpdate dt k1 k2 k3 k4 i l = .ok l') :
    SameTraits l l' := by
  unfold rkUpdate at h
  obtain ⟨a, ha, h⟩ := Res.bind_eq_ok.mp h
  obtain ⟨_, -, h⟩ := Res.bind_eq_ok.mp h
  obtain ⟨_, -, h⟩ := Res.bind_eq_ok.mp h
  obtain ⟨_, -, h⟩ := Res.bind_eq_ok.mp h
  obtain ⟨_, -, h⟩ := Res.bind_eq_ok.mp h
  rw [(wr_eq_ok.mp h).2]
  exact sameTraits_set (rd_eq_ok.mp ha) (LawfulActiveAgent.activity_setOpinion _ _) (LawfulActiveAgent.reluctance_setOpinion _ _)

/-- What the bot reset does when it succeeds. -/
theorem resetBots_ok [LawfulActiveAgent A F] {p : ActivitySettings F} {l l' : List A} (h : resetBots p l = .ok l') :
    SameTraits l l' ∧ ∀ i, i < p.nBots → ∃ a, l'[i]? = some a ∧ p.botOpinion[i]? = some (ActiveAgent.opinion a) := by
  unfold resetBots at h
  refine Deffuant.loop_ok (fun k (u : List A) => SameTraits l u ∧
    ∀ i, i < k → ∃ a, u[i]? = some a ∧ p.botOpinion[i]? = some (ActiveAgent.opinion a)) ?_ ⟨SameTraits.refl l, by simp⟩ h
  rintro k u v ⟨hT, hI⟩ hv
  obtain ⟨a, ha, hv⟩ := Res.bind_eq_ok.mp hv
  obtain ⟨x, hx, hv⟩ := Res.bind_eq_ok.mp hv
  rw [rd_eq_ok] at ha hx
  obtain ⟨hk, rfl⟩ := wr_eq_ok.mp hv
  refine ⟨hT.trans (sameTraits_set ha (LawfulActiveAgent.activity_setOpinion _ _) (LawfulActiveAgent.reluctance_setOpinion _ _)), ?_⟩
  intro i hi
  by_cases hik : k = i
  · subst hik
    exact ⟨_, List.getElem?_set_self hk, by rw [LawfulActiveAgent.opinion_setOpinion]; exact hx⟩
  · rw [List.getElem?_set_ne hik]
    exact hI i (by omega)

/-- What a successful step does to the bots and to the traits. -/
structure BotsFixed (p : ActivitySettings F) (l l' : List A) : Prop where
  traits : SameTraits l l'
  bots : ∀ i, i < p.nBots → ∃ a, l'[i]? = some a ∧ p.botOpinion[i]? = some (ActiveAgent.opinion a)

theorem iteration_frame [LawfulActiveAgent A F] {o : MathOps F} {pick : List (Nat × F) → Nat} {r : Rng G F} {s t : Activity A F G}
    (h : iteration o pick r s = .ok t) : BotsFixed s.p s.network.agents t.network.agents ∧ t.p = s.p ∧ t.counter = s.counter.tick := by
  unfold iteration at h
  obtain ⟨u, h1, h⟩ := Res.bind_eq_ok.mp h
  obtain ⟨l, h2, h⟩ := Res.bind_eq_ok.mp h
  obtain ⟨e1, e2, e3⟩ := updateNetwork_frame h1
  rw [← Except.ok.inj h]
  refine ⟨?_, e2, e3⟩
  unfold rkStep at h2
  simp only at h2
  obtain ⟨k1, -, h2⟩ := Res.bind_eq_ok.mp h2
  obtain ⟨k2, -, h2⟩ := Res.bind_eq_ok.mp h2
  obtain ⟨k3, -, h2⟩ := Res.bind_eq_ok.mp h2
  obtain ⟨k4, -, h2⟩ := Res.bind_eq_ok.mp h2
  obtain ⟨l1, h3, h2⟩ := Res.bind_eq_ok.mp h2
  have hT : SameTraits u.network.agents l1 :=
    Deffuant.loop_ok (fun _ (v : List A) => SameTraits u.network.agents v) (fun i a b hI hb => hI.trans (rkUpdate_traits hb)) (SameTraits.refl _) h3
  obtain ⟨hT', hB⟩ := resetBots_ok h2
  rw [e2] at hB
  simp only at e1 hB
  rw [e1] at hT
  exact ⟨hT.trans hT', hB⟩

end
end Activity

namespace Inertial
variable [Zero F] [One F] [Sub F] [Mul F] [Add F] [Div F] [Neg F] [NatCast F] [LT F] [LE F] [DecidableLT F] [DecidableLE F]
open Activity

theorem movePosition_traits {dt c : F} {d : List F} {i : Nat} {l l' : List (InertialAgent F)} (h : movePosition dt c d i l = .ok l') :
    SameTraits l l' := by
  unfold movePosition at h
  obtain ⟨a, ha, h⟩ := Res.bind_eq_ok.mp h
  obtain ⟨_, -, h⟩ := Res.bind_eq_ok.mp h
  rw [(wr_eq_ok.mp h).2]
  exact sameTraits_set (rd_eq_ok.mp ha) rfl rfl

theorem moveVelocity_traits {dt c : F} {d d' : List F} {i : Nat} {l l' : List (InertialAgent F)} (h : moveVelocity dt c d d' i l = .ok l') :
    SameTraits l l' := by
  unfold moveVelocity at h
  obtain ⟨a, ha, h⟩ := Res.bind_eq_ok.mp h
  obtain ⟨_, -, h⟩ := Res.bind_eq_ok.mp h
  obtain ⟨_, -, h⟩ := Res.bind_eq_ok.mp h
  rw [(wr_eq_ok.mp h).2]
  exact sameTraits_set (rd_eq_ok.mp ha) rfl rfl

theorem iteration_frame {o : MathOps F} {pick : List (Nat × F) → Nat} {r : Rng G F} {s t : Inertial F G}
    (h : iteration o pick r s = .ok t) : BotsFixed s.base.p s.base.network.agents t.base.network.agents ∧ t.base.p = s.base.p ∧
      t.base.counter = s.base.counter.tick ∧ t.friction = s.friction := by
  unfold iteration at h
  obtain ⟨u, h1, h⟩ := Res.bind_eq_ok.mp h
  obtain ⟨l, h2, h⟩ := Res.bind_eq_ok.mp h
  obtain ⟨e1, e2, e3⟩ := updateNetwork_frame h1
  rw [← Except.ok.inj h]
  refine ⟨?_, e2, e3, rfl⟩
  unfold verletStep at h2
  obtain ⟨d, -, h2⟩ := Res.bind_eq_ok.mp h2
  obtain ⟨l1, h3, h2⟩ := Res.bind_eq_ok.mp h2
  simp only at h2
  obtain ⟨d', -, h2⟩ := Res.bind_eq_ok.mp h2
  obtain ⟨l2, h4, h2⟩ := Res.bind_eq_ok.mp h2
  have hT : SameTraits u.network.agents l1 :=
    Deffuant.loop_ok (fun _ (v : List (InertialAgent F)) => SameTraits u.network.agents v)
      (fun i a b hI hb => hI.trans (movePosition_traits hb)) (SameTraits.refl _) h3
  have hT' : SameTraits l1 l2 :=
    Deffuant.loop_ok (fun _ (v : List (InertialAgent F)) => SameTraits l1 v)
      (fun i a b hI hb => hI.trans (moveVelocity_traits hb)) (SameTraits.refl _) h4
  obtain ⟨hT'', hB⟩ := resetBots_ok h2
  rw [e2] at hB
  simp only at e1 hB
  rw [e1] at hT
  exact ⟨(hT.trans hT').trans hT'', hB⟩

end Inertial
end Seldon
