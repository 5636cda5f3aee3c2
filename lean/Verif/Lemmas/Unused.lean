import Verif.Props.Console
/-!
# Settings that are not used have no influence
-/
set_option linter.unusedSectionVars false
namespace Seldon
open Spec Effects
variable {A F G S : Type}

/-- The settings with all values that are not used replaced by fixed ones. -/
def ActivitySettings.used [Zero F] (p : ActivitySettings F) : ActivitySettings F :=
  { p with
    botM := if p.nBots = 0 then [] else p.botM
    botActivity := if p.nBots = 0 then [] else p.botActivity
    botOpinion := if p.nBots = 0 then [] else p.botOpinion
    botHomophily := if p.nBots = 0 then [] else p.botHomophily
    reluctanceMean := if p.useReluctances then p.reluctanceMean else 0
    reluctanceSigma := if p.useReluctances then p.reluctanceSigma else 0
    reluctanceEps := if p.useReluctances then p.reluctanceEps else 0
    covarianceFactor := if p.useReluctances then p.covarianceFactor else 0 }

theorem ActivitySettings.used_eq [Zero F] {s t : ActivitySettings F} (h : SameActivity s t) : s.used = t.used := by
  obtain ⟨h1, h2, h3, h4, h5, h6, h7, h8, h9, h10, h11, h12, h13, h14, h15⟩ := h
  obtain ⟨a1, a2, a3, a4, a5, a6, a7, a8, a9, a10, a11, a12, a13, a14, a15, a16, a17, a18, a19, a20, a21⟩ := s
  obtain ⟨b1, b2, b3, b4, b5, b6, b7, b8, b9, b10, b11, b12, b13, b14, b15, b16, b17, b18, b19, b20, b21⟩ := t
  dsimp only at h1 h2 h3 h4 h5 h6 h7 h8 h9 h10 h11 h12 h13 h14 h15
  subst h1 h2 h3 h4 h5 h6 h7 h8 h9 h10 h11 h12 h13
  unfold used
  dsimp only
  by_cases hb : a12 = 0
  · by_cases hr : a17 = true
    · obtain ⟨e1, e2, e3, e4⟩ := h15 hr
      rw [e1, e2, e3, e4]
      simp only [if_pos hb]
    · simp only [if_pos hb, if_neg hr]
  · obtain ⟨f1, f2, f3, f4⟩ := h14 (by omega)
    rw [f1, f2, f3, f4]
    by_cases hr : a17 = true
    · obtain ⟨e1, e2, e3, e4⟩ := h15 hr
      rw [e1, e2, e3, e4]
    · simp only [if_neg hr]

namespace Activity
variable [ActiveAgent A F] [Zero F] [One F] [Sub F] [Mul F] [Add F] [Div F] [Neg F] [NatCast F] [LT F] [LE F] [DecidableLT F] [DecidableLE F]

theorem contactsWanted_used (p : ActivitySettings F) : contactsWanted p.used = contactsWanted p := by
  funext i
  unfold contactsWanted
  show (if isBot p i then _ else _) = _
  by_cases h : isBot p i = true
  · have : p.nBots ≠ 0 := by unfold isBot at h; simp at h; omega
    rw [if_pos h, if_pos h]
    show (do let m ← rd (if p.nBots = 0 then [] else p.botM) i; _) = _
    rw [if_neg this]
  · rw [if_neg h, if_neg h]; rfl

theorem homophilyOf_used (p : ActivitySettings F) : homophilyOf p.used = homophilyOf p := by
  funext i
  unfold homophilyOf
  show (if isBot p i then _ else _) = _
  by_cases h : isBot p i = true
  · have : p.nBots ≠ 0 := by unfold isBot at h; simp at h; omega
    rw [if_pos h, if_pos h]
    show rd (if p.nBots = 0 then [] else p.botHomophily) i = _
    rw [if_neg this]
  · rw [if_neg h, if_neg h]; rfl

theorem initBots_used (p : ActivitySettings F) (agents : List A) : initBots p.used agents = initBots p agents := by
  unfold initBots
  by_cases h : p.nBots = 0
  · show loop p.nBots _ _ = _
    rw [h]; rfl
  · have e1 : p.used.botOpinion = p.botOpinion := if_neg h
    have e2 : p.used.botActivity = p.botActivity := if_neg h
    rw [e1, e2]; rfl

theorem resetBots_used (p : ActivitySettings F) (agents : List A) : resetBots p.used agents = resetBots p agents := by
  unfold resetBots
  by_cases h : p.nBots = 0
  · show loop p.nBots _ _ = _
    rw [h]; rfl
  · have e1 : p.used.botOpinion = p.botOpinion := if_neg h
    rw [e1]; rfl

theorem initialAgent_used (o : MathOps F) (r : Rng G F) (p : ActivitySettings F) (a : A) (g : G) : initialAgent o r p.used a g = initialAgent o r p a g := by
  by_cases h : p.useReluctances = true
  · unfold initialAgent
    have e1 : p.used.reluctanceMean = p.reluctanceMean := if_pos h
    have e2 : p.used.reluctanceSigma = p.reluctanceSigma := if_pos h
    have e3 : p.used.reluctanceEps = p.reluctanceEps := if_pos h
    have e4 : p.used.covarianceFactor = p.covarianceFactor := if_pos h
    rw [e1, e2, e3, e4]; rfl
  · have hf : p.useReluctances = false := by simpa using h
    have hu : p.used.useReluctances = false := hf
    unfold initialAgent Dist.copula Dist.bivariate Dist.correlate
    dsimp only
    rw [hf, hu]
    rfl

theorem drawAgents_used (o : MathOps F) (r : Rng G F) (p : ActivitySettings F) (agents : List A) (g : G) :
    drawAgents o r p.used agents g = drawAgents o r p agents g := by
  unfold drawAgents
  simp only [initialAgent_used]

/-- The model without the settings that are not used. -/
def erase (s : Activity A F G) : Activity A F G := { s with p := s.p.used }

theorem create_used [Inhabited A] (o : MathOps F) (r : Rng G F) (p : ActivitySettings F) (N : Network A F) (g : G) :
    create o r p.used N g = (create o r p N g).map erase := by
  unfold create
  rw [drawAgents_used]
  cases drawAgents o r p N.agents g with
  | error e => rfl
  | ok t =>
    show (do let agents ← initBots p.used t.1; _) = Except.map erase (do let agents ← initBots p t.1; _)
    rw [initBots_used]
    cases initBots p t.1 with
    | error e => rfl
    | ok as =>
      show (do let N ← meanNetwork p { N with agents := as }; _) = Except.map erase (do let N ← meanNetwork p { N with agents := as }; _)
      cases meanNetwork p { N with agents := as } with
      | error e => rfl
      | ok M => rfl

theorem activate_used (o : MathOps F) (pick : List (Nat × F) → Nat) (r : Rng G F) (p : ActivitySettings F) (i : Nat) (t : Contacting A F G) :
    activate o pick r p.used i t = activate o pick r p i t := by
  unfold activate contact
  rw [contactsWanted_used, homophilyOf_used]

theorem contactProbs_used (o : MathOps F) (p : ActivitySettings F) (agents : List A) (i : Nat) (P : List (List F)) :
    contactProbs o p.used agents i P = contactProbs o p agents i P := by
  unfold contactProbs
  rw [contactsWanted_used, homophilyOf_used]

theorem updateProbabilistic_erase (o : MathOps F) (pick : List (Nat × F) → Nat) (r : Rng G F) (s : Activity A F G) :
    updateProbabilistic o pick r (erase s) = (updateProbabilistic o pick r s).map erase := by
  unfold updateProbabilistic
  have e : (fun (i : Nat) (t : Contacting A F G) => activate o pick r (erase s).p i t) = fun i t => activate o pick r s.p i t := by
    funext i t; exact activate_used o pick r s.p i t
  rw [e]
  show (do let t ← loop s.network.nAgents (fun i t => activate o pick r s.p i t) ⟨s.network.switchDirectionFlag, [], [], s.gen⟩; _) =
    Except.map erase (do let t ← loop s.network.nAgents (fun i t => activate o pick r s.p i t) ⟨s.network.switchDirectionFlag, [], [], s.gen⟩; _)
  cases loop s.network.nAgents (fun i t => activate o pick r s.p i t) ⟨s.network.switchDirectionFlag, [], [], s.gen⟩ with
  | error e => rfl
  | ok t =>
    show (do let (N, g) ← loop s.network.nAgents (fun i t' => reciprocate r s.p.reciprocity t.edges i t') (t.network, t.gen); _) =
      Except.map erase (do let (N, g) ← loop s.network.nAgents (fun i t' => reciprocate r s.p.reciprocity t.edges i t') (t.network, t.gen); _)
    cases loop s.network.nAgents (fun i t' => reciprocate r s.p.reciprocity t.edges i t') (t.network, t.gen) with
    | error e => rfl
    | ok u =>
      show (do let N ← u.1.toggle; _) = Except.map erase (do let N ← u.1.toggle; _)
      cases u.1.toggle with
      | error e => rfl
      | ok N => rfl

theorem updateMean_erase (o : MathOps F) (s : Activity A F G) : updateMean o (erase s) = (updateMean o s).map erase := by
  unfold updateMean
  have e : ∀ agents : List A, (fun (i : Nat) (P : List (List F)) => contactProbs o (erase s).p agents i P) = fun i P => contactProbs o s.p agents i P := by
    intro agents; funext i t; exact contactProbs_used o s.p agents i t
  simp only [e]
  show (do let t ← loop s.network.nAgents (fun i t => resetMean i t) (s.network, s.contactProb); _) =
    Except.map erase (do let t ← loop s.network.nAgents (fun i t => resetMean i t) (s.network, s.contactProb); _)
  cases loop s.network.nAgents (fun i t => resetMean i t) (s.network, s.contactProb) with
  | error e => rfl
  | ok t =>
    show (do let P ← loop s.network.nAgents (fun i P => contactProbs o s.p t.1.agents i P) t.2; _) =
      Except.map erase (do let P ← loop s.network.nAgents (fun i P => contactProbs o s.p t.1.agents i P) t.2; _)
    cases loop s.network.nAgents (fun i P => contactProbs o s.p t.1.agents i P) t.2 with
    | error e => rfl
    | ok P =>
      show (do let N ← loop s.network.nAgents (fun i N => loop s.network.nAgents (fun j N => meanPair s.p.reciprocity P i j N) N) t.1; _) =
        Except.map erase (do let N ← loop s.network.nAgents (fun i N => loop s.network.nAgents (fun j N => meanPair s.p.reciprocity P i j N) N) t.1; _)
      cases loop s.network.nAgents (fun i N => loop s.network.nAgents (fun j N => meanPair s.p.reciprocity P i j N) N) t.1 with
      | error e => rfl
      | ok N => rfl

theorem updateNetwork_erase (o : MathOps F) (pick : List (Nat × F) → Nat) (r : Rng G F) (s : Activity A F G) :
    updateNetwork o pick r (erase s) = (updateNetwork o pick r s).map erase := by
  unfold updateNetwork
  show (if s.p.meanWeights = false then _ else _) = _
  split
  · exact updateProbabilistic_erase o pick r s
  · exact updateMean_erase o s

theorem rkStep_used (o : MathOps F) (p : ActivitySettings F) (N : Network A F) : rkStep o p.used N = rkStep o p N := by
  unfold rkStep
  simp only [resetBots_used]
  rfl

theorem iteration_erase (o : MathOps F) (pick : List (Nat × F) → Nat) (r : Rng G F) (s : Activity A F G) :
    iteration o pick r (erase s) = (iteration o pick r s).map erase := by
  unfold iteration
  have e := updateNetwork_erase o pick r { s with counter := s.counter.tick }
  show (do let s ← updateNetwork o pick r (erase { s with counter := s.counter.tick }); _) = _
  rw [e]
  cases updateNetwork o pick r { s with counter := s.counter.tick } with
  | error e => rfl
  | ok t =>
    show (do let agents ← rkStep o t.p.used t.network; _) = Except.map erase (do let agents ← rkStep o t.p t.network; _)
    rw [rkStep_used]
    cases rkStep o t.p t.network with
    | error e => rfl
    | ok as => rfl

end Activity

namespace Inertial
variable [Zero F] [One F] [Sub F] [Mul F] [Add F] [Div F] [Neg F] [NatCast F] [LT F] [LE F] [DecidableLT F] [DecidableLE F]

/-- The model without the settings that are not used. -/
def erase (s : Inertial F G) : Inertial F G := { s with base := s.base.erase }

theorem verletStep_used (o : MathOps F) (p : ActivitySettings F) (friction : F) (N : Network (InertialAgent F) F) :
    verletStep o p.used friction N = verletStep o p friction N := by
  unfold verletStep
  simp only [Activity.resetBots_used]
  rfl

theorem iteration_erase (o : MathOps F) (pick : List (Nat × F) → Nat) (r : Rng G F) (s : Inertial F G) :
    iteration o pick r (erase s) = (iteration o pick r s).map erase := by
  unfold iteration
  have e := Activity.updateNetwork_erase o pick r { s.base with counter := s.base.counter.tick }
  show (do let b ← Activity.updateNetwork o pick r (Activity.erase { s.base with counter := s.base.counter.tick }); _) = _
  rw [e]
  cases Activity.updateNetwork o pick r { s.base with counter := s.base.counter.tick } with
  | error e => rfl
  | ok t =>
    show (do let agents ← verletStep o t.p.used s.friction t.network; _) = Except.map erase (do let agents ← verletStep o t.p s.friction t.network; _)
    rw [verletStep_used]
    cases verletStep o t.p s.friction t.network with
    | error e => rfl
    | ok as => rfl

end Inertial

/-- Two machines that do the same: `e` maps the states of one to states of the other that behave alike. -/
structure Machine.Copies {S' : Type} (M : Machine A F S) (M' : Machine A F S') (e : S → S') : Prop where
  network : ∀ s, M'.network (e s) = M.network s
  nIterations : ∀ s, M'.nIterations (e s) = M.nIterations s
  reset : ∀ s, M'.reset (e s) = e (M.reset s)
  finished : ∀ s, M'.finished (e s) = M.finished s
  iteration : ∀ s, M'.iteration (e s) = (M.iteration s).map e

/-- The result of a process, changed afterwards. -/
def Effects.mapResult {α β : Type} (f : α → β) (x : List Event × Res α) : List Event × Res β := (x.1, x.2.map f)

theorem Effects.bind_mapResult {α β α' β' : Type} {W : World} {p : Proc α} {p' : Proc α'} {e : α → α'} {e' : β → β'} {f : α → Proc β} {f' : α' → Proc β'}
    (d : Disk) (h : p' d = mapResult e (p d)) (hf : ∀ a d, f' (e a) d = mapResult e' (f a d)) :
    Proc.bind W p' f' d = mapResult e' (Proc.bind W p f d) := by
  rcases e2 : p d with ⟨t, r⟩
  rw [e2] at h
  cases r with
  | error x =>
    have h : p' d = (t, .error x) := h
    rw [Proc.bind_error h, Proc.bind_error e2]; rfl
  | ok a =>
    have h : p' d = (t, .ok (e a)) := h
    rw [Proc.bind_ok h, Proc.bind_ok e2, hf]; rfl

theorem Effects.mapResult_id {α : Type} (x : List Event × Res α) : mapResult id x = x := by
  obtain ⟨t, r⟩ := x
  cases r <;> rfl

theorem Effects.bind_same {α β β' : Type} {W : World} {p : Proc α} {e' : β → β'} {f : α → Proc β} {f' : α → Proc β'} (d : Disk)
    (hf : ∀ a d, f' a d = mapResult e' (f a d)) : Proc.bind W p f' d = mapResult e' (Proc.bind W p f d) :=
  bind_mapResult (e := id) d (mapResult_id _).symm hf

theorem Effects.runLoop_copies {S' : Type} {M : Machine A F S} {M' : Machine A F S'} {e : S → S'} (h : M.Copies M' e) (W : World) (R : Simulation.Render A F)
    (dir : String) (o : OutputSettings) : ∀ (fuel : Nat) (s : S) (d : Disk), runLoop W M' R dir o fuel (e s) d = mapResult e (runLoop W M R dir o fuel s d)
  | 0, s, d => by
    unfold runLoop
    rw [h.finished]
    split <;> rfl
  | fuel + 1, s, d => by
    unfold runLoop
    rw [h.finished]
    split
    · rfl
    · refine bind_mapResult (e := e) d (by rw [h.iteration]; rfl) fun s d => ?_
      rw [h.nIterations, h.network]
      exact bind_same d fun _ d => bind_same d fun _ d => bind_same d fun _ d => runLoop_copies h W R dir o fuel s d

theorem Effects.run_copies {S' : Type} {M : Machine A F S} {M' : Machine A F S'} {e : S → S'} (h : M.Copies M' e) (W : World) (R : Simulation.Render A F)
    (dir : String) (o : OutputSettings) (fuel : Nat) (s : S) (d : Disk) : run W M' R dir o fuel (e s) d = run W M R dir o fuel s d := by
  have key : run W M' R dir o fuel (e s) d = mapResult id (run W M R dir o fuel s d) := by
    unfold run
    rw [h.network, h.reset]
    refine bind_same d fun _ d => bind_same d fun _ d => bind_mapResult (e := e) d (runLoop_copies h W R dir o fuel _ d) fun s d => ?_
    rw [h.nIterations]
    rfl
  rw [key, mapResult_id]

end Seldon
