import Verif.Lemmas.Effects
import Verif.Props.Simulation
/-!
# The history of a run with effects, also of one that fails
-/
namespace Seldon
open Spec
variable {A F S : Type}

namespace Effects
variable {W : World} {R : Simulation.Render A F} {dir : String} {o : OutputSettings}

/-- The opinions file after an iteration: written completely, or the attempt fails without effects. -/
theorem outputOpinions_cases (W : World) (R : Simulation.Render A F) (dir : String) (o : OutputSettings) (N : Network A F) (k : Nat) (d : Disk) :
    (∃ e, outputOpinions W R dir o N k d = ([], .error e) ∧ Simulation.output R o N k [] = .error e) ∨
    ∃ t, outputOpinions W R dir o N k d = (t, .ok ()) ∧ printed t = [] ∧ reads t = [] ∧ List.Forall₂ (FulfilsIn R dir) (writes t)
      (if Requested o.nOutputAgents o.startOutput k then [⟨.opinions, k + o.startNumberingFrom, N⟩] else []) := by
  unfold outputOpinions
  rw [Proc.lift_bind]
  cases e1 : Simulation.due o.nOutputAgents o.startOutput k with
  | error x =>
    left
    refine ⟨x, rfl, ?_⟩
    unfold Simulation.output Simulation.outputOpinions
    rw [e1]; rfl
  | ok b =>
    have hb := Simulation.due_ok e1
    cases b with
    | false =>
      right
      rw [if_neg (fun h => by cases hb.mpr h)]
      exact ⟨[], rfl, rfl, rfl, .nil⟩
    | true =>
      rw [if_pos (hb.mp rfl)]
      show (∃ e, writeOpinions W R dir N _ d = _ ∧ _) ∨ ∃ t, writeOpinions W R dir N _ d = _ ∧ _
      unfold writeOpinions
      rw [Proc.lift_bind]
      cases e2 : AgentIO.toFile R.agents N.agents with
      | error x =>
        left
        refine ⟨x, rfl, ?_⟩
        unfold Simulation.output Simulation.outputOpinions Simulation.writeOpinions
        rw [e1, e2]; rfl
      | ok c =>
        right
        exact ⟨[.write (join dir (Simulation.opinionsName (k + o.startNumberingFrom))) c], rfl, rfl, rfl, .cons ⟨rfl, e2⟩ .nil⟩

/-- The network file after an iteration. -/
theorem outputNetwork_cases (W : World) (R : Simulation.Render A F) (dir : String) (o : OutputSettings) (N : Network A F) (k : Nat) (d : Disk) :
    (∃ e, outputNetwork W R dir o N k d = ([], .error e) ∧ ∀ tr, Simulation.outputNetwork R o N k tr = .error e) ∨
    ∃ t, outputNetwork W R dir o N k d = (t, .ok ()) ∧ printed t = [] ∧ reads t = [] ∧ List.Forall₂ (FulfilsIn R dir) (writes t)
      (if Requested o.nOutputNetwork o.startOutput k then [⟨.network, k + o.startNumberingFrom, N⟩] else []) := by
  unfold outputNetwork
  rw [Proc.lift_bind]
  cases e1 : Simulation.due o.nOutputNetwork o.startOutput k with
  | error x =>
    left
    refine ⟨x, rfl, fun tr => ?_⟩
    unfold Simulation.outputNetwork
    rw [e1]; rfl
  | ok b =>
    have hb := Simulation.due_ok e1
    cases b with
    | false =>
      right
      rw [if_neg (fun h => by cases hb.mpr h)]
      exact ⟨[], rfl, rfl, rfl, .nil⟩
    | true =>
      rw [if_pos (hb.mp rfl)]
      show (∃ e, writeNetwork W R dir N _ d = _ ∧ _) ∨ ∃ t, writeNetwork W R dir N _ d = _ ∧ _
      unfold writeNetwork
      rw [Proc.lift_bind]
      cases e2 : NetworkIO.toFile R.text N with
      | error x =>
        left
        refine ⟨x, rfl, fun tr => ?_⟩
        unfold Simulation.outputNetwork Simulation.writeNetwork
        rw [e1, e2]; rfl
      | ok c =>
        right
        exact ⟨[.write (join dir (Simulation.networkName (k + o.startNumberingFrom))) c], rfl, rfl, rfl, .cons ⟨rfl, e2⟩ .nil⟩

/-- The output after an iteration, as one process. -/
def outputBoth (W : World) (R : Simulation.Render A F) (dir : String) (o : OutputSettings) (N : Network A F) (k : Nat) {α : Type} (f : Unit → Proc α) : Proc α :=
  Proc.bind W (progress W o k) fun _ =>
  Proc.bind W (outputOpinions W R dir o N k) fun _ =>
  Proc.bind W (outputNetwork W R dir o N k) f

/-- The progress lines of iterations `n + 1, ..., n + K`. -/
def progressLines (W : World) (o : OutputSettings) (n K : Nat) : List (List Char) :=
  if o.printProgress then (List.range K).map (fun k => progressLine W (n + (k + 1))) else []

theorem progress_eq (W : World) (o : OutputSettings) (k : Nat) (d : Disk) :
    ∃ t, progress W o k d = (t, .ok ()) ∧ writes t = [] ∧ reads t = [] ∧ printed t = if o.printProgress then [progressLine W k] else [] := by
  unfold progress
  split
  · exact ⟨[.print (progressLine W k)], rfl, rfl, rfl, rfl⟩
  · exact ⟨[], rfl, rfl, rfl, rfl⟩

/-- Either everything is written, and what follows is done; or the output fails. -/
theorem outputBoth_cases {α : Type} (N : Network A F) (k : Nat) (f : Unit → Proc α) (d : Disk) :
    (∃ t e ws, outputBoth W R dir o N k f d = (t, .error e) ∧ Simulation.output R o N k [] = .error e ∧ ws <+: wantedAt o N k ∧
      List.Forall₂ (FulfilsIn R dir) (writes t) ws ∧ reads t = [] ∧ printed t = if o.printProgress then [progressLine W k] else []) ∨
    ∃ t, outputBoth W R dir o N k f d = (t ++ (f () (d.replay W t)).1, (f () (d.replay W t)).2) ∧
      List.Forall₂ (FulfilsIn R dir) (writes t) (wantedAt o N k) ∧ reads t = [] ∧ printed t = if o.printProgress then [progressLine W k] else [] := by
  obtain ⟨t1, h1, w1, r1, p1⟩ := progress_eq W o k d
  unfold outputBoth
  rw [Proc.bind_ok h1, Disk.replay_quiet W w1]
  rcases outputOpinions_cases W R dir o N k d with ⟨e, he, hs⟩ | ⟨t2, h2, p2, r2, f2⟩
  · left
    refine ⟨t1, e, [], ?_, hs, List.nil_prefix, by rw [w1]; exact .nil, r1, p1⟩
    rw [Proc.bind_error he]
    simp
  · rw [Proc.bind_ok h2]
    rcases outputNetwork_cases W R dir o N k (d.replay W t2) with ⟨e, he, hs⟩ | ⟨t3, h3, p3, r3, f3⟩
    · left
      refine ⟨t1 ++ t2, e, _, ?_, ?_, List.prefix_append _ _, ?_, ?_, ?_⟩
      · rw [Proc.bind_error he]; simp
      · obtain ⟨fs, -, hq⟩ := outputOpinions_does W R dir o N k d
        have := hq []
        rw [h2] at this
        dsimp only [Except.map] at this
        unfold Simulation.output
        cases e4 : Simulation.outputOpinions R o N k [] with
        | error x => rw [e4] at this; cases this
        | ok tr => exact hs tr
      · rw [writes_append, w1]; exact f2
      · rw [reads_append, r1, r2]; rfl
      · rw [printed_append, p1, p2, List.append_nil]
    · right
      refine ⟨t1 ++ (t2 ++ t3), ?_, ?_, ?_, ?_⟩
      · rw [Proc.bind_ok h3, Disk.replay_append, Disk.replay_quiet W w1, Disk.replay_append]
        simp only [List.append_assoc]
      · rw [writes_append, w1, List.nil_append, writes_append]; exact List.rel_append f2 f3
      · rw [reads_append, r1, reads_append, r2, r3]; rfl
      · rw [printed_append, p1, printed_append, p2, p3, List.append_nil, List.append_nil]

/-- The files wanted after iterations `n + 1, ..., n + K`. -/
def wantedFrom (M : Machine A F S) (o : OutputSettings) (n : Nat) (st : Nat → S) (K : Nat) : List (Wanted A F) :=
  (List.range K).flatMap (fun k => wantedAt o (M.network (st (k + 1))) (n + (k + 1)))

/-- How a loop stops after `K` iterations. -/
def StopsAt (M : Machine A F S) (R : Simulation.Render A F) (o : OutputSettings) (fuel : Nat) (st : Nat → S) (K : Nat) (complete : Prop) : Res S → Prop
  | .ok s => s = st K ∧ M.finished (st K) = true ∧ complete
  | .error e => (complete ∧ M.finished (st K) = false ∧ (M.iteration (st K) = .error e ∨ e = .fuel ∧ K = fuel)) ∨
      (0 < K ∧ Simulation.output R o (M.network (st K)) (M.nIterations (st K)) [] = .error e)

theorem runLoop_history {M : Machine A F S} (hM : M.Counts) (fuel : Nat) : ∀ (s : S) (d : Disk),
    ∃ K st ws, IsRunSoFar M s K st ∧ (∀ k, k ≤ K → M.nIterations (st k) = M.nIterations s + k) ∧ ws <+: wantedFrom M o (M.nIterations s) st K ∧
      List.Forall₂ (FulfilsIn R dir) (writes (runLoop W M R dir o fuel s d).1) ws ∧ reads (runLoop W M R dir o fuel s d).1 = [] ∧
      printed (runLoop W M R dir o fuel s d).1 = progressLines W o (M.nIterations s) K ∧ K ≤ fuel ∧
      StopsAt M R o fuel st K (ws = wantedFrom M o (M.nIterations s) st K) (runLoop W M R dir o fuel s d).2 := by
  have base : ∀ (s : S) (d : Disk) (fuel : Nat) (r : Res S), StopsAt M R o fuel (fun _ => s) 0 True r → 
      runLoop W M R dir o fuel s d = ([], r) → ∃ K st ws, IsRunSoFar M s K st ∧ (∀ k, k ≤ K → M.nIterations (st k) = M.nIterations s + k) ∧ ws <+: wantedFrom M o (M.nIterations s) st K ∧
      List.Forall₂ (FulfilsIn R dir) (writes (runLoop W M R dir o fuel s d).1) ws ∧ reads (runLoop W M R dir o fuel s d).1 = [] ∧
      printed (runLoop W M R dir o fuel s d).1 = progressLines W o (M.nIterations s) K ∧ K ≤ fuel ∧
      StopsAt M R o fuel st K (ws = wantedFrom M o (M.nIterations s) st K) (runLoop W M R dir o fuel s d).2 := by
    intro s d fuel r hs h
    refine ⟨0, fun _ => s, [], ⟨rfl, by simp, by simp⟩, by intro k hk; simp; omega, List.nil_prefix, ?_, ?_, ?_, by omega, ?_⟩
    · rw [h]; exact .nil
    · rw [h]; rfl
    · rw [h]; unfold progressLines; split <;> rfl
    · rw [h]
      have : ([] = wantedFrom M o (M.nIterations s) (fun _ => s) 0) = True := by simp [wantedFrom]
      rw [this]; exact hs
  induction fuel with
  | zero =>
    intro s d
    by_cases hf : M.finished s = true
    · refine base s d 0 (.ok s) ⟨rfl, hf, trivial⟩ ?_
      unfold runLoop; rw [if_pos hf]; rfl
    · refine base s d 0 (.error .fuel) (.inl ⟨trivial, by simpa using hf, .inr ⟨rfl, rfl⟩⟩) ?_
      unfold runLoop; rw [if_neg hf]; rfl
  | succ fuel ih =>
    intro s d
    by_cases hf : M.finished s = true
    · refine base s d _ (.ok s) ⟨rfl, hf, trivial⟩ ?_
      unfold runLoop; rw [if_pos hf]; rfl
    · cases hi : M.iteration s with
      | error e =>
        refine base s d _ (.error e) (.inl ⟨trivial, by simpa using hf, .inl hi⟩) ?_
        unfold runLoop; rw [if_neg hf, Proc.lift_bind, hi]
      | ok s1 =>
        have hn1 := hM.iteration s s1 hi
        have hunf : runLoop W M R dir o (fuel + 1) s d =
            outputBoth W R dir o (M.network s1) (M.nIterations s1) (fun _ => runLoop W M R dir o fuel s1) d := by
          conv_lhs => unfold runLoop
          rw [if_neg hf, Proc.lift_bind, hi]
          rfl
        have hw1 : ∀ st : Nat → S, st 0 = s1 → ∀ K, wantedFrom M o (M.nIterations s) (fun k => match k with | 0 => s | k + 1 => st k) (K + 1) =
            wantedAt o (M.network s1) (M.nIterations s1) ++ wantedFrom M o (M.nIterations s1) st K := by
          intro st h0 K
          unfold wantedFrom
          rw [List.range_succ_eq_map, List.flatMap_cons, List.flatMap_map]
          congr 1
          · simp only [h0, hn1]
          · congr 1
            funext k
            simp only [Nat.succ_eq_add_one, hn1]
            congr 1; omega
        have hp1 : ∀ K, progressLines W o (M.nIterations s) (K + 1) =
            (if o.printProgress then [progressLine W (M.nIterations s1)] else []) ++ progressLines W o (M.nIterations s1) K := by
          intro K
          unfold progressLines
          split
          · rw [List.range_succ_eq_map, List.map_cons, List.map_map, hn1]
            show _ :: _ = _ :: _
            congr 1
            apply List.map_congr_left
            intro k _
            simp only [Function.comp]
            congr 1; omega
          · rfl
        rw [hunf]
        rcases outputBoth_cases (W := W) (R := R) (dir := dir) (o := o) (M.network s1) (M.nIterations s1) (fun _ => runLoop W M R dir o fuel s1) d with
          ⟨t, e, ws, h1, h2, h3, h4, h5, h6⟩ | ⟨t, h1, h4, h5, h6⟩
        · have e1 := hw1 (fun _ => s1) rfl 0
          refine ⟨1, fun k => match k with | 0 => s | _ + 1 => s1, ws, ⟨rfl, ?_, ?_⟩, ?_, ?_, ?_, ?_, ?_, by omega, ?_⟩
          · intro k hk; obtain rfl : k = 0 := by omega
            simpa using hf
          · intro k hk; obtain rfl : k = 0 := by omega
            exact hi
          · intro k hk
            match k with
            | 0 => simp
            | 1 => exact hn1
            | k + 2 => omega
          · rw [e1]; exact h3.trans (List.prefix_append _ _)
          · rw [h1]; exact h4
          · rw [h1]; exact h5
          · rw [h1, hp1 0]; dsimp only; rw [h6]; unfold progressLines; simp
          · rw [h1]; exact .inr ⟨by omega, h2⟩
        · obtain ⟨K, st, ws, hrun, hn, hws, hfor, hr, hpr, hK, hstop⟩ := ih s1 (d.replay W t)
          refine ⟨K + 1, fun k => match k with | 0 => s | k + 1 => st k, wantedAt o (M.network s1) (M.nIterations s1) ++ ws, ⟨rfl, ?_, ?_⟩, ?_, ?_, ?_, ?_, ?_, by omega, ?_⟩
          · intro k hk
            cases k with
            | zero => simpa using hf
            | succ k => exact hrun.going k (by omega)
          · intro k hk
            cases k with
            | zero => simp only [hrun.start]; exact hi
            | succ k => exact hrun.step k (by omega)
          · intro k hk
            cases k with
            | zero => simp
            | succ k => simp only; rw [hn k (by omega), hn1]; omega
          · rw [hw1 st hrun.start K]; exact (List.prefix_append_right_inj _).mpr hws
          · rw [h1]; dsimp only; rw [writes_append]; exact List.rel_append h4 hfor
          · rw [h1]; dsimp only; rw [reads_append, h5, hr]; rfl
          · rw [h1]; dsimp only; rw [printed_append, h6, hpr, hp1]
          · rw [h1, hw1 st hrun.start K]
            dsimp only
            revert hstop
            cases (runLoop W M R dir o fuel s1 (d.replay W t)).2 with
            | ok s' => rintro ⟨a, b, c⟩; exact ⟨a, b, by rw [c]⟩
            | error e =>
              rintro (⟨a, b, c⟩ | ⟨a, b⟩)
              · refine .inl ⟨by rw [a], b, c.imp id fun ⟨x, y⟩ => ⟨x, by omega⟩⟩
              · exact .inr ⟨by omega, b⟩

end Effects
end Seldon
