import Verif.Model.Program
import Verif.Props.Rerun
import Verif.Props.InitialAgents
import Verif.Props.Config
/-!
# Lemmas: whole runs of the program
-/
set_option linter.unusedSectionVars false
namespace Seldon
open Spec Simulation
variable {A F S S' G : Type}

/-- `M'` behaves on the states `ι s` like `M` on the states `s`. -/
structure Machine.Embeds (M : Machine A F S) (M' : Machine A F S') (ι : S → S') : Prop where
  network : ∀ s, M'.network (ι s) = M.network s
  nIterations : ∀ s, M'.nIterations (ι s) = M.nIterations s
  reset : ∀ s, M'.reset (ι s) = ι (M.reset s)
  iteration : ∀ s, M'.iteration (ι s) = (M.iteration s).map ι
  finished : ∀ s, M'.finished (ι s) = M.finished s

theorem Machine.Embeds.runLoop {M : Machine A F S} {M' : Machine A F S'} {ι : S → S'} (h : M.Embeds M' ι) (R : Render A F) (o : OutputSettings) :
    ∀ (fuel : Nat) (s : S) (tr : List FileWrite), Simulation.runLoop M' R o fuel (ι s, tr) =
      (Simulation.runLoop M R o fuel (s, tr)).map (fun t => (ι t.1, t.2)) := by
  intro fuel
  induction fuel with
  | zero =>
    intro s tr
    unfold Simulation.runLoop
    simp only [h.finished]
    split <;> rfl
  | succ fuel ih =>
    intro s tr
    unfold Simulation.runLoop
    simp only [h.finished]
    split
    · rfl
    · rw [h.iteration]
      cases e : M.iteration s with
      | error f => rfl
      | ok t =>
        show (do let tr ← output R o (M'.network (ι t)) (M'.nIterations (ι t)) tr; Simulation.runLoop M' R o fuel (ι t, tr)) =
          ((do let tr ← output R o (M.network t) (M.nIterations t) tr; Simulation.runLoop M R o fuel (t, tr) : Res _).map _)
        rw [h.network, h.nIterations]
        cases e' : output R o (M.network t) (M.nIterations t) tr with
        | error f => rfl
        | ok tr' => exact ih t tr'

theorem Machine.Embeds.run {M : Machine A F S} {M' : Machine A F S'} {ι : S → S'} (h : M.Embeds M' ι) (R : Render A F) (o : OutputSettings)
    (fuel : Nat) (s : S) : Simulation.run M' R o fuel (ι s) = (Simulation.run M R o fuel s).map (fun t => (ι t.1, t.2)) := by
  unfold Simulation.run
  rw [h.network]
  cases e : initialOutput R o (M.network s) with
  | error f => rfl
  | ok tr =>
    show Simulation.runLoop M' R o fuel (M'.reset (ι s), tr) = (Simulation.runLoop M R o fuel (M.reset s, tr)).map _
    rw [h.reset]
    exact h.runLoop R o fuel _ tr

/-- A model that never fails: the run returns or goes on for ever. -/
theorem run_safe {M : Machine A F S} (I : S → Prop) (keep : ∀ s, I s → I (M.reset s)) (step : ∀ s, I s → ∃ t, M.iteration s = .ok t ∧ I t)
    (wf : ∀ s, I s → WF (M.network s)) (R : Render A F) {o : OutputSettings} (h1 : o.nOutputAgents ≠ some 0) (h2 : o.nOutputNetwork ≠ some 0)
    (fuel : Nat) {s : S} (hs : I s) : (∃ t, Simulation.run M R o fuel s = .ok t) ∨ Simulation.run M R o fuel s = .error .fuel := by
  have key : ∀ (fuel : Nat) (s : S) (tr : List FileWrite), I s →
      (∃ t, Simulation.runLoop M R o fuel (s, tr) = .ok t) ∨ Simulation.runLoop M R o fuel (s, tr) = .error .fuel := by
    intro fuel
    induction fuel with
    | zero =>
      intro s tr _
      unfold Simulation.runLoop
      split
      · exact .inl ⟨_, rfl⟩
      · exact .inr rfl
    | succ fuel ih =>
      intro s tr hs
      unfold Simulation.runLoop
      split
      · exact .inl ⟨_, rfl⟩
      · obtain ⟨t, ht, hI⟩ := step s hs
        obtain ⟨tr', htr⟩ := output_total (renderable_of_wf R (wf t hI)) h1 h2 (M.nIterations t) tr
        simp only [ht, Res.bind_ok, htr]
        exact ih t tr' hI
  obtain ⟨tr0, h0⟩ := initialOutput_total (renderable_of_wf R (wf s hs)) o
  unfold Simulation.run
  rw [h0, Res.bind_ok]
  exact key fuel _ tr0 (keep s hs)

/-- A run of a model that only counts: its states, the files, the invariant. -/
theorem Machine.Counted.files {M : Machine A F S} {I : S → Prop} {N : Nat} (h : M.Counted I N) (R : Render A F) {o : OutputSettings}
    (h1 : o.nOutputAgents ≠ some 0) (h2 : o.nOutputNetwork ≠ some 0) {s : S} (hs : I s) {fuel : Nat} (hf : N ≤ fuel) :
    ∃ (st : Nat → S) (tr : List FileWrite), Simulation.run M R o fuel s = .ok (st N, tr) ∧ st 0 = M.reset s ∧
      (∀ k, k ≤ N → Iterates M.iteration (M.reset s) k (st k) ∧ I (st k)) ∧
      List.Forall₂ (Fulfils R) tr (wanted o (fun k => M.network (st k)) N) ∧ ∀ k, k < N → M.iteration (st k) = .ok (st (k + 1)) := by
  obtain ⟨t, tr, hr, -, -⟩ := h.run R h1 h2 hs hf
  obtain ⟨K, st, hrun, -, rfl, hfiles⟩ := C52_files h.counts h.net hr
  obtain rfl := C51_exactly h.counts I N h.keep (fun s t hs ht => h.keep' hs ht) h.stop hs hrun
  refine ⟨st, tr, hr, hrun.start, fun k hk => ⟨IsRun.iterates hrun k hk, ?_⟩, hfiles, hrun.step⟩
  induction k with
  | zero => rw [hrun.start]; exact h.keep s hs
  | succ k ih => exact h.keep' (ih (by omega)) (hrun.step k (by omega))

namespace Program

section
variable [Zero F] [One F] [Sub F] [Mul F] [Add F] [Div F] [Neg F] [NatCast F] [IntCast F] [LT F] [LE F] [DecidableLT F] [DecidableLE F]

theorem embeds_deGroot (env : Env F G) : (DeGroot.machine (F := F)).Embeds (machine env .simple) ModelState.deGroot :=
  ⟨fun _ => rfl, fun _ => rfl, fun _ => rfl, fun _ => rfl, fun _ => rfl⟩

theorem embeds_deffuant (env : Env F G) :
    (Deffuant.machine env.rng (Deffuant.updateRule (F := F) (G := G))).Embeds (machine env .simple) ModelState.deffuant :=
  ⟨fun _ => rfl, fun _ => rfl, fun _ => rfl, fun _ => rfl, fun _ => rfl⟩

theorem embeds_vector (env : Env F G) :
    (Deffuant.machine env.rng (Deffuant.updateVector (F := F) (G := G) env.rng)).Embeds (machine env .vector) ModelState.vector :=
  ⟨fun _ => rfl, fun _ => rfl, fun _ => rfl, fun _ => rfl, fun _ => rfl⟩

theorem embeds_activity (env : Env F G) :
    (Activity.machine (A := ActivityAgent F) env.math env.pick env.rng).Embeds (machine env .activity) ModelState.activity :=
  ⟨fun _ => rfl, fun _ => rfl, fun _ => rfl, fun _ => rfl, fun _ => rfl⟩

theorem embeds_inertial (env : Env F G) :
    (Inertial.machine env.math env.pick env.rng).Embeds (machine env .inertial) ModelState.inertial :=
  ⟨fun _ => rfl, fun _ => rfl, fun _ => rfl, fun _ => rfl, fun _ => rfl⟩

end
end Program
end Seldon
