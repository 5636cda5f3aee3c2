import Verif.Props.DeGroot
import Verif.Props.Deffuant
import Verif.Props.Activity
import Verif.Props.MeanField
import Verif.Lemmas.Safety
/-!
# Property C60: running a simulation a second time
-/
set_option linter.unusedSectionVars false
namespace Seldon
open Spec Simulation
variable {A F S G : Type}

/-- What the concrete models provide: an invariant `I` that is kept by iterations, which never fail, and which stop exactly when the counter has
reached `N`. -/
structure Machine.Counted (M : Machine A F S) (I : S → Prop) (N : Nat) : Prop where
  counts : M.Counts
  net : ∀ s, M.network (M.reset s) = M.network s
  keep : ∀ s, I s → I (M.reset s)
  step : ∀ s, I s → ∃ t, M.iteration s = .ok t ∧ I t
  stop : ∀ s, I s → (M.finished s = true ↔ N ≤ M.nIterations s)
  wf : ∀ s, I s → WF (M.network s)

theorem IsRun.iterates {M : Machine A F S} {s : S} {K : Nat} {st : Nat → S} (h : IsRun M s K st) : ∀ k, k ≤ K → Iterates M.iteration s k (st k) := by
  intro k
  induction k with
  | zero => intro _; rw [h.start]; exact .zero
  | succ k ih => intro hk; exact .succ (ih (by omega)) (h.step k (by omega))

theorem Machine.Counted.keep' {M : Machine A F S} {I : S → Prop} {N : Nat} (h : M.Counted I N) {s t : S} (hs : I s) (ht : M.iteration s = .ok t) :
    I t := by
  obtain ⟨u, hu, hi⟩ := h.step s hs
  obtain rfl := Except.ok.inj (hu.symm.trans ht)
  exact hi

/-- A run from a state with the invariant: exactly `N` iterations, for all output settings with non-zero intervals. -/
theorem Machine.Counted.run {M : Machine A F S} {I : S → Prop} {N : Nat} (h : M.Counted I N) (R : Render A F) {o : OutputSettings}
    (h1 : o.nOutputAgents ≠ some 0) (h2 : o.nOutputNetwork ≠ some 0) {s : S} (hs : I s) {fuel : Nat} (hf : N ≤ fuel) :
    ∃ t tr, Simulation.run M R o fuel s = .ok (t, tr) ∧ I t ∧ Iterates M.iteration (M.reset s) N t := by
  obtain ⟨st, hrun, hI⟩ := C51_reaches h.counts I N h.keep h.step h.stop hs
  obtain ⟨tr, htr⟩ := C52_total (R := R) h1 h2 (h.wf s hs) hrun (fun k hk => h.wf _ (hI k hk)) hf
  exact ⟨st N, tr, htr, hI N (le_refl N), IsRun.iterates hrun N (le_refl N)⟩

/-- Whatever a finished run leaves behind still has the invariant, and the run made exactly `N` iterations. -/
theorem Machine.Counted.after {M : Machine A F S} {I : S → Prop} {N : Nat} (h : M.Counted I N) {R : Render A F} {o : OutputSettings}
    {s t : S} (hs : I s) {fuel : Nat} {tr : List FileWrite} (hr : Simulation.run M R o fuel s = .ok (t, tr)) :
    I t ∧ Iterates M.iteration (M.reset s) N t := by
  obtain ⟨K, st, hrun, -, rfl, -⟩ := C52_files h.counts h.net hr
  obtain rfl := C51_exactly h.counts I N h.keep (fun s t hs ht => h.keep' hs ht) h.stop hs hrun
  refine ⟨?_, IsRun.iterates hrun K (le_refl K)⟩
  have : ∀ k, k ≤ K → I (st k) := by
    intro k
    induction k with
    | zero => intro _; rw [hrun.start]; exact h.keep s hs
    | succ k ih => intro hk; exact h.keep' (ih (by omega)) (hrun.step k (by omega))
  exact this K (le_refl K)

/-- Two runs of the same simulation. -/
def RunTwice (M : Machine A F S) (R : Render A F) (o : OutputSettings) (N : Nat) (s : S) : Prop :=
  ∀ fuel fuel' t tr, Simulation.run M R o fuel s = .ok (t, tr) → N ≤ fuel' →
    ∃ u tr', Simulation.run M R o fuel' t = .ok (u, tr') ∧ Iterates M.iteration (M.reset t) N u

theorem Machine.Counted.twice {M : Machine A F S} {I : S → Prop} {N : Nat} (h : M.Counted I N) (R : Render A F) {o : OutputSettings}
    (h1 : o.nOutputAgents ≠ some 0) (h2 : o.nOutputNetwork ≠ some 0) {s : S} (hs : I s) : RunTwice M R o N s := by
  intro fuel fuel' t tr hr hf
  obtain ⟨u, tr', hu, -, hi⟩ := h.run R h1 h2 (h.after hs hr).1 hf
  exact ⟨u, tr', hu, hi⟩

/-! ## the models that only count -/

theorem Deffuant.counted [Add F] [Mul F] [Sub F] [Zero F] [Neg F] [LT F] [DecidableLT F] {r : Rng G F} (hr : r.IntLawful) (N : Nat) :
    (Deffuant.machine r (Deffuant.updateRule (F := F) (G := G))).Counted (fun s => s.Ready ∧ s.counter.maxIterations = some N) N where
  counts := Deffuant.counts (r := r) (update := Deffuant.updateRule (F := F) (G := G)) Deffuant.updateRule_counter
  net _ := rfl
  keep s hs := ⟨⟨hs.1.wf, hs.1.size, hs.1.rows⟩, hs.2⟩
  step := by
    rintro s ⟨h1, h2⟩
    obtain ⟨t, ht, hF⟩ := Deffuant.iteration_safe hr h1
    exact ⟨t, ht, hF.ready h1, hF.max.trans h2⟩
  stop := by
    rintro s ⟨-, h2⟩
    simp [Deffuant.machine, Deffuant.finished, Counter.finished, h2]
  wf s hs := hs.1.wf

theorem Deffuant.countedVector [LT F] [DecidableLT F] [IntCast F] {r : Rng G F} (hr : r.IntLawful) (d N : Nat) :
    (Deffuant.machine r (Deffuant.updateVector (F := F) (G := G) r)).Counted
      (fun s => s.Ready ∧ (∀ x ∈ s.network.agents, x.opinion.length = d) ∧ s.counter.maxIterations = some N) N where
  counts := Deffuant.counts (r := r) (update := Deffuant.updateVector (F := F) (G := G) r) (Deffuant.updateVector_counter r)
  net _ := rfl
  keep s hs := ⟨⟨hs.1.wf, hs.1.size, hs.1.rows⟩, hs.2⟩
  step := by
    rintro s ⟨h1, h2, h3⟩
    obtain ⟨t, ht⟩ := Deffuant.iterationVector_total (d := d) hr h1 h2
    obtain ⟨hF, hd', -⟩ := Deffuant.iterationVector_inv (d := d) h2 ht
    exact ⟨t, ht, hF.ready h1, hd', hF.max.trans h3⟩
  stop := by
    rintro s ⟨-, -, h2⟩
    simp [Deffuant.machine, Deffuant.finished, Counter.finished, h2]
  wf s hs := hs.1.wf

section
variable [ActiveAgent A F] [LawfulActiveAgent A F] [Field F] [LinearOrder F] [IsStrictOrderedRing F]

theorem Activity.counted {o : MathOps F} {pick : List (Nat × F) → Nat} (hp : Reservoir.Pick.Valid pick) (r : Rng G F) (N : Nat) :
    (Activity.machine (A := A) o pick r).Counted (fun s => s.Ready ∧ s.counter.maxIterations = some N) N where
  counts := Activity.counts (A := A) o pick r
  net _ := rfl
  keep s hs := ⟨⟨hs.1.wf, hs.1.incoming, hs.1.fit, hs.1.botOpinion, hs.1.probabilistic⟩, hs.2⟩
  step := by
    rintro s ⟨h1, h2⟩
    obtain ⟨_, _, _, t, ht, -⟩ := C43_activity (o := o) hp r h1
    refine ⟨t, ht, h1.next hp ht, ?_⟩
    rw [(Activity.iteration_frame ht).2.2]; exact h2
  stop := by
    rintro s ⟨-, h2⟩
    simp [Activity.machine, Activity.finished, Counter.finished, h2]
  wf s hs := hs.1.wf

theorem Inertial.counted {o : MathOps F} {pick : List (Nat × F) → Nat} (hp : Reservoir.Pick.Valid pick) (r : Rng G F) (N : Nat) :
    (Inertial.machine o pick r).Counted (fun s => s.base.Ready ∧ s.base.counter.maxIterations = some N) N where
  counts := Inertial.counts (F := F) o pick r
  net _ := rfl
  keep s hs := ⟨⟨hs.1.wf, hs.1.incoming, hs.1.fit, hs.1.botOpinion, hs.1.probabilistic⟩, hs.2⟩
  step := by
    rintro s ⟨h1, h2⟩
    obtain ⟨_, _, _, t, ht, -⟩ := C43_inertial (o := o) hp r h1
    refine ⟨t, ht, Inertial.ready_next hp h1 ht, ?_⟩
    rw [(Inertial.iteration_frame ht).2.2.1]; exact h2
  stop := by
    rintro s ⟨-, h2⟩
    simp [Inertial.machine, Inertial.finished, Counter.finished, h2]
  wf s hs := hs.1.wf

theorem Activity.countedMean {o : MathOps F} (ho : ∀ x k, o.powNat x k = x ^ k) (pick : List (Nat × F) → Nat) (r : Rng G F) (N : Nat) :
    (Activity.machine (A := A) o pick r).Counted (fun s => s.MeanReady ∧ WF s.network ∧ s.counter.maxIterations = some N) N where
  counts := Activity.counts (A := A) o pick r
  net _ := rfl
  keep s h := ⟨⟨h.1.rows, h.1.wrows, h.1.incoming, h.1.probs, h.1.bots, h.1.botM, h.1.botHomophily, h.1.botOpinion, h.1.nonneg, h.1.size, h.1.mean⟩, h.2⟩
  step := by
    rintro s ⟨h1, h2, h3⟩
    obtain ⟨t, ht, hw, hr, -⟩ := C49_activity ho pick r h1
    refine ⟨t, ht, hr, hw.wf, ?_⟩
    rw [(Activity.iteration_frame ht).2.2]; exact h3
  stop := by
    rintro s ⟨-, -, h2⟩
    simp [Activity.machine, Activity.finished, Counter.finished, h2]
  wf s hs := hs.2.1

theorem Inertial.countedMean {o : MathOps F} (ho : ∀ x k, o.powNat x k = x ^ k) (pick : List (Nat × F) → Nat) (r : Rng G F) (N : Nat) :
    (Inertial.machine o pick r).Counted (fun s => s.base.MeanReady ∧ WF s.base.network ∧ s.base.counter.maxIterations = some N) N where
  counts := Inertial.counts (F := F) o pick r
  net _ := rfl
  keep s h := ⟨⟨h.1.rows, h.1.wrows, h.1.incoming, h.1.probs, h.1.bots, h.1.botM, h.1.botHomophily, h.1.botOpinion, h.1.nonneg, h.1.size, h.1.mean⟩, h.2⟩
  step := by
    rintro s ⟨h1, h2, h3⟩
    obtain ⟨t, ht, hw, hr, -⟩ := C49_inertial ho pick r h1
    refine ⟨t, ht, hr, hw.wf, ?_⟩
    rw [(Inertial.iteration_frame ht).2.2.1]; exact h3
  stop := by
    rintro s ⟨-, -, h2⟩
    simp [Inertial.machine, Inertial.finished, Counter.finished, h2]
  wf s hs := hs.2.1

end

/-! ## C60 -/

section
variable {R : Render A F} {o : OutputSettings} {N : Nat}

/-- C60, Deffuant models: after a finished run (`N = max_iterations`), a second run succeeds and makes `N` iterations again, from the
current state. -/
theorem C60_deffuant [CommRing F] [LinearOrder F] [IsStrictOrderedRing F] {r : Rng G F} (hr : r.IntLawful) {s : Deffuant (SimpleAgent F) F G}
    (h : s.Ready) (hN : s.counter.maxIterations = some N) (R : Render (SimpleAgent F) F) (h1 : o.nOutputAgents ≠ some 0)
    (h2 : o.nOutputNetwork ≠ some 0) : RunTwice (Deffuant.machine r Deffuant.updateRule) R o N s :=
  (Deffuant.counted hr N).twice R h1 h2 ⟨h, hN⟩

theorem C60_deffuant_vector [LT F] [DecidableLT F] [IntCast F] {r : Rng G F} (hr : r.IntLawful) {s : Deffuant DiscreteVectorAgent F G}
    (h : s.Ready) {d : Nat} (hd : ∀ x ∈ s.network.agents, x.opinion.length = d) (hN : s.counter.maxIterations = some N)
    (R : Render DiscreteVectorAgent F) (h1 : o.nOutputAgents ≠ some 0) (h2 : o.nOutputNetwork ≠ some 0) :
    RunTwice (Deffuant.machine r (Deffuant.updateVector r)) R o N s :=
  (Deffuant.countedVector hr d N).twice R h1 h2 ⟨h, hd, hN⟩

variable [Field F] [LinearOrder F] [IsStrictOrderedRing F]

/-- C60, activity-driven model (both kinds of network update). -/
theorem C60_activity [ActiveAgent A F] [LawfulActiveAgent A F] {m : MathOps F} (hm : ∀ x k, m.powNat x k = x ^ k)
    {pick : List (Nat × F) → Nat} (hp : Reservoir.Pick.Valid pick) (r : Rng G F) {s : Activity A F G}
    (h : s.Ready ∨ s.MeanReady ∧ WF s.network) (hN : s.counter.maxIterations = some N) (R : Render A F) (h1 : o.nOutputAgents ≠ some 0)
    (h2 : o.nOutputNetwork ≠ some 0) : RunTwice (Activity.machine m pick r) R o N s := by
  rcases h with h | h
  · exact (Activity.counted hp r N).twice R h1 h2 ⟨h, hN⟩
  · exact (Activity.countedMean hm pick r N).twice R h1 h2 ⟨h.1, h.2, hN⟩

/-- C60, inertial model. -/
theorem C60_inertial {m : MathOps F} (hm : ∀ x k, m.powNat x k = x ^ k) {pick : List (Nat × F) → Nat} (hp : Reservoir.Pick.Valid pick)
    (r : Rng G F) {s : Inertial F G} (h : s.base.Ready ∨ s.base.MeanReady ∧ WF s.base.network) (hN : s.base.counter.maxIterations = some N)
    (R : Render (InertialAgent F) F) (h1 : o.nOutputAgents ≠ some 0) (h2 : o.nOutputNetwork ≠ some 0) :
    RunTwice (Inertial.machine m pick r) R o N s := by
  rcases h with h | h
  · exact (Inertial.counted hp r N).twice R h1 h2 ⟨h, hN⟩
  · exact (Inertial.countedMean hm pick r N).twice R h1 h2 ⟨h.1, h.2, hN⟩

end

section
variable [Ring F] [LinearOrder F] [IsStrictOrderedRing F]

/-- C60, DeGroot model, the part that holds: if the first run was ended by the iteration limit `N > 0` and not by convergence (its last
iteration changed some opinion by at least `tol`), a second run succeeds, makes at least one iteration, and stops after the first one at which
the stopping rule holds.  Missing: the same after a run that converged, which is false (`C60_degroot_stuck`). -/
theorem C60_degroot_partial {s t : DeGroot F} {N : Nat} (h : s.Ready) (hN : s.counter.maxIterations = some (N + 1))
    {R : Render (SimpleAgent F) F} {o : OutputSettings} (h1 : o.nOutputAgents ≠ some 0) (h2 : o.nOutputNetwork ≠ some 0)
    {fuel : Nat} {tr : List FileWrite} (hr : Simulation.run DeGroot.machine R o fuel s = .ok (t, tr)) (hu : t.Unsettled) :
    ∃ K st tr', Simulation.run DeGroot.machine R o (N + 1) t = .ok (st K, tr') ∧ 1 ≤ K ∧ K ≤ N + 1 ∧
      IsRun DeGroot.machine t.reset K st ∧
      DeGrootStops t.counter.maxIterations t.tol t.network.agents.length (fun k => opinionOf (st k).network.agents) K ∧
      ∀ k, k < K → ¬ DeGrootStops t.counter.maxIterations t.tol t.network.agents.length (fun k => opinionOf (st k).network.agents) k := by
  obtain ⟨K0, st0, hrun, -, rfl, -⟩ := C52_files DeGroot.counts (fun _ => rfl) hr
  -- the state after the first run
  have inv : ∀ k, k ≤ K0 → (st0 k).Ready ∧ (st0 k).counter.maxIterations = some (N + 1) := by
    intro k
    induction k with
    | zero => intro _; rw [hrun.start]; exact ⟨h.reset, hN⟩
    | succ k ih =>
      intro hk
      obtain ⟨i1, i2⟩ := ih (by omega)
      have hs := hrun.step k (by omega)
      obtain ⟨u, hu, g1, -⟩ := C29_iteration i1
      obtain rfl := Except.ok.inj (hu.symm.trans hs)
      refine ⟨g1, ?_⟩
      have e' := Except.ok.inj ((DeGroot.iteration_eq i1.wf i1.copy).symm.trans hs)
      rw [← e']; exact i2
  obtain ⟨r1, r2⟩ := inv K0 (le_refl _)
  obtain ⟨K, st, hrun', hle, hready⟩ := C31_limit r1 hu r2
  obtain ⟨tr', htr'⟩ := C52_total (R := R) (o := o) h1 h2 r1.wf hrun' (fun k _ => (hready k).wf) hle
  have hstop := C31_stop r1 hu hrun'
  refine ⟨K, st, tr', htr', ?_, hle, hrun', hstop.1, hstop.2⟩
  by_contra hc
  obtain rfl : K = 0 := by omega
  rcases hstop.1 with ⟨m, hm, hm0⟩ | ⟨hm, -⟩
  · rw [r2] at hm; cases hm; omega
  · omega

/-- C60 is false for the DeGroot model: `initialize_iterations` does not reset the convergence test, so once a run has converged every later
run makes no iteration at all, even if all opinions (or the whole network) are replaced in between: only the initial files are written. -/
theorem C60_degroot_stuck {s : DeGroot F} {d : F} (hd : s.maxDiff = some d) (hconv : d < s.tol) (N : Network (SimpleAgent F) F) (hN : WF N)
    (R : Render (SimpleAgent F) F) (o : OutputSettings) (fuel : Nat) :
    ∃ tr, Simulation.run DeGroot.machine R o fuel { s with network := N } = .ok (({ s with network := N } : DeGroot F).reset, tr) ∧
      List.Forall₂ (Fulfils R) tr (wantedInitially o N) := by
  obtain ⟨tr, htr⟩ := initialOutput_total (renderable_of_wf R hN) o
  refine ⟨tr, ?_, initialOutput_ok htr⟩
  unfold Simulation.run
  show (do let tr ← initialOutput R o N; runLoop DeGroot.machine R o fuel (({ s with network := N } : DeGroot F).reset, tr)) = _
  rw [htr, Res.bind_ok]
  have hf : DeGroot.finished ({ s with network := N } : DeGroot F).reset = true := by
    unfold DeGroot.finished
    simp [DeGroot.reset, hd, hconv]
  cases fuel with
  | zero => unfold runLoop; rw [if_pos (by exact hf)]
  | succ fuel => unfold runLoop; rw [if_pos (by exact hf)]

end

/-- Two agents that average. -/
def DeGroot.pair : DeGroot ℚ :=
  ⟨⟨none, 0⟩, 1 / 100, none, ⟨[⟨0⟩, ⟨1⟩], [[0, 1], [0, 1]], [[1/2, 1/2], [1/2, 1/2]], .incoming⟩, [⟨0⟩, ⟨0⟩]⟩

/-- Such a state is reached: the two agents become equal in the first iteration and the model has converged after the second. -/
example : DeGroot.pair.Ready ∧ DeGroot.pair.maxDiff = none ∧ (DeGroot.pair.iteration.map (·.finished)) = .ok false ∧
    (do let t ← DeGroot.pair.iteration; let u ← t.iteration; .ok (u.maxDiff, u.finished)) = .ok (some 0, true) := by
  refine ⟨⟨⟨rfl, rfl, ?_, ?_⟩, rfl⟩, rfl, ?_, ?_⟩
  · intro i h _
    have : i = 0 ∨ i = 1 := by simp [DeGroot.pair] at h; omega
    rcases this with rfl | rfl <;> rfl
  · intro row hrow j hj
    simp only [DeGroot.pair, List.mem_cons, List.not_mem_nil, or_false] at hrow
    rcases hrow with rfl | rfl <;> simp at hj <;> rcases hj with rfl | rfl <;> decide
  · decide +kernel
  · decide +kernel

end Seldon
