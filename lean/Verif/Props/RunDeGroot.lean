import Verif.Props.Program
import Batteries.Lean.Except
/-!
# Property C58: whole runs of the DeGroot model
-/
set_option linter.unusedSectionVars false
namespace Seldon
open Spec Simulation Program NetworkGen
variable {F G : Type}

section
variable [Zero F] [One F] [Sub F] [Mul F] [Add F] [Div F] [Neg F] [NatCast F] [IntCast F] [LT F] [LE F] [DecidableLT F] [DecidableLE F]
variable {env : Env F G} {args : Args} {options : Config.Options F} {s : Config.DeGrootSettings F}

/-- Everything before the run. -/
theorem Accepted.deGroot_safe (he : env.Safe) (h : Accepted env args options) (hs : options.settings = .deGroot s) :
    ∃ (N : Network (SimpleAgent F) F) (g : G) (m : DeGroot F),
      nConnections env.rng options.network.nAgents options.network.nConnections true (env.seed options.rngSeed) = .ok (N, g) ∧
      m.Ready ∧ m.maxDiff = none ∧ m.tol = s.tol ∧ m.counter.maxIterations = s.maxIterations.map Network.toSize ∧
      m.network.agents.length = options.network.nAgents ∧
      (∀ i, i < options.network.nAgents → opinionOf m.network.agents i = (i : F) / (options.network.nAgents : F)) ∧
      m.network.neighbours = N.neighbours ∧ m.network.weights = N.weights ∧ m.network.direction = .incoming ∧
      ∀ fuel, main env args fuel = (Simulation.run DeGroot.machine (render env .simple) options.output fuel m).map (·.2) := by
  obtain ⟨N, g, hN, hwf, hag, hin⟩ := nConnections_total (A := SimpleAgent F) he.rng options.network.nAgents options.network.nConnections true
    (env.seed options.rngSeed)
  have hlen : N.agents.length = options.network.nAgents := by rw [hag]; simp
  obtain ⟨m, comps, -, h1, h2, h3, h4, h5, h6, h7, h8, h9, h10⟩ := C29_constructor hwf s.maxIterations s.tol
  refine ⟨N, g, m, hN, h2, h8, h7, by rw [h9], h6.trans hlen, by rw [← hlen]; exact h10, h3, h4, h5.trans hin, fun fuel => ?_⟩
  have hk : kindOf options = .simple := by unfold kindOf; rw [hs]
  rw [h.main_eq fuel]
  rw [hk]
  have hN' : NetworkGen.nConnections (A := Agent F .simple) env.rng options.network.nAgents options.network.nConnections true
      (env.seed options.rngSeed) = .ok (N, g) := hN
  have hc := (C56_compatible env options h.matching g).1 s hs N
  rw [h1, Res.bind_ok] at hc
  rw [hN', Res.bind_ok]
  dsimp only
  rw [hc, Res.bind_ok, (embeds_deGroot env).run]
  cases Simulation.run DeGroot.machine (render env .simple) options.output fuel m <;> rfl

/-- C58: without iteration limit the program may run for ever, but it never fails. -/
theorem C58_safe (he : env.Safe) (h : Accepted env args options) (hout : SaneOutput options) (hs : options.settings = .deGroot s) (fuel : Nat) :
    (∃ tr, main env args fuel = .ok tr) ∨ main env args fuel = .error .fuel := by
  obtain ⟨N, g, m, -, hr, -, -, -, -, -, -, -, -, hmain⟩ := h.deGroot_safe he hs
  rw [hmain]
  rcases run_safe (M := DeGroot.machine) DeGroot.Ready (fun s hs => hs.reset)
    (fun s hs => by obtain ⟨t, ht, hr, -⟩ := C29_iteration hs; exact ⟨t, ht, hr⟩) (fun s hs => hs.wf) (render env .simple) hout.agents hout.network fuel hr
    with ⟨t, ht⟩ | ht
  · exact .inl ⟨t.2, by rw [ht]; rfl⟩
  · exact .inr (by rw [ht]; rfl)

end

variable [Field F] [LinearOrder F] [IsStrictOrderedRing F]
variable {env : Env F G} {args : Args} {options : Config.Options F} {s : Config.DeGrootSettings F}

/-- A generated network is row-stochastic unless all draws of some row were zero. -/
theorem rowStochastic_of_rows {A : Type} {N : Network A F} (hwf : WF N)
    (h : ∀ i, i < N.agents.length → ∃ ws, N.getWeights i = .ok ws ∧ RandomNormalised ws)
    (hne : ∀ i, i < N.agents.length → ∃ e ∈ row N i, e.2 ≠ 0) : RowStochastic N := by
  have key : ∀ i, i < N.agents.length → (row N i).map (·.2) = N.weights.getD i [] ∧ RandomNormalised (N.weights.getD i []) := by
    intro i hi
    obtain ⟨ws, h1, h2⟩ := h i hi
    have hw : i < N.weights.length := by rw [hwf.wrows]; exact hi
    have hn : i < N.neighbours.length := by rw [hwf.rows]; exact hi
    have e : N.weights.getD i [] = ws := by
      unfold Network.getWeights at h1
      rw [rd_lt hw] at h1
      rw [getD_lt _ _ hw]
      exact Except.ok.inj h1
    refine ⟨?_, by rw [e]; exact h2⟩
    unfold row
    have hl := hwf.lengths i hn hw
    rw [getD_lt _ _ hw, getD_lt _ _ hn]
    exact List.map_snd_zip (by omega)
  have good : ∀ i, i < N.agents.length → (N.weights.getD i []).sum = 1 ∧ ∀ w ∈ N.weights.getD i [], 0 ≤ w := by
    intro i hi
    obtain ⟨h1, ⟨d, hd, hlen, hws, hgood⟩⟩ := key i hi
    obtain ⟨e, he, hne⟩ := hne i hi
    have hmem : e.2 ∈ N.weights.getD i [] := by rw [← h1]; exact List.mem_map_of_mem he
    rw [hws] at hmem
    obtain ⟨u, hu, hue⟩ := List.mem_map.mp hmem
    have hu0 : u ≠ 0 := by rintro rfl; rw [zero_div] at hue; exact hne hue.symm
    obtain ⟨g1, g2⟩ := hgood ⟨u, hu, hu0⟩
    exact ⟨g1, fun w hw => (g2 w hw).1⟩
  refine ⟨fun i hi e he => ?_, fun i hi => ?_⟩
  · exact (good i hi).2 _ (by rw [← (key i hi).1]; exact List.mem_map_of_mem he)
  · rw [(key i hi).1]; exact (good i hi).1

/-- Everything before the run. -/
theorem Accepted.deGroot (he : env.Lawful) (h : Accepted env args options) (hs : options.settings = .deGroot s) :
    ∃ m : DeGroot F, m.Ready ∧ m.maxDiff = none ∧ m.tol = s.tol ∧ m.counter.maxIterations = s.maxIterations.map Network.toSize ∧
      m.network.agents.length = options.network.nAgents ∧
      (∀ i, i < options.network.nAgents → opinionOf m.network.agents i = (i : F) / (options.network.nAgents : F)) ∧
      ((∀ i, i < options.network.nAgents → ∃ e ∈ row m.network i, e.2 ≠ 0) → RowStochastic m.network) ∧
      ∀ fuel, main env args fuel = (Simulation.run DeGroot.machine (render env .simple) options.output fuel m).map (·.2) := by
  obtain ⟨N, g, m, hN, h2, h8, h7, h9, h6, h10, h3, h4, -, h11⟩ := h.deGroot_safe he.safe hs
  obtain ⟨N', g', hN', hwf, hag, -, hrows⟩ := nConnections_spec (A := SimpleAgent F) he.rng options.network.nAgents options.network.nConnections true
    (env.seed options.rngSeed)
  rw [hN] at hN'
  obtain ⟨rfl, rfl⟩ := Prod.mk.inj (Except.ok.inj hN')
  refine ⟨m, h2, h8, h7, h9, h6, h10, fun hne => ?_, h11⟩
  refine rowStochastic_of_rows h2.wf ?_ (by rw [h6]; exact hne)
  intro i hi
  rw [h6] at hi
  obtain ⟨ys, ws, -, -, -, g1, g2⟩ := hrows i hi
  exact ⟨ws, by unfold Network.getWeights at g1 ⊢; rw [h4]; exact g1, g2⟩

/-- C58: with an accepted configuration with `max_iterations = M` and non-zero output intervals the whole program completes for every random outcome
after some number `K ≤ M` of iterations; the files it writes are those wanted (C52) for networks `N 0, ..., N K` with `n` agents and the same edges
and weights; the opinions start as `i/n` and each iteration replaces them by the weighted sums; the run stops at the first `k` with `k = M` or
with all changes below the tolerance; unless all weights of some row are zero, all opinions stay in `[0, 1)`. -/
theorem C58_run (he : env.Lawful) (h : Accepted env args options) (hout : SaneOutput options) (hs : options.settings = .deGroot s) {M : Nat}
    (hM : s.maxIterations = some (M : Int)) (hM' : M < 2 ^ 31) {fuel : Nat} (hf : M ≤ fuel) :
    ∃ (K : Nat) (N : Nat → Network (SimpleAgent F) F) (tr : List FileWrite), K ≤ M ∧ main env args fuel = .ok tr ∧
      List.Forall₂ (Fulfils (render env .simple)) tr (wanted options.output N K) ∧
      (∀ i, i < options.network.nAgents → opinionOf (N 0).agents i = (i : F) / (options.network.nAgents : F)) ∧
      (∀ k, k ≤ K → (N k).agents.length = options.network.nAgents ∧ (N k).neighbours = (N 0).neighbours ∧ (N k).weights = (N 0).weights) ∧
      (∀ k, k < K → ∀ i, i < options.network.nAgents → opinionOf (N (k + 1)).agents i = weightedSum (N 0) (opinionOf (N k).agents) i) ∧
      (DeGrootStops (some M) s.tol options.network.nAgents (fun k => opinionOf (N k).agents) K ∧
        ∀ k, k < K → ¬ DeGrootStops (some M) s.tol options.network.nAgents (fun k => opinionOf (N k).agents) k) ∧
      ((∀ i, i < options.network.nAgents → ∃ e ∈ row (N 0) i, e.2 ≠ 0) →
        ∀ k, k ≤ K → ∀ i, i < options.network.nAgents → 0 ≤ opinionOf (N k).agents i ∧ opinionOf (N k).agents i < 1) := by
  obtain ⟨m, hr, hfresh, htol, hmax, hlen, hop, hst, hmain⟩ := h.deGroot he hs
  have hmax' : m.counter.maxIterations = some M := by rw [hmax, hM, Option.map_some, toSize_nat hM']
  obtain ⟨K, st, hrun, hK, hready⟩ := C31_limit hr (.of_fresh hfresh) hmax'
  obtain ⟨tr, htr⟩ := C52_total (M := DeGroot.machine) (R := render env .simple) hout.agents hout.network (s := m) hr.wf hrun
    (fun k _ => (hready k).wf) (le_trans hK hf)
  obtain ⟨K', st', hrun', hK', hst', hfiles⟩ := C52_files (M := DeGroot.machine) DeGroot.counts (fun _ => rfl) htr
  have hsame : ∀ k, k ≤ K' → (st' k).Ready ∧ (st' k).network.neighbours = m.network.neighbours ∧ (st' k).network.weights = m.network.weights ∧
      (st' k).network.agents.length = m.network.agents.length :=
    fun k hk => DeGroot.iterates_ready (s := DeGroot.reset m) (IsRun.iterates hrun' k hk) hr.reset
  have h0 : (st' 0).network = m.network := by rw [hrun'.start]; rfl
  have hstop := C31_stop hr (.of_fresh hfresh) hrun'
  rw [hmax', htol, hlen] at hstop
  have hKM : K' ≤ M := by
    by_contra hc
    exact hstop.2 M (by omega) (Or.inl ⟨M, rfl, le_refl _⟩)
  refine ⟨K', fun k => (st' k).network, tr, hKM, by rw [hmain, htr]; rfl, hfiles, ?_, ?_, ?_, hstop, ?_⟩
  · intro i hi; simp only [h0]; exact hop i hi
  · intro k hk
    obtain ⟨-, g2, g3, g4⟩ := hsame k hk
    simp only [h0]
    exact ⟨g4.trans hlen, g2, g3⟩
  · intro k hk i hi
    obtain ⟨g1, g2, g3, g4⟩ := hsame k (by omega)
    simp only [h0]
    rw [C29_exact g1 (hrun'.step k hk) i (by omega)]
    unfold weightedSum
    rw [row_congr g2 g3]
  · intro hne k hk i hi
    simp only [h0] at hne
    have hpos : (0 : F) < options.network.nAgents := by
      have : 0 < options.network.nAgents := by omega
      exact_mod_cast this
    have := C30_hull hr.reset (hst hne) (IsRun.iterates hrun' k hk) (lo := 0)
      (hi := ((options.network.nAgents - 1 : Nat) : F) / options.network.nAgents) (by
        intro j hj
        have hj' : j < options.network.nAgents := by rw [← hlen]; exact hj
        have e : opinionOf (DeGroot.reset m).network.agents j = (j : F) / (options.network.nAgents : F) := hop j hj'
        rw [e]
        refine ⟨div_nonneg (Nat.cast_nonneg _) hpos.le, div_le_div_of_nonneg_right ?_ hpos.le⟩
        exact_mod_cast (by omega : j ≤ options.network.nAgents - 1)) i (by show i < m.network.agents.length; rw [hlen]; exact hi)
    refine ⟨this.1, lt_of_le_of_lt this.2 ?_⟩
    rw [div_lt_one hpos]
    exact_mod_cast (by omega : options.network.nAgents - 1 < options.network.nAgents)

/-! ## a concrete case -/

/-- Four agents with two connections each, at most three iterations. -/
def Config.deGrootDoc : Config.Doc ℚ := fun s k =>
  if s = "simulation" ∧ k = "model" then some (.str "DeGroot")
  else if s = "network" ∧ k = "number_of_agents" then some (.int 4)
  else if s = "network" ∧ k = "connections_per_agent" then some (.int 2)
  else if s = "model" ∧ k = "max_iterations" then some (.int 3)
  else if s = "io" ∧ k = "n_output_agents" then some (.int 1)
  else if s = "DeGroot" ∧ k = "convergence" then some (.float 1)
  else none

/-- What is read from this file. -/
def Config.deGrootOptions : Config.Options ℚ where
  model := .deGroot
  modelString := "DeGroot"
  rngSeed := 7
  output := { nOutputNetwork := none, nOutputAgents := some 1, printProgress := false, outputInitial := true, startOutput := 1, startNumberingFrom := 0 }
  settings := .deGroot ⟨some 3, 1⟩
  network := ⟨none, 4, 2⟩

theorem deGrootDoc_accepted : Accepted (Env.sample Config.deGrootDoc) ⟨"conf.toml", none, none, none⟩ Config.deGrootOptions :=
  ⟨⟨_, rfl, by with_unfolding_all rfl⟩, by decide +kernel, rfl, rfl, by decide⟩

-- the hypotheses of C58_run are met
example : ∃ tr, main (Env.sample Config.deGrootDoc) ⟨"conf.toml", none, none, none⟩ 3 = .ok tr := by
  obtain ⟨_, _, tr, -, h, -⟩ := C58_run (Env.sample_lawful _) deGrootDoc_accepted ⟨by decide, by decide⟩ rfl (M := 3) rfl (by decide) (fuel := 3)
    (le_refl 3)
  exact ⟨tr, h⟩

-- in this case no row of weights is all zero
example : (NetworkGen.nConnections (A := SimpleAgent ℚ) counterRng 4 2 true 7).map (fun t => t.1.weights.map (fun ws => decide (0 ∈ ws))) =
    .ok [false, false, false, false] := by decide +kernel

end Seldon
