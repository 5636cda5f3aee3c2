import Verif.Props.DeGrootSlow
import Verif.Props.NetworkLaw
import Verif.Props.VectorLimit
import Mathlib.Algebra.Order.Ring.Pow
/-!
# C98: the DeGroot program ends with probability one, and when
-/
set_option linter.unusedSectionVars false
namespace Seldon
open Spec Filter Topology Simulation Program NetworkGen MeasureTheory
open scoped ENNReal
variable {G : Type} [MeasurableSpace G] {μ : Measure G}

/-- Shares of a sum in which the last one is more than `ε`. -/
def heavyLast (k : ℕ) (ε : ℝ) : Set (Fin (k + 1) → ℝ) := {w | ((∀ j, 0 ≤ w j) ∧ ∑ j, w j = 1) ∧ ε < w (Fin.last k)}

theorem heavyLast_measurable (k : ℕ) (ε : ℝ) : MeasurableSet (heavyLast k ε) := by
  refine MeasurableSet.inter (MeasurableSet.inter ?_ ?_) ?_
  · have : {w : Fin (k + 1) → ℝ | ∀ j, 0 ≤ w j} = ⋂ j, {w | 0 ≤ w j} := by ext w; simp
    show MeasurableSet {w : Fin (k + 1) → ℝ | ∀ j, 0 ≤ w j}
    rw [this]
    exact MeasurableSet.iInter fun j => measurableSet_le measurable_const (measurable_pi_apply j)
  · exact measurableSet_eq_fun (by fun_prop) measurable_const
  · exact measurableSet_lt measurable_const (measurable_pi_apply _)

theorem uniform_tail {t : ℝ} (ht : 0 ≤ t) : uniform (Set.Ioo t 1) = ENNReal.ofReal (1 - t) := by
  unfold uniform
  rw [Measure.restrict_apply measurableSet_Ioo, Set.inter_eq_self_of_subset_left (Set.Ioo_subset_Ioo_left ht), Real.volume_Ioo]

/-- One of `k + 1` random shares is at most `ε` with probability at most `(k + 1) ε`. -/
theorem heavyLast_law (k : ℕ) {ε : ℝ} (h0 : 0 ≤ ε) : 1 - ENNReal.ofReal ((k + 1) * ε) ≤ sharesLaw (k + 1) (heavyLast k ε) := by
  rw [sharesLaw, Measure.map_apply inShares_measurable (heavyLast_measurable k ε)]
  rcases le_or_gt 1 ((k + 1) * ε) with h1 | h1
  · have : (1 : ℝ≥0∞) ≤ ENNReal.ofReal ((k + 1) * ε) := by rw [← ENNReal.ofReal_one]; exact ENNReal.ofReal_le_ofReal h1
    rw [tsub_eq_zero_of_le this]
    exact bot_le
  have hpos : ∀ᵐ u ∂(Measure.pi fun _ : Fin (k + 1) => uniform), ∀ j, u j ∈ Set.Ioo (0 : ℝ) 1 := by
    rw [ae_all_iff]
    intro j
    exact (measurePreserving_eval (fun _ : Fin (k + 1) => uniform) j).quasiMeasurePreserving.ae uniform_mem
  have hlast : (Measure.pi fun _ : Fin (k + 1) => uniform) {u | u (Fin.last k) ∈ Set.Ioo ((k + 1) * ε) 1} = ENNReal.ofReal (1 - (k + 1) * ε) := by
    have := (measurePreserving_eval (fun _ : Fin (k + 1) => uniform) (Fin.last k)).measure_preimage (s := Set.Ioo ((k + 1) * ε) 1) measurableSet_Ioo.nullMeasurableSet
    rw [uniform_tail (by positivity)] at this
    exact this
  rw [← ENNReal.ofReal_one, ← ENNReal.ofReal_sub _ (by positivity), ← hlast]
  refine measure_mono_ae ?_
  filter_upwards [hpos] with u hu hl
  have hs : 0 < ∑ j, u j := Finset.sum_pos (fun j _ => (hu j).1) ⟨Fin.last k, Finset.mem_univ _⟩
  have hs2 : ∑ j, u j ≤ k + 1 := by
    calc ∑ j, u j ≤ ∑ _j : Fin (k + 1), (1 : ℝ) := Finset.sum_le_sum fun j _ => (hu j).2.le
      _ = k + 1 := by simp
  refine ⟨⟨fun j => div_nonneg (hu j).1.le hs.le, ?_⟩, ?_⟩
  · simp only [inShares]
    rw [← Finset.sum_div, div_self hs.ne']
  · show ε < u (Fin.last k) / ∑ j, u j
    rw [lt_div_iff₀ hs]
    have h2 : (k + 1) * ε < u (Fin.last k) := hl.1
    nlinarith

/-- The generated network gives every agent a weight of more than `ε` on itself, with probability at least `1 - n (k + 1) ε`. -/
theorem selfWeights_law [IsProbabilityMeasure μ] {A : Type} [Inhabited A] {r : Rng G ℝ} (hr : r.IntLawful) (hi : FairIntegers r μ) (hu : Draws r.unit uniform μ) {n k : ℕ}
    (hk : k < n) {ε : ℝ} (h0 : 0 ≤ ε) :
    μ {g | ¬ ∃ (N : Network A ℝ) (g' : G), nConnections r n k true g = .ok (N, g') ∧ ∀ i, i < n → ∃ (nbrs : List ℕ) (ws : Fin (k + 1) → ℝ),
        N.getNeighbours i = .ok (nbrs ++ [i]) ∧ N.getWeights i = .ok (List.ofFn ws) ∧ ws ∈ heavyLast k ε} ≤ ENNReal.ofReal (n * ((k + 1) * ε)) := by
  obtain ⟨hm, hlaw⟩ := C95_network (A := A) hr hi hu hk true (fun _ => Set.univ) (S := fun _ => heavyLast k ε) (fun _ => heavyLast_measurable k ε) (T := Set.univ)
    MeasurableSet.univ
  have hone : ∀ i ∈ Finset.range n, setShare n k i Set.univ = 1 := by
    intro i hi'
    have hi' := Finset.mem_range.mp hi'
    unfold setShare
    simp only [Set.mem_univ, Finset.filter_true]
    refine ENNReal.div_self ?_ (ENNReal.natCast_ne_top _)
    rw [Finset.card_powersetCard, Finset.card_erase_of_mem (Finset.mem_range.mpr hi'), Finset.card_range]
    exact_mod_cast (Nat.choose_pos (by omega)).ne'
  rw [measure_univ, mul_one, Finset.prod_congr rfl (fun i hi' => by rw [hone i hi', one_mul]), Finset.prod_const, Finset.card_range] at hlaw
  simp only [Set.mem_univ, true_and, if_true] at hlaw hm
  have hset : {g | ¬ ∃ (N : Network A ℝ) (g' : G), nConnections r n k true g = .ok (N, g') ∧ ∀ i, i < n → ∃ (nbrs : List ℕ) (ws : Fin (k + 1) → ℝ),
        N.getNeighbours i = .ok (nbrs ++ [i]) ∧ N.getWeights i = .ok (List.ofFn ws) ∧ ws ∈ heavyLast k ε} =
      {g | ∃ (N : Network A ℝ) (g' : G), nConnections r n k true g = .ok (N, g') ∧ ∀ i, i < n → ∃ (nbrs : List ℕ) (ws : Fin (k + 1) → ℝ),
        N.getNeighbours i = .ok (nbrs ++ [i]) ∧ N.getWeights i = .ok (List.ofFn ws) ∧ ws ∈ heavyLast k ε}ᶜ := rfl
  rw [hset]
  refine le_trans (le_of_eq (prob_compl_eq_one_sub hm)) ?_
  refine (tsub_le_tsub_left hlaw.ge 1).trans ?_
  rcases le_or_gt 1 ((k + 1) * ε) with h1 | h1
  · refine tsub_le_self.trans ?_
    rw [← ENNReal.ofReal_one]
    refine ENNReal.ofReal_le_ofReal ?_
    have : (1 : ℝ) ≤ n := by exact_mod_cast (by omega : 1 ≤ n)
    nlinarith
  have hp := heavyLast_law k h0
  have hq : (1 - ENNReal.ofReal ((k + 1) * ε)) = ENNReal.ofReal (1 - (k + 1) * ε) := by
    rw [← ENNReal.ofReal_one, ← ENNReal.ofReal_sub _ (by positivity)]
  rw [hq] at hp
  have hpow : ENNReal.ofReal (1 - n * ((k + 1) * ε)) ≤ sharesLaw (k + 1) (heavyLast k ε) ^ n := by
    refine le_trans ?_ (pow_le_pow_left' hp n)
    rw [← ENNReal.ofReal_pow (by linarith)]
    refine ENNReal.ofReal_le_ofReal ?_
    have := one_add_mul_le_pow (a := -((k + 1) * ε)) (by linarith) n
    have e : (1 : ℝ) + -((k + 1) * ε) = 1 - (k + 1) * ε := by ring
    rw [e] at this
    linarith
  refine (tsub_le_tsub_left hpow 1).trans ?_
  rw [tsub_le_iff_right]
  rw [← ENNReal.ofReal_one]
  refine le_trans (ENNReal.ofReal_le_ofReal ?_) ENNReal.ofReal_add_le
  linarith

/-- A DeGroot program whose generated network gives every agent a weight of more than `1 / (1 + 4 (m + 1) tol²)` on itself ends within `m + 1` iterations. -/
theorem heavy_ends {env : Env ℝ G} {args : Args} {options : Config.Options ℝ} {s : Config.DeGrootSettings ℝ} (he : env.Safe)
    (h : Accepted env args options) (hout : SaneOutput options) (hs : options.settings = .deGroot s) (htol : 0 < s.tol) {m : ℕ} {N : Network (SimpleAgent ℝ) ℝ} {g : G}
    (hN : nConnections env.rng options.network.nAgents options.network.nConnections true (env.seed options.rngSeed) = .ok (N, g))
    (hself : ∀ i, i < options.network.nAgents → ∃ (nbrs : List ℕ) (ws : Fin (options.network.nConnections + 1) → ℝ),
      N.getNeighbours i = .ok (nbrs ++ [i]) ∧ N.getWeights i = .ok (List.ofFn ws) ∧ ws ∈ heavyLast _ (1 / (1 + 4 * (m + 1 : ℕ) * s.tol ^ 2))) :
    ∃ tr, main env args (m + 1) = .ok tr := by
  obtain ⟨N', g', M, hN', h2, h8, h7, -, h6, hop, h3, h4, -, hmain⟩ := h.deGroot_safe he hs
  rw [hN] at hN'
  obtain ⟨rfl, rfl⟩ := Prod.mk.inj (Except.ok.inj hN')
  set ε := 1 / (1 + 4 * (m + 1 : ℕ) * s.tol ^ 2) with hε
  have hD : (0 : ℝ) < 1 + 4 * (m + 1 : ℕ) * s.tol ^ 2 := by positivity
  have hε0 : 0 < ε := by positivity
  have hrow : ∀ i, row M.network i = row N i := row_congr h3 h4
  have key : ∀ i, i < options.network.nAgents → ((∀ e ∈ row M.network i, 0 ≤ e.2) ∧ ((row M.network i).map (·.2)).sum = 1) ∧ ε < weightOn M.network i i := by
    intro i hi
    obtain ⟨nbrs, ws, g1, g2, ⟨g3, g4⟩, g5⟩ := hself i hi
    have hiA : i < M.network.agents.length := by rw [h6]; exact hi
    have hiN : i < N.neighbours.length := by rw [← h3, h2.wf.rows]; exact hiA
    have hiW : i < N.weights.length := by rw [← h4, h2.wf.wrows]; exact hiA
    have e1 : N.neighbours.getD i [] = nbrs ++ [i] := by
      unfold Network.getNeighbours at g1
      rw [rd_lt hiN] at g1
      rw [getD_lt _ _ hiN]
      exact Except.ok.inj g1
    have e2 : N.weights.getD i [] = List.ofFn ws := by
      unfold Network.getWeights at g2
      rw [rd_lt hiW] at g2
      rw [getD_lt _ _ hiW]
      exact Except.ok.inj g2
    have hsnd := NetLemmas.row_snd h2.wf hiA
    rw [h4, e2] at hsnd
    have hlen : (nbrs ++ [i]).length = (List.ofFn ws).length := by
      have := NetLemmas.WF.row_len h2.wf hiA
      rw [h3, h4, e1, e2] at this
      exact this.symm
    have hnl : nbrs.length = options.network.nConnections := by simpa using hlen
    have hnn : ∀ e ∈ row M.network i, 0 ≤ e.2 := by
      intro e he'
      have : e.2 ∈ List.ofFn ws := by rw [← hsnd]; exact List.mem_map.mpr ⟨e, he', rfl⟩
      obtain ⟨j, hj⟩ := (List.mem_ofFn' ws e.2).mp this
      rw [← hj]
      exact g3 j
    refine ⟨⟨hnn, ?_⟩, ?_⟩
    · rw [hsnd, List.sum_ofFn, g4]
    · have hmem : (i, ws (Fin.last _)) ∈ row M.network i := by
        rw [hrow]
        unfold row
        rw [e1, e2, List.ofFn_succ', List.concat_eq_append, List.zip_append (by simpa using hnl)]
        simp
      refine g5.trans_le ?_
      unfold weightOn
      have hm : ws (Fin.last _) ∈ (((row M.network i).filter fun e => e.1 = i).map (·.2)) :=
        List.mem_map.mpr ⟨(i, ws (Fin.last _)), List.mem_filter.mpr ⟨hmem, by simp⟩, rfl⟩
      refine List.single_le_sum (fun v hv => ?_) _ hm
      obtain ⟨e, he', rfl⟩ := List.mem_map.mp hv
      exact hnn e (List.mem_filter.mp he').1
  have hst : RowStochastic M.network := ⟨fun i hi => (key i (by rw [← h6]; exact hi)).1.1, fun i hi => (key i (by rw [← h6]; exact hi)).1.2⟩
  obtain ⟨δ, hδ0, hδ1, hδ⟩ := exists_bound (fun i => weightOn M.network i i - ε) options.network.nAgents fun i hi => sub_pos.mpr (key i hi).2
  have hε1 : ε < 1 := by
    rw [hε, div_lt_one hD]
    have : (0 : ℝ) < 4 * (m + 1 : ℕ) * s.tol ^ 2 := by positivity
    linarith
  have hkey : 1 - ε = ε * (4 * (m + 1 : ℕ) * s.tol ^ 2) := by
    rw [hε]
    field_simp
    ring
  set δ' := min (ε + δ) ((1 + ε) / 2) with hδ'
  have hb1 : ε < δ' := lt_min (by linarith) (by linarith)
  have hb2 : δ' < 1 := (min_le_right _ _).trans_lt (by linarith)
  obtain ⟨K, st, hrun, hK, hready⟩ := C93_iterations (s := M) h2 (.of_fresh h8) hst (by rw [h7]; exact htol) (hε0.trans hb1) hb2 (by
      intro i hi
      have := hδ i (by rw [← h6]; exact hi)
      have h9 := min_le_left (ε + δ) ((1 + ε) / 2)
      rw [← hδ'] at h9
      linarith) (lo := 0) (hi := 1) (by
      intro i hi
      rw [h6] at hi
      rw [hop i hi]
      have hpos : (0 : ℝ) < options.network.nAgents := by exact_mod_cast (by omega : 0 < options.network.nAgents)
      have hi' : (i : ℝ) ≤ options.network.nAgents := by exact_mod_cast hi.le
      exact ⟨by positivity, (div_le_one hpos).mpr hi'⟩) (m := m) (by
      rw [h7]
      have : (0 : ℝ) < 4 * (m + 1 : ℕ) * s.tol ^ 2 := by positivity
      nlinarith)
  obtain ⟨tr, htr⟩ := C52_total (M := DeGroot.machine) (R := render env .simple) hout.agents hout.network (s := M) h2.wf hrun (fun k _ => (hready k).wf) hK
  exact ⟨tr, by rw [hmain, htr]; rfl⟩

/-- C98 (when): the probability that a DeGroot program with `n` agents, `k` connections per agent and tolerance `tol` needs more than `m + 1` iterations is at most
`n (k + 1) / (1 + 4 (m + 1) tol²)`. -/
theorem C98_tail [IsProbabilityMeasure μ] {env : Env ℝ G} {args : Args} {options : Config.Options ℝ} {s : Config.DeGrootSettings ℝ} (he : env.Safe)
    (hi : FairIntegers env.rng μ) (hu : Draws env.rng.unit uniform μ) (h : Accepted env args options) (hout : SaneOutput options) (hs : options.settings = .deGroot s)
    (htol : 0 < s.tol) (hk : options.network.nConnections < options.network.nAgents) (m : ℕ) :
    μ {g | ¬ ∃ tr, main { env with seed := fun _ => g } args (m + 1) = .ok tr} ≤
      ENNReal.ofReal (options.network.nAgents * (options.network.nConnections + 1) / (1 + 4 * (m + 1) * s.tol ^ 2)) := by
  have := selfWeights_law (A := SimpleAgent ℝ) he.rng hi hu hk (ε := 1 / (1 + 4 * (m + 1 : ℕ) * s.tol ^ 2)) (by positivity)
  have e : (options.network.nAgents * (options.network.nConnections + 1) / (1 + 4 * (m + 1) * s.tol ^ 2) : ℝ) =
      options.network.nAgents * ((options.network.nConnections + 1) * (1 / (1 + 4 * (m + 1 : ℕ) * s.tol ^ 2))) := by
    push_cast
    ring
  rw [e]
  refine le_trans (measure_mono ?_) this
  intro g hg hc
  obtain ⟨N, g', hN, hw⟩ := hc
  exact hg (heavy_ends (env := { env with seed := fun _ => g }) ⟨he.rng, he.pick, he.isqrt⟩ ⟨h.config, h.valid, h.noNetworkFile, h.noAgentsFile, h.size⟩ hout hs htol
    hN hw)

/-- C98 (whether): with probability one the program ends. -/
theorem C98_ends [IsProbabilityMeasure μ] {env : Env ℝ G} {args : Args} {options : Config.Options ℝ} {s : Config.DeGrootSettings ℝ} (he : env.Safe)
    (hi : FairIntegers env.rng μ) (hu : Draws env.rng.unit uniform μ) (h : Accepted env args options) (hout : SaneOutput options) (hs : options.settings = .deGroot s)
    (htol : 0 < s.tol) (hk : options.network.nConnections < options.network.nAgents) :
    ∀ᵐ g ∂μ, ∃ fuel tr, main { env with seed := fun _ => g } args fuel = .ok tr := by
  rw [ae_iff]
  refine le_antisymm (ge_of_tendsto' (x := atTop) (f := fun m : ℕ => ENNReal.ofReal (options.network.nAgents * (options.network.nConnections + 1) / (1 + 4 * (m + 1) * s.tol ^ 2)))
    ?_ fun m => ?_) bot_le
  · rw [← ENNReal.ofReal_zero]
    refine ENNReal.tendsto_ofReal (Tendsto.div_atTop tendsto_const_nhds ?_)
    refine tendsto_atTop_add_const_left _ _ ?_
    refine Tendsto.atTop_mul_const (by positivity) ?_
    refine Tendsto.const_mul_atTop (by norm_num) ?_
    exact tendsto_atTop_add_const_right _ _ tendsto_natCast_atTop_atTop
  · refine le_trans (measure_mono ?_) (C98_tail he hi hu h hout hs htol hk m)
    intro g hg hc
    obtain ⟨tr, htr⟩ := hc
    exact hg ⟨_, tr, htr⟩

/-! ## a concrete case -/

/-- Four agents with two connections each, no iteration limit. -/
noncomputable def Config.endlessDoc : Config.Doc ℝ := fun s k =>
  if s = "simulation" ∧ k = "model" then some (.str "DeGroot")
  else if s = "network" ∧ k = "number_of_agents" then some (.int 4)
  else if s = "network" ∧ k = "connections_per_agent" then some (.int 2)
  else if s = "io" ∧ k = "n_output_agents" then some (.int 1)
  else if s = "DeGroot" ∧ k = "convergence" then some (.float 1)
  else none

/-- What is read from this file. -/
noncomputable def Config.endlessOptions : Config.Options ℝ where
  model := .deGroot
  modelString := "DeGroot"
  rngSeed := 7
  output := { nOutputNetwork := none, nOutputAgents := some 1, printProgress := false, outputInitial := true, startOutput := 1, startNumberingFrom := 0 }
  settings := .deGroot ⟨none, 1⟩
  network := ⟨none, 4, 2⟩

/-- Conversions that only accept nodes of the right type. -/
noncomputable def Config.strictReal : Config.Convert ℝ where
  double | .float x => some x | .int k => some k | _ => none
  int | .int k => if -2 ^ 31 ≤ k ∧ k < 2 ^ 31 then some k else none | _ => none
  size | .int k => if 0 ≤ k ∧ k < 2 ^ 63 then some k.toNat else none | _ => none
  bool | .bool b => some b | _ => none
  str | .str s => some s | _ => none
  ofInt k := k
  trunc x := some ⌊x⌋

/-- Independent uniform numbers from a tape. -/
noncomputable def Env.fair (doc : Config.Doc ℝ) : Env ℝ (ℕ → ℝ) where
  rng := fairRng
  seed _ := 0
  fresh := 7
  math := realOps
  pick _ := 0
  isqrt := Nat.sqrt
  text := ⟨fun _ => ['0'], fun _ => .ok 0⟩
  files f := if f = "conf.toml" then some [] else none
  toml _ := some doc
  convert := Config.strictReal

theorem Env.fair_safe (doc : Config.Doc ℝ) : (Env.fair doc).Safe := ⟨fairRng_lawful, ⟨fun _ hl => List.length_pos_iff.mpr hl⟩, fun L _ => Nat.sqrt_eq L⟩

theorem endlessDoc_accepted : Accepted (Env.fair Config.endlessDoc) ⟨"conf.toml", none, none, none⟩ Config.endlessOptions :=
  ⟨⟨_, rfl, by with_unfolding_all rfl⟩, (C53_validate Config.endlessOptions trivial).1.mpr ⟨by decide, by norm_num [ValidModel, Config.endlessOptions]⟩, rfl, rfl, by decide⟩

-- the hypotheses of C98 are met
example (m : ℕ) : tapes {g | ¬ ∃ tr, main { Env.fair Config.endlessDoc with seed := fun _ => g } ⟨"conf.toml", none, none, none⟩ (m + 1) = .ok tr} ≤
    ENNReal.ofReal (12 / (1 + 4 * (m + 1))) := by
  have := C98_tail (Env.fair_safe _) fairRng_fair fairRng_unit endlessDoc_accepted ⟨by decide, by decide⟩ rfl (by norm_num) (by decide) m
  refine this.trans (le_of_eq ?_)
  norm_num [Config.endlessOptions]

end Seldon
