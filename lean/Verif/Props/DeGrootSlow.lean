import Verif.Props.DeGrootRate
import Verif.Props.RunDeGroot
import Verif.Lemmas.Lazy
import Mathlib.Topology.Sequences
import Mathlib.Topology.MetricSpace.ProperSpace
import Mathlib.Topology.MetricSpace.Bounded
/-!
# C93: a DeGroot model in which everybody listens to itself always comes to rest
-/
set_option linter.unusedSectionVars false
namespace Seldon
open Spec Filter Topology Simulation Program NetworkGen
variable {F G : Type}

section
variable [Field F] [LinearOrder F] [IsStrictOrderedRing F]

/-- C93 (speed): if every agent gives itself a weight of at least `δ`, the change of any opinion in iteration `k + 1` is at most
`(hi - lo) / 2 · √((1 - δ) / (δ (k + 1)))`, on every network, connected or not, of every size. -/
theorem C93_step {st : Nat → DeGroot F} (T : DeGroot.Trajectory st) (hw : RowStochastic (st 0).network) {δ : F} (h0 : 0 < δ) (h1 : δ < 1)
    (hself : ∀ i, i < (st 0).network.agents.length → δ ≤ weightOn (st 0).network i i)
    {lo hi : F} (hx : ∀ i, i < (st 0).network.agents.length → lo ≤ opinionOf (st 0).network.agents i ∧ opinionOf (st 0).network.agents i ≤ hi) (k : Nat) :
    ∀ i, i < (st 0).network.agents.length →
      4 * δ * (k + 1 : Nat) * (opinionOf (st (k + 1)).network.agents i - opinionOf (st k).network.agents i) ^ 2 ≤ (1 - δ) * (hi - lo) ^ 2 :=
  (T.process hw).slows h0 (sub_pos.mpr h1) (by ring) hself hx k

/-- C93 (number of iterations): with a positive tolerance the run ends after at most `m + 1` iterations as soon as `(1 - δ) (hi - lo)² < 4 δ (m + 1) tol²`. -/
theorem C93_iterations {s : DeGroot F} (h : s.Ready) (hfresh : s.Unsettled) (hw : RowStochastic s.network) (htol : 0 < s.tol) {δ : F} (h0 : 0 < δ) (h1 : δ < 1)
    (hself : ∀ i, i < s.network.agents.length → δ ≤ weightOn s.network i i)
    {lo hi : F} (hx : ∀ i, i < s.network.agents.length → lo ≤ opinionOf s.network.agents i ∧ opinionOf s.network.agents i ≤ hi) {m : Nat}
    (hm : (1 - δ) * (hi - lo) ^ 2 < 4 * δ * (m + 1 : Nat) * s.tol ^ 2) :
    ∃ (K : Nat) (st : Nat → DeGroot F), IsRun DeGroot.machine s.reset K st ∧ K ≤ m + 1 ∧ ∀ k, (st k).Ready := by
  obtain ⟨st, e0, hst⟩ := DeGroot.exists_states h.reset
  have T : DeGroot.Trajectory st := ⟨(hst 0).2, fun k => (hst k).1⟩
  have hnet : (st 0).network = s.network := by rw [e0]; rfl
  have hstep := C93_step T (by rw [hnet]; exact hw) h0 h1 (by rw [hnet]; exact hself) (lo := lo) (hi := hi) (by rw [hnet]; exact hx) m
  rw [hnet] at hstep
  have hstop : DeGrootStops s.counter.maxIterations s.tol s.network.agents.length (fun k => opinionOf (st k).network.agents) (m + 1) := by
    refine Or.inr ⟨by omega, htol, fun i hi' => ?_⟩
    rw [Nat.add_sub_cancel]
    have h2 := (hstep i hi').trans_lt hm
    have hpos : (0 : F) < 4 * δ * (m + 1 : Nat) := by positivity
    have h3 := lt_of_mul_lt_mul_left h2 hpos.le
    rw [abs_lt]
    exact abs_lt_of_sq_lt_sq' h3 htol.le
  obtain ⟨K, hrun⟩ := C31_exists h hfresh e0 (fun k => (hst k).1) ⟨_, hstop⟩
  refine ⟨K, st, hrun, ?_, fun k => (hst k).2⟩
  by_contra hc
  exact (C31_stop h hfresh hrun).2 _ (by omega) hstop

/-- A lower bound, below one, for finitely many positive numbers. -/
theorem exists_bound (f : Nat → F) (n : Nat) (h : ∀ i, i < n → 0 < f i) : ∃ δ : F, 0 < δ ∧ δ < 1 ∧ ∀ i, i < n → δ ≤ f i := by
  induction n with
  | zero => exact ⟨1 / 2, by norm_num, by norm_num, fun i hi => absurd hi (Nat.not_lt_zero _)⟩
  | succ n ih =>
    obtain ⟨δ, h0, h1, h2⟩ := ih fun i hi => h i (by omega)
    refine ⟨min δ (f n), lt_min h0 (h n (Nat.lt_succ_self n)), (min_le_left _ _).trans_lt h1, fun i hi => ?_⟩
    rcases Nat.lt_succ_iff_lt_or_eq.mp hi with hi | rfl
    · exact (min_le_left _ _).trans (h2 i hi)
    · exact min_le_right _ _

theorem weightOn_pos {A : Type} {N : Network A F} {i : Nat} (hn : ∀ e ∈ row N i, 0 ≤ e.2) (h : Listens N i i) : 0 < weightOn N i i := by
  obtain ⟨w, hw, hp⟩ := h
  unfold weightOn
  have hm : w ∈ (((row N i).filter fun e => e.1 = i).map (·.2)) := List.mem_map.mpr ⟨(i, w), List.mem_filter.mpr ⟨hw, by simp⟩, rfl⟩
  refine hp.trans_le (List.single_le_sum (fun v hv => ?_) _ hm)
  obtain ⟨e, he, rfl⟩ := List.mem_map.mp hv
  exact hn e (List.mem_filter.mp he).1

/-- C93 (termination): with a positive tolerance and without iteration limit the run ends on every network, connected or not, whose agents all listen to
themselves. -/
theorem C93_terminates [Archimedean F] {s : DeGroot F} (h : s.Ready) (hfresh : s.Unsettled) (hw : RowStochastic s.network) (htol : 0 < s.tol)
    (hself : ∀ i, i < s.network.agents.length → Listens s.network i i) :
    ∃ (K : Nat) (st : Nat → DeGroot F), IsRun DeGroot.machine s.reset K st ∧ ∀ k, (st k).Ready := by
  obtain ⟨δ, h0, h1, h2⟩ := exists_bound (fun i => weightOn s.network i i) s.network.agents.length fun i hi => weightOn_pos (hw.nonneg i hi) (hself i hi)
  let B := ∑ j ∈ Finset.range s.network.agents.length, |opinionOf s.network.agents j|
  have hB : ∀ i, i < s.network.agents.length → -B ≤ opinionOf s.network.agents i ∧ opinionOf s.network.agents i ≤ B := fun i hi =>
    abs_le.mp (Finset.single_le_sum (f := fun j => |opinionOf s.network.agents j|) (fun j _ => abs_nonneg _) (Finset.mem_range.mpr hi))
  have hpos : 0 < 4 * δ * s.tol ^ 2 := by positivity
  obtain ⟨m, hm⟩ := exists_nat_gt ((1 - δ) * (B - -B) ^ 2 / (4 * δ * s.tol ^ 2))
  rw [div_lt_iff₀ hpos] at hm
  obtain ⟨K, st, e1, -, e2⟩ := C93_iterations h hfresh hw htol h0 h1 h2 hB (m := m) (by push_cast; nlinarith)
  exact ⟨K, st, e1, e2⟩

/-- C93 (from the constructor): the initial opinions `i / n` are less than 1 apart. -/
theorem C93_created {N : Network (SimpleAgent F) F} (h : WF N) (hw : RowStochastic N) {max : Option Int} {tol : F} (htol : 0 < tol) {δ : F} (h0 : 0 < δ) (h1 : δ < 1)
    (hself : ∀ i, i < N.agents.length → δ ≤ weightOn N i i) {m : Nat} (hm : (1 - δ) < 4 * δ * (m + 1 : Nat) * tol ^ 2) :
    ∃ (s : DeGroot F) (warn : Bool) (K : Nat) (st : Nat → DeGroot F), DeGroot.create max tol N = .ok (s, warn) ∧ IsRun DeGroot.machine s.reset K st ∧ K ≤ m + 1 := by
  obtain ⟨s, comps, -, e1, e2, e3, e4, -, e6, e7, e8, -, e10⟩ := C29_constructor h max tol
  have hrow : ∀ i, row s.network i = row N i := row_congr e3 e4
  obtain ⟨K, st, h11, h12, -⟩ := C93_iterations (s := s) e2 (DeGroot.Unsettled.of_fresh e8)
    ⟨fun i hi e he => hw.nonneg i (by rw [← e6]; exact hi) e (by rw [← hrow]; exact he), fun i hi => by rw [hrow]; exact hw.sum i (by rw [← e6]; exact hi)⟩
    (by rw [e7]; exact htol) h0 h1 (by intro i hi; unfold weightOn; rw [hrow]; exact hself i (by rw [← e6]; exact hi)) (lo := 0) (hi := 1) (by
      rw [e6]
      intro i hi
      rw [e10 i hi]
      have hpos : (0 : F) < N.agents.length := by exact_mod_cast (by omega : 0 < N.agents.length)
      have hi' : (i : F) ≤ N.agents.length := by exact_mod_cast hi.le
      exact ⟨by positivity, (div_le_one hpos).mpr hi'⟩) (m := m) (by rw [e7]; linarith)
  exact ⟨s, _, K, st, e1, h11, h12⟩

/-- C93 (whole program): with an accepted DeGroot configuration with positive `convergence`, no iteration limit and non-zero output intervals, the program ends
for every outcome of the generator that gives every agent a non-zero weight on itself. -/
theorem C93_program [Archimedean F] {env : Env F G} {args : Args} {options : Config.Options F} {s : Config.DeGrootSettings F} (he : env.Lawful)
    (h : Accepted env args options) (hout : SaneOutput options) (hs : options.settings = .deGroot s) (htol : 0 < s.tol) {N : Network (SimpleAgent F) F} {g : G}
    (hN : NetworkGen.nConnections env.rng options.network.nAgents options.network.nConnections true (env.seed options.rngSeed) = .ok (N, g))
    (hself : ∀ i, i < options.network.nAgents → ∃ w, (i, w) ∈ row N i ∧ w ≠ 0) : ∃ fuel tr, main env args fuel = .ok tr := by
  obtain ⟨N', g', m, hN', h2, h8, h7, -, h6, -, h3, h4, -, hmain⟩ := h.deGroot_safe he.safe hs
  rw [hN] at hN'
  obtain ⟨rfl, rfl⟩ := Prod.mk.inj (Except.ok.inj hN')
  have hrow : ∀ i, row m.network i = row N i := row_congr h3 h4
  obtain ⟨N', g', hN', hwf, hag, -, hrows⟩ := nConnections_spec (A := SimpleAgent F) he.rng options.network.nAgents options.network.nConnections true
    (env.seed options.rngSeed)
  rw [hN] at hN'
  obtain ⟨rfl, rfl⟩ := Prod.mk.inj (Except.ok.inj hN')
  have hst : RowStochastic m.network := by
    refine rowStochastic_of_rows h2.wf ?_ ?_
    · intro i hi
      rw [h6] at hi
      obtain ⟨ys, ws, -, -, -, g1, g2⟩ := hrows i hi
      exact ⟨ws, by unfold Network.getWeights at g1 ⊢; rw [h4]; exact g1, g2⟩
    · intro i hi
      rw [h6] at hi
      obtain ⟨w, hw, h0⟩ := hself i hi
      exact ⟨(i, w), by rw [hrow]; exact hw, h0⟩
  obtain ⟨K, st, hrun, hready⟩ := C93_terminates h2 (.of_fresh h8) hst (by rw [h7]; exact htol) (by
    intro i hi
    have hi' := hi
    rw [h6] at hi'
    obtain ⟨w, hw, h0⟩ := hself i hi'
    rw [← hrow] at hw
    exact ⟨w, hw, lt_of_le_of_ne (hst.nonneg i hi _ hw) (Ne.symm h0)⟩)
  obtain ⟨tr, htr⟩ := C52_total (M := DeGroot.machine) (R := render env .simple) hout.agents hout.network (s := m) h2.wf hrun
    (fun k _ => (hready k).wf) (le_refl K)
  exact ⟨K, tr, by rw [hmain, htr]; rfl⟩

end

/-- C93 (convergence): every opinion converges, whether the network is connected or not; the limits are a fixed point of the averaging, and the largest distance
from the limits never grows. -/
theorem C93_converges {st : Nat → DeGroot ℝ} (T : DeGroot.Trajectory st) (hw : RowStochastic (st 0).network)
    (hself : ∀ i, i < (st 0).network.agents.length → Listens (st 0).network i i) :
    ∃ y : Nat → ℝ, (∀ i, i < (st 0).network.agents.length → Tendsto (fun k => opinionOf (st k).network.agents i) atTop (𝓝 (y i))) ∧
      (∀ i, i < (st 0).network.agents.length → weightedSum (st 0).network y i = y i) ∧
      ∀ k l, k ≤ l → ∀ d, (∀ i, i < (st 0).network.agents.length → |opinionOf (st k).network.agents i - y i| ≤ d) →
        ∀ i, i < (st 0).network.agents.length → |opinionOf (st l).network.agents i - y i| ≤ d := by
  have P := T.process hw
  set n := (st 0).network.agents.length with hn
  obtain ⟨δ, h0, h1, h2⟩ := exists_bound (fun i => weightOn (st 0).network i i) n fun i hi => weightOn_pos (hw.nonneg i hi) (hself i hi)
  let B := ∑ j ∈ Finset.range n, |opinionOf (st 0).network.agents j|
  have hB : ∀ i, i < n → -B ≤ opinionOf (st 0).network.agents i ∧ opinionOf (st 0).network.agents i ≤ B := fun i hi =>
    abs_le.mp (Finset.single_le_sum (f := fun j => |opinionOf (st 0).network.agents j|) (fun j _ => abs_nonneg _) (Finset.mem_range.mpr hi))
  -- a convergent subsequence
  let u : Nat → (Fin n → ℝ) := fun k i => opinionOf (st k).network.agents i
  have hbd : ∀ k, u k ∈ Set.Icc (fun _ : Fin n => -B) (fun _ => B) := by
    intro k
    constructor <;> intro i
    · have := P.lower (t0 := 0) (fun j hj => (hB j hj).1) k i i.2
      rwa [Nat.zero_add] at this
    · have := P.upper (t0 := 0) (fun j hj => (hB j hj).2) k i i.2
      rwa [Nat.zero_add] at this
  obtain ⟨a, -, φ, hφ, hlim⟩ := isCompact_Icc.tendsto_subseq hbd
  let y : Nat → ℝ := fun i => if h : i < n then a ⟨i, h⟩ else 0
  have hya : ∀ i (h : i < n), y i = a ⟨i, h⟩ := fun i h => dif_pos h
  have hsub : ∀ i, i < n → Tendsto (fun k => opinionOf (st (φ k)).network.agents i) atTop (𝓝 (y i)) := by
    intro i hi
    rw [hya i hi]
    exact (tendsto_pi_nhds.mp hlim) ⟨i, hi⟩
  -- the steps tend to zero
  have hzero : ∀ i, i < n → Tendsto (fun k => opinionOf (st (k + 1)).network.agents i - opinionOf (st k).network.agents i) atTop (𝓝 0) := by
    intro i hi
    have hs := C93_step T hw h0 h1 h2 hB
    have hsq : Tendsto (fun k => (opinionOf (st (k + 1)).network.agents i - opinionOf (st k).network.agents i) ^ 2) atTop (𝓝 0) := by
      have hlim0 : Tendsto (fun k : Nat => (1 - δ) * (B - -B) ^ 2 / (4 * δ) * (1 / ((k : ℝ) + 1))) atTop (𝓝 0) := by
        have := (tendsto_one_div_add_atTop_nhds_zero_nat (𝕜 := ℝ)).const_mul ((1 - δ) * (B - -B) ^ 2 / (4 * δ))
        rwa [mul_zero] at this
      refine squeeze_zero (fun k => sq_nonneg _) (fun k => ?_) hlim0
      have h3 := hs k i hi
      have hk : (0 : ℝ) < (k : ℝ) + 1 := by positivity
      rw [div_mul_div_comm, mul_one, le_div_iff₀ (by positivity)]
      push_cast at h3
      linarith
    have habs := (Real.continuous_sqrt.tendsto 0).comp hsq
    rw [Real.sqrt_zero] at habs
    refine (tendsto_zero_iff_abs_tendsto_zero _).mpr (habs.congr fun k => ?_)
    exact Real.sqrt_sq_eq_abs _
  have hfix : ∀ i, i < n → weightedSum (st 0).network y i = y i := by
    intro i hi
    have e1 : Tendsto (fun k => opinionOf (st (φ k + 1)).network.agents i) atTop (𝓝 (y i)) := by
      have := (hsub i hi).add ((hzero i hi).comp hφ.tendsto_atTop)
      rw [add_zero] at this
      refine this.congr fun k => ?_
      simp
    have e2 : Tendsto (fun k => opinionOf (st (φ k + 1)).network.agents i) atTop (𝓝 (weightedSum (st 0).network y i)) := by
      rw [weightedSum_eq_weightOn (P.lt i hi)]
      have := tendsto_finsetSum (Finset.range n) (fun j hj => (hsub j (Finset.mem_range.mp hj)).const_mul (weightOn (st 0).network i j))
      refine this.congr fun k => ?_
      rw [P.step (φ k) i hi]
      exact (weightedSum_eq_weightOn (P.lt i hi) _).symm
    exact tendsto_nhds_unique e2 e1
  have Pd : Averaging.Process n (row (st 0).network) (fun k i => opinionOf (st k).network.agents i - y i) := by
    refine ⟨P.lt, P.nonneg, P.sum, fun k i hi => ?_⟩
    rw [P.step k i hi]
    conv_lhs => rw [← hfix i hi]
    unfold weightedSum
    generalize row (st 0).network i = l
    induction l with
    | nil => simp
    | cons e l ih => simp only [List.map_cons, List.sum_cons, ← ih]; ring
  have hmono : ∀ k l, k ≤ l → ∀ d, (∀ i, i < n → |opinionOf (st k).network.agents i - y i| ≤ d) →
      ∀ i, i < n → |opinionOf (st l).network.agents i - y i| ≤ d := by
    intro k l hkl d hd i hi
    obtain ⟨c, rfl⟩ := Nat.exists_eq_add_of_le hkl
    exact abs_le.mpr ⟨Pd.lower (fun j hj => (abs_le.mp (hd j hj)).1) c i hi, Pd.upper (fun j hj => (abs_le.mp (hd j hj)).2) c i hi⟩
  refine ⟨y, fun i hi => ?_, hfix, hmono⟩
  rw [Metric.tendsto_atTop]
  intro ε hε
  have hev : ∀ᶠ k in atTop, ∀ j ∈ Finset.range n, |opinionOf (st (φ k)).network.agents j - y j| ≤ ε / 2 := by
    rw [Filter.eventually_all_finset]
    intro j hj
    have := Metric.tendsto_atTop.mp (hsub j (Finset.mem_range.mp hj)) (ε / 2) (by positivity)
    obtain ⟨K, hK⟩ := this
    exact eventually_atTop.mpr ⟨K, fun k hk => (hK k hk).le⟩
  obtain ⟨k, hk⟩ := hev.exists
  refine ⟨φ k, fun l hl => ?_⟩
  have := hmono (φ k) l hl (ε / 2) (fun j hj => hk j (Finset.mem_range.mpr hj)) i hi
  rw [Real.dist_eq]
  linarith

/-! ## The hypotheses are met -/

/-- Two agents that only listen to themselves and one that listens to all: not connected, and no consensus. -/
def stubbornNet : Network (SimpleAgent ℚ) ℚ where
  agents := [⟨0⟩, ⟨1⟩, ⟨1⟩]
  neighbours := [[0], [1], [0, 1, 2]]
  weights := [[1], [1], [1 / 3, 1 / 3, 1 / 3]]
  direction := .incoming

def stubbornModel : DeGroot ℚ := { counter := ⟨none, 0⟩, tol := 1 / 100, maxDiff := none, network := stubbornNet, copy := stubbornNet.agents }

theorem stubborn_facts : stubbornModel.Ready ∧ RowStochastic stubbornModel.network ∧ (∀ i, i < 3 → Listens stubbornModel.network i i) ∧
    (∀ i, i < 3 → (1 / 3 : ℚ) ≤ weightOn stubbornModel.network i i) := by
  refine ⟨⟨⟨rfl, rfl, ?_, ?_⟩, rfl⟩, ⟨?_, ?_⟩, ?_, ?_⟩
  · intro i h h'
    match i, h with
    | 0, _ => rfl
    | 1, _ => rfl
    | 2, _ => rfl
  · intro row hrow j hj
    simp only [stubbornModel, stubbornNet, List.mem_cons, List.not_mem_nil, or_false] at hrow
    rcases hrow with rfl | rfl | rfl <;> simp at hj
    · subst hj; simp [stubbornModel, stubbornNet]
    · subst hj; simp [stubbornModel, stubbornNet]
    · rcases hj with rfl | rfl | rfl <;> simp [stubbornModel, stubbornNet]
  · intro i hi e he
    match i, hi with
    | 0, _ => simp [stubbornModel, stubbornNet, row] at he; subst he; norm_num
    | 1, _ => simp [stubbornModel, stubbornNet, row] at he; subst he; norm_num
    | 2, _ => simp [stubbornModel, stubbornNet, row] at he; rcases he with rfl | rfl | rfl <;> norm_num
  · intro i hi
    match i, hi with
    | 0, _ => simp [stubbornModel, stubbornNet, row]
    | 1, _ => simp [stubbornModel, stubbornNet, row]
    | 2, _ => simp [stubbornModel, stubbornNet, row]; norm_num
  · intro i hi
    match i, hi with
    | 0, _ => exact ⟨1, by simp [stubbornModel, stubbornNet, row], by norm_num⟩
    | 1, _ => exact ⟨1, by simp [stubbornModel, stubbornNet, row], by norm_num⟩
    | 2, _ => exact ⟨1 / 3, by simp [stubbornModel, stubbornNet, row], by norm_num⟩
  · intro i hi
    match i, hi with
    | 0, _ => norm_num [stubbornModel, stubbornNet, row, weightOn]
    | 1, _ => norm_num [stubbornModel, stubbornNet, row, weightOn]
    | 2, _ => norm_num [stubbornModel, stubbornNet, row, weightOn]

example : ∃ (K : Nat) (st : Nat → DeGroot ℚ), IsRun DeGroot.machine stubbornModel.reset K st ∧ K ≤ 5001 := by
  obtain ⟨h1, h2, -, h4⟩ := stubborn_facts
  obtain ⟨K, st, e1, e2, -⟩ := C93_iterations (m := 5000) h1 (DeGroot.Unsettled.of_fresh rfl) h2 (by norm_num [stubbornModel]) (δ := 1 / 3) (by norm_num) (by norm_num) h4
    (lo := 0) (hi := 1) (fun i hi => by
      match i, hi with
      | 0, _ => norm_num [stubbornModel, stubbornNet, opinionOf, opinions]
      | 1, _ => norm_num [stubbornModel, stubbornNet, opinionOf, opinions]
      | 2, _ => norm_num [stubbornModel, stubbornNet, opinionOf, opinions]) (by norm_num [stubbornModel])
  exact ⟨K, st, e1, e2⟩

/-- The program with the example configuration: every agent has a non-zero weight on itself. -/
example : ∃ fuel tr, main (Env.sample Config.deGrootDoc) ⟨"conf.toml", none, none, none⟩ fuel = .ok tr := by
  have hd : (nConnections (A := SimpleAgent ℚ) counterRng 4 2 true 7).map (fun t => (List.range 4).all fun i => (row t.1 i).any fun e => e.1 = i ∧ e.2 ≠ 0) = .ok true := by
    decide +kernel
  obtain ⟨N, g, hN, -⟩ := nConnections_total (A := SimpleAgent ℚ) (Env.sample_lawful Config.deGrootDoc).safe.rng 4 2 true 7
  have hN' : nConnections (A := SimpleAgent ℚ) counterRng 4 2 true 7 = .ok (N, g) := hN
  rw [hN'] at hd
  have hd := Except.ok.inj hd
  refine C93_program (Env.sample_lawful _) deGrootDoc_accepted ⟨by decide, by decide⟩ rfl (by norm_num) hN ?_
  intro i hi
  have := List.all_eq_true.mp hd i (List.mem_range.mpr hi)
  obtain ⟨e, he, h2⟩ := List.any_eq_true.mp this
  have h3 := of_decide_eq_true h2
  refine ⟨e.2, ?_, h3.2⟩
  have hp : ((i, e.2) : Nat × ℚ) = e := Prod.ext h3.1.symm rfl
  rw [hp]
  exact he

end Seldon
