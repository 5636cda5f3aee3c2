import Verif.Props.DeGroot
import Mathlib.Topology.MetricSpace.Cauchy
import Mathlib.Topology.Algebra.Order.LiminfLimsup
import Mathlib.Topology.Algebra.Monoid
import Mathlib.Topology.Instances.Real.Lemmas
import Mathlib.Topology.UniformSpace.Real
import Mathlib.Algebra.BigOperators.Group.Finset.Basic
import Mathlib.Algebra.BigOperators.Ring.Finset
/-!
# Property C63: the DeGroot model reaches consensus
-/
namespace Seldon
open Spec Filter Topology
variable {F : Type}

/-- `st 0, st 1, ...` are the states of successive iterations of the model. -/
structure DeGroot.Trajectory [Zero F] [Add F] [Mul F] [Sub F] [Neg F] [LT F] [DecidableLT F] (st : Nat → DeGroot F) : Prop where
  ready : (st 0).Ready
  step  : ∀ k, (st k).iteration = .ok (st (k + 1))

/-- The total weight that agent `i` gives to agent `j` (the sum over all stored entries). -/
def weightOn [AddCommMonoid F] {A : Type} (N : Network A F) (i j : Nat) : F :=
  (((row N i).filter (fun e => e.1 = j)).map (·.2)).sum

/-- `π` is a stationary distribution of the weights: `Σ_i π_i w_ij = π_j` and `Σ_i π_i = 1`. -/
structure Stationary [CommSemiring F] {A : Type} (N : Network A F) (π : Nat → F) : Prop where
  balance : ∀ j, j < N.agents.length → ∑ i ∈ Finset.range N.agents.length, π i * weightOn N i j = π j
  total   : ∑ i ∈ Finset.range N.agents.length, π i = 1

theorem DeGroot.Trajectory.process [Field F] [LinearOrder F] [IsStrictOrderedRing F] {st : Nat → DeGroot F}
    (T : DeGroot.Trajectory st) (hw : RowStochastic (st 0).network) :
    Averaging.Process (st 0).network.agents.length (row (st 0).network) (fun k => opinionOf (st k).network.agents) := by
  have hit : ∀ k, Iterates DeGroot.iteration (st 0) k (st k) := by
    intro k
    induction k with
    | zero => exact .zero
    | succ k ih => exact .succ ih (T.step k)
  refine ⟨fun i _ e he => NetLemmas.row_lt T.ready.wf he, hw.nonneg, hw.sum, ?_⟩
  intro t i hi
  obtain ⟨k1, k2, k3, k4⟩ := DeGroot.iterates_ready (hit t) T.ready
  have := C29_exact k1 (T.step t) i (by rw [k4]; exact hi)
  simp only [this]
  unfold weightedSum
  rw [row_congr k2 k3]

/-- C63 in any Archimedean ordered field: for every `ε` the opinions are from some iteration on all within one interval
shorter than `ε`. -/
theorem C63_spread [Field F] [LinearOrder F] [IsStrictOrderedRing F] [Archimedean F] {st : Nat → DeGroot F}
    (T : DeGroot.Trajectory st) (hw : RowStochastic (st 0).network)
    (hself : ∀ i, i < (st 0).network.agents.length → Listens (st 0).network i i)
    {r : Nat} (hr : r < (st 0).network.agents.length)
    (hroot : ∀ i, i < (st 0).network.agents.length → Relation.ReflTransGen (Listens (st 0).network) i r)
    {ε : F} (hε : 0 < ε) :
    ∃ (K : Nat) (lo hi : F), hi - lo < ε ∧ ∀ k, K ≤ k → ∀ i, i < (st 0).network.agents.length →
      lo ≤ opinionOf (st k).network.agents i ∧ opinionOf (st k).network.agents i ≤ hi := by
  have P := T.process hw
  obtain ⟨t, lo, hi, hbox, hlt⟩ := P.converges hself hr hroot hε
  refine ⟨t, lo, hi, hlt, fun k hk i hi' => ?_⟩
  obtain ⟨d, rfl⟩ := Nat.exists_eq_add_of_le hk
  exact ⟨P.lower (fun j hj => (hbox j hj).1) d i hi', P.upper (fun j hj => (hbox j hj).2) d i hi'⟩

/-- Averaging a function of the neighbour over a row is the same as summing over all agents with the total weights. -/
theorem weightedSum_eq_weightOn [CommSemiring F] {A : Type} {N : Network A F} {i n : Nat}
    (hlt : ∀ e ∈ row N i, e.1 < n) (x : Nat → F) :
    weightedSum N x i = ∑ j ∈ Finset.range n, weightOn N i j * x j := by
  unfold weightedSum weightOn
  generalize row N i = L at hlt
  induction L with
  | nil => simp
  | cons e L ih =>
    have he : e.1 < n := hlt e (by simp)
    have hL := ih (fun e' he' => hlt e' (by simp [he']))
    rw [List.map_cons, List.sum_cons, hL]
    have : ∀ j, ((List.filter (fun e' : Nat × F => decide (e'.1 = j)) (e :: L)).map (·.2)).sum =
        (if e.1 = j then e.2 else 0) + ((List.filter (fun e' : Nat × F => decide (e'.1 = j)) L).map (·.2)).sum := by
      intro j
      by_cases h : e.1 = j
      · rw [List.filter_cons_of_pos (by simpa using h), List.map_cons, List.sum_cons, if_pos h]
      · rw [List.filter_cons_of_neg (by simpa using h), if_neg h, zero_add]
    simp only [this, add_mul, Finset.sum_add_distrib]
    congr 1
    rw [Finset.sum_eq_single e.1]
    · simp
    · intro b _ hb; rw [if_neg (fun h => hb h.symm), zero_mul]
    · intro h; exact absurd (Finset.mem_range.mpr he) h

/-- C63: the stationary average `Σ_i π_i x_i` is the same after every iteration. -/
theorem C63_invariant [Field F] [LinearOrder F] [IsStrictOrderedRing F] {st : Nat → DeGroot F}
    (T : DeGroot.Trajectory st) (hw : RowStochastic (st 0).network) {π : Nat → F} (hπ : Stationary (st 0).network π) (k : Nat) :
    ∑ i ∈ Finset.range (st 0).network.agents.length, π i * opinionOf (st k).network.agents i =
      ∑ i ∈ Finset.range (st 0).network.agents.length, π i * opinionOf (st 0).network.agents i := by
  have P := T.process hw
  induction k with
  | zero => rfl
  | succ k ih =>
    rw [← ih]
    have hstep : ∀ i ∈ Finset.range (st 0).network.agents.length,
        π i * opinionOf (st (k + 1)).network.agents i =
          ∑ j ∈ Finset.range (st 0).network.agents.length,
            π i * weightOn (st 0).network i j * opinionOf (st k).network.agents j := by
      intro i hi
      have hi' := Finset.mem_range.mp hi
      have := P.step k i hi'
      rw [this, show ((row (st 0).network i).map (fun e => e.2 * opinionOf (st k).network.agents e.1)).sum =
          weightedSum (st 0).network (opinionOf (st k).network.agents) i from rfl,
        weightedSum_eq_weightOn (P.lt i hi'), Finset.mul_sum]
      apply Finset.sum_congr rfl
      intro j _
      ring
    rw [Finset.sum_congr rfl hstep, Finset.sum_comm]
    apply Finset.sum_congr rfl
    intro j hj
    rw [← Finset.sum_mul, hπ.balance j (Finset.mem_range.mp hj)]

/-- C63: on a row-stochastic network whose agents all listen to themselves and in which some agent is heard, directly or
indirectly, by everybody (in particular on every strongly connected one), the opinions of all agents converge to one common
value.  It lies in every interval that contains the starting opinions, and it is the average of the starting opinions with
respect to any stationary distribution of the weights. -/
theorem C63_consensus {st : Nat → DeGroot ℝ}
    (T : DeGroot.Trajectory st) (hw : RowStochastic (st 0).network)
    (hself : ∀ i, i < (st 0).network.agents.length → Listens (st 0).network i i)
    {r : Nat} (hr : r < (st 0).network.agents.length)
    (hroot : ∀ i, i < (st 0).network.agents.length → Relation.ReflTransGen (Listens (st 0).network) i r) :
    ∃ c : ℝ, (∀ i, i < (st 0).network.agents.length →
        Tendsto (fun k => opinionOf (st k).network.agents i) atTop (𝓝 c)) ∧
      (∀ lo hi : ℝ, (∀ i, i < (st 0).network.agents.length →
        lo ≤ opinionOf (st 0).network.agents i ∧ opinionOf (st 0).network.agents i ≤ hi) → lo ≤ c ∧ c ≤ hi) ∧
      (∀ π : Nat → ℝ, Stationary (st 0).network π →
        c = ∑ i ∈ Finset.range (st 0).network.agents.length, π i * opinionOf (st 0).network.agents i) := by
  have P := T.process hw
  have hbox := fun (ε : ℝ) (hε : 0 < ε) => C63_spread T hw hself hr hroot hε
  have hcauchy : CauchySeq (fun k => opinionOf (st k).network.agents r) := by
    rw [Metric.cauchySeq_iff']
    intro ε hε
    obtain ⟨K, lo, hi, hlt, hb⟩ := hbox ε hε
    refine ⟨K, fun k hk => ?_⟩
    have h1 := hb k hk r hr
    have h2 := hb K (le_refl _) r hr
    rw [Real.dist_eq, abs_lt]
    constructor <;> linarith [h1.1, h1.2, h2.1, h2.2]
  obtain ⟨c, hc⟩ := cauchySeq_tendsto_of_complete hcauchy
  have hall : ∀ i, i < (st 0).network.agents.length →
      Tendsto (fun k => opinionOf (st k).network.agents i) atTop (𝓝 c) := by
    intro i hi'
    have hd : Tendsto (fun k => opinionOf (st k).network.agents i - opinionOf (st k).network.agents r) atTop (𝓝 0) := by
      rw [Metric.tendsto_atTop]
      intro ε hε
      obtain ⟨K, lo, hi, hlt, hb⟩ := hbox ε hε
      refine ⟨K, fun k hk => ?_⟩
      have h1 := hb k hk i hi'
      have h2 := hb k hk r hr
      rw [Real.dist_eq, sub_zero, abs_lt]
      constructor <;> linarith [h1.1, h1.2, h2.1, h2.2]
    have := hd.add hc
    simpa using this
  refine ⟨c, hall, ?_, ?_⟩
  · intro lo hi hx
    refine ⟨ge_of_tendsto' hc fun k => ?_, le_of_tendsto' hc fun k => ?_⟩
    · have := P.lower (t0 := 0) (fun j hj => (hx j hj).1) k r hr
      simpa using this
    · have := P.upper (t0 := 0) (fun j hj => (hx j hj).2) k r hr
      simpa using this
  · intro π hπ
    have h1 : Tendsto (fun k => ∑ i ∈ Finset.range (st 0).network.agents.length, π i * opinionOf (st k).network.agents i)
        atTop (𝓝 (∑ i ∈ Finset.range (st 0).network.agents.length, π i * c)) :=
      tendsto_finsetSum _ (fun i hi => (hall i (Finset.mem_range.mp hi)).const_mul (π i))
    rw [← Finset.sum_mul, hπ.total, one_mul] at h1
    have h2 : (fun k => ∑ i ∈ Finset.range (st 0).network.agents.length, π i * opinionOf (st k).network.agents i) =
        fun _ => ∑ i ∈ Finset.range (st 0).network.agents.length, π i * opinionOf (st 0).network.agents i :=
      funext fun k => C63_invariant T hw hπ k
    rw [h2] at h1
    exact tendsto_nhds_unique h1 tendsto_const_nhds

/-- C63: if the weights given to each agent also sum to one (doubly stochastic), the consensus is the plain mean of the
starting opinions. -/
theorem C63_mean {A : Type} [Field F] [CharZero F] {N : Network A F} (hn : 0 < N.agents.length)
    (hcol : ∀ j, j < N.agents.length → ∑ i ∈ Finset.range N.agents.length, weightOn N i j = 1) :
    Stationary N (fun _ => 1 / (N.agents.length : F)) := by
  have hne : (N.agents.length : F) ≠ 0 := by exact_mod_cast (Nat.pos_iff_ne_zero.mp hn)
  refine ⟨fun j hj => ?_, ?_⟩
  · rw [← Finset.mul_sum, hcol j hj, mul_one]
  · rw [Finset.sum_const, Finset.card_range, nsmul_eq_mul, mul_one_div, div_self hne]

/-- Trajectories exist from every ready state. -/
theorem C63_trajectory_exists [Ring F] [LinearOrder F] [IsStrictOrderedRing F] {s : DeGroot F} (h : s.Ready) :
    ∃ st : Nat → DeGroot F, st 0 = s ∧ DeGroot.Trajectory st := by
  obtain ⟨st, h0, hst⟩ := DeGroot.exists_states h
  exact ⟨st, h0, by rw [h0]; exact h, fun k => (hst k).1⟩

/-- A stationary distribution of the example network: `π = (2/5, 3/5)`, so from the opinions `0, 1` the consensus is `3/5`. -/
example : Stationary mixModel.network (fun i => if i = 0 then 2 / 5 else 3 / 5) := by
  refine ⟨fun j hj => ?_, ?_⟩
  · simp only [mixModel, mixNet, List.length_cons, List.length_nil] at hj ⊢
    match j, hj with
    | 0, _ => simp [Finset.sum_range_succ, weightOn, row]; norm_num
    | 1, _ => simp [Finset.sum_range_succ, weightOn, row]; norm_num
  · simp only [mixModel, mixNet, List.length_cons, List.length_nil]
    simp [Finset.sum_range_succ]; norm_num

end Seldon
