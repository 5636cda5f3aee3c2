import Verif.Lemmas.Fixation
import Verif.Props.DeffuantLaw
/-!
# C96: which value wins in the binary-vector Deffuant model
-/
set_option linter.unusedSectionVars false
namespace Seldon
open Spec MeasureTheory
open scoped ENNReal
variable {G : Type} [MeasurableSpace G] {μ : Measure G}

/-- The number of agents whose vector has the value `v` at position `k`. -/
def Spec.holders (agents : List DiscreteVectorAgent) (k : ℕ) (v : Int) : ℕ := ((Finset.range agents.length).filter fun i => entry agents i k = some v).card

/-- From the state of the generator `g` the run goes on, after some iteration, with all agents having the value `v` at position `k`, forever. -/
def Spec.SettlesOn (r : Rng G ℝ) (s : Deffuant DiscreteVectorAgent ℝ G) (k : ℕ) (v : Int) (g : G) : Prop :=
  ∃ st : Nat → Deffuant DiscreteVectorAgent ℝ G, st 0 = { s with gen := g } ∧ (∀ t, Deffuant.iteration r (Deffuant.updateVector r) (st t) = .ok (st (t + 1))) ∧
    ∃ T, ∀ t, T ≤ t → ∀ i, i < s.network.agents.length → entry (st t).network.agents i k = some v

/-- Every meeting is as likely with one of the two agents as the first one as with the other: what a network in which everybody has equally many neighbours
and being neighbours is mutual (with multiplicity) provides. -/
def Spec.BalancedRows (rows : List (List ℕ)) : Prop :=
  ∀ a b, a < rows.length → b < rows.length → (rows.getD a []).count b * (rows.getD b []).length = (rows.getD b []).count a * (rows.getD a []).length

namespace Deffuant

theorem score_holders (k : ℕ) (v : Int) (xs : List DiscreteVectorAgent) : score (fun _ => 1) k v xs = holders xs k v := by
  rw [score_sum, holders, Finset.sum_const, nsmul_eq_mul, mul_one]

theorem score_share (k : ℕ) (v : Int) (xs : List DiscreteVectorAgent) (n : ℕ) : score (fun _ => 1 / (n : ℝ)) k v xs = holders xs k v / n := by
  rw [score_sum, holders, Finset.sum_const, nsmul_eq_mul, mul_one_div]

theorem drift_scale (w : ℕ → ℝ) (c : ℝ) (k : ℕ) (v : Int) (d : ℕ) (θ mu : ℝ) (xs : List DiscreteVectorAgent) (p : ℕ × ℕ) :
    drift (fun i => c * w i) k v d θ mu xs p = c * drift w k v d θ mu xs p := by
  unfold drift
  split
  · ring
  · ring

theorem drift_share {n : ℕ} (f : ℕ × ℕ → ℝ) (k : ℕ) (v : Int) (d : ℕ) (θ mu : ℝ) (xs : List DiscreteVectorAgent) (c : ℝ)
    (h : ∑ p ∈ Finset.range n ×ˢ Finset.range n, f p * drift (fun _ => 1) k v d θ mu xs p = 0) :
    ∑ p ∈ Finset.range n ×ˢ Finset.range n, f p * drift (fun _ => c) k v d θ mu xs p = 0 := by
  have e : ∀ p, drift (fun _ => c) k v d θ mu xs p = c * drift (fun _ => 1) k v d θ mu xs p := by
    intro p
    rw [← drift_scale]
    simp
  simp only [e]
  calc ∑ p ∈ Finset.range n ×ˢ Finset.range n, f p * (c * drift (fun _ => 1) k v d θ mu xs p)
      = c * ∑ p ∈ Finset.range n ×ˢ Finset.range n, f p * drift (fun _ => 1) k v d θ mu xs p := by
        rw [Finset.mul_sum]; exact Finset.sum_congr rfl fun p _ => by ring
    _ = 0 := by rw [h, mul_zero]

variable {s : Deffuant DiscreteVectorAgent ℝ G}

theorem oddsV_balanced [IsProbabilityMeasure μ] {r : Rng G ℝ} (hr : r.IntLawful) (hi : FairIntegers r μ) (hs : s.Ready) (hn : 2 ≤ s.network.agents.length)
    (hun : s.useNetwork = true) (hb : BalancedRows s.network.neighbours) (a b : ℕ) (ha : a < s.network.agents.length) (hb' : b < s.network.agents.length) :
    oddsV r s μ (a, b) = oddsV r s μ (b, a) := by
  have hv : ∀ a b, a < s.network.agents.length → oddsV r s μ (a, b) =
      ((s.network.neighbours.getD a []).count b : ℝ) / (s.network.agents.length * (s.network.neighbours.getD a []).length) := by
    intro a b ha
    have ha' : a < s.network.neighbours.length := by rw [hs.wf.rows]; exact ha
    rw [oddsV, chance_eq hr hs (by omega),
      (C74_neighbour hi hs hun ha (row := s.network.neighbours[a]) (by rw [Network.getNeighbours, rd_lt ha']) b MeasurableSet.univ).2, measure_univ, mul_one,
      ENNReal.toReal_div, getD_lt _ _ ha']
    simp
  have hpos : ∀ a, a < s.network.agents.length → (0 : ℝ) < (s.network.neighbours.getD a []).length := by
    intro a ha
    have ha' : a < s.network.neighbours.length := by rw [hs.wf.rows]; exact ha
    rw [getD_lt _ _ ha']
    have := List.length_pos_iff.mpr (hs.rows hun _ (List.getElem_mem ha')).1
    exact_mod_cast this
  have hn0 : (0 : ℝ) < s.network.agents.length := by exact_mod_cast (by omega : 0 < s.network.agents.length)
  rw [hv a b ha, hv b a hb', div_eq_div_iff (mul_pos hn0 (hpos a ha)).ne' (mul_pos hn0 (hpos b hb')).ne']
  have h2 : ((s.network.neighbours.getD a []).count b : ℝ) * (s.network.neighbours.getD b []).length =
      (s.network.neighbours.getD b []).count a * (s.network.neighbours.getD a []).length := by
    exact_mod_cast hb a b (by rw [hs.wf.rows]; exact ha) (by rw [hs.wf.rows]; exact hb')
  linear_combination (s.network.agents.length : ℝ) * h2

/-- Being neighbours is mutual. -/
theorem balanced_mutual (hs : s.Ready) (hun : s.useNetwork = true) (hb : BalancedRows s.network.neighbours) {a b : ℕ} (ha : a < s.network.agents.length)
    (h : b ∈ s.network.neighbours.getD a []) : a ∈ s.network.neighbours.getD b [] := by
  have ha' : a < s.network.neighbours.length := by rw [hs.wf.rows]; exact ha
  have hbl : b < s.network.agents.length := hs.wf.range _ (List.getElem_mem ha') _ (by rwa [getD_lt _ _ ha'] at h)
  have hb' : b < s.network.neighbours.length := by rw [hs.wf.rows]; exact hbl
  have e := hb a b ha' hb'
  have h1 := List.count_pos_iff.mpr h
  have h2 : 0 < (s.network.neighbours.getD b []).length := by
    rw [getD_lt _ _ hb']
    exact List.length_pos_iff.mpr (hs.rows hun _ (List.getElem_mem hb')).1
  refine List.count_pos_iff.mp ?_
  have := Nat.mul_pos h1 h2
  rw [e] at this
  exact Nat.pos_of_mul_pos_right this

/-- Nobody is favoured: `mu` is not positive, or the network is balanced. -/
theorem drift_even [IsProbabilityMeasure μ] {r : Rng G ℝ} (hr : r.IntLawful) (hi : FairIntegers r μ) (hs : s.Ready) (hn : 2 ≤ s.network.agents.length)
    (hfair : s.mu ≤ 0 ∨ (s.useNetwork = true ∧ BalancedRows s.network.neighbours)) (k : ℕ) (v : Int) (d : ℕ) (xs : List DiscreteVectorAgent) :
    ∑ p ∈ Finset.range s.network.agents.length ×ˢ Finset.range s.network.agents.length, oddsV r s μ p * drift (fun _ => 1) k v d s.threshold s.mu xs p = 0 := by
  rcases hfair with h | ⟨h1, h2⟩
  · exact Finset.sum_eq_zero fun p _ => by rw [drift_fair h, mul_zero]
  · exact drift_balanced r (fun a b => oddsV_balanced hr hi hs hn h1 h2 a b) k v d _ _ xs

/-- Without network the pairs are drawn with the lower number first, each with the same probability. -/
theorem oddsV_plain [IsProbabilityMeasure μ] {r : Rng G ℝ} (hr : r.IntLawful) (hi : FairIntegers r μ) (hs : s.Ready) (hn : 2 ≤ s.network.agents.length)
    (hun : s.useNetwork = false) {a b : ℕ} (hb : b < s.network.agents.length) :
    oddsV r s μ (a, b) = if a < b then 1 / (s.network.agents.length.choose 2 : ℝ) else 0 := by
  split
  · rename_i hab
    rw [oddsV, chance_eq hr hs (by omega), (C74_pair hr hi hun hab hb MeasurableSet.univ).2, measure_univ]
    simp
  · rename_i hab
    rw [oddsV, chance_zero hr hs hn (by rintro ⟨-, -, h⟩; exact hab (h hun))]
    simp

theorem drift_plain [IsProbabilityMeasure μ] {r : Rng G ℝ} (hr : r.IntLawful) (hi : FairIntegers r μ) (hs : s.Ready) (hn : 2 ≤ s.network.agents.length)
    (hun : s.useNetwork = false) (h0 : 0 ≤ s.mu) (h1 : s.mu ≤ 1) {d : ℕ} (hθ : (d : ℝ) < s.threshold) (k : ℕ) (v : Int) (xs : List DiscreteVectorAgent) :
    ∑ p ∈ Finset.range s.network.agents.length ×ˢ Finset.range s.network.agents.length,
      oddsV r s μ p * drift (weight s.mu s.network.agents.length) k v d s.threshold s.mu xs p = 0 := by
  have hnear : ∀ x y, Near d s.threshold x y := by
    intro x y
    refine lt_of_le_of_lt ?_ hθ
    have h1 := Finset.card_filter_le (Finset.range d) fun j => x[j]? ≠ y[j]?
    rw [Finset.card_range] at h1
    exact_mod_cast h1
  have e := drift_order h0 h1 s.network.agents.length (ind k v xs)
  have e2 := congrArg (fun z => 1 / (s.network.agents.length.choose 2 : ℝ) * z) e
  rw [mul_zero, Finset.mul_sum] at e2
  rw [Finset.sum_product, ← e2]
  refine Finset.sum_congr rfl fun a _ => ?_
  rw [Finset.mul_sum]
  refine Finset.sum_congr rfl fun b hb => ?_
  rw [oddsV_plain hr hi hs hn hun (Finset.mem_range.mp hb), drift, if_pos (hnear _ _), giveIn_mid h0 h1]
  split <;> ring

end Deffuant

variable {r : Rng G ℝ} [IsProbabilityMeasure μ] {s : Deffuant DiscreteVectorAgent ℝ G}

/-- C96: if `mu` is 0 (with or without network), or the network is balanced (whatever `mu` is), then the expected number of agents with the value `v` at
position `k` is the same after any number of iterations, for every threshold. -/
theorem C96_expected (hr : r.IntLawful) (hi : FairIntegers r μ) (hu : Draws r.unit uniform μ) (hs : s.Ready) (hn : 2 ≤ s.network.agents.length)
    (hfair : s.mu = 0 ∨ (s.useNetwork = true ∧ BalancedRows s.network.neighbours)) {d : ℕ} (hd : ∀ x ∈ s.network.agents, x.opinion.length = d) {k : ℕ} (hk : k < d)
    (v : Int) (t : ℕ) :
    ∃ final : G → Deffuant DiscreteVectorAgent ℝ G, (∀ g, Iterates (Deffuant.iteration r (Deffuant.updateVector r)) { s with gen := g } t (final g)) ∧
      ∫ g, (holders (final g).network.agents k v : ℝ) ∂μ = holders s.network.agents k v := by
  obtain ⟨final, f1, -, -, f4⟩ := Deffuant.final_score (μ := μ) hr hi hu hs hn hd
  refine ⟨fun g => final g t, fun g => f1 g t, ?_⟩
  have := f4 (fun _ => 1) k v (fun _ => zero_le_one) hk (fun xs _ _ => Deffuant.drift_even hr hi hs hn (hfair.imp le_of_eq id) k v d xs) t
  simpa only [Deffuant.score_holders] using this

/-- C96: accordingly, if moreover the threshold exceeds the dimension, being neighbours is mutual and any two agents are connected by agents that can meet, the
probability that all agents end up with the value `v` at position `k` is the share of the agents that have it at the beginning. -/
theorem C96_share (hr : r.IntLawful) (hi : FairIntegers r μ) (hu : Draws r.unit uniform μ) (hs : s.Ready) (hn : 2 ≤ s.network.agents.length)
    (hfair : s.mu = 0 ∨ (s.useNetwork = true ∧ BalancedRows s.network.neighbours))
    (hsym : s.useNetwork = true → ∀ a b, a < s.network.agents.length → b ∈ s.network.neighbours.getD a [] → a ∈ s.network.neighbours.getD b [])
    {d : ℕ} (hd : ∀ x ∈ s.network.agents, x.opinion.length = d) (hθ : (d : ℝ) < s.threshold)
    (hc : ∀ i j, i < s.network.agents.length → j < s.network.agents.length → Relation.ReflTransGen s.CanMeet i j) {k : ℕ} (hk : k < d) (v : Int) :
    μ {g | SettlesOn r s k v g} = (holders s.network.agents k v : ℝ≥0∞) / s.network.agents.length := by
  have hn0 : (0 : ℝ) < s.network.agents.length := by exact_mod_cast (by omega : 0 < s.network.agents.length)
  refine (Deffuant.fixation (w := fun _ => 1 / (s.network.agents.length : ℝ)) hr hi hu hs hn hsym hd hθ hc (fun _ => by positivity) hk ?_ ?_).trans ?_
  · rw [Finset.sum_const, Finset.card_range, nsmul_eq_mul, mul_one_div, div_self hn0.ne']
  · exact fun xs _ _ => Deffuant.drift_share _ _ _ _ _ _ _ _ (Deffuant.drift_even hr hi hs hn (hfair.imp le_of_eq id) k v d xs)
  · rw [Deffuant.score_share, ENNReal.ofReal_div_of_pos hn0]
    simp

/-- C96 (without network, `0 ≤ mu ≤ 1`, threshold above the dimension): the probability that all agents end up with the value `v` at position `k` is the sum,
over the agents that have it at the beginning, of weights that depend only on `mu`, the number of agents and the number `i` of the agent: `lead (i + 1) - lead i`. -/
theorem C96_order (hr : r.IntLawful) (hi : FairIntegers r μ) (hu : Draws r.unit uniform μ) (hs : s.Ready) (hn : 2 ≤ s.network.agents.length)
    (hun : s.useNetwork = false) (h0 : 0 ≤ s.mu) (h1 : s.mu ≤ 1) {d : ℕ} (hd : ∀ x ∈ s.network.agents, x.opinion.length = d) (hθ : (d : ℝ) < s.threshold)
    {k : ℕ} (hk : k < d) (v : Int) :
    μ {g | SettlesOn r s k v g} = ENNReal.ofReal (∑ i ∈ (Finset.range s.network.agents.length).filter fun i => entry s.network.agents i k = some v,
      (lead s.mu s.network.agents.length (i + 1) - lead s.mu s.network.agents.length i)) := by
  refine (Deffuant.fixation (w := Deffuant.weight s.mu s.network.agents.length) hr hi hu hs hn (fun h => by rw [hun] at h; cases h) hd hθ (C74_plain_connected hun)
    (Deffuant.weight_nonneg h0 h1 _) hk ?_ ?_).trans ?_
  · rw [Deffuant.weight_partial _ le_rfl, Deffuant.lead_full h0 (by omega)]
  · exact fun xs _ _ => Deffuant.drift_plain hr hi hs hn hun h0 h1 hθ k v xs
  · rw [Deffuant.score_sum]
    congr 1
    refine Finset.sum_congr rfl fun i hi => ?_
    rw [Deffuant.weight, if_pos (Finset.mem_range.mp (Finset.mem_filter.mp hi).1)]

/-- C96: if exactly the `m` agents with the lowest numbers have the value `v`, it wins with probability `(1 + mu) m / ((1 + mu) m + (1 - mu) (n - m))`. -/
theorem C96_first (hr : r.IntLawful) (hi : FairIntegers r μ) (hu : Draws r.unit uniform μ) (hs : s.Ready) (hn : 2 ≤ s.network.agents.length)
    (hun : s.useNetwork = false) (h0 : 0 ≤ s.mu) (h1 : s.mu ≤ 1) {d : ℕ} (hd : ∀ x ∈ s.network.agents, x.opinion.length = d) (hθ : (d : ℝ) < s.threshold)
    {k : ℕ} (hk : k < d) (v : Int) {m : ℕ} (hm : m ≤ s.network.agents.length)
    (hfirst : ∀ i, i < s.network.agents.length → (entry s.network.agents i k = some v ↔ i < m)) :
    μ {g | SettlesOn r s k v g} = ENNReal.ofReal ((1 + s.mu) * m / ((1 + s.mu) * m + (1 - s.mu) * (s.network.agents.length - m))) := by
  rw [C96_order hr hi hu hs hn hun h0 h1 hd hθ hk v, show (Finset.range s.network.agents.length).filter (fun i => entry s.network.agents i k = some v) =
    Finset.range m from ?_, Finset.sum_range_sub, Deffuant.lead_zero, sub_zero]
  · rfl
  · ext i
    simp only [Finset.mem_filter, Finset.mem_range]
    constructor
    · rintro ⟨h2, h3⟩; exact (hfirst i h2).mp h3
    · intro h2; exact ⟨by omega, (hfirst i (by omega)).mpr h2⟩

/-- C96: the weights: all equal for `mu = 0`, the first agent takes all for `mu = 1`, and in between a lower number is worth strictly more. -/
theorem C96_weights {n : ℕ} :
    (∀ i, i < n → lead 0 n (i + 1) - lead 0 n i = 1 / n) ∧
    (∀ i, i < n → lead 1 n (i + 1) - lead 1 n i = if i = 0 then 1 else 0) ∧
    (∀ mu i j, 0 < mu → mu < 1 → i < j → j < n → lead mu n (j + 1) - lead mu n j < lead mu n (i + 1) - lead mu n i) ∧
    ∀ mu, 0 ≤ mu → mu ≤ 1 → 0 < n → ∑ i ∈ Finset.range n, (lead mu n (i + 1) - lead mu n i) = 1 := by
  refine ⟨?_, ?_, ?_, ?_⟩
  · intro i hi
    have : (0 : ℝ) < n := by exact_mod_cast (by omega : 0 < n)
    have e : ∀ j : ℕ, lead 0 n j = j / n := by
      intro j
      unfold lead
      congr 1 <;> ring
    rw [e, e, ← sub_div]
    congr 1
    push_cast
    ring
  · intro i hi
    unfold lead
    rcases Nat.eq_zero_or_pos i with rfl | hpos
    · simp
    · have : (0 : ℝ) < i := by exact_mod_cast hpos
      rw [if_neg (by omega), sub_self, zero_mul, zero_mul, add_zero, add_zero, div_self (by positivity), div_self (by positivity), sub_self]
  · have hstep : ∀ mu : ℝ, 0 < mu → mu < 1 → ∀ i, i + 1 < n → lead mu n (i + 1 + 1) - lead mu n (i + 1) < lead mu n (i + 1) - lead mu n i := by
      intro mu h0 h1 i hi
      have hn0 : (0 : ℝ) < n := by exact_mod_cast (by omega : 0 < n)
      have hp : ∀ j : ℕ, j ≤ n → 0 < (1 + mu) * (j : ℝ) + (1 - mu) * ((n : ℝ) - j) := by
        intro j hj
        rcases Nat.eq_zero_or_pos j with rfl | hj0
        · have := mul_pos (by linarith : 0 < 1 - mu) hn0
          simpa using this
        · exact Deffuant.lead_denom h0.le h1.le hj0 hj
      have hw : ∀ j : ℕ, j < n → (lead mu n (j + 1) - lead mu n j) * (((1 + mu) * ((j : ℝ) + 1) + (1 - mu) * ((n : ℝ) - (j + 1))) *
          ((1 + mu) * (j : ℝ) + (1 - mu) * ((n : ℝ) - j))) = (1 + mu) * (1 - mu) * n := by
        intro j hj
        have e1 := hp (j + 1) (by omega)
        have e2 := hp j (by omega)
        push_cast at e1
        have f1 := Deffuant.lead_mul h0.le h1.le (n := n) (i := j + 1) (by omega)
        have f2 := Deffuant.lead_mul h0.le h1.le (n := n) (i := j) (by omega)
        push_cast at f1
        linear_combination ((1 + mu) * (j : ℝ) + (1 - mu) * ((n : ℝ) - j)) * f1 - ((1 + mu) * ((j : ℝ) + 1) + (1 - mu) * ((n : ℝ) - (j + 1))) * f2
      have a1 := hw i (by omega)
      have a2 := hw (i + 1) (by omega)
      push_cast at a2
      have b0 := hp i (by omega)
      have b1 := hp (i + 1) (by omega)
      have b2 := hp (i + 1 + 1) (by omega)
      push_cast at b1 b2
      set D0 := (1 + mu) * (i : ℝ) + (1 - mu) * ((n : ℝ) - i) with hD0
      set D1 := (1 + mu) * ((i : ℝ) + 1) + (1 - mu) * ((n : ℝ) - (i + 1)) with hD1
      set D2 := (1 + mu) * ((i : ℝ) + 1 + 1) + (1 - mu) * ((n : ℝ) - (i + 1 + 1)) with hD2
      have hgap : D0 < D2 := by rw [hD0, hD2]; linarith
      have hpos : 0 < (1 + mu) * (1 - mu) * n := mul_pos (mul_pos (by linarith) (by linarith)) hn0
      set x := lead mu n (i + 1 + 1) - lead mu n (i + 1) with hx
      set y := lead mu n (i + 1) - lead mu n i with hy
      clear_value D0 D1 D2 x y
      have hxp : 0 < x := by
        by_contra hc
        have := mul_nonpos_of_nonpos_of_nonneg (not_lt.mp hc) (mul_pos b2 b1).le
        linarith
      by_contra hc
      have h2 : y * (D1 * D0) ≤ x * (D1 * D0) := mul_le_mul_of_nonneg_right (not_lt.mp hc) (mul_pos b1 b0).le
      have h3 : x * (D1 * D0) < x * (D2 * D1) := by
        refine mul_lt_mul_of_pos_left ?_ hxp
        nlinarith
      linarith
    intro mu i j h0 h1 hij
    induction j, hij using Nat.le_induction with
    | base => exact fun hj => hstep mu h0 h1 i hj
    | succ j _ ih => exact fun hj => (hstep mu h0 h1 j hj).trans (ih (by omega))
  · intro mu h0 h1 hn
    rw [Finset.sum_range_sub, Deffuant.lead_zero, Deffuant.lead_full h0 hn, sub_zero]

/-! ## the square lattice -/

namespace Deffuant

/-- The lattice of the constructor is balanced. -/
theorem lattice_balanced {L : ℕ} {M : Network DiscreteVectorAgent ℝ} (hM : NetworkGen.lattice L (0 : ℝ) = .ok M) : BalancedRows M.neighbours := by
  obtain ⟨M', hM', hw', hl, -, hrows, hsym, -, -⟩ := C14_lattice (A := DiscreteVectorAgent) L (0 : ℝ)
  rw [hM] at hM'
  cases hM'
  have hlen : ∀ c (hc : c < M.neighbours.length), M.neighbours[c].length = 4 := by
    intro c hcl
    have hcn : c < L * L := by rw [← hl, ← hw'.rows]; exact hcl
    have hL : 0 < L := by
      by_contra hz
      rw [Nat.eq_zero_of_not_pos hz] at hcn
      omega
    have := (hrows (c % L) (c / L) (Nat.mod_lt _ hL) (Nat.div_lt_of_lt_mul hcn)).1
    rw [Nat.mod_add_div, Network.getNeighbours, rd_lt hcl] at this
    rw [Except.ok.inj this]
    rfl
  intro a b ha hb
  have ha' : a < L * L := by rw [← hl, ← hw'.rows]; exact ha
  have hb' : b < L * L := by rw [← hl, ← hw'.rows]; exact hb
  rw [getD_lt _ _ ha, getD_lt _ _ hb, hlen a ha, hlen b hb,
    hsym a b ha' hb' _ _ (by rw [Network.getNeighbours, rd_lt ha]) (by rw [Network.getNeighbours, rd_lt hb])]

end Deffuant

/-- C96 (from the constructor, with `use_network`): on the square lattice, whatever `mu` is and whatever vectors the agents then get, the expected number of
agents with the value `v` at position `k` never changes, and with a threshold above the dimension `v` wins with the probability that is its initial share. -/
theorem C96_lattice (hr : r.IntLawful) (hi : FairIntegers r μ) (hu : Draws r.unit uniform μ) {isqrt : Nat → Nat} {max : Option Int} {thr mu : ℝ}
    {N : Network DiscreteVectorAgent ℝ} {g₀ : G} {s₀ : Deffuant DiscreteVectorAgent ℝ G} (hw : WF N) (hN : N.agents.length < 2 ^ 64)
    (hc : Deffuant.create isqrt max thr mu true N g₀ = .ok s₀) (hn : 2 ≤ N.agents.length) {xs : List DiscreteVectorAgent} (hxs : xs.length = N.agents.length)
    {d : ℕ} (hd : ∀ x ∈ xs, x.opinion.length = d) {k : ℕ} (hk : k < d) (v : Int) (hs : s = { s₀ with network := { s₀.network with agents := xs } }) :
    (∀ t, ∃ final : G → Deffuant DiscreteVectorAgent ℝ G, (∀ g, Iterates (Deffuant.iteration r (Deffuant.updateVector r)) { s with gen := g } t (final g)) ∧
      ∫ g, (holders (final g).network.agents k v : ℝ) ∂μ = holders xs k v) ∧
    ((d : ℝ) < thr → μ {g | SettlesOn r s k v g} = (holders xs k v : ℝ≥0∞) / N.agents.length) := by
  obtain ⟨hready, hthr, hsym⟩ := Deffuant.create_mutual hw hN hc
  have hfacts : s₀.useNetwork = true ∧ s₀.network.agents.length = N.agents.length ∧ BalancedRows s₀.network.neighbours ∧
      ∀ a b, a < N.agents.length → b < N.agents.length → Reaches s₀.network.neighbours a b := by
    unfold Deffuant.create at hc
    rw [if_pos rfl] at hc
    dsimp only at hc
    split at hc
    · cases hc
    · rename_i hsq
      rw [ne_eq, not_not] at hsq
      obtain ⟨M, hM, hc⟩ := Res.bind_eq_ok.mp hc
      cases hc
      obtain ⟨M', hM', -, hl, -, -, -, -, hconn⟩ := C14_lattice (A := DiscreteVectorAgent) (isqrt N.nAgents) (0 : ℝ)
      rw [hM] at hM'
      cases hM'
      rw [hsq] at hl hconn
      exact ⟨rfl, hl, Deffuant.lattice_balanced hM, hconn⟩
  obtain ⟨hun, hlen, hbal, hconn⟩ := hfacts
  have hF : Deffuant.Frame s₀ s := by
    rw [hs]; exact ⟨rfl, rfl, rfl, rfl, rfl, rfl, hxs.trans hlen.symm, rfl⟩
  have hs' := hF.ready hready
  have e1 : s.network.agents = xs := by rw [hs]
  have e2 : s.useNetwork = true := by rw [hs]; exact hun
  have e3 : s.network.neighbours = s₀.network.neighbours := by rw [hs]
  have e4 : s.threshold = thr := by rw [hs]; exact hthr
  have hfair : s.mu = 0 ∨ (s.useNetwork = true ∧ BalancedRows s.network.neighbours) := .inr ⟨e2, by rw [e3]; exact hbal⟩
  have hn' : 2 ≤ s.network.agents.length := by rw [e1, hxs]; exact hn
  have hd' : ∀ x ∈ s.network.agents, x.opinion.length = d := by rw [e1]; exact hd
  constructor
  · intro t
    have := C96_expected hr hi hu hs' hn' hfair hd' hk v t
    rwa [e1] at this
  · intro hθ
    have := C96_share hr hi hu hs' hn' hfair (fun _ a b ha h => Deffuant.balanced_mutual hs' e2 (by rw [e3]; exact hbal) ha h) hd' (by rw [e4]; exact hθ)
      (C74_network_connected hs' (by rw [e1, hxs, e3]; exact hconn)) hk v
    rwa [e1, hxs] at this

/-! ## The hypotheses are met -/

/-- Three agents without network holding 0, 0 and 1, threshold 2, `mu = 1/2`. -/
noncomputable def threeBits : Deffuant DiscreteVectorAgent ℝ (ℕ → ℝ) :=
  ⟨⟨none, 0⟩, 2, 1 / 2, false, ⟨[⟨[0]⟩, ⟨[0]⟩, ⟨[1]⟩], [[], [], []], [[], [], []], .incoming⟩, 0⟩

theorem threeBits_ready : threeBits.Ready where
  wf := by
    refine ⟨rfl, rfl, ?_, ?_⟩
    · intro i h1 h2
      have : i < 3 := h1
      interval_cases i <;> rfl
    · intro row hrow j hj
      have : row = [] := by simpa [threeBits] using hrow
      rw [this] at hj
      cases hj
  size := by simp [threeBits]
  rows h := by cases h

/-- The value 0 of the two agents with the lowest numbers wins with probability 6/7 (and not 2/3). -/
example : tapes {g | SettlesOn fairRng threeBits 0 0 g} = ENNReal.ofReal (6 / 7) := by
  rw [C96_first fairRng_lawful fairRng_fair fairRng_unit threeBits_ready (by simp [threeBits]) rfl (by norm_num [threeBits]) (by norm_num [threeBits]) (d := 1)
    (by
      intro x hx
      simp only [threeBits, List.mem_cons, List.not_mem_nil, or_false] at hx
      rcases hx with rfl | rfl | rfl <;> rfl) (by norm_num [threeBits]) (by norm_num) 0 (m := 2) (by simp [threeBits])
    (by
      intro i hi
      have : i < 3 := hi
      interval_cases i <;> simp [entry, threeBits])]
  congr 1
  norm_num [threeBits]

end Seldon
