import Verif.Props.ActivityDynamics
import Verif.Lemmas.MeanField
import Verif.Spec.MeanField
import Mathlib.Algebra.Order.BigOperators.Ring.Finset
import Mathlib.Tactic.Positivity
import Mathlib.Algebra.BigOperators.Field
import Mathlib.Tactic.NormNum
import Mathlib.Tactic.GCongr
/-!
# Property C49: the mean-field weights
-/
set_option linter.unusedSectionVars false
namespace Seldon
open Spec
variable {A F G : Type}

section
variable [ActiveAgent A F] [LawfulActiveAgent A F] [Field F] [LinearOrder F] [IsStrictOrderedRing F]

theorem cmax_max (a b : F) : cmax a b = max a b := by
  unfold cmax
  rcases lt_or_ge a b with h | h
  · rw [if_pos h, max_eq_right h.le]
  · rw [if_neg (not_lt.mpr h), max_eq_left h]

/-- The probability that agent `i` contacts agent `j` as the code computes it.  (The factor is `max( 1, activity )`, see below.) -/
def contactProbability (o : MathOps F) (p : ActivitySettings F) (agents : List A) (i j : Nat) : F :=
  max 1 (attr ActiveAgent.activity agents i) * rounds (share agents.length
    (preference o.pow (attr ActiveAgent.opinion agents) (homophilyFor p i) i) j) (contactsOf p i).toNat

theorem weight_eq (o : MathOps F) (h : F) (agents : List A) {i j : Nat} (hi : i < agents.length) (hj : j < agents.length) :
    Activity.weight o h agents i j = preference o.pow (attr ActiveAgent.opinion agents) h i j := by
  rw [C43_weights o h agents i j hi hj]
  unfold preference
  rw [cmax_max, Deffuant.cabs_abs, Activity.attr_lt _ hi, Activity.attr_lt _ hj]
  rw [Nat.cast_pow, Nat.cast_ofNat]

theorem probs_eq {o : MathOps F} (ho : ∀ x k, o.powNat x k = x ^ k) (p : ActivitySettings F) (agents : List A) {i j : Nat}
    (hi : i < agents.length) (hj : j < agents.length) : Activity.probs o p agents i j = contactProbability o p agents i j := by
  unfold Activity.probs contactProbability rounds share Activity.helper
  rw [cmax_max, weight_eq o _ agents hi hj]
  have : ∑ k ∈ Finset.range agents.length, Activity.weight o (homophilyFor p i) agents i k =
      ∑ k ∈ Finset.range agents.length, preference o.pow (attr ActiveAgent.opinion agents) (homophilyFor p i) i k := by
    apply Finset.sum_congr rfl
    intro k hk
    exact weight_eq o _ agents hi (Finset.mem_range.mp hk)
  rw [this]
  congr 1
  apply Finset.sum_congr rfl
  intro t _
  rw [ho, add_comm ((-_) ^ _), add_comm _ (1 : F)]

/-- The weights of the network with agents `agents` that the mean-field update leads to. -/
structure MeanWeights (o : MathOps F) (p : ActivitySettings F) (agents : List A) (N : Network A F) : Prop where
  wf : WF N
  incoming : N.direction = .incoming
  /-- every agent `j` listens to every agent `i`, with weight `P_ij + (1 - P_ij) r P_ji` -/
  rows : ∀ j, j < agents.length → row N j = (List.range agents.length).map
    (fun i => (i, listening (contactProbability o p agents) p.reciprocity j i))

theorem Activity.mean_update {o : MathOps F} (ho : ∀ x k, o.powNat x k = x ^ k) (pick : List (Nat × F) → Nat) (r : Rng G F)
    {s : Activity A F G} (h : Activity.MeanReady s) :
    ∃ t, Activity.updateNetwork o pick r s = .ok t ∧ MeanWeights o s.p s.network.agents t.network ∧ Activity.MeanReady t ∧
      t.network.agents = s.network.agents ∧ t.p = s.p ∧ t.gen = s.gen := by
  refine ⟨{
      s with
      network := { s.network with weights := mat s.network.agents.length (fun x y => Activity.probs o s.p s.network.agents y x +
        (1 - Activity.probs o s.p s.network.agents y x) * s.p.reciprocity * Activity.probs o s.p s.network.agents x y) }
      contactProb := mat s.network.agents.length (Activity.probs o s.p s.network.agents) }, ?_, ?_, ?_, rfl, rfl, rfl⟩
  · unfold Activity.updateNetwork
    rw [if_neg (by rw [h.mean]; simp), Activity.updateMean_eq o h]
  · refine ⟨mat_wf rfl h.rows rfl, h.incoming, ?_⟩
    intro j hj
    rw [mat_rows (N := { s.network with weights := mat s.network.agents.length (fun x y => Activity.probs o s.p s.network.agents y x +
        (1 - Activity.probs o s.p s.network.agents y x) * s.p.reciprocity * Activity.probs o s.p s.network.agents x y) }) h.rows rfl hj]
    apply List.map_congr_left
    intro i hi
    have hi := List.mem_range.mp hi
    unfold listening
    rw [probs_eq ho _ _ hi hj, probs_eq ho _ _ hj hi]
  · exact ⟨h.rows, mat_length _ _, h.incoming, mat_length _ _, h.bots, h.botM, h.botHomophily, h.botOpinion, h.nonneg, h.size, h.mean⟩

omit [ActiveAgent A F] [LawfulActiveAgent A F] [Field F] [LinearOrder F] [IsStrictOrderedRing F] in
theorem Activity.MeanReady.agents {s : Activity A F G} (h : s.MeanReady) {l : List A} (hl : l.length = s.network.agents.length) :
    Activity.MeanReady ({ s with network := { s.network with agents := l } } : Activity A F G) := by
  constructor
  · simp only [hl]; exact h.rows
  · simp only [hl]; exact h.wrows
  · exact h.incoming
  · simp only [hl]; exact h.probs
  · simp only [hl]; exact h.bots
  · exact h.botM
  · exact h.botHomophily
  · exact h.botOpinion
  · simp only [hl]; exact h.nonneg
  · simp only [hl]; exact h.size
  · exact h.mean

theorem MeanWeights.agents {o : MathOps F} {p : ActivitySettings F} {agents l : List A} {N : Network A F} (h : MeanWeights o p agents N)
    (hl : l.length = N.agents.length) : MeanWeights o p agents ({ N with agents := l } : Network A F) := by
  refine ⟨⟨?_, ?_, h.wf.lengths, ?_⟩, h.incoming, h.rows⟩
  · simpa [hl] using h.wf.rows
  · simpa [hl] using h.wf.wrows
  · simpa [hl] using h.wf.range

/-- C49 (activity-driven model): an iteration with `mean_weights` succeeds and gives all pairs of agents their weights
`P_ij + (1 - P_ij) r P_ji`, where `P` is computed from the opinions before the iteration; no random number is used. -/
theorem C49_activity {o : MathOps F} (ho : ∀ x k, o.powNat x k = x ^ k) (pick : List (Nat × F) → Nat) (r : Rng G F)
    {s : Activity A F G} (h : Activity.MeanReady s) :
    ∃ t, Activity.iteration o pick r s = .ok t ∧ MeanWeights o s.p s.network.agents t.network ∧ Activity.MeanReady t ∧ t.gen = s.gen := by
  obtain ⟨t, h1, h2, h3, h4, h5, h6⟩ := Activity.mean_update ho pick r (s := { s with counter := s.counter.tick })
    ⟨h.rows, h.wrows, h.incoming, h.probs, h.bots, h.botM, h.botHomophily, h.botOpinion, h.nonneg, h.size, h.mean⟩
  simp only at h2 h4 h5 h6
  obtain ⟨l, h7, hl⟩ : ∃ l, Activity.rkStep o s.p t.network = .ok l ∧ l.length = t.network.agents.length :=
    ⟨_, Activity.rkStep_eq o s.p h2.wf (by rw [h4]; exact h.bots) h.botOpinion, by simp⟩
  refine ⟨{ t with network := { t.network with agents := l } }, ?_, h2.agents hl, h3.agents hl, h6⟩
  unfold Activity.iteration
  rw [h1, Res.bind_ok, h5, h7, Res.bind_ok]

/-- C49 (inertial model): the same. -/
theorem C49_inertial {o : MathOps F} (ho : ∀ x k, o.powNat x k = x ^ k) (pick : List (Nat × F) → Nat) (r : Rng G F)
    {s : Inertial F G} (h : Activity.MeanReady s.base) :
    ∃ t, Inertial.iteration o pick r s = .ok t ∧ MeanWeights o s.base.p s.base.network.agents t.base.network ∧ Activity.MeanReady t.base ∧
      t.base.gen = s.base.gen := by
  obtain ⟨t, h1, h2, h3, h4, h5, h6⟩ := Activity.mean_update ho pick r (s := { s.base with counter := s.base.counter.tick })
    ⟨h.rows, h.wrows, h.incoming, h.probs, h.bots, h.botM, h.botHomophily, h.botOpinion, h.nonneg, h.size, h.mean⟩
  simp only at h2 h4 h5 h6
  obtain ⟨l, h7, hl⟩ : ∃ l, Inertial.verletStep o s.base.p s.friction t.network = .ok l ∧ l.length = t.network.agents.length :=
    ⟨_, Inertial.verletStep_eq o s.base.p s.friction h2.wf (by rw [h4]; exact h.bots) h.botOpinion, by simp⟩
  refine ⟨{ s with base := { t with network := { t.network with agents := l } } }, ?_, h2.agents hl, h3.agents hl, h6⟩
  unfold Inertial.iteration
  rw [h1, Res.bind_ok, h5, h7, Res.bind_ok]

/-- C49: hence any number of iterations succeeds. -/
theorem C49_total {o : MathOps F} (ho : ∀ x k, o.powNat x k = x ^ k) (pick : List (Nat × F) → Nat) (r : Rng G F)
    {s : Activity A F G} (h : Activity.MeanReady s) (k : Nat) : ∃ t, Iterates (Activity.iteration o pick r) s k t ∧ Activity.MeanReady t := by
  induction k with
  | zero => exact ⟨s, .zero, h⟩
  | succ k ih =>
    obtain ⟨t, ht, hr⟩ := ih
    obtain ⟨u, hu, -, hu', -⟩ := C49_activity ho pick r hr
    exact ⟨u, .succ ht hu, hu'⟩

theorem C49_total_inertial {o : MathOps F} (ho : ∀ x k, o.powNat x k = x ^ k) (pick : List (Nat × F) → Nat) (r : Rng G F)
    {s : Inertial F G} (h : Activity.MeanReady s.base) (k : Nat) :
    ∃ t, Iterates (Inertial.iteration o pick r) s k t ∧ Activity.MeanReady t.base := by
  induction k with
  | zero => exact ⟨s, .zero, h⟩
  | succ k ih =>
    obtain ⟨t, ht, hr⟩ := ih
    obtain ⟨u, hu, -, hu', -⟩ := C49_inertial ho pick r hr
    exact ⟨u, .succ ht hu, hu'⟩

/-! ## are they probabilities? -/

/-- One round: `( ω + (-ω)^(t+2) ) / ( 1 + ω ) = ω ( 1 - (-ω)^(t+1) ) / ( 1 + ω )` lies in `[0, ω]`... -/
theorem round_bounds {ω : F} (h0 : 0 ≤ ω) (h1 : ω ≤ 1) (t : Nat) :
    0 ≤ (ω + (-ω) ^ (t + 2)) / (1 + ω) ∧ (ω + (-ω) ^ (t + 2)) / (1 + ω) ≤ ω := by
  have hp : 0 < 1 + ω := by linarith
  have hab : |(-ω) ^ (t + 2)| ≤ ω ^ 2 := by
    rw [abs_pow, abs_neg, abs_of_nonneg h0]
    exact pow_le_pow_of_le_one h0 h1 (by omega)
  obtain ⟨a, b⟩ := abs_le.mp hab
  constructor
  · apply div_nonneg _ hp.le
    nlinarith
  · rw [div_le_iff₀ hp]
    nlinarith

theorem rounds_bounds {ω : F} (h0 : 0 ≤ ω) (h1 : ω ≤ 1) (m : Nat) : 0 ≤ rounds ω m ∧ rounds ω m ≤ m * ω := by
  unfold rounds
  constructor
  · exact Finset.sum_nonneg (fun t _ => (round_bounds h0 h1 t).1)
  · have := Finset.sum_le_sum (s := Finset.range m) (fun t _ => (round_bounds h0 h1 t).2)
    simpa using this

theorem rounds_one {ω : F} (h0 : 0 ≤ ω) : rounds ω 1 = ω := by
  have hp : (1 : F) + ω ≠ 0 := by
    have : 0 < 1 + ω := by linarith
    exact this.ne'
  unfold rounds
  rw [Finset.sum_range_one]
  field_simp
  ring

theorem preference_nonneg {pow : F → F → F} (hpow : ∀ x y, 0 < x → 0 < pow x y) (x : Nat → F) (h : F) (i j : Nat) :
    0 ≤ preference pow x h i j := by
  unfold preference
  split
  · exact le_refl _
  · exact (hpow _ _ (lt_of_lt_of_le (by positivity) (le_max_left _ _))).le

theorem preference_pos {pow : F → F → F} (hpow : ∀ x y, 0 < x → 0 < pow x y) (x : Nat → F) (h : F) {i j : Nat} (hij : j ≠ i) :
    0 < preference pow x h i j := by
  unfold preference
  rw [if_neg hij]
  exact hpow _ _ (lt_of_lt_of_le (by positivity) (le_max_left _ _))

theorem share_bounds {n : Nat} {w : Nat → F} (h : ∀ k, 0 ≤ w k) {j : Nat} (hj : j < n) : 0 ≤ share n w j ∧ share n w j ≤ 1 := by
  unfold share
  have hs : 0 ≤ ∑ k ∈ Finset.range n, w k := Finset.sum_nonneg (fun k _ => h k)
  refine ⟨div_nonneg (h j) hs, ?_⟩
  apply div_le_one_of_le₀ _ hs
  exact Finset.single_le_sum (f := w) (fun k _ => h k) (Finset.mem_range.mpr hj)

theorem share_sum {n : Nat} {w : Nat → F} (h : 0 < ∑ k ∈ Finset.range n, w k) : ∑ j ∈ Finset.range n, share n w j = 1 := by
  unfold share
  rw [← Finset.sum_div, div_self h.ne']

theorem preference_sum_pos {pow : F → F → F} (hpow : ∀ x y, 0 < x → 0 < pow x y) (x : Nat → F) (h : F) {n i : Nat} (hn : 2 ≤ n) :
    0 < ∑ k ∈ Finset.range n, preference pow x h i k := by
  apply Finset.sum_pos' (fun k _ => preference_nonneg hpow x h i k)
  by_cases hi : i = 0
  · exact ⟨1, by simp; omega, preference_pos hpow x h (by omega)⟩
  · exact ⟨0, by simp; omega, preference_pos hpow x h (by omega)⟩

/-- C49 (what is true of the contact probabilities in general): they are not negative, and at most `max( 1, activity ) · m · ω`, where
`ω` is the share of `j` in the preferences of `i`.  Missing for the full property: that they are at most 1, and that they are proportional to
the activity; both are false (below). -/
theorem C49_bounds_partial {o : MathOps F} (hpow : ∀ x y, 0 < x → 0 < o.pow x y) (p : ActivitySettings F) (agents : List A) {i j : Nat}
    (hj : j < agents.length) : 0 ≤ contactProbability o p agents i j ∧
    contactProbability o p agents i j ≤ max 1 (attr ActiveAgent.activity agents i) * ((contactsOf p i).toNat *
      share agents.length (preference o.pow (attr ActiveAgent.opinion agents) (homophilyFor p i) i) j) := by
  obtain ⟨a, b⟩ := share_bounds (n := agents.length)
    (fun k => preference_nonneg hpow (attr ActiveAgent.opinion agents) (homophilyFor p i) i k) hj
  obtain ⟨c, d⟩ := rounds_bounds a b (contactsOf p i).toNat
  have hm : (0 : F) ≤ max 1 (attr ActiveAgent.activity agents i) := le_trans zero_le_one (le_max_left _ _)
  exact ⟨mul_nonneg hm c, mul_le_mul_of_nonneg_left d hm⟩

/-- C49 (when they are probabilities): an agent with activity at most 1 that makes one contact contacts `j` with probability equal to the
share of `j`; this is a probability distribution. -/
theorem C49_one_contact {o : MathOps F} (hpow : ∀ x y, 0 < x → 0 < o.pow x y) {p : ActivitySettings F} {agents : List A} {i : Nat}
    (hm : contactsOf p i = 1) (ha : attr ActiveAgent.activity agents i ≤ 1) :
    (∀ j, j < agents.length → contactProbability o p agents i j =
        share agents.length (preference o.pow (attr ActiveAgent.opinion agents) (homophilyFor p i) i) j ∧
      0 ≤ contactProbability o p agents i j ∧ contactProbability o p agents i j ≤ 1) ∧ contactProbability o p agents i i = 0 ∧
    (2 ≤ agents.length → ∑ j ∈ Finset.range agents.length, contactProbability o p agents i j = 1) := by
  have key : ∀ j, j < agents.length → contactProbability o p agents i j =
      share agents.length (preference o.pow (attr ActiveAgent.opinion agents) (homophilyFor p i) i) j := by
    intro j hj
    unfold contactProbability
    rw [hm, max_eq_left ha, one_mul]
    exact rounds_one (share_bounds (fun k => preference_nonneg hpow _ _ i k) hj).1
  refine ⟨?_, ?_, ?_⟩
  · intro j hj
    rw [key j hj]
    exact ⟨rfl, share_bounds (fun k => preference_nonneg hpow _ _ i k) hj⟩
  · unfold contactProbability share preference
    rw [hm, max_eq_left ha, one_mul, if_pos rfl, zero_div]
    exact rounds_one (le_refl 0)
  · intro hn
    rw [Finset.sum_congr rfl (fun j hj => key j (Finset.mem_range.mp hj))]
    exact share_sum (preference_sum_pos hpow _ _ hn)

/-- C49 (when they are probabilities): if `P_ij` and `P_ji` are probabilities and `0 ≤ reciprocity ≤ 1` then so is the weight. -/
theorem C49_weight_range {P : Nat → Nat → F} {r : F} {i j : Nat} (hr0 : 0 ≤ r) (hr1 : r ≤ 1) (h0 : 0 ≤ P i j) (h1 : P i j ≤ 1)
    (h0' : 0 ≤ P j i) (h1' : P j i ≤ 1) : P i j ≤ listening P r j i ∧ 0 ≤ listening P r j i ∧ listening P r j i ≤ 1 := by
  unfold listening
  have a : 0 ≤ (1 - P i j) * r * P j i := mul_nonneg (mul_nonneg (by linarith) hr0) h0'
  have b : r * P j i ≤ 1 := mul_le_one₀ hr1 h0' h1'
  have c : (1 - P i j) * (r * P j i) ≤ (1 - P i j) * 1 := mul_le_mul_of_nonneg_left b (by linarith)
  refine ⟨by linarith, by linarith, by nlinarith⟩

/-- C49 (the activity has no effect): two populations with the same opinions whose activities are at most 1, as all activities drawn from the
power law are (C25), have the same contact probabilities - whatever the activities. -/
theorem C49_activity_ignored (o : MathOps F) (p : ActivitySettings F) {agents agents' : List A}
    (hx : agents.map (ActiveAgent.opinion (F := F)) = agents'.map ActiveAgent.opinion) {i : Nat} (j : Nat)
    (ha : attr ActiveAgent.activity agents i ≤ 1) (ha' : attr ActiveAgent.activity agents' i ≤ 1) :
    contactProbability o p agents i j = contactProbability o p agents' i j := by
  have hl : agents.length = agents'.length := by simpa using congrArg List.length hx
  have hx' : attr ActiveAgent.opinion agents = attr (F := F) ActiveAgent.opinion agents' := by
    funext k
    unfold attr
    rw [hx]
  unfold contactProbability
  rw [max_eq_left ha, max_eq_left ha', hl, hx']

theorem rounds_two (k : Nat) : rounds (1 : F) (2 * k + 1) = k + 1 := by
  induction k with
  | zero => simp [rounds_one]
  | succ k ih =>
    have : 2 * (k + 1) + 1 = 2 * k + 1 + 1 + 1 := by ring
    rw [this]
    unfold rounds at ih ⊢
    rw [Finset.sum_range_succ, Finset.sum_range_succ, ih]
    have e1 : ((-1 : F)) ^ (2 * k + 1 + 2) = -1 := by
      rw [show 2 * k + 1 + 2 = 2 * (k + 1) + 1 by ring, pow_succ, pow_mul]; simp
    have e2 : ((-1 : F)) ^ (2 * k + 1 + 1 + 2) = 1 := by
      rw [show 2 * k + 1 + 1 + 2 = 2 * (k + 2) by ring, pow_mul]; simp
    rw [e1, e2]
    push_cast
    norm_num

/-- C49 (not probabilities): with two agents and `m = 2k + 1` the "probability" of contacting the other agent is `k + 1`, and the weights are
`(k + 1) (1 - k r)`: negative as soon as `k r > 1`. -/
theorem C49_two_agents {o : MathOps F} (hpow : ∀ x y, 0 < x → 0 < o.pow x y) {p : ActivitySettings F} {agents : List A}
    (hn : agents.length = 2) (ha : ∀ i, attr ActiveAgent.activity agents i ≤ 1) {k : Nat} (h0 : contactsOf p 0 = 2 * k + 1)
    (h1 : contactsOf p 1 = 2 * k + 1) :
    contactProbability o p agents 0 1 = k + 1 ∧ contactProbability o p agents 1 0 = k + 1 ∧
    listening (contactProbability o p agents) p.reciprocity 0 1 = (k + 1) * (1 - k * p.reciprocity) := by
  have s0 : share 2 (preference o.pow (attr ActiveAgent.opinion agents) (homophilyFor p 0) 0) 1 = 1 := by
    unfold share
    rw [Finset.sum_range_succ, Finset.sum_range_one]
    have := preference_pos hpow (attr ActiveAgent.opinion agents) (homophilyFor p 0) (i := 0) (j := 1) (by omega)
    have z : preference o.pow (attr ActiveAgent.opinion agents) (homophilyFor p 0) 0 0 = 0 := by simp [preference]
    rw [z, zero_add, div_self this.ne']
  have s1 : share 2 (preference o.pow (attr ActiveAgent.opinion agents) (homophilyFor p 1) 1) 0 = 1 := by
    unfold share
    rw [Finset.sum_range_succ, Finset.sum_range_one]
    have := preference_pos hpow (attr ActiveAgent.opinion agents) (homophilyFor p 1) (i := 1) (j := 0) (by omega)
    have z : preference o.pow (attr ActiveAgent.opinion agents) (homophilyFor p 1) 1 1 = 0 := by simp [preference]
    rw [z, add_zero, div_self this.ne']
  have e0 : (contactsOf p 0).toNat = 2 * k + 1 := by omega
  have e1 : (contactsOf p 1).toNat = 2 * k + 1 := by omega
  have p0 : contactProbability o p agents 0 1 = k + 1 := by
    unfold contactProbability
    rw [hn, s0, e0, max_eq_left (ha 0), one_mul, rounds_two]
  have p1 : contactProbability o p agents 1 0 = k + 1 := by
    unfold contactProbability
    rw [hn, s1, e1, max_eq_left (ha 1), one_mul, rounds_two]
  refine ⟨p0, p1, ?_⟩
  unfold listening
  rw [p0, p1]
  ring

end

/-! ## concrete cases -/

/-- Four agents in mean-field mode. -/
def Activity.sampleMean : Activity (ActivityAgent ℚ) ℚ Nat where
  counter := ⟨some 3, 0⟩
  p := { Activity.settings with meanWeights := true, m := 1 }
  network := ⟨[⟨0, 1, 1⟩, ⟨1/2, 1/5, 1⟩, ⟨-1/2, 1, 1⟩, ⟨1, 1/5, 1⟩], List.replicate 4 [0, 1, 2, 3], List.replicate 4 [0, 0, 0, 0], .incoming⟩
  contactProb := [[], [], [], []]
  gen := 0

theorem Activity.sampleMean_ready : Activity.sampleMean.MeanReady := by
  constructor <;> decide +kernel

example : ∃ t, Activity.iteration ratOps firstMin counterRng Activity.sampleMean = .ok t ∧
    MeanWeights ratOps Activity.sampleMean.p Activity.sampleMean.network.agents t.network ∧
    listening (contactProbability ratOps Activity.sampleMean.p Activity.sampleMean.network.agents) (1/2) 0 1 = 13/25 := by
  obtain ⟨t, h, h', -⟩ := C49_activity (o := ratOps) (fun _ _ => rfl) firstMin counterRng Activity.sampleMean_ready
  exact ⟨t, h, h', by decide +kernel⟩

/-- Two agents, five contacts each, `reciprocity = 1`: probabilities 3 and weights -3. -/
example : contactProbability ratOps { Activity.settings with m := 5 } [(⟨0, 1, 1⟩ : ActivityAgent ℚ), ⟨1, 1/5, 1⟩] 0 1 = 3 ∧
    listening (contactProbability ratOps { Activity.settings with m := 5 } [(⟨0, 1, 1⟩ : ActivityAgent ℚ), ⟨1, 1/5, 1⟩]) 1 0 1 = -3 := by
  constructor <;> decide +kernel

end Seldon
