import Verif.Props.MeanDynamics
import Verif.Lemmas.ScalarRk
/-!
# Property C106: the radicalisation threshold in mean-field mode
-/
set_option linter.unusedSectionVars false
namespace Seldon
open Spec Filter Topology
variable {A F G : Type}

section
variable [Field F] [LinearOrder F] [IsStrictOrderedRing F]

/-- How strongly `n` identical agents that make `m` contacts each act on one of them: `K / ρ` (social interaction strength over reluctance) times the sum of the
weights `P + (1 - P) r P` of the `n - 1` others. `P` is the probability of a contact with one of `n - 1` agents that are equally attractive. -/
def Spec.coupling (K ρ r : F) (n m : Nat) : F :=
  let P := rounds (1 / ((n : F) - 1)) m
  K / ρ * (((n : F) - 1) * (P + (1 - P) * r * P))

/-- One contact per agent: `K / ρ ( 1 + r ( n - 2 ) / ( n - 1 ) )`. -/
theorem coupling_one (K ρ r : F) {n : Nat} (hn : 2 ≤ n) : Spec.coupling K ρ r n 1 = K / ρ * (1 + r * ((n - 2) / (n - 1))) := by
  have h1 : (0 : F) < n - 1 := by
    have : (2 : F) ≤ n := by exact_mod_cast hn
    linarith
  unfold Spec.coupling
  rw [rounds_one (by positivity)]
  field_simp
  ring

variable [ActiveAgent A F] [LawfulActiveAgent A F]

/-- All agents have the same opinion `x` and the same reluctance `ρ`, and there are no bots. -/
structure Spec.Alike (s : Activity A F G) (x ρ : F) : Prop where
  opinion : ∀ i, i < s.network.agents.length → attr ActiveAgent.opinion s.network.agents i = x
  reluctance : ∀ i, i < s.network.agents.length → attr ActiveAgent.reluctance s.network.agents i = ρ
  bots : s.p.nBots = 0

/-- Equal preferences for all other agents give equal probabilities of a contact. -/
theorem contactProbability_uniform {o : MathOps F} {p : ActivitySettings F} {agents : List A} {i j : Nat} {q : F} (hq : 0 < q)
    (hact : attr ActiveAgent.activity agents i ≤ 1) (hi : i < agents.length) (hj : j < agents.length)
    (hp : ∀ k, k < agents.length → preference o.pow (attr ActiveAgent.opinion agents) (homophilyFor p i) i k = if k = i then 0 else q) :
    contactProbability o p agents i j = if j = i then 0 else rounds (1 / ((agents.length : F) - 1)) (contactsOf p i).toNat := by
  unfold contactProbability
  rw [max_eq_left hact, one_mul]
  split_ifs with hij
  · have : share agents.length (preference o.pow (attr ActiveAgent.opinion agents) (homophilyFor p i) i) j = 0 := by
      unfold share; rw [hp j hj, if_pos hij, zero_div]
    rw [this]
    unfold rounds
    apply Finset.sum_eq_zero
    intro t _
    rw [neg_zero, zero_pow (by omega), add_zero, zero_div]
  · congr 1
    unfold share
    rw [hp j hj, if_neg hij, Finset.sum_congr rfl fun k hk => hp k (Finset.mem_range.mp hk), ← Finset.add_sum_erase _ _ (Finset.mem_range.mpr hi), if_pos rfl,
      zero_add, Finset.sum_congr rfl fun k hk => if_neg (Finset.ne_of_mem_erase hk), Finset.sum_const, Finset.card_erase_of_mem (Finset.mem_range.mpr hi),
      Finset.card_range, nsmul_eq_mul, Nat.cast_sub (by omega), Nat.cast_one]
    rw [div_mul_eq_div_div_swap, div_self hq.ne']

theorem contactProbability_alike {o : MathOps F} (ho : Spec.Powers o) {s : Activity A F G} {c : Nat} {x ρ : F} (h : Spec.MeanField s c) (ha : Spec.Alike s x ρ)
    {i j : Nat} (hi : i < s.network.agents.length) (hj : j < s.network.agents.length) : contactProbability o s.p s.network.agents i j =
      if j = i then 0 else rounds (1 / ((s.network.agents.length : F) - 1)) s.p.m.toNat := by
  have hc : contactsOf s.p i = s.p.m := by unfold contactsOf; rw [if_neg (by rw [ha.bots]; omega)]
  rw [← hc]
  refine contactProbability_uniform (ho.pos (1 / 10 ^ 10) (-homophilyFor s.p i) (by positivity)) (h.activity i hi) hi hj fun k hk => ?_
  unfold preference
  rw [ha.opinion i hi, ha.opinion k hk, sub_self, abs_zero, max_eq_left (show (0 : F) ≤ 1 / 10 ^ 10 by positivity)]

/-- The total influence of a population on one of its agents. -/
theorem weightedSum_alike {o : MathOps F} (ho : Spec.Powers o) {s : Activity A F G} {c : Nat} {x ρ : F} (h : Spec.MeanField s c) (ha : Spec.Alike s x ρ)
    {N : Network A F} (hN : MeanWeights o s.p s.network.agents N) {y : Nat → F} {v : F} (hy : ∀ j, j < s.network.agents.length → y j = v) {i : Nat}
    (hi : i < s.network.agents.length) :
    s.p.K / ρ * weightedSum N y i = Spec.coupling s.p.K ρ s.p.reciprocity s.network.agents.length s.p.m.toNat * v := by
  unfold weightedSum Spec.coupling
  set n := s.network.agents.length with hn
  set P := rounds (1 / ((n : F) - 1)) s.p.m.toNat with hP
  rw [hN.rows i hi, List.map_map]
  have e : ((List.range n).map ((fun e : Nat × F => e.2 * y e.1) ∘ fun j => (j, listening (contactProbability o s.p s.network.agents) s.p.reciprocity i j))).sum =
      ∑ j ∈ Finset.range n, (if j = i then 0 else (P + (1 - P) * s.p.reciprocity * P) * v) := by
    rw [Finset.sum_range, ← List.sum_ofFn]
    congr 1
    apply List.ext_getElem
    · simp [hn]
    · intro j h1 h2
      have hj : j < n := by simpa [hn] using h1
      simp only [List.getElem_map, List.getElem_range, Function.comp, List.getElem_ofFn]
      unfold listening
      rw [contactProbability_alike ho h ha hi hj, contactProbability_alike ho h ha hj hi, hy j hj, ← hn, ← hP]
      by_cases hij : j = i
      · subst hij; simp
      · rw [if_neg (fun h => hij h.symm), if_neg hij, if_neg hij]
  rw [e, ← Finset.add_sum_erase _ _ (Finset.mem_range.mpr hi), if_pos rfl, zero_add, Finset.sum_congr rfl fun k hk => if_neg (Finset.ne_of_mem_erase hk),
    Finset.sum_const, Finset.card_erase_of_mem (Finset.mem_range.mpr hi), Finset.card_range, nsmul_eq_mul, Nat.cast_sub (by omega), Nat.cast_one]
  ring

/-- C106, one iteration: agents that are alike stay alike, and their common opinion makes one Runge-Kutta step of the single equation
`dx/dt = -x + κ tanh( α x )`. -/
theorem C106_step {o : MathOps F} (ho : Spec.Powers o) {pick : List (Nat × F) → Nat} {r : Rng G F} {s t : Activity A F G} {c : Nat} {x ρ : F}
    (h : Spec.MeanField s c) (ha : Spec.Alike s x ρ) (ht : Activity.iteration o pick r s = .ok t) :
    Spec.Alike t (Scalar.step (fun y => -y + Spec.coupling s.p.K ρ s.p.reciprocity s.network.agents.length s.p.m.toNat * o.tanh (s.p.alpha * y)) s.p.dt x) ρ := by
  obtain ⟨u, hu, hM, -⟩ := C49_activity ho.nat pick r h.ready
  obtain rfl := Except.ok.inj (ht.symm.trans hu)
  obtain ⟨f, fp, -⟩ := Activity.iteration_frame ht
  have hlen := f.traits.length
  set n := s.network.agents.length with hn
  set κ := Spec.coupling s.p.K ρ s.p.reciprocity n s.p.m.toNat with hκ
  refine ⟨fun i hi => ?_, fun i hi => ?_, by rw [fp]; exact ha.bots⟩
  · rw [hlen] at hi
    rw [C47_rk4 ht hM.wf (by rw [ha.bots]; omega) hi]
    have hr : ∀ (y : Nat → F) v, (∀ j, j < n → y j = v) → ∀ j, j < n →
        rate o.tanh s.p.K s.p.alpha t.network (attr ActiveAgent.reluctance s.network.agents) y j = -v + κ * o.tanh (s.p.alpha * v) := by
      intro y v hy j hj
      unfold rate
      rw [ha.reluctance j hj, hy j hj, weightedSum_alike ho h ha hM (fun j hj => by rw [hy j hj]) hj]
    unfold rk4 Scalar.step
    have h1 := hr _ x ha.opinion
    have h2 := hr _ _ (fun j hj => by rw [ha.opinion j hj, h1 j hj] :
      ∀ j, j < n → attr ActiveAgent.opinion s.network.agents j +
        s.p.dt / 2 * rate o.tanh s.p.K s.p.alpha t.network (attr ActiveAgent.reluctance s.network.agents) (attr ActiveAgent.opinion s.network.agents) j = _)
    have h3 := hr _ _ (fun j hj => by rw [ha.opinion j hj, h2 j hj] :
      ∀ j, j < n → attr ActiveAgent.opinion s.network.agents j +
        s.p.dt / 2 * rate o.tanh s.p.K s.p.alpha t.network (attr ActiveAgent.reluctance s.network.agents) _ j = _)
    have h4 := hr _ _ (fun j hj => by rw [ha.opinion j hj, h3 j hj] :
      ∀ j, j < n → attr ActiveAgent.opinion s.network.agents j +
        s.p.dt * rate o.tanh s.p.K s.p.alpha t.network (attr ActiveAgent.reluctance s.network.agents) _ j = _)
    dsimp only
    rw [h1 i hi, h2 i hi, h3 i hi, h4 i hi, ha.opinion i hi]
  · rw [hlen] at hi
    have := ha.reluctance i hi
    unfold attr at this ⊢
    rw [f.traits.2]; exact this

/-- C106, all iterations: agents that are alike stay alike. -/
theorem C106_alike {o : MathOps F} (ho : Spec.Powers o) {pick : List (Nat × F) → Nat} {r : Rng G F} {s : Activity A F G} {c : Nat} {x ρ : F}
    (h : Spec.MeanField s c) (ha : Spec.Alike s x ρ) (run : Nat → Activity A F G) (hrun : ∀ k, Iterates (Activity.iteration o pick r) s k (run k)) :
    ∃ u : Nat → F, u 0 = x ∧ (∀ k, u (k + 1) =
        Scalar.step (fun y => -y + Spec.coupling s.p.K ρ s.p.reciprocity s.network.agents.length s.p.m.toNat * o.tanh (s.p.alpha * y)) s.p.dt (u k)) ∧
      ∀ k i, i < s.network.agents.length → attr ActiveAgent.opinion (run k).network.agents i = u k := by
  set f := Scalar.step (fun y => -y + Spec.coupling s.p.K ρ s.p.reciprocity s.network.agents.length s.p.m.toNat * o.tanh (s.p.alpha * y)) s.p.dt with hf
  refine ⟨fun k => f^[k] x, rfl, fun k => Function.iterate_succ_apply' _ _ _, ?_⟩
  have key : ∀ k t, Iterates (Activity.iteration o pick r) s k t → Spec.Alike t (f^[k] x) ρ := by
    intro k t ht
    induction ht with
    | zero => exact ha
    | @succ k t u ht hu ih =>
      obtain ⟨e1, -, e3, -⟩ := C42_activity ht
      have hlen : t.network.agents.length = s.network.agents.length := by
        have := congrArg List.length e1; simpa using this
      have := C106_step ho (h.iterates ho ht) ih hu
      rw [e3, hlen] at this
      rw [Function.iterate_succ_apply']
      exact this
  intro k i hi
  have hlen : (run k).network.agents.length = s.network.agents.length := by
    have := congrArg List.length (C42_activity (hrun k)).1; simpa using this
  exact (key k _ (hrun k)).opinion i (by rw [hlen]; exact hi)

end

/-- C106: a run of the model in mean-field mode, started with agents that are alike. With `κ = K / ρ · Σ_j w_ij` (`Spec.coupling`): up to the threshold `κ α = 1`
the common opinion tends to 0; above it there is exactly one positive solution `w` of `w = κ tanh( α w )`, and the opinions tend to `w` or to `-w` or stay 0,
according to the sign of the initial opinion, however small it is. -/
theorem C106_threshold [ActiveAgent A ℝ] [LawfulActiveAgent A ℝ] {o : MathOps ℝ} (ho : Spec.Powers o) (htanh : o.tanh = Real.tanh)
    {pick : List (Nat × ℝ) → Nat} {r : Rng G ℝ} {s : Activity A ℝ G} {c : Nat} {x ρ : ℝ} (h : Spec.MeanField s c) (ha : Spec.Alike s x ρ)
    (h0 : 0 < s.p.dt) (h1 : s.p.dt ≤ 1) (halpha : 0 < s.p.alpha)
    (run : Nat → Activity A ℝ G) (hrun : ∀ k, Iterates (Activity.iteration o pick r) s k (run k)) :
    let κ := Spec.coupling s.p.K ρ s.p.reciprocity s.network.agents.length s.p.m.toNat
    let opinionsTendTo := fun l => ∀ i, i < s.network.agents.length → Tendsto (fun k => attr ActiveAgent.opinion (run k).network.agents i) atTop (𝓝 l)
    (0 ≤ κ → κ * s.p.alpha ≤ 1 → opinionsTendTo 0) ∧
    (1 < κ * s.p.alpha → ∃ w, (0 < w ∧ w = κ * Real.tanh (s.p.alpha * w)) ∧ (∀ v, 0 < v → v = κ * Real.tanh (s.p.alpha * v) → v = w) ∧
      (0 < x → opinionsTendTo w) ∧ (x < 0 → opinionsTendTo (-w)) ∧ (x = 0 → opinionsTendTo 0)) := by
  intro κ opinionsTendTo
  obtain ⟨u, hu0, hu, hall⟩ := C106_alike ho h ha run hrun
  rw [htanh] at hu
  have hlim : ∀ l, Tendsto u atTop (𝓝 l) → opinionsTendTo l := by
    intro l hl i hi
    exact hl.congr fun k => (hall k i hi).symm
  have hneg : ∀ k, -u (k + 1) = Scalar.step (fun y => -y + κ * Real.tanh (s.p.alpha * y)) s.p.dt (-u k) := by
    intro k
    rw [Scalar.odd, hu]
  refine ⟨fun hκ hle => hlim 0 ?_, fun hgt => ?_⟩
  · rcases le_total 0 (u 0) with hp | hp
    · exact Scalar.neutral h0 h1 halpha hκ hle hu hp
    · have := Scalar.neutral (u := fun k => -u k) h0 h1 halpha hκ hle hneg (by linarith)
      simpa using this.neg
  · obtain ⟨w, ⟨hw0, hw⟩, huniq⟩ := Scalar.exists_unique halpha hgt
    refine ⟨w, ⟨hw0, hw⟩, fun v a b => huniq v ⟨a, b⟩, fun hx => hlim _ ?_, fun hx => hlim _ ?_, fun hx => hlim _ ?_⟩
    · exact Scalar.radical h0 h1 halpha hgt hw0 hw hu (by rw [hu0]; exact hx)
    · have := Scalar.radical (u := fun k => -u k) h0 h1 halpha hgt hw0 hw hneg (by rw [hu0]; linarith)
      simpa using this.neg
    · have hz : ∀ k, u k = 0 := by
        intro k
        induction k with
        | zero => rw [hu0, hx]
        | succ k ih => rw [hu, ih]; simp [Scalar.step]
      exact tendsto_const_nhds.congr fun k => (hz k).symm

/-- C106, one contact per agent: the threshold is `K α ( 1 + r ( n - 2 ) / ( n - 1 ) ) = ρ`. -/
theorem C106_one_contact [ActiveAgent A ℝ] [LawfulActiveAgent A ℝ] {o : MathOps ℝ} (ho : Spec.Powers o) (htanh : o.tanh = Real.tanh)
    {pick : List (Nat × ℝ) → Nat} {r : Rng G ℝ} {s : Activity A ℝ G} {c : Nat} {x ρ : ℝ} (h : Spec.MeanField s c) (ha : Spec.Alike s x ρ)
    (hn : 2 ≤ s.network.agents.length) (hm : s.p.m = 1) (hρ : 0 < ρ) (hK : 0 ≤ s.p.K) (hx : x ≠ 0)
    (h0 : 0 < s.p.dt) (h1 : s.p.dt ≤ 1) (halpha : 0 < s.p.alpha)
    (run : Nat → Activity A ℝ G) (hrun : ∀ k, Iterates (Activity.iteration o pick r) s k (run k)) {i : Nat} (hi : i < s.network.agents.length) :
    Tendsto (fun k => attr ActiveAgent.opinion (run k).network.agents i) atTop (𝓝 0) ↔
      s.p.K * s.p.alpha * (1 + s.p.reciprocity * ((s.network.agents.length - 2) / (s.network.agents.length - 1))) ≤ ρ := by
  have hn' : (2 : ℝ) ≤ s.network.agents.length := by exact_mod_cast hn
  have hq : 0 ≤ ((s.network.agents.length : ℝ) - 2) / (s.network.agents.length - 1) := div_nonneg (by linarith) (by linarith)
  have hq2 : 0 ≤ 1 + s.p.reciprocity * (((s.network.agents.length : ℝ) - 2) / (s.network.agents.length - 1)) := by
    have := mul_nonneg h.reciprocity_nonneg hq
    linarith
  obtain ⟨a, b⟩ := C106_threshold ho htanh h ha h0 h1 halpha run hrun
  have e : s.p.m.toNat = 1 := by rw [hm]; rfl
  rw [e, coupling_one _ _ _ hn] at a b
  have e2 : s.p.K / ρ * (1 + s.p.reciprocity * (((s.network.agents.length : ℝ) - 2) / (s.network.agents.length - 1))) * s.p.alpha =
      s.p.K * s.p.alpha * (1 + s.p.reciprocity * ((s.network.agents.length - 2) / (s.network.agents.length - 1))) / ρ := by ring
  rw [e2] at a b
  constructor
  · intro hl
    by_contra hc
    obtain ⟨w, ⟨hw, -⟩, -, h3, h4, -⟩ := b (by rw [lt_div_iff₀ hρ, one_mul]; linarith)
    rcases lt_or_gt_of_ne hx with hx | hx
    · have := tendsto_nhds_unique hl (h4 hx i hi); linarith
    · have := tendsto_nhds_unique hl (h3 hx i hi); linarith
  · intro hle
    exact a (mul_nonneg (div_nonneg hK hρ.le) hq2) (by rw [div_le_one hρ]; exact hle) i hi

/-! ## concrete cases -/

/-- Three agents with homophily and reciprocity that share the tiny opinion `1/1000`. -/
noncomputable def Activity.alike (K : ℝ) : Activity (ActivityAgent ℝ) ℝ Nat where
  p := {
    maxIterations := none, dt := 0.01, m := 1, eps := 0.01, gamma := 2.1, alpha := 3, homophily := 0.5, reciprocity := 0.5, K := K,
    meanActivities := false, meanWeights := true, nBots := 0, botM := [], botActivity := [], botOpinion := [], botHomophily := [],
    useReluctances := true, reluctanceMean := 1, reluctanceSigma := 0.25, reluctanceEps := 0.01, covarianceFactor := 0 }
  network := ⟨[⟨1 / 1000, 1, 1⟩, ⟨1 / 1000, 1 / 10, 1⟩, ⟨1 / 1000, 1 / 5, 1⟩], List.replicate 3 (List.range 3), List.replicate 3 (List.replicate 3 0), .incoming⟩
  contactProb := List.replicate 3 (List.replicate 3 0)
  counter := ⟨none, 0⟩
  gen := 0

theorem Activity.alike_field (K : ℝ) : Spec.MeanField (Activity.alike K) 1 ∧ Spec.Alike (Activity.alike K) (1 / 1000) 1 := by
  have h3 : ∀ {P : Nat → Prop}, P 0 → P 1 → P 2 → ∀ i, i < (Activity.alike K).network.agents.length → P i := by
    intro P a b c i hi
    have hi : i < 3 := hi
    interval_cases i <;> assumption
  refine ⟨⟨⟨rfl, rfl, rfl, rfl, Nat.zero_le _, Nat.zero_le _, Nat.zero_le _, Nat.zero_le _, fun i _ => ?_, fun i _ => ?_, rfl⟩, ?_, ?_, h3 ?_ ?_ ?_, fun i _ => ?_, le_rfl⟩, h3 ?_ ?_ ?_, h3 ?_ ?_ ?_, rfl⟩
  · show (0 : Int) ≤ 1; decide
  · show (1 : Int) < 2 ^ 64; decide
  · show (0 : ℝ) ≤ 0.5; norm_num
  · show (0.5 : ℝ) ≤ 1; norm_num
  · show (1 : ℝ) ≤ 1; norm_num
  · show (1 / 10 : ℝ) ≤ 1; norm_num
  · show (1 / 5 : ℝ) ≤ 1; norm_num
  · show (1 : Int) ≤ 1; decide
  all_goals rfl

-- the hypotheses of C106 are met on both sides of the threshold, which is at `K = 4 / 15` in this case
example (pick : List (Nat × ℝ) → Nat) (r : Rng Nat ℝ) (K : ℝ) (hK : 0 ≤ K) : ∃ run : Nat → Activity (ActivityAgent ℝ) ℝ Nat,
    (∀ k, Iterates (Activity.iteration realOps pick r) (Activity.alike K) k (run k)) ∧
    (Tendsto (fun k => attr ActiveAgent.opinion (run k).network.agents 0) atTop (𝓝 0) ↔ K ≤ 4 / 15) := by
  have hp : Spec.Powers realOps := ⟨fun _ _ => rfl, fun x y hx => Real.rpow_pos_of_pos hx y⟩
  obtain ⟨hf, ha⟩ := Activity.alike_field K
  choose run hrun _ using fun k => C49_total hp.nat pick r hf.ready k
  refine ⟨run, hrun, ?_⟩
  have := C106_one_contact hp rfl hf ha (by show 2 ≤ 3; decide) rfl one_pos hK (by norm_num) (by show (0 : ℝ) < 0.01; norm_num)
    (by show (0.01 : ℝ) ≤ 1; norm_num) (by show (0 : ℝ) < 3; norm_num) run hrun (i := 0) (by show 0 < 3; decide)
  rw [this]
  show K * 3 * (1 + 0.5 * ((((3 : ℕ) : ℝ) - 2) / (((3 : ℕ) : ℝ) - 1))) ≤ 1 ↔ _
  push_cast
  norm_num
  constructor <;> intro h <;> linarith

end Seldon
