import Verif.Props.Relabel
import Verif.Lemmas.Expect
import Verif.Lemmas.Gossip
import Mathlib.Combinatorics.SimpleGraph.Connectivity.Connected
import Mathlib.Combinatorics.SimpleGraph.Paths
/-!
# C94: how fast the scalar Deffuant model reaches consensus
-/
set_option linter.unusedSectionVars false
namespace Seldon
open Spec MeasureTheory
open scoped ENNReal
variable {G : Type} [MeasurableSpace G] {μ : Measure G}

/-- The mean opinion. -/
noncomputable def Spec.meanOpinion (agents : List (SimpleAgent ℝ)) : ℝ := (∑ i ∈ Finset.range agents.length, opinionOf agents i) / agents.length

/-- The sum of the squared distances of the opinions from their mean. -/
noncomputable def Spec.deviation (agents : List (SimpleAgent ℝ)) : ℝ := ∑ i ∈ Finset.range agents.length, (opinionOf agents i - meanOpinion agents) ^ 2

namespace Deffuant

theorem sum_sq_dev (n : ℕ) (hn : 0 < n) (x : ℕ → ℝ) : ∑ i ∈ Finset.range n, (x i - (∑ j ∈ Finset.range n, x j) / n) ^ 2 =
    ∑ i ∈ Finset.range n, x i ^ 2 - (∑ j ∈ Finset.range n, x j) ^ 2 / n := by
  have hn' : (n : ℝ) ≠ 0 := by exact_mod_cast hn.ne'
  set S := ∑ j ∈ Finset.range n, x j with hS
  have : ∀ i, (x i - S / n) ^ 2 = x i ^ 2 - 2 * (S / n) * x i + (S / n) ^ 2 := fun i => by ring
  simp only [this, Finset.sum_add_distrib, Finset.sum_sub_distrib, ← Finset.mul_sum, ← hS, Finset.sum_const, Finset.card_range, nsmul_eq_mul]
  field_simp
  ring

theorem sum_sq_pairs (n : ℕ) (x : ℕ → ℝ) : ∑ a ∈ Finset.range n, ∑ b ∈ Finset.range n, (x a - x b) ^ 2 =
    2 * n * ∑ i ∈ Finset.range n, x i ^ 2 - 2 * (∑ j ∈ Finset.range n, x j) ^ 2 := by
  have : ∀ a b, (x a - x b) ^ 2 = x a ^ 2 - 2 * x a * x b + x b ^ 2 := fun a b => by ring
  simp only [this, Finset.sum_add_distrib, Finset.sum_sub_distrib, Finset.sum_const, Finset.card_range, nsmul_eq_mul, ← Finset.mul_sum]
  have h2 : ∑ a ∈ Finset.range n, 2 * x a * ∑ b ∈ Finset.range n, x b = 2 * (∑ j ∈ Finset.range n, x j) ^ 2 := by
    rw [← Finset.sum_mul, ← Finset.mul_sum]; ring
  rw [h2]; ring

/-- The agents after a meeting. -/
noncomputable def metAgents (θ mu : ℝ) (xs : List (SimpleAgent ℝ)) (p : ℕ × ℕ) : List (SimpleAgent ℝ) :=
  (List.range xs.length).map fun i => ⟨meet θ mu p.1 p.2 (opinionOf xs) i⟩

theorem metAgents_length (θ mu : ℝ) (xs : List (SimpleAgent ℝ)) (p : ℕ × ℕ) : (metAgents θ mu xs p).length = xs.length := by simp [metAgents]

theorem metAgents_mean (θ mu : ℝ) {xs : List (SimpleAgent ℝ)} {p : ℕ × ℕ} (ha : p.1 < xs.length) (hb : p.2 < xs.length) :
    meanOpinion (metAgents θ mu xs p) = meanOpinion xs := by
  unfold meanOpinion
  rw [metAgents_length]
  congr 1
  rw [← meet_sum θ mu (Finset.mem_range.mpr ha) (Finset.mem_range.mpr hb) (opinionOf xs)]
  exact Finset.sum_congr rfl fun i hi => opinionOf_range _ _ (Finset.mem_range.mp hi)

/-- A meeting of two agents that listen to each other. -/
theorem metAgents_deviation (θ mu : ℝ) {xs : List (SimpleAgent ℝ)} {p : ℕ × ℕ} (ha : p.1 < xs.length) (hb : p.2 < xs.length)
    (h : |opinionOf xs p.1 - opinionOf xs p.2| < θ) :
    deviation (metAgents θ mu xs p) = deviation xs - 2 * mu * (1 - mu) * (opinionOf xs p.1 - opinionOf xs p.2) ^ 2 := by
  have e1 : ∑ i ∈ Finset.range xs.length, opinionOf (metAgents θ mu xs p) i = ∑ i ∈ Finset.range xs.length, opinionOf xs i := by
    rw [← meet_sum θ mu (Finset.mem_range.mpr ha) (Finset.mem_range.mpr hb) (opinionOf xs)]
    exact Finset.sum_congr rfl fun i hi => opinionOf_range _ _ (Finset.mem_range.mp hi)
  have e2 : ∑ i ∈ Finset.range xs.length, opinionOf (metAgents θ mu xs p) i ^ 2 =
      ∑ i ∈ Finset.range xs.length, opinionOf xs i ^ 2 - 2 * mu * (1 - mu) * (opinionOf xs p.1 - opinionOf xs p.2) ^ 2 := by
    rw [← Gossip.meet_sq_eq θ mu (Finset.mem_range.mpr ha) (Finset.mem_range.mpr hb) (opinionOf xs) h]
    exact Finset.sum_congr rfl fun i hi => by rw [metAgents, opinionOf_range _ _ (Finset.mem_range.mp hi)]
  unfold deviation meanOpinion
  rw [metAgents_length, sum_sq_dev _ (by omega), sum_sq_dev _ (by omega), e1, e2]
  ring

/-- What holds between two interactions: everybody listens to everybody. -/
structure AllListen (s : Deffuant (SimpleAgent ℝ) ℝ G) (lo hi m : ℝ) (xs : List (SimpleAgent ℝ)) : Prop where
  size : xs.length = s.network.agents.length
  box : ∀ i, i < xs.length → lo ≤ opinionOf xs i ∧ opinionOf xs i ≤ hi
  mean : meanOpinion xs = m

variable {s : Deffuant (SimpleAgent ℝ) ℝ G} {lo hi m : ℝ}

theorem AllListen.near (hd : hi - lo < s.threshold) {xs : List (SimpleAgent ℝ)} (h : AllListen s lo hi m xs) {a b : ℕ} (ha : a < xs.length) (hb : b < xs.length) :
    |opinionOf xs a - opinionOf xs b| < s.threshold := by
  have h1 := h.box a ha
  have h2 := h.box b hb
  rw [abs_lt]
  constructor <;> linarith

theorem listen_rule [IsProbabilityMeasure μ] (s : Deffuant (SimpleAgent ℝ) ℝ G) (h0 : 0 ≤ s.mu) (h1 : s.mu ≤ 1) (lo hi m : ℝ) :
    Rule updateRule s (meetL s.threshold s.mu) (AllListen s lo hi m) μ where
  eq := (meetL_rule (μ := μ) s).eq
  size xs h := h.size
  fresh a b xs _ _ _ := (Fresh.pure _).1
  inv a b xs h ha hb g ys g' e := by
    cases e
    have ha' : a < xs.length := by rw [h.size]; exact ha
    have hb' : b < xs.length := by rw [h.size]; exact hb
    refine ⟨by simpa using h.size, ?_, ?_⟩
    · intro i hi'
      simp only [List.length_map, List.length_range] at hi'
      rw [opinionOf_range _ _ hi']
      exact meet_box _ h0 h1 (h.box a ha') (h.box b hb') (h.box i hi')
    · rw [← h.mean]
      exact metAgents_mean s.threshold s.mu (p := (a, b)) ha' hb'

/-- The probability of a pair as a real number. -/
noncomputable def odds (r : Rng G ℝ) (s : Deffuant (SimpleAgent ℝ) ℝ G) (μ : Measure G) (p : ℕ × ℕ) : ℝ := (chance r s μ p).toReal

theorem odds_nonneg (r : Rng G ℝ) (s : Deffuant (SimpleAgent ℝ) ℝ G) (p : ℕ × ℕ) : 0 ≤ odds r s μ p := ENNReal.toReal_nonneg

/-- All pairs of agents. -/
def allPairs (n : ℕ) : Finset (ℕ × ℕ) := Finset.range n ×ˢ Finset.range n

theorem chance_finite [IsProbabilityMeasure μ] (r : Rng G ℝ) (p : ℕ × ℕ) : chance r s μ p ≠ ∞ := measure_ne_top _ _

theorem chance_odds [IsProbabilityMeasure μ] (r : Rng G ℝ) (p : ℕ × ℕ) : chance r s μ p = ENNReal.ofReal (odds r s μ p) :=
  (ENNReal.ofReal_toReal (measure_ne_top _ _)).symm

/-- The expected value over the pair that meets. -/
theorem expect_meeting [IsProbabilityMeasure μ] {r : Rng G ℝ} (hr : r.IntLawful) (hi' : FairIntegers r μ) (hs : s.Ready) (hn : 2 ≤ s.network.agents.length)
    (h0 : 0 ≤ s.mu) (h1 : s.mu ≤ 1) {xs : List (SimpleAgent ℝ)} (_hx : AllListen s lo hi m xs) {φ : List (SimpleAgent ℝ) → ℝ} (hφ : ∀ xs, 0 ≤ φ xs) :
    expect (stepOf r s (meetL s.threshold s.mu) xs) μ (fun ys => ENNReal.ofReal (φ ys)) =
      ENNReal.ofReal (∑ p ∈ allPairs s.network.agents.length, odds r s μ p * φ (metAgents s.threshold s.mu xs p)) := by
  have R := listen_rule (μ := μ) s h0 h1 lo hi m
  have e := expect_bind (h := fun (q : ℕ × ℕ) => meetL (G := G) s.threshold s.mu q.1 q.2 xs) (pair_fresh hr hi' hs hn) (fun p g g' _ => (Fresh.pure _).1)
    (fun ys => ENNReal.ofReal (φ ys))
  refine (show _ = _ from e).trans ?_
  have e2 : ∀ p : ℕ × ℕ, expect (meetL (G := G) s.threshold s.mu p.1 p.2 xs) μ (fun ys => ENNReal.ofReal (φ ys)) = ENNReal.ofReal (φ (metAgents s.threshold s.mu xs p)) :=
    fun p => expect_pure _ _
  simp only [e2]
  rw [expect, tsum_eq_sum (s := allPairs s.network.agents.length)]
  · rw [ENNReal.ofReal_sum_of_nonneg fun p _ => mul_nonneg (odds_nonneg r s p) (hφ _)]
    refine Finset.sum_congr rfl fun p _ => ?_
    rw [ENNReal.ofReal_mul (odds_nonneg r s p), ← chance_odds]
    rfl
  · rintro ⟨a, b⟩ hp
    have : chance r s μ (a, b) = 0 := by
      refine chance_zero hr hs hn ?_
      rintro ⟨h1, h2, -⟩
      exact hp (Finset.mem_product.mpr ⟨Finset.mem_range.mpr h1, Finset.mem_range.mpr h2⟩)
    rw [show μ (hits (fun g => (.ok (drawnPair r s g) : Res ((ℕ × ℕ) × G))) (a, b) Set.univ) = 0 from this, zero_mul]

/-- The probabilities of the pairs sum up to one. -/
theorem odds_sum [IsProbabilityMeasure μ] {r : Rng G ℝ} (hr : r.IntLawful) (hi' : FairIntegers r μ) (hs : s.Ready) (hn : 2 ≤ s.network.agents.length) :
    ∑ p ∈ allPairs s.network.agents.length, odds r s μ p = 1 := by
  have hF := pair_fresh (μ := μ) hr hi' hs hn
  have h1 := expect_lintegral hF (v := fun g => (drawnPair r s g).1) (fun g => ⟨_, rfl⟩) (fun _ => 1)
  rw [lintegral_const, measure_univ, mul_one, expect, tsum_eq_sum (s := allPairs s.network.agents.length)] at h1
  · have h2 : ∑ p ∈ allPairs s.network.agents.length, chance r s μ p = 1 := by
      rw [h1]
      exact Finset.sum_congr rfl fun p _ => by rw [mul_one]; rfl
    have h3 := congrArg ENNReal.toReal h2
    rw [ENNReal.toReal_sum fun p _ => chance_finite r p] at h3
    simpa [odds] using h3
  · rintro ⟨a, b⟩ hp
    have : chance r s μ (a, b) = 0 := by
      refine chance_zero hr hs hn ?_
      rintro ⟨h1, h2, -⟩
      exact hp (Finset.mem_product.mpr ⟨Finset.mem_range.mpr h1, Finset.mem_range.mpr h2⟩)
    rw [show μ (hits (fun g => (.ok (drawnPair r s g) : Res ((ℕ × ℕ) × G))) (a, b) Set.univ) = 0 from this, zero_mul]

theorem deviation_nonneg (xs : List (SimpleAgent ℝ)) : 0 ≤ deviation xs := Finset.sum_nonneg fun _ _ => sq_nonneg _

/-- The expected deviation after one interaction. -/
theorem expect_deviation [IsProbabilityMeasure μ] {r : Rng G ℝ} (hr : r.IntLawful) (hi' : FairIntegers r μ) (hs : s.Ready) (hn : 2 ≤ s.network.agents.length)
    (h0 : 0 ≤ s.mu) (h1 : s.mu ≤ 1) (hd : hi - lo < s.threshold) {xs : List (SimpleAgent ℝ)} (hx : AllListen s lo hi m xs) :
    expect (stepOf r s (meetL s.threshold s.mu) xs) μ (fun ys => ENNReal.ofReal (deviation ys)) =
      ENNReal.ofReal (deviation xs - 2 * s.mu * (1 - s.mu) *
        ∑ p ∈ allPairs s.network.agents.length, odds r s μ p * (opinionOf xs p.1 - opinionOf xs p.2) ^ 2) := by
  rw [expect_meeting hr hi' hs hn h0 h1 hx deviation_nonneg]
  congr 1
  have e : ∀ p ∈ allPairs s.network.agents.length, odds r s μ p * deviation (metAgents s.threshold s.mu xs p) =
      odds r s μ p * deviation xs - 2 * s.mu * (1 - s.mu) * (odds r s μ p * (opinionOf xs p.1 - opinionOf xs p.2) ^ 2) := by
    intro p hp
    obtain ⟨ha, hb⟩ := Finset.mem_product.mp hp
    rw [Finset.mem_range, ← hx.size] at ha hb
    rw [metAgents_deviation _ _ ha hb (hx.near hd ha hb)]
    ring
  rw [Finset.sum_congr rfl e, Finset.sum_sub_distrib, ← Finset.sum_mul, ← Finset.mul_sum, odds_sum hr hi' hs hn, one_mul]

/-- The mean squared distance of the pair that meets, without network. -/
theorem odds_plain [IsProbabilityMeasure μ] {r : Rng G ℝ} (hr : r.IntLawful) (hi' : FairIntegers r μ) (hs : s.Ready) (hn : 2 ≤ s.network.agents.length)
    (hu : s.useNetwork = false) {xs : List (SimpleAgent ℝ)} (hsize : xs.length = s.network.agents.length) :
    ∑ p ∈ allPairs s.network.agents.length, odds r s μ p * (opinionOf xs p.1 - opinionOf xs p.2) ^ 2 = 2 * deviation xs / (s.network.agents.length - 1) := by
  set n := s.network.agents.length with hnn
  have hn0 : (n : ℝ) ≠ 0 := by exact_mod_cast (by omega : n ≠ 0)
  have hn1 : (n : ℝ) - 1 ≠ 0 := by
    have : (2 : ℝ) ≤ n := by exact_mod_cast hn
    intro h; linarith
  have hswap : ∑ p ∈ allPairs n, odds r s μ p * (opinionOf xs p.1 - opinionOf xs p.2) ^ 2 =
      ∑ p ∈ allPairs n, odds r s μ (p.2, p.1) * (opinionOf xs p.1 - opinionOf xs p.2) ^ 2 := by
    refine Finset.sum_bij' (fun p _ => (p.2, p.1)) (fun p _ => (p.2, p.1)) ?_ ?_ ?_ ?_ ?_
    · intro p hp; exact Finset.mem_product.mpr ⟨(Finset.mem_product.mp hp).2, (Finset.mem_product.mp hp).1⟩
    · intro p hp; exact Finset.mem_product.mpr ⟨(Finset.mem_product.mp hp).2, (Finset.mem_product.mp hp).1⟩
    · intro p _; rfl
    · intro p _; rfl
    · rintro ⟨a, b⟩ _
      ring
  have hsum : ∀ p ∈ allPairs n, (odds r s μ p + odds r s μ (p.2, p.1)) * (opinionOf xs p.1 - opinionOf xs p.2) ^ 2 =
      1 / (n.choose 2 : ℕ) * (opinionOf xs p.1 - opinionOf xs p.2) ^ 2 := by
    rintro ⟨a, b⟩ hp
    obtain ⟨ha, hb⟩ := Finset.mem_product.mp hp
    rw [Finset.mem_range] at ha hb
    by_cases hab : a = b
    · subst hab; simp
    · congr 1
      have := chance_plain (μ := μ) hr hi' hs hn hu a b
      rw [if_pos ⟨ha, hb, hab⟩] at this
      have h2 := congrArg ENNReal.toReal this
      rw [ENNReal.toReal_add (chance_finite r _) (chance_finite r _)] at h2
      rw [odds, odds, h2]
      simp [hnn]
  have htwo : 2 * ∑ p ∈ allPairs n, odds r s μ p * (opinionOf xs p.1 - opinionOf xs p.2) ^ 2 =
      1 / (n.choose 2 : ℕ) * (2 * n * deviation xs) := by
    rw [two_mul]
    conv_lhs => arg 2; rw [hswap]
    rw [← Finset.sum_add_distrib, Finset.sum_congr rfl (fun p hp => (add_mul _ _ _).symm.trans (hsum p hp)), ← Finset.mul_sum]
    congr 1
    rw [allPairs, Finset.sum_product, sum_sq_pairs, deviation, meanOpinion, hsize, sum_sq_dev _ (by omega)]
    field_simp
  rw [Nat.cast_choose_two] at htwo
  field_simp at htwo ⊢
  linarith

/-- The agents after `t` iterations and the expected values of functions of them. -/
theorem final_expect [IsProbabilityMeasure μ] {r : Rng G ℝ} (hr : r.IntLawful) (hi' : FairIntegers r μ) (hs : s.Ready) (hn : 2 ≤ s.network.agents.length)
    (h0 : 0 ≤ s.mu) (h1 : s.mu ≤ 1) (hI : AllListen s lo hi m s.network.agents) (t : ℕ) :
    ∃ final : G → Deffuant (SimpleAgent ℝ) ℝ G, (∀ g, Iterates (iteration r updateRule) { s with gen := g } t (final g)) ∧
      (∀ g, AllListen s lo hi m (final g).network.agents) ∧ (∀ φ : List (SimpleAgent ℝ) → ℝ, Measurable fun g => φ (final g).network.agents) ∧
      ∀ φ : List (SimpleAgent ℝ) → ℝ≥0∞, ∫⁻ g, φ (final g).network.agents ∂μ =
        expect (walk (stepOf r s (meetL s.threshold s.mu)) (t * s.network.agents.length) s.network.agents) μ φ := by
  have R := listen_rule (μ := μ) s h0 h1 lo hi m
  choose ys g' c e1 e2 _ e4 using fun g => iterates_stepOf hr hs (by omega) R hI g t
  have hF : Fresh (walk (stepOf r s (meetL s.threshold s.mu)) (t * s.network.agents.length) s.network.agents) μ :=
    walk_fresh (stepOf_inv hr hs (by omega) R) (fun x hx => (stepOf_law hr hi' hs hn R hx).1) _ _ hI
  exact ⟨_, e4, e2, fun φ => measurable_result hF (v := ys) (fun g => ⟨g' g, e1 g⟩) φ, fun φ => expect_lintegral hF (v := ys) (fun g => ⟨g' g, e1 g⟩) φ⟩

theorem rate_nonneg {n : ℕ} (hn : 2 ≤ n) (mu : ℝ) : 0 ≤ 1 - 4 * mu * (1 - mu) / ((n : ℝ) - 1) := by
  have h2 : (2 : ℝ) ≤ n := by exact_mod_cast hn
  rw [sub_nonneg, div_le_one (by linarith)]
  nlinarith [sq_nonneg (2 * mu - 1)]

theorem allListen_start (hx : ∀ x ∈ opinions s.network.agents, lo ≤ x ∧ x ≤ hi) : AllListen s lo hi (meanOpinion s.network.agents) s.network.agents := by
  refine ⟨rfl, fun i hi' => hx _ ?_, rfl⟩
  rw [DeGroot.opinionOf_lt hi']
  exact List.mem_map.mpr ⟨_, List.getElem_mem hi', rfl⟩

/-- The expected deviation after `t` iterations when every interaction reduces it by the factor `c` on the average. -/
theorem deviation_final [IsProbabilityMeasure μ] {r : Rng G ℝ} (hr : r.IntLawful) (hi' : FairIntegers r μ) (hs : s.Ready) (hn : 2 ≤ s.network.agents.length)
    (h0 : 0 ≤ s.mu) (h1 : s.mu ≤ 1) (hI : AllListen s lo hi m s.network.agents) (t : ℕ) {c : ℝ} (hc : 0 ≤ c)
    (hstep : ∀ xs, AllListen s lo hi m xs → expect (stepOf r s (meetL s.threshold s.mu) xs) μ (fun ys => ENNReal.ofReal (deviation ys)) ≤
      ENNReal.ofReal c * ENNReal.ofReal (deviation xs)) :
    ∃ final : G → Deffuant (SimpleAgent ℝ) ℝ G, (∀ g, Iterates (iteration r updateRule) { s with gen := g } t (final g)) ∧
      (∀ g, AllListen s lo hi m (final g).network.agents) ∧ (Measurable fun g => deviation (final g).network.agents) ∧
      (∫⁻ g, ENNReal.ofReal (deviation (final g).network.agents) ∂μ =
        expect (walk (stepOf r s (meetL s.threshold s.mu)) (t * s.network.agents.length) s.network.agents) μ fun ys => ENNReal.ofReal (deviation ys)) ∧
      ∫⁻ g, ENNReal.ofReal (deviation (final g).network.agents) ∂μ ≤
        ENNReal.ofReal (c ^ (t * s.network.agents.length) * deviation s.network.agents) := by
  obtain ⟨final, e1, e2, e3, e4⟩ := final_expect hr hi' hs hn h0 h1 hI t
  have R := listen_rule (μ := μ) s h0 h1 lo hi m
  refine ⟨final, e1, e2, e3 _, e4 fun ys => ENNReal.ofReal (deviation ys), ?_⟩
  rw [e4 fun ys => ENNReal.ofReal (deviation ys), ENNReal.ofReal_mul (pow_nonneg hc _), ENNReal.ofReal_pow hc]
  exact expect_walk_le (stepOf_inv hr hs (by omega) R) (fun x hx => (stepOf_law hr hi' hs hn R hx).1) hstep _ _ hI

/-- A large distance from the mean is unlikely when the expected deviation is small. -/
theorem tail_bound [IsProbabilityMeasure μ] {final : G → Deffuant (SimpleAgent ℝ) ℝ G} {E d : ℝ} (hd : 0 < d)
    (hf : ∀ g, AllListen s lo hi m (final g).network.agents) (hm : Measurable fun g => deviation (final g).network.agents)
    (hE : ∫⁻ g, ENNReal.ofReal (deviation (final g).network.agents) ∂μ ≤ ENNReal.ofReal E) :
    μ {g | ∃ i, i < s.network.agents.length ∧ d ≤ |opinionOf (final g).network.agents i - m|} ≤ ENNReal.ofReal (E / d ^ 2) := by
  have hd2 : 0 < d ^ 2 := by positivity
  have h1 : {g | ∃ i, i < s.network.agents.length ∧ d ≤ |opinionOf (final g).network.agents i - m|} ⊆
      {g | ENNReal.ofReal (d ^ 2) ≤ ENNReal.ofReal (deviation (final g).network.agents)} := by
    rintro g ⟨i, hi', h⟩
    refine ENNReal.ofReal_le_ofReal ?_
    have h2 : d ^ 2 ≤ (opinionOf (final g).network.agents i - m) ^ 2 := by
      rw [← sq_abs (opinionOf (final g).network.agents i - m)]
      exact pow_le_pow_left₀ hd.le h 2
    refine h2.trans ?_
    rw [← (hf g).mean]
    exact Finset.single_le_sum (f := fun i => (opinionOf (final g).network.agents i - meanOpinion (final g).network.agents) ^ 2) (fun _ _ => sq_nonneg _)
      (Finset.mem_range.mpr (by rw [(hf g).size]; exact hi'))
  refine (measure_mono h1).trans ((meas_ge_le_lintegral_div hm.ennreal_ofReal.aemeasurable (ENNReal.ofReal_pos.mpr hd2).ne' ENNReal.ofReal_ne_top).trans ?_)
  rw [ENNReal.ofReal_div_of_pos hd2]
  exact ENNReal.div_le_div_right hE _

end Deffuant

namespace Deffuant
variable {s : Deffuant (SimpleAgent ℝ) ℝ G} {lo hi m : ℝ}

/-- Agents that can meet, as a graph. -/
def meetGraph (s : Deffuant (SimpleAgent ℝ) ℝ G) : SimpleGraph (Fin s.network.agents.length) :=
  SimpleGraph.fromRel fun a b => s.CanMeet a b

theorem walk_far {x : ℕ → ℝ} {δ : ℝ} (hδ : ∀ a b, s.CanMeet a b → |x a - x b| ≤ δ) {i j : Fin s.network.agents.length} (p : (meetGraph s).Walk i j) :
    |x i - x j| ≤ p.length * δ := by
  induction p with
  | nil => simp
  | @cons a b c h p ih =>
    have h1 : |x a - x b| ≤ δ := by
      rw [meetGraph, SimpleGraph.fromRel_adj] at h
      rcases h.2 with h | h
      · exact hδ _ _ h
      · rw [abs_sub_comm]; exact hδ _ _ h
    have h2 := abs_sub_le (x a) (x b) (x c)
    rw [SimpleGraph.Walk.length_cons]
    push_cast
    linarith

/-- If agents that can meet differ by at most `δ`, any two agents differ by at most `(n - 1) δ`. -/
theorem connected_far (hc : ∀ i j, i < s.network.agents.length → j < s.network.agents.length → Relation.ReflTransGen s.CanMeet i j) {x : ℕ → ℝ} {δ : ℝ}
    (h0 : 0 ≤ δ) (hδ : ∀ a b, s.CanMeet a b → |x a - x b| ≤ δ) {i j : ℕ} (hi' : i < s.network.agents.length) (hj : j < s.network.agents.length) :
    |x i - x j| ≤ ((s.network.agents.length : ℝ) - 1) * δ := by
  have hreach : ∀ k (hk : k < s.network.agents.length), Relation.ReflTransGen s.CanMeet i k → (meetGraph s).Reachable ⟨i, hi'⟩ ⟨k, hk⟩ := by
    intro k hk h
    induction h with
    | refl => exact SimpleGraph.Reachable.refl _
    | @tail b c _ hbc ih =>
      refine (ih hbc.1).trans (SimpleGraph.Adj.reachable ?_)
      rw [meetGraph, SimpleGraph.fromRel_adj]
      exact ⟨fun e => hbc.2.2.1 (congrArg Fin.val e), .inl hbc⟩
  obtain ⟨w⟩ := hreach j hj (hc i j hi' hj)
  classical
  have h1 := walk_far hδ (w.toPath : (meetGraph s).Walk ⟨i, hi'⟩ ⟨j, hj⟩)
  have h2 := (w.toPath).2.length_lt
  rw [Fintype.card_fin] at h2
  refine h1.trans (mul_le_mul_of_nonneg_right ?_ h0)
  have : (((w.toPath : (meetGraph s).Walk ⟨i, hi'⟩ ⟨j, hj⟩).length + 1 : ℕ) : ℝ) ≤ s.network.agents.length := by exact_mod_cast h2
  push_cast at this
  linarith

/-- Numbers that differ by at most `B` have a deviation of at most `n B²`. -/
theorem deviation_le {xs : List (SimpleAgent ℝ)} {B : ℝ} (hn : 0 < xs.length)
    (h : ∀ i j, i < xs.length → j < xs.length → |opinionOf xs i - opinionOf xs j| ≤ B) : deviation xs ≤ xs.length * B ^ 2 := by
  have hn' : (0 : ℝ) < xs.length := by exact_mod_cast hn
  have key : ∀ i ∈ Finset.range xs.length, (opinionOf xs i - meanOpinion xs) ^ 2 ≤ B ^ 2 := by
    intro i hi'
    have e : opinionOf xs i - meanOpinion xs = (∑ j ∈ Finset.range xs.length, (opinionOf xs i - opinionOf xs j)) / xs.length := by
      rw [Finset.sum_sub_distrib, Finset.sum_const, Finset.card_range, nsmul_eq_mul, meanOpinion]
      field_simp
    have h1 : |opinionOf xs i - meanOpinion xs| ≤ B := by
      rw [e, abs_div, abs_of_pos hn', div_le_iff₀ hn']
      refine (Finset.abs_sum_le_sum_abs _ _).trans ?_
      refine (Finset.sum_le_sum fun j hj => h i j (Finset.mem_range.mp hi') (Finset.mem_range.mp hj)).trans ?_
      rw [Finset.sum_const, Finset.card_range, nsmul_eq_mul, mul_comm]
    rw [← sq_abs (opinionOf xs i - meanOpinion xs)]
    exact pow_le_pow_left₀ (abs_nonneg _) h1 2
  refine (Finset.sum_le_sum key).trans ?_
  rw [Finset.sum_const, Finset.card_range, nsmul_eq_mul]

/-- Neighbours are drawn with a probability of at least `1 / (n D)` if nobody has more than `D` neighbours. -/
theorem odds_network [IsProbabilityMeasure μ] {r : Rng G ℝ} (hr : r.IntLawful) (hi' : FairIntegers r μ) (hs : s.Ready) (hu : s.useNetwork = true)
    {D : ℕ} (hD : ∀ row ∈ s.network.neighbours, row.length ≤ D) {a b : ℕ} (h : s.CanMeet a b) : 1 / ((s.network.agents.length : ℝ) * D) ≤ odds r s μ (a, b) := by
  have ha : a < s.network.neighbours.length := by rw [hs.wf.rows]; exact h.1
  have hb := h.2.2.2 hu
  rw [getD_lt _ _ ha] at hb
  have hn : 0 < s.network.agents.length := by have := h.1; omega
  have e := (C74_neighbour (μ := μ) hi' hs hu h.1 (row := s.network.neighbours[a]) (by rw [Network.getNeighbours, rd_lt ha]) b MeasurableSet.univ).2
  rw [← chance_eq hr hs hn, measure_univ, mul_one] at e
  rw [odds, e, ENNReal.toReal_div, ENNReal.toReal_natCast, ENNReal.toReal_natCast]
  have hc : 1 ≤ s.network.neighbours[a].count b := List.count_pos_iff.mpr hb
  have hl : 0 < s.network.neighbours[a].length := List.length_pos_iff.mpr (List.ne_nil_of_mem hb)
  have hlD := hD _ (List.getElem_mem ha)
  have hpos : (0 : ℝ) < (s.network.agents.length * s.network.neighbours[a].length : ℕ) := by exact_mod_cast Nat.mul_pos hn hl
  have hle : ((s.network.agents.length * s.network.neighbours[a].length : ℕ) : ℝ) ≤ (s.network.agents.length : ℝ) * D := by
    exact_mod_cast Nat.mul_le_mul_left _ hlD
  calc 1 / ((s.network.agents.length : ℝ) * D) ≤ 1 / (s.network.agents.length * s.network.neighbours[a].length : ℕ) := one_div_le_one_div_of_le hpos hle
    _ ≤ _ := div_le_div_of_nonneg_right (by exact_mod_cast hc) hpos.le

/-- The mean squared distance of the pair that meets, on a connected network. -/
theorem odds_connected [IsProbabilityMeasure μ] {r : Rng G ℝ} (hr : r.IntLawful) (hi' : FairIntegers r μ) (hs : s.Ready) (hn : 2 ≤ s.network.agents.length)
    (hu : s.useNetwork = true) {D : ℕ} (hD0 : 0 < D) (hD : ∀ row ∈ s.network.neighbours, row.length ≤ D)
    (hc : ∀ i j, i < s.network.agents.length → j < s.network.agents.length → Relation.ReflTransGen s.CanMeet i j)
    {xs : List (SimpleAgent ℝ)} (hsize : xs.length = s.network.agents.length) :
    deviation xs / ((s.network.agents.length : ℝ) ^ 2 * ((s.network.agents.length : ℝ) - 1) ^ 2 * D) ≤
      ∑ p ∈ allPairs s.network.agents.length, odds r s μ p * (opinionOf xs p.1 - opinionOf xs p.2) ^ 2 := by
  set Q := ∑ p ∈ allPairs s.network.agents.length, odds r s μ p * (opinionOf xs p.1 - opinionOf xs p.2) ^ 2 with hQ
  have hQ0 : 0 ≤ Q := Finset.sum_nonneg fun p _ => mul_nonneg (odds_nonneg r s p) (sq_nonneg _)
  have h2 : (2 : ℝ) ≤ s.network.agents.length := by exact_mod_cast hn
  have hDr : (0 : ℝ) < D := by exact_mod_cast hD0
  have hnD : 0 < (s.network.agents.length : ℝ) * D := by positivity
  have hδ : ∀ a b, s.CanMeet a b → |opinionOf xs a - opinionOf xs b| ≤ Real.sqrt ((s.network.agents.length : ℝ) * D * Q) := by
    intro a b h
    refine Real.le_sqrt_of_sq_le ?_
    rw [sq_abs]
    have h1 := odds_network (μ := μ) hr hi' hs hu hD h
    have h3 : odds r s μ (a, b) * (opinionOf xs a - opinionOf xs b) ^ 2 ≤ Q :=
      Finset.single_le_sum (f := fun p : ℕ × ℕ => odds r s μ p * (opinionOf xs p.1 - opinionOf xs p.2) ^ 2) (fun p _ => mul_nonneg (odds_nonneg r s p) (sq_nonneg _))
        (Finset.mem_product.mpr ⟨Finset.mem_range.mpr h.1, Finset.mem_range.mpr h.2.1⟩)
    have h4 := (mul_le_mul_of_nonneg_right h1 (sq_nonneg (opinionOf xs a - opinionOf xs b))).trans h3
    rw [one_div, inv_mul_le_iff₀ hnD] at h4
    linarith
  have hdev := deviation_le (xs := xs) (B := ((s.network.agents.length : ℝ) - 1) * Real.sqrt ((s.network.agents.length : ℝ) * D * Q)) (by omega) (by
    intro i j hi' hj
    exact connected_far hc (Real.sqrt_nonneg _) hδ (by omega) (by omega))
  rw [mul_pow, Real.sq_sqrt (mul_nonneg hnD.le hQ0), hsize] at hdev
  rw [div_le_iff₀ (by have : 0 < (s.network.agents.length : ℝ) - 1 := by linarith
                      positivity)]
  nlinarith

end Deffuant

/-- C94: without network, with fair and independent draws and everybody within reach of everybody (the initial opinions lie in an interval shorter than the
threshold), the expected sum of squared distances from the mean opinion after `t` iterations is exactly `(1 - 4 mu (1 - mu) / (n - 1)) ^ (t n)` times the
initial one. -/
theorem C94_expected [IsProbabilityMeasure μ] {r : Rng G ℝ} (hr : r.IntLawful) (hi' : FairIntegers r μ) {s : Deffuant (SimpleAgent ℝ) ℝ G} (hs : s.Ready)
    (hn : 2 ≤ s.network.agents.length) (hu : s.useNetwork = false) (h0 : 0 ≤ s.mu) (h1 : s.mu ≤ 1) {lo hi : ℝ}
    (hx : ∀ x ∈ opinions s.network.agents, lo ≤ x ∧ x ≤ hi) (hd : hi - lo < s.threshold) (t : ℕ) :
    ∃ final : G → Deffuant (SimpleAgent ℝ) ℝ G, (∀ g, Iterates (Deffuant.iteration r Deffuant.updateRule) { s with gen := g } t (final g)) ∧
      Integrable (fun g => deviation (final g).network.agents) μ ∧
      ∫ g, deviation (final g).network.agents ∂μ =
        (1 - 4 * s.mu * (1 - s.mu) / ((s.network.agents.length : ℝ) - 1)) ^ (t * s.network.agents.length) * deviation s.network.agents := by
  have hI := Deffuant.allListen_start hx
  have hc := Deffuant.rate_nonneg hn s.mu
  have R := Deffuant.listen_rule (μ := μ) s h0 h1 lo hi (meanOpinion s.network.agents)
  have hstep : ∀ xs, Deffuant.AllListen s lo hi (meanOpinion s.network.agents) xs →
      expect (Deffuant.stepOf r s (Deffuant.meetL s.threshold s.mu) xs) μ (fun ys => ENNReal.ofReal (deviation ys)) =
        ENNReal.ofReal (1 - 4 * s.mu * (1 - s.mu) / ((s.network.agents.length : ℝ) - 1)) * ENNReal.ofReal (deviation xs) := by
    intro xs hxs
    rw [Deffuant.expect_deviation hr hi' hs hn h0 h1 hd hxs, Deffuant.odds_plain hr hi' hs hn hu hxs.size, ← ENNReal.ofReal_mul hc]
    congr 1
    ring
  obtain ⟨final, e1, -, e3, e4, -⟩ := Deffuant.deviation_final hr hi' hs hn h0 h1 hI t hc fun xs hxs => (hstep xs hxs).le
  have e5 := expect_walk (Deffuant.stepOf_inv hr hs (by omega) R) (fun x hx => (Deffuant.stepOf_law hr hi' hs hn R hx).1) hstep (t * s.network.agents.length) _ hI
  rw [e5, ← ENNReal.ofReal_pow hc, ← ENNReal.ofReal_mul (pow_nonneg hc _)] at e4
  refine ⟨final, e1, ?_, ?_⟩
  · refine ⟨e3.aestronglyMeasurable, ?_⟩
    rw [hasFiniteIntegral_iff_ofReal (Filter.Eventually.of_forall fun g => Deffuant.deviation_nonneg _), e4]
    exact ENNReal.ofReal_lt_top
  · rw [integral_eq_lintegral_of_nonneg_ae (Filter.Eventually.of_forall fun g => Deffuant.deviation_nonneg _) e3.aestronglyMeasurable, e4,
      ENNReal.toReal_ofReal (mul_nonneg (pow_nonneg hc _) (Deffuant.deviation_nonneg _))]

/-- C94 (how likely): the probability that after `t` iterations some agent is still at a distance of `d` or more from the mean of the initial opinions is at
most `(1 - 4 mu (1 - mu) / (n - 1)) ^ (t n)` times the initial sum of squared distances from the mean, divided by `d²`. -/
theorem C94_likely [IsProbabilityMeasure μ] {r : Rng G ℝ} (hr : r.IntLawful) (hi' : FairIntegers r μ) {s : Deffuant (SimpleAgent ℝ) ℝ G} (hs : s.Ready)
    (hn : 2 ≤ s.network.agents.length) (hu : s.useNetwork = false) (h0 : 0 ≤ s.mu) (h1 : s.mu ≤ 1) {lo hi : ℝ}
    (hx : ∀ x ∈ opinions s.network.agents, lo ≤ x ∧ x ≤ hi) (hd : hi - lo < s.threshold) (t : ℕ) {d : ℝ} (hpos : 0 < d) :
    ∃ final : G → Deffuant (SimpleAgent ℝ) ℝ G, (∀ g, Iterates (Deffuant.iteration r Deffuant.updateRule) { s with gen := g } t (final g)) ∧
      μ {g | ∃ i, i < s.network.agents.length ∧ d ≤ |opinionOf (final g).network.agents i - meanOpinion s.network.agents|} ≤
        ENNReal.ofReal ((1 - 4 * s.mu * (1 - s.mu) / ((s.network.agents.length : ℝ) - 1)) ^ (t * s.network.agents.length) * deviation s.network.agents / d ^ 2) := by
  have hI := Deffuant.allListen_start hx
  have hc := Deffuant.rate_nonneg hn s.mu
  obtain ⟨final, e1, e2, e3, -, e5⟩ := Deffuant.deviation_final hr hi' hs hn h0 h1 hI t hc (by
    intro xs hxs
    rw [Deffuant.expect_deviation hr hi' hs hn h0 h1 hd hxs, Deffuant.odds_plain hr hi' hs hn hu hxs.size, ← ENNReal.ofReal_mul hc]
    refine ENNReal.ofReal_le_ofReal (le_of_eq ?_)
    ring)
  exact ⟨final, e1, Deffuant.tail_bound hpos e2 e3 e5⟩

/-- C94 (network): on a network in which any two agents are connected by agents that can meet and nobody has more than `D` neighbours, with everybody within
reach of everybody, the expected sum of squared distances from the mean is multiplied in `t` iterations by at most
`(1 - 2 mu (1 - mu) / (n² (n - 1)² D)) ^ (t n)`; accordingly it becomes unlikely that some agent is far from the mean of the initial opinions. -/
theorem C94_network [IsProbabilityMeasure μ] {r : Rng G ℝ} (hr : r.IntLawful) (hi' : FairIntegers r μ) {s : Deffuant (SimpleAgent ℝ) ℝ G} (hs : s.Ready)
    (hn : 2 ≤ s.network.agents.length) (hu : s.useNetwork = true) (h0 : 0 ≤ s.mu) (h1 : s.mu ≤ 1) {D : ℕ} (hD0 : 0 < D)
    (hD : ∀ row ∈ s.network.neighbours, row.length ≤ D)
    (hc : ∀ i j, i < s.network.agents.length → j < s.network.agents.length → Relation.ReflTransGen s.CanMeet i j) {lo hi : ℝ}
    (hx : ∀ x ∈ opinions s.network.agents, lo ≤ x ∧ x ≤ hi) (hd : hi - lo < s.threshold) (t : ℕ) {c : ℝ}
    (hc' : c = 1 - 2 * s.mu * (1 - s.mu) / ((s.network.agents.length : ℝ) ^ 2 * ((s.network.agents.length : ℝ) - 1) ^ 2 * D)) :
    ∃ final : G → Deffuant (SimpleAgent ℝ) ℝ G, (∀ g, Iterates (Deffuant.iteration r Deffuant.updateRule) { s with gen := g } t (final g)) ∧
      Integrable (fun g => deviation (final g).network.agents) μ ∧
      ∫ g, deviation (final g).network.agents ∂μ ≤ c ^ (t * s.network.agents.length) * deviation s.network.agents ∧
      ∀ d, 0 < d → μ {g | ∃ i, i < s.network.agents.length ∧ d ≤ |opinionOf (final g).network.agents i - meanOpinion s.network.agents|} ≤
        ENNReal.ofReal (c ^ (t * s.network.agents.length) * deviation s.network.agents / d ^ 2) := by
  have hI := Deffuant.allListen_start hx
  have h2 : (2 : ℝ) ≤ s.network.agents.length := by exact_mod_cast hn
  have hDr : (1 : ℝ) ≤ D := by exact_mod_cast hD0
  have hpos : 0 < (s.network.agents.length : ℝ) ^ 2 * ((s.network.agents.length : ℝ) - 1) ^ 2 * D := by
    have : 0 < (s.network.agents.length : ℝ) - 1 := by linarith
    positivity
  have hc0 : 0 ≤ c := by
    rw [hc', sub_nonneg, div_le_one hpos]
    have e1 : 2 * s.mu * (1 - s.mu) ≤ 1 := by nlinarith [sq_nonneg (2 * s.mu - 1)]
    have e2 : (1 : ℝ) ≤ (s.network.agents.length : ℝ) ^ 2 := by nlinarith
    have e3 : (1 : ℝ) ≤ ((s.network.agents.length : ℝ) - 1) ^ 2 := by nlinarith
    have e4 : (1 : ℝ) ≤ (s.network.agents.length : ℝ) ^ 2 * ((s.network.agents.length : ℝ) - 1) ^ 2 := by nlinarith
    nlinarith
  have hmm : 0 ≤ 2 * s.mu * (1 - s.mu) := mul_nonneg (mul_nonneg (by norm_num) h0) (by linarith)
  obtain ⟨final, e1, e2, e3, -, e5⟩ := Deffuant.deviation_final hr hi' hs hn h0 h1 hI t hc0 (by
    intro xs hxs
    rw [Deffuant.expect_deviation hr hi' hs hn h0 h1 hd hxs, ← ENNReal.ofReal_mul hc0]
    refine ENNReal.ofReal_le_ofReal ?_
    have h3 := mul_le_mul_of_nonneg_left (Deffuant.odds_connected (μ := μ) hr hi' hs hn hu hD0 hD hc hxs.size) hmm
    rw [hc']
    have : 2 * s.mu * (1 - s.mu) * (deviation xs / ((s.network.agents.length : ℝ) ^ 2 * ((s.network.agents.length : ℝ) - 1) ^ 2 * D)) =
      2 * s.mu * (1 - s.mu) / ((s.network.agents.length : ℝ) ^ 2 * ((s.network.agents.length : ℝ) - 1) ^ 2 * D) * deviation xs := by ring
    rw [this] at h3
    linarith)
  have hnn : 0 ≤ c ^ (t * s.network.agents.length) * deviation s.network.agents := mul_nonneg (pow_nonneg hc0 _) (Deffuant.deviation_nonneg _)
  have hae : 0 ≤ᵐ[μ] fun g => deviation (final g).network.agents := Filter.Eventually.of_forall fun g => Deffuant.deviation_nonneg _
  refine ⟨final, e1, ⟨e3.aestronglyMeasurable, ?_⟩, ?_, fun d hd' => Deffuant.tail_bound hd' e2 e3 e5⟩
  · rw [hasFiniteIntegral_iff_ofReal hae]
    exact e5.trans_lt ENNReal.ofReal_lt_top
  · rw [integral_eq_lintegral_of_nonneg_ae hae e3.aestronglyMeasurable]
    exact ENNReal.toReal_le_of_le_ofReal hnn e5

/-! ## from the constructor -/

namespace Deffuant

/-- The initial opinions set by `initialize_agents`. -/
noncomputable def spreadAgents (n : ℕ) : List (SimpleAgent ℝ) := (List.range n).map fun i : ℕ => ⟨(i : ℝ) / (n : ℝ)⟩

theorem spreadAgents_length (n : ℕ) : (spreadAgents n).length = n := by simp [spreadAgents]

theorem spreadAgents_opinion {n i : ℕ} (h : i < n) : opinionOf (spreadAgents n) i = (i : ℝ) / n := opinionOf_range n (fun i => (i : ℝ) / n) h

theorem sum_id (n : ℕ) : ∑ i ∈ Finset.range n, (i : ℝ) = n * (n - 1) / 2 := by
  induction n with
  | zero => simp
  | succ n ih => rw [Finset.sum_range_succ, ih]; push_cast; ring

theorem sum_id_sq (n : ℕ) : ∑ i ∈ Finset.range n, (i : ℝ) ^ 2 = (n - 1) * n * (2 * n - 1) / 6 := by
  induction n with
  | zero => simp
  | succ n ih => rw [Finset.sum_range_succ, ih]; push_cast; ring

theorem spreadAgents_deviation {n : ℕ} (hn : 0 < n) : deviation (spreadAgents n) = ((n : ℝ) ^ 2 - 1) / (12 * n) := by
  have hn' : (n : ℝ) ≠ 0 := by exact_mod_cast hn.ne'
  have e1 : ∑ i ∈ Finset.range n, opinionOf (spreadAgents n) i = ((n : ℝ) - 1) / 2 := by
    rw [Finset.sum_congr rfl fun i hi => spreadAgents_opinion (Finset.mem_range.mp hi), ← Finset.sum_div, sum_id]
    field_simp
  have e2 : ∑ i ∈ Finset.range n, opinionOf (spreadAgents n) i ^ 2 = (n - 1) * (2 * n - 1) / (6 * n) := by
    rw [Finset.sum_congr rfl fun i hi => by rw [spreadAgents_opinion (Finset.mem_range.mp hi), div_pow], ← Finset.sum_div, sum_id_sq]
    field_simp
  unfold deviation meanOpinion
  rw [spreadAgents_length, sum_sq_dev _ hn, e1, e2]
  field_simp
  ring

theorem spreadAgents_mean {n : ℕ} (hn : 0 < n) : meanOpinion (spreadAgents n) = ((n : ℝ) - 1) / (2 * n) := by
  have hn' : (n : ℝ) ≠ 0 := by exact_mod_cast hn.ne'
  rw [meanOpinion, spreadAgents_length, Finset.sum_congr rfl fun i hi => spreadAgents_opinion (Finset.mem_range.mp hi), ← Finset.sum_div, sum_id]
  field_simp

theorem spreadAgents_box {n : ℕ} (hn : 0 < n) : ∀ x ∈ opinions (spreadAgents n), (0 : ℝ) ≤ x ∧ x ≤ ((n : ℝ) - 1) / n := by
  intro x hx
  have hn' : (0 : ℝ) < n := by exact_mod_cast hn
  obtain ⟨ag, hag, rfl⟩ := List.mem_map.mp hx
  obtain ⟨i, hi', rfl⟩ := List.mem_map.mp hag
  rw [List.mem_range] at hi'
  refine ⟨div_nonneg (Nat.cast_nonneg _) hn'.le, div_le_div_of_nonneg_right ?_ hn'.le⟩
  have : ((i + 1 : ℕ) : ℝ) ≤ n := by exact_mod_cast hi'
  push_cast at this
  linarith

theorem spreadAgents_range {n : ℕ} (hn : 0 < n) : ((n : ℝ) - 1) / n - 0 < 1 := by
  have hn' : (0 : ℝ) < n := by exact_mod_cast hn
  rw [sub_zero, div_lt_one hn']
  linarith

end Deffuant

/-- C94 (from the constructor, without network): with a threshold of 1 or more the expected sum of squared distances from the mean opinion after `t`
iterations is `(1 - 4 mu (1 - mu) / (n - 1)) ^ (t n) · (n² - 1) / (12 n)`, and the probability that some agent is then at a distance of `d` or more from
`(n - 1) / (2 n)` is at most this number divided by `d²`. -/
theorem C94_created [IsProbabilityMeasure μ] {r : Rng G ℝ} (hr : r.IntLawful) (hi' : FairIntegers r μ) {isqrt : Nat → Nat} {max : Option Int} {thr mu : ℝ}
    {N : Network (SimpleAgent ℝ) ℝ} {g₀ : G} (hN : WF N) (hsize : N.agents.length < 2 ^ 64) (hn : 2 ≤ N.agents.length) (h0 : 0 ≤ mu) (h1 : mu ≤ 1) (ht : 1 ≤ thr)
    (t : ℕ) :
    ∃ s₀ s, Deffuant.create isqrt max thr mu false N g₀ = .ok s₀ ∧ s₀.initializeAgents = .ok s ∧
      ∃ final : G → Deffuant (SimpleAgent ℝ) ℝ G, (∀ g, Iterates (Deffuant.iteration r Deffuant.updateRule) { s with gen := g } t (final g)) ∧
        ∫ g, deviation (final g).network.agents ∂μ =
          (1 - 4 * mu * (1 - mu) / ((N.agents.length : ℝ) - 1)) ^ (t * N.agents.length) * (((N.agents.length : ℝ) ^ 2 - 1) / (12 * N.agents.length)) ∧
        ∀ d, 0 < d → μ {g | ∃ i, i < N.agents.length ∧ d ≤ |opinionOf (final g).network.agents i - ((N.agents.length : ℝ) - 1) / (2 * N.agents.length)|} ≤
          ENNReal.ofReal ((1 - 4 * mu * (1 - mu) / ((N.agents.length : ℝ) - 1)) ^ (t * N.agents.length) *
            (((N.agents.length : ℝ) ^ 2 - 1) / (12 * N.agents.length)) / d ^ 2) := by
  have hlen := Deffuant.spreadAgents_length N.agents.length
  have hready : Deffuant.Ready (⟨⟨max.map Network.toSize, 0⟩, thr, mu, false, { N with agents := Deffuant.spreadAgents N.agents.length }, g₀⟩ :
      Deffuant (SimpleAgent ℝ) ℝ G) :=
    ⟨⟨by rw [hlen]; exact hN.rows, by rw [hlen]; exact hN.wrows, hN.lengths, by rw [hlen]; exact hN.range⟩, by rw [hlen]; exact hsize, fun hc => by cases hc⟩
  have hd := (Deffuant.spreadAgents_range (n := N.agents.length) (by omega)).trans_le ht
  obtain ⟨final, e1, -, e3⟩ := C94_expected hr hi' hready (by rw [hlen]; exact hn) rfl h0 h1 (Deffuant.spreadAgents_box (by omega)) hd t
  dsimp only at e3
  rw [hlen, Deffuant.spreadAgents_deviation (by omega)] at e3
  refine ⟨⟨⟨max.map Network.toSize, 0⟩, thr, mu, false, N, g₀⟩, _, rfl, ?_, final, e1, e3, ?_⟩
  · unfold Deffuant.initializeAgents
    rw [DeGroot.spread_eq]
    rfl
  · intro d hpos
    obtain ⟨final', f1, f2⟩ := C94_likely hr hi' hready (by rw [hlen]; exact hn) rfl h0 h1 (Deffuant.spreadAgents_box (by omega)) hd t hpos
    dsimp only at f2
    rw [hlen, Deffuant.spreadAgents_deviation (by omega), Deffuant.spreadAgents_mean (by omega)] at f2
    have : final' = final := funext fun g => Deffuant.iterates_unique (f1 g) (e1 g)
    rw [← this]
    exact f2

/-- C94 (from the constructor, square lattice): the same with `(1 - mu (1 - mu) / (2 n² (n - 1)²)) ^ (t n)` and an inequality. -/
theorem C94_lattice [IsProbabilityMeasure μ] {r : Rng G ℝ} (hr : r.IntLawful) (hi' : FairIntegers r μ) {isqrt : Nat → Nat} {max : Option Int} {thr mu : ℝ}
    {N : Network (SimpleAgent ℝ) ℝ} {g₀ : G} (hsize : N.agents.length < 2 ^ 64) (hn : 2 ≤ N.agents.length)
    (hsq : isqrt N.agents.length * isqrt N.agents.length = N.agents.length) (h0 : 0 ≤ mu) (h1 : mu ≤ 1) (ht : 1 ≤ thr) (t : ℕ) :
    ∃ s₀ s, Deffuant.create isqrt max thr mu true N g₀ = .ok s₀ ∧ s₀.initializeAgents = .ok s ∧
      ∃ final : G → Deffuant (SimpleAgent ℝ) ℝ G, (∀ g, Iterates (Deffuant.iteration r Deffuant.updateRule) { s with gen := g } t (final g)) ∧
        ∫ g, deviation (final g).network.agents ∂μ ≤
          (1 - mu * (1 - mu) / (2 * (N.agents.length : ℝ) ^ 2 * ((N.agents.length : ℝ) - 1) ^ 2)) ^ (t * N.agents.length) *
            (((N.agents.length : ℝ) ^ 2 - 1) / (12 * N.agents.length)) ∧
        ∀ d, 0 < d → μ {g | ∃ i, i < N.agents.length ∧ d ≤ |opinionOf (final g).network.agents i - ((N.agents.length : ℝ) - 1) / (2 * N.agents.length)|} ≤
          ENNReal.ofReal ((1 - mu * (1 - mu) / (2 * (N.agents.length : ℝ) ^ 2 * ((N.agents.length : ℝ) - 1) ^ 2)) ^ (t * N.agents.length) *
            (((N.agents.length : ℝ) ^ 2 - 1) / (12 * N.agents.length)) / d ^ 2) := by
  obtain ⟨M, hM, hw, hl, -, hrows, -, -, hconn⟩ := C14_lattice (A := SimpleAgent ℝ) (isqrt N.agents.length) (0 : ℝ)
  rw [hsq] at hl hconn
  have hlen := Deffuant.spreadAgents_length N.agents.length
  have hrow : ∀ row ∈ M.neighbours, row ≠ [] ∧ row.length = 4 := by
    intro row hrow
    obtain ⟨c, hcl, rfl⟩ := List.getElem_of_mem hrow
    have hcn : c < isqrt N.agents.length * isqrt N.agents.length := by
      rw [hsq, ← hl, ← hw.rows]; exact hcl
    have hL : 0 < isqrt N.agents.length := by
      by_contra hz
      rw [Nat.eq_zero_of_not_pos hz] at hcn
      omega
    have := (hrows (c % isqrt N.agents.length) (c / isqrt N.agents.length) (Nat.mod_lt _ hL) (Nat.div_lt_of_lt_mul hcn)).1
    rw [Nat.mod_add_div, Network.getNeighbours, rd_lt hcl] at this
    have e := Except.ok.inj this
    rw [e]
    exact ⟨by simp, rfl⟩
  have hready : Deffuant.Ready (⟨⟨max.map Network.toSize, 0⟩, thr, mu, true, { M with agents := Deffuant.spreadAgents N.agents.length }, g₀⟩ :
      Deffuant (SimpleAgent ℝ) ℝ G) := by
    refine ⟨⟨by rw [hw.rows, hl, hlen], by rw [hw.wrows, hl, hlen], hw.lengths, fun row hr j hj => by rw [hlen, ← hl]; exact hw.range row hr j hj⟩,
      by dsimp only; rw [hlen]; exact hsize, ?_⟩
    intro _ row h
    have := hrow row h
    refine ⟨this.1, ?_⟩
    rw [this.2]; norm_num
  have hd := (Deffuant.spreadAgents_range (n := N.agents.length) (by omega)).trans_le ht
  obtain ⟨final, e1, -, e3, e4⟩ := C94_network hr hi' hready (by rw [hlen]; exact hn) rfl h0 h1 (D := 4) (by norm_num) (fun row h => (hrow row h).2.le)
    (C74_network_connected hready (by
      intro i j hi hj
      dsimp only at hi hj ⊢
      rw [hlen] at hi hj
      exact hconn i j hi hj)) (Deffuant.spreadAgents_box (by omega)) hd t (c := 1 - mu * (1 - mu) / (2 * (N.agents.length : ℝ) ^ 2 * ((N.agents.length : ℝ) - 1) ^ 2))
    (by
      dsimp only
      rw [hlen]
      have h2 : (2 : ℝ) ≤ N.agents.length := by exact_mod_cast hn
      have h3 : (N.agents.length : ℝ) - 1 ≠ 0 := by intro h; linarith
      have h4 : (N.agents.length : ℝ) ≠ 0 := by intro h; linarith
      push_cast
      field_simp
      ring)
  dsimp only at e3 e4
  rw [hlen, Deffuant.spreadAgents_deviation (by omega)] at e3 e4
  rw [Deffuant.spreadAgents_mean (by omega)] at e4
  refine ⟨⟨⟨max.map Network.toSize, 0⟩, thr, mu, true, M, g₀⟩, _, ?_, ?_, final, e1, e3, e4⟩
  · unfold Deffuant.create Network.nAgents
    rw [if_pos rfl]
    dsimp only
    rw [if_neg (by rw [ne_eq, not_not]; exact hsq), hM]
    rfl
  · unfold Deffuant.initializeAgents
    rw [DeGroot.spread_eq]
    dsimp only
    rw [hl]
    rfl

/-! ## The hypotheses are met -/

/-- Three agents with opinions 0, 1/2, 1 and `mu = 1/4`: each iteration (three meetings) multiplies the expected deviation by `(5/8)³`. -/
example (t : ℕ) : ∃ final : (ℕ → ℝ) → Deffuant (SimpleAgent ℝ) ℝ (ℕ → ℝ),
    (∀ g, Iterates (Deffuant.iteration fairRng Deffuant.updateRule) { threeAgents 0 with gen := g } t (final g)) ∧
      ∫ g, deviation (final g).network.agents ∂tapes = (5 / 8) ^ (t * 3) * (1 / 2) := by
  obtain ⟨final, e1, -, e3⟩ := C94_expected fairRng_lawful fairRng_fair (threeAgents_ready 0) (by simp [threeAgents]) rfl (by norm_num [threeAgents])
    (by norm_num [threeAgents]) (lo := 0) (hi := 1)
    (by
      intro x hx
      simp only [threeAgents, opinions, List.map_cons, List.map_nil, List.mem_cons, List.not_mem_nil, or_false] at hx
      rcases hx with rfl | rfl | rfl <;> norm_num)
    (by norm_num [threeAgents]) t
  refine ⟨final, e1, e3.trans ?_⟩
  have e : deviation (threeAgents 0).network.agents = 1 / 2 := by
    norm_num [deviation, meanOpinion, threeAgents, opinionOf, opinions, Finset.sum_range_succ]
  rw [e]
  norm_num [threeAgents]

end Seldon
