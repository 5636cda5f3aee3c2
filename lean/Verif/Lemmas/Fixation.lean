import Verif.Lemmas.VectorEntry
import Verif.Props.VectorLimit
import Verif.Lemmas.Expect
import Mathlib.MeasureTheory.Integral.DominatedConvergence
import Mathlib.Tactic.LinearCombination
/-!
# Helper lemmas: how many agents hold a value, on the average
-/
set_option linter.unusedSectionVars false
namespace Seldon
open Spec MeasureTheory
open scoped ENNReal
variable {G : Type} [MeasurableSpace G] {μ : Measure G}

namespace Deffuant

/-- 1 if agent `i` holds the value `v` at position `k`. -/
noncomputable def ind (k : ℕ) (v : Int) (xs : List DiscreteVectorAgent) (i : ℕ) : ℝ := if entry xs i k = some v then 1 else 0

/-- The holders, counted with weights. -/
noncomputable def score (w : ℕ → ℝ) (k : ℕ) (v : Int) (xs : List DiscreteVectorAgent) : ℝ := ∑ i ∈ Finset.range xs.length, w i * ind k v xs i

theorem ind_nonneg (k : ℕ) (v : Int) (xs : List DiscreteVectorAgent) (i : ℕ) : 0 ≤ ind k v xs i := by
  unfold ind; split <;> norm_num

theorem ind_le (k : ℕ) (v : Int) (xs : List DiscreteVectorAgent) (i : ℕ) : ind k v xs i ≤ 1 := by
  unfold ind; split <;> norm_num

theorem score_nonneg {w : ℕ → ℝ} (hw : ∀ i, 0 ≤ w i) (k : ℕ) (v : Int) (xs : List DiscreteVectorAgent) : 0 ≤ score w k v xs :=
  Finset.sum_nonneg fun i _ => mul_nonneg (hw i) (ind_nonneg k v xs i)

theorem ind_congr {k : ℕ} {v : Int} {xs ys : List DiscreteVectorAgent} {i j : ℕ} (h : entry ys i k = entry xs j k) : ind k v ys i = ind k v xs j := by
  rw [ind, ind, h]

/-- Only the two agents that meet count. -/
theorem score_diff (w : ℕ → ℝ) (k : ℕ) (v : Int) {xs ys : List DiscreteVectorAgent} (hl : ys.length = xs.length) {a b : ℕ} (ha : a < xs.length)
    (hb : b < xs.length) (hab : a ≠ b) (h : ∀ i, i ≠ a → i ≠ b → entry ys i k = entry xs i k) :
    score w k v ys = score w k v xs + w a * (ind k v ys a - ind k v xs a) + w b * (ind k v ys b - ind k v xs b) := by
  have e : score w k v ys - score w k v xs = ∑ i ∈ Finset.range xs.length, w i * (ind k v ys i - ind k v xs i) := by
    unfold score
    rw [hl, ← Finset.sum_sub_distrib]
    exact Finset.sum_congr rfl fun i _ => by ring
  have e2 : ∑ i ∈ Finset.range xs.length, w i * (ind k v ys i - ind k v xs i) = ∑ i ∈ ({a, b} : Finset ℕ), w i * (ind k v ys i - ind k v xs i) := by
    symm
    refine Finset.sum_subset ?_ ?_
    · intro i hi
      rcases Finset.mem_insert.mp hi with rfl | hi
      · exact Finset.mem_range.mpr ha
      · rw [Finset.mem_singleton.mp hi]; exact Finset.mem_range.mpr hb
    · intro i _ hi
      rw [Finset.mem_insert, Finset.mem_singleton, not_or] at hi
      rw [ind_congr (h i hi.1 hi.2), sub_self, mul_zero]
  rw [Finset.sum_pair hab] at e2
  linarith

theorem meetV_others (r : Rng G ℝ) (θ mu : ℝ) {a b d : Nat} {xs ys : List DiscreteVectorAgent} {g g' : G} (hd : Dim d xs) (ha : a < xs.length) (hb : b < xs.length)
    (hab : a ≠ b) (h : meetV r θ mu a b xs g = .ok (ys, g')) : ∀ i, i ≠ a → i ≠ b → ys[i]? = xs[i]? := by
  by_cases hn : Near d θ xs[a].opinion xs[b].opinion
  · rw [(meetV_eq r θ mu hd ha hb g).1 hn] at h
    obtain ⟨t, h1, h2, h3, h4⟩ := loop_inv (n := d) (f := fun k t => convince r mu a b k t) (s := (xs, g))
      (fun _ t => t.1.length = xs.length ∧ Dim d t.1 ∧ ∀ i, i ≠ a → i ≠ b → t.1[i]? = xs[i]?) ⟨rfl, hd, fun _ _ _ => rfl⟩ (by
        rintro k ⟨zs, gz⟩ hk ⟨g1, g2, g3⟩
        obtain ⟨ws, gw, e1, e2, e3, -, e5, -⟩ := convince_entry r mu g2 (by rw [g1]; exact ha) (by rw [g1]; exact hb) hab (show k < d by omega) gz
        exact ⟨(ws, gw), e1, e2.trans g1, e3, fun i h1 h2 => (e5 i h1 h2).trans (g3 i h1 h2)⟩)
    rw [h1] at h
    cases h
    exact h4
  · rw [(meetV_eq r θ mu hd ha hb g).2 hn] at h
    cases h
    exact fun _ _ _ => rfl

/-- The probability that the first agent of the pair gives in. -/
noncomputable def giveIn (mu : ℝ) : ℝ := (uniform (Set.Ioi mu)).toReal / 2

theorem uniform_le (mu : ℝ) : uniform (Set.Ioi mu) ≤ 1 := by
  calc uniform (Set.Ioi mu) ≤ uniform Set.univ := measure_mono (Set.subset_univ _)
    _ = 1 := by simp [uniform]

theorem giveIn_nonneg (mu : ℝ) : 0 ≤ giveIn mu := div_nonneg ENNReal.toReal_nonneg (by norm_num)

theorem giveIn_le (mu : ℝ) : giveIn mu ≤ 1 := by
  have h : (uniform (Set.Ioi mu)).toReal ≤ 1 := by
    simpa using ENNReal.toReal_mono (by simp) (uniform_le mu)
  unfold giveIn
  linarith

theorem giveIn_low {mu : ℝ} (h : mu ≤ 0) : giveIn mu = 1 / 2 := by rw [giveIn, uniform_low h]; simp

theorem giveIn_mid {mu : ℝ} (h0 : 0 ≤ mu) (h1 : mu ≤ 1) : giveIn mu = (1 - mu) / 2 := by
  rw [giveIn, uniform_mid h0, ENNReal.toReal_ofReal (by linarith)]

theorem yields_real {r : Rng G ℝ} [IsProbabilityMeasure μ] (hi : FairIntegers r μ) (hu : Draws r.unit uniform μ) (mu : ℝ) :
    μ (yields r mu) = ENNReal.ofReal (giveIn mu) := by
  rw [(yields_law hi hu mu).2, giveIn, ENNReal.ofReal_div_of_pos (by norm_num), ENNReal.ofReal_toReal (ne_top_of_le_ne_top ENNReal.one_ne_top (uniform_le mu))]
  simp

open Classical in
/-- The change of the score that a meeting brings on the average. -/
noncomputable def drift (w : ℕ → ℝ) (k : ℕ) (v : Int) (d : ℕ) (θ mu : ℝ) (xs : List DiscreteVectorAgent) (p : ℕ × ℕ) : ℝ :=
  if Near d θ (vec xs p.1) (vec xs p.2) then (ind k v xs p.2 - ind k v xs p.1) * (giveIn mu * w p.1 - (1 - giveIn mu) * w p.2) else 0

open Classical in
theorem expect_meetV {r : Rng G ℝ} [IsProbabilityMeasure μ] (hi : FairIntegers r μ) (hu : Draws r.unit uniform μ) (θ mu : ℝ) {w : ℕ → ℝ} (hw : ∀ i, 0 ≤ w i)
    {k d : ℕ} (hk : k < d) (v : Int) {xs : List DiscreteVectorAgent} (hd : Dim d xs) {a b : ℕ} (ha : a < xs.length) (hb : b < xs.length) :
    0 ≤ score w k v xs + drift w k v d θ mu xs (a, b) ∧
    expect (meetV r θ mu a b xs) μ (fun ys => ENNReal.ofReal (score w k v ys)) = ENNReal.ofReal (score w k v xs + drift w k v d θ mu xs (a, b)) := by
  have hidle : (∀ g, meetV r θ mu a b xs g = .ok (xs, g)) → expect (meetV r θ mu a b xs) μ (fun ys => ENNReal.ofReal (score w k v ys)) =
      ENNReal.ofReal (score w k v xs) := by
    intro h
    rw [show meetV r θ mu a b xs = fun g => .ok (xs, g) from funext h, expect_pure]
  by_cases hn : Near d θ xs[a].opinion xs[b].opinion
  · by_cases hab : a = b
    · subst hab
      have e : drift w k v d θ mu xs (a, a) = 0 := by simp [drift]
      rw [e, add_zero]
      exact ⟨score_nonneg hw k v xs, hidle fun g => meetV_idle r θ mu hd ha hb g (.inl rfl)⟩
    · obtain ⟨hm, -⟩ := yields_law hi hu mu
      have hq := yields_real hi hu mu
      have hfr := (convinceTo_fresh hi hu mu hd ha hb k hk.le).1
      have hmf := (meetV_fresh hi hu θ mu hd ha hb).1
      choose zs gk ys g' e1 e2 e3 e4 e5 e6 using fun g => meetV_entry r θ mu hd ha hb hab hk hn g
      have hY := hfr.after_law hm
      have hset : {g | ∃ y g', loop k (fun k t => convince r mu a b k t) (xs, g) = .ok (y, g') ∧ g' ∈ yields r mu} = {g | gk g ∈ yields r mu} := by
        ext g
        simp only [Set.mem_ofPred_eq, e1]
        constructor
        · rintro ⟨y, g'', h2, h3⟩
          cases h2
          exact h3
        · exact fun h => ⟨_, _, rfl, h⟩
      rw [hset, hq] at hY
      set E := {g | gk g ∈ yields r mu} with hE
      set sA := score w k v xs + w a * (ind k v xs b - ind k v xs a) with hsA
      set sB := score w k v xs + w b * (ind k v xs a - ind k v xs b) with hsB
      have hval : ∀ g, score w k v (ys g) = if gk g ∈ yields r mu then sA else sB := by
        intro g
        have hoth := meetV_others r θ mu hd ha hb hab (e2 g)
        rw [score_diff w k v (e3 g) ha hb hab fun i h1 h2 => by rw [entry, hoth i h1 h2, ← entry]]
        split
        · rename_i hy
          obtain ⟨f1, f2⟩ := e5 g hy
          rw [ind_congr f1, ind_congr f2, hsA]
          ring
        · rename_i hy
          obtain ⟨f1, f2⟩ := e6 g hy
          rw [ind_congr f1, ind_congr f2, hsB]
          ring
      have hAB : 0 ≤ sA ∧ 0 ≤ sB := by
        have hp : ∀ c : ℕ, c < xs.length → ∀ t : ℝ, 0 ≤ t → 0 ≤ score w k v xs + w c * (t - ind k v xs c) := by
          intro c hc t ht
          have : w c * ind k v xs c ≤ score w k v xs :=
            Finset.single_le_sum (f := fun i => w i * ind k v xs i) (fun i _ => mul_nonneg (hw i) (ind_nonneg k v xs i)) (Finset.mem_range.mpr hc)
          nlinarith [mul_nonneg (hw c) ht]
        exact ⟨hp a ha _ (ind_nonneg k v xs b), hp b hb _ (ind_nonneg k v xs a)⟩
      have hdr : score w k v xs + drift w k v d θ mu xs (a, b) = giveIn mu * sA + (1 - giveIn mu) * sB := by
        rw [drift, if_pos (by rw [vec_lt ha, vec_lt hb]; exact hn), hsA, hsB]
        ring
      have hq0 := giveIn_nonneg mu
      have hq1 := giveIn_le mu
      rw [hdr]
      refine ⟨add_nonneg (mul_nonneg hq0 hAB.1) (mul_nonneg (by linarith) hAB.2), ?_⟩
      rw [← expect_lintegral hmf (v := ys) (fun g => ⟨_, e2 g⟩)]
      simp only [hval]
      have hfun : (fun g => ENNReal.ofReal (if gk g ∈ yields r mu then sA else sB)) =
          fun g => E.indicator (fun _ => ENNReal.ofReal sA) g + Eᶜ.indicator (fun _ => ENNReal.ofReal sB) g := by
        funext g
        by_cases hy : g ∈ E
        · rw [Set.indicator_of_mem hy, Set.indicator_of_notMem (not_not.mpr hy : ¬ g ∈ Eᶜ), add_zero, if_pos (show gk g ∈ yields r mu from hy)]
        · rw [Set.indicator_of_notMem hy, Set.indicator_of_mem hy, zero_add, if_neg (show gk g ∉ yields r mu from hy)]
      rw [hfun, lintegral_add_left (measurable_const.indicator hY.1), lintegral_indicator_const hY.1, lintegral_indicator_const hY.1.compl,
        measure_compl hY.1 (measure_ne_top μ _), measure_univ, hY.2, ← ENNReal.ofReal_one, ← ENNReal.ofReal_sub _ hq0, ← ENNReal.ofReal_mul hAB.1,
        ← ENNReal.ofReal_mul hAB.2, ← ENNReal.ofReal_add (mul_nonneg hAB.1 hq0) (mul_nonneg hAB.2 (by linarith))]
      congr 1
      ring
  · have e : drift w k v d θ mu xs (a, b) = 0 := by
      rw [drift, if_neg (by rw [vec_lt ha, vec_lt hb]; exact hn)]
    rw [e, add_zero]
    exact ⟨score_nonneg hw k v xs, hidle fun g => (meetV_eq r θ mu hd ha hb g).2 hn⟩

/-! ## all pairs -/

variable {s : Deffuant DiscreteVectorAgent ℝ G}

/-- The probability of a pair as a real number. -/
noncomputable def oddsV (r : Rng G ℝ) (s : Deffuant DiscreteVectorAgent ℝ G) (μ : Measure G) (p : ℕ × ℕ) : ℝ := (chance r s μ p).toReal

theorem oddsV_nonneg (r : Rng G ℝ) (p : ℕ × ℕ) : 0 ≤ oddsV r s μ p := ENNReal.toReal_nonneg

theorem oddsV_chance [IsProbabilityMeasure μ] (r : Rng G ℝ) (p : ℕ × ℕ) : chance r s μ p = ENNReal.ofReal (oddsV r s μ p) :=
  (ENNReal.ofReal_toReal (measure_ne_top _ _)).symm

theorem oddsV_outside {r : Rng G ℝ} (hr : r.IntLawful) (hs : s.Ready) (hn : 2 ≤ s.network.agents.length) {p : ℕ × ℕ}
    (hp : p ∉ Finset.range s.network.agents.length ×ˢ Finset.range s.network.agents.length) : chance r s μ p = 0 := by
  obtain ⟨a, b⟩ := p
  refine chance_zero hr hs hn ?_
  rintro ⟨h1, h2, -⟩
  exact hp (Finset.mem_product.mpr ⟨Finset.mem_range.mpr h1, Finset.mem_range.mpr h2⟩)

theorem oddsV_sum [IsProbabilityMeasure μ] {r : Rng G ℝ} (hr : r.IntLawful) (hi : FairIntegers r μ) (hs : s.Ready) (hn : 2 ≤ s.network.agents.length) :
    ∑ p ∈ Finset.range s.network.agents.length ×ˢ Finset.range s.network.agents.length, oddsV r s μ p = 1 := by
  have hF := pair_fresh (μ := μ) hr hi hs hn
  have h1 := expect_lintegral hF (v := fun g => (drawnPair r s g).1) (fun g => ⟨_, rfl⟩) (fun _ => 1)
  rw [lintegral_const, measure_univ, mul_one, expect, tsum_eq_sum (s := Finset.range s.network.agents.length ×ˢ Finset.range s.network.agents.length)] at h1
  · have h2 : ∑ p ∈ Finset.range s.network.agents.length ×ˢ Finset.range s.network.agents.length, chance r s μ p = 1 := by
      rw [h1]
      exact Finset.sum_congr rfl fun p _ => by rw [mul_one]; rfl
    have h3 := congrArg ENNReal.toReal h2
    rw [ENNReal.toReal_sum fun p _ => by rw [oddsV_chance]; exact ENNReal.ofReal_ne_top] at h3
    simpa [oddsV] using h3
  · intro p hp
    rw [show μ (hits (fun g => (.ok (drawnPair r s g) : Res ((ℕ × ℕ) × G))) p Set.univ) = 0 from oddsV_outside hr hs hn hp, zero_mul]

/-- The expected score after one interaction. -/
theorem expect_stepV [IsProbabilityMeasure μ] {r : Rng G ℝ} (hr : r.IntLawful) (hi : FairIntegers r μ) (hu : Draws r.unit uniform μ) (hs : s.Ready)
    (hn : 2 ≤ s.network.agents.length) {w : ℕ → ℝ} (hw : ∀ i, 0 ≤ w i) {k d : ℕ} (hk : k < d) (v : Int) {xs : List DiscreteVectorAgent} (hd : Dim d xs)
    (hl : xs.length = s.network.agents.length) :
    expect (stepOf r s (meetV r s.threshold s.mu) xs) μ (fun ys => ENNReal.ofReal (score w k v ys)) =
      ENNReal.ofReal (score w k v xs + ∑ p ∈ Finset.range s.network.agents.length ×ˢ Finset.range s.network.agents.length,
        oddsV r s μ p * drift w k v d s.threshold s.mu xs p) := by
  have e := expect_bind (h := fun (q : ℕ × ℕ) => meetV r s.threshold s.mu q.1 q.2 xs) (pair_fresh hr hi hs hn) (fun p g g' h => by
    obtain ⟨a, b, g'', h1, ha, hb, -⟩ := drawnPair_range hr hs (by omega) g
    rw [h1] at h
    cases h
    exact (meetV_fresh hi hu _ _ hd (by rw [hl]; exact ha) (by rw [hl]; exact hb)).1)
    (fun ys => ENNReal.ofReal (score w k v ys))
  refine (show _ = _ from e).trans ?_
  have hin : ∀ p ∈ Finset.range s.network.agents.length ×ˢ Finset.range s.network.agents.length, p.1 < xs.length ∧ p.2 < xs.length := by
    intro p hp
    obtain ⟨ha, hb⟩ := Finset.mem_product.mp hp
    rw [Finset.mem_range, ← hl] at ha hb
    exact ⟨ha, hb⟩
  rw [expect, tsum_eq_sum (s := Finset.range s.network.agents.length ×ˢ Finset.range s.network.agents.length)]
  · have e2 : ∀ p ∈ Finset.range s.network.agents.length ×ˢ Finset.range s.network.agents.length,
        μ (hits (fun g => (.ok (drawnPair r s g) : Res ((ℕ × ℕ) × G))) p Set.univ) *
          expect (meetV r s.threshold s.mu p.1 p.2 xs) μ (fun ys => ENNReal.ofReal (score w k v ys)) =
        ENNReal.ofReal (oddsV r s μ p * (score w k v xs + drift w k v d s.threshold s.mu xs p)) := by
      intro p hp
      obtain ⟨ha, hb⟩ := hin p hp
      rw [(expect_meetV hi hu s.threshold s.mu hw hk v hd ha hb).2, ENNReal.ofReal_mul (oddsV_nonneg r p), ← oddsV_chance]
      rfl
    rw [Finset.sum_congr rfl e2, ← ENNReal.ofReal_sum_of_nonneg fun p hp =>
      mul_nonneg (oddsV_nonneg r p) (expect_meetV hi hu s.threshold s.mu hw hk v hd (hin p hp).1 (hin p hp).2).1]
    congr 1
    simp only [mul_add]
    rw [Finset.sum_add_distrib, ← Finset.sum_mul, oddsV_sum hr hi hs hn, one_mul]
  · intro p hp
    rw [show μ (hits (fun g => (.ok (drawnPair r s g) : Res ((ℕ × ℕ) × G))) p Set.univ) = 0 from oddsV_outside hr hs hn hp, zero_mul]

/-- The pairs can be counted the other way round. -/
theorem sum_pairs_swap (n : ℕ) (f : ℕ × ℕ → ℝ) : ∑ p ∈ Finset.range n ×ˢ Finset.range n, f (p.2, p.1) = ∑ p ∈ Finset.range n ×ˢ Finset.range n, f p := by
  refine Finset.sum_bij' (fun p _ => (p.2, p.1)) (fun p _ => (p.2, p.1)) ?_ ?_ ?_ ?_ ?_
  · intro p hp; exact Finset.mem_product.mpr ⟨(Finset.mem_product.mp hp).2, (Finset.mem_product.mp hp).1⟩
  · intro p hp; exact Finset.mem_product.mpr ⟨(Finset.mem_product.mp hp).2, (Finset.mem_product.mp hp).1⟩
  · intro p _; rfl
  · intro p _; rfl
  · intro p _; rfl

/-- If the pairs are as likely one way round as the other, equal weights are kept on the average. -/
theorem drift_balanced (r : Rng G ℝ) {n : ℕ} (h : ∀ a b, a < n → b < n → oddsV r s μ (a, b) = oddsV r s μ (b, a)) (k : ℕ) (v : Int) (d : ℕ) (θ mu : ℝ)
    (xs : List DiscreteVectorAgent) :
    ∑ p ∈ Finset.range n ×ˢ Finset.range n, oddsV r s μ p * drift (fun _ => 1) k v d θ mu xs p = 0 := by
  have e : ∑ p ∈ Finset.range n ×ˢ Finset.range n, oddsV r s μ (p.2, p.1) * drift (fun _ => 1) k v d θ mu xs (p.2, p.1) =
      -∑ p ∈ Finset.range n ×ˢ Finset.range n, oddsV r s μ p * drift (fun _ => 1) k v d θ mu xs p := by
    rw [← Finset.sum_neg_distrib]
    refine Finset.sum_congr rfl ?_
    rintro ⟨a, b⟩ hp
    obtain ⟨ha, hb⟩ := Finset.mem_product.mp hp
    rw [h b a (Finset.mem_range.mp hb) (Finset.mem_range.mp ha), ← mul_neg]
    congr 1
    unfold drift
    by_cases hn : Near d θ (vec xs a) (vec xs b)
    · rw [if_pos hn, if_pos (hn.symm _ _)]; ring
    · rw [if_neg hn, if_neg (fun hc => hn (hc.symm _ _)), neg_zero]
  rw [sum_pairs_swap n (fun p => oddsV r s μ p * drift (fun _ => 1) k v d θ mu xs p)] at e
  linarith

/-- If nobody is favoured, equal weights are kept. -/
theorem drift_fair {mu : ℝ} (h : mu ≤ 0) (k : ℕ) (v : Int) (d : ℕ) (θ : ℝ) (xs : List DiscreteVectorAgent) (p : ℕ × ℕ) :
    drift (fun _ => 1) k v d θ mu xs p = 0 := by
  unfold drift
  rw [giveIn_low h]
  split
  · ring
  · rfl

end Deffuant

/-- The share of the result that goes to the `i` agents with the lowest numbers out of `n`. -/
noncomputable def Spec.lead (mu : ℝ) (n i : ℕ) : ℝ := (1 + mu) * i / ((1 + mu) * i + (1 - mu) * (n - i))

namespace Deffuant

theorem lead_denom {mu : ℝ} (h0 : 0 ≤ mu) (h1 : mu ≤ 1) {n i : ℕ} (hi : 0 < i) (hin : i ≤ n) : 0 < (1 + mu) * (i : ℝ) + (1 - mu) * ((n : ℝ) - i) := by
  have e1 : (0 : ℝ) < i := by exact_mod_cast hi
  have e2 : (i : ℝ) ≤ n := by exact_mod_cast hin
  have := mul_pos (by linarith : 0 < 1 + mu) e1
  have := mul_nonneg (by linarith : 0 ≤ 1 - mu) (by linarith : (0 : ℝ) ≤ n - i)
  linarith

theorem lead_mul {mu : ℝ} (h0 : 0 ≤ mu) (h1 : mu ≤ 1) {n i : ℕ} (hin : i ≤ n) :
    lead mu n i * ((1 + mu) * (i : ℝ) + (1 - mu) * ((n : ℝ) - i)) = (1 + mu) * i := by
  rcases Nat.eq_zero_or_pos i with rfl | hi
  · simp [lead]
  · rw [lead, div_mul_cancel₀ _ (lead_denom h0 h1 hi hin).ne']

theorem lead_zero (mu : ℝ) (n : ℕ) : lead mu n 0 = 0 := by simp [lead]

theorem lead_full {mu : ℝ} (h0 : 0 ≤ mu) {n : ℕ} (hn : 0 < n) : lead mu n n = 1 := by
  have : (0 : ℝ) < n := by exact_mod_cast hn
  rw [lead, sub_self, mul_zero, add_zero, div_self]
  exact (mul_pos (by linarith) this).ne'

/-- The weights satisfy a linear recursion. -/
theorem lead_step {mu : ℝ} (h0 : 0 ≤ mu) (h1 : mu ≤ 1) {n i : ℕ} (hin : i < n) :
    (lead mu n (i + 1) - lead mu n i) * ((1 + mu) * ((i : ℝ) + 1) + (1 - mu) * ((n : ℝ) - i - 1)) = (1 + mu) - 2 * mu * lead mu n i := by
  have e1 := lead_mul h0 h1 (n := n) (i := i + 1) hin
  have e2 := lead_mul h0 h1 (n := n) (i := i) hin.le
  push_cast at e1
  linear_combination e1 - e2

theorem lead_le_one {mu : ℝ} (h0 : 0 ≤ mu) (h1 : mu ≤ 1) {n i : ℕ} (hin : i ≤ n) : lead mu n i ≤ 1 := by
  rcases Nat.eq_zero_or_pos i with rfl | hi
  · rw [lead_zero]; norm_num
  · rw [lead, div_le_one (lead_denom h0 h1 hi hin)]
    have e2 : (i : ℝ) ≤ n := by exact_mod_cast hin
    nlinarith [mul_nonneg (by linarith : 0 ≤ 1 - mu) (by linarith : (0 : ℝ) ≤ n - i)]

theorem lead_mono {mu : ℝ} (h0 : 0 ≤ mu) (h1 : mu ≤ 1) {n i : ℕ} (hin : i < n) : 0 ≤ lead mu n (i + 1) - lead mu n i := by
  have e := lead_step h0 h1 hin
  have hd := lead_denom h0 h1 (n := n) (i := i + 1) (by omega) hin
  push_cast at hd
  have hl := lead_le_one h0 h1 hin.le
  by_contra hc
  have : (lead mu n (i + 1) - lead mu n i) * ((1 + mu) * ((i : ℝ) + 1) + (1 - mu) * ((n : ℝ) - i - 1)) < 0 :=
    mul_neg_of_neg_of_pos (not_le.mp hc) (by linarith)
  nlinarith

/-- The weight of agent `i`. -/
noncomputable def weight (mu : ℝ) (n i : ℕ) : ℝ := if i < n then lead mu n (i + 1) - lead mu n i else 0

theorem weight_nonneg {mu : ℝ} (h0 : 0 ≤ mu) (h1 : mu ≤ 1) (n i : ℕ) : 0 ≤ weight mu n i := by
  unfold weight
  split
  · exact lead_mono h0 h1 (by assumption)
  · exact le_rfl

theorem weight_partial (mu : ℝ) {n m : ℕ} (h : m ≤ n) : ∑ i ∈ Finset.range m, weight mu n i = lead mu n m := by
  rw [Finset.sum_congr rfl fun i hi => by rw [weight, if_pos (show i < n by have := Finset.mem_range.mp hi; omega)], Finset.sum_range_sub, lead_zero, sub_zero]

/-- The drift of the weighted score cancels, agent by agent. -/
theorem drift_order {mu : ℝ} (h0 : 0 ≤ mu) (h1 : mu ≤ 1) (n : ℕ) (x : ℕ → ℝ) :
    ∑ a ∈ Finset.range n, ∑ b ∈ Finset.range n, (if a < b then (x b - x a) * ((1 - mu) / 2 * weight mu n a - (1 - (1 - mu) / 2) * weight mu n b) else 0) = 0 := by
  set q := (1 - mu) / 2 with hq
  -- collect the coefficient of each `x i`
  have hsplit : ∑ a ∈ Finset.range n, ∑ b ∈ Finset.range n, (if a < b then (x b - x a) * (q * weight mu n a - (1 - q) * weight mu n b) else 0) =
      ∑ i ∈ Finset.range n, x i * ((∑ a ∈ Finset.range n, if a < i then (q * weight mu n a - (1 - q) * weight mu n i) else 0) -
        ∑ b ∈ Finset.range n, if i < b then (q * weight mu n i - (1 - q) * weight mu n b) else 0) := by
    have e1 : ∀ a b, (if a < b then (x b - x a) * (q * weight mu n a - (1 - q) * weight mu n b) else 0) =
        x b * (if a < b then (q * weight mu n a - (1 - q) * weight mu n b) else 0) - x a * (if a < b then (q * weight mu n a - (1 - q) * weight mu n b) else 0) := by
      intro a b
      split <;> ring
    rw [Finset.sum_congr rfl fun a _ => Finset.sum_congr rfl fun b _ => e1 a b]
    simp only [Finset.sum_sub_distrib]
    rw [Finset.sum_comm, ← Finset.sum_sub_distrib]
    refine Finset.sum_congr rfl fun i _ => ?_
    rw [mul_sub, Finset.mul_sum, Finset.mul_sum]
  rw [hsplit]
  refine Finset.sum_eq_zero fun i hi => ?_
  rw [Finset.mem_range] at hi
  have hlow : (∑ a ∈ Finset.range n, if a < i then (q * weight mu n a - (1 - q) * weight mu n i) else 0) = q * lead mu n i - i * ((1 - q) * weight mu n i) := by
    rw [← Finset.sum_filter, show (Finset.range n).filter (· < i) = Finset.range i from ?_, Finset.sum_sub_distrib, ← Finset.mul_sum, weight_partial mu hi.le,
      Finset.sum_const, Finset.card_range, nsmul_eq_mul]
    ext a; simp; omega
  have hhigh : (∑ b ∈ Finset.range n, if i < b then (q * weight mu n i - (1 - q) * weight mu n b) else 0) =
      ((n : ℝ) - i - 1) * (q * weight mu n i) - (1 - q) * (lead mu n n - lead mu n (i + 1)) := by
    rw [← Finset.sum_filter, show (Finset.range n).filter (fun b => i < b) = Finset.range n \ Finset.range (i + 1) from ?_, Finset.sum_sdiff_eq_sub (by simpa using hi)]
    · simp only [Finset.sum_sub_distrib, ← Finset.mul_sum, weight_partial mu le_rfl, weight_partial mu (show i + 1 ≤ n from hi), Finset.sum_const, Finset.card_range, nsmul_eq_mul]
      push_cast
      ring
    · ext a; simp only [Finset.mem_filter, Finset.mem_range, Finset.mem_sdiff]; omega
  rw [hlow, hhigh, lead_full h0 (by omega)]
  have hst := lead_step h0 h1 hi
  have hwi : weight mu n i = lead mu n (i + 1) - lead mu n i := by rw [weight, if_pos hi]
  rw [hwi] at *
  have : q * lead mu n i - i * ((1 - q) * (lead mu n (i + 1) - lead mu n i)) -
      (((n : ℝ) - i - 1) * (q * (lead mu n (i + 1) - lead mu n i)) - (1 - q) * (1 - lead mu n (i + 1))) = 0 := by
    rw [hq]
    linear_combination (-1 / 2 : ℝ) * hst
  rw [this, mul_zero]

/-! ## many iterations -/

theorem score_sum (w : ℕ → ℝ) (k : ℕ) (v : Int) (xs : List DiscreteVectorAgent) :
    score w k v xs = ∑ i ∈ (Finset.range xs.length).filter fun i => entry xs i k = some v, w i := by
  unfold score ind
  rw [Finset.sum_filter]
  exact Finset.sum_congr rfl fun i _ => by split <;> simp

/-- If the score is kept on the average by one interaction, then by any number of iterations. -/
theorem final_score [IsProbabilityMeasure μ] {r : Rng G ℝ} (hr : r.IntLawful) (hi : FairIntegers r μ) (hu : Draws r.unit uniform μ) (hs : s.Ready)
    (hn : 2 ≤ s.network.agents.length) {d : ℕ} (hd : Dim d s.network.agents) :
    ∃ final : G → ℕ → Deffuant DiscreteVectorAgent ℝ G, (∀ g t, Iterates (iteration r (updateVector r)) { s with gen := g } t (final g t)) ∧
      (∀ g t, (final g t).network.agents.length = s.network.agents.length ∧ Dim d (final g t).network.agents) ∧
      (∀ t (φ : List DiscreteVectorAgent → ℝ), Measurable fun g => φ (final g t).network.agents) ∧
      ∀ (w : ℕ → ℝ) (k : ℕ) (v : Int), (∀ i, 0 ≤ w i) → k < d → (∀ xs : List DiscreteVectorAgent, xs.length = s.network.agents.length → Dim d xs →
        ∑ p ∈ Finset.range s.network.agents.length ×ˢ Finset.range s.network.agents.length, oddsV r s μ p * drift w k v d s.threshold s.mu xs p = 0) →
        ∀ t, ∫ g, score w k v (final g t).network.agents ∂μ = score w k v s.network.agents := by
  have R := meetV_rule (μ := μ) hi hu s d
  choose ys g' c e1 e2 _ e4 using fun g t => iterates_stepOf hr hs (by omega) R ⟨rfl, hd⟩ g t
  have hinv := stepOf_inv hr hs (by omega) R
  have hfr : ∀ x, x.length = s.network.agents.length ∧ Dim d x → Fresh (stepOf r s (meetV r s.threshold s.mu) x) μ := fun x hx => (stepOf_law hr hi hs hn R hx).1
  have hF : ∀ t, Fresh (walk (stepOf r s (meetV r s.threshold s.mu)) (t * s.network.agents.length) s.network.agents) μ :=
    fun t => walk_fresh hinv hfr _ _ ⟨rfl, hd⟩
  refine ⟨_, e4, e2, fun t φ => measurable_result (hF t) (v := fun g => ys g t) (fun g => ⟨g' g t, e1 g t⟩) φ, ?_⟩
  intro w k v hw hk h t
  have h1 := expect_lintegral (hF t) (v := fun g => ys g t) (fun g => ⟨g' g t, e1 g t⟩) (fun xs => ENNReal.ofReal (score w k v xs))
  have h2 := expect_walk (φ := fun xs => ENNReal.ofReal (score w k v xs)) (c := 1) hinv hfr (by
    intro x hx
    rw [expect_stepV hr hi hu hs hn hw hk v hx.2 hx.1, h x hx.1 hx.2, add_zero, one_mul]) (t * s.network.agents.length) s.network.agents ⟨rfl, hd⟩
  rw [h2, one_pow, one_mul] at h1
  have hm : Measurable fun g => score w k v (ys g t) := measurable_result (hF t) (v := fun g => ys g t) (fun g => ⟨g' g t, e1 g t⟩) (score w k v)
  rw [integral_eq_lintegral_of_nonneg_ae (Filter.Eventually.of_forall fun g => score_nonneg hw k v _) hm.aestronglyMeasurable]
  show (∫⁻ g, ENNReal.ofReal (score w k v (ys g t)) ∂μ).toReal = _
  rw [h1, ENNReal.toReal_ofReal (score_nonneg hw k v _)]

theorem trajectoryV_iterates {r : Rng G ℝ} {st : ℕ → Deffuant DiscreteVectorAgent ℝ G} (h : TrajectoryV r st) (t : ℕ) : Iterates (iteration r (updateVector r)) (st 0) t (st t) := by
  induction t with
  | zero => exact .zero
  | succ t ih => exact .succ ih (h t)

/-- The probability of a consensus on `v`. -/
theorem fixation [IsProbabilityMeasure μ] {r : Rng G ℝ} (hr : r.IntLawful) (hi : FairIntegers r μ) (hu : Draws r.unit uniform μ) (hs : s.Ready)
    (hn : 2 ≤ s.network.agents.length)
    (hsym : s.useNetwork = true → ∀ a b, a < s.network.agents.length → b ∈ s.network.neighbours.getD a [] → a ∈ s.network.neighbours.getD b [])
    {d : ℕ} (hd : Dim d s.network.agents) (hθ : (d : ℝ) < s.threshold)
    (hc : ∀ i j, i < s.network.agents.length → j < s.network.agents.length → Relation.ReflTransGen s.CanMeet i j)
    {w : ℕ → ℝ} {k : ℕ} {v : Int} (hw : ∀ i, 0 ≤ w i) (hk : k < d) (hsum : ∑ i ∈ Finset.range s.network.agents.length, w i = 1)
    (hdrift : ∀ xs : List DiscreteVectorAgent, xs.length = s.network.agents.length → Dim d xs →
        ∑ p ∈ Finset.range s.network.agents.length ×ˢ Finset.range s.network.agents.length, oddsV r s μ p * drift w k v d s.threshold s.mu xs p = 0) :
    μ {g | ∃ st : Nat → Deffuant DiscreteVectorAgent ℝ G, st 0 = { s with gen := g } ∧ TrajectoryV r st ∧
      ∃ T, ∀ t, T ≤ t → ∀ i, i < s.network.agents.length → entry (st t).network.agents i k = some v} = ENNReal.ofReal (score w k v s.network.agents) := by
  obtain ⟨final, f1, f2, f3, f4⟩ := final_score (μ := μ) hr hi hu hs hn hd
  set E := {g | ∃ st : Nat → Deffuant DiscreteVectorAgent ℝ G, st 0 = { s with gen := g } ∧ TrajectoryV r st ∧
      ∃ T, ∀ t, T ≤ t → ∀ i, i < s.network.agents.length → entry (st t).network.agents i k = some v} with hE
  have huniq : ∀ g (st : Nat → Deffuant DiscreteVectorAgent ℝ G), st 0 = { s with gen := g } → TrajectoryV r st → ∀ t, st t = final g t := by
    intro g st h0 hT t
    have := trajectoryV_iterates hT t
    rw [h0] at this
    exact iterates_unique this (f1 g t)
  have hlim : ∀ᵐ g ∂μ, Filter.Tendsto (fun t => score w k v (final g t).network.agents) Filter.atTop (nhds (E.indicator (fun _ => (1 : ℝ)) g)) := by
    filter_upwards [C85_consensus hr hi hu hs hsym hd hθ hc] with g ⟨st, h0, hT, T, c, hcons⟩
    have hst := huniq g st h0 hT
    have hent : ∀ t, T ≤ t → ∀ i, i < s.network.agents.length → entry (final g t).network.agents i k = c[k]? := by
      intro t ht i hi'
      rw [← hst t]
      have hl : i < (st t).network.agents.length := by rw [hst t, (f2 g t).1]; exact hi'
      rw [entry_vec, vec_lt hl, hcons t ht _ (List.getElem_mem hl)]
    by_cases hcv : c[k]? = some v
    · have hgE : g ∈ E := ⟨st, h0, hT, T, fun t ht i hi' => by rw [hst t, hent t ht i hi', hcv]⟩
      rw [Set.indicator_of_mem hgE]
      refine tendsto_const_nhds.congr' ?_
      filter_upwards [Filter.eventually_ge_atTop T] with t ht
      rw [score, (f2 g t).1, ← hsum]
      exact Finset.sum_congr rfl fun i hi' => by rw [ind, if_pos (by rw [hent t ht i (Finset.mem_range.mp hi'), hcv]), mul_one]
    · have hgE : g ∉ E := by
        rintro ⟨st', h0', hT', T', h⟩
        have h1 := h (max T T') (le_max_right _ _) 0 (by omega)
        rw [huniq g st' h0' hT', hent _ (le_max_left _ _) 0 (by omega)] at h1
        exact hcv h1
      rw [Set.indicator_of_notMem hgE]
      refine tendsto_const_nhds.congr' ?_
      filter_upwards [Filter.eventually_ge_atTop T] with t ht
      rw [score, (f2 g t).1]
      exact (Finset.sum_eq_zero fun i hi' => by rw [ind, if_neg (by rw [hent t ht i (Finset.mem_range.mp hi')]; exact hcv), mul_zero]).symm
  have hmeas : ∀ t, AEStronglyMeasurable (fun g => score w k v (final g t).network.agents) μ := fun t => (f3 t (score w k v)).aestronglyMeasurable
  have hbound : ∀ t, ∀ᵐ g ∂μ, ‖score w k v (final g t).network.agents‖ ≤ 1 := by
    intro t
    refine Filter.Eventually.of_forall fun g => ?_
    rw [Real.norm_of_nonneg (score_nonneg hw k v _), score, (f2 g t).1, ← hsum]
    exact Finset.sum_le_sum fun i _ => mul_le_of_le_one_right (hw i) (ind_le k v _ i)
  have h1 := tendsto_integral_of_dominated_convergence (fun _ => (1 : ℝ)) hmeas (integrable_const 1) hbound hlim
  simp only [f4 w k v hw hk hdrift] at h1
  have h2 := tendsto_nhds_unique tendsto_const_nhds h1
  have h3 : AEMeasurable (E.indicator fun _ => (1 : ℝ)) μ := (aestronglyMeasurable_of_tendsto_ae Filter.atTop hmeas hlim).aemeasurable
  have hEm : NullMeasurableSet E μ := (aemeasurable_indicator_const_iff (1 : ℝ)).mp h3
  rw [integral_indicator₀ hEm, setIntegral_const, smul_eq_mul, mul_one] at h2
  rw [h2, Measure.real, ENNReal.ofReal_toReal (measure_ne_top μ E)]

end Deffuant
end Seldon
