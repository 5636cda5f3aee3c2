import Verif.Lemmas.MeanIeee
import Verif.Props.Overflow
import Mathlib.Analysis.SpecialFunctions.Pow.Real
/-!
# Property C109: the mean-field mode in IEEE double precision
-/
set_option linter.unusedSectionVars false
namespace Seldon
open Spec Ieee
variable {A G : Type} {R : Rounding}

/-- Reasonable parameters for the mean-field mode.  `M` bounds the opinions, `c` the numbers of contacts.  All parameters are finite doubles. -/
structure Activity.MeanTame [ActiveAgent A (Ieee R)] (o : MathOps (Ieee R)) (s : Activity A (Ieee R) G) (M : ℝ) (c : Nat) : Prop where
  /-- at least two agents -/
  two : 2 ≤ s.network.agents.length
  size : s.network.agents.length ≤ 2 ^ 40
  /-- nobody makes more than `c` contacts -/
  contacts : ∀ i, i < s.network.agents.length → contactsOf s.p i ≤ c
  some : 1 ≤ c
  few : c ≤ 2 ^ 20
  lower : ((c * (c + 2) : Nat) : ℝ) ≤ M
  upper : M ≤ 2 ^ 1000
  dt : ∃ h : Dbl R, s.p.dt = fin h ∧ 2 ^ (-40 : ℤ) ≤ h.val ∧ h.val ≤ 1
  alpha : ∃ a : Dbl R, s.p.alpha = fin a
  reciprocity : Within 1 s.p.reciprocity
  activities : ∀ i, i < s.network.agents.length → Within 1 (attr ActiveAgent.activity s.network.agents i)
  coupling : ∃ K : Dbl R, s.p.K = fin K ∧ ∀ i, i < s.network.agents.length →
    ∃ m : Dbl R, attr ActiveAgent.reluctance s.network.agents i = fin m ∧ 2 ^ (-1000 : ℤ) ≤ m.val ∧ m.val ≤ 2 ^ 1000 ∧
      3 / 2 * |K.val| * s.network.agents.length * (c * (c + 2) : Nat) ≤ M * m.val
  opinions : ∀ i, i < s.network.agents.length → Within M (attr ActiveAgent.opinion s.network.agents i)
  bots : ∀ i, i < s.p.nBots → Within M (s.p.botOpinion.getD i 0)
  /-- the homophily weights `|x_i - x_j|^(-h)` neither overflow nor vanish -/
  powers : ∀ i, i < s.network.agents.length → ∀ a : Dbl R, 2 ^ (-34 : ℤ) ≤ a.val → a.val ≤ 4 * M →
    ∃ d : Dbl R, o.pow (fin a) (-(homophilyFor s.p i)) = fin d ∧ 0 < d.val ∧ d.val ≤ 2 ^ 900

/-- What is used of the mathematical functions: `tanh` stays in `[-1, 1]`, whole powers of numbers in `[-1, 1]` stay there. -/
structure Spec.UnitOps (o : MathOps (Ieee R)) : Prop where
  tanh : ∀ a, a ≠ nan → Within 1 (o.tanh a)
  powNat : ∀ (d : Dbl R) (k : Nat), |d.val| ≤ 1 → Within 1 (o.powNat (fin d) k)

section
variable [ActiveAgent A (Ieee R)] [LawfulActiveAgent A (Ieee R)]

/-- The parts of an iteration in mean-field mode. -/
theorem Activity.mean_parts {o : MathOps (Ieee R)} {pick : List (Nat × Ieee R) → Nat} {r : Rng G (Ieee R)} {s t : Activity A (Ieee R) G}
    (h : s.MeanReady) (hs : Activity.iteration o pick r s = .ok t) :
    ∃ N : Network A (Ieee R), N.agents = s.network.agents ∧ WF N ∧
      (∀ i, i < s.network.agents.length → row N i = (List.range s.network.agents.length).map
        (fun j => (j, Activity.weightSeq s.p.reciprocity (Activity.probsSeq o s.p s.network.agents) i j))) ∧
      (∀ i, row t.network i = row N i) ∧ t.p = s.p ∧ t.MeanReady ∧ t.network.agents.length = s.network.agents.length ∧
      ∀ i, i < s.network.agents.length → attr ActiveAgent.opinion t.network.agents i =
        if i < s.p.nBots then s.p.botOpinion.getD i 0 else Activity.rkOpinion o s.p N i (attr ActiveAgent.opinion s.network.agents i) := by
  obtain ⟨t', ht', hR, -⟩ := Activity.mean_step o pick r h
  obtain rfl := Except.ok.inj (hs.symm.trans ht')
  have hlen := (Activity.iteration_frame hs).1.traits.length
  have hp' := (Activity.iteration_frame hs).2.1
  unfold Activity.iteration Activity.updateNetwork at hs
  rw [if_neg (by simp only [h.mean]; simp), Activity.updateMean_seq o (s := { s with counter := s.counter.tick })
    ⟨h.rows, h.wrows, h.incoming, h.probs, h.bots, h.botM, h.botHomophily, h.botOpinion, h.nonneg, h.size, h.mean⟩, Res.bind_ok] at hs
  dsimp only at hs
  set N : Network A (Ieee R) := { s.network with weights := mat s.network.agents.length (Activity.weightSeq s.p.reciprocity
    (Activity.probsSeq o s.p s.network.agents)) } with hN
  have hw : WF N := mat_wf rfl h.rows rfl
  rw [Activity.rkStep_eq o s.p hw h.bots h.botOpinion, Res.bind_ok] at hs
  have ht := Except.ok.inj hs
  refine ⟨N, rfl, hw, fun i hi => mat_rows (N := N) h.rows rfl hi, fun i => by rw [← ht]; rfl, hp', hR, hlen, ?_⟩
  intro i hi
  rw [← ht]
  dsimp only
  rw [Activity.attr_mapIdx _ _ hi]
  by_cases hb : i < s.p.nBots
  · rw [if_pos hb, if_pos hb, LawfulActiveAgent.opinion_setOpinion]
  · rw [if_neg hb, if_neg hb, LawfulActiveAgent.opinion_setOpinion, ← Activity.attr_lt ActiveAgent.opinion hi]

/-- one iteration -/
theorem Activity.MeanTame.next {o : MathOps (Ieee R)} (ho : Spec.UnitOps o) {pick : List (Nat × Ieee R) → Nat} {r : Rng G (Ieee R)}
    {s t : Activity A (Ieee R) G} (h : s.MeanReady) {M : ℝ} {c : Nat} (hT : s.MeanTame o M c) (hs : Activity.iteration o pick r s = .ok t) :
    t.MeanTame o M c ∧ ∀ i, i < s.network.agents.length → ∀ e ∈ row t.network i, Within ((c * (c + 2) : Nat) : ℝ) e.2 := by
  obtain ⟨N, hNa, hw, hrow, hrow', hp', -, hlen, hop⟩ := Activity.mean_parts h hs
  have hB := (Activity.iteration_frame hs).1
  have hrel : ∀ i, attr ActiveAgent.reluctance t.network.agents i = attr ActiveAgent.reluctance s.network.agents i := by
    intro i; unfold attr; rw [hB.traits.2]
  have hact : ∀ i, attr ActiveAgent.activity t.network.agents i = attr ActiveAgent.activity s.network.agents i := by
    intro i; unfold attr; rw [hB.traits.1]
  have hW : (1 : ℝ) ≤ ((c * (c + 2) : Nat) : ℝ) := by
    have : 1 ≤ c * (c + 2) := Nat.mul_pos hT.some (by omega)
    exact_mod_cast this
  have hM : 1 ≤ M := hW.trans hT.lower
  have hc : ∀ i, i < s.network.agents.length → (contactsOf s.p i).toNat ≤ c := by
    intro i hi
    have := hT.contacts i hi
    omega
  have hP : ∀ i j, i < s.network.agents.length → j < s.network.agents.length → Within c (Activity.probsSeq o s.p s.network.agents i j) :=
    fun i j hi hj => Activity.probsSeq_fin ho.powNat hM hT.upper hi hj hT.size hT.two (hT.powers i hi) hT.opinions (hT.activities i hi) (hc i hi) hT.few
  have hwt : ∀ i, i < s.network.agents.length → ∀ e ∈ row N i, Within ((c * (c + 2) : Nat) : ℝ) e.2 := by
    intro i hi e he
    rw [hrow i hi] at he
    obtain ⟨j, hj, rfl⟩ := List.mem_map.mp he
    have hj := List.mem_range.mp hj
    exact Activity.weightSeq_fin hT.reciprocity hT.few (hP i j hi hj) (hP j i hj hi)
  refine ⟨?_, fun i hi e he => hwt i hi e (by rw [← hrow']; exact he)⟩
  obtain ⟨h', hdt, hd0, hd1⟩ := hT.dt
  obtain ⟨al, hal⟩ := hT.alpha
  obtain ⟨K, hK, hKm⟩ := hT.coupling
  refine ⟨by rw [hlen]; exact hT.two, by rw [hlen]; exact hT.size, by rw [hlen, hp']; exact hT.contacts, hT.some, hT.few, hT.lower, hT.upper,
    by rw [hp']; exact ⟨h', hdt, hd0, hd1⟩, by rw [hp']; exact ⟨al, hal⟩, by rw [hp']; exact hT.reciprocity,
    by rw [hlen]; intro i hi; rw [hact]; exact hT.activities i hi,
    ⟨K, by rw [hp']; exact hK, fun i hi => by rw [hrel, hlen]; exact hKm i (by omega)⟩, ?_, by rw [hp']; exact hT.bots,
    by rw [hlen, hp']; exact hT.powers⟩
  rw [hlen]
  intro i hi
  rw [hop i hi]
  by_cases hb : i < s.p.nBots
  · rw [if_pos hb]; exact hT.bots i hb
  · rw [if_neg hb, ← hNa]
    have hlenrow : ∀ i, (row N i).length ≤ N.agents.length := by
      intro i
      by_cases hi : i < s.network.agents.length
      · rw [hrow i hi, hNa]; simp
      · have : row N i = [] := by
          unfold row
          rw [List.getD_eq_getElem?_getD, List.getElem?_eq_none (by rw [hw.rows, hNa]; omega)]
          rfl
        rw [this]; simp
    refine Activity.rkOpinion_fin ho.tanh hal hK hdt hd0 hd1 hW hT.lower hT.upper (by rw [hNa]; exact hT.size) ?_ (by rw [hNa]; exact hwt) hlenrow
      (fun i e he => NetLemmas.row_lt hw he) ?_ (by rw [hNa]; exact hi)
    · rw [hNa]; exact hKm
    · rw [hNa]; exact hT.opinions

/-- C109: in IEEE double precision, over any number of iterations of the activity-driven model in mean-field mode, every opinion is a finite number of size at
most `M` and, after the first iteration, every weight a finite number of size at most `c (c + 2)`; the run never fails. -/
theorem C109_bounded {o : MathOps (Ieee R)} (ho : Spec.UnitOps o) (pick : List (Nat × Ieee R) → Nat) (r : Rng G (Ieee R)) {s : Activity A (Ieee R) G}
    (h : s.MeanReady) {M : ℝ} {c : Nat} (hT : s.MeanTame o M c) (k : Nat) :
    ∃ t, Iterates (Activity.iteration o pick r) s k t ∧ t.network.agents.length = s.network.agents.length ∧
      (∀ a ∈ t.network.agents, Within M (ActiveAgent.opinion a)) ∧
      (1 ≤ k → ∀ i, i < s.network.agents.length → ∀ e ∈ row t.network i, Within ((c * (c + 2) : Nat) : ℝ) e.2) := by
  suffices key : ∃ t, Iterates (Activity.iteration o pick r) s k t ∧ t.network.agents.length = s.network.agents.length ∧ t.MeanReady ∧ t.MeanTame o M c ∧
      (1 ≤ k → ∀ i, i < s.network.agents.length → ∀ e ∈ row t.network i, Within ((c * (c + 2) : Nat) : ℝ) e.2) by
    obtain ⟨t, h1, h2, -, h4, h5⟩ := key
    refine ⟨t, h1, h2, ?_, h5⟩
    intro a ha
    obtain ⟨i, hi, rfl⟩ := List.getElem_of_mem ha
    have := h4.opinions i hi
    rwa [Activity.attr_lt _ hi] at this
  induction k with
  | zero => exact ⟨s, .zero, rfl, h, hT, fun h => absurd h (by omega)⟩
  | succ k ih =>
    obtain ⟨t, h1, h2, h3, h4, -⟩ := ih
    obtain ⟨u, hu, hu', -⟩ := Activity.mean_step o pick r h3
    obtain ⟨h5, h6⟩ := h4.next ho h3 hu
    exact ⟨u, .succ h1 hu, by rw [(Activity.iteration_frame hu).1.traits.length, h2], hu', h5, fun _ => by rw [← h2]; exact h6⟩

/-! ## how it goes wrong -/

/-- an opinion that is NaN stays NaN -/
theorem Activity.nan_next {o : MathOps (Ieee R)} {pick : List (Nat × Ieee R) → Nat} {r : Rng G (Ieee R)} {s t : Activity A (Ieee R) G} (h : s.MeanReady)
    (hs : Activity.iteration o pick r s = .ok t) {i : Nat} (hi : i < s.network.agents.length) (hb : s.p.nBots ≤ i)
    (hx : attr ActiveAgent.opinion s.network.agents i = nan) : attr ActiveAgent.opinion t.network.agents i = nan := by
  obtain ⟨N, -, -, -, -, -, -, -, hop⟩ := Activity.mean_parts h hs
  rw [hop i hi, if_neg (by omega), hx]
  unfold Activity.rkOpinion
  rw [nan_add]

/-- a NaN contact probability spoils both agents, for ever -/
theorem Activity.nan_spreads {o : MathOps (Ieee R)} {pick : List (Nat × Ieee R) → Nat} {r : Rng G (Ieee R)} {s t : Activity A (Ieee R) G} (h : s.MeanReady)
    {i j : Nat} (hi : i < s.network.agents.length) (hj : j < s.network.agents.length)
    (hP : Activity.probsSeq o s.p s.network.agents i j = nan) {l : Nat} (hl : l = i ∨ l = j) (hb : s.p.nBots ≤ l) {k : Nat}
    (ht : Iterates (Activity.iteration o pick r) s (k + 1) t) : t.MeanReady ∧ t.p = s.p ∧ t.network.agents.length = s.network.agents.length ∧
      attr ActiveAgent.opinion t.network.agents l = nan := by
  have hl' : l < s.network.agents.length := by rcases hl with rfl | rfl <;> assumption
  induction k generalizing t with
  | zero =>
    cases ht with
    | succ h0 hu =>
      cases h0
      obtain ⟨N, hNa, -, hrow, -, hp', hR, hlen, hop⟩ := Activity.mean_parts h hu
      refine ⟨hR, hp', hlen, ?_⟩
      rw [hop l hl', if_neg (by omega)]
      apply Activity.rkOpinion_nan
      rw [hrow l hl']
      rcases hl with rfl | rfl
      · exact ⟨_, List.mem_map.mpr ⟨j, List.mem_range.mpr hj, rfl⟩, Activity.weightSeq_nan (.inl hP)⟩
      · exact ⟨_, List.mem_map.mpr ⟨i, List.mem_range.mpr hi, rfl⟩, Activity.weightSeq_nan (.inr hP)⟩
  | succ k ih =>
    cases ht with
    | succ h0 hu =>
      obtain ⟨h1, h2, h3, h4⟩ := ih h0
      obtain ⟨N, -, -, -, -, hp', hR, hlen, -⟩ := Activity.mean_parts h1 hu
      exact ⟨hR, hp'.trans h2, hlen.trans h3, Activity.nan_next h1 hu (by omega) (by rw [h2]; exact hb) h4⟩

/-- if the weights of one agent all vanish, its contact probabilities are NaN -/
theorem Activity.probs_vanishing {o : MathOps (Ieee R)} {p : ActivitySettings (Ieee R)} {agents : List A} {i : Nat} (hi : i < agents.length)
    (hm : 1 ≤ contactsOf p i) (hw : ∀ j, j < agents.length → j ≠ i → o.pow (cmax (1 / ((10 ^ 10 : Nat) : Ieee R))
      (cabs (attr ActiveAgent.opinion agents i - attr ActiveAgent.opinion agents j))) (-(homophilyFor p i)) = 0) {j : Nat} (hj : j < agents.length) :
    Activity.probsSeq o p agents i j = nan := by
  have h0 : ∀ l, l < agents.length → Activity.weight o (homophilyFor p i) agents i l = 0 := by
    intro l hl
    unfold Activity.weight
    split
    · rfl
    · next hne =>
      have := hw l hl hne
      rw [Activity.attr_lt _ hi, Activity.attr_lt _ hl] at this
      rw [List.getElem?_eq_getElem hi, List.getElem?_eq_getElem hl]
      exact this
  unfold Activity.probsSeq
  rw [h0 j hj, Activity.totalSeq_zero h0]
  have e : (0 / 0 : Ieee R) = nan := by
    change (if (0 : Dbl R).val = 0 then signed (0 : Dbl R).val else _) = _
    rw [if_pos (show (0 : Dbl R).val = 0 from rfl)]
    unfold signed
    rw [if_neg (show ¬ 0 < (0 : Dbl R).val from lt_irrefl (0 : ℝ)), if_neg (show ¬ (0 : Dbl R).val < 0 from lt_irrefl (0 : ℝ))]
  rw [e, Activity.helperSeq_nan (by omega), mul_nan]

/-- if one weight overflows, the contact probability is NaN -/
theorem Activity.probs_overflowing {o : MathOps (Ieee R)} {p : ActivitySettings (Ieee R)} {agents : List A} {i j : Nat} (hi : i < agents.length)
    (hj : j < agents.length) (hij : j ≠ i) (hm : 1 ≤ contactsOf p i) (hw : o.pow (cmax (1 / ((10 ^ 10 : Nat) : Ieee R))
      (cabs (attr ActiveAgent.opinion agents i - attr ActiveAgent.opinion agents j))) (-(homophilyFor p i)) = pinf) :
    Activity.probsSeq o p agents i j = nan := by
  have h0 : Activity.weight o (homophilyFor p i) agents i j = pinf := by
    unfold Activity.weight
    rw [if_neg hij, List.getElem?_eq_getElem hi, List.getElem?_eq_getElem hj]
    rw [Activity.attr_lt _ hi, Activity.attr_lt _ hj] at hw
    exact hw
  unfold Activity.probsSeq
  have e : (pinf / Activity.totalSeq (Activity.weight o (homophilyFor p i) agents i) agents.length : Ieee R) = nan := by
    rcases Activity.totalSeq_inf h0 hj with e | e <;> rw [e] <;> rfl
  rw [h0, e, Activity.helperSeq_nan (by omega), mul_nan]

/-- C109, refuted for a lone agent, and for opinions so far apart that all `|x_i - x_j|^(-h)` vanish: if the weights of one agent `i` are all 0 and it makes a contact, then
from the first iteration on the opinion of every agent that is not a bot is NaN. -/
theorem C109_vanishing {o : MathOps (Ieee R)} {pick : List (Nat × Ieee R) → Nat} {r : Rng G (Ieee R)} {s t : Activity A (Ieee R) G} (h : s.MeanReady)
    {i : Nat} (hi : i < s.network.agents.length) (hm : 1 ≤ contactsOf s.p i)
    (hw : ∀ j, j < s.network.agents.length → j ≠ i → o.pow (cmax (1 / ((10 ^ 10 : Nat) : Ieee R))
      (cabs (attr ActiveAgent.opinion s.network.agents i - attr ActiveAgent.opinion s.network.agents j))) (-(homophilyFor s.p i)) = 0)
    {k : Nat} (hk : 1 ≤ k) (ht : Iterates (Activity.iteration o pick r) s k t) {j : Nat} (hj : j < s.network.agents.length) (hb : s.p.nBots ≤ j) :
    attr ActiveAgent.opinion t.network.agents j = nan := by
  obtain ⟨k, rfl⟩ : ∃ k', k = k' + 1 := ⟨k - 1, by omega⟩
  exact (Activity.nan_spreads h hi hj (Activity.probs_vanishing hi hm hw hj) (.inr rfl) hb ht).2.2.2

/-- C109, refuted for strong homophily: if for two agents `i ≠ j` the weight `|x_i - x_j|^(-h)` overflows (as it does when they agree and the homophily is above 30.9) and `i` makes
a contact, then from the first iteration on both opinions are NaN, unless the agent is a bot. -/
theorem C109_overflowing {o : MathOps (Ieee R)} {pick : List (Nat × Ieee R) → Nat} {r : Rng G (Ieee R)} {s t : Activity A (Ieee R) G} (h : s.MeanReady)
    {i j : Nat} (hi : i < s.network.agents.length) (hj : j < s.network.agents.length) (hij : j ≠ i) (hm : 1 ≤ contactsOf s.p i)
    (hw : o.pow (cmax (1 / ((10 ^ 10 : Nat) : Ieee R))
      (cabs (attr ActiveAgent.opinion s.network.agents i - attr ActiveAgent.opinion s.network.agents j))) (-(homophilyFor s.p i)) = pinf)
    {k : Nat} (hk : 1 ≤ k) (ht : Iterates (Activity.iteration o pick r) s k t) {l : Nat} (hl : l = i ∨ l = j) (hb : s.p.nBots ≤ l) :
    attr ActiveAgent.opinion t.network.agents l = nan := by
  obtain ⟨k, rfl⟩ : ∃ k', k = k' + 1 := ⟨k - 1, by omega⟩
  exact (Activity.nan_spreads h hi hj (Activity.probs_overflowing hi hj hij hm hw) hl hb ht).2.2.2

end

/-! ## concrete cases -/

namespace Overflow

/-- `pow`, `tanh` and whole powers, correctly rounded. -/
noncomputable def pow : Ieee R → Ieee R → Ieee R
  | .fin x, .fin y => ofReal R (x.val ^ y.val)
  | _, _ => nan

noncomputable def powNat : Ieee R → Nat → Ieee R
  | .fin x, k => ofReal R (x.val ^ k)
  | _, _ => nan

noncomputable def exact (R : Rounding) : MathOps (Ieee R) := { ops R with pow := pow, powNat := powNat }

theorem exact_unit : Spec.UnitOps (exact R) where
  tanh := tanh_within
  powNat d k hd := by
    have h : |d.val ^ k| ≤ 1 := by rw [abs_pow]; exact pow_le_one₀ (abs_nonneg _) hd
    exact ⟨_, ofReal_fin R (h.trans (one_le_pow₀ one_le_two)), round_abs_le R Dbl.isDouble_one h⟩

/-- With a homophily between 0 and 26 and opinions below a million in size the weights neither overflow nor vanish. -/
theorem exact_powers {M : ℝ} (hM : 1 ≤ M) (hM' : M ≤ 10 ^ 6) {h : Dbl R} (h0 : 0 ≤ h.val) (h1 : h.val ≤ 26) (a : Dbl R) (ha : 2 ^ (-34 : ℤ) ≤ a.val)
    (ha' : a.val ≤ 4 * M) : ∃ d : Dbl R, (exact R).pow (fin a) (-(fin h)) = fin d ∧ 0 < d.val ∧ d.val ≤ 2 ^ 900 := by
  have a0 : 0 < a.val := lt_of_lt_of_le (by positivity) ha
  have e : ∀ {z : ℝ}, 0 < z → (z : ℝ) ^ (-h).val = (z ^ h.val)⁻¹ := fun hz => by rw [neg_val, Real.rpow_neg hz.le]
  have up : a.val ^ (-h).val ≤ 2 ^ 900 := by
    have g1 : a.val ^ (-h).val ≤ ((2 : ℝ) ^ (-34 : ℤ)) ^ (-h).val :=
      Real.rpow_le_rpow_of_nonpos (by positivity) ha (by rw [neg_val]; linarith)
    refine g1.trans ?_
    have g2 : ((2 : ℝ) ^ (-34 : ℤ)) ^ (-h).val = (2 : ℝ) ^ (34 * h.val) := by
      rw [← Real.rpow_intCast, ← Real.rpow_mul (by norm_num), neg_val]
      congr 1
      push_cast
      ring
    rw [g2, ← Real.rpow_natCast]
    exact Real.rpow_le_rpow_of_exponent_le one_le_two (by push_cast; linarith)
  have lo : (2 : ℝ) ^ (-900 : ℤ) ≤ a.val ^ (-h).val := by
    have g1 : ((2 : ℝ) ^ (32 : ℕ)) ^ (-h).val ≤ a.val ^ (-h).val :=
      Real.rpow_le_rpow_of_nonpos a0 (by linarith) (by rw [neg_val]; linarith)
    refine le_trans ?_ g1
    rw [← Real.rpow_natCast, ← Real.rpow_mul (by norm_num), neg_val, ← Real.rpow_intCast]
    exact Real.rpow_le_rpow_of_exponent_le one_le_two (by push_cast; linarith)
  have hpos : 0 < a.val ^ (-h).val := Real.rpow_pos_of_pos a0 _
  refine ⟨Dbl.ofReal R (a.val ^ (-h).val), ?_, ?_, ?_⟩
  · show ofReal R _ = _
    exact ofReal_fin R (by rw [abs_of_pos hpos]; exact up.trans (pow_le_pow_right₀ one_le_two (by norm_num)))
  · exact lt_of_lt_of_le (by positivity) (R.ge_of_ge (isDouble_pow (by norm_num)) lo)
  · refine R.le_of_le ?_ up
    have := isDouble_pow (e := 900) (by norm_num)
    rw [← zpow_natCast]; exact_mod_cast this

/-- Three agents in mean-field mode, one of them a bot with opinion -1. -/
noncomputable def startMean (R : Rounding) : Activity (ActivityAgent (Ieee R)) (Ieee R) Unit where
  counter := ⟨some 3, 0⟩
  p := { settings R with meanWeights := true }
  network := ⟨[⟨-1, 1, 1⟩, ⟨1, 1, 1⟩, ⟨fin (half R), 1, 1⟩], [[0, 1, 2], [0, 1, 2], [0, 1, 2]], [[0, 0, 0], [0, 0, 0], [0, 0, 0]], .incoming⟩
  contactProb := [[0, 0, 0], [0, 0, 0], [0, 0, 0]]
  gen := ()

theorem contacts_mean (i : Nat) : contactsOf (startMean R).p i = 1 := by
  unfold contactsOf
  rcases i with _ | i <;> simp [startMean, settings]

theorem startMean_ready : (startMean R).MeanReady where
  rows := rfl
  wrows := rfl
  incoming := rfl
  probs := rfl
  bots := by show 1 ≤ 3; norm_num
  botM := le_refl 1
  botHomophily := le_refl 1
  botOpinion := le_refl 1
  nonneg i _ := by rw [contacts_mean]; norm_num
  size i _ := by rw [contacts_mean]; norm_num
  mean := rfl

theorem startMean_tame : (startMean R).MeanTame (exact R) 27 1 where
  two := by show 2 ≤ 3; norm_num
  size := by show 3 ≤ 2 ^ 40; norm_num
  contacts i _ := by rw [contacts_mean]; norm_num
  some := le_refl 1
  few := by norm_num
  lower := by norm_num
  upper := by
    calc (27 : ℝ) ≤ 2 ^ 5 := by norm_num
      _ ≤ 2 ^ 1000 := pow_le_pow_right₀ (by norm_num) (by norm_num)
  dt := ⟨half R, rfl, by show (2 : ℝ) ^ (-40 : ℤ) ≤ 1 / 2; norm_num, by show (1 / 2 : ℝ) ≤ 1; norm_num⟩
  alpha := ⟨1, rfl⟩
  reciprocity := ⟨half R, rfl, by show |(1 / 2 : ℝ)| ≤ 1; rw [abs_of_pos (by norm_num)]; norm_num⟩
  activities := by
    show ∀ i, i < 3 → _
    intro i hi
    match i, hi with
    | 0, _ => exact one_within le_rfl
    | 1, _ => exact one_within le_rfl
    | 2, _ => exact one_within le_rfl
  coupling := by
    refine ⟨1, rfl, ?_⟩
    show ∀ i, i < 3 → _
    intro i hi
    have e : attr ActiveAgent.reluctance (startMean R).network.agents i = 1 := by
      match i, hi with
      | 0, _ => rfl
      | 1, _ => rfl
      | 2, _ => rfl
    refine ⟨1, e, ?_, ?_, ?_⟩
    · rw [one_val]; exact zpow_le_one_of_nonpos₀ (by norm_num) (by norm_num)
    · rw [one_val]; exact one_le_pow₀ (by norm_num)
    · show 3 / 2 * |(1 : Dbl R).val| * ((3 : Nat) : ℝ) * ((1 * (1 + 2) : Nat) : ℝ) ≤ 27 * (1 : Dbl R).val
      rw [one_val, abs_one]; norm_num
  opinions := by
    show ∀ i, i < 3 → _
    intro i hi
    match i, hi with
    | 0, _ => exact ⟨-1, rfl, by rw [neg_val, one_val, abs_neg, abs_one]; norm_num⟩
    | 1, _ => exact one_within (by norm_num)
    | 2, _ => exact ⟨half R, rfl, by show |(1 / 2 : ℝ)| ≤ 27; rw [abs_of_pos (by norm_num)]; norm_num⟩
  bots := by
    show ∀ i, i < 1 → _
    intro i hi
    match i, hi with
    | 0, _ => exact ⟨-1, rfl, by rw [neg_val, one_val, abs_neg, abs_one]; norm_num⟩
  powers i _ a ha ha' := by
    have e : homophilyFor (startMean R).p i = fin (if i < 1 then 1 else half R) := by
      unfold homophilyFor
      rcases i with _ | i <;> simp [startMean, settings, one_def]
    rw [e]
    refine exact_powers (by norm_num) (by norm_num) ?_ ?_ a ha ha'
    · split
      · rw [one_val]; norm_num
      · show (0 : ℝ) ≤ 1 / 2; norm_num
    · split
      · rw [one_val]; norm_num
      · show (1 / 2 : ℝ) ≤ 26; norm_num

/-- A million iterations of the example: all opinions are finite and at most 27 in size. -/
example (r : Rng Unit (Ieee R)) : ∃ t, Iterates (Activity.iteration (exact R) (fun _ => 0) r) (startMean R) 1000000 t ∧
    t.network.agents.length = 3 ∧ ∀ a ∈ t.network.agents, Within 27 a.opinion := by
  obtain ⟨t, h1, h2, h3, -⟩ := C109_bounded exact_unit (fun _ => 0) r startMean_ready startMean_tame 1000000
  exact ⟨t, h1, h2, h3⟩

/-- One agent with opinion 1, no bots. -/
noncomputable def lone (R : Rounding) : Activity (ActivityAgent (Ieee R)) (Ieee R) Unit where
  counter := ⟨some 3, 0⟩
  p := { settings R with meanWeights := true, nBots := 0 }
  network := ⟨[⟨1, 1, 1⟩], [[0]], [[0]], .incoming⟩
  contactProb := [[0]]
  gen := ()

theorem lone_ready : (lone R).MeanReady := by
  have c : ∀ i, contactsOf (lone R).p i = 1 := fun i => by unfold contactsOf; simp [lone, settings]
  exact ⟨rfl, rfl, rfl, rfl, Nat.zero_le _, Nat.zero_le _, Nat.zero_le _, Nat.zero_le _, fun i _ => by rw [c]; norm_num, fun i _ => by rw [c]; norm_num, rfl⟩

/-- The opinion of a lone agent is NaN after one iteration. -/
theorem lone_nan (r : Rng Unit (Ieee R)) : ∃ t, Activity.iteration (exact R) (fun _ => 0) r (lone R) = .ok t ∧
    attr ActiveAgent.opinion t.network.agents 0 = nan := by
  obtain ⟨t, ht, -⟩ := Activity.mean_step (exact R) (fun _ => 0) r lone_ready
  refine ⟨t, ht, C109_vanishing lone_ready (i := 0) Nat.one_pos ?_ ?_ (k := 1) le_rfl (.succ .zero ht) Nat.one_pos (Nat.zero_le _)⟩
  · unfold contactsOf; simp [lone, settings]
  · intro j hj hne
    have : j < 1 := hj
    omega

/-- Two agents that agree, homophily 32, no bots. -/
noncomputable def agreed (R : Rounding) : Activity (ActivityAgent (Ieee R)) (Ieee R) Unit where
  counter := ⟨some 3, 0⟩
  p := { settings R with meanWeights := true, nBots := 0, homophily := fin ⟨32, by exact_mod_cast isDouble_nat (n := 32) (by norm_num)⟩ }
  network := ⟨[⟨1, 1, 1⟩, ⟨1, 1, 1⟩], [[0, 1], [0, 1]], [[0, 0], [0, 0]], .incoming⟩
  contactProb := [[0, 0], [0, 0]]
  gen := ()

theorem agreed_ready : (agreed R).MeanReady := by
  have c : ∀ i, contactsOf (agreed R).p i = 1 := fun i => by unfold contactsOf; simp [agreed, settings]
  exact ⟨rfl, rfl, rfl, rfl, Nat.zero_le _, Nat.zero_le _, Nat.zero_le _, Nat.zero_le _, fun i _ => by rw [c]; norm_num, fun i _ => by rw [c]; norm_num, rfl⟩

theorem tenth_fin : ∃ l : Dbl R, (1 / ((10 ^ 10 : Nat) : Ieee R)) = fin l ∧ 0 < l.val ∧ l.val ≤ 2 ^ (-33 : ℤ) := by
  obtain ⟨ten, t1, t2⟩ := natCast_fin (R := R) (n := 10 ^ 10) (by norm_num)
  refine ⟨Dbl.ofReal R (1 / 10 ^ 10), ?_, lt_of_lt_of_le (by positivity) (R.ge_of_ge (isDouble_pow (e := -34) (by norm_num)) (by norm_num)),
    R.le_of_le (isDouble_pow (by norm_num)) (by norm_num)⟩
  rw [t1]
  change (if ten.val = 0 then signed (1 : Dbl R).val else ofReal R ((1 : Dbl R).val / ten.val)) = _
  rw [t2, if_neg (by norm_num), one_val]
  rw [Nat.cast_pow, Nat.cast_ofNat]
  exact ofReal_fin R (z := 1 / 10 ^ 10) (by
    rw [abs_of_nonneg (by positivity)]
    exact (by norm_num : (1 : ℝ) / 10 ^ 10 ≤ 1).trans (one_le_pow₀ one_le_two))

/-- the weight of two agents that agree overflows -/
theorem agreed_weight : (exact R).pow (cmax (1 / ((10 ^ 10 : Nat) : Ieee R)) (cabs (1 - 1 : Ieee R)))
    (-(fin ⟨32, by exact_mod_cast isDouble_nat (n := 32) (by norm_num)⟩)) = pinf := by
  obtain ⟨l, hl, l0, l1⟩ := tenth_fin (R := R)
  have e0 : (1 - 1 : Ieee R) = fin (Dbl.ofReal R 0) := by
    show ofReal R ((1 : Dbl R).val + (-(1 : Dbl R)).val) = _
    rw [neg_val, one_val, add_neg_cancel]
    exact ofReal_fin R (by rw [abs_zero]; positivity)
  have e1 : (Dbl.ofReal R 0 : Dbl R).val = 0 := R.fix Dbl.isDouble_zero
  have e2 : cabs (1 - 1 : Ieee R) = fin (Dbl.ofReal R 0) := by
    rw [e0]
    unfold cabs
    rw [if_neg]
    intro h
    have h : (Dbl.ofReal R 0 : Dbl R).val < 0 := h
    rw [e1] at h
    exact lt_irrefl _ h
  have e3 : cmax (1 / ((10 ^ 10 : Nat) : Ieee R)) (cabs (1 - 1 : Ieee R)) = fin l := by
    rw [e2, hl]
    unfold cmax
    rw [if_neg]
    intro h
    have h : l.val < (Dbl.ofReal R 0 : Dbl R).val := h
    rw [e1] at h
    linarith
  rw [e3]
  have hv : (2 : ℝ) ^ (1056 : ℕ) ≤ l.val ^ (-32 : ℝ) := by
    have g1 : ((2 : ℝ) ^ (-33 : ℤ)) ^ (-32 : ℝ) ≤ l.val ^ (-32 : ℝ) := Real.rpow_le_rpow_of_nonpos l0 l1 (by norm_num)
    refine le_trans (le_of_eq ?_) g1
    rw [← Real.rpow_intCast, ← Real.rpow_mul (by norm_num), ← Real.rpow_natCast]
    norm_num
  have hr : (2 : ℝ) ^ (1056 : ℕ) ≤ R.round (l.val ^ (-32 : ℝ)) := by
    refine R.ge_of_ge ?_ hv
    have := isDouble_pow (e := 1056) (by norm_num)
    rw [← zpow_natCast]; exact_mod_cast this
  show ofReal R (l.val ^ (-32 : ℝ)) = pinf
  unfold ofReal
  rw [if_neg, if_pos (lt_of_lt_of_le (by positivity) hv)]
  rw [not_lt]
  refine le_trans ?_ (hr.trans (le_abs_self _))
  exact pow_le_pow_right₀ one_le_two (by norm_num)

/-- Two agents that agree: with a homophily of 32 both opinions are NaN after one iteration. -/
theorem agreed_nan (r : Rng Unit (Ieee R)) : ∃ t, Activity.iteration (exact R) (fun _ => 0) r (agreed R) = .ok t ∧
    attr ActiveAgent.opinion t.network.agents 0 = nan ∧ attr ActiveAgent.opinion t.network.agents 1 = nan := by
  obtain ⟨t, ht, -⟩ := Activity.mean_step (exact R) (fun _ => 0) r agreed_ready
  have hm : 1 ≤ contactsOf (agreed R).p 0 := by unfold contactsOf; simp [agreed, settings]
  have key : ∀ l, l = 0 ∨ l = 1 → attr ActiveAgent.opinion t.network.agents l = nan := fun l hl =>
    C109_overflowing agreed_ready (i := 0) (j := 1) Nat.two_pos Nat.one_lt_two one_ne_zero hm agreed_weight (k := 1) le_rfl (.succ .zero ht) hl (Nat.zero_le _)
  exact ⟨t, ht, key 0 (.inl rfl), key 1 (.inr rfl)⟩

end Overflow
end Seldon
