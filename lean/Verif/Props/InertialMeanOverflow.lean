import Verif.Props.InertialOverflow
import Verif.Props.MeanOverflow
/-!
# Property C111: the inertial model in mean-field mode in IEEE double precision
-/
set_option linter.unusedSectionVars false
namespace Seldon
open Spec Ieee
variable {G : Type} {R : Rounding}

/-- Reasonable parameters for the inertial model in mean-field mode: friction between `2⁻⁸` and `2⁸`, time step between `2⁻¹⁵` and 1; `M` bounds the bot
opinions, `c` the numbers of contacts.  All parameters are finite doubles. -/
structure Inertial.MeanReasonable (o : MathOps (Ieee R)) (s : Inertial (Ieee R) G) (f : Dbl R) (M : ℝ) (c : Nat) : Prop where
  /-- at least two agents -/
  two : 2 ≤ s.base.network.agents.length
  size : s.base.network.agents.length ≤ 2 ^ 28
  /-- nobody makes more than `c` contacts -/
  contacts : ∀ i, i < s.base.network.agents.length → contactsOf s.base.p i ≤ c
  some : 1 ≤ c
  few : c ≤ 2 ^ 20
  lower : ((c * (c + 2) : Nat) : ℝ) ≤ M
  upper : M ≤ 2 ^ 940
  friction : s.friction = fin f ∧ 2 ^ (-8 : ℤ) ≤ f.val ∧ f.val ≤ 2 ^ 8
  dt : ∃ h : Dbl R, s.base.p.dt = fin h ∧ 2 ^ (-15 : ℤ) ≤ h.val ∧ h.val ≤ 1
  alpha : ∃ a : Dbl R, s.base.p.alpha = fin a
  reciprocity : Within 1 s.base.p.reciprocity
  activities : ∀ i, i < s.base.network.agents.length → Within 1 (attr ActiveAgent.activity s.base.network.agents i)
  coupling : ∃ K : Dbl R, s.base.p.K = fin K ∧ ∀ i, i < s.base.network.agents.length →
    ∃ m : Dbl R, attr ActiveAgent.reluctance s.base.network.agents i = fin m ∧ 2 ^ (-1000 : ℤ) ≤ m.val ∧ m.val ≤ 2 ^ 1000 ∧
      3 / 2 * |K.val| * s.base.network.agents.length * (c * (c + 2) : Nat) ≤ M * m.val
  bots : ∀ i, i < s.base.p.nBots → Within M (s.base.p.botOpinion.getD i 0)
  /-- the homophily weights `|x_i - x_j|^(-h)` neither overflow nor vanish -/
  powers : ∀ i, i < s.base.network.agents.length → ∀ a : Dbl R, 2 ^ (-34 : ℤ) ≤ a.val → a.val ≤ 4 * (500 * (1 + f.val) ^ 2 / f.val * M) →
    ∃ d : Dbl R, o.pow (fin a) (-(homophilyFor s.base.p i)) = fin d ∧ 0 < d.val ∧ d.val ≤ 2 ^ 900

/-- The parts of an iteration in mean-field mode. -/
theorem Inertial.mean_parts {o : MathOps (Ieee R)} {pick : List (Nat × Ieee R) → Nat} {r : Rng G (Ieee R)} {s t : Inertial (Ieee R) G}
    (h : Activity.MeanReady s.base) (hs : Inertial.iteration o pick r s = .ok t) :
    ∃ N : Network (InertialAgent (Ieee R)) (Ieee R), N.agents = s.base.network.agents ∧ WF N ∧
      (∀ i, i < s.base.network.agents.length → row N i = (List.range s.base.network.agents.length).map
        (fun j => (j, Activity.weightSeq s.base.p.reciprocity (Activity.probsSeq o s.base.p s.base.network.agents) i j))) ∧
      (∀ i, row t.base.network i = row N i) ∧ t.base.p = s.base.p ∧ t.friction = s.friction ∧ Activity.MeanReady t.base ∧
      t.base.network.agents.length = s.base.network.agents.length ∧
      ∀ i (hi : i < N.agents.length), t.base.network.agents[i]? = Option.some (if i < s.base.p.nBots then
        { Inertial.kicked o s.base.p s.friction N i N.agents[i] with opinion := s.base.p.botOpinion.getD i 0 }
        else Inertial.kicked o s.base.p s.friction N i N.agents[i]) := by
  obtain ⟨t', ht', hR, -⟩ := Inertial.mean_step o pick r h
  obtain rfl := Except.ok.inj (hs.symm.trans ht')
  obtain ⟨hB, hp', -, hfr⟩ := Inertial.iteration_frame hs
  have hlen := hB.traits.length
  unfold Inertial.iteration Activity.updateNetwork at hs
  rw [if_neg (by simp only [h.mean]; simp), Activity.updateMean_seq o (s := { s.base with counter := s.base.counter.tick })
    ⟨h.rows, h.wrows, h.incoming, h.probs, h.bots, h.botM, h.botHomophily, h.botOpinion, h.nonneg, h.size, h.mean⟩, Res.bind_ok] at hs
  dsimp only at hs
  set w := mat s.base.network.agents.length (Activity.weightSeq s.base.p.reciprocity (Activity.probsSeq o s.base.p s.base.network.agents)) with hwd
  set N : Network (InertialAgent (Ieee R)) (Ieee R) := { s.base.network with weights := w } with hN
  have hw : WF N := mat_wf rfl h.rows rfl
  rw [Inertial.verletStep_eq o s.base.p s.friction hw h.bots h.botOpinion, Res.bind_ok] at hs
  have ht := Except.ok.inj hs
  refine ⟨N, rfl, hw, fun i hi => mat_rows (N := N) h.rows rfl hi, fun i => by rw [← ht]; rfl, hp', hfr, hR, hlen, ?_⟩
  intro i hi
  rw [← ht]
  dsimp only
  rw [List.getElem?_mapIdx, List.getElem?_eq_getElem hi]
  rfl

namespace Inertial

/-- one iteration -/
theorem MeanReasonable.next {o : MathOps (Ieee R)} (ho : Spec.UnitOps o) {pick : List (Nat × Ieee R) → Nat} {r : Rng G (Ieee R)}
    {s t : Inertial (Ieee R) G} (h : Activity.MeanReady s.base) {f : Dbl R} {M : ℝ} {c : Nat} (hT : s.MeanReasonable o f M c) (hC : s.AllCalm f M)
    (hs : Inertial.iteration o pick r s = .ok t) : t.MeanReasonable o f M c ∧ t.AllCalm f M ∧
      ∀ i, i < s.base.network.agents.length → ∀ e ∈ row t.base.network i, Within ((c * (c + 2) : Nat) : ℝ) e.2 := by
  obtain ⟨N, hNa, hw, hrow, hrow', hp', hfr, -, hlen, hag⟩ := Inertial.mean_parts h hs
  have hB := (Inertial.iteration_frame hs).1
  have hrel : ∀ i, attr ActiveAgent.reluctance t.base.network.agents i = attr ActiveAgent.reluctance s.base.network.agents i := by
    intro i; unfold attr; rw [hB.traits.2]
  have hact : ∀ i, attr ActiveAgent.activity t.base.network.agents i = attr ActiveAgent.activity s.base.network.agents i := by
    intro i; unfold attr; rw [hB.traits.1]
  obtain ⟨hf, f0, f1⟩ := hT.friction
  obtain ⟨al, hal⟩ := hT.alpha
  obtain ⟨K, hK, hKm⟩ := hT.coupling
  obtain ⟨h', hdt, h0, h1⟩ := hT.dt
  have fp : 0 < f.val := lt_of_lt_of_le (by positivity) f0
  have hW : (1 : ℝ) ≤ ((c * (c + 2) : Nat) : ℝ) := by
    have : 1 ≤ c * (c + 2) := Nat.mul_pos hT.some (by omega)
    exact_mod_cast this
  have hM : 1 ≤ M := hW.trans hT.lower
  have hc : ∀ i, i < s.base.network.agents.length → (contactsOf s.base.p i).toNat ≤ c := by
    intro i hi
    have := hT.contacts i hi
    omega
  set X := 500 * (1 + f.val) ^ 2 / f.val * M with hX
  have eX : X = 5 / 4 * bound f.val M := by rw [hX]; unfold bound; ring
  have hbl := bound_le f0 f1 hM hT.upper
  have hXM : X ≤ 2 ^ 1000 := by
    have : (2 : ℝ) ^ 980 * 2 ≤ 2 ^ 1000 := by rw [← pow_succ]; exact pow_le_pow_right₀ (by norm_num) (by norm_num)
    refine le_trans ?_ this
    rw [eX]
    have hb0 : 0 ≤ bound f.val M := by unfold bound; positivity
    calc 5 / 4 * bound f.val M ≤ bound f.val M * 2 := by linarith
      _ ≤ _ := mul_le_mul_of_nonneg_right hbl (by norm_num)
  have hX1 : 1 ≤ X := by
    obtain ⟨-, b1, -, -⟩ := margin (n := 0) f0 f1 h0 h1 hM (by norm_num) (bound_eq (M := M) fp)
    rw [eX]; linarith
  have hops : ∀ i, i < s.base.network.agents.length → Within X (attr ActiveAgent.opinion s.base.network.agents i) := by
    intro i hi
    rw [Activity.attr_lt _ hi]
    exact (calm_within f0 f1 h0 h1 hM (hC h' hdt i hi)).1
  have hP : ∀ i j, i < s.base.network.agents.length → j < s.base.network.agents.length →
      Within c (Activity.probsSeq o s.base.p s.base.network.agents i j) :=
    fun i j hi hj => Activity.probsSeq_fin ho.powNat hX1 hXM hi hj (hT.size.trans (by norm_num)) hT.two (hT.powers i hi) hops
      (hT.activities i hi) (hc i hi) hT.few
  have hwt : ∀ i, i < s.base.network.agents.length → ∀ e ∈ row N i, Within ((c * (c + 2) : Nat) : ℝ) e.2 := by
    intro i hi e he
    rw [hrow i hi] at he
    obtain ⟨j, hj, rfl⟩ := List.mem_map.mp he
    have hj := List.mem_range.mp hj
    exact Activity.weightSeq_fin hT.reciprocity hT.few (hP i j hi hj) (hP j i hj hi)
  refine ⟨⟨by rw [hlen]; exact hT.two, by rw [hlen]; exact hT.size, by rw [hlen, hp']; exact hT.contacts, hT.some, hT.few, hT.lower, hT.upper,
    by rw [hfr]; exact hT.friction, by rw [hp']; exact hT.dt, by rw [hp']; exact ⟨al, hal⟩, by rw [hp']; exact hT.reciprocity,
    by rw [hlen]; intro i hi; rw [hact]; exact hT.activities i hi,
    ⟨K, by rw [hp']; exact hK, fun i hi => by rw [hrel, hlen]; exact hKm i (by omega)⟩, by rw [hp']; exact hT.bots,
    by rw [hlen, hp']; exact hT.powers⟩, ?_, fun i hi e he => hwt i hi e (by rw [← hrow']; exact he)⟩
  intro h2 hdt2 i hi
  rw [hp', hdt] at hdt2
  obtain rfl : h' = h2 := by injection hdt2
  rw [hp']
  rw [hlen] at hi
  have hi' : i < N.agents.length := by rw [hNa]; exact hi
  have hlenrow : ∀ i, (row N i).length ≤ N.agents.length := by
    intro i
    by_cases hi : i < s.base.network.agents.length
    · rw [hrow i hi, hNa]; simp
    · have : row N i = [] := by
        unfold row
        rw [List.getD_eq_getElem?_getD, List.getElem?_eq_none (by rw [hw.rows, hNa]; omega)]
        rfl
      rw [this]; simp
  obtain ⟨x, v, k1, k2, k3, k4⟩ := kicked_fin (bot := fun i => i < s.base.p.nBots) ho.tanh hal hK hdt h0 h1 f0 f1 hW hT.lower (bound_eq fp)
    (bound_le f0 f1 hM hT.upper) (by rw [hNa]; exact hT.size) (by rw [hNa]; exact hKm) (by rw [hNa]; exact hwt) hlenrow
    (fun i e he => NetLemmas.row_lt hw he)
    (fun j hj => by
      have := hC h' hdt j (by rw [← hNa]; exact hj)
      have e : N.agents[j] = s.base.network.agents[j]'(by rw [← hNa]; exact hj) := by simp only [hNa]
      rw [e]; exact this) hi'
  have hget := hag i hi'
  rw [List.getElem?_eq_getElem (by rw [hlen]; exact hi)] at hget
  rw [Option.some.inj hget, hf]
  by_cases hb : i < s.base.p.nBots
  · rw [if_pos hb]
    obtain ⟨b, hb1, hb2⟩ := hT.bots i hb
    exact ⟨b, v, hb1, k2, fun h => absurd hb h, fun _ => ⟨hb2, k4 hb⟩⟩
  · rw [if_neg hb]
    exact ⟨x, v, k1, k2, k3, fun h => absurd h hb⟩

end Inertial

/-- C111: in IEEE double precision, over any number of iterations of the inertial model in mean-field mode, every opinion and every velocity is a finite number of
size at most `500 (1 + f)² / f · M` and, after the first iteration, every weight a finite number of size at most `c (c + 2)`; the run never fails. -/
theorem C111_bounded {o : MathOps (Ieee R)} (ho : Spec.UnitOps o) (pick : List (Nat × Ieee R) → Nat) (r : Rng G (Ieee R)) {s : Inertial (Ieee R) G}
    (h : Activity.MeanReady s.base) {f : Dbl R} {M : ℝ} {c : Nat} (hT : s.MeanReasonable o f M c)
    (hx : ∀ a ∈ s.base.network.agents, Within M a.opinion) (hv : ∀ a ∈ s.base.network.agents, Within M a.velocity) (k : Nat) :
    ∃ t, Iterates (Inertial.iteration o pick r) s k t ∧ t.base.network.agents.length = s.base.network.agents.length ∧
      (∀ a ∈ t.base.network.agents, Within (500 * (1 + f.val) ^ 2 / f.val * M) a.opinion ∧ Within (500 * (1 + f.val) ^ 2 / f.val * M) a.velocity) ∧
      (1 ≤ k → ∀ i, i < s.base.network.agents.length → ∀ e ∈ row t.base.network i, Within ((c * (c + 2) : Nat) : ℝ) e.2) := by
  obtain ⟨-, f0, f1⟩ := hT.friction
  have hM : 1 ≤ M := by
    refine le_trans ?_ hT.lower
    have : 1 ≤ c * (c + 2) := Nat.mul_pos hT.some (by omega)
    exact_mod_cast this
  have start : s.AllCalm f M := by
    intro d hd i hi
    obtain ⟨d', hd', h0, h1⟩ := hT.dt
    obtain rfl : d' = d := by rw [hd] at hd'; injection hd'.symm
    exact Inertial.calm_start f0 f1 h0 h1 hM (hx _ (List.getElem_mem hi)) (hv _ (List.getElem_mem hi)) _
  suffices key : ∃ t, Iterates (Inertial.iteration o pick r) s k t ∧ t.base.network.agents.length = s.base.network.agents.length ∧
      Activity.MeanReady t.base ∧ (t.MeanReasonable o f M c ∧ t.AllCalm f M) ∧
      (1 ≤ k → ∀ i, i < s.base.network.agents.length → ∀ e ∈ row t.base.network i, Within ((c * (c + 2) : Nat) : ℝ) e.2) by
    obtain ⟨t, h1, h2, -, h4, h5⟩ := key
    refine ⟨t, h1, h2, ?_, h5⟩
    intro a ha
    obtain ⟨i, hi, rfl⟩ := List.getElem_of_mem ha
    obtain ⟨d, hd, h0, h1⟩ := h4.1.dt
    exact Inertial.calm_within f0 f1 h0 h1 hM (h4.2 d hd i hi)
  induction k with
  | zero => exact ⟨s, .zero, rfl, h, ⟨hT, start⟩, fun h => absurd h (by omega)⟩
  | succ k ih =>
    obtain ⟨t, h1, h2, h3, h4, -⟩ := ih
    obtain ⟨u, hu, hu', -⟩ := Inertial.mean_step o pick r h3
    obtain ⟨h5, h6, h7⟩ := h4.1.next ho h3 h4.2 hu
    exact ⟨u, .succ h1 hu, by rw [(Inertial.iteration_frame hu).1.traits.length, h2], hu', ⟨h5, h6⟩, fun _ => by rw [← h2]; exact h7⟩

/-! ## how it goes wrong -/

namespace Inertial

/-- opinion and velocity of agent `i` are NaN -/
def Lost (s : Inertial (Ieee R) G) (i : Nat) : Prop :=
  ∃ a, s.base.network.agents[i]? = Option.some a ∧ a.opinion = nan ∧ a.velocity = nan

theorem nan_sub (a : Ieee R) : nan - a = nan := by cases a <;> rfl

theorem kicked_nan {o : MathOps (Ieee R)} {p : ActivitySettings (Ieee R)} {f : Ieee R} {N : Network (InertialAgent (Ieee R)) (Ieee R)} {i : Nat}
    {a : InertialAgent (Ieee R)} (h : (∃ e ∈ row N i, e.2 = nan) ∨ a.opinion = nan ∧ a.velocity = nan) :
    (kicked o p f N i a).opinion = nan ∧ (kicked o p f N i a).velocity = nan := by
  unfold kicked moved
  rcases h with h | ⟨h1, h2⟩
  · have h1 := Activity.slope_nan (o := o) (p := p) (N := N) (x := attr ActiveAgent.opinion N.agents) h
    constructor
    · simp only [h1]
      rw [nan_sub, mul_nan, nan_mul, nan_mul, add_nan]
    · simp only [h1]
      rw [nan_sub, nan_add, mul_nan, add_nan, nan_div]
  · constructor
    · simp only [h1, h2, nan_mul, nan_add]
    · simp only [h2, nan_add, nan_div]

/-- a NaN contact probability spoils both agents, for ever -/
theorem nan_spreads {o : MathOps (Ieee R)} {pick : List (Nat × Ieee R) → Nat} {r : Rng G (Ieee R)} {s t : Inertial (Ieee R) G}
    (h : Activity.MeanReady s.base) {i j : Nat} (hi : i < s.base.network.agents.length) (hj : j < s.base.network.agents.length)
    (hP : Activity.probsSeq o s.base.p s.base.network.agents i j = nan) {l : Nat} (hl : l = i ∨ l = j) (hb : s.base.p.nBots ≤ l) {k : Nat}
    (ht : Iterates (Inertial.iteration o pick r) s (k + 1) t) : Activity.MeanReady t.base ∧ t.base.p = s.base.p ∧
      t.base.network.agents.length = s.base.network.agents.length ∧ t.Lost l := by
  have hl' : l < s.base.network.agents.length := by rcases hl with rfl | rfl <;> assumption
  induction k generalizing t with
  | zero =>
    cases ht with
    | succ h0 hu =>
      cases h0
      obtain ⟨N, hNa, -, hrow, -, hp', -, hR, hlen, hag⟩ := mean_parts h hu
      have := hag l (by rw [hNa]; exact hl')
      rw [if_neg (by omega)] at this
      refine ⟨hR, hp', hlen, _, this, ?_⟩
      apply kicked_nan (Or.inl _)
      rw [hrow l hl']
      rcases hl with rfl | rfl
      · exact ⟨_, List.mem_map.mpr ⟨j, List.mem_range.mpr hj, rfl⟩, Activity.weightSeq_nan (.inl hP)⟩
      · exact ⟨_, List.mem_map.mpr ⟨i, List.mem_range.mpr hi, rfl⟩, Activity.weightSeq_nan (.inr hP)⟩
  | succ k ih =>
    cases ht with
    | succ h0 hu =>
      obtain ⟨h1, h2, h3, a, ha, ha1, ha2⟩ := ih h0
      obtain ⟨N, hNa, -, -, -, hp', -, hR, hlen, hag⟩ := mean_parts h1 hu
      have := hag l (by rw [hNa, h3]; exact hl')
      rw [if_neg (by rw [h2]; omega)] at this
      refine ⟨hR, hp'.trans h2, hlen.trans h3, _, this, ?_⟩
      apply kicked_nan (Or.inr _)
      have e : N.agents[l]? = Option.some a := by rw [hNa]; exact ha
      rw [List.getElem?_eq_getElem (by rw [hNa, h3]; exact hl')] at e
      rw [Option.some.inj e]
      exact ⟨ha1, ha2⟩

end Inertial

/-- C111, refuted for a lone agent, and for opinions so far apart that all `|x_i - x_j|^(-h)` vanish: if the weights of one agent `i` are all 0 and it makes a contact, then
from the first iteration on opinion and velocity of every agent that is not a bot are NaN. -/
theorem C111_vanishing {o : MathOps (Ieee R)} {pick : List (Nat × Ieee R) → Nat} {r : Rng G (Ieee R)} {s t : Inertial (Ieee R) G}
    (h : Activity.MeanReady s.base) {i : Nat} (hi : i < s.base.network.agents.length) (hm : 1 ≤ contactsOf s.base.p i)
    (hw : ∀ j, j < s.base.network.agents.length → j ≠ i → o.pow (cmax (1 / ((10 ^ 10 : Nat) : Ieee R))
      (cabs (attr ActiveAgent.opinion s.base.network.agents i - attr ActiveAgent.opinion s.base.network.agents j))) (-(homophilyFor s.base.p i)) = 0)
    {k : Nat} (hk : 1 ≤ k) (ht : Iterates (Inertial.iteration o pick r) s k t) {j : Nat} (hj : j < s.base.network.agents.length)
    (hb : s.base.p.nBots ≤ j) : ∃ a, t.base.network.agents[j]? = some a ∧ a.opinion = nan ∧ a.velocity = nan := by
  obtain ⟨k, rfl⟩ : ∃ k', k = k' + 1 := ⟨k - 1, by omega⟩
  exact (Inertial.nan_spreads h hi hj (Activity.probs_vanishing hi hm hw hj) (.inr rfl) hb ht).2.2.2

/-- C111, refuted for strong homophily: if for two agents `i ≠ j` the weight `|x_i - x_j|^(-h)` overflows and `i` makes a contact, then from the first iteration on opinions and
velocities of both are NaN, unless the agent is a bot. -/
theorem C111_overflowing {o : MathOps (Ieee R)} {pick : List (Nat × Ieee R) → Nat} {r : Rng G (Ieee R)} {s t : Inertial (Ieee R) G}
    (h : Activity.MeanReady s.base) {i j : Nat} (hi : i < s.base.network.agents.length) (hj : j < s.base.network.agents.length) (hij : j ≠ i)
    (hm : 1 ≤ contactsOf s.base.p i)
    (hw : o.pow (cmax (1 / ((10 ^ 10 : Nat) : Ieee R))
      (cabs (attr ActiveAgent.opinion s.base.network.agents i - attr ActiveAgent.opinion s.base.network.agents j))) (-(homophilyFor s.base.p i)) = pinf)
    {k : Nat} (hk : 1 ≤ k) (ht : Iterates (Inertial.iteration o pick r) s k t) {l : Nat} (hl : l = i ∨ l = j) (hb : s.base.p.nBots ≤ l) :
    ∃ a, t.base.network.agents[l]? = some a ∧ a.opinion = nan ∧ a.velocity = nan := by
  obtain ⟨k, rfl⟩ : ∃ k', k = k' + 1 := ⟨k - 1, by omega⟩
  exact (Inertial.nan_spreads h hi hj (Activity.probs_overflowing hi hj hij hm hw) hl hb ht).2.2.2

/-! ## a concrete case -/

namespace Overflow

/-- Three agents at rest in mean-field mode with friction 1, one of them a bot with opinion -1. -/
noncomputable def startInertialMean (R : Rounding) : Inertial (Ieee R) Unit where
  friction := 1
  base :=
    { counter := ⟨some 3, 0⟩
      p := { settings R with meanWeights := true }
      network := ⟨[⟨-1, 1, 1, 0⟩, ⟨1, 1, 1, 0⟩, ⟨fin (half R), 1, 1, 0⟩], [[0, 1, 2], [0, 1, 2], [0, 1, 2]], [[0, 0, 0], [0, 0, 0], [0, 0, 0]], .incoming⟩
      contactProb := [[0, 0, 0], [0, 0, 0], [0, 0, 0]]
      gen := () }

theorem startInertialMean_ready : (startInertialMean R).base.MeanReady where
  rows := rfl
  wrows := rfl
  incoming := rfl
  probs := rfl
  bots := by show 1 ≤ 3; norm_num
  botM := le_refl 1
  botHomophily := le_refl 1
  botOpinion := le_refl 1
  nonneg i _ := by show 0 ≤ contactsOf (startMean R).p i; rw [contacts_mean]; norm_num
  size i _ := by show (contactsOf (startMean R).p i) < 2 ^ 64; rw [contacts_mean]; norm_num
  mean := rfl

theorem startInertialMean_reasonable : (startInertialMean R).MeanReasonable (exact R) 1 27 1 where
  two := by show 2 ≤ 3; norm_num
  size := by show 3 ≤ 2 ^ 28; norm_num
  contacts i _ := by show contactsOf (startMean R).p i ≤ 1; rw [contacts_mean]
  some := le_refl 1
  few := by norm_num
  lower := by norm_num
  upper := by
    calc (27 : ℝ) ≤ 2 ^ 5 := by norm_num
      _ ≤ 2 ^ 940 := pow_le_pow_right₀ (by norm_num) (by norm_num)
  friction := ⟨rfl, by rw [one_val]; norm_num, by rw [one_val]; norm_num⟩
  dt := ⟨half R, rfl, by show (2 : ℝ) ^ (-15 : ℤ) ≤ 1 / 2; norm_num, by show (1 / 2 : ℝ) ≤ 1; norm_num⟩
  alpha := ⟨1, rfl⟩
  reciprocity := startMean_tame.reciprocity
  activities := by
    show ∀ i, i < 3 → _
    intro i hi
    match i, hi with
    | 0, _ => exact one_within le_rfl
    | 1, _ => exact one_within le_rfl
    | 2, _ => exact one_within le_rfl
  coupling := by
    refine ⟨1, rfl, ?_⟩
    show ∀ i, i < 3 → _
    intro i hi
    have e : attr ActiveAgent.reluctance (startInertialMean R).base.network.agents i = 1 := by
      match i, hi with
      | 0, _ => rfl
      | 1, _ => rfl
      | 2, _ => rfl
    refine ⟨1, e, ?_, ?_, ?_⟩
    · rw [one_val]; exact zpow_le_one_of_nonpos₀ (by norm_num) (by norm_num)
    · rw [one_val]; exact one_le_pow₀ (by norm_num)
    · show 3 / 2 * |(1 : Dbl R).val| * ((3 : Nat) : ℝ) * ((1 * (1 + 2) : Nat) : ℝ) ≤ 27 * (1 : Dbl R).val
      rw [one_val, abs_one]; norm_num
  bots := startMean_tame.bots
  powers i _ a ha ha' := by
    have e : homophilyFor (startMean R).p i = fin (if i < 1 then 1 else half R) := by
      unfold homophilyFor
      rcases i with _ | i <;> simp [startMean, settings, one_def]
    show ∃ d : Dbl R, (exact R).pow (fin a) (-(homophilyFor (startMean R).p i)) = fin d ∧ _
    rw [e]
    refine exact_powers (M := 500 * (1 + (1 : Dbl R).val) ^ 2 / (1 : Dbl R).val * 27) (by rw [one_val]; norm_num) (by rw [one_val]; norm_num) ?_ ?_ a ha ha'
    · split
      · rw [one_val]; norm_num
      · show (0 : ℝ) ≤ 1 / 2; norm_num
    · split
      · rw [one_val]; norm_num
      · show (1 / 2 : ℝ) ≤ 26; norm_num

/-- A million iterations of the example. -/
example (r : Rng Unit (Ieee R)) : ∃ t, Iterates (Inertial.iteration (exact R) (fun _ => 0) r) (startInertialMean R) 1000000 t ∧
    t.base.network.agents.length = 3 ∧ ∀ a ∈ t.base.network.agents, Within 54000 a.opinion ∧ Within 54000 a.velocity := by
  have h3 : ∀ a ∈ (startInertialMean R).base.network.agents, Within 27 a.opinion ∧ Within 27 a.velocity := by
    intro a ha
    have z : Within 27 (0 : Ieee R) := ⟨0, rfl, by show |(0 : ℝ)| ≤ 27; simp⟩
    simp only [startInertialMean, List.mem_cons, List.not_mem_nil, or_false] at ha
    rcases ha with rfl | rfl | rfl
    · exact ⟨⟨-1, rfl, by rw [neg_val, one_val, abs_neg, abs_one]; norm_num⟩, z⟩
    · exact ⟨one_within (by norm_num), z⟩
    · exact ⟨⟨half R, rfl, by show |(1 / 2 : ℝ)| ≤ 27; rw [abs_of_pos (by norm_num)]; norm_num⟩, z⟩
  obtain ⟨t, h1, h2, h4, -⟩ := C111_bounded exact_unit (fun _ => 0) r startInertialMean_ready startInertialMean_reasonable
    (fun a ha => (h3 a ha).1) (fun a ha => (h3 a ha).2) 1000000
  refine ⟨t, h1, h2, ?_⟩
  rw [one_val] at h4
  norm_num at h4
  exact h4

/-- One agent with opinion 1 at rest, no bots. -/
noncomputable def loneInertial (R : Rounding) : Inertial (Ieee R) Unit where
  friction := 1
  base :=
    { counter := ⟨some 3, 0⟩
      p := { settings R with meanWeights := true, nBots := 0 }
      network := ⟨[⟨1, 1, 1, 0⟩], [[0]], [[0]], .incoming⟩
      contactProb := [[0]]
      gen := () }

theorem loneInertial_ready : (loneInertial R).base.MeanReady := by
  have c : ∀ i, contactsOf (loneInertial R).base.p i = 1 := fun i => by unfold contactsOf; simp [loneInertial, settings]
  exact ⟨rfl, rfl, rfl, rfl, Nat.zero_le _, Nat.zero_le _, Nat.zero_le _, Nat.zero_le _, fun i _ => by rw [c]; norm_num, fun i _ => by rw [c]; norm_num, rfl⟩

/-- Opinion and velocity of a lone agent are NaN after one iteration. -/
example (r : Rng Unit (Ieee R)) : ∃ t, Inertial.iteration (exact R) (fun _ => 0) r (loneInertial R) = .ok t ∧
    ∃ a, t.base.network.agents[0]? = some a ∧ a.opinion = nan ∧ a.velocity = nan := by
  obtain ⟨t, ht, -⟩ := Inertial.mean_step (exact R) (fun _ => 0) r loneInertial_ready
  refine ⟨t, ht, C111_vanishing loneInertial_ready (i := 0) Nat.one_pos ?_ ?_ (k := 1) le_rfl (.succ .zero ht) Nat.one_pos (Nat.zero_le _)⟩
  · unfold contactsOf; simp [loneInertial, settings]
  · intro j hj hne
    have : j < 1 := hj
    omega

end Overflow
end Seldon
