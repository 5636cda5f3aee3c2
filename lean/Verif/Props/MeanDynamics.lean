import Verif.Props.Indifference
import Verif.Props.Stability
import Verif.Props.MeanField
import Verif.Props.InitialAgents
/-!
# Property C102: the opinion dynamics in mean-field mode (`mean_weights`)
-/
set_option linter.unusedSectionVars false
namespace Seldon
open Spec Filter Topology
variable {A F G : Type}

section
variable [Field F] [LinearOrder F] [IsStrictOrderedRing F]

/-- What the weights of the code can be at worst: if `P i j` and `P j i` lie between 0 and `c ≥ 1`, the weight is at most `c²` in absolute value; for `c = 1` it
lies between 0 and 1. -/
theorem listening_bound {P : Nat → Nat → F} {r c : F} {i j : Nat} (hc : 1 ≤ c) (hr0 : 0 ≤ r) (hr1 : r ≤ 1) (h0 : 0 ≤ P i j) (h1 : P i j ≤ c)
    (h0' : 0 ≤ P j i) (h1' : P j i ≤ c) : |listening P r j i| ≤ c ^ 2 ∧ (c = 1 → 0 ≤ listening P r j i) := by
  have hq0 : 0 ≤ r * P j i := mul_nonneg hr0 h0'
  have hq1 : r * P j i ≤ c := by nlinarith
  have e : listening P r j i = P i j + (1 - P i j) * (r * P j i) := by unfold listening; ring
  rw [e]
  generalize r * P j i = q at hq0 hq1
  generalize P i j = p at h0 h1
  refine ⟨abs_le.mpr ⟨?_, ?_⟩, ?_⟩
  · nlinarith [mul_nonneg h0 (sub_nonneg.mpr hq1), mul_nonneg h0 hq0, mul_nonneg (sub_nonneg.mpr h1) (sub_nonneg.mpr hq1)]
  · nlinarith [mul_nonneg h0 hq0]
  · rintro rfl
    nlinarith [mul_nonneg (sub_nonneg.mpr h1) hq0]

variable [ActiveAgent A F] [LawfulActiveAgent A F]

/-- A state of the model in mean-field mode: the network that the constructor builds (everybody is connected with everybody), reciprocity between 0 and 1,
activities at most 1 (as for all drawn activities), and no agent or bot makes more than `c` contacts (`m` and `bot_m`). -/
structure Spec.MeanField (s : Activity A F G) (c : Nat) : Prop where
  ready : s.MeanReady
  reciprocity_nonneg : 0 ≤ s.p.reciprocity
  reciprocity_le : s.p.reciprocity ≤ 1
  activity : ∀ i, i < s.network.agents.length → attr ActiveAgent.activity s.network.agents i ≤ 1
  contacts : ∀ i, i < s.network.agents.length → contactsOf s.p i ≤ c
  some : 1 ≤ c

/-- What is used of the mathematical functions. -/
structure Spec.Powers (o : MathOps F) : Prop where
  nat : ∀ x k, o.powNat x k = x ^ k
  pos : ∀ x y, 0 < x → 0 < o.pow x y

theorem contactProbability_range {o : MathOps F} (ho : Spec.Powers o) {p : ActivitySettings F} {agents : List A} {c : Nat} {i j : Nat}
    (hj : j < agents.length) (ha : attr ActiveAgent.activity agents i ≤ 1) (hc : contactsOf p i ≤ c) :
    0 ≤ contactProbability o p agents i j ∧ contactProbability o p agents i j ≤ c := by
  obtain ⟨a, b⟩ := C49_bounds_partial ho.pos p agents (i := i) hj
  refine ⟨a, b.trans ?_⟩
  rw [max_eq_left ha, one_mul]
  obtain ⟨d, e⟩ := share_bounds (n := agents.length) (fun k => preference_nonneg ho.pos (attr ActiveAgent.opinion agents) (homophilyFor p i) i k) hj
  have : ((contactsOf p i).toNat : F) ≤ c := by
    have : (contactsOf p i).toNat ≤ c := by omega
    exact_mod_cast this
  calc ((contactsOf p i).toNat : F) * share agents.length (preference o.pow (attr ActiveAgent.opinion agents) (homophilyFor p i) i) j
      ≤ (contactsOf p i).toNat * 1 := mul_le_mul_of_nonneg_left e (Nat.cast_nonneg _)
    _ ≤ c := by rw [mul_one]; exact this

/-- The mean-field weights after an update. -/
theorem MeanWeights.bound {o : MathOps F} (ho : Spec.Powers o) {s : Activity A F G} {c : Nat} (h : Spec.MeanField s c) {N : Network A F}
    (hN : MeanWeights o s.p s.network.agents N) {i : Nat} (hi : i < s.network.agents.length) :
    (∀ e ∈ row N i, e.1 < s.network.agents.length ∧ |e.2| ≤ (c : F) ^ 2 ∧ (c = 1 → 0 ≤ e.2)) ∧
      absWeight N i ≤ s.network.agents.length * (c : F) ^ 2 := by
  have h1 : ∀ e ∈ row N i, e.1 < s.network.agents.length ∧ |e.2| ≤ (c : F) ^ 2 ∧ (c = 1 → 0 ≤ e.2) := by
    intro e he
    rw [hN.rows i hi] at he
    obtain ⟨j, hj, rfl⟩ := List.mem_map.mp he
    have hj : j < s.network.agents.length := List.mem_range.mp hj
    obtain ⟨a, b⟩ := contactProbability_range ho (p := s.p) hi (h.activity j hj) (h.contacts j hj)
    obtain ⟨a', b'⟩ := contactProbability_range ho (p := s.p) hj (h.activity i hi) (h.contacts i hi)
    obtain ⟨d, e⟩ := listening_bound (P := contactProbability o s.p s.network.agents) (r := s.p.reciprocity) (c := (c : F)) (i := j) (j := i)
      (by exact_mod_cast h.some) h.reciprocity_nonneg h.reciprocity_le a b a' b'
    exact ⟨hj, d, fun hc => e (by rw [hc, Nat.cast_one])⟩
  refine ⟨h1, ?_⟩
  unfold absWeight
  have h2 := List.sum_le_card_nsmul ((row N i).map fun e => |e.2|) ((c : F) ^ 2) (by
    intro x hx
    obtain ⟨e, he, rfl⟩ := List.mem_map.mp hx
    exact (h1 e he).2.1)
  rw [List.length_map, hN.rows i hi, List.length_map, List.length_range, nsmul_eq_mul] at h2
  rw [hN.rows i hi]
  exact h2

/-- What an iteration in mean-field mode does to the network. -/
structure Spec.MeanStep (s t : Activity A F G) (c : Nat) : Prop where
  next : Spec.MeanField t c
  wf : WF t.network
  n : t.network.agents.length = s.network.agents.length
  entries : ∀ i, i < s.network.agents.length → ∀ e ∈ row t.network i, e.1 < s.network.agents.length ∧ |e.2| ≤ (c : F) ^ 2 ∧ (c = 1 → 0 ≤ e.2)
  total : ∀ i, i < s.network.agents.length → absWeight t.network i ≤ s.network.agents.length * (c : F) ^ 2

theorem Spec.MeanField.agents {s t : Activity A F G} {c : Nat} (h : Spec.MeanField s c) (hr : t.MeanReady) (hp : t.p = s.p)
    (ha : t.network.agents.map ActiveAgent.activity = s.network.agents.map ActiveAgent.activity) : Spec.MeanField t c := by
  have hl : t.network.agents.length = s.network.agents.length := by simpa using congrArg List.length ha
  refine ⟨hr, by rw [hp]; exact h.reciprocity_nonneg, by rw [hp]; exact h.reciprocity_le, ?_, by rw [hp, hl]; exact h.contacts, h.some⟩
  rw [hl]
  intro i hi
  have := h.activity i hi
  unfold attr at this ⊢
  rw [ha]; exact this

theorem Spec.MeanField.step {o : MathOps F} (ho : Spec.Powers o) {pick : List (Nat × F) → Nat} {r : Rng G F} {s t : Activity A F G} {c : Nat}
    (h : Spec.MeanField s c) (ht : Activity.iteration o pick r s = .ok t) : Spec.MeanStep s t c := by
  obtain ⟨u, hu, hM, hr, -⟩ := C49_activity ho.nat pick r h.ready
  obtain rfl := Except.ok.inj (ht.symm.trans hu)
  obtain ⟨f, fp, -⟩ := Activity.iteration_frame ht
  exact ⟨h.agents hr fp f.traits.1, hM.wf, f.traits.length, fun i hi => (hM.bound ho h hi).1, fun i hi => (hM.bound ho h hi).2⟩

theorem Spec.MeanField.inertial {o : MathOps F} (ho : Spec.Powers o) {pick : List (Nat × F) → Nat} {r : Rng G F} {s t : Inertial F G} {c : Nat}
    (h : Spec.MeanField s.base c) (ht : Inertial.iteration o pick r s = .ok t) : Spec.MeanStep s.base t.base c := by
  obtain ⟨u, hu, hM, hr, -⟩ := C49_inertial ho.nat pick r h.ready
  obtain rfl := Except.ok.inj (ht.symm.trans hu)
  obtain ⟨f, fp, -⟩ := Inertial.iteration_frame ht
  exact ⟨h.agents hr fp f.traits.1, hM.wf, f.traits.length, fun i hi => (hM.bound ho h hi).1, fun i hi => (hM.bound ho h hi).2⟩

theorem Spec.MeanField.iterates {o : MathOps F} (ho : Spec.Powers o) {pick : List (Nat × F) → Nat} {r : Rng G F} {s t : Activity A F G} {c k : Nat}
    (h : Spec.MeanField s c) (ht : Iterates (Activity.iteration o pick r) s k t) : Spec.MeanField t c := by
  induction ht with
  | zero => exact h
  | succ _ h' ih => exact (ih.step ho h').next

theorem Spec.MeanField.iterates_inertial {o : MathOps F} (ho : Spec.Powers o) {pick : List (Nat × F) → Nat} {r : Rng G F} {s t : Inertial F G} {c k : Nat}
    (h : Spec.MeanField s.base c) (ht : Iterates (Inertial.iteration o pick r) s k t) : Spec.MeanField t.base c := by
  induction ht with
  | zero => exact h
  | succ _ h' ih => exact (ih.inertial ho h').next

/-- C102, weights: after every iteration in mean-field mode each weight is at most `c²` in absolute value; with one contact per agent (`c = 1`) each weight lies
between 0 and 1.  (For more contacts the weights need not be probabilities, see `C49_two_agents`.) -/
theorem C102_weights {o : MathOps F} (ho : Spec.Powers o) {pick : List (Nat × F) → Nat} {r : Rng G F} {s t : Activity A F G} {c k : Nat}
    (h : Spec.MeanField s c) (hk : 0 < k) (ht : Iterates (Activity.iteration o pick r) s k t) {i : Nat} (hi : i < s.network.agents.length) :
    ∀ e ∈ row t.network i, |e.2| ≤ (c : F) ^ 2 ∧ (c = 1 → 0 ≤ e.2 ∧ e.2 ≤ 1) := by
  cases ht with
  | zero => omega
  | @succ k u _ ht hu =>
    have hm := h.iterates ho ht
    have hl : u.network.agents.length = s.network.agents.length := by simpa using congrArg List.length (C42_activity ht).1
    intro e he
    obtain ⟨-, a, b⟩ := (hm.step ho hu).entries i (by rw [hl]; exact hi) e he
    refine ⟨a, fun hc => ⟨b hc, ?_⟩⟩
    have := (abs_le.mp a).2
    rw [hc] at this
    simpa using this

/-- C102, boundedness: in mean-field mode, `0 ≤ dt ≤ 1`, all opinions stay within `max( max |x_i(0)|, max |bot opinion|, |K| n c² / min m_i )`, written with any
common bound `M`. -/
theorem C102_bounded {o : MathOps F} (ho : Spec.Powers o) (htanh : ∀ y, |o.tanh y| ≤ 1) {pick : List (Nat × F) → Nat} {r : Rng G F}
    {s t : Activity A F G} {c : Nat} (h : Spec.MeanField s c) (h0 : 0 ≤ s.p.dt) (h1 : s.p.dt ≤ 1) {M : F}
    (hm : ∀ i, i < s.network.agents.length → 0 < attr ActiveAgent.reluctance s.network.agents i)
    (hx : ∀ i, i < s.network.agents.length → |attr ActiveAgent.opinion s.network.agents i| ≤ M)
    (hb : ∀ i, i < s.p.nBots → |s.p.botOpinion.getD i 0| ≤ M)
    (hK : ∀ i, i < s.network.agents.length → |s.p.K| * (s.network.agents.length * (c : F) ^ 2) / attr ActiveAgent.reluctance s.network.agents i ≤ M)
    {k : Nat} (ht : Iterates (Activity.iteration o pick r) s k t) :
    ∀ i, i < s.network.agents.length → |attr ActiveAgent.opinion t.network.agents i| ≤ M := by
  induction ht with
  | zero => exact hx
  | @succ k t u ht hu ih =>
    obtain ⟨-, e2, e3, -⟩ := C42_activity ht
    have hlen : t.network.agents.length = s.network.agents.length := by
      have := congrArg List.length e2; simpa using this
    have erel : ∀ i, attr ActiveAgent.reluctance t.network.agents i = attr ActiveAgent.reluctance s.network.agents i := by
      intro i; unfold attr; rw [e2]
    have hst := (h.iterates ho ht).step ho hu
    intro i hi
    by_cases hbot : i < s.p.nBots
    · obtain ⟨a, ha, ha'⟩ := (Activity.iteration_frame hu).1.bots i (by rw [e3]; exact hbot)
      rw [Activity.attr_some _ ha]
      rw [e3] at ha'
      have := hb i hbot
      rw [List.getD_eq_getElem?_getD, ha'] at this
      exact this
    · have hstep := C46_step htanh hu hst.wf (by rw [e3]; exact h0) (by rw [e3]; exact h1) (i := i) (by rw [e3]; omega)
        (by rw [hlen]; exact hi) (by rw [erel]; exact hm i hi)
      have hW := hst.total i (by rw [hlen]; exact hi)
      rw [hlen] at hW
      rw [erel, e3] at hstep
      refine hstep.trans (max_le (ih i hi) ?_)
      refine le_trans ?_ (hK i hi)
      rw [div_mul_eq_mul_div]
      gcongr
      exact (hm i hi).le

/-- C102, weak interaction without bots: `|K α| n c² ≤ L m_i` with `L ≤ (2 - dt) / (2 + dt)`. After `k` iterations all opinions are within
`(decay dt + (1 - decay dt) L)^k` times the initial bound. -/
theorem C102_decay {o : MathOps F} (ho : Spec.Powers o) (htanh : ∀ y, |o.tanh y| ≤ |y|) {pick : List (Nat × F) → Nat} {r : Rng G F}
    {s t : Activity A F G} {c : Nat} (h : Spec.MeanField s c) (hb : s.p.nBots = 0) (h0 : 0 ≤ s.p.dt) (h1 : s.p.dt ≤ 1) {L M : F}
    (hL0 : 0 ≤ L) (hL : L * (2 + s.p.dt) ≤ 2 - s.p.dt)
    (hm : ∀ i, i < s.network.agents.length → 0 < attr ActiveAgent.reluctance s.network.agents i)
    (hw : ∀ i, i < s.network.agents.length →
      |s.p.K * s.p.alpha| * (s.network.agents.length * (c : F) ^ 2) ≤ L * attr ActiveAgent.reluctance s.network.agents i)
    (hx : ∀ i, i < s.network.agents.length → |attr ActiveAgent.opinion s.network.agents i| ≤ M)
    {k : Nat} (ht : Iterates (Activity.iteration o pick r) s k t) :
    ∀ i, i < s.network.agents.length → |attr ActiveAgent.opinion t.network.agents i| ≤ (decay s.p.dt + (1 - decay s.p.dt) * L) ^ k * M := by
  induction ht with
  | zero => intro i hi; rw [pow_zero, one_mul]; exact hx i hi
  | @succ k t u ht hu ih =>
    obtain ⟨-, e2, e3, -⟩ := C42_activity ht
    have hlen : t.network.agents.length = s.network.agents.length := by
      have := congrArg List.length e2; simpa using this
    have erel : ∀ i, attr ActiveAgent.reluctance t.network.agents i = attr ActiveAgent.reluctance s.network.agents i := by
      intro i; unfold attr; rw [e2]
    have hst := (h.iterates ho ht).step ho hu
    intro i hi
    have := C75_step htanh hu hst.wf (by rw [e3]; exact hb) (by rw [e3]; exact h0) (by rw [e3]; exact h1) hL0 (by rw [e3]; exact hL)
      (by rw [hlen]; intro i hi; rw [erel]; exact hm i hi)
      (by
        intro i hi
        have hW := hst.total i hi
        rw [hlen] at hW hi
        rw [erel, e3]
        exact (mul_le_mul_of_nonneg_left hW (abs_nonneg _)).trans (hw i hi))
      (by rw [hlen]; exact ih) (i := i) (by rw [hlen]; exact hi)
    rw [e3] at this
    rw [pow_succ]
    calc _ ≤ _ := this
      _ = _ := by ring

/-- C102, one contact per agent, `K, α ≥ 0` and `0 ≤ dt ≤ 2/3`: opinions on one side of 0 stay there, and after `k` iterations those of the agents that are
not bots are at least `decay dt ^ k` times as far from 0 as initially. -/
theorem C102_onesided {o : MathOps F} (ho : Spec.Powers o) (htanh : Squashing o.tanh) {pick : List (Nat × F) → Nat} {r : Rng G F}
    {s t : Activity A F G} (h : Spec.MeanField s 1) (hK : 0 ≤ s.p.K) (ha : 0 ≤ s.p.alpha) (h0 : 0 ≤ s.p.dt) (h1 : s.p.dt ≤ 2 / 3)
    (hm : ∀ i, i < s.network.agents.length → 0 < attr ActiveAgent.reluctance s.network.agents i) {σ : F} (hσ : σ = 1 ∨ σ = -1)
    (hx : ∀ i, i < s.network.agents.length → 0 ≤ σ * attr ActiveAgent.opinion s.network.agents i)
    (hb : ∀ i, i < s.p.nBots → 0 ≤ σ * s.p.botOpinion.getD i 0)
    {k : Nat} (ht : Iterates (Activity.iteration o pick r) s k t) :
    ∀ i, i < s.network.agents.length → 0 ≤ σ * attr ActiveAgent.opinion t.network.agents i ∧
      (s.p.nBots ≤ i → decay s.p.dt ^ k * (σ * attr ActiveAgent.opinion s.network.agents i) ≤ σ * attr ActiveAgent.opinion t.network.agents i) := by
  have hd := decay_nonneg h0 (h1.trans (by norm_num))
  induction ht with
  | zero => exact fun i hi => ⟨hx i hi, fun _ => by rw [pow_zero, one_mul]⟩
  | @succ k t u ht hu ih =>
    obtain ⟨-, e2, e3, -⟩ := C42_activity ht
    have hlen : t.network.agents.length = s.network.agents.length := by
      have := congrArg List.length e2; simpa using this
    have erel : ∀ i, attr ActiveAgent.reluctance t.network.agents i = attr ActiveAgent.reluctance s.network.agents i := by
      intro i; unfold attr; rw [e2]
    have hst := (h.iterates ho ht).step ho hu
    intro i hi
    by_cases hbot : i < s.p.nBots
    · obtain ⟨a, ha, ha'⟩ := (Activity.iteration_frame hu).1.bots i (by rw [e3]; exact hbot)
      rw [Activity.attr_some _ ha]
      rw [e3] at ha'
      have := hb i hbot
      rw [List.getD_eq_getElem?_getD, ha'] at this
      exact ⟨this, fun h => absurd h (by omega)⟩
    · have := C76_step htanh hu hst.wf (by rw [e3]; exact hK) (by rw [e3]; exact ha) (by rw [e3]; exact h0) (by rw [e3]; exact h1)
        (by rw [hlen]; intro i hi; rw [erel]; exact hm i hi)
        (fun i hi e he => (hst.entries i hi e he).2.2 rfl) hσ
        (by rw [hlen]; exact fun i hi => (ih i hi).1) (i := i) (by rw [hlen]; exact hi) (by rw [e3]; omega)
      rw [e3] at this
      refine ⟨(mul_nonneg hd (ih i hi).1).trans this, fun hni => ?_⟩
      refine le_trans ?_ this
      rw [pow_succ']
      calc _ = decay s.p.dt * (decay s.p.dt ^ k * (σ * attr ActiveAgent.opinion s.network.agents i)) := by ring
        _ ≤ _ := mul_le_mul_of_nonneg_left ((ih i hi).2 hni) hd

/-- C102, step sizes: the range of stable step sizes of C84 is the same in mean-field mode. -/
theorem C102_stable {dt : F} (h0 : 0 < dt) (h1 : dt ^ 3 - 4 * dt ^ 2 + 12 * dt < 24) :
    0 < 1 - dt + dt ^ 2 / 2 - dt ^ 3 / 6 + dt ^ 4 / 24 ∧ 1 - dt + dt ^ 2 / 2 - dt ^ 3 / 6 + dt ^ 4 / 24 < 1 ∧ ∃ C : F, 0 ≤ C ∧
    ∀ (G : Type) (o : MathOps F) (pick : List (Nat × F) → Nat) (r : Rng G F) (s t : Activity A F G) (c k i : Nat),
      Spec.Powers o → (∀ y, |o.tanh y| ≤ 1) → Spec.MeanField s c → s.p.dt = dt →
      Iterates (Activity.iteration o pick r) s k t → s.p.nBots ≤ i → i < s.network.agents.length →
      0 < attr ActiveAgent.reluctance s.network.agents i →
      |attr ActiveAgent.opinion t.network.agents i| ≤
        (1 - dt + dt ^ 2 / 2 - dt ^ 3 / 6 + dt ^ 4 / 24) ^ k * |attr ActiveAgent.opinion s.network.agents i| +
          C * (|s.p.K| * (s.network.agents.length * (c : F) ^ 2) / attr ActiveAgent.reluctance s.network.agents i) := by
  have hq0 : 0 < decay dt := decay_pos dt
  have hq1 : decay dt < 1 := (decay_lt_iff h0).mpr h1
  have h1q : 0 < 1 - decay dt := by linarith
  refine ⟨hq0, hq1, rkSum dt / (1 - decay dt), div_nonneg (rkSum_nonneg _) h1q.le, ?_⟩
  intro G o pick r s t c k i ho htanh hs hdt ht hib hi hm
  set Γ := |s.p.K| * (s.network.agents.length * (c : F) ^ 2) / attr ActiveAgent.reluctance s.network.agents i with hΓ
  have hΓ0 : 0 ≤ Γ := by rw [hΓ]; exact div_nonneg (by positivity) hm.le
  have hS : 0 ≤ rkSum dt / (1 - decay dt) * Γ := mul_nonneg (div_nonneg (rkSum_nonneg _) h1q.le) hΓ0
  change _ ≤ decay dt ^ k * _ + _
  induction ht with
  | zero => simp only [pow_zero, one_mul]; linarith
  | @succ k t u ht hu ih =>
    obtain ⟨-, e2, e3, -⟩ := C42_activity ht
    have hlen : t.network.agents.length = s.network.agents.length := by
      have := congrArg List.length e2; simpa using this
    have erel : attr ActiveAgent.reluctance t.network.agents = attr ActiveAgent.reluctance s.network.agents := by
      funext i; unfold attr; rw [e2]
    have hst := (hs.iterates ho ht).step ho hu
    have h : |attr ActiveAgent.opinion u.network.agents i - decay dt * attr ActiveAgent.opinion t.network.agents i| ≤ rkSum dt * Γ := by
      have hW := hst.total i (by rw [hlen]; exact hi)
      rw [hlen] at hW
      rw [C47_rk4 hu hst.wf (by rw [e3]; exact hib) (by rw [hlen]; exact hi), e3, erel, hdt]
      refine rk4_rate_affine htanh _ _ _ _ _ hm ?_
      rw [div_mul_eq_mul_div, hΓ]
      gcongr
    have h2 : |attr ActiveAgent.opinion u.network.agents i| ≤ decay dt * |attr ActiveAgent.opinion t.network.agents i| + rkSum dt * Γ := by
      have e := abs_add_le (attr ActiveAgent.opinion u.network.agents i - decay dt * attr ActiveAgent.opinion t.network.agents i)
        (decay dt * attr ActiveAgent.opinion t.network.agents i)
      rw [sub_add_cancel, abs_mul (decay dt), abs_of_pos hq0] at e
      linarith
    have h3 := mul_le_mul_of_nonneg_left ih hq0.le
    have e : decay dt * (rkSum dt / (1 - decay dt) * Γ) + rkSum dt * Γ = rkSum dt / (1 - decay dt) * Γ := by
      field_simp; ring
    calc |attr ActiveAgent.opinion u.network.agents i|
        ≤ decay dt * (decay dt ^ k * |attr ActiveAgent.opinion s.network.agents i| + rkSum dt / (1 - decay dt) * Γ) + rkSum dt * Γ := by linarith
      _ = decay dt ^ (k + 1) * |attr ActiveAgent.opinion s.network.agents i| + (decay dt * (rkSum dt / (1 - decay dt) * Γ) + rkSum dt * Γ) := by ring
      _ = _ := by rw [e]

/-- C102, forgetting: in mean-field mode without homophily the weights are the same in every iteration, and under weak interaction two runs that differ only in
the initial opinions approach each other exponentially fast, with bots as well. -/
theorem C102_forget {o : MathOps F} (ho : Spec.Powers o) (hpow : ∀ x, o.pow x 0 = 1) (htanh : ∀ y z, |o.tanh y - o.tanh z| ≤ |y - z|)
    {pick : List (Nat × F) → Nat} {r : Rng G F} {s s' t t' : Activity A F G} {c : Nat} (h : Spec.MeanField s c) (h' : Spec.MeanField s' c)
    (hs : Spec.SameStart s s') (hpp : s'.p = s.p)
    (hrel : s'.network.agents.map ActiveAgent.reluctance = s.network.agents.map ActiveAgent.reluctance)
    (h0 : 0 ≤ s.p.dt) (h1 : s.p.dt ≤ 1) {L M : F} (hL0 : 0 ≤ L) (hL : L * (2 + s.p.dt) ≤ 2 - s.p.dt)
    (hm : ∀ i, i < s.network.agents.length → 0 < attr ActiveAgent.reluctance s.network.agents i)
    (hw : ∀ i, i < s.network.agents.length →
      |s.p.K * s.p.alpha| * (s.network.agents.length * (c : F) ^ 2) ≤ L * attr ActiveAgent.reluctance s.network.agents i)
    (hx : ∀ i, i < s.network.agents.length → |attr ActiveAgent.opinion s.network.agents i - attr ActiveAgent.opinion s'.network.agents i| ≤ M)
    {k : Nat} (ht : Iterates (Activity.iteration o pick r) s k t) (ht' : Iterates (Activity.iteration o pick r) s' k t') :
    ∀ i, i < s.network.agents.length →
      |attr ActiveAgent.opinion t.network.agents i - attr ActiveAgent.opinion t'.network.agents i| ≤ (decay s.p.dt + (1 - decay s.p.dt) * L) ^ k * M := by
  have hρ : 0 ≤ decay s.p.dt + (1 - decay s.p.dt) * L := by
    have := decay_nonneg h0 h1
    have := decay_le_one h0 h1
    nlinarith
  have key : Spec.SameStart t t' ∧ ∀ i, i < s.network.agents.length →
      |attr ActiveAgent.opinion t.network.agents i - attr ActiveAgent.opinion t'.network.agents i| ≤
        (decay s.p.dt + (1 - decay s.p.dt) * L) ^ k * M := by
    induction ht generalizing t' with
    | zero =>
      cases ht'
      exact ⟨hs, fun i hi => by rw [pow_zero, one_mul]; exact hx i hi⟩
    | @succ k t u ht hu ih =>
      cases ht' with
      | @succ _ v' _ ht' hu' =>
      obtain ⟨hst, ih⟩ := ih ht'
      obtain ⟨-, e2, e3, -⟩ := C42_activity ht
      obtain ⟨-, e2', e3', -⟩ := C42_activity ht'
      have hlen : t.network.agents.length = s.network.agents.length := by
        have := congrArg List.length e2; simpa using this
      have hlens : s'.network.agents.length = s.network.agents.length := by
        have := congrArg List.length hrel; simpa using this
      have hlen' : v'.network.agents.length = s.network.agents.length := by
        have := congrArg List.length e2'; simp only [List.length_map] at this; rw [this, hlens]
      have erel : attr ActiveAgent.reluctance t.network.agents = attr ActiveAgent.reluctance s.network.agents := by
        funext i; unfold attr; rw [e2]
      have erel' : attr ActiveAgent.reluctance v'.network.agents = attr ActiveAgent.reluctance s.network.agents := by
        funext i; unfold attr; rw [e2', hrel]
      have hsu := Spec.SameStart.activity (by simpa using hpow) hst hu hu'
      refine ⟨hsu, fun i hi => ?_⟩
      by_cases hbot : i < s.p.nBots
      · obtain ⟨a, ha, ha'⟩ := (Activity.iteration_frame hu).1.bots i (by rw [e3]; exact hbot)
        obtain ⟨b, hb, hb'⟩ := (Activity.iteration_frame hu').1.bots i (by rw [e3', hpp]; exact hbot)
        rw [e3] at ha'
        rw [e3', hpp, ha'] at hb'
        rw [Activity.attr_some _ ha, Activity.attr_some _ hb, Option.some.inj hb', sub_self, abs_zero]
        exact mul_nonneg (pow_nonneg hρ _) ((abs_nonneg _).trans (hx i hi))
      · have hF := (h.iterates ho ht).step ho hu
        have hF' := (h'.iterates ho ht').step ho hu'
        have hrow : ∀ i, row t'.network i = row u.network i := by
          intro i; unfold row; rw [hsu.network.neighbours, hsu.network.weights]
        have hrate : rate o.tanh s.p.K s.p.alpha t'.network (attr ActiveAgent.reluctance s.network.agents) =
            rate o.tanh s.p.K s.p.alpha u.network (attr ActiveAgent.reluctance s.network.agents) := by
          funext x i; unfold rate weightedSum; rw [hrow]
        rw [C47_rk4 hu hF.wf (by rw [e3]; omega) (by rw [hlen]; exact hi),
          C47_rk4 hu' hF'.wf (by rw [e3', hpp]; omega) (by rw [hlen']; exact hi), e3, e3', hpp, erel, erel', hrate]
        have hent := hF.entries
        have htot := hF.total
        rw [hlen] at hent htot
        have := rk4_rate_forget htanh s.p.K s.p.alpha u.network h0 h1 hL0 hL (fun i hi e he => (hent i hi e he).1) hm
          (fun i hi => (mul_le_mul_of_nonneg_left (htot i hi) (abs_nonneg _)).trans (hw i hi)) _ _ ih hi
        refine this.trans (le_of_eq ?_)
        rw [pow_succ]; ring
  exact key.2

/-- C102: in mean-field mode without homophily the network is the same after every iteration: the dynamics are those of one fixed weighted network. -/
theorem C102_fixed {o : MathOps F} (ho : Spec.Powers o) (hpow : ∀ x, o.pow x 0 = 1) {pick : List (Nat × F) → Nat} {r : Rng G F} {s t u : Activity A F G}
    {c k l : Nat} (h : Spec.MeanField s c) (hz : s.p.homophily = 0) (hbz : ∀ b ∈ s.p.botHomophily, b = 0) (hk : 0 < k) (hl : 0 < l)
    (ht : Iterates (Activity.iteration o pick r) s k t) (hu : Iterates (Activity.iteration o pick r) s l u) {i : Nat} (hi : i < s.network.agents.length) :
    row t.network i = row u.network i := by
  have hhom : ∀ i, i < s.network.agents.length → homophilyFor s.p i = 0 := by
    intro i hi
    unfold homophilyFor
    split
    · rename_i hb
      have : i < s.p.botHomophily.length := lt_of_lt_of_le hb h.ready.botHomophily
      rw [List.getD_eq_getElem?_getD, List.getElem?_eq_getElem this]
      exact hbz _ (List.getElem_mem this)
    · exact hz
  have key : ∀ {k : Nat} {t : Activity A F G}, 0 < k → Iterates (Activity.iteration o pick r) s k t → row t.network i =
      (List.range s.network.agents.length).map (fun j => (j, listening (contactProbability o s.p s.network.agents) s.p.reciprocity i j)) := by
    intro k t hk ht
    cases ht with
    | zero => omega
    | @succ k v _ ht hv =>
      obtain ⟨e1, -, e3, -⟩ := C42_activity ht
      have hlen : v.network.agents.length = s.network.agents.length := by
        have := congrArg List.length e1; simpa using this
      have eact : attr ActiveAgent.activity v.network.agents = attr ActiveAgent.activity s.network.agents := by
        funext i; unfold attr; rw [e1]
      obtain ⟨w, hw, hM, -⟩ := C49_activity ho.nat pick r (h.iterates ho ht).ready
      obtain rfl := Except.ok.inj (hv.symm.trans hw)
      rw [hM.rows i (by rw [hlen]; exact hi), hlen, e3]
      apply List.map_congr_left
      intro j hj
      have hj : j < s.network.agents.length := List.mem_range.mp hj
      have hP : ∀ a b, a < s.network.agents.length → contactProbability o s.p v.network.agents a b = contactProbability o s.p s.network.agents a b := by
        intro a b ha
        have : preference o.pow (attr ActiveAgent.opinion v.network.agents) (homophilyFor s.p a) a =
            preference o.pow (attr ActiveAgent.opinion s.network.agents) (homophilyFor s.p a) a := by
          funext b
          unfold preference
          rw [hhom a ha, neg_zero, hpow, hpow]
        unfold contactProbability
        rw [eact, hlen, this]
      unfold listening
      rw [hP j i hj, hP i j hi]
  rw [key hk ht, key hl hu]

end

/-- C102 over the real numbers with the real hyperbolic tangent: under weak interaction every opinion tends to 0. -/
theorem C102_neutral [ActiveAgent A ℝ] [LawfulActiveAgent A ℝ] {o : MathOps ℝ} (ho : Spec.Powers o) (htanh : o.tanh = Real.tanh)
    {pick : List (Nat × ℝ) → Nat} {r : Rng G ℝ} {s : Activity A ℝ G} {c : Nat} (h : Spec.MeanField s c) (hb : s.p.nBots = 0) (h0 : 0 < s.p.dt)
    (h1 : s.p.dt ≤ 1) {L : ℝ} (hL0 : 0 ≤ L) (hL : L * (2 + s.p.dt) ≤ 2 - s.p.dt)
    (hm : ∀ i, i < s.network.agents.length → 0 < attr ActiveAgent.reluctance s.network.agents i)
    (hw : ∀ i, i < s.network.agents.length →
      |s.p.K * s.p.alpha| * (s.network.agents.length * (c : ℝ) ^ 2) ≤ L * attr ActiveAgent.reluctance s.network.agents i)
    (run : Nat → Activity A ℝ G) (hrun : ∀ k, Iterates (Activity.iteration o pick r) s k (run k)) {i : Nat} (hi : i < s.network.agents.length) :
    Tendsto (fun k => attr ActiveAgent.opinion (run k).network.agents i) atTop (𝓝 0) := by
  obtain ⟨M, hM⟩ : ∃ M, ∀ i, i < s.network.agents.length → |attr ActiveAgent.opinion s.network.agents i| ≤ M := by
    refine ⟨∑ i ∈ Finset.range s.network.agents.length, |attr ActiveAgent.opinion s.network.agents i|, fun i hi => ?_⟩
    exact Finset.single_le_sum (f := fun i => |attr ActiveAgent.opinion s.network.agents i|) (fun _ _ => abs_nonneg _) (Finset.mem_range.mpr hi)
  have hd0 := decay_nonneg h0.le h1
  have hd1 := decay_lt_one h0 h1
  have hL1 : L < 1 := by nlinarith
  have hρ0 : 0 ≤ decay s.p.dt + (1 - decay s.p.dt) * L := by nlinarith
  have hρ1 : decay s.p.dt + (1 - decay s.p.dt) * L < 1 := by nlinarith
  have hlim := (tendsto_pow_atTop_nhds_zero_of_lt_one hρ0 hρ1).mul_const M
  rw [zero_mul] at hlim
  refine squeeze_zero_norm (fun k => ?_) hlim
  rw [Real.norm_eq_abs]
  exact C102_decay ho (by rw [htanh]; exact abs_tanh_le) h hb h0.le h1 hL0 hL hm hw hM (hrun k) i hi

/-- One iteration for one agent. -/
theorem Inertial.kick_mean {o : MathOps ℝ} (ho : Spec.Powers o) (htanh : ∀ y, |o.tanh y| ≤ 1) {pick : List (Nat × ℝ) → Nat}
    {r : Rng G ℝ} {s t : Inertial ℝ G} {c : Nat} (hs : Spec.MeanField s.base c) (h : Inertial.iteration o pick r s = .ok t)
    (hc : -2 < s.friction * s.base.p.dt)
    {i : Nat} (hi : i < s.base.network.agents.length) (hm : 0 < attr (·.reluctance) s.base.network.agents i) :
    ∃ g g' x', |g| ≤ |s.base.p.K| * (s.base.network.agents.length * (c : ℝ) ^ 2) / attr (·.reluctance) s.base.network.agents i ∧
      |g'| ≤ |s.base.p.K| * (s.base.network.agents.length * (c : ℝ) ^ 2) / attr (·.reluctance) s.base.network.agents i ∧
      Stability.Kick s.friction s.base.p.dt g g' (attr (·.opinion) s.base.network.agents i) (attr (·.velocity) s.base.network.agents i)
        x' (attr (·.velocity) t.base.network.agents i) ∧
      (s.base.p.nBots ≤ i → attr (·.opinion) t.base.network.agents i = x') := by
  have hst := hs.inertial ho h
  obtain ⟨x', hV, hx⟩ := C50_verlet h hst.wf hc
  have hb : ∀ y : Nat → ℝ, |s.base.p.K / attr (·.reluctance) s.base.network.agents i *
      weightedSum t.base.network (fun j => o.tanh (s.base.p.alpha * y j)) i| ≤
        |s.base.p.K| * (s.base.network.agents.length * (c : ℝ) ^ 2) / attr (·.reluctance) s.base.network.agents i := by
    intro y
    rw [abs_mul, abs_div, abs_of_pos hm, div_mul_eq_mul_div]
    gcongr
    exact (weightedSum_bound _ (fun j => htanh _) i).trans (hst.total i hi)
  refine ⟨_, _, x' i, hb (attr (·.opinion) s.base.network.agents), hb x', ⟨?_, ?_⟩, fun hib => hx i hib hi⟩
  · exact hV.position i hi
  · exact hV.velocity i hi

/-- C102, inertial model: `C83_bounded` in mean-field mode. -/
theorem C102_inertial {dt f : ℝ} (h0 : 0 < dt) (h2 : dt < 2) (hf : 0 < f) : ∃ C q : ℝ, 0 ≤ C ∧ 0 ≤ q ∧ q < 1 ∧
    ∀ (G : Type) (o : MathOps ℝ) (pick : List (Nat × ℝ) → Nat) (r : Rng G ℝ) (s t : Inertial ℝ G) (c k i : Nat),
      Spec.Powers o → (∀ y, |o.tanh y| ≤ 1) → Spec.MeanField s.base c → s.base.p.dt = dt → s.friction = f →
      Iterates (Inertial.iteration o pick r) s k t → i < s.base.network.agents.length →
      0 < attr (·.reluctance) s.base.network.agents i →
      let x := fun u : Inertial ℝ G => attr (·.opinion) u.base.network.agents i
      let v := fun u : Inertial ℝ G => attr (·.velocity) u.base.network.agents i
      let Γ := |s.base.p.K| * (s.base.network.agents.length * (c : ℝ) ^ 2) / attr (·.reluctance) s.base.network.agents i
      (s.base.p.nBots ≤ i → |x t| ≤ C * (q ^ k * (|x s| + |v s|) + Γ) ∧ |v t| ≤ C * (q ^ k * (|x s| + |v s|) + Γ)) ∧
      (i < s.base.p.nBots → |v t| ≤ C * (q ^ k * (|x s| + |v s|) + |s.base.p.botOpinion.getD i 0| + Γ)) := by
  have hfh : 0 < f * dt := mul_pos hf h0
  obtain ⟨C, q, hC, hq0, hq1, hB⟩ := Inertial.kicks_bound h0 h2 hf
  refine ⟨C, q, hC, hq0, hq1, ?_⟩
  intro G o pick r s t c k i ho htanh hs hdt hfr ht hi hm x v Γ
  have hΓ : 0 ≤ Γ := by
    have : 0 ≤ |s.base.p.K| * (s.base.network.agents.length * (c : ℝ) ^ 2) := by positivity
    exact div_nonneg this hm.le
  refine hB G o pick r s t k i Γ hΓ ?_ ht
  intro j u w hu hw
  obtain ⟨-, c2, c3, c4, -⟩ := C42_inertial hu
  have hlen : u.base.network.agents.length = s.base.network.agents.length := by
    have := congrArg List.length c2; simpa using this
  have hrel : attr (·.reluctance) u.base.network.agents i = attr (·.reluctance) s.base.network.agents i := by
    unfold attr; rw [c2]
  have := Inertial.kick_mean ho htanh (hs.iterates_inertial ho hu) hw (by rw [c4, c3, hdt, hfr]; linarith) (i := i) (by rw [hlen]; exact hi)
    (by rw [hrel]; exact hm)
  rw [hrel, hlen, c3, c4, hdt, hfr] at this
  exact this

/-- C102: the states described by `Spec.MeanField` are those that the constructor builds in mean-field mode from accepted settings (activities drawn from the
power law, bot activities and the reciprocity at most 1, no more contacts than agents). -/
theorem C102_created [ActiveAgent A ℝ] [LawfulActiveAgent A ℝ] [Inhabited A] {r : Rng G ℝ} (hr : r.Lawful) {p : ActivitySettings ℝ} (hv : ValidActivity p)
    (he : p.eps < 1) (hmean : p.meanWeights = true) (hact : p.meanActivities = false) (hrec : p.reciprocity ≤ 1)
    (hba : ∀ a ∈ p.botActivity, a ≤ 1) {N : Network A ℝ} (hwf : WF N) (hin : N.direction = .incoming) (hn : N.agents.length < 2 ^ 31)
    (hc : SaneContacts p N.agents.length) {c : Nat} (hc1 : 1 ≤ c) (hcm : p.m ≤ c) (hcb : ∀ b ∈ p.botM, b ≤ c) (g : G) :
    ∃ s : Activity A ℝ G, Activity.create realOps r p N g = .ok s ∧ s.p = p ∧ Spec.MeanField s c ∧ Spec.Powers realOps := by
  obtain ⟨s, hs, hsound, hp, -, hlen, -⟩ := Activity.create_sound realOps r hv hwf hin hn hc g
  have hg : (1 : ℝ) < p.gamma := by have := hv.gamma; push_cast at this; linarith
  obtain ⟨s', hs', hlen', hall⟩ := C61_initial hr (p := p) (N := N) g hv.eps he hg hv.reluctanceSigma hc.bots hv.botOpinion hv.botActivity
  obtain rfl := Except.ok.inj (hs.symm.trans hs')
  have hready : s.MeanReady := by
    rcases hsound with h | ⟨h, -⟩
    · have := h.probabilistic
      rw [hp, hmean] at this
      cases this
    · exact h
  refine ⟨s, hs, hp, ⟨hready, by rw [hp]; exact hv.reciprocity, by rw [hp]; exact hrec, fun i hi => ?_, fun i hi => ?_, hc1⟩, ⟨fun _ _ => rfl, fun x y hx => Real.rpow_pos_of_pos hx y⟩⟩
  · obtain ⟨h1, h2, -⟩ := hall i hi (by rw [← hlen]; exact hi)
    rw [Activity.attr_lt _ hi]
    by_cases hb : i < p.nBots
    · exact hba _ (List.mem_of_getElem? (h1 hb).2)
    · exact ((h2 (by omega)).2.1 hact).2
  · rw [hp]
    unfold contactsOf
    split
    · rename_i hb
      have := hv.botM
      rw [getD_lt _ _ (by omega)]
      exact hcb _ (List.getElem_mem _)
    · exact hcm

/-! ## concrete cases -/

theorem flatOps_powers : Spec.Powers flatOps := by
  refine ⟨fun _ _ => rfl, fun x y hx => ?_⟩
  show 0 < if y = 0 then (1 : ℚ) else if y < 0 then 1 / x else x
  split_ifs
  · exact one_pos
  · exact one_div_pos.mpr hx
  · exact hx

theorem flatOps_le_one (y : ℚ) : |flatOps.tanh y| ≤ 1 :=
  abs_le.mpr ⟨le_max_right _ _, max_le (min_le_right _ _) (by norm_num)⟩

theorem flatOps_le (y : ℚ) : |flatOps.tanh y| ≤ |y| := by
  have := flatOps_tanh y 0
  rwa [show flatOps.tanh 0 = 0 by decide +kernel, sub_zero, sub_zero] at this

theorem flatOps_squashing : Squashing flatOps.tanh where
  mono y z h := max_le_max (min_le_min h le_rfl) le_rfl
  odd y := by
    show max (min (-y) 1) (-1) = -max (min y 1) (-1)
    rcases le_total y 1 with h | h <;> rcases le_total (-1) y with h' | h'
    · rw [min_eq_left h, max_eq_left h', min_eq_left (by linarith), max_eq_left (by linarith)]
    · rw [min_eq_left h, max_eq_right h', min_eq_right (by linarith), max_eq_left (by linarith)]; norm_num
    · rw [min_eq_right h, max_eq_left (show (-1 : ℚ) ≤ 1 by norm_num), min_eq_left (by linarith), max_eq_right (by linarith)]
    · linarith
  star c y h0 h1 hy := by
    show c * max (min y 1) (-1) ≤ max (min (c * y) 1) (-1)
    have e : max (min y 1) (-1) = min y 1 := max_eq_left (le_min (by linarith) (by norm_num))
    rw [e]
    refine le_trans (le_min ?_ ?_) (le_max_left _ _)
    · exact mul_le_mul_of_nonneg_left (min_le_left _ _) h0
    · calc c * min y 1 ≤ c * 1 := mul_le_mul_of_nonneg_left (min_le_right _ _) h0
        _ ≤ 1 := by linarith

/-- Four agents in mean-field mode with weak interaction, one of them a bot that makes two contacts, no homophily. -/
def Activity.flatMean : Activity (ActivityAgent ℚ) ℚ Nat :=
  { Activity.sampleMean with
    p := { Activity.sampleMean.p with K := 1 / 80, homophily := 0, nBots := 1, botM := [2], botActivity := [1], botOpinion := [2], botHomophily := [0] } }

def Activity.flatMean' : Activity (ActivityAgent ℚ) ℚ Nat :=
  { Activity.flatMean with network := { Activity.flatMean.network with agents := [⟨5, 1, 1⟩, ⟨-3, 1/5, 1⟩, ⟨0, 1, 1⟩, ⟨7, 1/5, 1⟩] } }

theorem Activity.flatMean_field : Spec.MeanField Activity.flatMean 2 ∧ Spec.MeanField Activity.flatMean' 2 := by
  refine ⟨⟨?_, ?_, ?_, ?_, ?_, ?_⟩, ⟨?_, ?_, ?_, ?_, ?_, ?_⟩⟩
  · constructor <;> decide +kernel
  all_goals first | decide +kernel | skip
  · constructor <;> decide +kernel

theorem Activity.flatMean_same : Spec.SameStart Activity.flatMean Activity.flatMean' where
  rules := ⟨rfl, rfl, rfl, rfl, rfl, rfl, rfl, rfl, by decide +kernel⟩
  network := ⟨rfl, rfl, rfl, rfl⟩
  contactProb := rfl
  gen := rfl

-- the hypotheses of C102_forget, C102_fixed, C102_weights and C102_bounded are met
example (k : Nat) : ∃ t t', Iterates (Activity.iteration flatOps firstMin counterRng) Activity.flatMean k t ∧
    Iterates (Activity.iteration flatOps firstMin counterRng) Activity.flatMean' k t' ∧
    (∀ i, i < 4 → |attr ActiveAgent.opinion t.network.agents i - attr ActiveAgent.opinion t'.network.agents i| ≤
      (decay (1 / 100 : ℚ) + (1 - decay (1 / 100)) * (3 / 5)) ^ k * 6) ∧
    (∀ i, i < 4 → |attr ActiveAgent.opinion t'.network.agents i| ≤ 7) ∧
    (0 < k → ∀ i, i < 4 → ∀ e ∈ row t.network i, |e.2| ≤ 4) := by
  obtain ⟨t, ht, -⟩ := C49_total flatOps_powers.nat firstMin counterRng Activity.flatMean_field.1.ready k
  obtain ⟨t', ht', -⟩ := C49_total flatOps_powers.nat firstMin counterRng Activity.flatMean_field.2.ready k
  refine ⟨t, t', ht, ht', ?_, ?_, ?_⟩
  · refine C102_forget flatOps_powers (fun _ => rfl) flatOps_tanh Activity.flatMean_field.1 Activity.flatMean_field.2 Activity.flatMean_same rfl rfl
      ?_ ?_ ?_ ?_ ?_ ?_ ?_ ht ht'
    all_goals decide +kernel
  · refine C102_bounded flatOps_powers flatOps_le_one Activity.flatMean_field.2 ?_ ?_ ?_ ?_ ?_ ?_ ht'
    all_goals decide +kernel
  · intro hk i hi e he
    have := (C102_weights flatOps_powers Activity.flatMean_field.1 hk ht hi e he).1
    norm_num at this
    exact this

/-- One contact per agent, no bots, homophily as usual, opinions of one sign. -/
def Activity.posMean : Activity (ActivityAgent ℚ) ℚ Nat :=
  { Activity.sampleMean with
    p := { Activity.sampleMean.p with K := 1 / 20 }
    network := { Activity.sampleMean.network with agents := [⟨5, 1, 1⟩, ⟨3, 1/5, 1⟩, ⟨0, 1, 1⟩, ⟨7, 1/5, 1⟩] } }

theorem Activity.posMean_field : Spec.MeanField Activity.posMean 1 := by
  refine ⟨?_, ?_, ?_, ?_, ?_, ?_⟩
  · constructor <;> decide +kernel
  all_goals decide +kernel

-- the hypotheses of C102_decay and C102_onesided are met
example (k : Nat) : ∃ t, Iterates (Activity.iteration flatOps firstMin counterRng) Activity.posMean k t ∧
    ∀ i, i < 4 → 0 ≤ attr ActiveAgent.opinion t.network.agents i ∧
      attr ActiveAgent.opinion t.network.agents i ≤ (decay (1 / 100 : ℚ) + (1 - decay (1 / 100)) * (3 / 5)) ^ k * 7 := by
  obtain ⟨t, ht, -⟩ := C49_total flatOps_powers.nat firstMin counterRng Activity.posMean_field.ready k
  have h1 := C102_onesided (σ := 1) flatOps_powers flatOps_squashing Activity.posMean_field (by decide +kernel) (by decide +kernel) (by decide +kernel)
    (by decide +kernel) (by decide +kernel) (.inl rfl) (by decide +kernel) (by decide +kernel) ht
  have h2 := C102_decay (L := 3 / 5) (M := 7) flatOps_powers flatOps_le Activity.posMean_field rfl (by decide +kernel) (by decide +kernel) (by decide +kernel)
    (by decide +kernel) (by decide +kernel) (by decide +kernel) (by decide +kernel) ht
  refine ⟨t, ht, fun i hi => ⟨?_, (le_abs_self _).trans (h2 i hi)⟩⟩
  have := (h1 i hi).1
  rwa [one_mul] at this

-- the hypotheses of C102_created are met, with a bot that makes two contacts
example : ∃ (p : ActivitySettings ℝ) (N : Network (ActivityAgent ℝ) ℝ), ValidActivity p ∧ p.eps < 1 ∧ p.meanWeights = true ∧ p.meanActivities = false ∧
    p.reciprocity ≤ 1 ∧ (∀ a ∈ p.botActivity, a ≤ 1) ∧ WF N ∧ N.direction = .incoming ∧ N.agents.length < 2 ^ 31 ∧ SaneContacts p N.agents.length ∧
    p.m ≤ (2 : Nat) ∧ (∀ b ∈ p.botM, b ≤ (2 : Nat)) ∧ p.nBots = 1 := by
  refine ⟨{
     maxIterations := none, dt := 0.01, m := 1, eps := 0.01, gamma := 2.1, alpha := 3, homophily := 0.5, reciprocity := 0.5, K := 3,
     meanActivities := false, meanWeights := true, nBots := 1, botM := [2], botActivity := [1], botOpinion := [2], botHomophily := [0],
     useReluctances := true, reluctanceMean := 1, reluctanceSigma := 0.25, reluctanceEps := 0.01, covarianceFactor := 0 },
   ⟨[⟨0, 0, 1⟩, ⟨0, 0, 1⟩], [[], []], [[], []], .incoming⟩, ?_, by norm_num, rfl, rfl, by norm_num, by simp, ?_, rfl, by simp, ?_, by simp, by simp, rfl⟩
  · constructor <;> norm_num
  · refine ⟨rfl, rfl, fun i h h' => ?_, by simp⟩
    have : i = 0 ∨ i = 1 := by have : i < 2 := h; omega
    rcases this with rfl | rfl <;> rfl
  · refine ⟨by simp, by simp, fun i k hi hk => ?_⟩
    have hi : i < 1 := hi
    obtain rfl : i = 0 := by omega
    obtain rfl := Option.some.inj hk
    simp

end Seldon
