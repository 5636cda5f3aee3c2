import Verif.Lemmas.EntryLaw
import Verif.Props.MeanField
import Verif.Spec.RealOps
/-!
# C108: who listens to whom, with which probability
-/
namespace Seldon
open Spec MeasureTheory
open scoped ENNReal
variable {A G : Type}

/-- The probability that agent `i` contacts agent `j` in one iteration: it is activated and `j` is among its `m i` contacts. -/
noncomputable def Spec.contacted (x a h : ℕ → ℝ) (m : ℕ → ℕ) (n i j : ℕ) : ℝ := clip (a i) * chosen (contactWeight (h i) x i) (m i) (Finset.range n) j

section
variable {x a h : ℕ → ℝ} {q : ℝ} {m : ℕ → ℕ} {n : ℕ}

theorem weights_nonneg (h : ℕ → ℝ) (i : ℕ) : ∀ j ∈ Finset.range n, 0 ≤ contactWeight (h i) x i j := fun _ _ => contactWeight_nonneg

theorem weights_positive (h : ℕ → ℝ) {i k : ℕ} (hi : i < n) (hk : k < n) : k ≤ ((Finset.range n).filter fun j => 0 < contactWeight (h i) x i j).card := by
  have : (Finset.range n).erase i ⊆ (Finset.range n).filter fun j => 0 < contactWeight (h i) x i j := by
    intro j hj
    rw [Finset.mem_erase] at hj
    exact Finset.mem_filter.mpr ⟨hj.2, contactWeight_pos hj.1⟩
  have := Finset.card_le_card this
  rw [Finset.card_erase_of_mem (Finset.mem_range.mpr hi), Finset.card_range] at this
  omega

/-- It is the sum of the probabilities of the contact lists with `j`. -/
theorem contacted_eq {i : ℕ} (hi : i < n) (hm : 0 < m i ∧ m i < n) (j : ℕ) :
    ∑ b ∈ choices n (m i), contactLaw (a i) (contactWeight (h i) x i) n b * (if j ∈ b then 1 else 0) = Spec.contacted x a h m n i j := by
  unfold Spec.contacted choices
  rw [Finset.sum_insert, Finset.sum_image (by intro a _ b _ e; exact List.reverse_injective e),
    ← sum_successive_mem (m i) _ (weights_nonneg h i) (weights_positive h hi hm.2) j, Finset.mul_sum]
  · simp only [List.not_mem_nil, if_false, mul_zero, zero_add]
    refine Finset.sum_congr rfl fun t ht => ?_
    have : t.reverse ≠ [] := by
      intro e
      have := (mem_sequences.mp ht).1
      rw [List.reverse_eq_nil_iff.mp e] at this
      simp at this
      omega
    rw [contactLaw, if_neg this, List.reverse_reverse, mul_assoc]
    simp only [List.mem_reverse]
  · intro h0
    obtain ⟨t, ht, e⟩ := Finset.mem_image.mp h0
    have := (mem_sequences.mp ht).1
    rw [List.reverse_eq_nil_iff.mp e] at this
    simp at this
    omega

theorem Spec.contacted_nonneg (i j : ℕ) : 0 ≤ Spec.contacted x a h m n i j := mul_nonneg (clip_nonneg _) (chosen_nonneg _ _ (weights_nonneg h i) _)

theorem Spec.contacted_self (i : ℕ) : Spec.contacted x a h m n i i = 0 := by
  unfold Spec.contacted
  rw [chosen_of_zero _ _ contactWeight_self, mul_zero]

theorem Spec.contacted_le_one {i j : ℕ} (hi : i < n) (hm : 0 < m i ∧ m i < n) : Spec.contacted x a h m n i j ≤ 1 := by
  rw [← contacted_eq hi hm j]
  refine le_trans ?_ (contactLaw_total (x := x) (a i) (h i) hi hm.1 hm.2).le
  refine Finset.sum_le_sum fun b _ => ?_
  have := contactLaw_nonneg (x := x) (a i) (h i) i n b
  split <;> simp [this]

end

section
variable [ActiveAgent A XR] [LawfulActiveAgent A XR] [MeasurableSpace G] {μ : Measure G} [IsProbabilityMeasure μ]
  {o : MathOps XR} {pick : List (ℕ × XR) → ℕ} {r : Rng G XR} {x a h : ℕ → ℝ} {q : ℝ}

open scoped Classical in
/-- The sum over all outcomes with the entry. -/
theorem entry_sum {n : ℕ} {m : ℕ → ℕ} (hm : ∀ i, i < n → 0 < m i ∧ m i < n) {i j : Fin n} (hij : i ≠ j) :
    ∑ z ∈ outcomes n m with (j : ℕ) ∈ z.1 i ∨ ((j : ℕ), (i : ℕ)) ∈ z.2,
      (∏ k : Fin n, contactLaw (a k) (contactWeight (h k) x k) n (z.1 k)) * keepLaw q (oneWay n (fromFin z.1)) z.2 =
    listening (Spec.contacted x a h m n) (clip q) j i := by
  have hff : ∀ (d : Fin n → List ℕ) (k : Fin n), fromFin d k = d k := fun d k => by simp [fromFin]
  have htot : ∀ k : Fin n, ∑ b ∈ choices n (m k), contactLaw (a k) (contactWeight (h k) x k) n b = 1 := fun k =>
    contactLaw_total _ _ k.2 (hm k k.2).1 (hm k k.2).2
  unfold outcomes
  rw [Finset.sum_filter, Finset.sum_sigma]
  have inner : ∀ d ∈ Fintype.piFinset fun k : Fin n => choices n (m k), ∑ kept ∈ (oneWay n (fromFin d)).sublists.toFinset,
      (if (j : ℕ) ∈ d i ∨ ((j : ℕ), (i : ℕ)) ∈ kept then
        (∏ k : Fin n, contactLaw (a k) (contactWeight (h k) x k) n (d k)) * keepLaw q (oneWay n (fromFin d)) kept else 0) =
      (∏ k : Fin n, contactLaw (a k) (contactWeight (h k) x k) n (d k)) * ((if (j : ℕ) ∈ d i then 1 else 0) * 1) +
        clip q * ((∏ k : Fin n, contactLaw (a k) (contactWeight (h k) x k) n (d k)) *
          ((if (j : ℕ) ∈ d i then 0 else 1) * if (i : ℕ) ∈ d j then 1 else 0)) := by
    intro d hd
    have hnd : ∀ k, k < n → (fromFin d k).Nodup := by
      intro k hk
      have := mem_choices.mp (Fintype.mem_piFinset.mp hd ⟨k, hk⟩)
      rw [hff d ⟨k, hk⟩]
      rcases this with e | ⟨-, e, -⟩
      · rw [e]; exact List.nodup_nil
      · exact e
    have e := keepLaw_entry q hnd (i := (i : ℕ)) (j := (j : ℕ)) j.2
    rw [hff d i, hff d j, Finset.sum_filter] at e
    rw [← Finset.sum_filter, ← Finset.mul_sum, Finset.sum_filter, e]
    by_cases h1 : (j : ℕ) ∈ d i <;> by_cases h2 : (i : ℕ) ∈ d j <;> simp [h1, h2]
    ring
  have p1 := prod_two (fun k : Fin n => choices n (m k)) (fun k b => contactLaw (a k) (contactWeight (h k) x k) n b) htot hij
    (fun b => if (j : ℕ) ∈ b then 1 else 0) (fun _ => 1)
  have p2 := prod_two (fun k : Fin n => choices n (m k)) (fun k b => contactLaw (a k) (contactWeight (h k) x k) n b) htot hij
    (fun b => if (j : ℕ) ∈ b then 0 else 1) (fun b => if (i : ℕ) ∈ b then 1 else 0)
  have e1 := contacted_eq (x := x) (a := a) (h := h) i.2 (hm i i.2) (j : ℕ)
  have e2 := contacted_eq (x := x) (a := a) (h := h) j.2 (hm j j.2) (i : ℕ)
  have e3 : ∑ b ∈ choices n (m i), contactLaw (a i) (contactWeight (h i) x i) n b * (if (j : ℕ) ∈ b then 0 else 1) =
      1 - Spec.contacted x a h m n i j := by
    rw [← e1]
    refine Eq.trans ?_ (congrArg (· - ∑ b ∈ choices n (m i), contactLaw (a i) (contactWeight (h i) x i) n b * (if (j : ℕ) ∈ b then 1 else 0)) (htot i))
    rw [← Finset.sum_sub_distrib]
    refine Finset.sum_congr rfl fun b _ => ?_
    split <;> ring
  simp only [mul_one] at p1
  rw [Finset.sum_congr rfl inner, Finset.sum_add_distrib, ← Finset.mul_sum]
  simp only [mul_one]
  rw [p1, p2, e1, e2, e3, htot j, listening]
  ring

open scoped Classical in
/-- Nobody contacts itself. -/
theorem entry_self {n : ℕ} {m : ℕ → ℕ} (hm : ∀ i, i < n → 0 < m i ∧ m i < n) (i : Fin n) :
    ∑ z ∈ outcomes n m with (i : ℕ) ∈ z.1 i ∨ ((i : ℕ), (i : ℕ)) ∈ z.2,
      (∏ k : Fin n, contactLaw (a k) (contactWeight (h k) x k) n (z.1 k)) * keepLaw q (oneWay n (fromFin z.1)) z.2 = 0 := by
  refine Finset.sum_eq_zero ?_
  rintro ⟨d, kept⟩ hz
  obtain ⟨h1, h2⟩ := Finset.mem_filter.mp hz
  obtain ⟨h3, h4⟩ := mem_outcomes.mp h1
  have hff : fromFin d i = d i := by simp [fromFin]
  have hmem : (i : ℕ) ∈ d i := by
    rcases h2 with h2 | h2
    · exact h2
    · rw [← hff]; exact (mem_oneWay.mp (h4.subset h2)).2.1
  have hs := contacted_eq (x := x) (a := a) (h := h) i.2 (hm i i.2) (i : ℕ)
  rw [Spec.contacted_self, Finset.sum_eq_zero_iff_of_nonneg fun b _ => mul_nonneg (contactLaw_nonneg _ _ _ _ _) (by split <;> norm_num)] at hs
  have := hs (d i) (mem_choices.mpr (by rw [← hff]; exact h3 i i.2))
  rw [if_pos hmem, mul_one] at this
  rw [Finset.prod_eq_zero (Finset.mem_univ i) this, zero_mul]

omit [LawfulActiveAgent A XR] in
/-- The probability of an entry, for an update of the network. -/
theorem entry_law {s : Activity A XR G} {run : G → Res (Network A XR × G)} (hr : DrawsUniform r μ) (hp : Reservoir.Pick.Min pick) (ho : o.toOps = XR.ops)
    (hrun : Updates o pick r s run) (hn : Numbers s.p s.network.agents x a h q)
    (hm : ∀ i, i < s.network.agents.length → 0 < contactsOf s.p i ∧ contactsOf s.p i < s.network.agents.length) {i j : ℕ}
    (hi : i < s.network.agents.length) (hj : j < s.network.agents.length) :
    μ {g | ∃ N g', run g = .ok (N, g') ∧ i ∈ (row N j).map (·.1)} =
    ENNReal.ofReal (listening (Spec.contacted x a h (fun i => (contactsOf s.p i).toNat) s.network.agents.length) (clip q) j i) := by
  classical
  have hm' : ∀ i, i < s.network.agents.length → 0 < (contactsOf s.p i).toNat ∧ (contactsOf s.p i).toNat < s.network.agents.length :=
    fun i hi => by have := hm i hi; omega
  obtain ⟨-, e⟩ := event_law (P := fun c kept => j ∈ c ⟨i, hi⟩ ∨ (j, i) ∈ kept) (T := Set.univ)
    (E := {g | ∃ N g', run g = .ok (N, g') ∧ i ∈ (row N j).map (·.1)}) hr hp ho hrun hn hm MeasurableSet.univ (by
      intro g gs buf contacts N g' kept e1 e2 e3
      have hedges : i ∈ (row N j).map (·.1) ↔ (j ∈ contacts i ∨ (j, i) ∈ kept) := by
        rw [e2.edges i j hi hj, e3]
      constructor
      · rintro ⟨N', g'', h1, h2⟩
        rw [e1] at h1
        obtain ⟨rfl, rfl⟩ := Prod.mk.inj (Except.ok.inj h1)
        exact ⟨hedges.mp h2, trivial⟩
      · rintro ⟨h2, -⟩
        exact ⟨N, g', e1, hedges.mpr h2⟩)
  rw [e, measure_univ, mul_one, ← ENNReal.ofReal_sum_of_nonneg fun z _ => mul_nonneg (Finset.prod_nonneg fun k _ => contactLaw_nonneg _ _ _ _ _)
    (keepLaw_nonneg _ _ _)]
  congr 1
  by_cases hij : i = j
  · subst hij
    rw [show listening (Spec.contacted x a h (fun i => (contactsOf s.p i).toNat) s.network.agents.length) (clip q) i i = 0 by
      unfold listening; rw [Spec.contacted_self]; ring]
    exact Eq.trans (Finset.sum_congr (by congr) fun _ _ => rfl)
      (entry_self (x := x) (a := a) (h := h) (q := q) (n := s.network.agents.length) hm' ⟨i, hi⟩)
  · have := entry_sum (x := x) (a := a) (h := h) (q := q) (m := fun i => (contactsOf s.p i).toNat) (n := s.network.agents.length)
      hm' (i := ⟨i, hi⟩) (j := ⟨j, hj⟩) (fun e => hij (Fin.mk.inj e))
    exact Eq.trans (Finset.sum_congr (by congr) fun _ _ => rfl) this

/-- C108: after an iteration of the activity-driven model (with `mean_weights = false`) agent `j` listens to agent `i` with the probability
`P_ij + (1 - P_ij) r P_ji`, where `P_ij` is the probability that `i` is activated and that `j` is one of its `m` contacts. -/
theorem C108_entry (hr : DrawsUniform r μ) (hp : Reservoir.Pick.Min pick) (ho : o.toOps = XR.ops) {s : Activity A XR G}
    (hs : Activity.Ready s) (hn : Numbers s.p s.network.agents x a h q)
    (hm : ∀ i, i < s.network.agents.length → 0 < contactsOf s.p i ∧ contactsOf s.p i < s.network.agents.length) {i j : ℕ}
    (hi : i < s.network.agents.length) (hj : j < s.network.agents.length) :
    μ {g | ∃ t, Activity.iteration o pick r { s with gen := g } = .ok t ∧ i ∈ (row t.network j).map (·.1)} =
    ENNReal.ofReal (listening (Spec.contacted x a h (fun i => (contactsOf s.p i).toNat) s.network.agents.length) (clip q) j i) := by
  rw [← entry_law hr hp ho (updates_activity ⟨hp.lt⟩ hs) hn hm hi hj]
  congr 1
  ext g
  constructor
  · rintro ⟨t, h1, h2⟩
    exact ⟨t.network, t.gen, map_eq_ok.mpr ⟨t, h1, rfl⟩, h2⟩
  · rintro ⟨N, g', h1, h2⟩
    obtain ⟨t, h3, h4⟩ := map_eq_ok.mp h1
    obtain ⟨rfl, rfl⟩ := Prod.mk.inj h4
    exact ⟨t, h3, h2⟩

/-- C108 (inertial model): the same. -/
theorem C108_entry_inertial (hr : DrawsUniform r μ) (hp : Reservoir.Pick.Min pick) (ho : o.toOps = XR.ops) {s : Inertial XR G}
    (hs : Activity.Ready s.base) (hn : Numbers s.base.p s.base.network.agents x a h q)
    (hm : ∀ i, i < s.base.network.agents.length → 0 < contactsOf s.base.p i ∧ contactsOf s.base.p i < s.base.network.agents.length) {i j : ℕ}
    (hi : i < s.base.network.agents.length) (hj : j < s.base.network.agents.length) :
    μ {g | ∃ t, Inertial.iteration o pick r { s with base := { s.base with gen := g } } = .ok t ∧ i ∈ (row t.base.network j).map (·.1)} =
    ENNReal.ofReal (listening (Spec.contacted x a h (fun i => (contactsOf s.base.p i).toNat) s.base.network.agents.length) (clip q) j i) := by
  rw [← entry_law hr hp ho (updates_inertial ⟨hp.lt⟩ hs) hn hm hi hj]
  congr 1
  ext g
  constructor
  · rintro ⟨t, h1, h2⟩
    exact ⟨t.base.network, t.base.gen, map_eq_ok.mpr ⟨t, h1, rfl⟩, h2⟩
  · rintro ⟨N, g', h1, h2⟩
    obtain ⟨t, h3, h4⟩ := map_eq_ok.mp h1
    obtain ⟨rfl, rfl⟩ := Prod.mk.inj h4
    exact ⟨t, h3, h2⟩

end

section
variable {x a h : ℕ → ℝ} {q : ℝ} {m : ℕ → ℕ} {n : ℕ}

/-- C108 (how many contacts): the probabilities to be contacted by agent `i` add up to its activity times `m`. -/
theorem C108_contacts {i : ℕ} (hi : i < n) (hm : m i < n) : ∑ j ∈ Finset.range n, Spec.contacted x a h m n i j = clip (a i) * m i := by
  unfold Spec.contacted
  rw [← Finset.mul_sum, chosen_sum _ _ (weights_nonneg h i) (weights_positive h hi hm)]

/-- The weights of `realOps` are those of the sampling. -/
theorem preference_real (x : ℕ → ℝ) (h : ℝ) (i j : ℕ) : preference realOps.pow x h i j = contactWeight h x i j := rfl

/-- Listening grows with the contact probabilities. -/
theorem listening_mono {P Q : ℕ → ℕ → ℝ} {r : ℝ} (hr0 : 0 ≤ r) (hr1 : r ≤ 1) {i j : ℕ} (h1 : Q j i ≤ 1) (hij : P i j ≤ Q i j)
    (hji : P j i ≤ Q j i) (hQ : Q i j ≤ 1) : listening P r j i ≤ listening Q r j i := by
  unfold listening
  have e1 : (Q i j - P i j) * (1 - r * P j i) ≥ 0 := mul_nonneg (by linarith) (by nlinarith)
  have e2 : (1 - Q i j) * (r * (Q j i - P j i)) ≥ 0 := mul_nonneg (by linarith) (mul_nonneg hr0 (by linarith))
  nlinarith

end

section
variable {x a h : ℕ → ℝ} {q : ℝ} {m : ℕ → ℕ} {n : ℕ} {B G' : Type} [ActiveAgent B ℝ] [LawfulActiveAgent B ℝ]

theorem rounds_of_two {ω : ℝ} (h0 : 0 ≤ ω) : rounds ω 2 = 1 - (1 - ω) ^ 2 := by
  have : 1 + ω ≠ 0 := by positivity
  unfold rounds
  rw [Finset.sum_range_succ, Finset.sum_range_one]
  field_simp
  ring

omit [LawfulActiveAgent B ℝ] in
/-- The contact probability of the mean-field mode. -/
theorem mean_contact {p : ActivitySettings ℝ} {agents : List B} (hx : ∀ i, i < agents.length → attr ActiveAgent.opinion agents i = x i) {i j : ℕ}
    (hi : i < agents.length) (hj : j < agents.length) (hh : homophilyFor p i = h i) (ha : attr ActiveAgent.activity agents i ≤ 1) :
    contactProbability realOps p agents i j = rounds (contactWeight (h i) x i j / ∑ k ∈ Finset.range agents.length, contactWeight (h i) x i k)
      (contactsOf p i).toNat := by
  have hw : ∀ k, k < agents.length → preference realOps.pow (attr ActiveAgent.opinion agents) (homophilyFor p i) i k = contactWeight (h i) x i k := by
    intro k hk
    rw [hh]
    unfold preference contactWeight
    rw [hx i hi, hx k hk]
    rfl
  unfold contactProbability share
  rw [max_eq_left ha, one_mul, hw j hj, Finset.sum_congr rfl fun k hk => hw k (Finset.mem_range.mp hk)]

theorem share_real (h : ℕ → ℝ) (x : ℕ → ℝ) {i j : ℕ} (hj : j < n) : 0 ≤ contactWeight (h i) x i j / ∑ k ∈ Finset.range n, contactWeight (h i) x i k ∧
    contactWeight (h i) x i j / ∑ k ∈ Finset.range n, contactWeight (h i) x i k ≤ 1 := by
  have hs : 0 ≤ ∑ k ∈ Finset.range n, contactWeight (h i) x i k := Finset.sum_nonneg fun k _ => contactWeight_nonneg
  exact ⟨div_nonneg contactWeight_nonneg hs, div_le_one_of_le₀ (Finset.single_le_sum (f := contactWeight (h i) x i) (fun k _ => contactWeight_nonneg) (Finset.mem_range.mpr hj)) hs⟩

theorem clip_of_prob {q : ℝ} (h0 : 0 ≤ q) (h1 : q ≤ 1) : clip q = q := by
  unfold clip
  rw [min_eq_right h1, max_eq_right h0]

theorem clip_of_one_le {q : ℝ} (h1 : 1 ≤ q) : clip q = 1 := by
  unfold clip
  rw [min_eq_left h1, max_eq_right zero_le_one]

variable [ActiveAgent A XR] [LawfulActiveAgent A XR] [MeasurableSpace G] {μ : Measure G} [IsProbabilityMeasure μ]
  {o : MathOps XR} {pick : List (ℕ × XR) → ℕ} {r : Rng G XR}

/-- The same population with `mean_weights = true`: the opinions, homophilies, reciprocity and numbers of contacts are those of the population `x`, `h`, `q`, `m`,
and the activities are at most 1. -/
structure Spec.MeanTwin (s : Activity B ℝ G') (x h : ℕ → ℝ) (q : ℝ) (m : ℕ → ℤ) (n : ℕ) : Prop where
  ready : Activity.MeanReady s
  size : s.network.agents.length = n
  opinion : ∀ i, i < n → attr ActiveAgent.opinion s.network.agents i = x i
  activity : ∀ i, i < n → attr ActiveAgent.activity s.network.agents i ≤ 1
  homophily : ∀ i, i < n → homophilyFor s.p i = h i
  reciprocity : s.p.reciprocity = q
  contacts : ∀ i, i < n → contactsOf s.p i = m i

theorem mean_weight {s' : Activity B ℝ G'} {k : ℕ → ℤ} (h' : Spec.MeanTwin s' x h q k n) (pick' : List (ℕ × ℝ) → ℕ) (r' : Rng G' ℝ) :
    ∃ t', Activity.iteration realOps pick' r' s' = .ok t' ∧ ∀ i j, i < n → j < n → ∃ w, (i, w) ∈ row t'.network j ∧
      w = listening (fun i j => rounds (contactWeight (h i) x i j / ∑ k ∈ Finset.range n, contactWeight (h i) x i k) (k i).toNat) q j i := by
  obtain ⟨t', h1, h2, -⟩ := C49_activity (o := realOps) (fun _ _ => rfl) pick' r' h'.ready
  refine ⟨t', h1, fun i j hi hj => ⟨listening (contactProbability realOps s'.p s'.network.agents) s'.p.reciprocity j i, ?_, ?_⟩⟩
  · rw [h2.rows j (by rw [h'.size]; exact hj), h'.size]
    exact List.mem_map.mpr ⟨i, List.mem_range.mpr hi, rfl⟩
  · unfold listening
    have hx : ∀ i, i < s'.network.agents.length → attr ActiveAgent.opinion s'.network.agents i = x i := fun i hi => h'.opinion i (by rw [← h'.size]; exact hi)
    rw [mean_contact hx (by rw [h'.size]; exact hi) (by rw [h'.size]; exact hj) (h'.homophily i hi) (h'.activity i hi),
      mean_contact hx (by rw [h'.size]; exact hj) (by rw [h'.size]; exact hi) (h'.homophily j hj) (h'.activity j hj), h'.reciprocity, h'.contacts i hi,
      h'.contacts j hj, h'.size]

/-- C108 (the mean-field mode, `m = 1`): the weight that the mean-field mode gives to `i` in the row of `j` is at least the probability that `j` listens to
`i` in the probabilistic mode; it is this probability if all activities are 1. -/
theorem C108_mean_field (hr : DrawsUniform r μ) (hp : Reservoir.Pick.Min pick) (ho : o.toOps = XR.ops) {s : Activity A XR G}
    (hs : Activity.Ready s) (hn : Numbers s.p s.network.agents x a h q) (h2 : 2 ≤ s.network.agents.length)
    (hm : ∀ i, i < s.network.agents.length → contactsOf s.p i = 1) (hq0 : 0 ≤ q) (hq1 : q ≤ 1)
    {s' : Activity B ℝ G'} (h' : Spec.MeanTwin s' x h q (contactsOf s.p) s.network.agents.length) (pick' : List (ℕ × ℝ) → ℕ) (r' : Rng G' ℝ) :
    ∃ t', Activity.iteration realOps pick' r' s' = .ok t' ∧ ∀ i j, i < s.network.agents.length → j < s.network.agents.length → ∃ w, (i, w) ∈ row t'.network j ∧
      μ {g | ∃ t, Activity.iteration o pick r { s with gen := g } = .ok t ∧ i ∈ (row t.network j).map (·.1)} ≤ ENNReal.ofReal w ∧
      ((∀ i, i < s.network.agents.length → 1 ≤ a i) →
        μ {g | ∃ t, Activity.iteration o pick r { s with gen := g } = .ok t ∧ i ∈ (row t.network j).map (·.1)} = ENNReal.ofReal w) := by
  obtain ⟨t', e1, e2⟩ := mean_weight h' pick' r'
  refine ⟨t', e1, fun i j hi hj => ?_⟩
  obtain ⟨w, hw, rfl⟩ := e2 i j hi hj
  refine ⟨_, hw, ?_⟩
  have hP : ∀ i j, i < s.network.agents.length → j < s.network.agents.length →
      Spec.contacted x a h (fun i => (contactsOf s.p i).toNat) s.network.agents.length i j = clip (a i) *
      rounds (contactWeight (h i) x i j / ∑ k ∈ Finset.range s.network.agents.length, contactWeight (h i) x i k) (contactsOf s.p i).toNat := by
    intro i j hi hj
    have h1 : (contactsOf s.p i).toNat = 1 := by rw [hm i hi]; rfl
    show clip (a i) * chosen _ (contactsOf s.p i).toNat _ j = _
    rw [h1, chosen_one (Finset.mem_range.mpr hj), rounds_one (share_real h x hj).1]
  have hb : ∀ i j, i < s.network.agents.length → j < s.network.agents.length →
      0 ≤ rounds (contactWeight (h i) x i j / ∑ k ∈ Finset.range s.network.agents.length, contactWeight (h i) x i k) (contactsOf s.p i).toNat ∧
      rounds (contactWeight (h i) x i j / ∑ k ∈ Finset.range s.network.agents.length, contactWeight (h i) x i k) (contactsOf s.p i).toNat ≤ 1 := by
    intro i j hi hj
    rw [hm i hi, show (1 : ℤ).toNat = 1 from rfl, rounds_one (share_real h x hj).1]
    exact share_real h x hj
  rw [C108_entry hr hp ho hs hn (fun i hi => by rw [hm i hi]; omega) hi hj, clip_of_prob hq0 hq1]
  constructor
  · refine ENNReal.ofReal_le_ofReal (listening_mono hq0 hq1 (hb j i hj hi).2 ?_ ?_ (hb i j hi hj).2)
    · rw [hP i j hi hj]
      exact mul_le_of_le_one_left (hb i j hi hj).1 (clip_le_one _)
    · rw [hP j i hj hi]
      exact mul_le_of_le_one_left (hb j i hj hi).1 (clip_le_one _)
  · intro ha
    unfold listening
    rw [hP i j hi hj, hP j i hj hi, clip_of_one_le (ha i hi), clip_of_one_le (ha j hj), one_mul, one_mul]

/-- C108 (the mean-field mode, `m = 2`): if all activities are 1 then the weight is at most the probability: the mean-field mode contacts with replacement. -/
theorem C108_mean_field_two (hr : DrawsUniform r μ) (hp : Reservoir.Pick.Min pick) (ho : o.toOps = XR.ops) {s : Activity A XR G}
    (hs : Activity.Ready s) (hn : Numbers s.p s.network.agents x a h q) (h2 : 3 ≤ s.network.agents.length)
    (hm : ∀ i, i < s.network.agents.length → contactsOf s.p i = 2) (hq0 : 0 ≤ q) (hq1 : q ≤ 1) (ha : ∀ i, i < s.network.agents.length → 1 ≤ a i)
    {s' : Activity B ℝ G'} (h' : Spec.MeanTwin s' x h q (contactsOf s.p) s.network.agents.length) (pick' : List (ℕ × ℝ) → ℕ) (r' : Rng G' ℝ) :
    ∃ t', Activity.iteration realOps pick' r' s' = .ok t' ∧ ∀ i j, i < s.network.agents.length → j < s.network.agents.length → ∃ w, (i, w) ∈ row t'.network j ∧
      ENNReal.ofReal w ≤ μ {g | ∃ t, Activity.iteration o pick r { s with gen := g } = .ok t ∧ i ∈ (row t.network j).map (·.1)} := by
  obtain ⟨t', e1, e2⟩ := mean_weight h' pick' r'
  refine ⟨t', e1, fun i j hi hj => ?_⟩
  obtain ⟨w, hw, rfl⟩ := e2 i j hi hj
  refine ⟨_, hw, ?_⟩
  have hm' : ∀ i, i < s.network.agents.length → 0 < (contactsOf s.p i).toNat ∧ (contactsOf s.p i).toNat < s.network.agents.length :=
    fun i hi => by rw [hm i hi]; show 0 < 2 ∧ 2 < _; omega
  have hle : ∀ i j, i < s.network.agents.length → j < s.network.agents.length →
      rounds (contactWeight (h i) x i j / ∑ k ∈ Finset.range s.network.agents.length, contactWeight (h i) x i k) (contactsOf s.p i).toNat ≤
      Spec.contacted x a h (fun i => (contactsOf s.p i).toNat) s.network.agents.length i j := by
    intro i j hi hj
    have h1 : (contactsOf s.p i).toNat = 2 := by rw [hm i hi]; rfl
    show _ ≤ clip (a i) * chosen _ (contactsOf s.p i).toNat _ j
    rw [h1, rounds_of_two (share_real h x hj).1, clip_of_one_le (ha i hi), one_mul]
    exact chosen_ge 2 _ (weights_nonneg h i) (Finset.mem_range.mpr hj)
  rw [C108_entry hr hp ho hs hn (fun i hi => by rw [hm i hi]; omega) hi hj, clip_of_prob hq0 hq1]
  exact ENNReal.ofReal_le_ofReal (listening_mono hq0 hq1 (Spec.contacted_le_one hj (hm' j hj)) (hle i j hi hj) (hle j i hj hi)
    (Spec.contacted_le_one hi (hm' i hi)))

end

/-! ## non-vacuity -/

/-- In `xrSample` (opinions 0, 1, 2, activity 1/2, homophily 1, one contact, reciprocity 1/2) agent 1 listens to agent 0 with probability
1/3 + 2/3 · 1/2 · 1/4 = 5/12. -/
example : tapes {g | ∃ t, Activity.iteration xrOps exPick tapeRng { xrSample with gen := g } = .ok t ∧ 0 ∈ (row t.network 1).map (·.1)} =
    ENNReal.ofReal (5 / 12) := by
  rw [C108_entry tapeRng_uniform exPick_min rfl xrSample_ready xrSample_numbers
    (fun i hi => by rw [xrSample_contacts]; show (0 : ℤ) < 1 ∧ (1 : ℤ) < (3 : ℕ); norm_num) (i := 0) (j := 1) (by show 0 < 3; norm_num)
    (by show 1 < 3; norm_num)]
  congr 1
  have hP : ∀ i j, j < 3 → Spec.contacted (fun i => i) (fun _ => 1 / 2) (fun _ => 1) (fun i => (contactsOf xrSample.p i).toNat) xrSample.network.agents.length i j =
      1 / 2 * (contactWeight 1 (fun i : ℕ => (i : ℝ)) i j / ∑ k ∈ Finset.range 3, contactWeight 1 (fun i : ℕ => (i : ℝ)) i k) := by
    intro i j hj
    show clip (1 / 2) * chosen _ 1 (Finset.range 3) j = _
    rw [chosen_one (Finset.mem_range.mpr hj), clip_of_prob (by norm_num) (by norm_num)]
  have h01 : contactWeight 1 (fun i : ℕ => (i : ℝ)) 0 1 = 1 := by norm_num [contactWeight]
  have h02 : contactWeight 1 (fun i : ℕ => (i : ℝ)) 0 2 = 1 / 2 := by norm_num [contactWeight, Real.rpow_neg]
  have h10 : contactWeight 1 (fun i : ℕ => (i : ℝ)) 1 0 = 1 := by norm_num [contactWeight]
  have h12 : contactWeight 1 (fun i : ℕ => (i : ℝ)) 1 2 = 1 := by norm_num [contactWeight]
  unfold listening
  rw [hP 0 1 (by norm_num), hP 1 0 (by norm_num), clip_of_prob (by norm_num) (by norm_num)]
  simp only [Finset.sum_range_succ, Finset.sum_range_zero, h01, h02, h10, h12, contactWeight_self]
  norm_num

/-- Three agents with activity 1 and `k` contacts. -/
noncomputable def xrEager (k : ℤ) : Activity (ActivityAgent XR) XR (ℕ → ℝ) :=
  { xrSample with
    p := { xrSample.p with m := k }
    network := ⟨[⟨XR.fin 0, XR.fin 1, 1⟩, ⟨XR.fin 1, XR.fin 1, 1⟩, ⟨XR.fin 2, XR.fin 1, 1⟩], [[], [], []], [[], [], []], .incoming⟩ }

theorem xrEager_ready {k : ℤ} (h0 : 0 < k) (h1 : k < 3) : Activity.Ready (xrEager k) where
  wf := ⟨rfl, rfl, by
    intro k h1 h2
    have : k < 3 := h1
    interval_cases k <;> rfl, by
    intro row hrow j hj
    have : row = [] := by
      have : row ∈ ([[], [], []] : List (List ℕ)) := hrow
      simpa using this
    rw [this] at hj
    simp at hj⟩
  incoming := rfl
  fit := ⟨by show 3 < _; norm_num, Nat.zero_le _, Nat.zero_le _, Nat.zero_le _, fun i _ => by show 0 ≤ k; omega,
    fun i _ => by show k ≤ (3 : ℕ); omega⟩
  botOpinion := Nat.zero_le _
  probabilistic := rfl

theorem xrEager_numbers (k : ℤ) : Numbers (xrEager k).p (xrEager k).network.agents (fun i => i) (fun _ => 1) (fun _ => 1) (1 / 2) where
  opinion := by
    intro i hi
    have : i < 3 := hi
    interval_cases i
    · show XR.fin 0 = XR.fin ((0 : ℕ) : ℝ); norm_num
    · show XR.fin 1 = XR.fin ((1 : ℕ) : ℝ); norm_num
    · show XR.fin 2 = XR.fin ((2 : ℕ) : ℝ); norm_num
  activity := by
    intro i hi
    have : i < 3 := hi
    interval_cases i <;> rfl
  homophily := fun i _ => rfl
  reciprocity := rfl

/-- The same agents in mean-field mode, with small activities. -/
noncomputable def realTwin (k : ℤ) : Activity (ActivityAgent ℝ) ℝ Unit where
  counter := ⟨some 3, 0⟩
  p := { maxIterations := none, dt := 0, m := k, eps := 1, gamma := 1, alpha := 1, homophily := 1, reciprocity := 1 / 2, K := 1,
         meanActivities := false, meanWeights := true, nBots := 0, botM := [], botActivity := [], botOpinion := [], botHomophily := [],
         useReluctances := false, reluctanceMean := 1, reluctanceSigma := 1, reluctanceEps := 1, covarianceFactor := 0 }
  network := ⟨[⟨0, 1 / 10, 1⟩, ⟨1, 1 / 10, 1⟩, ⟨2, 1 / 10, 1⟩], List.replicate 3 [0, 1, 2], List.replicate 3 [0, 0, 0], .incoming⟩
  contactProb := [[], [], []]
  gen := ()

theorem realTwin_twin {k : ℤ} (h0 : 0 < k) (h1 : k < 3) : Spec.MeanTwin (realTwin k) (fun i => i) (fun _ => 1) (1 / 2) (contactsOf (xrEager k).p) 3 where
  ready := ⟨rfl, rfl, rfl, rfl, Nat.zero_le _, Nat.zero_le _, Nat.zero_le _, Nat.zero_le _, fun i _ => by show 0 ≤ k; omega,
    fun i _ => by show k < 2 ^ 64; omega, rfl⟩
  size := rfl
  opinion := by
    intro i hi
    interval_cases i
    · show (0 : ℝ) = ((0 : ℕ) : ℝ); norm_num
    · show (1 : ℝ) = ((1 : ℕ) : ℝ); norm_num
    · show (2 : ℝ) = ((2 : ℕ) : ℝ); norm_num
  activity := by
    intro i hi
    interval_cases i <;> (show (1 / 10 : ℝ) ≤ 1; norm_num)
  homophily := fun i _ => rfl
  reciprocity := rfl
  contacts := fun i _ => rfl

/-- Mean-field mode draws no numbers in an iteration. -/
noncomputable def quietRng : Rng Unit ℝ := ⟨fun _ => (1 / 2, ()), fun a _ _ => (a, ()), fun _ => (0, ())⟩

/-- One contact, everybody activated: the weights are the probabilities. -/
example : ∃ t', Activity.iteration realOps (fun _ => 0) quietRng (realTwin 1) = .ok t' ∧ ∀ i j, i < 3 → j < 3 → ∃ w, (i, w) ∈ row t'.network j ∧
    tapes {g | ∃ t, Activity.iteration xrOps exPick tapeRng { xrEager 1 with gen := g } = .ok t ∧ i ∈ (row t.network j).map (·.1)} = ENNReal.ofReal w := by
  obtain ⟨t', h1, h2⟩ := C108_mean_field (o := xrOps) tapeRng_uniform exPick_min rfl (xrEager_ready (by norm_num) (by norm_num)) (xrEager_numbers 1)
    (by show 2 ≤ 3; norm_num) (fun i _ => rfl) (by norm_num) (by norm_num) (realTwin_twin (by norm_num) (by norm_num)) (fun _ => 0) quietRng
  refine ⟨t', h1, fun i j hi hj => ?_⟩
  obtain ⟨w, h3, -, h4⟩ := h2 i j hi hj
  exact ⟨w, h3, h4 fun _ _ => le_refl 1⟩

/-- Two contacts: the weights are at most the probabilities. -/
example : ∃ t', Activity.iteration realOps (fun _ => 0) quietRng (realTwin 2) = .ok t' ∧ ∀ i j, i < 3 → j < 3 → ∃ w, (i, w) ∈ row t'.network j ∧
    ENNReal.ofReal w ≤ tapes {g | ∃ t, Activity.iteration xrOps exPick tapeRng { xrEager 2 with gen := g } = .ok t ∧ i ∈ (row t.network j).map (·.1)} :=
  C108_mean_field_two (o := xrOps) tapeRng_uniform exPick_min rfl (xrEager_ready (by norm_num) (by norm_num)) (xrEager_numbers 2)
    (by show 3 ≤ 3; norm_num) (fun i _ => rfl) (by norm_num) (by norm_num) (fun _ _ => le_refl 1) (realTwin_twin (by norm_num) (by norm_num)) (fun _ => 0) quietRng

end Seldon
