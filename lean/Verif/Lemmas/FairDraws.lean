import Verif.Lemmas.Draws
import Verif.Lemmas.Tape
import Mathlib.MeasureTheory.Function.Floor
import Mathlib.MeasureTheory.Measure.Dirac
import Verif.Lemmas.Sampling
import Mathlib.Probability.UniformOn
import Mathlib.Order.Filter.AtTopBot.Basic
import Mathlib.Analysis.SpecificLimits.Basic
/-!
# Helper lemmas: independent uniform integers, events that happen infinitely often
-/
namespace Seldon
open Spec MeasureTheory Filter
open scoped ENNReal
variable {G α β F : Type} [MeasurableSpace G] [MeasurableSpace α] [MeasurableSpace β] {μ : Measure G}

namespace Spec

/-- A draw with countably many outcomes is given by the probabilities of its outcomes. -/
theorem Draws.of_atoms [Countable α] [MeasurableSingletonClass α] [IsProbabilityMeasure μ] {f : G → α × G} (p : α → ℝ≥0∞)
    (hm : ∀ a S, MeasurableSet S → MeasurableSet {g | (f g).1 = a ∧ (f g).2 ∈ S})
    (h : ∀ a S, MeasurableSet S → μ {g | (f g).1 = a ∧ (f g).2 ∈ S} = p a * μ S) :
    Draws f (μ.map fun g => (f g).1) μ ∧ (∀ a, (μ.map fun g => (f g).1) {a} = p a) := by
  have hf : Measurable f := by
    intro T hT
    have e : f ⁻¹' T = ⋃ a, {g | (f g).1 = a ∧ (f g).2 ∈ Prod.mk a ⁻¹' T} := by
      ext g
      simp [Set.mem_iUnion]
    rw [e]
    exact MeasurableSet.iUnion fun a => hm a _ (measurable_prodMk_left hT)
  have hf1 : Measurable fun g => (f g).1 := measurable_fst.comp hf
  have hp : ∀ a, (μ.map fun g => (f g).1) {a} = p a := by
    intro a
    rw [Measure.map_apply hf1 (measurableSet_singleton a)]
    have := h a Set.univ MeasurableSet.univ
    rw [measure_univ, mul_one] at this
    rw [← this]
    congr 1
    ext g; simp
  refine ⟨⟨hf, ?_⟩, hp⟩
  have : IsProbabilityMeasure (μ.map fun g => (f g).1) := Measure.isProbabilityMeasure_map hf1.aemeasurable
  refine (Measure.prod_eq fun s t hs ht => ?_).symm
  rw [Measure.map_apply hf (hs.prod ht)]
  have e1 : f ⁻¹' (s ×ˢ t) = ⋃ a : s, {g | (f g).1 = a ∧ (f g).2 ∈ t} := by
    ext g
    simp only [Set.mem_preimage, Set.mem_prod, Set.mem_iUnion, Set.mem_ofPred_eq]
    constructor
    · rintro ⟨h1, h2⟩
      exact ⟨⟨_, h1⟩, rfl, h2⟩
    · rintro ⟨a, h1, h2⟩
      exact ⟨h1 ▸ a.2, h2⟩
  rw [e1, measure_iUnion ?_ fun a : s => hm a t ht]
  · have hls : (μ.map fun g => (f g).1) s = ∑' a : s, (μ.map fun g => (f g).1) {(a : α)} := by
      conv_lhs => rw [← Set.biUnion_of_singleton s]
      refine measure_biUnion s.to_countable ?_ fun a _ => measurableSet_singleton a
      intro a _ b _ hab
      exact Set.disjoint_singleton.mpr hab
    rw [hls, ← ENNReal.tsum_mul_right]
    refine tsum_congr fun a => ?_
    rw [h a t ht, hp]
  · intro a b hab
    refine Set.disjoint_left.mpr ?_
    rintro g ⟨h1, -⟩ ⟨h2, -⟩
    exact hab (Subtype.ext (h1.symm.trans h2))

theorem Draws.after_preserving [SFinite μ] {f : G → α × G} {law : Measure α} [IsProbabilityMeasure law] (h : Draws f law μ) (n : ℕ) :
    MeasurePreserving (after f n) μ μ := by
  induction n with
  | zero => exact MeasurePreserving.id μ
  | succ n ih => exact ih.comp (measurePreserving_snd.comp h)

omit [MeasurableSpace G] [MeasurableSpace α] in
theorem after_add (f : G → α × G) (m n : ℕ) (g : G) : after f (m + n) g = after f n (after f m g) := by
  induction m generalizing g with
  | zero => simp [after]
  | succ m ih => rw [Nat.succ_add, after, ih]; rfl

/-- An outcome of positive probability happens infinitely often, almost surely. -/
theorem Draws.infinitely_often {f : G → α × G} {law : Measure α} [IsProbabilityMeasure μ] [IsProbabilityMeasure law] (h : Draws f law μ)
    {A : Set α} (hA : MeasurableSet A) (hpos : law A ≠ 0) :
    ∀ᵐ g ∂μ, ∃ᶠ n in atTop, (f (after f n g)).1 ∈ A := by
  have hlt : law Aᶜ < 1 := by
    rw [prob_compl_eq_one_sub hA]
    exact ENNReal.sub_lt_self ENNReal.one_ne_top one_ne_zero hpos
  have hz : μ {g | ∀ i, (f (after f i g)).1 ∈ Aᶜ} = 0 := by
    have hle : ∀ n, μ {g | ∀ i, (f (after f i g)).1 ∈ Aᶜ} ≤ law Aᶜ ^ n := by
      intro n
      have := h.iid n (S := fun _ => Aᶜ) fun _ => hA.compl
      rw [Finset.prod_const, Finset.card_range] at this
      rw [← this]
      exact measure_mono fun g hg i _ => hg i
    exact le_antisymm (ge_of_tendsto' (ENNReal.tendsto_pow_atTop_nhds_zero_of_lt_one hlt) hle) bot_le
  have hall : ∀ m, ∀ᵐ g ∂μ, ¬ ∀ i, (f (after f i (after f m g))).1 ∈ Aᶜ := by
    intro m
    have : ∀ᵐ g ∂μ, ¬ ∀ i, (f (after f i g)).1 ∈ Aᶜ := by
      rw [ae_iff]
      simpa using hz
    exact (h.after_preserving m).quasiMeasurePreserving.ae this
  filter_upwards [ae_all_iff.mpr hall] with g hg
  rw [frequently_atTop]
  intro m
  obtain ⟨i, hi⟩ := not_forall.mp (hg m)
  refine ⟨m + i, by omega, ?_⟩
  rw [after_add]
  exact not_not.mp hi

/-- The probability that an integer draw lies in a given set and the state that is left in another. -/
theorem FairIntegers.measure {r : Rng G F} [SFinite μ] (h : FairIntegers r μ) {m : ℕ} (D : Finset ℕ) (hD : D ⊆ Finset.range (m + 1)) {S : Set G}
    (hS : MeasurableSet S) :
    MeasurableSet {g | (r.int 0 m g).1 ∈ D ∧ (r.int 0 m g).2 ∈ S} ∧
    ((m + 1 : ℕ) : ℝ≥0∞) * μ {g | (r.int 0 m g).1 ∈ D ∧ (r.int 0 m g).2 ∈ S} = D.card * μ S := by
  have hd := h.int 0 m (Nat.zero_le _)
  have hDm : MeasurableSet (D : Set ℕ) := D.measurableSet
  have e : {g | (r.int 0 m g).1 ∈ D ∧ (r.int 0 m g).2 ∈ S} = r.int 0 m ⁻¹' ((D : Set ℕ) ×ˢ S) := by
    ext g; simp
  rw [e]
  refine ⟨hd.measurable (hDm.prod hS), ?_⟩
  rw [hd.measure_preimage (hDm.prod hS).nullMeasurableSet, Measure.prod_prod, ← Finset.coe_Icc,
    ProbabilityTheory.uniformOn_apply_finset]
  have hi : Finset.Icc 0 m ∩ D = D := by
    refine Finset.inter_eq_right.mpr fun x hx => ?_
    have := Finset.mem_range.mp (hD hx)
    exact Finset.mem_Icc.mpr ⟨Nat.zero_le _, by omega⟩
  rw [hi, Nat.card_Icc, Nat.sub_zero, ← mul_assoc, ENNReal.mul_div_cancel]
  · exact_mod_cast Nat.succ_ne_zero m
  · exact ENNReal.natCast_ne_top _

end Spec

namespace Draw

/-- Selection sampling with fair draws takes every subset of the wanted size with the same probability, and leaves a fresh generator. -/
theorem select_law {r : Rng G F} [SFinite μ] (hr : r.IntLawful) (h : FairIntegers r μ) {S : Set G} (hS : MeasurableSet S) :
    ∀ (xs ys : List ℕ), xs.Nodup → ys.Sublist xs →
      MeasurableSet {g | ∃ g', select r xs ys.length g = .ok (ys, g') ∧ g' ∈ S} ∧
      ((xs.length.choose ys.length : ℕ) : ℝ≥0∞) * μ {g | ∃ g', select r xs ys.length g = .ok (ys, g') ∧ g' ∈ S} = μ S := by
  intro xs
  induction xs with
  | nil =>
    intro ys _ hs
    obtain rfl := List.sublist_nil.mp hs
    have e : {g | ∃ g', select r [] ([] : List ℕ).length g = .ok ([], g') ∧ g' ∈ S} = S := by
      ext g; simp [select]
    rw [e]
    simp [hS]
  | cons x xs ih =>
    intro ys hnd hs
    have hx : x ∉ xs := (List.nodup_cons.mp hnd).1
    have hnd' := (List.nodup_cons.mp hnd).2
    cases ys with
    | nil =>
      have e : {g | ∃ g', select r (x :: xs) ([] : List ℕ).length g = .ok ([], g') ∧ g' ∈ S} = S := by
        ext g; simp [select]
      rw [e]
      simp [hS]
    | cons y ys =>
      have hle : (y :: ys).length ≤ xs.length + 1 := by simpa using hs.length_le
      have hcancel : ((xs.length + 1 : ℕ) : ℝ≥0∞) ≠ 0 := by exact_mod_cast Nat.succ_ne_zero xs.length
      have hfin : ((xs.length + 1 : ℕ) : ℝ≥0∞) ≠ ⊤ := ENNReal.natCast_ne_top _
      have hsel : ∀ k g, select r (x :: xs) (k + 1) g = (if (r.int 0 xs.length g).1 < k + 1 then do
          let (zs, g') ← select r xs k (r.int 0 xs.length g).2
          .ok (x :: zs, g') else select r xs (k + 1) (r.int 0 xs.length g).2) := fun _ _ => rfl
      have hout : ∀ k g zs g', select r xs k g = .ok (zs, g') → ∀ z ∈ zs, z ∈ xs := by
        intro k g zs g'
        clear * -
        induction xs generalizing k g zs g' with
        | nil =>
          cases k with
          | zero => intro h; simp [select] at h; simp [h.1]
          | succ k => intro h; simp [select] at h
        | cons a xs ih =>
          cases k with
          | zero => intro h; simp [select] at h; simp [h.1]
          | succ k =>
            intro h z hz
            simp only [select] at h
            split at h
            · obtain ⟨⟨ws, g1⟩, h1, h2⟩ := Res.bind_eq_ok.mp h
              simp only [Except.ok.injEq, Prod.mk.injEq] at h2
              obtain ⟨rfl, -⟩ := h2
              rcases List.mem_cons.mp hz with rfl | hz
              · simp
              · exact List.mem_cons_of_mem _ (ih _ _ _ _ h1 z hz)
            · exact List.mem_cons_of_mem _ (ih _ _ _ _ h z hz)
      by_cases hyx : y = x
      · subst hyx
        have hs' : ys.Sublist xs := by
          cases hs with
          | cons _ h' => exact absurd (h'.subset (List.mem_cons_self)) hx
          | cons_cons _ h' => exact h'
        obtain ⟨im, iv⟩ := ih ys hnd' hs'
        have e : {g | ∃ g', select r (y :: xs) (y :: ys).length g = .ok (y :: ys, g') ∧ g' ∈ S} =
            {g | (r.int 0 xs.length g).1 ∈ Finset.range (ys.length + 1) ∧ (r.int 0 xs.length g).2 ∈
              {g | ∃ g', select r xs ys.length g = .ok (ys, g') ∧ g' ∈ S}} := by
          ext g
          simp only [Set.mem_ofPred_eq, List.length_cons, hsel, Finset.mem_range]
          split
          · rename_i hlt
            constructor
            · rintro ⟨g', h1, h2⟩
              obtain ⟨⟨ws, g1⟩, h3, h4⟩ := Res.bind_eq_ok.mp h1
              simp only [Except.ok.injEq, Prod.mk.injEq, List.cons.injEq, true_and] at h4
              obtain ⟨rfl, rfl⟩ := h4
              exact ⟨hlt, _, h3, h2⟩
            · rintro ⟨-, g', h1, h2⟩
              exact ⟨g', by rw [h1]; rfl, h2⟩
          · rename_i hlt
            constructor
            · rintro ⟨g', h1, h2⟩
              exact absurd (hout _ _ _ _ h1 y (by simp)) hx
            · rintro ⟨h1, -⟩
              exact absurd h1 hlt
        rw [e]
        obtain ⟨m1, m2⟩ := h.measure (m := xs.length) (Finset.range (ys.length + 1)) (by
          intro z hz
          simp only [Finset.mem_range] at hz ⊢
          simp only [List.length_cons] at hle
          omega) im
        refine ⟨m1, ?_⟩
        rw [Finset.card_range] at m2
        refine (ENNReal.mul_right_inj hcancel hfin).mp ?_
        rw [mul_left_comm, m2]
        simp only [List.length_cons]
        rw [← mul_assoc, ← Nat.cast_mul, Nat.mul_comm, mul_comm (ys.length + 1), ← Nat.add_one_mul_choose_eq, Nat.cast_mul, mul_assoc, iv]
      · have hs' : (y :: ys).Sublist xs := by
          cases hs with
          | cons _ h' => exact h'
          | cons_cons _ h' => exact absurd rfl hyx
        obtain ⟨im, iv⟩ := ih (y :: ys) hnd' hs'
        have hle' : ys.length + 1 ≤ xs.length := by simpa using hs'.length_le
        have e : {g | ∃ g', select r (x :: xs) (y :: ys).length g = .ok (y :: ys, g') ∧ g' ∈ S} =
            {g | (r.int 0 xs.length g).1 ∈ Finset.Ico (ys.length + 1) (xs.length + 1) ∧ (r.int 0 xs.length g).2 ∈
              {g | ∃ g', select r xs (y :: ys).length g = .ok (y :: ys, g') ∧ g' ∈ S}} := by
          ext g
          simp only [Set.mem_ofPred_eq, List.length_cons, hsel, Finset.mem_Ico]
          have hr : (r.int 0 xs.length g).1 < xs.length + 1 := Nat.lt_succ_of_le (hr.int_le _ _ _ (Nat.zero_le _))
          split
          · rename_i hlt
            constructor
            · rintro ⟨g', h1, h2⟩
              obtain ⟨⟨ws, g1⟩, h3, h4⟩ := Res.bind_eq_ok.mp h1
              simp only [Except.ok.injEq, Prod.mk.injEq, List.cons.injEq] at h4
              exact absurd h4.1.1.symm hyx
            · rintro ⟨⟨h1, -⟩, -⟩
              omega
          · rename_i hlt
            constructor
            · intro h1
              exact ⟨⟨by omega, hr⟩, h1⟩
            · rintro ⟨-, h1⟩
              exact h1
        rw [e]
        obtain ⟨m1, m2⟩ := h.measure (m := xs.length) (Finset.Ico (ys.length + 1) (xs.length + 1)) (by
          intro z hz
          simp only [Finset.mem_range, Finset.mem_Ico] at hz ⊢
          omega) im
        refine ⟨m1, ?_⟩
        rw [Nat.card_Ico] at m2
        refine (ENNReal.mul_right_inj hcancel hfin).mp ?_
        rw [mul_left_comm, m2]
        simp only [List.length_cons] at iv ⊢
        rw [← mul_assoc, ← Nat.cast_mul, ← Nat.choose_mul_succ_eq, Nat.mul_comm, Nat.cast_mul, mul_assoc, iv]

end Draw

/-! ## a generator with these laws -/

/-- The integer obtained from a uniform number by scaling and rounding down. -/
noncomputable def scaled (a b : Nat) (u : ℝ) : Nat := a + min (b - a) ⌊u * ((b - a : Nat) + 1)⌋₊

theorem scaled_measurable (a b : Nat) : Measurable (scaled a b) := by
  unfold scaled
  exact (measurable_from_top (f := fun k : ℕ => a + min (b - a) k)).comp (Nat.measurable_floor.comp (measurable_id.mul_const _))

theorem scaled_law {a b : Nat} (hab : a ≤ b) : uniform.map (scaled a b) = ProbabilityTheory.uniformOn (Set.Icc a b) := by
  refine Measure.ext_of_singleton fun d => ?_
  rw [Measure.map_apply (scaled_measurable a b) (measurableSet_singleton d), ← Finset.coe_Icc, ← Finset.coe_singleton, ProbabilityTheory.uniformOn_apply_finset]
  obtain ⟨m, rfl⟩ := Nat.exists_eq_add_of_le hab
  have hm : (0 : ℝ) < (m : ℝ) + 1 := by positivity
  have hcard : (Finset.Icc a (a + m)).card = m + 1 := by rw [Nat.card_Icc]; omega
  rw [hcard]
  have hfloor : ∀ u ∈ Set.Ioo (0 : ℝ) 1, ⌊u * ((m : ℝ) + 1)⌋₊ ≤ m := by
    intro u hu
    have : ⌊u * ((m : ℝ) + 1)⌋₊ < m + 1 := by
      rw [Nat.floor_lt (mul_nonneg hu.1.le hm.le)]
      push_cast
      nlinarith [hu.2]
    omega
  by_cases hd : a ≤ d ∧ d ≤ a + m
  · obtain ⟨k, rfl⟩ := Nat.exists_eq_add_of_le hd.1
    have hk : k ≤ m := by omega
    have e : uniform (scaled a (a + m) ⁻¹' ({a + k} : Finset ℕ)) = volume (Set.Ioo ((k : ℝ) / (m + 1)) ((k + 1) / (m + 1))) := by
      have : uniform (scaled a (a + m) ⁻¹' ({a + k} : Finset ℕ)) = volume (Set.Ioo (0 : ℝ) 1 ∩ Set.Ico ((k : ℝ) / (m + 1)) ((k + 1) / (m + 1))) := by
        rw [uniform, Measure.restrict_apply (scaled_measurable _ _ (Finset.measurableSet _))]
        congr 1
        ext u
        simp only [Set.mem_inter_iff, Set.mem_preimage, Finset.coe_singleton, Set.mem_singleton_iff, and_comm (b := u ∈ Set.Ioo (0 : ℝ) 1)]
        refine and_congr_right fun hu => ?_
        have h1 := hfloor u hu
        unfold scaled
        rw [Nat.add_sub_cancel_left, min_eq_right h1, Nat.add_left_cancel_iff, Nat.floor_eq_iff (mul_nonneg hu.1.le hm.le), Set.mem_Ico, div_le_iff₀ hm, lt_div_iff₀ hm]
      rw [this]
      refine le_antisymm ?_ ?_
      · rw [Real.volume_Ioo, ← Real.volume_Ico]
        exact measure_mono Set.inter_subset_right
      · refine measure_mono fun u hu => ⟨⟨lt_of_le_of_lt (by positivity) hu.1, lt_of_lt_of_le hu.2 ?_⟩, hu.1.le, hu.2⟩
        rw [div_le_one hm]
        have : (k : ℝ) ≤ m := by exact_mod_cast hk
        linarith
    have hi : (Finset.Icc a (a + m) ∩ {a + k}).card = 1 := by
      rw [Finset.inter_singleton_of_mem (Finset.mem_Icc.mpr hd), Finset.card_singleton]
    rw [e, hi, Real.volume_Ioo, ← sub_div, add_sub_cancel_left, ENNReal.ofReal_div_of_pos hm]
    norm_num
    rw [show ((m : ℝ) + 1) = ((m + 1 : ℕ) : ℝ) by push_cast; rfl, ENNReal.ofReal_natCast]
    push_cast; rfl
  · have hi : (Finset.Icc a (a + m) ∩ {d}).card = 0 := by
      rw [Finset.inter_singleton_of_notMem (fun hc => hd (Finset.mem_Icc.mp hc)), Finset.card_empty]
    rw [hi]
    have e : scaled a (a + m) ⁻¹' ({d} : Finset ℕ) = ∅ := by
      ext u
      simp only [Set.mem_preimage, Finset.coe_singleton, Set.mem_singleton_iff, Set.mem_empty_iff_false, iff_false]
      rintro rfl
      refine hd ⟨by unfold scaled; omega, ?_⟩
      unfold scaled
      have := min_le_left (a + m - a) ⌊u * ((a + m - a : Nat) + 1)⌋₊
      omega
    rw [e]
    simp

/-- A generator that reads independent uniform numbers from a tape and scales them to integers. -/
noncomputable def fairRng : Rng (ℕ → ℝ) ℝ where
  unit g := (g 0, fun n => g (n + 1))
  int a b g := (scaled a b (g 0), fun n => g (n + 1))
  normal g := (g 0, fun n => g (n + 1))

theorem fairRng_lawful : fairRng.IntLawful where
  int_ge a b g _ := by show a ≤ scaled a b (g 0); unfold scaled; omega
  int_le a b g h := by
    show scaled a b (g 0) ≤ b
    unfold scaled
    have := min_le_left (b - a) ⌊g 0 * ((b - a : Nat) + 1)⌋₊
    omega

theorem fairRng_fair : FairIntegers fairRng tapes where
  int a b h := by
    have h1 : Draws readTape uniform tapes := readTape_preserving uniform
    have := h1.map (scaled_measurable a b)
    rwa [scaled_law h] at this

end Seldon
