import Verif.Spec.ContactLaw
import Verif.Props.Weighted
import Verif.Props.Activity
/-!
# Helper lemmas: the law of the contacts and of the reciprocated contacts
-/
namespace Seldon
open Spec MeasureTheory
open scoped ENNReal
variable {A G : Type}

theorem clip_nonneg (x : ℝ) : 0 ≤ clip x := le_max_left _ _
theorem clip_le_one (x : ℝ) : clip x ≤ 1 := max_le zero_le_one (min_le_left _ _)

/-- A uniform number is below `x` with probability `clip x`. -/
theorem uniform_lt (x : ℝ) : uniform {v | v < x} = ENNReal.ofReal (clip x) := by
  have hm : MeasurableSet {v : ℝ | v < x} := measurableSet_Iio
  unfold uniform
  rw [Measure.restrict_apply hm]
  have : {v : ℝ | v < x} ∩ Set.Ioo 0 1 = Set.Ioo 0 (min 1 x) := by
    ext v
    simp only [Set.mem_inter_iff, Set.mem_ofPred_eq, Set.mem_Ioo, lt_min_iff]
    tauto
  rw [this, Real.volume_Ioo, sub_zero]
  unfold clip
  rcases le_total (min 1 x) 0 with h | h
  · rw [max_eq_left h, ENNReal.ofReal_of_nonpos h, ENNReal.ofReal_zero]
  · rw [max_eq_right h]

theorem uniform_not_lt (x : ℝ) : uniform {v | ¬ v < x} = ENNReal.ofReal (1 - clip x) := by
  have hm : MeasurableSet {v : ℝ | v < x} := measurableSet_Iio
  have : {v : ℝ | ¬ v < x} = {v | v < x}ᶜ := rfl
  rw [this, prob_compl_eq_one_sub hm, uniform_lt, ENNReal.ofReal_sub _ (clip_nonneg x), ENNReal.ofReal_one]

section
variable [MeasurableSpace G] {μ : Measure G} [IsProbabilityMeasure μ] {r : Rng G XR}

/-- One number is drawn and compared with `x`. -/
theorem draw_lt {u : G → ℝ × G} (hu : MeasurePreserving u μ (uniform.prod μ)) (hr : ∀ g, r.unit g = (XR.fin (u g).1, (u g).2)) (x : ℝ) {T : Set G}
    (hT : MeasurableSet T) : MeasurableSet {g | (r.unit g).1 < XR.fin x ∧ (r.unit g).2 ∈ T} ∧
      μ {g | (r.unit g).1 < XR.fin x ∧ (r.unit g).2 ∈ T} = ENNReal.ofReal (clip x) * μ T := by
  have hm : MeasurableSet {v : ℝ | v < x} := measurableSet_Iio
  have e : {g | (r.unit g).1 < XR.fin x ∧ (r.unit g).2 ∈ T} = u ⁻¹' ({v | v < x} ×ˢ T) := by
    ext g; simp only [hr, XR.lt_fin]; rfl
  rw [e]
  exact ⟨hu.measurable (hm.prod hT), by rw [hu.measure_preimage (hm.prod hT).nullMeasurableSet, Measure.prod_prod, uniform_lt]⟩

theorem draw_not_lt {u : G → ℝ × G} (hu : MeasurePreserving u μ (uniform.prod μ)) (hr : ∀ g, r.unit g = (XR.fin (u g).1, (u g).2)) (x : ℝ) {T : Set G}
    (hT : MeasurableSet T) : MeasurableSet {g | ¬ (r.unit g).1 < XR.fin x ∧ (r.unit g).2 ∈ T} ∧
      μ {g | ¬ (r.unit g).1 < XR.fin x ∧ (r.unit g).2 ∈ T} = ENNReal.ofReal (1 - clip x) * μ T := by
  have hm : MeasurableSet {v : ℝ | ¬ v < x} := measurableSet_Iio.compl
  have e : {g | ¬ (r.unit g).1 < XR.fin x ∧ (r.unit g).2 ∈ T} = u ⁻¹' ({v | ¬ v < x} ×ˢ T) := by
    ext g; simp only [hr, XR.lt_fin]; rfl
  rw [e]
  exact ⟨hu.measurable (hm.prod hT), by rw [hu.measure_preimage (hm.prod hT).nullMeasurableSet, Measure.prod_prod, uniform_not_lt]⟩

/-! ## reciprocated contacts -/

theorem keepLaw_nonneg (q : ℝ) (l kept : List (ℕ × ℕ)) : 0 ≤ keepLaw q l kept := by
  unfold keepLaw
  refine List.prod_nonneg fun y hy => ?_
  obtain ⟨e, -, rfl⟩ := List.mem_map.mp hy
  split
  · exact clip_nonneg q
  · linarith [clip_le_one q]

theorem keepLaw_congr {q : ℝ} {l k k' : List (ℕ × ℕ)} (h : ∀ e ∈ l, e ∈ k ↔ e ∈ k') : keepLaw q l k = keepLaw q l k' := by
  unfold keepLaw
  congr 1
  exact List.map_congr_left fun e he => by simp only [h e he]

/-- The law of the pairs that are kept. -/
theorem keep_law (hr : DrawsUniform r μ) (q : ℝ) {l kept : List (ℕ × ℕ)} (hl : l.Nodup) (hk : kept.Sublist l) {T : Set G} (hT : MeasurableSet T) :
    MeasurableSet {g | (keep r (XR.fin q) l g).1 = kept ∧ (keep r (XR.fin q) l g).2 ∈ T} ∧
      μ {g | (keep r (XR.fin q) l g).1 = kept ∧ (keep r (XR.fin q) l g).2 ∈ T} = ENNReal.ofReal (keepLaw q l kept) * μ T := by
  obtain ⟨u, hu, hru⟩ := hr
  induction hk with
  | slnil => simpa [keep, keepLaw] using hT
  | @cons kept l e hk ih =>
    obtain ⟨h1, h2⟩ := List.nodup_cons.mp hl
    obtain ⟨i1, i2⟩ := ih h2
    have hek : e ∉ kept := fun h => h1 (hk.subset h)
    have hset : {g | (keep r (XR.fin q) (e :: l) g).1 = kept ∧ (keep r (XR.fin q) (e :: l) g).2 ∈ T} =
        {g | ¬ (r.unit g).1 < XR.fin q ∧ (r.unit g).2 ∈ {g | (keep r (XR.fin q) l g).1 = kept ∧ (keep r (XR.fin q) l g).2 ∈ T}} := by
      ext g
      simp only [keep, Set.mem_ofPred_eq]
      by_cases h : (r.unit g).1 < XR.fin q
      · simp only [h, if_true, not_true_eq_false, false_and, iff_false]
        rintro ⟨h3, -⟩
        exact hek (h3 ▸ List.mem_cons_self)
      · simp only [h, if_false, not_false_eq_true, true_and]
    rw [hset]
    obtain ⟨j1, j2⟩ := draw_not_lt hu hru q i1
    refine ⟨j1, ?_⟩
    rw [j2, i2, ← mul_assoc, ← ENNReal.ofReal_mul (by linarith [clip_le_one q])]
    congr 2
    simp [keepLaw, hek]
  | @cons_cons kept l e hk ih =>
    obtain ⟨h1, h2⟩ := List.nodup_cons.mp hl
    obtain ⟨i1, i2⟩ := ih h2
    have hset : {g | (keep r (XR.fin q) (e :: l) g).1 = e :: kept ∧ (keep r (XR.fin q) (e :: l) g).2 ∈ T} =
        {g | (r.unit g).1 < XR.fin q ∧ (r.unit g).2 ∈ {g | (keep r (XR.fin q) l g).1 = kept ∧ (keep r (XR.fin q) l g).2 ∈ T}} := by
      ext g
      simp only [keep, Set.mem_ofPred_eq]
      by_cases h : (r.unit g).1 < XR.fin q
      · simp only [h, if_true, true_and, List.cons.injEq]
      · simp only [h, if_false, false_and, iff_false]
        rintro ⟨h3, -⟩
        have : e ∈ (keep r (XR.fin q) l (r.unit g).2).1 := h3 ▸ List.mem_cons_self
        exact h1 ((Activity.keep_sublist r (XR.fin q) l _).subset this)
    rw [hset]
    obtain ⟨j1, j2⟩ := draw_lt hu hru q i1
    refine ⟨j1, ?_⟩
    rw [j2, i2, ← mul_assoc, ← ENNReal.ofReal_mul (clip_nonneg q), keepLaw_congr (k := kept) (k' := e :: kept) (l := l)]
    · congr 2
      simp [keepLaw]
    · intro d hd
      rw [List.mem_cons, or_iff_right]
      rintro rfl
      exact h1 hd

end

/-! ## weights -/

section
variable [ActiveAgent A XR] {p : ActivitySettings XR} {agents : List A} {x a h : ℕ → ℝ} {q : ℝ}

theorem Spec.Numbers.weight (hn : Numbers p agents x a h q) {o : MathOps XR} (ho : o.toOps = XR.ops) {i j : ℕ} (hi : i < agents.length) (hj : j < agents.length) :
    Activity.weight o (homophilyFor p i) agents i j = XR.fin (contactWeight (h i) x i j) := by
  rw [C43_weights o _ agents i j hi hj, hn.homophily i hi, hn.opinion i hi, hn.opinion j hj]
  unfold contactWeight
  split
  · rfl
  · have e1 : (1 : XR) / ((10 ^ 10 : ℕ) : XR) = XR.fin (1 / 10 ^ 10) := by
      rw [XR.one_def, XR.natCast_def, XR.div_fin _ _ (by positivity)]
      norm_num
    have e2 : ∀ y : ℝ, cabs (XR.fin y) = XR.fin |y| := by
      intro y
      unfold cabs
      rw [XR.zero_def]
      by_cases hy : y < 0
      · rw [if_pos ((XR.lt_fin _ _).mpr hy), XR.neg_fin, abs_of_neg hy]
      · rw [if_neg (fun h => hy ((XR.lt_fin _ _).mp h)), abs_of_nonneg (not_lt.mp hy)]
    have e3 : ∀ y z : ℝ, cmax (XR.fin y) (XR.fin z) = XR.fin (max y z) := by
      intro y z
      unfold cmax
      by_cases hy : y < z
      · rw [if_pos ((XR.lt_fin _ _).mpr hy), max_eq_right hy.le]
      · rw [if_neg (fun h => hy ((XR.lt_fin _ _).mp h)), max_eq_left (not_lt.mp hy)]
    rw [XR.sub_fin, e2, e1, e3, XR.neg_fin]
    have hpos : 0 < max (1 / 10 ^ 10) |x i - x j| := lt_max_of_lt_left (by positivity)
    have e4 : o.pow = XR.ops.pow := by rw [ho]
    rw [e4]
    generalize max (1 / 10 ^ 10) |x i - x j| = c at hpos
    simp [XR.ops, XR.pow, hpos.ne', hpos]

theorem contactWeight_pos {h : ℝ} {x : ℕ → ℝ} {i j : ℕ} (hij : j ≠ i) : 0 < contactWeight h x i j := by
  unfold contactWeight
  rw [if_neg hij]
  exact Real.rpow_pos_of_pos (lt_max_of_lt_left (by positivity)) _

theorem contactWeight_self {h : ℝ} {x : ℕ → ℝ} {i : ℕ} : contactWeight h x i i = 0 := by simp [contactWeight]

theorem contactWeight_nonneg {h : ℝ} {x : ℕ → ℝ} {i j : ℕ} : 0 ≤ contactWeight h x i j := by
  by_cases hij : j = i
  · subst hij; rw [contactWeight_self]
  · exact (contactWeight_pos hij).le

end
end Seldon
