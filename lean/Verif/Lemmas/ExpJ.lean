import Verif.Lemmas.Keys
import Mathlib.MeasureTheory.Function.JacobianOneDim
/-!
# Helper lemmas: exponential jumps

The reservoir with jumps, as a process on item lists `l` and on one number per item (`v i` is the number drawn for item `i`, its key is
`v i ^ (1 / w i)`).  The process gives up when two keys are equal; this has probability 0.
-/
namespace Seldon.ExpJ
open Seldon Spec MeasureTheory Keys
open scoped ENNReal
variable {G : Type}

/-- Item `m` has the strictly smallest key in `l`. -/
def Least (w v : ℕ → ℝ) (l : List ℕ) (m : ℕ) : Prop := m ∈ l ∧ ∀ j ∈ l, j ≠ m → key (w m) (v m) < key (w j) (v j)

/-- From item `i` on, with `r` items left, the process ends with the items of `b`, in increasing order of their keys, and with a
state of the generator in `T`. -/
def Hit (w : ℕ → ℝ) (u : G → ℝ × G) (T : Set G) (b : List ℕ) : ℕ → ℕ → List ℕ → (ℕ → ℝ) → ℝ → G → Prop
  | 0, _, l, v, _, g => (b.Perm l ∧ b.Pairwise (fun a c => key (w a) (v a) < key (w c) (v c))) ∧ g ∈ T
  | r + 1, i, l, v, X, g =>
    (X ≤ w i ∧ 0 < w i ∧ (u g).1 ∈ Set.Ioo (0 : ℝ) 1 ∧ (u (u g).2).1 ∈ Set.Ioo (0 : ℝ) 1 ∧
      ∃ m ∈ l, Least w v l m ∧ ∃ m' ∈ l.erase m ++ [i],
        Least w (Function.update v i ((u g).1 * (1 - key (w m) (v m) ^ w i) + key (w m) (v m) ^ w i)) (l.erase m ++ [i]) m' ∧
        Hit w u T b r (i + 1) (l.erase m ++ [i])
          (Function.update v i ((u g).1 * (1 - key (w m) (v m) ^ w i) + key (w m) (v m) ^ w i))
          (Real.log (u (u g).2).1 / Real.log (key (w m')
            (Function.update v i ((u g).1 * (1 - key (w m) (v m) ^ w i) + key (w m) (v m) ^ w i) m')))
          (u (u g).2).2) ∨
    (w i < X ∧ Hit w u T b r (i + 1) l v (X - w i) g)

theorem Least_congr {w v v' : ℕ → ℝ} {l : List ℕ} {m : ℕ} (h : ∀ j ∈ l, v j = v' j) : Least w v l m ↔ Least w v' l m := by
  unfold Least
  refine and_congr_right fun hm => forall₂_congr fun j hj => ?_
  rw [h m hm, h j hj]

theorem Least_unique {w v : ℕ → ℝ} {l : List ℕ} {m m' : ℕ} (h : Least w v l m) (h' : Least w v l m') : m = m' := by
  by_contra hne
  exact absurd (h.2 m' h'.1 (Ne.symm hne)) (not_lt.mpr (h'.2 m h.1 hne).le)

theorem Hit_congr {w : ℕ → ℝ} {u : G → ℝ × G} {T : Set G} {b : List ℕ} {r i : ℕ} {l : List ℕ} {v v' : ℕ → ℝ} {X : ℝ} {g : G} (h : ∀ j ∈ l, v j = v' j) :
    Hit w u T b r i l v X g → Hit w u T b r i l v' X g := by
  induction r generalizing i l v v' X g with
  | zero =>
    rintro ⟨⟨h1, h2⟩, hT⟩
    refine ⟨⟨h1, h2.imp_of_mem fun {a c} ha hc hac => ?_⟩, hT⟩
    rw [← h a (h1.mem_iff.mp ha), ← h c (h1.mem_iff.mp hc)]
    exact hac
  | succ r ih =>
    rintro (⟨h1, h2, h3, h4, m, hm, hl, m', hm', hl', hit⟩ | ⟨h1, hit⟩)
    · refine Or.inl ⟨h1, h2, h3, h4, m, hm, (Least_congr h).mp hl, m', hm', ?_⟩
      rw [← h m hm]
      have hh : ∀ x, ∀ j ∈ l.erase m ++ [i], Function.update v i x j = Function.update v' i x j := by
        intro x j hj
        by_cases hji : j = i
        · subst hji; simp
        · rw [Function.update_of_ne hji, Function.update_of_ne hji]
          rcases List.mem_append.mp hj with hj | hj
          · exact h j (List.mem_of_mem_erase hj)
          · exact absurd (List.mem_singleton.mp hj) hji
      refine ⟨(Least_congr (hh _)).mp hl', ?_⟩
      have := ih (hh _) hit
      rw [hh _ m' hm'] at this
      exact this
    · exact Or.inr ⟨h1, ih h hit⟩

section
variable {α : Type} [MeasurableSpace α]

theorem key_comp_measurable (w : ℕ → ℝ) {v : α → ℕ → ℝ} (hv : Measurable v) (j : ℕ) : Measurable fun p => key (w j) (v p j) :=
  (key_measurable _).comp ((measurable_pi_apply j).comp hv)

theorem Least_measurable (w : ℕ → ℝ) (l : List ℕ) (m : ℕ) {v : α → ℕ → ℝ} (hv : Measurable v) : MeasurableSet {p | Least w (v p) l m} := by
  have : {p | Least w (v p) l m} = {p | m ∈ l} ∩ ⋂ j ∈ l.toFinset, {p | j ≠ m → key (w m) (v p m) < key (w j) (v p j)} := by
    ext p; simp [Least]
  rw [this]
  refine (MeasurableSet.const _).inter (l.toFinset.measurableSet_biInter fun j _ => ?_)
  by_cases hjm : j = m
  · simp [hjm]
  · simp only [hjm, ne_eq, not_false_eq_true, forall_true_left]
    exact measurableSet_lt (key_comp_measurable w hv m) (key_comp_measurable w hv j)

theorem update_measurable {v : α → ℕ → ℝ} (hv : Measurable v) (i : ℕ) {x : α → ℝ} (hx : Measurable x) :
    Measurable fun p => Function.update (v p) i (x p) := by
  refine measurable_pi_lambda _ fun j => ?_
  by_cases hj : j = i
  · subst hj; simpa using hx
  · simp only [Function.update_of_ne hj]; exact (measurable_pi_apply j).comp hv

theorem pairwise_measurable (w : ℕ → ℝ) (b : List ℕ) {v : α → ℕ → ℝ} (hv : Measurable v) :
    MeasurableSet {p | b.Pairwise (fun a c => key (w a) (v p a) < key (w c) (v p c))} := by
  induction b with
  | nil => simp
  | cons a b ih =>
    have : {p | (a :: b).Pairwise (fun a c => key (w a) (v p a) < key (w c) (v p c))} =
        (⋂ c ∈ b.toFinset, {p | key (w a) (v p a) < key (w c) (v p c)}) ∩ {p | b.Pairwise (fun a c => key (w a) (v p a) < key (w c) (v p c))} := by
      ext p; simp [List.pairwise_cons]
    rw [this]
    exact (b.toFinset.measurableSet_biInter fun c _ => measurableSet_lt (key_comp_measurable w hv a) (key_comp_measurable w hv c)).inter ih

theorem exists_measurable (l : List ℕ) {P : ℕ → α → Prop} (h : ∀ m, MeasurableSet {p | P m p}) : MeasurableSet {p | ∃ m ∈ l, P m p} := by
  have : {p | ∃ m ∈ l, P m p} = ⋃ m ∈ l.toFinset, {p | P m p} := by ext p; simp
  rw [this]
  exact l.toFinset.measurableSet_biUnion fun m _ => h m

theorem Hit_measurable [MeasurableSpace G] (w : ℕ → ℝ) {u : G → ℝ × G} (hu : Measurable u) {T : Set G} (hT : MeasurableSet T) (b : List ℕ) (r i : ℕ) (l : List ℕ) {v : α → ℕ → ℝ}
    (hv : Measurable v) {X : α → ℝ} (hX : Measurable X) {g : α → G} (hg : Measurable g) :
    MeasurableSet {p | Hit w u T b r i l (v p) (X p) (g p)} := by
  induction r generalizing i l v X g with
  | zero => exact ((MeasurableSet.const _).inter (pairwise_measurable w b hv)).inter (hg hT)
  | succ r ih =>
    have h1 : Measurable fun p => u (g p) := hu.comp hg
    have h2 : Measurable fun p => u (u (g p)).2 := hu.comp h1.snd
    have hx : ∀ m, Measurable fun p => (u (g p)).1 * (1 - key (w m) (v p m) ^ w i) + key (w m) (v p m) ^ w i := fun m =>
      (h1.fst.mul (measurable_const.sub ((key_comp_measurable w hv m).pow_const _))).add ((key_comp_measurable w hv m).pow_const _)
    have hv' : ∀ m, Measurable fun p => Function.update (v p) i ((u (g p)).1 * (1 - key (w m) (v p m) ^ w i) + key (w m) (v p m) ^ w i) :=
      fun m => update_measurable hv i (hx m)
    refine MeasurableSet.union ?_ ((measurableSet_lt measurable_const hX).inter (ih (i + 1) l hv (hX.sub measurable_const) hg))
    refine (measurableSet_le hX measurable_const).inter ((MeasurableSet.const _).inter ((h1.fst measurableSet_Ioo).inter
      ((h2.fst measurableSet_Ioo).inter ?_)))
    refine exists_measurable l fun m => (Least_measurable w l m hv).inter ?_
    refine exists_measurable _ fun m' => (Least_measurable w _ m' (hv' m)).inter ?_
    exact ih (i + 1) _ (hv' m) ((Real.measurable_log.comp h2.fst).div (Real.measurable_log.comp (key_comp_measurable w (hv' m) m'))) h2.snd

end

/-- The probability to end with `b`, when a new jump is about to be drawn and `m` is the smallest item. -/
noncomputable def prob [MeasurableSpace G] (w : ℕ → ℝ) (u : G → ℝ × G) (μ : Measure G) (T : Set G) (b : List ℕ) (r i : ℕ) (l : List ℕ) (v : ℕ → ℝ) (m : ℕ) : ℝ≥0∞ :=
  (uniform.prod μ) {p | Hit w u T b r i l v (Real.log p.1 / Real.log (key (w m) (v m))) p.2}

theorem prob_congr [MeasurableSpace G] {w : ℕ → ℝ} {u : G → ℝ × G} {μ : Measure G} {T : Set G} {b : List ℕ} {r i : ℕ} {l : List ℕ} {v v' : ℕ → ℝ} {m : ℕ}
    (hm : m ∈ l) (h : ∀ j ∈ l, v j = v' j) : prob w u μ T b r i l v m ≤ prob w u μ T b r i l v' m := by
  unfold prob
  refine measure_mono fun p hp => ?_
  show Hit w u T b r i l v' _ _
  rw [← h m hm]
  exact Hit_congr h hp

/-- Substitution in an integral over an interval. -/
theorem affine_integral {c : ℝ} (hc : 0 < c) (d : ℝ) (f : ℝ → ℝ≥0∞) :
    ∫⁻ x in Set.Ioo d (c + d), f x = ENNReal.ofReal c * ∫⁻ x, f (x * c + d) ∂uniform := by
  have himg : (fun x : ℝ => x * c + d) '' Set.Ioo 0 1 = Set.Ioo d (c + d) := by
    ext y
    constructor
    · rintro ⟨x, hx, rfl⟩
      simp only [Set.mem_Ioo] at hx ⊢
      constructor <;> nlinarith [mul_pos hx.1 hc, mul_pos (sub_pos.mpr hx.2) hc]
    · rintro ⟨h1, h2⟩
      refine ⟨(y - d) / c, ⟨div_pos (by linarith) hc, by rw [div_lt_one hc]; linarith⟩, ?_⟩
      field_simp; ring
  rw [← himg, lintegral_image_eq_lintegral_abs_deriv_mul measurableSet_Ioo (f' := fun _ => c)]
  · unfold uniform
    rw [lintegral_const_mul' _ _ ENNReal.ofReal_ne_top, abs_of_pos hc]
  · intro x _
    have : HasDerivAt (fun x : ℝ => x * c + d) (1 * c) x := ((hasDerivAt_id x).mul_const c).add_const d
    rw [one_mul] at this
    exact this.hasDerivWithinAt
  · intro x _ y _ h
    simp only at h
    exact mul_right_cancel₀ hc.ne' (by linarith)

/-- Scaling an integral over an interval. -/
theorem scale_integral {t : ℝ} (ht : 0 < t) (ht1 : t ≤ 1) (f : ℝ → ℝ≥0∞) :
    ENNReal.ofReal t * ∫⁻ x, f x ∂uniform = ∫⁻ x in Set.Ioo 0 t, f (x / t) ∂uniform := by
  have h : (uniform).restrict (Set.Ioo 0 t) = volume.restrict (Set.Ioo 0 t) := by
    unfold uniform
    rw [Measure.restrict_restrict measurableSet_Ioo, Set.inter_eq_self_of_subset_left (Set.Ioo_subset_Ioo_right ht1)]
  rw [h]
  have := affine_integral ht 0 (fun x => f (x / t))
  rw [add_zero] at this
  rw [this]
  congr 1
  refine lintegral_congr fun x => ?_
  rw [add_zero, mul_div_assoc, div_self ht.ne', mul_one]

theorem shift_integral {t : ℝ} (ht : 0 ≤ t) (ht1 : t < 1) (f : ℝ → ℝ≥0∞) :
    ENNReal.ofReal (1 - t) * ∫⁻ x, f (x * (1 - t) + t) ∂uniform = ∫⁻ x in Set.Ioo t 1, f x ∂uniform := by
  have h : (uniform).restrict (Set.Ioo t 1) = volume.restrict (Set.Ioo t 1) := by
    unfold uniform
    rw [Measure.restrict_restrict measurableSet_Ioo, Set.inter_eq_self_of_subset_left (Set.Ioo_subset_Ioo_left ht)]
  rw [h]
  have := affine_integral (sub_pos.mpr ht1) t f
  rw [sub_add_cancel] at this
  exact this.symm

theorem uniform_Ioo' {t : ℝ} (ht : 0 ≤ t) : uniform (Set.Ioo t 1) = ENNReal.ofReal (1 - t) := by
  unfold uniform
  rw [Measure.restrict_apply measurableSet_Ioo, Set.inter_eq_self_of_subset_left (Set.Ioo_subset_Ioo_left ht), Real.volume_Ioo]

/-- Two parts of the unit interval. -/
theorem split_le {t : ℝ} (f : ℝ → ℝ≥0∞) :
    (∫⁻ x in Set.Ioo 0 t, f x ∂uniform) + ∫⁻ x in Set.Ioo t 1, f x ∂uniform ≤ ∫⁻ x, f x ∂uniform := by
  rw [← lintegral_union measurableSet_Ioo]
  · exact setLIntegral_le_lintegral _ _
  · exact Set.disjoint_left.mpr fun x h1 h2 => absurd h1.2 (not_lt.mpr h2.1.le)

theorem le_split {t : ℝ} (f : ℝ → ℝ≥0∞) :
    ∫⁻ x, f x ∂uniform ≤ (∫⁻ x in Set.Ioo 0 t, f x ∂uniform) + ∫⁻ x in Set.Ioo t 1, f x ∂uniform := by
  have h0 : uniform ({t} : Set ℝ) = 0 := by
    unfold uniform
    exact le_antisymm ((Measure.restrict_apply_le _ _).trans (by simp)) (by simp)
  have hsub : Set.Ioo (0 : ℝ) 1 ⊆ (Set.Ioo 0 t ∪ Set.Ioo t 1) ∪ {t} := by
    intro x hx
    rcases lt_trichotomy x t with h | h | h
    · exact Or.inl (Or.inl ⟨hx.1, h⟩)
    · exact Or.inr h
    · exact Or.inl (Or.inr ⟨h, hx.2⟩)
  have e : ∫⁻ x, f x ∂uniform = ∫⁻ x in Set.Ioo 0 1, f x ∂uniform := by
    unfold uniform
    rw [Measure.restrict_restrict measurableSet_Ioo, Set.inter_self]
  rw [e]
  calc ∫⁻ x in Set.Ioo 0 1, f x ∂uniform ≤ ∫⁻ x in (Set.Ioo 0 t ∪ Set.Ioo t 1) ∪ {t}, f x ∂uniform := lintegral_mono_set hsub
    _ ≤ (∫⁻ x in Set.Ioo 0 t ∪ Set.Ioo t 1, f x ∂uniform) + ∫⁻ x in {t}, f x ∂uniform := lintegral_union_le _ _ _
    _ = ∫⁻ x in Set.Ioo 0 t ∪ Set.Ioo t 1, f x ∂uniform := by rw [setLIntegral_measure_zero _ _ h0, add_zero]
    _ ≤ _ := lintegral_union_le _ _ _

section
variable [MeasurableSpace G] {w : ℕ → ℝ} {u : G → ℝ × G} {μ : Measure G} [IsProbabilityMeasure μ] {T : Set G} {b : List ℕ} {r i m : ℕ} {l : List ℕ} {v : ℕ → ℝ}

theorem prob_eq (hu : Measurable u) (hT : MeasurableSet T) : prob w u μ T b r i l v m =
    ∫⁻ x, μ {g | Hit w u T b r i l v (Real.log x / Real.log (key (w m) (v m))) g} ∂uniform := by
  unfold prob
  rw [Measure.prod_apply]
  · rfl
  · exact Hit_measurable w hu hT b r i l measurable_const ((Real.measurable_log.comp measurable_fst).div measurable_const) measurable_snd

/-- What happens at one item: it is skipped with the probability that its key would be less than the smallest key, and otherwise takes the place of
the smallest item with the key it has then. -/
theorem prob_step (hu : MeasurePreserving u μ (uniform.prod μ)) (hT : MeasurableSet T) (hm : Least w v l m) (hk0 : 0 ≤ key (w m) (v m)) (hk1 : key (w m) (v m) < 1)
    (hwi : 0 ≤ w i) (hz : key (w m) (v m) = 0 → 0 < w i) {D : ℝ → ℝ≥0∞}
    (hD : ∀ᵐ z ∂uniform, z ∈ Set.Ioo (key (w m) (v m) ^ w i) 1 → ∃ m' ∈ l.erase m ++ [i], Least w (Function.update v i z) (l.erase m ++ [i]) m' ∧
      D z ≤ prob w u μ T b r (i + 1) (l.erase m ++ [i]) (Function.update v i z) m') :
    ENNReal.ofReal (key (w m) (v m) ^ w i) * prob w u μ T b r (i + 1) l v m + ∫⁻ z in Set.Ioo (key (w m) (v m) ^ w i) 1, D z ∂uniform ≤
      prob w u μ T b (r + 1) i l v m := by
  set κ := key (w m) (v m) with hκ
  set t := κ ^ w i with ht
  have ht0 : 0 ≤ t := Real.rpow_nonneg hk0 _
  have ht1 : t ≤ 1 := Real.rpow_le_one hk0 hk1.le hwi
  rw [prob_eq (r := r + 1) hu.measurable hT]
  refine le_trans (add_le_add ?_ ?_) (split_le (t := t) _)
  · -- skipped
    rcases ht0.eq_or_lt with h0 | h0
    · rw [← h0]; simp
    have hκ0 : 0 < κ := by
      rcases hk0.eq_or_lt with hk | hk
      · exfalso
        have := hz hk.symm
        rw [ht, ← hk, Real.zero_rpow this.ne'] at h0
        exact lt_irrefl _ h0
      · exact hk
    have hlog : Real.log κ < 0 := Real.log_neg hκ0 hk1
    rw [prob_eq hu.measurable hT, scale_integral h0 ht1]
    refine setLIntegral_mono' measurableSet_Ioo fun x hx => measure_mono fun g hg => ?_
    have hx' : Real.log (x / t) = Real.log x - w i * Real.log κ := by
      rw [Real.log_div hx.1.ne' h0.ne', ht, Real.log_rpow hκ0]
    refine Or.inr ⟨?_, ?_⟩
    · rw [lt_div_iff_of_neg hlog, ← Real.log_rpow hκ0]
      exact Real.log_lt_log hx.1 hx.2
    · have : Hit w u T b r (i + 1) l v (Real.log (x / t) / Real.log κ) g := hg
      rw [hx', sub_div, mul_div_assoc, div_self hlog.ne, mul_one] at this
      exact this
  · -- taken
    rcases hwi.eq_or_lt with h0 | h0
    · have : t = 1 := by rw [ht, ← h0, Real.rpow_zero]
      rw [this]; simp
    have ht1' : t < 1 := by
      rcases hk0.eq_or_lt with hk | hk
      · rw [ht, ← hk, Real.zero_rpow h0.ne']; exact one_pos
      · exact Real.rpow_lt_one hk0 hk1 h0
    let E : Set (ℝ × (ℝ × G)) := {q | q.1 ∈ Set.Ioo (0 : ℝ) 1 ∧ q.2.1 ∈ Set.Ioo (0 : ℝ) 1 ∧ ∃ m' ∈ l.erase m ++ [i],
      Least w (Function.update v i (q.1 * (1 - t) + t)) (l.erase m ++ [i]) m' ∧
      Hit w u T b r (i + 1) (l.erase m ++ [i]) (Function.update v i (q.1 * (1 - t) + t))
        (Real.log q.2.1 / Real.log (key (w m') (Function.update v i (q.1 * (1 - t) + t) m'))) q.2.2}
    have hEm : MeasurableSet E := by
      have hx : Measurable fun q : ℝ × (ℝ × G) => Function.update v i (q.1 * (1 - t) + t) :=
        update_measurable measurable_const i ((measurable_fst.mul measurable_const).add measurable_const)
      refine (measurable_fst measurableSet_Ioo).inter ((measurable_snd.fst measurableSet_Ioo).inter (exists_measurable _ fun m' =>
        (Least_measurable w _ m' hx).inter (Hit_measurable w hu.measurable hT b r (i + 1) _ hx
          ((Real.measurable_log.comp measurable_snd.fst).div (Real.measurable_log.comp (key_comp_measurable w hx m'))) measurable_snd.snd)))
    let D' : ℝ → ℝ≥0∞ := fun z => (uniform.prod μ) {p | p.1 ∈ Set.Ioo (0 : ℝ) 1 ∧ ∃ m' ∈ l.erase m ++ [i],
      Least w (Function.update v i z) (l.erase m ++ [i]) m' ∧
      Hit w u T b r (i + 1) (l.erase m ++ [i]) (Function.update v i z) (Real.log p.1 / Real.log (key (w m') (Function.update v i z m'))) p.2}
    have hDD : ∫⁻ z in Set.Ioo t 1, D z ∂uniform ≤ ∫⁻ z in Set.Ioo t 1, D' z ∂uniform := by
      refine lintegral_mono_ae ?_
      filter_upwards [ae_restrict_of_ae hD, ae_restrict_mem measurableSet_Ioo] with z hz hzm
      obtain ⟨m', hm', hl', hle⟩ := hz hzm
      refine hle.trans ?_
      unfold prob
      have hae : ∀ᵐ p ∂(uniform.prod μ), p.1 ∈ Set.Ioo (0 : ℝ) 1 := Measure.quasiMeasurePreserving_fst.ae uniform_mem
      refine measure_mono_ae ?_
      filter_upwards [hae] with p hp hh
      exact ⟨hp, m', hm', hl', hh⟩
    refine hDD.trans ?_
    rw [← shift_integral ht0 ht1', ← uniform_Ioo' ht0]
    have hcomp : MeasurePreserving (fun g => ((u g).1, u (u g).2)) μ (uniform.prod (uniform.prod μ)) :=
      ((MeasurePreserving.id uniform).prod hu).comp hu
    have hE : ∫⁻ x, D' (x * (1 - t) + t) ∂uniform ≤ μ ((fun g => ((u g).1, u (u g).2)) ⁻¹' E) := by
      rw [hcomp.measure_preimage hEm.nullMeasurableSet, Measure.prod_apply hEm]
      refine lintegral_mono_ae ?_
      filter_upwards [uniform_mem] with x hx
      exact measure_mono fun p hp => ⟨hx, hp.1, hp.2⟩
    rw [mul_comm, ← setLIntegral_const]
    refine setLIntegral_mono' measurableSet_Ioo fun x hx => hE.trans (measure_mono ?_)
    rintro g ⟨h1, h2, m', hm', hl', hh⟩
    have hx0 : 0 < x := ht0.trans_lt hx.1
    refine Or.inl ⟨?_, h0, h1, h2, m, hm.1, hm, m', hm', hl', hh⟩
    show Real.log x / Real.log κ ≤ w i
    rcases hk0.eq_or_lt with hk | hk
    · rw [← hk]; simp [hwi]
    · have hlog : Real.log κ < 0 := Real.log_neg hk hk1
      rw [div_le_iff_of_neg hlog, ← Real.log_rpow hk]
      exact (Real.log_lt_log (Real.rpow_pos_of_pos hk _) hx.1).le

end

/-! ## the lower bound -/

theorem Order_sorted {w : ℕ → ℝ} {a : ℝ} {S : Finset ℕ} {t : List ℕ} {v : ℕ → ℝ} (h : Order w a S t v) (hn : t.Nodup) (ht : ∀ i ∈ t, i ∈ S) :
    t.Pairwise (fun i j => key (w j) (v j) < key (w i) (v i)) ∧ (∀ j ∈ S, key (w j) (v j) < a) ∧
      ∀ j ∈ S, j ∉ t → ∀ i ∈ t, key (w j) (v j) < key (w i) (v i) := by
  induction t generalizing S a with
  | nil => exact ⟨List.Pairwise.nil, h, by simp⟩
  | cons i t ih =>
    obtain ⟨h1, h2⟩ := h
    obtain ⟨hn1, hn2⟩ := List.nodup_cons.mp hn
    obtain ⟨i1, i2, i3⟩ := ih h2 hn2 (fun j hj => Finset.mem_erase.mpr ⟨fun e => hn1 (e ▸ hj), ht j (List.mem_cons_of_mem _ hj)⟩)
    refine ⟨List.pairwise_cons.mpr ⟨fun j hj => i2 j (Finset.mem_erase.mpr ⟨fun e => hn1 (e ▸ hj), ht j (List.mem_cons_of_mem _ hj)⟩), i1⟩, ?_, ?_⟩
    · intro j hj
      by_cases e : j = i
      · rw [e]; exact h1
      · exact (i2 j (Finset.mem_erase.mpr ⟨e, hj⟩)).trans h1
    · intro j hj hjt c hc
      have hji : j ≠ i := fun e => hjt (by simp [e])
      rcases List.mem_cons.mp hc with rfl | hc
      · exact i2 j (Finset.mem_erase.mpr ⟨hji, hj⟩)
      · exact i3 j (Finset.mem_erase.mpr ⟨hji, hj⟩) (fun h => hjt (List.mem_cons_of_mem _ h)) c hc

/-- `l` holds the `k` items with the largest keys among the first `i`, without ties. -/
structure Good (w : ℕ → ℝ) (k i : ℕ) (l : List ℕ) (v : ℕ → ℝ) : Prop where
  nodup : l.Nodup
  len : l.length = k
  lt : ∀ j ∈ l, j < i
  inside : ∀ j, j < i → v j ∈ Set.Ioo (0 : ℝ) 1
  inj : ∀ j, j < i → ∀ c, c < i → j ≠ c → key (w j) (v j) ≠ key (w c) (v c)
  top : ∀ j, j < i → j ∉ l → ∀ c ∈ l, key (w j) (v j) < key (w c) (v c)

theorem exists_least {w v : ℕ → ℝ} {l : List ℕ} (hl : l ≠ []) (hinj : ∀ j ∈ l, ∀ c ∈ l, j ≠ c → key (w j) (v j) ≠ key (w c) (v c)) :
    ∃ m ∈ l, Least w v l m := by
  obtain ⟨m, hm, hmin⟩ := l.toFinset.exists_min_image (fun j => key (w j) (v j)) (by simpa using hl)
  have hm' : m ∈ l := by simpa using hm
  refine ⟨m, hm', hm', fun j hj hjm => lt_of_le_of_ne (hmin j (by simpa using hj)) (hinj m hm' j hj (Ne.symm hjm))⟩

theorem Good.least {w : ℕ → ℝ} {k i : ℕ} {l : List ℕ} {v : ℕ → ℝ} (h : Good w k i l v) (hk : 0 < k) : ∃ m ∈ l, Least w v l m :=
  exists_least (by rintro rfl; have := h.len; simp at this; omega) fun j hj c hc => h.inj j (h.lt j hj) c (h.lt c hc)

section
variable {w : ℕ → ℝ} {k i m : ℕ} {l : List ℕ} {v : ℕ → ℝ} {z : ℝ}

theorem update_lt {j : ℕ} (hj : j < i) : Function.update v i z j = v j := Function.update_of_ne (by omega) _ _

theorem Good.inside_update (h : Good w k i l v) (hz : z ∈ Set.Ioo (0 : ℝ) 1) (j : ℕ) (hj : j < i + 1) : Function.update v i z j ∈ Set.Ioo (0 : ℝ) 1 := by
  by_cases e : j = i
  · subst e; simpa using hz
  · rw [update_lt (by omega)]; exact h.inside j (by omega)

theorem Good.inj_update (h : Good w k i l v) (hne : ∀ j, j < i → key (w i) z ≠ key (w j) (v j)) (j : ℕ) (hj : j < i + 1) (c : ℕ) (hc : c < i + 1)
    (hjc : j ≠ c) : key (w j) (Function.update v i z j) ≠ key (w c) (Function.update v i z c) := by
  by_cases e : j = i
  · subst e
    rw [Function.update_self, update_lt (by omega)]
    exact hne c (by omega)
  · rw [update_lt (show j < i by omega)]
    by_cases e' : c = i
    · subst e'
      rw [Function.update_self]
      exact (hne j (by omega)).symm
    · rw [update_lt (by omega)]
      exact h.inj j (by omega) c (by omega) hjc

theorem Good.skip (h : Good w k i l v) (hm : Least w v l m) (hz : z ∈ Set.Ioo (0 : ℝ) 1) (hne : ∀ j, j < i → key (w i) z ≠ key (w j) (v j))
    (hlt : key (w i) z < key (w m) (v m)) : Good w k (i + 1) l (Function.update v i z) := by
  refine ⟨h.nodup, h.len, fun j hj => (h.lt j hj).trans (Nat.lt_succ_self i), h.inside_update hz, h.inj_update hne, ?_⟩
  intro j hj hjl c hc
  rw [update_lt (h.lt c hc)]
  by_cases e : j = i
  · subst e
    rw [Function.update_self]
    by_cases ecm : c = m
    · rw [ecm]; exact hlt
    · exact hlt.trans (hm.2 c hc ecm)
  · rw [update_lt (by omega)]
    exact h.top j (by omega) hjl c hc

theorem Good.take (h : Good w k i l v) (hm : Least w v l m) (hz : z ∈ Set.Ioo (0 : ℝ) 1) (hne : ∀ j, j < i → key (w i) z ≠ key (w j) (v j))
    (hlt : key (w m) (v m) < key (w i) z) : Good w k (i + 1) (l.erase m ++ [i]) (Function.update v i z) := by
  have hil : i ∉ l := fun hi => absurd (h.lt i hi) (lt_irrefl i)
  have hlen : (l.erase m).length + 1 = l.length := by
    rw [List.length_erase_of_mem hm.1]
    have := List.length_pos_of_mem hm.1
    omega
  refine ⟨?_, ?_, ?_, h.inside_update hz, h.inj_update hne, ?_⟩
  · refine List.nodup_append.mpr ⟨h.nodup.erase m, by simp, ?_⟩
    intro a ha c hc
    rw [List.mem_singleton] at hc
    subst hc
    rintro rfl
    exact hil (List.mem_of_mem_erase ha)
  · rw [List.length_append, List.length_singleton, hlen, h.len]
  · intro j hj
    rcases List.mem_append.mp hj with hj | hj
    · exact (h.lt j (List.mem_of_mem_erase hj)).trans (Nat.lt_succ_self i)
    · rw [List.mem_singleton.mp hj]; exact Nat.lt_succ_self i
  · intro j hj hjl c hc
    have hji : j ≠ i := fun e => hjl (by simp [e])
    rw [update_lt (show j < i by omega)]
    -- `j` is the ejected item or was outside before
    have hjm : key (w j) (v j) ≤ key (w m) (v m) := by
      by_cases e : j = m
      · rw [e]
      · have : j ∉ l := fun hj' => hjl (List.mem_append_left _ ((List.mem_erase_of_ne e).mpr hj'))
        exact (h.top j (by omega) this m hm.1).le
    rcases List.mem_append.mp hc with hc | hc
    · have hcl := List.mem_of_mem_erase hc
      have hcm : c ≠ m := by
        rintro rfl
        exact (List.Nodup.not_mem_erase h.nodup) hc
      rw [update_lt (h.lt c hcl)]
      exact hjm.trans_lt (hm.2 c hcl hcm)
    · rw [List.mem_singleton.mp hc, Function.update_self]
      exact hjm.trans_lt hlt

end

/-- Almost surely a new key is different from the keys before it. -/
theorem ae_distinct {w : ℕ → ℝ} {n i : ℕ} {v : ℕ → ℝ} (hw : ∀ j, j < n → 0 ≤ w j) (hz : ∀ j, j < n → ∀ c, c < n → w j = 0 → w c = 0 → j = c)
    (hi : i < n) (hv : ∀ j, j < i → v j ∈ Set.Ioo (0 : ℝ) 1) : ∀ᵐ z ∂uniform, ∀ j, j < i → key (w i) z ≠ key (w j) (v j) := by
  rcases (hw i hi).eq_or_lt with h0 | h0
  · refine Filter.Eventually.of_forall fun z j hj => ?_
    have hwj : 0 < w j := lt_of_le_of_ne (hw j (by omega)) fun e => by have := hz j (by omega) i hi e.symm h0.symm; omega
    have := key_pos hwj (hv j hj).1
    rw [← h0]
    simp only [key, if_true]
    exact this.ne
  · have : ∀ᵐ z ∂uniform, ∀ j ∈ Finset.range i, z ≠ key (w j) (v j) ^ w i := by
      rw [Filter.eventually_all_finset]
      intro j _
      rw [ae_iff]
      unfold uniform
      simp only [ne_eq, not_not, Set.ofPred_eq_eq_singleton]
      exact le_antisymm ((Measure.restrict_apply_le _ _).trans (by simp)) (by simp)
    filter_upwards [this, uniform_mem] with z h1 h2 j hj e
    refine h1 j (Finset.mem_range.mpr hj) ?_
    rw [← e, key_rpow h0 h2.1.le, div_self h0.ne', Real.rpow_one]

/-- At the end: the items with the largest keys. -/
theorem Good.finish {w : ℕ → ℝ} {k n : ℕ} {l b : List ℕ} {v : ℕ → ℝ} (h : Good w k n l v) (hb : b.Nodup) (hbn : ∀ i ∈ b, i < n) (hbk : b.length = k)
    (ho : Order w 1 (Finset.range n) b.reverse v) : b.Perm l ∧ b.Pairwise (fun a c => key (w a) (v a) < key (w c) (v c)) := by
  obtain ⟨h1, -, h3⟩ := Order_sorted ho (List.nodup_reverse.mpr hb) (fun i hi => Finset.mem_range.mpr (hbn i (List.mem_reverse.mp hi)))
  refine ⟨?_, List.pairwise_reverse.mp h1⟩
  have hsub : b ⊆ l := by
    intro a ha
    by_contra hal
    -- some item of `l` is not in `b`
    obtain ⟨c, hc, hcb⟩ : ∃ c ∈ l, c ∉ b := by
      by_contra hcon
      push Not at hcon
      have h4 : a :: l ⊆ b := by
        intro x hx
        rcases List.mem_cons.mp hx with rfl | hx
        · exact ha
        · exact hcon x hx
      have h5 := (List.nodup_cons.mpr ⟨hal, h.nodup⟩).subperm h4 |>.length_le
      simp [h.len, hbk] at h5
    have e1 := h.top a (hbn a ha) hal c hc
    have e2 := h3 c (Finset.mem_range.mpr (h.lt c hc)) (by simpa using hcb) a (by simpa using ha)
    exact lt_asymm e1 e2
  exact (hb.subperm hsub).perm_of_length_le (by rw [h.len, hbk])

section
variable [MeasurableSpace G] {w : ℕ → ℝ} {u : G → ℝ × G} {μ : Measure G} [IsProbabilityMeasure μ] {T : Set G} {b : List ℕ} {n k : ℕ}

/-- The process with jumps ends with `b` at least as often as independent keys are in this order, with a fresh state of the generator. -/
theorem prob_bound (hu : MeasurePreserving u μ (uniform.prod μ)) (hT : MeasurableSet T) (hw : ∀ j, j < n → 0 ≤ w j)
    (hz : ∀ j, j < n → ∀ c, c < n → w j = 0 → w c = 0 → j = c) (hb : b.Nodup) (hbn : ∀ i ∈ b, i < n) (hbk : b.length = k) (hk : 0 < k)
    {r i : ℕ} (hr : i + r = n) {l : List ℕ} {v : ℕ → ℝ} {m : ℕ} (h : Good w k i l v) (hm : Least w v l m) :
    (∫⋯∫⁻_Finset.Ico i n, orderInd w 1 (Finset.range n) b.reverse ∂(fun _ => uniform)) v * μ T ≤ prob w u μ T b r i l v m := by
  induction r generalizing i l v m with
  | zero =>
    obtain rfl : i = n := by omega
    rw [Finset.Ico_self, lmarginal_empty]
    classical
    unfold orderInd
    rw [Set.indicator_apply]
    split
    · rename_i ho
      have := h.finish hb hbn hbk ho
      unfold prob
      have hset : {p : ℝ × G | Hit w u T b 0 i l v (Real.log p.1 / Real.log (key (w m) (v m))) p.2} = Set.univ ×ˢ T := by
        ext p
        simp only [Set.mem_ofPred_eq, Set.mem_prod, Set.mem_univ, true_and]
        exact ⟨fun h => h.2, fun h => ⟨this, h⟩⟩
      rw [hset, Measure.prod_prod, measure_univ]; rfl
    · simp
  | succ r ih =>
    have hi : i < n := by omega
    have hins : Finset.Ico i n = insert i (Finset.Ico (i + 1) n) := (Finset.insert_Ico_add_one_left_eq_Ico hi).symm
    have hmi : m < i := h.lt m hm.1
    have hvm := h.inside m hmi
    have hk0 : 0 ≤ key (w m) (v m) := key_nonneg hvm.1
    have hk1 : key (w m) (v m) < 1 := key_lt_one (hw m (by omega)) hvm
    have hwi := hw i hi
    have hz' : key (w m) (v m) = 0 → 0 < w i := by
      intro e
      have hwm : w m = 0 := by
        by_contra hne
        exact absurd e (key_pos (lt_of_le_of_ne (hw m (by omega)) (Ne.symm hne)) hvm.1).ne'
      exact lt_of_le_of_ne hwi fun e' => by have := hz m (by omega) i hi hwm e'.symm; omega
    have hdist := ae_distinct hw hz hi h.inside
    rw [hins, lmarginal_insert _ (orderInd_measurable _ _ _ _) (by simp), ← lintegral_mul_const' _ _ (measure_ne_top μ T)]
    refine (le_split (t := key (w m) (v m) ^ w i) _).trans (le_trans (add_le_add ?_ le_rfl)
      (prob_step (D := fun z => (∫⋯∫⁻_Finset.Ico (i + 1) n, orderInd w 1 (Finset.range n) b.reverse ∂(fun _ => uniform)) (Function.update v i z) * μ T)
        hu hT hm hk0 hk1 hwi hz' ?_))
    · -- skipped
      have hpow1 : key (w m) (v m) ^ w i ≤ 1 := Real.rpow_le_one hk0 hk1.le hwi
      calc ∫⁻ z in Set.Ioo 0 (key (w m) (v m) ^ w i),
            (∫⋯∫⁻_Finset.Ico (i + 1) n, orderInd w 1 (Finset.range n) b.reverse ∂(fun _ => uniform)) (Function.update v i z) * μ T ∂uniform
          ≤ ∫⁻ z in Set.Ioo 0 (key (w m) (v m) ^ w i), prob w u μ T b r (i + 1) l v m ∂uniform := by
            refine lintegral_mono_ae ?_
            filter_upwards [ae_restrict_of_ae hdist, ae_restrict_of_ae uniform_mem, ae_restrict_mem measurableSet_Ioo] with z h1 h2 h3
            have hlt : key (w i) z < key (w m) (v m) := by
              rcases hwi.eq_or_lt with h0 | h0
              · rw [← h0]
                simp only [key, if_true]
                refine lt_of_le_of_ne hk0 fun e => absurd (hz' e.symm) (by rw [← h0]; exact lt_irrefl 0)
              · exact (key_lt_iff h0 h2.1.le hk0).mpr h3.2
            have hg := h.skip hm h2 h1 hlt
            have hcong : ∀ j ∈ l, v j = Function.update v i z j := fun j hj => (update_lt (h.lt j hj)).symm
            exact (ih (by omega) hg ((Least_congr hcong).mp hm)).trans (prob_congr hm.1 fun j hj => (hcong j hj).symm)
        _ = ENNReal.ofReal (key (w m) (v m) ^ w i) * prob w u μ T b r (i + 1) l v m := by
            rw [setLIntegral_const, uniform_Ioo hpow1, mul_comm]
    · -- taken
      filter_upwards [hdist, uniform_mem] with z h1 h2 h3
      have h0 : 0 < w i := by
        refine lt_of_le_of_ne hwi fun e => ?_
        rw [← e, Real.rpow_zero] at h3
        exact absurd h3.1 (not_lt.mpr h3.2.le)
      have hg := h.take hm h2 h1 ((lt_key_iff h0 h2.1.le hk0).mpr h3.1)
      obtain ⟨m', hm', hl'⟩ := hg.least hk
      exact ⟨m', hm', hl', ih (by omega) hg hl'⟩

end

end Seldon.ExpJ
