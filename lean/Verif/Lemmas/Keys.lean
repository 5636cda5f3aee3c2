import Verif.Lemmas.Tape
import Mathlib.Analysis.SpecialFunctions.Integrals.Basic
import Mathlib.MeasureTheory.Integral.IntervalIntegral.IntegrationByParts
/-!
# Helper lemmas: the order of independent random keys `u ^ (1 / w)`
-/
namespace Seldon.Keys
open Seldon Spec MeasureTheory
open scoped ENNReal

/-- The key of an item with weight `w` (0 for an item without weight). -/
noncomputable def key (w x : ℝ) : ℝ := if w = 0 then 0 else x ^ (1 / w)

theorem key_measurable (w : ℝ) : Measurable (key w) := by
  unfold key
  split
  · exact measurable_const
  · exact measurable_id.pow_const _

theorem key_pos {w x : ℝ} (hw : 0 < w) (hx : 0 < x) : 0 < key w x := by
  unfold key; rw [if_neg hw.ne']; exact Real.rpow_pos_of_pos hx _

theorem key_nonneg {w x : ℝ} (hx : 0 < x) : 0 ≤ key w x := by
  unfold key; split
  · exact le_refl _
  · exact (Real.rpow_pos_of_pos hx _).le

theorem key_lt_one {w x : ℝ} (hw : 0 ≤ w) (hx : x ∈ Set.Ioo (0 : ℝ) 1) : key w x < 1 := by
  unfold key
  rcases hw.eq_or_lt with rfl | hw
  · simp
  · rw [if_neg hw.ne']; exact Real.rpow_lt_one hx.1.le hx.2 (by positivity)

/-- Keys are below `a` exactly for numbers below `a ^ w`. -/
theorem key_lt_iff {w x a : ℝ} (hw : 0 < w) (hx : 0 ≤ x) (ha : 0 ≤ a) : key w x < a ↔ x < a ^ w := by
  unfold key; rw [if_neg hw.ne', one_div]
  exact Real.rpow_inv_lt_iff_of_pos hx ha hw

theorem lt_key_iff {w x a : ℝ} (hw : 0 < w) (hx : 0 ≤ x) (ha : 0 ≤ a) : a < key w x ↔ a ^ w < x := by
  unfold key; rw [if_neg hw.ne', one_div]
  exact Real.lt_rpow_inv_iff_of_pos ha hx hw

theorem key_rpow {w x c : ℝ} (hw : 0 < w) (hx : 0 ≤ x) : key w x ^ c = x ^ (c / w) := by
  unfold key
  rw [if_neg hw.ne', ← Real.rpow_mul hx]
  congr 1; ring

/-- The keys of the items `S` are below `a`, the keys of the listed items come first, in decreasing order. -/
def Order (w : ℕ → ℝ) : ℝ → Finset ℕ → List ℕ → (ℕ → ℝ) → Prop
  | a, S, [], v => ∀ j ∈ S, key (w j) (v j) < a
  | a, S, i :: t, v => key (w i) (v i) < a ∧ Order w (key (w i) (v i)) (S.erase i) t v

theorem Order_measurable (w : ℕ → ℝ) {α : Type} [MeasurableSpace α] (S : Finset ℕ) (t : List ℕ) {a : α → ℝ} (ha : Measurable a) {v : α → ℕ → ℝ}
    (hv : Measurable v) : MeasurableSet {p | Order w (a p) S t (v p)} := by
  induction t generalizing S a with
  | nil =>
    simp only [Order]
    have : {p | ∀ j ∈ S, key (w j) (v p j) < a p} = ⋂ j ∈ S, {p | key (w j) (v p j) < a p} := by ext p; simp
    rw [this]
    exact S.measurableSet_biInter fun j _ =>
      measurableSet_lt ((key_measurable _).comp ((measurable_pi_apply j).comp hv)) ha
  | cons i t ih =>
    have hk : Measurable fun p => key (w i) (v p i) := (key_measurable _).comp ((measurable_pi_apply i).comp hv)
    exact (measurableSet_lt hk ha).inter (ih (S.erase i) hk)

/-- The indicator of an ordering. -/
noncomputable def orderInd (w : ℕ → ℝ) (a : ℝ) (S : Finset ℕ) (t : List ℕ) : (ℕ → ℝ) → ℝ≥0∞ := {v | Order w a S t v}.indicator 1

theorem orderInd_measurable (w : ℕ → ℝ) (a : ℝ) (S : Finset ℕ) (t : List ℕ) : Measurable (orderInd w a S t) :=
  measurable_one.indicator (Order_measurable w S t measurable_const measurable_id)

theorem orderInd_le {w : ℕ → ℝ} {a a' : ℝ} {S S' : Finset ℕ} {t t' : List ℕ} {v : ℕ → ℝ} (h : Order w a S t v → Order w a' S' t' v) :
    orderInd w a S t v ≤ orderInd w a' S' t' v := by
  classical
  unfold orderInd
  rw [Set.indicator_apply, Set.indicator_apply]
  by_cases hv : Order w a S t v
  · rw [if_pos (show v ∈ {v | _} from hv), if_pos (show v ∈ {v | _} from h hv)]
  · rw [if_neg (show v ∉ {v | _} from hv)]; simp

theorem Order_congr {w : ℕ → ℝ} {a : ℝ} {S : Finset ℕ} {t : List ℕ} {v v' : ℕ → ℝ} (h : ∀ j ∈ S, v j = v' j) (hn : t.Nodup) (ht : ∀ i ∈ t, i ∈ S) :
    Order w a S t v ↔ Order w a S t v' := by
  induction t generalizing S a with
  | nil => exact forall₂_congr fun j hj => by rw [h j hj]
  | cons i t ih =>
    simp only [Order]
    rw [h i (ht i (by simp))]
    refine and_congr_right fun _ => ih (fun j hj => h j (Finset.mem_of_mem_erase hj)) (List.nodup_cons.mp hn).2 fun j hj => ?_
    refine Finset.mem_erase.mpr ⟨?_, ht j (List.mem_cons_of_mem _ hj)⟩
    rintro rfl
    exact (List.nodup_cons.mp hn).1 hj

theorem uniform_Ioo {a : ℝ} (h1 : a ≤ 1) : uniform (Set.Ioo 0 a) = ENNReal.ofReal a := by
  unfold uniform
  rw [Measure.restrict_apply measurableSet_Ioo, Set.inter_eq_self_of_subset_left (Set.Ioo_subset_Ioo_right h1), Real.volume_Ioo, sub_zero]

/-- The probability that all keys are below `a` is at least (in fact, equal to) `a` to the total weight. -/
theorem all_below {w : ℕ → ℝ} {a : ℝ} (ha : 0 < a) (ha1 : a ≤ 1) (S : Finset ℕ) (hw : ∀ j ∈ S, 0 ≤ w j) (v : ℕ → ℝ) :
    ENNReal.ofReal (a ^ ∑ j ∈ S, w j) ≤ (∫⋯∫⁻_S, orderInd w a S [] ∂(fun _ => uniform)) v := by
  induction S using Finset.induction generalizing v with
  | empty => simp [orderInd, Order]
  | insert i S hi ih =>
    rw [lmarginal_insert _ (orderInd_measurable _ _ _ _) hi, Finset.sum_insert hi]
    have hwi := hw i (Finset.mem_insert_self i S)
    have hmono : ∀ x ∈ Set.Ioo 0 (a ^ w i), x < 1 → (∫⋯∫⁻_S, orderInd w a S [] ∂(fun _ => uniform)) (Function.update v i x) ≤
        (∫⋯∫⁻_S, orderInd w a (insert i S) [] ∂(fun _ => uniform)) (Function.update v i x) := by
      intro x hx hx1
      refine lintegral_mono fun y => orderInd_le fun h => ?_
      intro j hj
      rcases Finset.mem_insert.mp hj with rfl | hj
      · have : Function.updateFinset (Function.update v j x) S y j = x := by simp [Function.updateFinset, hi]
        rw [this]
        rcases hwi.eq_or_lt with h0 | h0
        · rw [← h0]; simpa [key] using ha
        · exact (key_lt_iff h0 hx.1.le ha.le).mpr hx.2
      · exact h j hj
    have hpow1 : a ^ w i ≤ 1 := Real.rpow_le_one ha.le ha1 hwi
    calc ENNReal.ofReal (a ^ (w i + ∑ j ∈ S, w j)) = ENNReal.ofReal (a ^ ∑ j ∈ S, w j) * uniform (Set.Ioo 0 (a ^ w i)) := by
            rw [uniform_Ioo hpow1, ← ENNReal.ofReal_mul (Real.rpow_nonneg ha.le _), ← Real.rpow_add ha, add_comm]
      _ = ∫⁻ x in Set.Ioo 0 (a ^ w i), ENNReal.ofReal (a ^ ∑ j ∈ S, w j) ∂uniform := by rw [setLIntegral_const]
      _ ≤ ∫⁻ x in Set.Ioo 0 (a ^ w i), (∫⋯∫⁻_S, orderInd w a (insert i S) [] ∂(fun _ => uniform)) (Function.update v i x) ∂uniform := by
            refine setLIntegral_mono' measurableSet_Ioo fun x hx => ?_
            exact (ih (fun j hj => hw j (Finset.mem_insert_of_mem hj)) _).trans (hmono x hx (hx.2.trans_le hpow1))
      _ ≤ _ := setLIntegral_le_lintegral _ _

theorem power_integral {c W a : ℝ} (ha : 0 ≤ a) (ha1 : a ≤ 1) (hc : 0 < c) (hW : c ≤ W) :
    ∫⁻ x in Set.Ioo 0 (a ^ c), ENNReal.ofReal (key c x ^ (W - c)) ∂uniform = ENNReal.ofReal (c / W * a ^ W) := by
  have hpow1 : a ^ c ≤ 1 := Real.rpow_le_one ha ha1 hc.le
  have h0 : 0 ≤ a ^ c := Real.rpow_nonneg ha _
  have hWpos : 0 < W := hc.trans_le hW
  unfold uniform
  rw [Measure.restrict_restrict measurableSet_Ioo, Set.inter_eq_self_of_subset_left (Set.Ioo_subset_Ioo_right hpow1)]
  have e1 : ∫⁻ x in Set.Ioo 0 (a ^ c), ENNReal.ofReal (key c x ^ (W - c)) = ∫⁻ x in Set.Ioo 0 (a ^ c), ENNReal.ofReal (x ^ (W / c - 1)) := by
    refine setLIntegral_congr_fun measurableSet_Ioo fun x hx => ?_
    rw [key_rpow hc hx.1.le]
    congr 2
    field_simp
  have hr : -1 < W / c - 1 := by have := div_pos hWpos hc; linarith
  rw [e1, ← ofReal_integral_eq_lintegral_ofReal]
  · congr 1
    rw [← integral_Ioc_eq_integral_Ioo, ← intervalIntegral.integral_of_le h0, integral_rpow (Or.inl hr)]
    have e2 : W / c - 1 + 1 = W / c := by ring
    rw [e2, Real.zero_rpow (div_pos hWpos hc).ne', sub_zero, ← Real.rpow_mul ha]
    have e3 : c * (W / c) = W := by field_simp
    rw [e3]
    field_simp
  · have := (intervalIntegral.intervalIntegrable_rpow' (a := 0) (b := a ^ c) hr)
    exact ((intervalIntegrable_iff_integrableOn_Ioo_of_le h0).mp this)
  · exact (ae_restrict_mem measurableSet_Ioo).mono fun x hx => Real.rpow_nonneg hx.1.le _

theorem successive_nonneg {w : ℕ → ℝ} (S : Finset ℕ) (hw : ∀ j ∈ S, 0 ≤ w j) (t : List ℕ) : 0 ≤ successive w S t := by
  induction t generalizing S with
  | nil => exact zero_le_one
  | cons i t ih =>
    unfold successive
    split
    · exact mul_nonneg (div_nonneg (hw i ‹_›) (Finset.sum_nonneg hw)) (ih _ fun j hj => hw j (Finset.mem_of_mem_erase hj))
    · exact le_refl _

/-- The keys come in a given order with at least (in fact, exactly) the probability of successive draws. -/
theorem order_prob {w : ℕ → ℝ} (S : Finset ℕ) (hw : ∀ j ∈ S, 0 ≤ w j) (t : List ℕ) (ht : t.Nodup) {a : ℝ} (ha : 0 < a) (ha1 : a ≤ 1) (v : ℕ → ℝ) :
    ENNReal.ofReal (a ^ (∑ j ∈ S, w j) * successive w S t) ≤ (∫⋯∫⁻_S, orderInd w a S t ∂(fun _ => uniform)) v := by
  induction t generalizing S a v with
  | nil => rw [successive, mul_one]; exact all_below ha ha1 S hw v
  | cons i t ih =>
    unfold successive
    by_cases hi : i ∈ S
    swap
    · simp [hi]
    rw [if_pos hi]
    rcases (hw i hi).eq_or_lt with h0 | h0
    · simp [← h0]
    have hW : w i ≤ ∑ j ∈ S, w j := Finset.single_le_sum hw hi
    have hWe : ∑ j ∈ S.erase i, w j = (∑ j ∈ S, w j) - w i := by rw [← Finset.add_sum_erase S w hi]; ring
    rw [lmarginal_erase _ (orderInd_measurable _ _ _ _) hi]
    have hpow1 : a ^ w i ≤ 1 := Real.rpow_le_one ha.le ha1 h0.le
    have hsucc := successive_nonneg (S.erase i) (fun j hj => hw j (Finset.mem_of_mem_erase hj)) t
    calc ENNReal.ofReal (a ^ (∑ j ∈ S, w j) * (w i / (∑ j ∈ S, w j) * successive w (S.erase i) t))
        = ENNReal.ofReal (successive w (S.erase i) t) *
            ∫⁻ x in Set.Ioo 0 (a ^ w i), ENNReal.ofReal (key (w i) x ^ ((∑ j ∈ S, w j) - w i)) ∂uniform := by
            rw [power_integral ha.le ha1 h0 hW, ← ENNReal.ofReal_mul hsucc]
            congr 1; ring
      _ = ∫⁻ x in Set.Ioo 0 (a ^ w i), ENNReal.ofReal (successive w (S.erase i) t) *
            ENNReal.ofReal (key (w i) x ^ ((∑ j ∈ S, w j) - w i)) ∂uniform := by
            rw [lintegral_const_mul]
            exact ENNReal.measurable_ofReal.comp ((key_measurable _).pow_const _)
      _ ≤ ∫⁻ x in Set.Ioo 0 (a ^ w i), (∫⋯∫⁻_S.erase i, orderInd w a S (i :: t) ∂(fun _ => uniform)) (Function.update v i x) ∂uniform := by
            refine setLIntegral_mono' measurableSet_Ioo fun x hx => ?_
            have hx1 : x < 1 := hx.2.trans_le hpow1
            have hk := key_pos h0 hx.1
            refine le_trans ?_ ((ih (S.erase i) (fun j hj => hw j (Finset.mem_of_mem_erase hj)) (List.nodup_cons.mp ht).2 hk
              (key_lt_one h0.le ⟨hx.1, hx1⟩).le (Function.update v i x)).trans ?_)
            · rw [hWe, ← ENNReal.ofReal_mul hsucc, mul_comm]
            · refine lintegral_mono fun y => orderInd_le fun h => ?_
              have : Function.updateFinset (Function.update v i x) (S.erase i) y i = x := by simp [Function.updateFinset]
              refine ⟨?_, ?_⟩
              · rw [this]; exact (key_lt_iff h0 hx.1.le ha.le).mpr hx.2
              · rw [this]; exact h
      _ ≤ _ := setLIntegral_le_lintegral _ _

end Seldon.Keys
