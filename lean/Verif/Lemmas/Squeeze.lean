import Mathlib.MeasureTheory.Measure.NullMeasurable
import Mathlib.MeasureTheory.Measure.Typeclasses.Probability
/-!
# Helper lemma: lower bounds for all outcomes give their probabilities
-/
namespace Seldon
open MeasureTheory
open scoped ENNReal
variable {G ι : Type} [MeasurableSpace G] {μ : Measure G} [IsProbabilityMeasure μ]

/-- If outcomes that exclude each other have at least the probabilities `p i`, and these add up to 1, then they have exactly these probabilities. -/
theorem squeeze (I : Finset ι) (E : ι → Set G) (p : ι → ℝ≥0∞) (hd : ∀ i ∈ I, ∀ j ∈ I, i ≠ j → Disjoint (E i) (E j))
    (hl : ∀ i ∈ I, ∃ S, MeasurableSet S ∧ S ⊆ E i ∧ p i ≤ μ S) (hs : 1 ≤ ∑ i ∈ I, p i) {i : ι} (hi : i ∈ I) :
    NullMeasurableSet (E i) μ ∧ μ (E i) = p i := by
  classical
  choose! S hS hSE hp using hl
  set U := ⋃ j ∈ I.erase i, S j with hU
  have hUm : MeasurableSet U := (I.erase i).measurableSet_biUnion fun j hj => hS j (Finset.mem_of_mem_erase hj)
  have hUμ : μ U = ∑ j ∈ I.erase i, μ (S j) := by
    refine measure_biUnion_finset ?_ fun j hj => hS j (Finset.mem_of_mem_erase hj)
    intro a ha b hb hab
    exact (hd a (Finset.mem_of_mem_erase ha) b (Finset.mem_of_mem_erase hb) hab).mono (hSE a (Finset.mem_of_mem_erase ha))
      (hSE b (Finset.mem_of_mem_erase hb))
  have hEU : E i ⊆ Uᶜ := by
    intro g hg hgU
    obtain ⟨j, hj, hgj⟩ := Set.mem_iUnion₂.mp hgU
    exact Set.disjoint_left.mp (hd i hi j (Finset.mem_of_mem_erase hj) (Finset.ne_of_mem_erase hj).symm) hg (hSE j (Finset.mem_of_mem_erase hj) hgj)
  have hle : μ Uᶜ ≤ p i := by
    have h1 : μ U + μ Uᶜ = 1 := prob_add_prob_compl hUm
    have h2 : ∑ j ∈ I.erase i, p j ≤ μ U := by
      rw [hUμ]
      exact Finset.sum_le_sum fun j hj => hp j (Finset.mem_of_mem_erase hj)
    rw [← Finset.add_sum_erase _ _ hi, ← h1, add_comm (μ U)] at hs
    exact (ENNReal.add_le_add_iff_right (measure_ne_top μ U)).mp (hs.trans (add_le_add le_rfl h2))
  have h3 : p i ≤ μ (S i) := hp i hi
  have h4 : μ (S i) ≤ μ (E i) := measure_mono (hSE i hi)
  have h5 : μ (E i) ≤ μ Uᶜ := measure_mono hEU
  refine ⟨?_, le_antisymm (h5.trans hle) (h3.trans h4)⟩
  have h6 : μ (Uᶜ \ S i) = 0 := by
    rw [measure_sdiff ((hSE i hi).trans hEU) (hS i hi).nullMeasurableSet (measure_ne_top _ _)]
    exact tsub_eq_zero_of_le (hle.trans h3)
  refine (hS i hi).nullMeasurableSet.congr ?_
  refine (ae_le_set.mpr ?_).antisymm (ae_le_set.mpr ?_)
  · rw [Set.sdiff_eq_empty.mpr (hSE i hi), measure_empty]
  · exact measure_mono_null (Set.sdiff_subset_sdiff_left hEU) h6

end Seldon
