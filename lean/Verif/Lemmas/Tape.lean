import Verif.Spec.Random
import Mathlib.Probability.ProductMeasure
import Mathlib.MeasureTheory.Integral.Marginal
/-!
# Helper lemmas: uniform draws, and a generator that makes them
-/
namespace Seldon
open Spec MeasureTheory
open scoped ENNReal

instance : IsProbabilityMeasure uniform := ⟨by simp [uniform]⟩

theorem uniform_mem : ∀ᵐ x ∂uniform, x ∈ Set.Ioo (0 : ℝ) 1 := ae_restrict_mem measurableSet_Ioo

section
variable (ν : Measure ℝ) [IsProbabilityMeasure ν]

/-- Infinite tapes of independent numbers with the law `ν`. -/
noncomputable def tapesOf : Measure (ℕ → ℝ) := Measure.infinitePi (fun _ => ν)

instance : IsProbabilityMeasure (tapesOf ν) := by unfold tapesOf; infer_instance

/-- Reading one number. -/
def readTape (g : ℕ → ℝ) : ℝ × (ℕ → ℝ) := (g 0, fun n => g (n + 1))

theorem readTape_measurable : Measurable readTape :=
  (measurable_pi_apply 0).prodMk (measurable_pi_lambda _ fun n => measurable_pi_apply (n + 1))

/-- Putting a number in front. -/
def consTape (p : ℝ × (ℕ → ℝ)) : ℕ → ℝ := fun n => match n with | 0 => p.1 | n + 1 => p.2 n

theorem consTape_measurable : Measurable consTape := by
  refine measurable_pi_lambda _ fun n => ?_
  cases n with
  | zero => exact measurable_fst
  | succ n => exact (measurable_pi_apply n).comp measurable_snd

theorem consTape_map : (ν.prod (tapesOf ν)).map consTape = tapesOf ν := by
  refine Measure.eq_infinitePi _ fun s t ht => ?_
  rw [Measure.map_apply consTape_measurable (MeasurableSet.pi s.countable_toSet fun i _ => ht i)]
  -- the box as a product
  let t' : ℕ → Set ℝ := fun n => if n ∈ s then t n else Set.univ
  have hbox : consTape ⁻¹' (Set.pi s t) = (t' 0) ×ˢ (Set.pi ((s.erase 0).image Nat.pred) fun n => t (n + 1)) := by
    ext ⟨x, g⟩
    simp only [Set.mem_preimage, Set.mem_pi, Set.mem_prod, Finset.coe_image, Finset.mem_coe, Set.mem_image, Finset.mem_erase]
    constructor
    · intro h
      refine ⟨?_, ?_⟩
      · by_cases h0 : 0 ∈ s
        · simp only [t', h0, if_true]; exact h 0 h0
        · simp [t', h0]
      · rintro _ ⟨m, ⟨hm0, hm⟩, rfl⟩
        obtain ⟨m, rfl⟩ := Nat.exists_eq_succ_of_ne_zero hm0
        exact h (m + 1) hm
    · rintro ⟨h0, h1⟩ n hn
      cases n with
      | zero =>
        show x ∈ t 0
        simpa [t', hn] using h0
      | succ n => exact h1 n ⟨n + 1, ⟨by omega, hn⟩, rfl⟩
  rw [hbox, Measure.prod_prod]
  have h1 : tapesOf ν (Set.pi ((s.erase 0).image Nat.pred) fun n => t (n + 1)) = ∏ n ∈ (s.erase 0).image Nat.pred, ν (t (n + 1)) :=
    Measure.infinitePi_pi _ fun i _ => ht (i + 1)
  have h2 : ∏ n ∈ (s.erase 0).image Nat.pred, ν (t (n + 1)) = ∏ n ∈ s.erase 0, ν (t n) := by
    rw [Finset.prod_image]
    · refine Finset.prod_congr rfl fun n hn => ?_
      obtain ⟨n, rfl⟩ := Nat.exists_eq_succ_of_ne_zero (Finset.mem_erase.mp hn).1
      rfl
    · intro a ha b hb hab
      have ha := (Finset.mem_erase.mp ha).1
      have hb := (Finset.mem_erase.mp hb).1
      simp only [Nat.pred_eq_sub_one] at hab
      omega
  rw [h1, h2]
  by_cases h0 : 0 ∈ s
  · simp only [t', h0, if_true]
    rw [Finset.mul_prod_erase s (fun n => ν (t n)) h0]
  · simp only [t', h0, if_false, measure_univ, one_mul]
    rw [Finset.erase_eq_of_notMem h0]

/-- Reading a tape gives a number with the law `ν` and an independent tape. -/
theorem readTape_preserving : MeasurePreserving readTape (tapesOf ν) (ν.prod (tapesOf ν)) := by
  refine ⟨readTape_measurable, ?_⟩
  conv_lhs => rw [← consTape_map ν]
  rw [Measure.map_map readTape_measurable consTape_measurable]
  have : readTape ∘ consTape = id := rfl
  rw [this, Measure.map_id]

end

/-- Infinite tapes of independent uniform numbers. -/
noncomputable def tapes : Measure (ℕ → ℝ) := tapesOf uniform

instance : IsProbabilityMeasure tapes := by unfold tapes; infer_instance

/-- A generator that reads a tape. -/
noncomputable def tapeRng : Rng (ℕ → ℝ) XR := ⟨fun g => (XR.fin (g 0), fun n => g (n + 1)), fun a _ g => (a, g), fun g => (0, g)⟩

theorem tapeRng_uniform : DrawsUniform tapeRng tapes := ⟨readTape, readTape_preserving uniform, fun _ => rfl⟩

/-- A generator that reads uniform numbers from one tape and normal numbers from another. -/
noncomputable def twoTapes : Rng ((ℕ → ℝ) × (ℕ → ℝ)) ℝ :=
  ⟨fun g => (g.1 0, fun n => g.1 (n + 1), g.2), fun a _ g => (a, g), fun g => (g.2 0, g.1, fun n => g.2 (n + 1))⟩

theorem twoTapes_fresh : FreshDraws twoTapes (tapes.prod (tapesOf (ProbabilityTheory.gaussianReal 0 1))) := by
  set N := tapesOf (ProbabilityTheory.gaussianReal 0 1)
  constructor
  · have h1 : MeasurePreserving (Prod.map readTape id) (tapes.prod N) ((uniform.prod tapes).prod N) :=
      (readTape_preserving uniform).prod (MeasurePreserving.id N)
    exact (measurePreserving_prodAssoc uniform tapes N).comp h1
  · have h1 : MeasurePreserving (Prod.map id readTape) (tapes.prod N) (tapes.prod ((ProbabilityTheory.gaussianReal 0 1).prod N)) :=
      (MeasurePreserving.id tapes).prod (readTape_preserving _)
    have h2 := (measurePreserving_prodAssoc tapes (ProbabilityTheory.gaussianReal 0 1) N).symm
    have h3 : MeasurePreserving (Prod.map Prod.swap id) ((tapes.prod (ProbabilityTheory.gaussianReal 0 1)).prod N)
        (((ProbabilityTheory.gaussianReal 0 1).prod tapes).prod N) := Measure.measurePreserving_swap.prod (MeasurePreserving.id N)
    exact (measurePreserving_prodAssoc _ _ _).comp (h3.comp (h2.comp h1))

end Seldon
