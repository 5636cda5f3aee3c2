import Verif.Lemmas.Chance
import Mathlib.MeasureTheory.Integral.Lebesgue.Countable
import Mathlib.MeasureTheory.Integral.Bochner.Basic
/-!
# Helper lemmas: expected values of what a program with random draws returns
-/
namespace Seldon
open Spec MeasureTheory
open scoped ENNReal
variable {G X Y : Type} [MeasurableSpace G] {μ : Measure G}

/-- The expected value of `φ` of the result of the program. -/
noncomputable def expect (f : G → Res (X × G)) (μ : Measure G) (φ : X → ℝ≥0∞) : ℝ≥0∞ := ∑' y, μ (hits f y Set.univ) * φ y

theorem expect_pure [IsProbabilityMeasure μ] (x : X) (φ : X → ℝ≥0∞) : expect (fun g => (.ok (x, g) : Res (X × G))) μ φ = φ x := by
  have e : ∀ y, hits (fun g : G => (.ok (x, g) : Res (X × G))) y Set.univ = {_g | x = y} := by
    intro y
    ext g
    simp [hits]
  rw [expect, tsum_eq_single x]
  · rw [e]; simp
  · intro y hy
    rw [e]; simp [hy.symm]

theorem expect_bind [IsProbabilityMeasure μ] {f : G → Res (X × G)} {h : X → G → Res (Y × G)} (hf : Fresh f μ)
    (hh : ∀ y g g', f g = .ok (y, g') → Fresh (h y) μ) (φ : Y → ℝ≥0∞) :
    expect (fun g => f g >>= fun p => h p.1 p.2) μ φ = expect f μ fun y => expect (h y) μ φ := by
  unfold expect
  simp only [(Fresh.bind_law hf hh).2, ← ENNReal.tsum_mul_right, ← ENNReal.tsum_mul_left]
  rw [ENNReal.tsum_comm]
  refine tsum_congr fun y => tsum_congr fun z => ?_
  rw [mul_assoc]

/-- Only what may be returned counts. -/
theorem expect_le {f : G → Res (X × G)} {φ ψ : X → ℝ≥0∞} (h : ∀ y g g', f g = .ok (y, g') → φ y ≤ ψ y) : expect f μ φ ≤ expect f μ ψ := by
  refine ENNReal.tsum_le_tsum fun y => ?_
  by_cases hy : ∃ g g', f g = .ok (y, g')
  · obtain ⟨g, g', e⟩ := hy
    exact mul_le_mul_right (h y g g' e) _
  · rw [Fresh.hits_never _ hy, measure_empty, zero_mul, zero_mul]

theorem expect_congr {f : G → Res (X × G)} {φ ψ : X → ℝ≥0∞} (h : ∀ y g g', f g = .ok (y, g') → φ y = ψ y) : expect f μ φ = expect f μ ψ :=
  le_antisymm (expect_le fun y g g' e => (h y g g' e).le) (expect_le fun y g g' e => (h y g g' e).ge)

theorem expect_mul (f : G → Res (X × G)) (c : ℝ≥0∞) (φ : X → ℝ≥0∞) : expect f μ (fun y => c * φ y) = c * expect f μ φ := by
  unfold expect
  rw [← ENNReal.tsum_mul_left]
  exact tsum_congr fun y => by rw [mul_left_comm]

/-- A function that each step multiplies by `c` on the average is multiplied by `c ^ k` in `k` steps. -/
theorem expect_walk [IsProbabilityMeasure μ] {step : X → G → Res (X × G)} {I : X → Prop} (hI : ∀ x, I x → ∀ g y g', step x g = .ok (y, g') → I y)
    (hf : ∀ x, I x → Fresh (step x) μ) {φ : X → ℝ≥0∞} {c : ℝ≥0∞} (h : ∀ x, I x → expect (step x) μ φ = c * φ x) (k : ℕ) :
    ∀ x, I x → expect (walk step k x) μ φ = c ^ k * φ x := by
  induction k with
  | zero =>
    intro x _
    rw [pow_zero, one_mul]
    exact expect_pure x φ
  | succ k ih =>
    intro x hx
    have e := expect_bind (h := walk step k) (hf x hx) (fun y g g' e => walk_fresh hI hf k y (hI x hx g y g' e)) φ
    rw [show walk step (k + 1) x = fun g => step x g >>= fun p => walk step k p.1 p.2 from rfl, e,
      expect_congr fun y g g' e => ih y (hI x hx g y g' e), expect_mul, h x hx, pow_succ, mul_assoc]

/-- The same with an inequality. -/
theorem expect_walk_le [IsProbabilityMeasure μ] {step : X → G → Res (X × G)} {I : X → Prop} (hI : ∀ x, I x → ∀ g y g', step x g = .ok (y, g') → I y)
    (hf : ∀ x, I x → Fresh (step x) μ) {φ : X → ℝ≥0∞} {c : ℝ≥0∞} (h : ∀ x, I x → expect (step x) μ φ ≤ c * φ x) (k : ℕ) :
    ∀ x, I x → expect (walk step k x) μ φ ≤ c ^ k * φ x := by
  induction k with
  | zero =>
    intro x _
    rw [pow_zero, one_mul]
    exact (expect_pure x φ).le
  | succ k ih =>
    intro x hx
    have e := expect_bind (h := walk step k) (hf x hx) (fun y g g' e => walk_fresh hI hf k y (hI x hx g y g' e)) φ
    rw [show walk step (k + 1) x = fun g => step x g >>= fun p => walk step k p.1 p.2 from rfl, e]
    refine (expect_le fun y g g' e => ih y (hI x hx g y g' e)).trans ?_
    rw [expect_mul, pow_succ, mul_assoc]
    exact mul_le_mul_right (h x hx) _

/-- The expected value as an integral over the states of the generator. -/
theorem expect_lintegral {f : G → Res (X × G)} (hf : Fresh f μ) {v : G → X} (hv : ∀ g, ∃ g', f g = .ok (v g, g')) (φ : X → ℝ≥0∞) :
    ∫⁻ g, φ (v g) ∂μ = expect f μ φ := by
  obtain ⟨C, hC, hCf⟩ := hf.countable
  have hU : (⋃ y ∈ C, hits f y Set.univ) = Set.univ := by
    refine Set.eq_univ_of_forall fun g => ?_
    obtain ⟨g', e⟩ := hv g
    exact Set.mem_biUnion (hCf g _ g' e) ⟨g', e, trivial⟩
  rw [← setLIntegral_univ, ← hU, lintegral_biUnion hC (fun y _ => hf.measurable y _ MeasurableSet.univ) fun y _ y' _ hne => Fresh.hits_disjoint f (fun _ => Set.univ) hne]
  have e : ∀ y, ∫⁻ g in hits f y Set.univ, φ (v g) ∂μ = μ (hits f y Set.univ) * φ y := by
    intro y
    rw [setLIntegral_congr_fun (hf.measurable y _ MeasurableSet.univ) (g := fun _ => φ y), setLIntegral_const, mul_comm]
    rintro g ⟨g', e, -⟩
    obtain ⟨g'', e'⟩ := hv g
    rw [e'] at e
    cases e
    rfl
  rw [tsum_congr fun y : C => e y, expect]
  refine tsum_subtype_eq_of_support_subset (f := fun y => μ (hits f y Set.univ) * φ y) ?_
  intro y hy
  by_contra hc
  refine hy ?_
  dsimp only
  rw [Fresh.hits_never, measure_empty, zero_mul]
  rintro ⟨g, g', e⟩
  exact hc (hCf g y g' e)

/-- What the program returns is measurable, as far as functions of it are concerned. -/
theorem measurable_result {f : G → Res (X × G)} (hf : Fresh f μ) {v : G → X} (hv : ∀ g, ∃ g', f g = .ok (v g, g')) {Z : Type} [MeasurableSpace Z] (φ : X → Z) :
    Measurable fun g => φ (v g) := by
  obtain ⟨C, hC, hCf⟩ := hf.countable
  intro S hS
  have : (fun g => φ (v g)) ⁻¹' S = ⋃ y ∈ C ∩ φ ⁻¹' S, hits f y Set.univ := by
    ext g
    simp only [Set.mem_preimage, Set.mem_iUnion, exists_prop, hits, Set.mem_ofPred_eq, Set.mem_inter_iff, Set.mem_univ, and_true]
    obtain ⟨g', e⟩ := hv g
    constructor
    · intro h
      exact ⟨v g, ⟨hCf g _ g' e, h⟩, g', e⟩
    · rintro ⟨y, ⟨-, h⟩, g'', e'⟩
      rw [e] at e'
      cases e'
      exact h
  rw [this]
  exact MeasurableSet.biUnion (hC.mono Set.inter_subset_left) fun y _ => hf.measurable y _ MeasurableSet.univ

end Seldon
