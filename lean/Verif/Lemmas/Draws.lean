import Verif.Spec.Random
import Mathlib.MeasureTheory.Measure.Prod
import Mathlib.Probability.ProductMeasure
/-!
# Helper lemmas: combining independent draws
-/
namespace Seldon
open Spec MeasureTheory
open scoped ENNReal
variable {G α β : Type} [MeasurableSpace G] [MeasurableSpace α] [MeasurableSpace β] {μ : Measure G}

namespace Spec

theorem Draws.map [SFinite μ] {f : G → α × G} {law : Measure α} [SFinite law] (h : Draws f law μ) {φ : α → β} (hφ : Measurable φ) :
    Draws (fun g => (φ (f g).1, (f g).2)) (law.map φ) μ := by
  have h2 : MeasurePreserving (Prod.map φ id) (law.prod μ) ((law.map φ).prod μ) :=
    (⟨hφ, rfl⟩ : MeasurePreserving φ law (law.map φ)).prod (MeasurePreserving.id μ)
  exact h2.comp h

theorem Draws.both [SFinite μ] {f : G → α × G} {h : G → β × G} {a : Measure α} {b : Measure β} [SFinite a] [SFinite b] (hf : Draws f a μ) (hh : Draws h b μ) :
    Draws (fun g => (((f g).1, (h (f g).2).1), (h (f g).2).2)) (a.prod b) μ := by
  have h1 : MeasurePreserving (Prod.map id h) (a.prod μ) (a.prod (b.prod μ)) := (MeasurePreserving.id a).prod hh
  have h2 : MeasurePreserving (MeasurableEquiv.prodAssoc (α := α) (β := β) (γ := G)).symm (a.prod (b.prod μ)) ((a.prod b).prod μ) :=
    (measurePreserving_prodAssoc a b μ).symm
  exact h2.comp (h1.comp hf)

/-- The state after `n` draws. -/
def after (f : G → α × G) : ℕ → G → G
  | 0, g => g
  | n + 1, g => after f n (f g).2

omit [MeasurableSpace G] [MeasurableSpace α] in
theorem after_succ (f : G → α × G) (n : ℕ) (g : G) : after f (n + 1) g = (f (after f n g)).2 := by
  induction n generalizing g with
  | zero => rfl
  | succ n ih => rw [after, ih]; rfl

theorem after_measurable {f : G → α × G} (hf : Measurable f) (n : ℕ) : Measurable (after f n) := by
  induction n with
  | zero => exact measurable_id
  | succ n ih => exact ih.comp (measurable_snd.comp hf)

/-- Successive draws are independent and have the same law. -/
theorem Draws.iid {f : G → α × G} {law : Measure α} [IsProbabilityMeasure μ] [SFinite law] (h : Draws f law μ) (n : ℕ) {S : ℕ → Set α}
    (hS : ∀ i, MeasurableSet (S i)) : μ {g | ∀ i, i < n → (f (after f i g)).1 ∈ S i} = ∏ i ∈ Finset.range n, law (S i) := by
  induction n generalizing S with
  | zero => simp
  | succ n ih =>
    have hm : MeasurableSet {g | ∀ i, i < n → (f (after f i g)).1 ∈ S (i + 1)} := by
      have : {g | ∀ i, i < n → (f (after f i g)).1 ∈ S (i + 1)} = ⋂ i ∈ Finset.range n, {g | (f (after f i g)).1 ∈ S (i + 1)} := by
        ext g; simp
      rw [this]
      exact Finset.measurableSet_biInter _ fun i _ => (measurable_fst.comp (h.measurable.comp (after_measurable h.measurable i))) (hS (i + 1))
    have e : {g | ∀ i, i < n + 1 → (f (after f i g)).1 ∈ S i} = f ⁻¹' (S 0 ×ˢ {g | ∀ i, i < n → (f (after f i g)).1 ∈ S (i + 1)}) := by
      ext g
      simp only [Set.mem_ofPred_eq, Set.mem_preimage, Set.mem_prod]
      constructor
      · intro hg
        exact ⟨hg 0 (by omega), fun i hi => hg (i + 1) (by omega)⟩
      · rintro ⟨h0, h1⟩ i hi
        cases i with
        | zero => exact h0
        | succ i => exact h1 i (by omega)
    rw [e, h.measure_preimage ((hS 0).prod hm).nullMeasurableSet, Measure.prod_prod, ih fun i => hS (i + 1), Finset.prod_range_succ']
    ring

end Spec
end Seldon
