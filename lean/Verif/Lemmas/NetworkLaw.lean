import Verif.Lemmas.Draws
import Verif.Lemmas.Tape
import Verif.Lemmas.NetworkGen
import Verif.Props.DeffuantLaw
import Mathlib.MeasureTheory.Constructions.Pi
import Mathlib.MeasureTheory.Group.Arithmetic
/-!
# Helper lemmas: the law of one row of a generated network
-/
set_option linter.unusedSectionVars false
namespace Seldon
open Spec MeasureTheory
open scoped ENNReal
variable {A G : Type} [MeasurableSpace G] {μ : Measure G}

namespace Spec

/-- Non-negative amounts as shares of their sum. -/
noncomputable def inShares {k : ℕ} (u : Fin k → ℝ) : Fin k → ℝ := fun i => u i / ∑ j, u j

/-- The law of `k` independent uniform numbers, each divided by the sum of all. -/
noncomputable def sharesLaw (k : ℕ) : Measure (Fin k → ℝ) := (Measure.pi fun _ => uniform).map inShares

open Classical in
/-- The share of the sets in `E` among the sets of `k` of the agents `0, ..., n - 1` other than `i`. -/
noncomputable def setShare (n k i : ℕ) (E : Set (Finset ℕ)) : ℝ≥0∞ :=
  ((((Finset.range n).erase i).powersetCard k).filter (· ∈ E)).card / ((((Finset.range n).erase i).powersetCard k).card : ℕ)

end Spec

theorem inShares_measurable {k : ℕ} : Measurable (inShares (k := k)) := by
  unfold inShares
  fun_prop

instance (k : ℕ) : IsProbabilityMeasure (sharesLaw k) := Measure.isProbabilityMeasure_map inShares_measurable.aemeasurable

namespace NetworkGen

/-- The first `n` numbers drawn. -/
def units (r : Rng G ℝ) : (n : ℕ) → G → (Fin n → ℝ) × G
  | 0, g => (Fin.elim0, g)
  | n + 1, g => (Fin.cons (r.unit g).1 (units r n (r.unit g).2).1, (units r n (r.unit g).2).2)

theorem units_draws {r : Rng G ℝ} [IsProbabilityMeasure μ] (h : Draws r.unit uniform μ) (n : ℕ) : Draws (units r n) (Measure.pi fun _ => uniform) μ := by
  induction n with
  | zero =>
    have hu : (Measure.pi fun _ : Fin 0 => uniform) = Measure.dirac Fin.elim0 := by
      rw [Measure.pi_of_empty (x := Fin.elim0)]
    have : units r 0 = fun g => ((Fin.elim0 : Fin 0 → ℝ), g) := by funext g; rfl
    rw [this, hu]
    exact ⟨measurable_const.prodMk measurable_id, (Measure.dirac_prod _).symm⟩
  | succ n ih =>
    have e := (measurePreserving_piFinSuccAbove (fun _ : Fin (n + 1) => uniform) 0).symm
    have := (h.both ih).map e.measurable
    rw [e.map_eq] at this
    convert this using 1
    funext g
    rw [units]
    congr 1
    rw [MeasurableEquiv.piFinSuccAbove]
    show _ = Fin.insertNth 0 _ _
    rw [Fin.insertNth_zero']

theorem drawWeights_units (r : Rng G ℝ) (n : ℕ) (acc : ℝ) (g : G) :
    drawWeights r n acc g = (List.ofFn (units r n g).1, acc + ∑ i, (units r n g).1 i, (units r n g).2) := by
  induction n generalizing acc g with
  | zero => simp [drawWeights, units]
  | succ n ih =>
    simp only [drawWeights, ih, units, List.ofFn_cons, Fin.sum_cons, add_assoc]

theorem units_last (r : Rng G ℝ) (n : ℕ) (g : G) :
    units r (n + 1) g = (Fin.snoc (units r n g).1 (r.unit (units r n g).2).1, (r.unit (units r n g).2).2) := by
  induction n generalizing g with
  | zero =>
    simp only [units]
    congr 1
    funext i
    obtain ⟨i, hi⟩ := i
    obtain rfl : i = 0 := by omega
    rfl
  | succ n ih =>
    rw [units, ih]
    simp only
    rw [Fin.cons_snoc_eq_snoc_cons]
    rfl

theorem connectionRow_units {r : Rng G ℝ} {n k i : ℕ} (self : Bool) {g g1 : G} {nbrs : List ℕ} (h : Draw.drawUnique r (some i) k n [] g = .ok (nbrs, g1))
    (hk : nbrs.length = k) :
    connectionRow r n k self i g = .ok (nbrs ++ (if self then [i] else []), List.ofFn (inShares (units r (k + self.toNat) g1).1), (units r (k + self.toNat) g1).2) := by
  subst hk
  cases self with
  | false =>
    simp only [connectionRow, h, Res.bind_ok, drawWeights_units, Bool.false_eq_true, if_false, List.append_nil, Bool.toNat_false, Nat.add_zero, zero_add]
    rw [List.map_ofFn]
    rfl
  | true =>
    simp only [connectionRow, h, Res.bind_ok, drawWeights_units, if_true, Bool.toNat_true, zero_add]
    rw [units_last]
    have e : (List.ofFn (units r nbrs.length g1).1 ++ [(r.unit (units r nbrs.length g1).2).1]) =
        List.ofFn (Fin.snoc (units r nbrs.length g1).1 (r.unit (units r nbrs.length g1).2).1 : Fin (nbrs.length + 1) → ℝ) := by
      rw [List.ofFn_succ']
      simp
    rw [e, List.map_ofFn]
    have e2 : (∑ x, (units r nbrs.length g1).1 x + (r.unit (units r nbrs.length g1).2).1) = ∑ j, (Fin.snoc (units r nbrs.length g1).1 (r.unit (units r nbrs.length g1).2).1 : Fin (nbrs.length + 1) → ℝ) j := by
      rw [Fin.sum_snoc]
    rw [e2]
    rfl

/-- The states of the generator from which the row of agent `i` lists a set of neighbours in `E` and weights in `S`, and leaves a state in `T`. -/
def rowHits (r : Rng G ℝ) (n k : ℕ) (self : Bool) (i : ℕ) (E : Set (Finset ℕ)) (S : Set (Fin (k + self.toNat) → ℝ)) (T : Set G) : Set G :=
  {g | ∃ (nbrs : List ℕ) (ws : Fin (k + self.toNat) → ℝ) (g' : G), connectionRow r n k self i g = .ok (nbrs ++ (if self then [i] else []), List.ofFn ws, g') ∧
    nbrs.toFinset ∈ E ∧ ws ∈ S ∧ g' ∈ T}

theorem rowHits_law {r : Rng G ℝ} [IsProbabilityMeasure μ] (hr : r.IntLawful) (hi : FairIntegers r μ) (hu : Draws r.unit uniform μ) {n k : ℕ} (hk : k < n)
    (self : Bool) {i : ℕ} (hin : i < n) (E : Set (Finset ℕ)) {S : Set (Fin (k + self.toNat) → ℝ)} (hS : MeasurableSet S) {T : Set G} (hT : MeasurableSet T) :
    MeasurableSet (rowHits r n k self i E S T) ∧
    μ (rowHits r n k self i E S T) =
      setShare n k i E * sharesLaw (k + self.toNat) S * μ T := by
  classical
  rw [setShare, Finset.card_powersetCard, Finset.card_erase_of_mem (Finset.mem_range.mpr hin), Finset.card_range]
  set S2 : Set G := units r (k + self.toNat) ⁻¹' ((inShares ⁻¹' S) ×ˢ T) with hS2
  have d := units_draws hu (k + self.toNat)
  have m2 : MeasurableSet ((inShares ⁻¹' S) ×ˢ T) := (inShares_measurable hS).prod hT
  have hm2 : MeasurableSet S2 := d.measurable m2
  have hv2 : μ S2 = sharesLaw (k + self.toNat) S * μ T := by
    rw [hS2, d.measure_preimage m2.nullMeasurableSet, Measure.prod_prod, sharesLaw, Measure.map_apply inShares_measurable hS]
  set Fs := (((Finset.range n).erase i).powersetCard k).filter (· ∈ E) with hFs
  have hav : Draw.avail (some i) n = (List.range n).filter (fun j => some i ≠ some j) := rfl
  have hlen : ((List.range n).filter (fun j => some i ≠ some j)).length = n - 1 := Draw.avail_length_some hin
  have key : ∀ B ∈ Fs, MeasurableSet {g | ∃ g', Draw.drawUnique r (some i) k n [] g = .ok (B.sort (· ≤ ·), g') ∧ g' ∈ S2} ∧
      μ {g | ∃ g', Draw.drawUnique r (some i) k n [] g = .ok (B.sort (· ≤ ·), g') ∧ g' ∈ S2} = μ S2 / ((n - 1).choose k : ℕ) := by
    intro B hB
    obtain ⟨hB1, hB2⟩ := Finset.mem_powersetCard.mp (Finset.mem_filter.mp hB).1
    have hl : (B.sort (· ≤ ·)).length = k := by rw [Finset.length_sort, hB2]
    have := C62_law hr hi (some i) n (B.sort (· ≤ ·)) [] (Finset.sortedLT_sort B).pairwise (by
      intro j hj
      have := hB1 ((Finset.mem_sort _).mp hj)
      obtain ⟨h1, h2⟩ := Finset.mem_erase.mp this
      exact ⟨Finset.mem_range.mp h2, fun h => h1 (by simpa using h.symm)⟩) hm2
    rw [hl, hlen] at this
    exact this
  have e : rowHits r n k self i E S T = ⋃ B ∈ Fs, {g | ∃ g', Draw.drawUnique r (some i) k n [] g = .ok (B.sort (· ≤ ·), g') ∧ g' ∈ S2} := by
    ext g
    simp only [rowHits, Set.mem_ofPred_eq, Set.mem_iUnion, exists_prop]
    constructor
    · rintro ⟨nbrs, ws, g', h1, h2, h3, h4⟩
      obtain ⟨ys, g1, p1, p2, p3⟩ := Draw.drawUnique_eq hr (some i) k n [] g
      rw [Draw.avail_length_some hin, min_eq_left (by omega)] at p3
      rw [List.drop_eq_nil_of_le (by rw [Draw.resize_length, p3]), List.append_nil] at p1
      rw [connectionRow_units self p1 p3] at h1
      simp only [Except.ok.injEq, Prod.mk.injEq] at h1
      obtain ⟨q1, q2, q3⟩ := h1
      have q1 := List.append_cancel_right q1
      subst q1
      have q2 := List.ofFn_injective q2
      have hs : ys.Pairwise (· < ·) := (Draw.avail_sorted _ _).sublist p2
      have hsort : ys.toFinset.sort (· ≤ ·) = ys := (List.toFinset_sort _ (hs.imp fun h => ne_of_lt h)).mpr (hs.imp fun h => le_of_lt h)
      refine ⟨ys.toFinset, ?_, g1, ?_, ?_⟩
      · rw [hFs, Finset.mem_filter, Finset.mem_powersetCard]
        refine ⟨⟨?_, ?_⟩, h2⟩
        · intro j hj
          obtain ⟨t1, t2⟩ := Draw.mem_avail.mp (p2.subset (List.mem_toFinset.mp hj))
          exact Finset.mem_erase.mpr ⟨fun h => t2 (by rw [h]), Finset.mem_range.mpr t1⟩
        · rw [List.toFinset_card_of_nodup (hs.imp fun h => ne_of_lt h), p3]
      · rw [hsort, p1]
      · rw [hS2, Set.mem_preimage, Set.mem_prod, Set.mem_preimage, q2, q3]
        exact ⟨h3, h4⟩
    · rintro ⟨B, hB, g1, h1, h2⟩
      obtain ⟨hB1, hB2⟩ := Finset.mem_powersetCard.mp (Finset.mem_filter.mp hB).1
      have hl : (B.sort (· ≤ ·)).length = k := by rw [Finset.length_sort, hB2]
      rw [hS2, Set.mem_preimage, Set.mem_prod] at h2
      refine ⟨_, _, _, connectionRow_units self h1 hl, ?_, h2.1, h2.2⟩
      rw [Finset.sort_toFinset]
      exact (Finset.mem_filter.mp hB).2
  rw [e]
  refine ⟨Finset.measurableSet_biUnion _ fun B hB => (key B hB).1, ?_⟩
  rw [measure_biUnion_finset ?_ fun B hB => (key B hB).1, Finset.sum_congr rfl fun B hB => (key B hB).2, Finset.sum_const, nsmul_eq_mul, hv2]
  · rw [div_eq_mul_inv, div_eq_mul_inv]; ring
  · intro B _ B' _ hne
    refine Set.disjoint_left.mpr ?_
    rintro g ⟨g1, h1, -⟩ ⟨g2, h2, -⟩
    rw [h1] at h2
    simp only [Except.ok.injEq, Prod.mk.injEq] at h2
    exact hne (by rw [← Finset.sort_toFinset (r := (· ≤ ·)) B, h2.1, Finset.sort_toFinset])

end NetworkGen
end Seldon
