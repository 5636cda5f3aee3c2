import Verif.Lemmas.Fixation
import Verif.Props.DeffuantClusters
/-!
# Helper lemmas: the law of the initial vectors
-/
set_option linter.unusedSectionVars false
namespace Seldon
open Spec MeasureTheory
open scoped ENNReal
variable {G X : Type} [MeasurableSpace G] {μ : Measure G}

/-- What happens after a program, according to what it returned. -/
theorem Fresh.after_sum {f : G → Res (X × G)} (hf : Fresh f μ) {S : X → Set G} (hS : ∀ y g g', f g = .ok (y, g') → MeasurableSet (S y)) :
    MeasurableSet {g | ∃ y g', f g = .ok (y, g') ∧ g' ∈ S y} ∧ μ {g | ∃ y g', f g = .ok (y, g') ∧ g' ∈ S y} = expect f μ fun y => μ (S y) := by
  obtain ⟨C, hC, hCf⟩ := hf.countable
  have e : {g | ∃ y g', f g = .ok (y, g') ∧ g' ∈ S y} = ⋃ y ∈ C, hits f y (S y) := by
    ext g
    simp only [Set.mem_ofPred_eq, Set.mem_iUnion, exists_prop, hits]
    constructor
    · rintro ⟨y, g', h1, h2⟩
      exact ⟨y, hCf g y g' h1, g', h1, h2⟩
    · rintro ⟨y, -, g', h1, h2⟩
      exact ⟨y, g', h1, h2⟩
  have hval : ∀ y, MeasurableSet (hits f y (S y)) ∧ μ (hits f y (S y)) = μ (hits f y Set.univ) * μ (S y) := by
    intro y
    by_cases hy : ∃ g g', f g = .ok (y, g')
    · obtain ⟨g, g', h⟩ := hy
      exact ⟨hf.measurable y _ (hS y g g' h), hf.indep y _ (hS y g g' h)⟩
    · rw [Fresh.hits_never _ hy, Fresh.hits_never _ hy, measure_empty, zero_mul]
      exact ⟨MeasurableSet.empty, rfl⟩
  rw [e]
  refine ⟨MeasurableSet.biUnion hC fun y _ => (hval y).1, ?_⟩
  rw [measure_biUnion hC (fun y _ y' _ hne => Fresh.hits_disjoint f _ hne) (fun y _ => (hval y).1), tsum_congr fun y : C => (hval y).2, expect]
  refine tsum_subtype_eq_of_support_subset (f := fun y => μ (hits f y Set.univ) * μ (S y)) ?_
  intro y hy
  by_contra hc
  refine hy ?_
  dsimp only
  rw [Fresh.hits_never, measure_empty, zero_mul]
  rintro ⟨g, g', e⟩
  exact hc (hCf g y g' e)

namespace Deffuant

/-- A vector of `d` entries, each 0 or 1. -/
def IsBits (d : ℕ) (bs : List Int) : Prop := bs.length = d ∧ ∀ b ∈ bs, b = 0 ∨ b = 1

theorem half_mul {a b : ℝ≥0∞} (h : 2 * a = b) : a = 1 / 2 * b := by
  rw [← h, ← mul_assoc, one_div, ENNReal.inv_mul_cancel (by simp) (by simp), one_mul]

theorem drawBits_law {r : Rng G ℝ} [IsProbabilityMeasure μ] (hi : FairIntegers r μ) (d : ℕ) {bs : List Int} (hb : IsBits d bs) {S : Set G} (hS : MeasurableSet S) :
    μ (hits (fun g => .ok (drawBits r d g)) bs S) = (1 / 2) ^ d * μ S := by
  induction d generalizing bs with
  | zero =>
    obtain rfl := List.length_eq_zero_iff.mp hb.1
    have : hits (fun g : G => (.ok (drawBits r 0 g) : Res (List Int × G))) [] S = S := by
      ext g; simp [hits, drawBits]
    rw [this, pow_zero, one_mul]
  | succ d ih =>
    obtain ⟨b, bs, rfl⟩ := List.exists_cons_of_length_eq_add_one hb.1
    have hb' : IsBits d bs := ⟨by simpa using hb.1, fun x hx => hb.2 x (List.mem_cons_of_mem _ hx)⟩
    obtain ⟨c, hc, hcb⟩ : ∃ c : ℕ, c ≤ 1 ∧ b = (c : Int) := by
      rcases hb.2 b List.mem_cons_self with h | h
      · exact ⟨0, by omega, by simpa using h⟩
      · exact ⟨1, le_rfl, by simpa using h⟩
    have hT := (drawBits_fresh (μ := μ) hi d).measurable bs S hS
    have e : hits (fun g : G => (.ok (drawBits r (d + 1) g) : Res (List Int × G))) (b :: bs) S =
        {g | (r.int 0 1 g).1 ∈ ({c} : Finset ℕ) ∧ (r.int 0 1 g).2 ∈ hits (fun g => (.ok (drawBits r d g) : Res (List Int × G))) bs S} := by
      ext g
      simp only [hits, drawBits, Set.mem_ofPred_eq, Except.ok.injEq, Prod.mk.injEq, List.cons.injEq, Finset.mem_singleton, hcb, Nat.cast_inj]
      constructor
      · rintro ⟨g', ⟨⟨h1, h2⟩, h3⟩, h4⟩
        exact ⟨h1, g', by rw [← h2, ← h3], h4⟩
      · rintro ⟨h1, g', h2, h4⟩
        rw [h2]
        exact ⟨g', ⟨⟨h1, rfl⟩, rfl⟩, h4⟩
    obtain ⟨-, h2⟩ := hi.measure (m := 1) {c} (by simpa using (by omega : c < 2)) hT
    rw [e, pow_succ', mul_assoc, ← ih hb']
    refine half_mul ?_
    simpa using h2

/-- `n` vectors drawn one after the other. -/
def drawVectors (r : Rng G ℝ) (d : ℕ) : ℕ → G → List DiscreteVectorAgent × G
  | 0, g => ([], g)
  | n + 1, g => ((drawVectors r d n g).1 ++ [⟨(drawBits r d (drawVectors r d n g).2).1⟩], (drawBits r d (drawVectors r d n g).2).2)

theorem drawVectors_length (r : Rng G ℝ) (d n : ℕ) (g : G) : (drawVectors r d n g).1.length = n := by
  induction n with
  | zero => rfl
  | succ n ih => simp [drawVectors, ih]

theorem drawVectors_law {r : Rng G ℝ} [IsProbabilityMeasure μ] (hi : FairIntegers r μ) (d n : ℕ) {xs : List DiscreteVectorAgent} (hl : xs.length = n)
    (hb : ∀ x ∈ xs, IsBits d x.opinion) {S : Set G} (hS : MeasurableSet S) :
    MeasurableSet (hits (fun g => .ok (drawVectors r d n g)) xs S) ∧ μ (hits (fun g => .ok (drawVectors r d n g)) xs S) = (1 / 2) ^ (n * d) * μ S := by
  induction n generalizing xs S with
  | zero =>
    obtain rfl := List.length_eq_zero_iff.mp hl
    have : hits (fun g : G => (.ok (drawVectors r d 0 g) : Res (List DiscreteVectorAgent × G))) [] S = S := by
      ext g; simp [hits, drawVectors]
    rw [this, Nat.zero_mul, pow_zero, one_mul]
    exact ⟨hS, rfl⟩
  | succ n ih =>
    obtain ⟨ys, y, rfl⟩ : ∃ ys y, xs = ys ++ [y] := by
      refine ⟨xs.dropLast, xs.getLast (by intro h; rw [h] at hl; simp at hl), (List.dropLast_append_getLast _).symm⟩
    have hl' : ys.length = n := by simpa using hl
    have hT := (drawBits_fresh (μ := μ) hi d).measurable y.opinion S hS
    have e : hits (fun g : G => (.ok (drawVectors r d (n + 1) g) : Res (List DiscreteVectorAgent × G))) (ys ++ [y]) S =
        hits (fun g : G => (.ok (drawVectors r d n g) : Res (List DiscreteVectorAgent × G))) ys (hits (fun g => (.ok (drawBits r d g) : Res (List Int × G))) y.opinion S) := by
      ext g
      simp only [hits, drawVectors, Set.mem_ofPred_eq, Except.ok.injEq, Prod.mk.injEq]
      constructor
      · rintro ⟨g', ⟨h1, h2⟩, h3⟩
        obtain ⟨h4, h5⟩ := List.append_inj' h1 rfl
        refine ⟨_, by rw [← h4], g', ?_, h3⟩
        rw [← h2, ← (List.cons.inj h5).1]
      · rintro ⟨g1, h1, g', h2, h3⟩
        refine ⟨g', ⟨?_, ?_⟩, h3⟩
        · rw [h1, h2]
        · rw [h1, h2]
    obtain ⟨h1, h2⟩ := ih hl' (fun x hx => hb x (List.mem_append_left _ hx)) hT
    rw [e, h2, drawBits_law hi d (hb y (by simp)) hS, ← mul_assoc, ← pow_add, Nat.succ_mul]
    exact ⟨h1, rfl⟩

theorem initializeVectors_draw (r : Rng G ℝ) (d : ℕ) (s : Deffuant DiscreteVectorAgent ℝ G) :
    initializeVectors r d s = .ok ({ s with network := ({ s.network with agents := (drawVectors r d s.network.agents.length s.gen).1 } : Network DiscreteVectorAgent ℝ), gen := (drawVectors r d s.network.agents.length s.gen).2 } : Deffuant DiscreteVectorAgent ℝ G) := by
  unfold initializeVectors
  have := loop_eq (n := s.network.agents.length) (f := fun i (t : List DiscreteVectorAgent × G) => do
      let _ ← rd t.1 i
      let (bits, g) := drawBits r d t.2
      let agents ← wr t.1 i ⟨bits⟩
      .ok (agents, g)) (fun k => ((drawVectors r d k s.gen).1 ++ s.network.agents.drop k, (drawVectors r d k s.gen).2)) (by
      intro k hk
      have hlen : k < ((drawVectors r d k s.gen).1 ++ s.network.agents.drop k).length := by
        rw [List.length_append, drawVectors_length, List.length_drop]; omega
      rw [rd_lt hlen, Res.bind_ok]
      simp only [wr_lt _ hlen, Res.bind_ok, Except.ok.injEq, Prod.mk.injEq, drawVectors, and_true]
      rw [List.set_append_right _ _ (by rw [drawVectors_length]), drawVectors_length, Nat.sub_self, List.drop_eq_getElem_cons hk, List.set_cons_zero,
        List.append_assoc]
      rfl)
  simp only [drawVectors, List.nil_append, List.drop_zero] at this
  rw [this, Res.bind_ok]
  simp

theorem drawVectors_fresh {r : Rng G ℝ} [IsProbabilityMeasure μ] (hi : FairIntegers r μ) (d n : ℕ) : Fresh (fun g => .ok (drawVectors r d n g)) μ := by
  induction n with
  | zero => exact (Fresh.pure ([] : List DiscreteVectorAgent)).1
  | succ n ih =>
    exact Fresh.bind (h := fun (xs : List DiscreteVectorAgent) g => ((.ok (drawBits r d g) : Res (List Int × G)) >>= fun q =>
        (fun bs g => .ok (xs ++ [⟨bs⟩], g)) q.1 q.2)) ih
      fun xs _ _ _ => Fresh.bind (h := fun bs g => .ok (xs ++ [⟨bs⟩], g)) (drawBits_fresh hi d) fun bs _ _ _ => (Fresh.pure _).1

theorem drawBits_bits {r : Rng G ℝ} (hr : r.IntLawful) (d : ℕ) (g : G) : IsBits d (drawBits r d g).1 := by
  induction d generalizing g with
  | zero => exact ⟨rfl, by simp [drawBits]⟩
  | succ d ih =>
    obtain ⟨h1, h2⟩ := ih (r.int 0 1 g).2
    refine ⟨by simp [drawBits, h1], ?_⟩
    intro b hb
    rcases List.mem_cons.mp hb with rfl | hb
    · have := hr.int_le 0 1 g (by omega)
      show ((r.int 0 1 g).1 : Int) = 0 ∨ ((r.int 0 1 g).1 : Int) = 1
      omega
    · exact h2 b hb

theorem drawVectors_bits {r : Rng G ℝ} (hr : r.IntLawful) (d n : ℕ) (g : G) : ∀ x ∈ (drawVectors r d n g).1, IsBits d x.opinion := by
  induction n with
  | zero => simp [drawVectors]
  | succ n ih =>
    intro x hx
    rcases List.mem_append.mp hx with hx | hx
    · exact ih x hx
    · rw [List.mem_singleton.mp hx]
      exact drawBits_bits hr d _

end Deffuant
end Seldon
