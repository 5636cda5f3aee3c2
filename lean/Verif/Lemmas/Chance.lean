import Verif.Lemmas.FairDraws
/-!
# Helper lemmas: programs that draw random values and leave a fresh generator; random walks on finitely many states
-/
namespace Seldon
open Spec MeasureTheory
open scoped ENNReal
variable {G X Y : Type} [MeasurableSpace G] {μ : Measure G}

/-- The states of the generator from which the program returns `y` and leaves a state in `S`. -/
def hits (f : G → Res (X × G)) (y : X) (S : Set G) : Set G := {g | ∃ g', f g = .ok (y, g') ∧ g' ∈ S}

/-- The program never fails, and whatever it returns, the state of the generator that it leaves is fresh. -/
structure Fresh (f : G → Res (X × G)) (μ : Measure G) : Prop where
  ok : ∀ g, ∃ p, f g = .ok p
  countable : ∃ C : Set X, C.Countable ∧ ∀ g y g', f g = .ok (y, g') → y ∈ C
  measurable : ∀ y S, MeasurableSet S → MeasurableSet (hits f y S)
  indep : ∀ y S, MeasurableSet S → μ (hits f y S) = μ (hits f y Set.univ) * μ S

/-- The value `y` is returned with positive probability. -/
def Likely (f : G → Res (X × G)) (μ : Measure G) (y : X) : Prop := μ (hits f y Set.univ) ≠ 0

namespace Fresh

theorem of_draws [SFinite μ] [IsProbabilityMeasure μ] [MeasurableSpace X] [MeasurableSingletonClass X] [Countable X] {f : G → X × G} {law : Measure X} [SFinite law] (h : Draws f law μ) :
    Fresh (fun g => .ok (f g)) μ ∧ ∀ y, μ (hits (fun g => .ok (f g)) y Set.univ) = law {y} := by
  have e : ∀ y S, hits (fun g => (.ok (f g) : Res (X × G))) y S = f ⁻¹' ({y} ×ˢ S) := by
    intro y S
    ext g
    simp only [hits, Set.mem_ofPred_eq, Except.ok.injEq, Set.mem_preimage, Set.mem_prod, Set.mem_singleton_iff]
    constructor
    · rintro ⟨g', h1, h2⟩
      rw [h1]; exact ⟨rfl, h2⟩
    · rintro ⟨h1, h2⟩
      exact ⟨_, by rw [← h1], h2⟩
  have hv : ∀ y S, MeasurableSet S → μ (hits (fun g => (.ok (f g) : Res (X × G))) y S) = law {y} * μ S := by
    intro y S hS
    rw [e, h.measure_preimage ((measurableSet_singleton y).prod hS).nullMeasurableSet, Measure.prod_prod]
  have hu : ∀ y, μ (hits (fun g => (.ok (f g) : Res (X × G))) y Set.univ) = law {y} := by
    intro y
    rw [hv y _ MeasurableSet.univ, measure_univ, mul_one]
  refine ⟨⟨fun g => ⟨_, rfl⟩, ⟨Set.univ, Set.countable_univ, fun _ _ _ _ => trivial⟩, fun y S hS => ?_, fun y S hS => ?_⟩, hu⟩
  · rw [e]
    exact h.measurable ((measurableSet_singleton y).prod hS)
  · rw [hv y S hS, hu]

theorem pure [IsProbabilityMeasure μ] (x : X) : Fresh (fun g => .ok (x, g)) μ ∧ Likely (fun g => .ok (x, g)) μ x := by
  have e : ∀ S, hits (fun g => (.ok (x, g) : Res (X × G))) x S = S := by
    intro S
    ext g
    simp only [hits, Set.mem_ofPred_eq, Except.ok.injEq, Prod.mk.injEq, true_and]
    exact ⟨fun ⟨g', h1, h2⟩ => h1 ▸ h2, fun h => ⟨g, rfl, h⟩⟩
  have e' : ∀ y S, y ≠ x → hits (fun g => (.ok (x, g) : Res (X × G))) y S = ∅ := by
    intro y S hy
    ext g
    simp only [hits, Set.mem_ofPred_eq, Except.ok.injEq, Prod.mk.injEq, Set.mem_empty_iff_false, iff_false]
    rintro ⟨g', ⟨h1, -⟩, -⟩
    exact hy h1.symm
  refine ⟨⟨fun g => ⟨_, rfl⟩, ⟨{x}, Set.countable_singleton x, ?_⟩, fun y S hS => ?_, fun y S hS => ?_⟩, ?_⟩
  · intro g y g' h
    cases h
    exact Set.mem_singleton x
  · by_cases hy : y = x
    · rw [hy, e]; exact hS
    · rw [e' y S hy]; exact MeasurableSet.empty
  · by_cases hy : y = x
    · rw [hy, e, e, measure_univ, one_mul]
    · rw [e' y _ hy, e' y _ hy, measure_empty, zero_mul]
  · rw [Likely, e, measure_univ]; exact one_ne_zero

omit [MeasurableSpace G] in
theorem hits_bind (f : G → Res (X × G)) (h : X → G → Res (Y × G)) (z : Y) (S : Set G) :
    hits (fun g => f g >>= fun p => h p.1 p.2) z S = ⋃ y, hits f y (hits (h y) z S) := by
  ext g
  simp only [hits, Set.mem_ofPred_eq, Set.mem_iUnion]
  constructor
  · rintro ⟨g', h1, h2⟩
    obtain ⟨p, h3, h4⟩ := Res.bind_eq_ok.mp h1
    exact ⟨p.1, p.2, h3, g', h4, h2⟩
  · rintro ⟨y, g', h1, g'', h2, h3⟩
    exact ⟨g'', by rw [h1, Res.bind_ok]; exact h2, h3⟩

omit [MeasurableSpace G] in
theorem hits_disjoint (f : G → Res (X × G)) (S : X → Set G) : Pairwise (Function.onFun Disjoint fun y => hits f y (S y)) := by
  intro y y' hne
  rw [Function.onFun, Set.disjoint_left]
  rintro g ⟨g', h1, -⟩ ⟨g'', h2, -⟩
  rw [h1] at h2
  simp only [Except.ok.injEq, Prod.mk.injEq] at h2
  exact hne h2.1

omit [MeasurableSpace G] in
theorem hits_mono (f : G → Res (X × G)) (y : X) {S T : Set G} (h : S ⊆ T) : hits f y S ⊆ hits f y T :=
  fun _ ⟨g', h1, h2⟩ => ⟨g', h1, h h2⟩

omit [MeasurableSpace G] in
theorem hits_never {f : G → Res (X × G)} {y : X} (S : Set G) (h : ¬ ∃ g g', f g = .ok (y, g')) : hits f y S = ∅ := by
  ext g
  simp only [hits, Set.mem_ofPred_eq, Set.mem_empty_iff_false, iff_false]
  rintro ⟨g', h1, -⟩
  exact h ⟨g, g', h1⟩

/-- Two programs one after the other. -/
theorem bind_law [IsProbabilityMeasure μ] {f : G → Res (X × G)} {h : X → G → Res (Y × G)} (hf : Fresh f μ)
    (hh : ∀ y g g', f g = .ok (y, g') → Fresh (h y) μ) : Fresh (fun g => f g >>= fun p => h p.1 p.2) μ ∧
      ∀ z, μ (hits (fun g => f g >>= fun p => h p.1 p.2) z Set.univ) = ∑' y, μ (hits f y Set.univ) * μ (hits (h y) z Set.univ) := by
  have hm : ∀ z S, MeasurableSet S → ∀ y, MeasurableSet (hits f y (hits (h y) z S)) := by
    intro z S hS y
    by_cases hy : ∃ g g', f g = .ok (y, g')
    · obtain ⟨g, g', h1⟩ := hy
      exact hf.measurable _ _ ((hh y g g' h1).measurable _ _ hS)
    · rw [hits_never _ hy]; exact MeasurableSet.empty
  have hv : ∀ z S, MeasurableSet S → ∀ y, μ (hits f y (hits (h y) z S)) = μ (hits f y Set.univ) * μ (hits (h y) z Set.univ) * μ S := by
    intro z S hS y
    by_cases hy : ∃ g g', f g = .ok (y, g')
    · obtain ⟨g, g', h1⟩ := hy
      have := hh y g g' h1
      rw [hf.indep _ _ (this.measurable _ _ hS), this.indep _ _ hS, mul_assoc]
    · rw [hits_never _ hy, hits_never _ hy, measure_empty, zero_mul, zero_mul]
  obtain ⟨C, hC, hCf⟩ := hf.countable
  have hout : ∀ y, y ∉ C → ∀ S, hits f y S = ∅ := fun y hy S => hits_never S fun ⟨g, g', h1⟩ => hy (hCf g y g' h1)
  have hU : ∀ z S, (⋃ y, hits f y (hits (h y) z S)) = ⋃ y ∈ C, hits f y (hits (h y) z S) := by
    intro z S
    ext g
    simp only [Set.mem_iUnion, exists_prop]
    constructor
    · rintro ⟨y, hy⟩
      refine ⟨y, ?_, hy⟩
      by_contra hc
      rw [hout y hc] at hy
      exact hy
    · rintro ⟨y, -, hy⟩
      exact ⟨y, hy⟩
  have hsum : ∀ z S, MeasurableSet S → μ (hits (fun g => f g >>= fun p => h p.1 p.2) z S) =
      (∑' y, μ (hits f y Set.univ) * μ (hits (h y) z Set.univ)) * μ S := by
    intro z S hS
    rw [hits_bind, hU, measure_biUnion hC (fun y _ y' _ hne => hits_disjoint f _ hne) (fun y _ => hm z S hS y), ← ENNReal.tsum_mul_right]
    rw [← tsum_subtype_eq_of_support_subset (s := C) (f := fun y => μ (hits f y Set.univ) * μ (hits (h y) z Set.univ) * μ S)]
    · exact tsum_congr fun y => hv z S hS y
    · intro y hy
      by_contra hc
      refine hy ?_
      dsimp only
      rw [hout y hc, measure_empty, zero_mul, zero_mul]
  have huniv : ∀ z, μ (hits (fun g => f g >>= fun p => h p.1 p.2) z Set.univ) = ∑' y, μ (hits f y Set.univ) * μ (hits (h y) z Set.univ) := by
    intro z
    rw [hsum z _ MeasurableSet.univ, measure_univ, mul_one]
  refine ⟨⟨fun g => ?_, ?_, fun z S hS => ?_, fun z S hS => ?_⟩, huniv⟩
  · obtain ⟨p, h1⟩ := hf.ok g
    obtain ⟨q, h2⟩ := (hh p.1 g p.2 h1).ok p.2
    exact ⟨q, by rw [h1, Res.bind_ok]; exact h2⟩
  · have : ∀ y, ∃ D : Set Y, D.Countable ∧ ((∃ g g', f g = .ok (y, g')) → ∀ g z g', h y g = .ok (z, g') → z ∈ D) := by
      intro y
      by_cases hy : ∃ g g', f g = .ok (y, g')
      · obtain ⟨g, g', h1⟩ := hy
        obtain ⟨D, hD, hDh⟩ := (hh y g g' h1).countable
        exact ⟨D, hD, fun _ => hDh⟩
      · exact ⟨∅, Set.countable_empty, fun hc => absurd hc hy⟩
    choose D hD hDh using this
    refine ⟨⋃ y ∈ C, D y, hC.biUnion fun y _ => hD y, ?_⟩
    intro g z g' h1
    obtain ⟨p, h2, h3⟩ := Res.bind_eq_ok.mp h1
    exact Set.mem_biUnion (hCf g p.1 p.2 h2) (hDh p.1 ⟨g, p.2, h2⟩ p.2 z g' h3)
  · rw [hits_bind, hU]
    exact MeasurableSet.biUnion hC fun y _ => hm z S hS y
  · rw [hsum z S hS, huniv]

theorem bind [IsProbabilityMeasure μ] {f : G → Res (X × G)} {h : X → G → Res (Y × G)} (hf : Fresh f μ)
    (hh : ∀ y g g', f g = .ok (y, g') → Fresh (h y) μ) : Fresh (fun g => f g >>= fun p => h p.1 p.2) μ := (bind_law hf hh).1

/-- What both programs may return one after the other is likely. -/
theorem likely_bind [IsProbabilityMeasure μ] {f : G → Res (X × G)} {h : X → G → Res (Y × G)} (hf : Fresh f μ)
    {y : X} {z : Y} (hy : Likely f μ y) (hh : Fresh (h y) μ) (hz : Likely (h y) μ z) : Likely (fun g => f g >>= fun p => h p.1 p.2) μ z := by
  rw [Likely, hits_bind]
  intro hc
  have h1 : μ (hits f y (hits (h y) z Set.univ)) = 0 := measure_mono_null (Set.subset_iUnion (fun y => hits f y (hits (h y) z Set.univ)) y) hc
  rw [hf.indep _ _ (hh.measurable _ _ MeasurableSet.univ)] at h1
  exact mul_ne_zero hy hz h1

/-- What holds almost surely for the generator left after every possible value holds almost surely for the pair returned. -/
theorem ae_after {f : G → Res (X × G)} (hf : Fresh f μ) {P : X → G → Prop}
    (h : ∀ y g g', f g = .ok (y, g') → ∀ᵐ g ∂μ, P y g) : ∀ᵐ g ∂μ, ∀ y g', f g = .ok (y, g') → P y g' := by
  have : ∀ y, ∀ᵐ g ∂μ, ∀ g', f g = .ok (y, g') → P y g' := by
    intro y
    by_cases hy : ∃ g g', f g = .ok (y, g')
    · obtain ⟨g, g', h1⟩ := hy
      have hz := ae_iff.mp (h y g g' h1)
      rw [ae_iff]
      refine measure_mono_null (t := hits f y (toMeasurable μ {g | ¬ P y g})) ?_ ?_
      · intro g hg
        simp only [Set.mem_ofPred_eq, not_forall, exists_prop] at hg
        obtain ⟨g', h2, h3⟩ := hg
        exact ⟨g', h2, subset_toMeasurable μ _ h3⟩
      · rw [hf.indep _ _ (measurableSet_toMeasurable μ _), measure_toMeasurable, hz, mul_zero]
    · refine Filter.Eventually.of_forall fun g g' h1 => absurd ⟨g, g', h1⟩ hy
  obtain ⟨C, hC, hCf⟩ := hf.countable
  exact ((ae_ball_iff hC).mpr fun y _ => this y).mono fun g hg y g' h1 => hg y (hCf g y g' h1) g' h1

/-- Whatever is returned, the generator that is left has the law `μ`. -/
theorem after_law [IsProbabilityMeasure μ] {f : G → Res (X × G)} (hf : Fresh f μ) {S : Set G} (hS : MeasurableSet S) :
    MeasurableSet {g | ∃ y g', f g = .ok (y, g') ∧ g' ∈ S} ∧ μ {g | ∃ y g', f g = .ok (y, g') ∧ g' ∈ S} = μ S := by
  obtain ⟨C, hC, hCf⟩ := hf.countable
  have e : ∀ S : Set G, {g | ∃ y g', f g = .ok (y, g') ∧ g' ∈ S} = ⋃ y ∈ C, hits f y S := by
    intro S
    ext g
    simp only [Set.mem_ofPred_eq, Set.mem_iUnion, exists_prop, hits]
    constructor
    · rintro ⟨y, g', h1, h2⟩
      exact ⟨y, hCf g y g' h1, g', h1, h2⟩
    · rintro ⟨y, -, g', h1, h2⟩
      exact ⟨y, g', h1, h2⟩
  have hv : ∀ S : Set G, MeasurableSet S → μ (⋃ y ∈ C, hits f y S) = (∑' y : C, μ (hits f y Set.univ)) * μ S := by
    intro S hS
    rw [measure_biUnion hC (fun y _ y' _ hne => hits_disjoint f _ hne) (fun y _ => hf.measurable y S hS), ← ENNReal.tsum_mul_right]
    exact tsum_congr fun y => hf.indep y S hS
  have h1 : ∑' y : C, μ (hits f y Set.univ) = 1 := by
    have h2 := hv Set.univ MeasurableSet.univ
    have h3 : {g | ∃ y g', f g = .ok (y, g') ∧ g' ∈ (Set.univ : Set G)} = Set.univ := by
      refine Set.eq_univ_of_forall fun g => ?_
      obtain ⟨p, hp⟩ := hf.ok g
      exact ⟨p.1, p.2, hp, trivial⟩
    rw [← e, h3, measure_univ, mul_one] at h2
    exact h2.symm
  rw [e]
  refine ⟨MeasurableSet.biUnion hC fun y _ => hf.measurable y S hS, ?_⟩
  rw [hv S hS, h1, one_mul]

theorem of_eq {f f' : G → Res (X × G)} (h : Fresh f μ) (e : ∀ g, f' g = f g) : Fresh f' μ := by
  rw [show f' = f from funext e]; exact h

end Fresh

/-- `k` steps of a random walk. -/
def walk (step : X → G → Res (X × G)) : ℕ → X → G → Res (X × G)
  | 0, x, g => .ok (x, g)
  | k + 1, x, g => step x g >>= fun p => walk step k p.1 p.2

omit [MeasurableSpace G] in
theorem walk_add (step : X → G → Res (X × G)) (i j : ℕ) (x : X) (g : G) :
    walk step (i + j) x g = walk step i x g >>= fun p => walk step j p.1 p.2 := by
  induction i generalizing x g with
  | zero => rw [Nat.zero_add]; rfl
  | succ i ih =>
    rw [Nat.succ_add, walk, walk]
    cases h : step x g with
    | error e => rfl
    | ok p =>
      simp only [Res.bind_ok]
      exact ih p.1 p.2

/-- The steps of a walk leave the generator fresh. -/
theorem walk_fresh [IsProbabilityMeasure μ] {step : X → G → Res (X × G)} {I : X → Prop} (hI : ∀ x, I x → ∀ g y g', step x g = .ok (y, g') → I y)
    (hf : ∀ x, I x → Fresh (step x) μ) (k : ℕ) : ∀ x, I x → Fresh (walk step k x) μ := by
  induction k with
  | zero => exact fun x _ => (Fresh.pure x).1
  | succ k ih => exact fun x hx => (hf x hx).bind fun y g g' h => ih y (hI x hx g y g' h)

/-- If a bijection of the states leaves the law of each step as it is, it leaves the law of the walk as it is. -/
theorem walk_invariant [IsProbabilityMeasure μ] {step step' : X → G → Res (X × G)} {I I' : X → Prop} (hI : ∀ x, I x → ∀ g y g', step x g = .ok (y, g') → I y)
    (hI' : ∀ x, I' x → ∀ g y g', step' x g = .ok (y, g') → I' y) (hf : ∀ x, I x → Fresh (step x) μ) (hf' : ∀ x, I' x → Fresh (step' x) μ) (φ : X ≃ X)
    (hφ : ∀ x, I x → I' (φ x))
    (hs : ∀ x, I x → ∀ y, μ (hits (step' (φ x)) (φ y) Set.univ) = μ (hits (step x) y Set.univ)) (k : ℕ) :
    ∀ x, I x → ∀ y, μ (hits (walk step' k (φ x)) (φ y) Set.univ) = μ (hits (walk step k x) y Set.univ) := by
  induction k with
  | zero =>
    intro x _ y
    have e : hits (walk step' 0 (φ x)) (φ y) Set.univ = hits (walk step 0 x) y Set.univ := by
      ext g
      simp [hits, walk]
    rw [e]
  | succ k ih =>
    intro x hx y
    have h1 := ((hf x hx).bind_law fun y g g' h => walk_fresh hI hf k y (hI x hx g y g' h)).2 y
    have h2 := ((hf' (φ x) (hφ x hx)).bind_law fun y g g' h => walk_fresh hI' hf' k y (hI' _ (hφ x hx) g y g' h)).2 (φ y)
    show μ (hits (fun g => step' (φ x) g >>= fun p => walk step' k p.1 p.2) (φ y) Set.univ) = μ (hits (fun g => step x g >>= fun p => walk step k p.1 p.2) y Set.univ)
    rw [h1, h2, ← φ.tsum_eq]
    refine tsum_congr fun z => ?_
    by_cases hz : ∃ g g', step x g = .ok (z, g')
    · obtain ⟨g, g', hz⟩ := hz
      rw [hs x hx, ih z (hI x hx g z g' hz)]
    · rw [hs x hx, Fresh.hits_never _ hz, measure_empty, zero_mul, zero_mul]

/-- The walk stays away from `Z` during its first `k` steps. -/
def avoid (step : X → G → Res (X × G)) (Z : X → Prop) (k : ℕ) (x : X) : Set G := {g | ∀ j, j ≤ k → ∀ y g', walk step j x g = .ok (y, g') → ¬ Z y}

omit [MeasurableSpace G] in
theorem avoid_in (step : X → G → Res (X × G)) {Z : X → Prop} {x : X} (hx : Z x) (k : ℕ) : avoid step Z k x = ∅ := by
  ext g
  simp only [avoid, Set.mem_ofPred_eq, Set.mem_empty_iff_false, iff_false]
  intro h
  exact h 0 (Nat.zero_le _) x g rfl hx

omit [MeasurableSpace G] in
theorem avoid_zero (step : X → G → Res (X × G)) {Z : X → Prop} {x : X} (hx : ¬ Z x) : avoid step Z 0 x = Set.univ := by
  ext g
  simp only [avoid, Set.mem_ofPred_eq, Set.mem_univ, iff_true]
  intro j hj y g' h1
  obtain rfl : j = 0 := by omega
  rw [walk] at h1
  simp only [Except.ok.injEq, Prod.mk.injEq] at h1
  rw [← h1.1]; exact hx

omit [MeasurableSpace G] in
theorem avoid_succ (step : X → G → Res (X × G)) {Z : X → Prop} {x : X} (hx : ¬ Z x) (k : ℕ) (g : G) :
    g ∈ avoid step Z (k + 1) x ↔ ∀ y g', step x g = .ok (y, g') → g' ∈ avoid step Z k y := by
  simp only [avoid, Set.mem_ofPred_eq]
  constructor
  · intro h y g' h1 j hj z g'' h2
    exact h (j + 1) (by omega) z g'' (by rw [walk, h1, Res.bind_ok]; exact h2)
  · intro h j hj y g' h1
    cases j with
    | zero =>
      rw [walk] at h1
      simp only [Except.ok.injEq, Prod.mk.injEq] at h1
      rw [← h1.1]; exact hx
    | succ j =>
      rw [walk] at h1
      obtain ⟨p, h2, h3⟩ := Res.bind_eq_ok.mp h1
      exact h p.1 p.2 h2 j (by omega) y g' h3

theorem step_decompose {step : X → G → Res (X × G)} {I : Finset X} (hI : ∀ x ∈ I, ∀ g y g', step x g = .ok (y, g') → y ∈ I)
    (hf : ∀ x ∈ I, Fresh (step x) μ) {x : X} (hx : x ∈ I) (T : X → Set G) (B : Set G) (hB : ∀ g, g ∈ B ↔ ∀ y g', step x g = .ok (y, g') → g' ∈ T y) :
    B = ⋃ y ∈ I, hits (step x) y (T y) := by
  ext g
  obtain ⟨⟨y, g'⟩, h1⟩ := (hf x hx).ok g
  rw [hB]
  simp only [Set.mem_iUnion, exists_prop]
  constructor
  · intro h
    exact ⟨y, hI x hx g y g' h1, g', h1, h y g' h1⟩
  · rintro ⟨y', -, g'', h2, h3⟩ z z' h4
    rw [h2] at h4
    simp only [Except.ok.injEq, Prod.mk.injEq] at h4
    obtain ⟨rfl, rfl⟩ := h4
    exact h3

/-- The law of one step, conditioned on what follows. -/
theorem step_sum {step : X → G → Res (X × G)} {I : Finset X} (hI : ∀ x ∈ I, ∀ g y g', step x g = .ok (y, g') → y ∈ I)
    (hf : ∀ x ∈ I, Fresh (step x) μ) {x : X} (hx : x ∈ I) {T : X → Set G} (hT : ∀ y ∈ I, MeasurableSet (T y)) {B : Set G}
    (hB : ∀ g, g ∈ B ↔ ∀ y g', step x g = .ok (y, g') → g' ∈ T y) :
    MeasurableSet B ∧ μ B = ∑ y ∈ I, μ (hits (step x) y Set.univ) * μ (T y) := by
  rw [step_decompose hI hf hx T B hB]
  refine ⟨Finset.measurableSet_biUnion _ fun y hy => (hf x hx).measurable _ _ (hT y hy), ?_⟩
  rw [measure_biUnion_finset (fun y _ y' _ hne => Fresh.hits_disjoint (step x) T hne) (fun y hy => (hf x hx).measurable _ _ (hT y hy))]
  exact Finset.sum_congr rfl fun y hy => (hf x hx).indep _ _ (hT y hy)

theorem step_one [IsProbabilityMeasure μ] {step : X → G → Res (X × G)} {I : Finset X} (hI : ∀ x ∈ I, ∀ g y g', step x g = .ok (y, g') → y ∈ I)
    (hf : ∀ x ∈ I, Fresh (step x) μ) {x : X} (hx : x ∈ I) : ∑ y ∈ I, μ (hits (step x) y Set.univ) = 1 := by
  have := (step_sum hI hf hx (T := fun _ => Set.univ) (fun _ _ => MeasurableSet.univ) (B := Set.univ) (by simp)).2
  simpa using this.symm

theorem avoid_measurable {step : X → G → Res (X × G)} {I : Finset X} (Z : X → Prop) (hI : ∀ x ∈ I, ∀ g y g', step x g = .ok (y, g') → y ∈ I)
    (hf : ∀ x ∈ I, Fresh (step x) μ) (k : ℕ) : ∀ x ∈ I, MeasurableSet (avoid step Z k x) := by
  induction k with
  | zero =>
    intro x hx
    by_cases hz : Z x
    · rw [avoid_in step hz]; exact MeasurableSet.empty
    · rw [avoid_zero step hz]; exact MeasurableSet.univ
  | succ k ih =>
    intro x hx
    by_cases hz : Z x
    · rw [avoid_in step hz]; exact MeasurableSet.empty
    · exact (step_sum hI hf hx ih (avoid_succ step hz k)).1

/-- The Markov property: what is avoided during `m + n` steps is avoided during `m` steps and then, from wherever the walk is, during `n` more. -/
theorem avoid_add [IsProbabilityMeasure μ] {step : X → G → Res (X × G)} {I : Finset X} (Z : X → Prop)
    (hI : ∀ x ∈ I, ∀ g y g', step x g = .ok (y, g') → y ∈ I) (hf : ∀ x ∈ I, Fresh (step x) μ) {n : ℕ} {c : ℝ≥0∞}
    (hc : ∀ y ∈ I, μ (avoid step Z n y) ≤ c) (m : ℕ) : ∀ x ∈ I, μ (avoid step Z (m + n) x) ≤ c * μ (avoid step Z m x) := by
  induction m with
  | zero =>
    intro x hx
    by_cases hz : Z x
    · rw [avoid_in step hz, measure_empty]; exact bot_le
    · rw [avoid_zero step hz, measure_univ, mul_one, Nat.zero_add]; exact hc x hx
  | succ m ih =>
    intro x hx
    by_cases hz : Z x
    · rw [avoid_in step hz, measure_empty]; exact bot_le
    · rw [show m + 1 + n = m + n + 1 by omega, (step_sum hI hf hx (avoid_measurable Z hI hf (m + n)) (avoid_succ step hz (m + n))).2,
        (step_sum hI hf hx (avoid_measurable Z hI hf m) (avoid_succ step hz m)).2, Finset.mul_sum]
      refine Finset.sum_le_sum fun y hy => ?_
      rw [mul_left_comm]
      exact mul_le_mul_right (ih y hy) _

/-- A walk on finitely many states, which from every state can reach `Z`, almost surely reaches `Z`. -/
theorem avoid_null [IsProbabilityMeasure μ] {step : X → G → Res (X × G)} (I : Finset X) (Z : X → Prop)
    (hI : ∀ x ∈ I, ∀ g y g', step x g = .ok (y, g') → y ∈ I) (hf : ∀ x ∈ I, Fresh (step x) μ)
    (hr : ∀ x ∈ I, ∃ y, Z y ∧ Relation.ReflTransGen (fun x y => Likely (step x) μ y) x y) :
    ∀ x ∈ I, μ (⋂ k, avoid step Z k x) = 0 := by
  classical
  let A : X → Set G := fun x => ⋂ k, avoid step Z k x
  have hAm : ∀ x ∈ I, MeasurableSet (A x) := fun x hx => MeasurableSet.iInter fun k => avoid_measurable Z hI hf k x hx
  have hA0 : ∀ x, Z x → A x = ∅ := by
    intro x hx
    exact Set.eq_empty_of_subset_empty fun g hg => by rw [← avoid_in step hx 0]; exact Set.mem_iInter.mp hg 0
  have hAs : ∀ x, ¬ Z x → ∀ g, g ∈ A x ↔ ∀ y g', step x g = .ok (y, g') → g' ∈ A y := by
    intro x hx g
    constructor
    · intro h y g' h1
      exact Set.mem_iInter.mpr fun k => (avoid_succ step hx k g).mp (Set.mem_iInter.mp h (k + 1)) y g' h1
    · intro h
      have hk : ∀ k, g ∈ avoid step Z (k + 1) x := fun k => (avoid_succ step hx k g).mpr fun y g' h1 => Set.mem_iInter.mp (h y g' h1) k
      exact Set.mem_iInter.mpr fun k j hj => hk k j (by omega)
  have hsum : ∀ x ∈ I, ¬ Z x → μ (A x) = ∑ y ∈ I, μ (hits (step x) y Set.univ) * μ (A y) :=
    fun x hx hz => (step_sum hI hf hx hAm (hAs x hz)).2
  have hone : ∀ x ∈ I, ∑ y ∈ I, μ (hits (step x) y Set.univ) = 1 := fun x hx => step_one hI hf hx
  -- a state from which `Z` is avoided with the greatest probability
  show ∀ x ∈ I, μ (A x) = 0
  intro x₀ hx₀
  obtain ⟨m, hm, hmax⟩ := Finset.exists_max_image I (fun x => μ (A x)) ⟨x₀, hx₀⟩
  suffices μ (A m) = 0 from le_antisymm ((hmax x₀ hx₀).trans this.le) bot_le
  by_contra hne
  have hfin : ∀ x, μ (A x) ≠ ⊤ := fun x => measure_ne_top μ _
  have hstep : ∀ x ∈ I, μ (A x) = μ (A m) → ¬ Z x → ∀ y, Likely (step x) μ y → y ∈ I ∧ μ (A y) = μ (A m) := by
    intro x hx he hz y hy
    have hyI : y ∈ I := by
      by_contra hc
      refine hy ?_
      rw [Fresh.hits_never, measure_empty]
      rintro ⟨g, g', h1⟩
      exact hc (hI x hx g y g' h1)
    refine ⟨hyI, ?_⟩
    by_contra hlt
    have hlt : μ (A y) < μ (A m) := lt_of_le_of_ne (hmax y hyI) hlt
    have h1 := hsum x hx hz
    have hcm : ∑ y ∈ I, μ (hits (step x) y Set.univ) * μ (A m) = μ (A m) := by
      rw [← Finset.sum_mul, hone x hx, one_mul]
    have h2 : ∑ y ∈ I, μ (hits (step x) y Set.univ) * μ (A y) < ∑ y ∈ I, μ (hits (step x) y Set.univ) * μ (A m) := by
      have hr1 := Finset.add_sum_erase I (fun y => μ (hits (step x) y Set.univ) * μ (A y)) hyI
      have hr2 := Finset.add_sum_erase I (fun y => μ (hits (step x) y Set.univ) * μ (A m)) hyI
      rw [← hr1, ← hr2]
      refine ENNReal.add_lt_add_of_lt_of_le ?_ ?_ ?_
      · refine ne_top_of_le_ne_top ENNReal.one_ne_top ((Finset.sum_le_sum_of_subset (Finset.erase_subset y I)).trans ?_)
        rw [← hone x hx]
        exact Finset.sum_le_sum fun z _ => mul_le_of_le_one_right' prob_le_one
      · exact (ENNReal.mul_lt_mul_iff_right hy (measure_ne_top μ _)).mpr hlt
      · exact Finset.sum_le_sum fun z hz => mul_le_mul_right (hmax z (Finset.mem_of_mem_erase hz)) _
    rw [hcm, ← h1, he] at h2
    exact lt_irrefl _ h2
  obtain ⟨z, hz, hp⟩ := hr m hm
  have : ∀ {y}, Relation.ReflTransGen (fun x y => Likely (step x) μ y) m y → y ∈ I ∧ μ (A y) = μ (A m) := by
    intro y h
    induction h with
    | refl => exact ⟨hm, rfl⟩
    | tail _ hl ih =>
      refine hstep _ ih.1 ih.2 ?_ _ hl
      intro hc
      refine hne ?_
      rw [← ih.2, hA0 _ hc, measure_empty]
  have h2 := (this hp).2
  rw [hA0 z hz, measure_empty] at h2
  exact hne h2.symm

/-- A walk on finitely many states, which from every state can reach `Z`, almost surely reaches `Z`. -/
theorem walk_absorbed [IsProbabilityMeasure μ] {step : X → G → Res (X × G)} (I : Finset X) (Z : X → Prop)
    (hI : ∀ x ∈ I, ∀ g y g', step x g = .ok (y, g') → y ∈ I) (hf : ∀ x ∈ I, Fresh (step x) μ)
    (hr : ∀ x ∈ I, ∃ y, Z y ∧ Relation.ReflTransGen (fun x y => Likely (step x) μ y) x y) :
    ∀ x ∈ I, ∀ᵐ g ∂μ, ∃ k y g', walk step k x g = .ok (y, g') ∧ Z y := by
  intro x hx
  rw [ae_iff]
  refine measure_mono_null ?_ (avoid_null I Z hI hf hr x hx)
  intro g hg
  simp only [Set.mem_ofPred_eq, not_exists, not_and] at hg
  exact Set.mem_iInter.mpr fun k j _ y g' h1 => hg j y g' h1

/-- The time until `Z` is reached has a geometric tail. -/
theorem avoid_tail [IsProbabilityMeasure μ] {step : X → G → Res (X × G)} (I : Finset X) (Z : X → Prop)
    (hI : ∀ x ∈ I, ∀ g y g', step x g = .ok (y, g') → y ∈ I) (hf : ∀ x ∈ I, Fresh (step x) μ)
    (hr : ∀ x ∈ I, ∃ y, Z y ∧ Relation.ReflTransGen (fun x y => Likely (step x) μ y) x y) :
    ∃ K, ∀ m, ∀ x ∈ I, μ (avoid step Z (m * K) x) ≤ (1 / 2) ^ m := by
  have hanti : ∀ x, Antitone fun k => avoid step Z k x := fun x k k' hk g hg j hj => hg j (hj.trans hk)
  have hex : ∀ x ∈ I, ∃ K, ∀ k, K ≤ k → μ (avoid step Z k x) ≤ 1 / 2 := by
    intro x hx
    have ht := tendsto_measure_iInter_atTop (μ := μ) (s := fun k => avoid step Z k x)
      (fun k => (avoid_measurable Z hI hf k x hx).nullMeasurableSet) (hanti x) ⟨0, measure_ne_top μ _⟩
    rw [avoid_null I Z hI hf hr x hx] at ht
    have := (ENNReal.tendsto_nhds_zero.mp ht) (1 / 2) (by simp)
    exact Filter.eventually_atTop.mp this
  choose! K hK using hex
  refine ⟨I.sup K, ?_⟩
  intro m
  induction m with
  | zero => intro x _; rw [pow_zero]; exact prob_le_one
  | succ m ih =>
    intro x hx
    have h1 := avoid_add Z hI hf (n := I.sup K) (c := 1 / 2) (fun y hy => hK y hy _ (Finset.le_sup hy)) (m * I.sup K) x hx
    rw [Nat.succ_mul, pow_succ, mul_comm ((1 / 2 : ℝ≥0∞) ^ m)]
    exact h1.trans (mul_le_mul_right (ih x hx) _)

end Seldon
