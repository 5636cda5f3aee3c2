import Verif.Props.VectorLimit
import Verif.Props.InitialVectors
/-!
# C99: how many opinions survive in the binary-vector Deffuant model
-/
set_option linter.unusedSectionVars false
namespace Seldon
open Spec MeasureTheory Filter
variable {G : Type} [MeasurableSpace G] {μ : Measure G}

/-- The number of places in which two lists differ (Hamming distance for lists of length `d`). -/
def Spec.differ (d : ℕ) (x y : List Int) : ℕ := ((Finset.range d).filter fun j => x[j]? ≠ y[j]?).card

/-- How many different opinions the agents in `Q` have. -/
def Spec.opinionCount (xs : List DiscreteVectorAgent) (Q : Finset ℕ) : ℕ := (Q.image fun i => xs[i]?.map (·.opinion)).card

theorem Spec.BinaryVector.at {d : ℕ} {x : List Int} (h : BinaryVector d x) {j : ℕ} (hj : j < d) : x[j]? = some 0 ∨ x[j]? = some 1 := by
  have hl : j < x.length := by rw [h.1]; exact hj
  rw [List.getElem?_eq_getElem hl]
  rcases h.2 _ (List.getElem_mem hl) with e | e <;> simp [e]

/-- Binary lists of length `d` of which any two differ in at least `t` places: the Singleton bound. -/
theorem singleton_bound {d : ℕ} {t : ℝ} {C : Finset (List Int)} (hb : ∀ x ∈ C, BinaryVector d x) (hC : ∀ x ∈ C, ∀ y ∈ C, x ≠ y → t ≤ differ d x y) :
    C.card ≤ 2 ^ (d + 1 - ⌈t⌉₊) := by
  have hcard : Fintype.card (Fin (d + 1 - ⌈t⌉₊) → Bool) = 2 ^ (d + 1 - ⌈t⌉₊) := by simp
  rw [← hcard, ← Finset.card_univ]
  refine Finset.card_le_card_of_injOn (fun x j => decide (x[(j : ℕ)]? = some 1)) (fun x _ => Finset.mem_coe.mpr (Finset.mem_univ _)) ?_
  intro x hx y hy hxy
  have hx := Finset.mem_coe.mp hx
  have hy := Finset.mem_coe.mp hy
  have hsame : ∀ j, j < d → j < d + 1 - ⌈t⌉₊ → x[j]? = y[j]? := by
    intro j hj hk
    have := congrFun hxy ⟨j, hk⟩
    simp only [decide_eq_decide] at this
    rcases (hb x hx).at hj with e | e <;> rcases (hb y hy).at hj with e' | e' <;> rw [e, e'] at this ⊢ <;> simp at this
  by_contra hne
  have h1 := hC x hx y hy hne
  have h2 : differ d x y ≤ d - (d + 1 - ⌈t⌉₊) := by
    unfold differ
    refine (Finset.card_le_card (t := Finset.Ico (d + 1 - ⌈t⌉₊) d) ?_).trans (by simp)
    intro j hj
    obtain ⟨hj1, hj2⟩ := Finset.mem_filter.mp hj
    have hj1 := Finset.mem_range.mp hj1
    refine Finset.mem_Ico.mpr ⟨?_, hj1⟩
    by_contra hc
    exact hj2 (hsame j hj1 (by omega))
  have h3 : ⌈t⌉₊ ≤ differ d x y := Nat.ceil_le.mpr h1
  have h4 : 0 < differ d x y := by
    refine Finset.card_pos.mpr ?_
    by_contra hc
    rw [Finset.not_nonempty_iff_eq_empty, Finset.filter_eq_empty_iff] at hc
    refine hne (List.ext_getElem? fun j => ?_)
    by_cases hj : j < d
    · exact not_not.mp (hc (Finset.mem_range.mpr hj))
    · rw [List.getElem?_eq_none (by rw [(hb x hx).1]; omega), List.getElem?_eq_none (by rw [(hb y hy).1]; omega)]
  omega

/-- Binary lists of length `d` of which any two differ in at least `t` places: the Plotkin bound. -/
theorem plotkin_bound {d : ℕ} {t : ℝ} {C : Finset (List Int)} (hne : C.Nonempty) (hb : ∀ x ∈ C, BinaryVector d x)
    (hC : ∀ x ∈ C, ∀ y ∈ C, x ≠ y → t ≤ differ d x y) : (C.card : ℝ) * (2 * t - d) ≤ 2 * t := by
  classical
  have hM : (0 : ℝ) < C.card := by exact_mod_cast Finset.card_pos.mpr hne
  have hlow : (C.card : ℝ) * ((C.card - 1) * t) ≤ ∑ x ∈ C, ∑ y ∈ C, (differ d x y : ℝ) := by
    rw [← nsmul_eq_mul, ← Finset.sum_const]
    refine Finset.sum_le_sum fun x hx => ?_
    rw [← Finset.add_sum_erase C _ hx]
    have h1 : ((C.card : ℝ) - 1) * t = ∑ y ∈ C.erase x, t := by
      rw [Finset.sum_const, nsmul_eq_mul, Finset.card_erase_of_mem hx, Nat.cast_sub (Finset.card_pos.mpr hne), Nat.cast_one]
    have h2 : ∑ y ∈ C.erase x, t ≤ ∑ y ∈ C.erase x, (differ d x y : ℝ) :=
      Finset.sum_le_sum fun y hy => hC x hx y (Finset.mem_of_mem_erase hy) (Finset.ne_of_mem_erase hy).symm
    have h3 : (0 : ℝ) ≤ (differ d x x : ℝ) := Nat.cast_nonneg _
    linarith
  have hup : ∑ x ∈ C, ∑ y ∈ C, (differ d x y : ℝ) ≤ d * ((C.card : ℝ) ^ 2 / 2) := by
    have e : ∀ x ∈ C, ∀ y ∈ C, (differ d x y : ℝ) = ∑ j ∈ Finset.range d,
        ((if x[j]? = some 1 then (1 : ℝ) else 0) + (if y[j]? = some 1 then 1 else 0) - 2 * ((if x[j]? = some 1 then 1 else 0) * (if y[j]? = some 1 then 1 else 0))) := by
      intro x hx y hy
      unfold differ
      rw [Finset.card_filter, Nat.cast_sum]
      refine Finset.sum_congr rfl fun j hj => ?_
      have hj := Finset.mem_range.mp hj
      rcases (hb x hx).at hj with e | e <;> rcases (hb y hy).at hj with e' | e' <;> rw [e, e'] <;> norm_num
    rw [Finset.sum_congr rfl fun x hx => Finset.sum_congr rfl fun y hy => e x hx y hy]
    rw [Finset.sum_congr rfl fun x _ => Finset.sum_comm, Finset.sum_comm]
    have hj : ∀ j ∈ Finset.range d, (∑ x ∈ C, ∑ y ∈ C,
        ((if x[j]? = some 1 then (1 : ℝ) else 0) + (if y[j]? = some 1 then 1 else 0) - 2 * ((if x[j]? = some 1 then 1 else 0) * (if y[j]? = some 1 then 1 else 0)))) ≤
          (C.card : ℝ) ^ 2 / 2 := by
      intro j _
      set m := ∑ x ∈ C, (if x[j]? = some 1 then (1 : ℝ) else 0) with hm
      have : (∑ x ∈ C, ∑ y ∈ C,
        ((if x[j]? = some 1 then (1 : ℝ) else 0) + (if y[j]? = some 1 then 1 else 0) - 2 * ((if x[j]? = some 1 then 1 else 0) * (if y[j]? = some 1 then 1 else 0)))) =
          C.card * m + C.card * m - 2 * (m * m) := by
        simp only [Finset.sum_sub_distrib, Finset.sum_add_distrib, ← Finset.mul_sum, ← Finset.sum_mul, ← hm, Finset.sum_const, nsmul_eq_mul]
      rw [this]
      nlinarith [sq_nonneg ((C.card : ℝ) - 2 * m)]
    refine (Finset.sum_le_sum hj).trans ?_
    rw [Finset.sum_const, Finset.card_range, nsmul_eq_mul]
  have h := hlow.trans hup
  have h2 : ((C.card : ℝ) - 1) * t ≤ d * ((C.card : ℝ) / 2) := by
    refine le_of_mul_le_mul_left ?_ hM
    nlinarith
  nlinarith

/-- Agents with binary opinions of which any two are equal or at least `t` apart. -/
theorem count_bounds {xs : List DiscreteVectorAgent} {d : ℕ} {t : ℝ} {Q : Finset ℕ} (hQ : ∀ a ∈ Q, a < xs.length) (hb : ∀ x ∈ xs, BinaryVector d x.opinion)
    (h : ∀ a ∈ Q, ∀ b ∈ Q, a ≠ b → (∀ j, entry xs a j = entry xs b j) ∨ t ≤ ((Finset.range d).filter fun j => entry xs a j ≠ entry xs b j).card) :
    opinionCount xs Q ≤ 2 ^ (d + 1 - ⌈t⌉₊) ∧ (Q.Nonempty → (opinionCount xs Q : ℝ) * (2 * t - d) ≤ 2 * t) := by
  have e : opinionCount xs Q = (Q.image fun i => Deffuant.vec xs i).card := by
    unfold opinionCount
    have : (Q.image fun i => xs[i]?.map (·.opinion)) = (Q.image fun i => Deffuant.vec xs i).image some := by
      rw [Finset.image_image]
      refine Finset.image_congr fun i hi => ?_
      have hi' := hQ i hi
      simp [Deffuant.vec_lt hi', List.getElem?_eq_getElem hi']
    rw [this, Finset.card_image_of_injective _ (Option.some_injective _)]
  have hbin : ∀ x ∈ Q.image fun i => Deffuant.vec xs i, BinaryVector d x := by
    intro x hx
    obtain ⟨a, ha, rfl⟩ := Finset.mem_image.mp hx
    rw [Deffuant.vec_lt (hQ a ha)]
    exact hb _ (List.getElem_mem _)
  have hfar : ∀ x ∈ Q.image fun i => Deffuant.vec xs i, ∀ y ∈ Q.image fun i => Deffuant.vec xs i, x ≠ y → t ≤ differ d x y := by
    intro x hx y hy hxy
    obtain ⟨a, ha, rfl⟩ := Finset.mem_image.mp hx
    obtain ⟨b, hb', rfl⟩ := Finset.mem_image.mp hy
    have hab : a ≠ b := fun e => hxy (by rw [e])
    rcases h a ha b hb' hab with hs | hs
    · refine absurd (List.ext_getElem? fun j => ?_) hxy
      rw [← Deffuant.entry_vec, ← Deffuant.entry_vec]
      exact hs j
    · unfold differ
      simpa only [Deffuant.entry_vec] using hs
  rw [e]
  exact ⟨singleton_bound hbin hfar, fun hq => plotkin_bound (hq.image _) hbin hfar⟩

/-- C99: with fair draws and binary initial opinions of length `d`, the opinions almost surely come to rest, and then any set `Q` of agents of which any two can meet has
at most `2 ^ (d + 1 - ⌈threshold⌉)` different opinions, and if `2 threshold > d` at most `2 threshold / (2 threshold - d)`, however many agents there are. -/
theorem C99_survivors {r : Rng G ℝ} [IsProbabilityMeasure μ] (hr : r.IntLawful) (hi : FairIntegers r μ) (hu : Draws r.unit uniform μ)
    {s : Deffuant DiscreteVectorAgent ℝ G} (hs : s.Ready)
    (hsym : s.useNetwork = true → ∀ a b, a < s.network.agents.length → b ∈ s.network.neighbours.getD a [] → a ∈ s.network.neighbours.getD b [])
    {d : ℕ} (hd : ∀ x ∈ s.network.agents, BinaryVector d x.opinion) :
    ∀ᵐ g ∂μ, ∃ st : Nat → Deffuant DiscreteVectorAgent ℝ G, st 0 = { s with gen := g } ∧ Deffuant.TrajectoryV r st ∧
      ∃ T, (∀ t, T ≤ t → (st t).network.agents = (st T).network.agents) ∧
        ∀ Q : Finset ℕ, Q.Nonempty → (∀ a ∈ Q, a < s.network.agents.length) → (∀ a ∈ Q, ∀ b ∈ Q, a ≠ b → s.CanMeet a b) →
          opinionCount (st T).network.agents Q ≤ 2 ^ (d + 1 - ⌈s.threshold⌉₊) ∧
          (d < 2 * s.threshold → (opinionCount (st T).network.agents Q : ℝ) ≤ 2 * s.threshold / (2 * s.threshold - d)) := by
  filter_upwards [C85_rest hr hi hu hs hsym (fun x hx => (hd x hx).1)] with g ⟨st, hst, hT, T, hlate, hrest⟩
  refine ⟨st, hst, hT, T, hlate, fun Q hne hQ hmeet => ?_⟩
  have hd0 : Deffuant.Dim d (st 0).network.agents := by rw [hst]; exact fun x hx => (hd x hx).1
  obtain ⟨hF, hD, hP⟩ := Deffuant.iteratesVector_inv hd0 (Deffuant.trajectoryV_iterates hT T)
  have hlen : (st T).network.agents.length = s.network.agents.length := by rw [hF.n, hst]
  have hbin : ∀ x ∈ (st T).network.agents, BinaryVector d x.opinion := by
    intro x hx
    refine ⟨hD x hx, fun v hv => ?_⟩
    obtain ⟨i, hi', rfl⟩ := List.mem_iff_getElem.mp hx
    obtain ⟨j, hj, rfl⟩ := List.mem_iff_getElem.mp hv
    refine hP (fun _ v => v = 0 ∨ v = 1) ?_ i j _ (by simp [entry, hi', hj])
    intro i j v hv
    rw [hst] at hv
    unfold entry at hv
    obtain ⟨x, hx, hxv⟩ := Option.bind_eq_some_iff.mp hv
    exact (hd x (List.mem_of_getElem? hx)).2 v (List.mem_of_getElem? hxv)
  obtain ⟨h1, h2⟩ := count_bounds (t := s.threshold) (fun a ha => by rw [hlen]; exact hQ a ha) hbin (fun a ha b hb hab => hrest a b (hmeet a ha b hb hab))
  exact ⟨h1, fun h => (le_div_iff₀ (by linarith)).mpr (h2 hne)⟩

/-- C99, without network, from the construction of the model and the random initial vectors: the bounds hold for all agents together. -/
theorem C99_created {r : Rng G ℝ} [IsProbabilityMeasure μ] (hr : r.IntLawful) (hi : FairIntegers r μ) (hu : Draws r.unit uniform μ)
    {isqrt : Nat → Nat} {max : Option Int} {thr mu : ℝ} {N : Network DiscreteVectorAgent ℝ} {g₀ : G}
    {s : Deffuant DiscreteVectorAgent ℝ G} (hw : WF N) (hN : N.agents.length < 2 ^ 64) (hn : 0 < N.agents.length)
    (hc : Deffuant.create isqrt max thr mu false N g₀ = .ok s) (dim : ℕ) :
    ∀ᵐ g ∂μ, ∃ st : Nat → Deffuant DiscreteVectorAgent ℝ G, Deffuant.initializeVectors r dim { s with gen := g } = .ok (st 0) ∧ Deffuant.TrajectoryV r st ∧
      ∃ T, (∀ t, T ≤ t → (st t).network.agents = (st T).network.agents) ∧
        opinionCount (st T).network.agents (Finset.range N.agents.length) ≤ 2 ^ (dim + 1 - ⌈thr⌉₊) ∧
        (dim < 2 * thr → (opinionCount (st T).network.agents (Finset.range N.agents.length) : ℝ) ≤ 2 * thr / (2 * thr - dim)) := by
  filter_upwards [C85_created hr hi hu hw hN hc dim] with g ⟨st, hst, hT, T, hlate, hrest⟩
  refine ⟨st, hst, hT, T, hlate, ?_⟩
  obtain ⟨hlen, hbin⟩ := C39_binary hr hst (Deffuant.trajectoryV_iterates hT T)
  have hsN : s.network.agents.length = N.agents.length ∧ s.useNetwork = false := by
    unfold Deffuant.create at hc
    rw [if_neg (by simp)] at hc
    cases hc
    exact ⟨rfl, rfl⟩
  have hlen' : (st T).network.agents.length = N.agents.length := hlen.trans hsN.1
  obtain ⟨h1, h2⟩ := count_bounds (t := thr) (Q := Finset.range N.agents.length) (fun a ha => by rw [hlen']; exact Finset.mem_range.mp ha) hbin (fun a ha b hb hab => hrest a b
    ⟨by rw [hsN.1]; exact Finset.mem_range.mp ha, by rw [hsN.1]; exact Finset.mem_range.mp hb, hab, fun h => by rw [hsN.2] at h; cases h⟩)
  exact ⟨h1, fun h => (le_div_iff₀ (by linarith)).mpr (h2 ⟨0, Finset.mem_range.mpr hn⟩)⟩

/-! ## The hypotheses are met -/

/-- Three agents with the opinions 00, 01, 11 and threshold 2: at most two opinions survive. -/
example : ∀ᵐ g ∂tapes, ∃ st : Nat → Deffuant DiscreteVectorAgent ℝ (ℕ → ℝ), st 0 = { threeVectors with gen := g } ∧ Deffuant.TrajectoryV fairRng st ∧
    ∃ T, (∀ t, T ≤ t → (st t).network.agents = (st T).network.agents) ∧ opinionCount (st T).network.agents {0, 1, 2} ≤ 2 := by
  have := C99_survivors fairRng_lawful fairRng_fair fairRng_unit threeVectors_ready (fun h => by cases h) (d := 2) (by
    intro x hx
    simp only [threeVectors, List.mem_cons, List.not_mem_nil, or_false] at hx
    rcases hx with rfl | rfl | rfl <;> exact ⟨rfl, by simp⟩)
  filter_upwards [this] with g ⟨st, h1, h2, T, h3, h4⟩
  have hQ : ∀ a ∈ ({0, 1, 2} : Finset ℕ), a < threeVectors.network.agents.length := by simp [threeVectors]
  refine ⟨st, h1, h2, T, h3, (h4 {0, 1, 2} ⟨0, by simp⟩ hQ fun a ha b hb hab => ⟨hQ a ha, hQ b hb, hab, fun h => by cases h⟩).1.trans ?_⟩
  have : ⌈threeVectors.threshold⌉₊ = 2 := by
    show ⌈(2 : ℝ)⌉₊ = 2
    exact Nat.ceil_ofNat 2
  rw [this]
  norm_num

/-- The four words of length 3 with an even number of ones differ in two places: the Singleton bound is attained. -/
example : ∀ x ∈ ({[0, 0, 0], [0, 1, 1], [1, 0, 1], [1, 1, 0]} : Finset (List Int)), ∀ y ∈ ({[0, 0, 0], [0, 1, 1], [1, 0, 1], [1, 1, 0]} : Finset (List Int)), x ≠ y →
    differ 3 x y = 2 := by decide

end Seldon
