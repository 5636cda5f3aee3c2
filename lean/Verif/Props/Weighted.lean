import Verif.Lemmas.ExpJProgram
import Verif.Lemmas.Squeeze
import Verif.Props.Sampling
/-!
# C67: reservoir sampling follows the weights
-/
namespace Seldon
open Spec MeasureTheory Keys ExpJ
open scoped ENNReal
variable {G : Type}

/-- All ways to draw `k` items from `S` one after the other. -/
def sequences : ℕ → Finset ℕ → Finset (List ℕ)
  | 0, _ => {[]}
  | k + 1, S => S.biUnion fun i => (sequences k (S.erase i)).image (List.cons i)

theorem mem_sequences {k : ℕ} {S : Finset ℕ} {t : List ℕ} : t ∈ sequences k S ↔ t.length = k ∧ t.Nodup ∧ ∀ i ∈ t, i ∈ S := by
  induction k generalizing S t with
  | zero =>
    simp only [sequences, Finset.mem_singleton]
    constructor
    · rintro rfl; simp
    · rintro ⟨h, -⟩; exact List.eq_nil_of_length_eq_zero h
  | succ k ih =>
    simp only [sequences, Finset.mem_biUnion, Finset.mem_image, ih]
    constructor
    · rintro ⟨i, hi, t, ⟨h1, h2, h3⟩, rfl⟩
      refine ⟨by simp [h1], List.nodup_cons.mpr ⟨fun h => (Finset.mem_erase.mp (h3 i h)).1 rfl, h2⟩, fun j hj => ?_⟩
      rcases List.mem_cons.mp hj with rfl | hj
      · exact hi
      · exact (Finset.mem_erase.mp (h3 j hj)).2
    · rintro ⟨h1, h2, h3⟩
      cases t with
      | nil => simp at h1
      | cons i t =>
        obtain ⟨h4, h5⟩ := List.nodup_cons.mp h2
        exact ⟨i, h3 i (by simp), t, ⟨by simpa using h1, h5, fun j hj => Finset.mem_erase.mpr
          ⟨fun e => h4 (e ▸ hj), h3 j (List.mem_cons_of_mem _ hj)⟩⟩, rfl⟩

/-- Successive draws give some sequence: their probabilities add up to 1, as long as there are enough items with a positive weight. -/
theorem successive_total {w : ℕ → ℝ} (k : ℕ) (S : Finset ℕ) (hw : ∀ j ∈ S, 0 ≤ w j) (hk : k ≤ (S.filter fun j => 0 < w j).card) :
    ∑ t ∈ sequences k S, successive w S t = 1 := by
  induction k generalizing S with
  | zero => simp [sequences, successive]
  | succ k ih =>
    have hpos : 0 < ∑ j ∈ S, w j := by
      obtain ⟨i, hi⟩ := Finset.card_pos.mp (by omega : 0 < (S.filter fun j => 0 < w j).card)
      rw [Finset.mem_filter] at hi
      exact hi.2.trans_le (Finset.single_le_sum hw hi.1)
    unfold sequences
    rw [Finset.sum_biUnion]
    · have : ∀ i ∈ S, ∑ t ∈ (sequences k (S.erase i)).image (List.cons i), successive w S t = w i / ∑ j ∈ S, w j := by
        intro i hi
        rw [Finset.sum_image (by intro a _ c _ h; exact (List.cons.inj h).2)]
        simp only [successive, hi, if_true]
        rw [← Finset.mul_sum]
        rcases (hw i hi).eq_or_lt with h0 | h0
        · rw [← h0]; simp
        · rw [ih (S.erase i) (fun j hj => hw j (Finset.mem_of_mem_erase hj)), mul_one]
          rw [Finset.filter_erase, Finset.card_erase_of_mem (Finset.mem_filter.mpr ⟨hi, h0⟩)]
          omega
      rw [Finset.sum_congr rfl this, ← Finset.sum_div, div_self hpos.ne']
    · intro i _ j _ hij
      rw [Function.onFun, Finset.disjoint_left]
      intro t h1 h2
      obtain ⟨a, -, rfl⟩ := Finset.mem_image.mp h1
      obtain ⟨c, -, h⟩ := Finset.mem_image.mp h2
      exact hij (List.cons.inj h).1.symm

/-- Only the weights of the items matter. -/
theorem Reservoir.sample_congr {F : Type} [Zero F] [One F] [Sub F] [Mul F] [Add F] [Div F] [LE F] [DecidableLE F] (o : Reservoir.Ops F)
    (pick : List (ℕ × F) → ℕ) (rng : Rng G F) {k n : ℕ} {W W' : ℕ → F} (h : ∀ j, j < n → W j = W' j) (buffer : List ℕ) (g : G) :
    Reservoir.sample o pick rng k n W buffer g = Reservoir.sample o pick rng k n W' buffer g := by
  have h1 : Reservoir.fill o rng W (min n k) g = Reservoir.fill o rng W' (min n k) g := by
    unfold Reservoir.fill
    exact loop_congr fun i t hi => by rw [h i (by omega)]
  have h2 : ∀ s, loop (n - min n k) (fun j s => Reservoir.jumpStep o pick rng W (min n k + j) s) s =
      loop (n - min n k) (fun j s => Reservoir.jumpStep o pick rng W' (min n k + j) s) s := fun s =>
    loop_congr fun i t hi => by
      unfold Reservoir.jumpStep
      rw [h (min n k + i) (by omega)]
  unfold Reservoir.sample
  simp only [h1, h2]

section
variable [MeasurableSpace G] {μ : Measure G} [IsProbabilityMeasure μ] {rng : Rng G XR} {pick : List (ℕ × XR) → ℕ}

/-- The sampling code returns `b` at least as often as successive draws do, and then leaves a fresh state of the generator. -/
theorem Reservoir.sample_lower (hr : DrawsUniform rng μ) (hp : Reservoir.Pick.Min pick) {w : ℕ → ℝ} {n k : ℕ} (hw : ∀ j, j < n → 0 ≤ w j)
    (hz : ∀ i, i < n → ∀ j, j < n → w i = 0 → w j = 0 → i = j) (hk : 0 < k) (hkn : k ≤ n)
    (buffer : List ℕ) {b : List ℕ} (hb : b.length = k) (hbn : b.Nodup) (hbr : ∀ i ∈ b, i < n) {T : Set G} (hT : MeasurableSet T) :
    ∃ S : Set G, MeasurableSet S ∧
      S ⊆ {g | ∃ g' ∈ T, Reservoir.sample XR.ops pick rng k n (fun j => XR.fin (w j)) buffer g = .ok (b, g')} ∧
      ENNReal.ofReal (successive w (Finset.range n) b.reverse) * μ T ≤ μ S := by
  obtain ⟨u, hu, hru⟩ := hr
  -- weights of other numbers do not matter
  let w' : ℕ → ℝ := fun j => if j < n then w j else 0
  have hw' : ∀ j, 0 ≤ w' j := by intro j; simp only [w']; split; exacts [hw j ‹_›, le_refl 0]
  have hww : ∀ j, j < n → w' j = w j := fun j hj => by simp [w', hj]
  have hrun : ∀ g, Reservoir.sample XR.ops pick rng k n (fun j => XR.fin (w j)) buffer g =
      Reservoir.sample XR.ops pick rng k n (fun j => XR.fin (w' j)) buffer g := fun g =>
    Reservoir.sample_congr XR.ops pick rng (fun j hj => by rw [hww j hj]) buffer g
  have hsucc : ∀ (t : List ℕ) (S : Finset ℕ), (∀ j ∈ S, j < n) → successive w' S t = successive w S t := by
    intro t
    induction t with
    | nil => intro S _; rfl
    | cons i t ih =>
      intro S hS
      unfold successive
      by_cases hi : i ∈ S
      · rw [if_pos hi, if_pos hi, hww i (hS i hi), ih _ fun j hj => hS j (Finset.mem_of_mem_erase hj),
          Finset.sum_congr rfl fun j hj => hww j (hS j hj)]
      · rw [if_neg hi, if_neg hi]
  refine ⟨{g | Start w' u T b n k 0 0 g}, Start_measurable w' hu.measurable hT b n k 0 measurable_const measurable_id, ?_, ?_⟩
  · intro g hg
    show ∃ g' ∈ T, _
    rw [hrun]
    exact sample_start hp hru hw' hk hkn hg buffer
  · have e1 := order_prob (w := w') (Finset.range n) (fun j _ => hw' j) b.reverse (List.nodup_reverse.mpr hbn) one_pos le_rfl 0
    rw [Real.one_rpow, one_mul, hsucc _ _ fun j hj => Finset.mem_range.mp hj] at e1
    refine (mul_le_mul_left e1 _).trans ?_
    have e2 := start_bound (w := w') (b := b) (n := n) (k := k) hu hT (fun j _ => hw' j)
      (fun i hi j hj h4 h5 => hz i hi j hj ((hww i hi).symm.trans h4) ((hww j hj).symm.trans h5)) hbn hbr hb hk hkn (zero_add k) (v := 0)
      ⟨List.nodup_range, List.length_range, by simp, by intro j hj; omega, by intro j hj; omega, by intro j hj; omega⟩
    rw [← Finset.range_eq_Ico] at e2
    exact e2

/-- C67: with a generator that draws independent uniform numbers, `reservoir_sampling_A_ExpJ` is weighted sampling without replacement.  If at most one
item has weight 0 and at least `k` items have a positive weight, then the probability that the buffer holds exactly the items `b` (in this order) is the
probability that `k` successive draws, each proportional to the weights of the items that are left, give `b` from the last to the first item; and the
state in which the generator is left is independent of this and has the same law as before, so that everything drawn later is fresh.  For every
tie-breaking rule and whatever the buffer held before. -/
theorem C67_fresh (hr : DrawsUniform rng μ) (hp : Reservoir.Pick.Min pick) {w : ℕ → ℝ} {n k : ℕ} (hw : ∀ j, j < n → 0 ≤ w j)
    (hz : ∀ i, i < n → ∀ j, j < n → w i = 0 → w j = 0 → i = j) (hk : 0 < k) (hkn : k ≤ ((Finset.range n).filter fun j => 0 < w j).card)
    (buffer : List ℕ) {b : List ℕ} (hb : b.length = k) (hbn : b.Nodup) (hbr : ∀ i ∈ b, i < n) {T : Set G} (hT : MeasurableSet T) :
    μ {g | ∃ g' ∈ T, Reservoir.sample XR.ops pick rng k n (fun j => XR.fin (w j)) buffer g = .ok (b, g')} =
      ENNReal.ofReal (successive w (Finset.range n) b.reverse) * μ T := by
  have hkn' : k ≤ n := hkn.trans ((Finset.card_filter_le _ _).trans (by simp))
  have hw' : ∀ j ∈ Finset.range n, 0 ≤ w j := fun j hj => hw j (Finset.mem_range.mp hj)
  refine (squeeze (μ := μ) (ι := List ℕ × Bool) (sequences k (Finset.range n) ×ˢ Finset.univ)
    (fun i => {g | ∃ g' ∈ (if i.2 then T else Tᶜ), Reservoir.sample XR.ops pick rng k n (fun j => XR.fin (w j)) buffer g = .ok (i.1.reverse, g')})
    (fun i => ENNReal.ofReal (successive w (Finset.range n) i.1) * μ (if i.2 then T else Tᶜ)) ?_ ?_ ?_ (i := (b.reverse, true)) ?_).2.symm.trans ?_ |>.symm
  · rintro ⟨c, d⟩ - ⟨c', d'⟩ - hne
    rw [Set.disjoint_left]
    rintro g ⟨g1, h1, e1⟩ ⟨g2, h2, e2⟩
    rw [e1] at e2
    obtain ⟨e3, rfl⟩ := Prod.mk.inj (Except.ok.inj e2)
    obtain rfl := List.reverse_injective e3
    cases d <;> cases d' <;> simp_all
  · rintro ⟨c, d⟩ hc
    obtain ⟨h1, h2, h3⟩ := mem_sequences.mp (Finset.mem_product.mp hc).1
    have := Reservoir.sample_lower hr hp hw hz hk hkn' buffer (b := c.reverse) (by simp [h1]) (List.nodup_reverse.mpr h2)
      (fun i hi => Finset.mem_range.mp (h3 i (List.mem_reverse.mp hi))) (T := if d then T else Tᶜ) (by cases d <;> simp [hT])
    rwa [List.reverse_reverse] at this
  · rw [Finset.sum_product]
    simp only [Fintype.sum_bool, ← mul_add, if_true, Bool.false_eq_true, if_false]
    rw [← Finset.sum_mul, prob_add_prob_compl hT, mul_one, ← ENNReal.ofReal_sum_of_nonneg fun t _ => successive_nonneg _ hw' t,
      successive_total k _ hw' hkn, ENNReal.ofReal_one]
  · exact Finset.mem_product.mpr ⟨mem_sequences.mpr ⟨by simp [hb], List.nodup_reverse.mpr hbn,
      fun i hi => Finset.mem_range.mpr (hbr i (List.mem_reverse.mp hi))⟩, Finset.mem_univ _⟩
  · simp

/-- C67: the probabilities of the samples. -/
theorem C67_weighted (hr : DrawsUniform rng μ) (hp : Reservoir.Pick.Min pick) {w : ℕ → ℝ} {n k : ℕ} (hw : ∀ j, j < n → 0 ≤ w j)
    (hz : ∀ i, i < n → ∀ j, j < n → w i = 0 → w j = 0 → i = j) (hk : 0 < k) (hkn : k ≤ ((Finset.range n).filter fun j => 0 < w j).card)
    (buffer : List ℕ) {b : List ℕ} (hb : b.length = k) (hbn : b.Nodup) (hbr : ∀ i ∈ b, i < n) :
    μ {g | ∃ g', Reservoir.sample XR.ops pick rng k n (fun j => XR.fin (w j)) buffer g = .ok (b, g')} =
      ENNReal.ofReal (successive w (Finset.range n) b.reverse) := by
  have := C67_fresh hr hp hw hz hk hkn buffer hb hbn hbr MeasurableSet.univ
  simpa using this

/-- C67, one item: it is sampled with a probability proportional to its weight. -/
theorem C67_single (hr : DrawsUniform rng μ) (hp : Reservoir.Pick.Min pick) {w : ℕ → ℝ} {n : ℕ} (hw : ∀ j, j < n → 0 ≤ w j)
    (hz : ∀ i, i < n → ∀ j, j < n → w i = 0 → w j = 0 → i = j) (hpos : ∃ j, j < n ∧ 0 < w j) (buffer : List ℕ) {i : ℕ} (hi : i < n) :
    μ {g | ∃ g', Reservoir.sample XR.ops pick rng 1 n (fun j => XR.fin (w j)) buffer g = .ok ([i], g')} =
      ENNReal.ofReal (w i / ∑ j ∈ Finset.range n, w j) := by
  rw [C67_weighted hr hp hw hz one_pos ?_ buffer (b := [i]) rfl (by simp) (by simpa using hi)]
  · simp [successive, hi]
  · obtain ⟨j, hj, h0⟩ := hpos
    exact Finset.card_pos.mpr ⟨j, by simp [hj, h0]⟩

/-- C67: nothing else is returned: almost surely the buffer holds `k` different items with positive weights. -/
theorem C67_almost_surely (hr : DrawsUniform rng μ) (hp : Reservoir.Pick.Min pick) {w : ℕ → ℝ} {n k : ℕ} (hw : ∀ j, j < n → 0 ≤ w j)
    (hz : ∀ i, i < n → ∀ j, j < n → w i = 0 → w j = 0 → i = j) (hk : 0 < k) (hkn : k ≤ ((Finset.range n).filter fun j => 0 < w j).card)
    (buffer : List ℕ) :
    ∀ᵐ g ∂μ, ∃ b g', Reservoir.sample XR.ops pick rng k n (fun j => XR.fin (w j)) buffer g = .ok (b, g') ∧ b.length = k ∧ b.Nodup ∧
      ∀ i ∈ b, i < n ∧ 0 < w i := by
  have hkn' : k ≤ n := hkn.trans ((Finset.card_filter_le _ _).trans (by simp))
  -- sequences with an item without weight have probability 0
  have hzero : ∀ (t : List ℕ) (S : Finset ℕ), (∃ i ∈ t, w i = 0) → successive w S t = 0 := by
    intro t
    induction t with
    | nil => rintro S ⟨i, hi, -⟩; simp at hi
    | cons a t ih =>
      rintro S ⟨i, hi, h0⟩
      unfold successive
      split
      · rcases List.mem_cons.mp hi with rfl | hi
        · rw [h0]; simp
        · rw [ih _ ⟨i, hi, h0⟩, mul_zero]
      · rfl
  have hnull : ∀ t ∈ (sequences k (Finset.range n)).filter (fun t => ∃ i ∈ t, w i = 0),
      μ {g | ∃ g', Reservoir.sample XR.ops pick rng k n (fun j => XR.fin (w j)) buffer g = .ok (t.reverse, g')} = 0 := by
    intro t ht
    rw [Finset.mem_filter] at ht
    obtain ⟨h1, h2, h3⟩ := mem_sequences.mp ht.1
    rw [C67_weighted hr hp hw hz hk hkn buffer (by simp [h1]) (List.nodup_reverse.mpr h2) (fun i hi => Finset.mem_range.mp (h3 i (List.mem_reverse.mp hi))),
      List.reverse_reverse, hzero t _ ht.2, ENNReal.ofReal_zero]
  have hnull' : μ (⋃ t ∈ (sequences k (Finset.range n)).filter (fun t => ∃ i ∈ t, w i = 0),
      {g | ∃ g', Reservoir.sample XR.ops pick rng k n (fun j => XR.fin (w j)) buffer g = .ok (t.reverse, g')}) = 0 :=
    (measure_biUnion_null_iff (Finset.countable_toSet _)).mpr hnull
  have hae := measure_eq_zero_iff_ae_notMem.mp hnull'
  filter_upwards [hae] with g hg
  obtain ⟨b, g', h1, h2, h3, h4⟩ := C22_reservoir XR.ops (⟨hp.lt⟩ : Reservoir.Pick.Valid pick) rng (fun j => XR.fin (w j)) hk hkn' buffer g
  refine ⟨b, g', h1, h2, h3, fun i hi => ⟨h4 i hi, ?_⟩⟩
  refine lt_of_le_of_ne (hw i (h4 i hi)) fun e => hg ?_
  refine Set.mem_iUnion₂.mpr ⟨b.reverse, ?_, g', by rw [List.reverse_reverse]; exact h1⟩
  rw [Finset.mem_filter]
  refine ⟨mem_sequences.mpr ⟨by simp [h2], List.nodup_reverse.mpr h3, fun j hj => Finset.mem_range.mpr (h4 j (List.mem_reverse.mp hj))⟩, i, ?_, e.symm⟩
  exact List.mem_reverse.mpr hi

end

/-- Non-vacuity: reading numbers from a random tape; agent 1 of 3 without weight; sampling two of the others: `2` first with probability 3/4, and then
`0`, which is the only one left. -/
example : tapes {g | ∃ g', Reservoir.sample XR.ops exPick tapeRng 2 3 (fun j => XR.fin (if j = 0 then 1 else if j = 1 then 0 else 3)) [] g = .ok ([0, 2], g')} =
    ENNReal.ofReal (3 / 4) := by
  rw [C67_weighted tapeRng_uniform exPick_min (w := fun j => if j = 0 then 1 else if j = 1 then 0 else 3) (n := 3) (k := 2) _ _ (by norm_num) _ []
    rfl (by decide) (by decide)]
  · congr 1
    simp [successive, Finset.sum_range_succ, Finset.sum_erase_eq_sub]
    norm_num
  · intro j _; split_ifs <;> norm_num
  · intro i hi j hj
    interval_cases i <;> interval_cases j <;> norm_num
  · have : ((Finset.range 3).filter fun j => (0 : ℝ) < if j = 0 then 1 else if j = 1 then 0 else 3) = {0, 2} := by
      ext j
      simp only [Finset.mem_filter, Finset.mem_range, Finset.mem_insert, Finset.mem_singleton]
      constructor
      · rintro ⟨h1, h2⟩; interval_cases j <;> simp_all
      · rintro (rfl | rfl) <;> norm_num
    rw [this]; rfl

end Seldon
