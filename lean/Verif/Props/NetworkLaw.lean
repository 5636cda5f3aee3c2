import Verif.Lemmas.NetworkLaw
import Verif.Props.VectorLimit
import Verif.Model.Program
import Mathlib.MeasureTheory.Integral.Bochner.Basic
import Mathlib.Data.Nat.Choose.Basic
/-!
# Property C95: the law of the generated networks
-/
set_option linter.unusedSectionVars false
namespace Seldon
open Spec MeasureTheory NetworkGen
open scoped ENNReal
variable {A G : Type} [MeasurableSpace G] {μ : Measure G}

namespace NetworkGen

/-- The first `m` rows. -/
noncomputable def firstRows (r : Rng G ℝ) (n k : ℕ) (self : Bool) (m : ℕ) (g : G) : Res (List (List ℕ) × List (List ℝ) × G) :=
  loop m (fun i (s : List (List Nat) × List (List ℝ) × G) => do
      let (row, ws, g) ← connectionRow r n k self i s.2.2
      .ok (s.1 ++ [row], s.2.1 ++ [ws], g))
    ([], [], g)

theorem firstRows_ok {r : Rng G ℝ} (hr : r.IntLawful) (n k : ℕ) (self : Bool) (m : ℕ) (g : G) :
    ∃ as bs g', firstRows r n k self m g = .ok (as, bs, g') ∧ as.length = m ∧ bs.length = m := by
  obtain ⟨as, bs, g', h1, h2, h3, -⟩ := rows_loop (n := m) (body := connectionRow r n k self) (P := fun _ _ _ => True) (by
    intro i g _
    obtain ⟨ys, d, g', h, -⟩ := connectionRow_spec hr n k self i g
    exact ⟨_, _, _, h, trivial⟩) g
  exact ⟨as, bs, g', h1, h2, h3⟩

theorem firstRows_shape {r : Rng G ℝ} (hr : r.IntLawful) {n k : ℕ} (hk : k < n) (self : Bool) (g : G) :
    ∃ as bs g', firstRows r n k self n g = .ok (as, bs, g') ∧ as.length = n ∧ bs.length = n ∧ ∀ i, i < n → ∃ (nbrs : List ℕ) (ws : Fin (k + self.toNat) → ℝ),
      as[i]? = some (nbrs ++ if self then [i] else []) ∧ bs[i]? = some (List.ofFn ws) := by
  obtain ⟨as, bs, g', h1, h2, h3, h4⟩ := rows_loop (n := n) (body := connectionRow r n k self)
    (P := fun i a b => ∃ (nbrs : List ℕ) (ws : Fin (k + self.toNat) → ℝ), a = nbrs ++ (if self then [i] else []) ∧ b = List.ofFn ws) (by
    intro i g hi
    obtain ⟨ys, g1, p1, p2, p3⟩ := Draw.drawUnique_eq hr (some i) k n [] g
    rw [Draw.avail_length_some hi, min_eq_left (by omega)] at p3
    rw [List.drop_eq_nil_of_le (by rw [Draw.resize_length, p3]), List.append_nil] at p1
    exact ⟨_, _, _, connectionRow_units self p1 p3, _, _, rfl, rfl⟩) g
  refine ⟨as, bs, g', h1, h2, h3, fun i hi => ?_⟩
  obtain ⟨nbrs, ws, e1, e2⟩ := h4 i _ _ (List.getElem?_eq_getElem (by omega)) (List.getElem?_eq_getElem (by omega))
  exact ⟨nbrs, ws, by rw [List.getElem?_eq_getElem (by omega), e1], by rw [List.getElem?_eq_getElem (by omega), e2]⟩

theorem firstRows_law {r : Rng G ℝ} [IsProbabilityMeasure μ] (hr : r.IntLawful) (hi : FairIntegers r μ) (hu : Draws r.unit uniform μ) {n k : ℕ} (hk : k < n)
    (self : Bool) (E : ℕ → Set (Finset ℕ)) {S : ℕ → Set (Fin (k + self.toNat) → ℝ)} (hS : ∀ i, MeasurableSet (S i)) (c : ℕ → ℝ≥0∞)
    (hc : ∀ i, i < n → ∀ T, MeasurableSet T → μ (rowHits r n k self i (E i) (S i) T) = c i * μ T) (m : ℕ) (hm : m ≤ n) {T : Set G} (hT : MeasurableSet T) :
    MeasurableSet {g | ∃ as bs g', firstRows r n k self m g = .ok (as, bs, g') ∧ (∀ i, i < m → ∃ (nbrs : List ℕ) (ws : Fin (k + self.toNat) → ℝ),
        as[i]? = some (nbrs ++ if self then [i] else []) ∧ bs[i]? = some (List.ofFn ws) ∧ nbrs.toFinset ∈ E i ∧ ws ∈ S i) ∧ g' ∈ T} ∧
    μ {g | ∃ as bs g', firstRows r n k self m g = .ok (as, bs, g') ∧ (∀ i, i < m → ∃ (nbrs : List ℕ) (ws : Fin (k + self.toNat) → ℝ),
        as[i]? = some (nbrs ++ if self then [i] else []) ∧ bs[i]? = some (List.ofFn ws) ∧ nbrs.toFinset ∈ E i ∧ ws ∈ S i) ∧ g' ∈ T} =
      (∏ i ∈ Finset.range m, c i) * μ T := by
  induction m generalizing T with
  | zero =>
    have e : ∀ T : Set G, {g | ∃ as bs g', firstRows r n k self 0 g = .ok (as, bs, g') ∧ (∀ i, i < 0 → ∃ (nbrs : List ℕ) (ws : Fin (k + self.toNat) → ℝ),
        as[i]? = some (nbrs ++ if self then [i] else []) ∧ bs[i]? = some (List.ofFn ws) ∧ nbrs.toFinset ∈ E i ∧ ws ∈ S i) ∧ g' ∈ T} = T := by
      intro T
      ext g
      simp only [Set.mem_ofPred_eq]
      constructor
      · rintro ⟨as, bs, g', h1, -, h2⟩
        simp only [firstRows, loop] at h1
        cases h1
        exact h2
      · intro h
        exact ⟨[], [], g, rfl, fun i hi => absurd hi (by omega), h⟩
    rw [e]
    simp [hT]
  | succ m ih =>
    set T' := rowHits r n k self m (E m) (S m) T with hT'
    have hmT : MeasurableSet T' := (rowHits_law hr hi hu hk self (by omega : m < n) (E m) (hS m) hT).1
    have e : {g | ∃ as bs g', firstRows r n k self (m + 1) g = .ok (as, bs, g') ∧ (∀ i, i < m + 1 → ∃ (nbrs : List ℕ) (ws : Fin (k + self.toNat) → ℝ),
        as[i]? = some (nbrs ++ if self then [i] else []) ∧ bs[i]? = some (List.ofFn ws) ∧ nbrs.toFinset ∈ E i ∧ ws ∈ S i) ∧ g' ∈ T} =
      {g | ∃ as bs g', firstRows r n k self m g = .ok (as, bs, g') ∧ (∀ i, i < m → ∃ (nbrs : List ℕ) (ws : Fin (k + self.toNat) → ℝ),
        as[i]? = some (nbrs ++ if self then [i] else []) ∧ bs[i]? = some (List.ofFn ws) ∧ nbrs.toFinset ∈ E i ∧ ws ∈ S i) ∧ g' ∈ T'} := by
      ext g
      obtain ⟨as, bs, g1, h1, h2, h3⟩ := firstRows_ok hr n k self m g
      have hs : firstRows r n k self (m + 1) g = (do
          let (row, ws, g) ← connectionRow r n k self m g1
          .ok (as ++ [row], bs ++ [ws], g)) := by
        rw [firstRows, loop_succ]
        rw [firstRows] at h1
        rw [h1, Res.bind_ok]
      simp only [Set.mem_ofPred_eq, h1, hs]
      constructor
      · rintro ⟨as', bs', g', p1, p2, p3⟩
        obtain ⟨⟨row, ws, g2⟩, q1, q2⟩ := Res.bind_eq_ok.mp p1
        simp only [Except.ok.injEq, Prod.mk.injEq] at q2
        obtain ⟨rfl, rfl, rfl⟩ := q2
        refine ⟨as, bs, g1, rfl, fun i hi => ?_, ?_⟩
        · have := p2 i (by omega)
          rwa [List.getElem?_append_left (by omega), List.getElem?_append_left (by omega)] at this
        · obtain ⟨nbrs, w, t1, t2, t3, t4⟩ := p2 m (by omega)
          rw [List.getElem?_append_right (by omega), h2, Nat.sub_self] at t1
          rw [List.getElem?_append_right (by omega), h3, Nat.sub_self] at t2
          simp only [List.getElem?_cons_zero, Option.some.injEq] at t1 t2
          exact ⟨nbrs, w, g2, by rw [q1, t1, t2], t3, t4, p3⟩
      · rintro ⟨as', bs', g', p1, p2, p3⟩
        simp only [Except.ok.injEq, Prod.mk.injEq] at p1
        obtain ⟨rfl, rfl, rfl⟩ := p1
        obtain ⟨nbrs, w, g2, q1, q2, q3, q4⟩ := p3
        refine ⟨as ++ [nbrs ++ if self then [m] else []], bs ++ [List.ofFn w], g2, by rw [q1, Res.bind_ok], fun i hi => ?_, q4⟩
        rcases Nat.lt_succ_iff_lt_or_eq.mp hi with hlt | rfl
        · rw [List.getElem?_append_left (by omega), List.getElem?_append_left (by omega)]
          exact p2 i hlt
        · refine ⟨nbrs, w, ?_, ?_, q2, q3⟩
          · rw [List.getElem?_append_right (by omega), h2, Nat.sub_self]; rfl
          · rw [List.getElem?_append_right (by omega), h3, Nat.sub_self]; rfl
    rw [e]
    obtain ⟨i1, i2⟩ := ih (by omega) hmT
    refine ⟨i1, ?_⟩
    rw [i2, hT', hc m (by omega) T hT, Finset.prod_range_succ, mul_assoc]

end NetworkGen

theorem nConnections_shape [Inhabited A] {r : Rng G ℝ} (hr : r.IntLawful) {n k : ℕ} (hk : k < n) (self : Bool) (g : G) :
    ∃ as bs g', nConnections (A := A) r n k self g = .ok (Network.ofLists as bs .incoming, g') ∧ as.length = n ∧
      ∀ i, i < n → ∃ (nbrs : List ℕ) (ws : Fin (k + self.toNat) → ℝ),
      as[i]? = some (nbrs ++ if self then [i] else []) ∧ bs[i]? = some (List.ofFn ws) := by
  obtain ⟨as, bs, g1, f1, f2, f3, f4⟩ := firstRows_shape hr hk self g
  refine ⟨as, bs, g1, ?_, f2, f4⟩
  unfold nConnections
  rw [firstRows] at f1
  rw [f1, Res.bind_ok]

theorem nConnections_hits [Inhabited A] {r : Rng G ℝ} (hr : r.IntLawful) {n k : ℕ}
    (self : Bool) (E : ℕ → Set (Finset ℕ)) (S : ℕ → Set (Fin (k + self.toNat) → ℝ)) (g : G) (T : Set G) :
    (∃ (N : Network A ℝ) (g' : G), nConnections r n k self g = .ok (N, g') ∧ g' ∈ T ∧
        ∀ i, i < n → ∃ (nbrs : List ℕ) (ws : Fin (k + self.toNat) → ℝ),
        N.getNeighbours i = .ok (nbrs ++ if self then [i] else []) ∧ N.getWeights i = .ok (List.ofFn ws) ∧ nbrs.toFinset ∈ E i ∧ ws ∈ S i) ↔
    ∃ as bs g', firstRows r n k self n g = .ok (as, bs, g') ∧ (∀ i, i < n → ∃ (nbrs : List ℕ) (ws : Fin (k + self.toNat) → ℝ),
        as[i]? = some (nbrs ++ if self then [i] else []) ∧ bs[i]? = some (List.ofFn ws) ∧ nbrs.toFinset ∈ E i ∧ ws ∈ S i) ∧ g' ∈ T := by
  obtain ⟨as, bs, g1, h1, h2, h3⟩ := firstRows_ok hr n k self n g
  have hn : nConnections (A := A) r n k self g = .ok (Network.ofLists as bs .incoming, g1) := by
    unfold nConnections
    rw [firstRows] at h1
    rw [h1, Res.bind_ok]
  simp only [hn, h1, Except.ok.injEq, Prod.mk.injEq]
  constructor
  · rintro ⟨N, g', ⟨rfl, rfl⟩, p1, p2⟩
    refine ⟨as, bs, g1, ⟨rfl, rfl, rfl⟩, fun i hi' => ?_, p1⟩
    obtain ⟨nbrs, ws, q1, q2, q3⟩ := p2 i hi'
    exact ⟨nbrs, ws, rd_eq_ok.mp q1, rd_eq_ok.mp q2, q3⟩
  · rintro ⟨as', bs', g', ⟨rfl, rfl, rfl⟩, p2, p1⟩
    refine ⟨_, _, ⟨rfl, rfl⟩, p1, fun i hi' => ?_⟩
    obtain ⟨nbrs, ws, q1, q2, q3⟩ := p2 i hi'
    exact ⟨nbrs, ws, rd_eq_ok.mpr q1, rd_eq_ok.mpr q2, q3⟩

/-- C95: if the generator draws independent uniform integers and numbers, the rows of a network generated with `k < n` connections per agent are independent;
in the row of agent `i`, every set of `k` other agents is equally likely, and the weights are independent of the neighbours and distributed like independent
uniform numbers divided by their sum.  Later draws are independent of the network. -/
theorem C95_network [Inhabited A] {r : Rng G ℝ} [IsProbabilityMeasure μ] (hr : r.IntLawful) (hi : FairIntegers r μ) (hu : Draws r.unit uniform μ) {n k : ℕ} (hk : k < n)
    (self : Bool) (E : ℕ → Set (Finset ℕ)) {S : ℕ → Set (Fin (k + self.toNat) → ℝ)} (hS : ∀ i, MeasurableSet (S i)) {T : Set G} (hT : MeasurableSet T) :
    MeasurableSet {g | ∃ (N : Network A ℝ) (g' : G), nConnections r n k self g = .ok (N, g') ∧ g' ∈ T ∧
        ∀ i, i < n → ∃ (nbrs : List ℕ) (ws : Fin (k + self.toNat) → ℝ),
        N.getNeighbours i = .ok (nbrs ++ if self then [i] else []) ∧ N.getWeights i = .ok (List.ofFn ws) ∧ nbrs.toFinset ∈ E i ∧ ws ∈ S i} ∧
    μ {g | ∃ (N : Network A ℝ) (g' : G), nConnections r n k self g = .ok (N, g') ∧ g' ∈ T ∧ ∀ i, i < n → ∃ (nbrs : List ℕ) (ws : Fin (k + self.toNat) → ℝ),
        N.getNeighbours i = .ok (nbrs ++ if self then [i] else []) ∧ N.getWeights i = .ok (List.ofFn ws) ∧ nbrs.toFinset ∈ E i ∧ ws ∈ S i} =
      (∏ i ∈ Finset.range n, setShare n k i (E i) * sharesLaw (k + self.toNat) (S i)) *
        μ T := by
  have hlaw := firstRows_law hr hi hu hk self E hS _ (fun i hi' T hT => (rowHits_law hr hi hu hk self hi' (E i) (hS i) hT).2) n le_rfl hT
  simp only [nConnections_hits hr self E S _ T]
  exact hlaw
/-- C95: the weights of a row are exchangeable and each has the expected value one over their number. -/
theorem C95_weights {k : ℕ} (σ : Equiv.Perm (Fin k)) (i : Fin k) :
    (sharesLaw k).map (fun w j => w (σ j)) = sharesLaw k ∧ ∫ w, w i ∂(sharesLaw k) = 1 / k := by
  have perm : ∀ σ : Equiv.Perm (Fin k), MeasurePreserving (fun (w : Fin k → ℝ) j => w (σ j)) (Measure.pi fun _ => uniform) (Measure.pi fun _ => uniform) := by
    intro σ
    have := measurePreserving_piCongrLeft (fun _ : Fin k => uniform) σ.symm
    convert this using 1
    funext w j
    have := MeasurableEquiv.piCongrLeft_apply_apply (β := fun _ : Fin k => ℝ) σ.symm w (σ j)
    rw [Equiv.symm_apply_apply] at this
    exact this.symm
  have hex : ∀ σ : Equiv.Perm (Fin k), MeasurePreserving (fun (w : Fin k → ℝ) j => w (σ j)) (sharesLaw k) (sharesLaw k) := by
    intro σ
    have hm : Measurable fun (w : Fin k → ℝ) j => w (σ j) := (perm σ).measurable
    refine ⟨hm, ?_⟩
    rw [sharesLaw, Measure.map_map hm inShares_measurable]
    conv_rhs => rw [← (perm σ).map_eq]
    rw [Measure.map_map inShares_measurable hm]
    congr 1
    funext u j
    simp only [Function.comp, inShares]
    rw [Equiv.sum_comp σ u]
  refine ⟨(hex σ).map_eq, ?_⟩
  have hpos : ∀ᵐ u ∂(Measure.pi fun _ : Fin k => uniform), ∀ j, u j ∈ Set.Ioo (0 : ℝ) 1 := by
    rw [ae_all_iff]
    intro j
    exact (measurePreserving_eval (fun _ : Fin k => uniform) j).quasiMeasurePreserving.ae uniform_mem
  have hsh : ∀ᵐ w ∂(sharesLaw k), (∀ j, 0 ≤ w j ∧ w j ≤ 1) ∧ ∑ j, w j = 1 := by
    rw [sharesLaw]
    have hs : MeasurableSet {w : Fin k → ℝ | (∀ j, 0 ≤ w j ∧ w j ≤ 1) ∧ ∑ j, w j = 1} := by
      refine MeasurableSet.inter ?_ ?_
      · have : {w : Fin k → ℝ | ∀ j, 0 ≤ w j ∧ w j ≤ 1} = ⋂ j, {w | 0 ≤ w j ∧ w j ≤ 1} := by ext w; simp
        show MeasurableSet {w : Fin k → ℝ | ∀ j, 0 ≤ w j ∧ w j ≤ 1}
        rw [this]
        exact MeasurableSet.iInter fun j => (measurableSet_le measurable_const (measurable_pi_apply j)).inter (measurableSet_le (measurable_pi_apply j) measurable_const)
      · exact measurableSet_eq_fun (by fun_prop) measurable_const
    rw [ae_map_iff inShares_measurable.aemeasurable hs]
    filter_upwards [hpos] with u hu
    have hs : 0 < ∑ j, u j := Finset.sum_pos (fun j _ => (hu j).1) ⟨i, Finset.mem_univ i⟩
    refine ⟨fun j => ⟨div_nonneg (hu j).1.le hs.le, (div_le_one hs).mpr (Finset.single_le_sum (fun l _ => (hu l).1.le) (Finset.mem_univ j))⟩, ?_⟩
    simp only [inShares]
    rw [← Finset.sum_div, div_self hs.ne']
  have hint : ∀ j, Integrable (fun w : Fin k → ℝ => w j) (sharesLaw k) := by
    intro j
    refine Integrable.of_bound (measurable_pi_apply j).aestronglyMeasurable 1 ?_
    filter_upwards [hsh] with w hw
    rw [Real.norm_eq_abs, abs_le]
    exact ⟨by linarith [(hw.1 j).1], (hw.1 j).2⟩
  have hsame : ∀ j, ∫ w, w j ∂(sharesLaw k) = ∫ w, w i ∂(sharesLaw k) := by
    intro j
    have := (hex (Equiv.swap i j))
    have h2 := this.map_eq
    conv_rhs => rw [← h2]
    rw [integral_map this.measurable.aemeasurable (measurable_pi_apply i).aestronglyMeasurable]
    simp only [Equiv.swap_apply_left]
  have hsum : ∑ j, ∫ w, w j ∂(sharesLaw k) = 1 := by
    rw [← integral_finsetSum _ fun j _ => hint j]
    rw [integral_congr_ae (g := fun _ => (1 : ℝ)) (by filter_upwards [hsh] with w hw using hw.2)]
    simp
  rw [Finset.sum_congr rfl fun j _ => hsame j, Finset.sum_const, Finset.card_univ, Fintype.card_fin, nsmul_eq_mul] at hsum
  have : (k : ℝ) ≠ 0 := by
    have := i.pos
    positivity
  field_simp
  linarith

/-- C95, independent events for the sets of neighbours: the probability that the neighbours of every agent `i` form a set in `E i`. -/
theorem C95_neighbours [Inhabited A] {r : Rng G ℝ} [IsProbabilityMeasure μ] (hr : r.IntLawful) (hi : FairIntegers r μ) (hu : Draws r.unit uniform μ) {n k : ℕ}
    (hk : k < n) (self : Bool) (E : ℕ → Set (Finset ℕ)) :
    MeasurableSet {g | ∃ (N : Network A ℝ) (g' : G), nConnections r n k self g = .ok (N, g') ∧ ∀ i, i < n → ∃ nbrs : List ℕ,
        N.getNeighbours i = .ok (nbrs ++ if self then [i] else []) ∧ nbrs.toFinset ∈ E i} ∧
    μ {g | ∃ (N : Network A ℝ) (g' : G), nConnections r n k self g = .ok (N, g') ∧ ∀ i, i < n → ∃ nbrs : List ℕ,
        N.getNeighbours i = .ok (nbrs ++ if self then [i] else []) ∧ nbrs.toFinset ∈ E i} = ∏ i ∈ Finset.range n, setShare n k i (E i) := by
  have := C95_network (A := A) hr hi hu hk self E (S := fun _ => Set.univ) (fun _ => MeasurableSet.univ) MeasurableSet.univ
  simp only [measure_univ, mul_one] at this
  have key : ∀ g, (∃ (N : Network A ℝ) (g' : G), nConnections r n k self g = .ok (N, g') ∧ ∀ i, i < n → ∃ nbrs : List ℕ,
        N.getNeighbours i = .ok (nbrs ++ if self then [i] else []) ∧ nbrs.toFinset ∈ E i) ↔
      ∃ (N : Network A ℝ) (g' : G), nConnections r n k self g = .ok (N, g') ∧ g' ∈ Set.univ ∧ ∀ i, i < n →
        ∃ (nbrs : List ℕ) (ws : Fin (k + self.toNat) → ℝ), N.getNeighbours i = .ok (nbrs ++ if self then [i] else []) ∧
          N.getWeights i = .ok (List.ofFn ws) ∧ nbrs.toFinset ∈ E i ∧ ws ∈ Set.univ := by
    intro g
    constructor
    · rintro ⟨N, g', h1, h2⟩
      refine ⟨N, g', h1, trivial, fun i hi' => ?_⟩
      obtain ⟨nbrs, h3, h4⟩ := h2 i hi'
      obtain ⟨as, bs, g1, hn, -, f4⟩ := nConnections_shape (A := A) hr hk self g
      rw [hn] at h1
      simp only [Except.ok.injEq, Prod.mk.injEq] at h1
      obtain ⟨rfl, rfl⟩ := h1
      obtain ⟨_, ws, -, hws⟩ := f4 i hi'
      exact ⟨nbrs, ws, h3, rd_eq_ok.mpr hws, h4, trivial⟩
    · rintro ⟨N, g', h1, -, h2⟩
      refine ⟨N, g', h1, fun i hi' => ?_⟩
      obtain ⟨nbrs, -, h3, -, h4, -⟩ := h2 i hi'
      exact ⟨nbrs, h3, h4⟩
  simp only [key]
  exact this

/-- The expected share of the sets of `k` agents that contain a given one. -/
theorem share_containing {V : Finset ℕ} {j : ℕ} (hj : j ∈ V) {k : ℕ} :
    ((V.powersetCard k).filter (j ∈ ·)).card * V.card = k * (V.card).choose k := by
  cases k with
  | zero => 
    have : (V.powersetCard 0).filter (j ∈ ·) = ∅ := by
      rw [Finset.filter_eq_empty_iff]
      intro B hB
      rw [Finset.powersetCard_zero, Finset.mem_singleton] at hB
      simp [hB]
    simp
  | succ k =>
    have e : (V.powersetCard (k + 1)).filter (j ∈ ·) = ((V.erase j).powersetCard k).image (insert j) := by
      ext B
      simp only [Finset.mem_filter, Finset.mem_powersetCard, Finset.mem_image]
      constructor
      · rintro ⟨⟨h1, h2⟩, h3⟩
        refine ⟨B.erase j, ⟨Finset.erase_subset_erase j h1, ?_⟩, Finset.insert_erase h3⟩
        rw [Finset.card_erase_of_mem h3, h2]; rfl
      · rintro ⟨C, ⟨h1, h2⟩, rfl⟩
        have hjC : j ∉ C := fun h => (Finset.mem_erase.mp (h1 h)).1 rfl
        refine ⟨⟨Finset.insert_subset hj (h1.trans (Finset.erase_subset _ _)), ?_⟩, Finset.mem_insert_self _ _⟩
        rw [Finset.card_insert_of_notMem hjC, h2]
    rw [e, Finset.card_image_of_injOn, Finset.card_powersetCard, Finset.card_erase_of_mem hj]
    · obtain ⟨v, hv⟩ : ∃ v, V.card = v + 1 := ⟨V.card - 1, by have := Finset.card_pos.mpr ⟨j, hj⟩; omega⟩
      rw [hv, Nat.add_sub_cancel, mul_comm, Nat.add_one_mul_choose_eq, mul_comm]
    · intro C hC D hD h
      have h1 : j ∉ C := fun h => (Finset.mem_erase.mp ((Finset.mem_powersetCard.mp hC).1 h)).1 rfl
      have h2 : j ∉ D := fun h => (Finset.mem_erase.mp ((Finset.mem_powersetCard.mp hD).1 h)).1 rfl
      rw [← Finset.erase_insert h1, ← Finset.erase_insert h2]
      rw [h]

theorem choose_pos' {n k : ℕ} (hk : k < n) : (((n - 1).choose k : ℕ) : ℝ≥0∞) ≠ 0 := by
  exact_mod_cast (Nat.choose_pos (by omega)).ne'

theorem setShare_eq {n k i : ℕ} (hi : i < n) (P : Finset ℕ → Prop) [DecidablePred P] :
    setShare n k i {B | P B} = ((((Finset.range n).erase i).powersetCard k).filter P).card / ((n - 1).choose k : ℕ) := by
  rw [setShare, Finset.card_powersetCard, Finset.card_erase_of_mem (Finset.mem_range.mpr hi), Finset.card_range]
  congr 3
  ext B
  simp

theorem chance_all {n k i : ℕ} (hk : k < n) (hi : i < n) : setShare n k i Set.univ = 1 := by
  have := setShare_eq (k := k) hi (fun _ => True)
  rw [show {B : Finset ℕ | True} = Set.univ from rfl] at this
  rw [this, Finset.filter_true, Finset.card_powersetCard, Finset.card_erase_of_mem (Finset.mem_range.mpr hi), Finset.card_range]
  exact ENNReal.div_self (choose_pos' hk) (ENNReal.natCast_ne_top _)

theorem chance_containing {n k i j : ℕ} (hk : k < n) (hi : i < n) (hj : j < n) (hij : j ≠ i) :
    setShare n k i {B : Finset ℕ | j ∈ B} = k / (n - 1 : ℕ) := by
  classical
  have h := share_containing (V := (Finset.range n).erase i) (j := j) (Finset.mem_erase.mpr ⟨hij, Finset.mem_range.mpr hj⟩) (k := k)
  rw [Finset.card_erase_of_mem (Finset.mem_range.mpr hi), Finset.card_range] at h
  rw [setShare_eq hi, ENNReal.div_eq_div_iff (by exact_mod_cast (by omega : n - 1 ≠ 0)) (ENNReal.natCast_ne_top _) (choose_pos' hk) (ENNReal.natCast_ne_top _)]
  rw [mul_comm, mul_comm (((n - 1).choose k : ℕ) : ℝ≥0∞)]
  exact_mod_cast h

theorem chance_without {n k i j : ℕ} (hk : k < n) (hi : i < n) (hj : j < n) (hij : j ≠ i) :
    setShare n k i {B : Finset ℕ | j ∉ B} = (n - 1 - k : ℕ) / (n - 1 : ℕ) := by
  classical
  have h := share_containing (V := (Finset.range n).erase i) (j := j) (Finset.mem_erase.mpr ⟨hij, Finset.mem_range.mpr hj⟩) (k := k)
  have hsplit := Finset.card_filter_add_card_filter_not (s := ((Finset.range n).erase i).powersetCard k) (j ∈ ·)
  rw [Finset.card_powersetCard] at hsplit
  rw [Finset.card_erase_of_mem (Finset.mem_range.mpr hi), Finset.card_range] at h hsplit
  rw [setShare_eq hi, ENNReal.div_eq_div_iff (by exact_mod_cast (by omega : n - 1 ≠ 0)) (ENNReal.natCast_ne_top _) (choose_pos' hk) (ENNReal.natCast_ne_top _)]
  rw [mul_comm, mul_comm (((n - 1).choose k : ℕ) : ℝ≥0∞)]
  set a := ((((Finset.range n).erase i).powersetCard k).filter (j ∈ ·)).card
  set b := ((((Finset.range n).erase i).powersetCard k).filter (¬ j ∈ ·)).card
  obtain ⟨d, hd⟩ : ∃ d, n - 1 = k + d := ⟨n - 1 - k, by omega⟩
  rw [hd] at h hsplit ⊢
  rw [Nat.add_sub_cancel_left]
  have : b * (k + d) = d * (k + d).choose k := by
    have := congrArg (· * (k + d)) hsplit
    simp only [Nat.add_mul] at this
    nlinarith
  exact_mod_cast this

/-- The agents other than `j` that listen to agent `j`. -/
noncomputable def Spec.listeners (N : Network A ℝ) (n j : ℕ) : Finset ℕ := by
  classical exact (Finset.range n).filter fun i => i ≠ j ∧ ∃ nbrs, N.getNeighbours i = .ok nbrs ∧ j ∈ nbrs

/-- The set of listeners of agent `j` is `D` exactly if the sets of neighbours contain `j` or not as `D` says. -/
theorem listeners_hits [Inhabited A] {r : Rng G ℝ} (hr : r.IntLawful) {n k : ℕ} (hk : k < n) (self : Bool) {j : ℕ} (D : Finset ℕ)
    (hD : D ⊆ (Finset.range n).erase j) (g : G) :
    (∃ (N : Network A ℝ) (g' : G), nConnections r n k self g = .ok (N, g') ∧ listeners N n j = D) ↔
    ∃ (N : Network A ℝ) (g' : G), nConnections r n k self g = .ok (N, g') ∧ ∀ i, i < n → ∃ nbrs : List ℕ,
        N.getNeighbours i = .ok (nbrs ++ if self then [i] else []) ∧
        nbrs.toFinset ∈ {B : Finset ℕ | i ≠ j → (j ∈ B ↔ i ∈ D)} := by
  obtain ⟨as, bs, g1, hn, -, f4⟩ := nConnections_shape (A := A) hr hk self g
  simp only [hn, Except.ok.injEq, Prod.mk.injEq]
  have hmem : ∀ i nb, i ≠ j → as[i]? = some (nb ++ if self then [i] else []) →
      ((∃ nbrs, (Network.ofLists (A := A) as bs .incoming).getNeighbours i = .ok nbrs ∧ j ∈ nbrs) ↔ j ∈ nb) := by
    intro i nb hij h
    constructor
    · rintro ⟨nbrs, h1, h2⟩
      have h1 : as[i]? = some nbrs := rd_eq_ok.mp h1
      rw [h] at h1
      cases h1
      rcases List.mem_append.mp h2 with h | h
      · exact h
      · exfalso
        cases self <;> simp at h
        exact hij h.symm
    · intro h1
      exact ⟨_, rd_eq_ok.mpr h, List.mem_append_left _ h1⟩
  constructor
  · rintro ⟨N, g', ⟨rfl, rfl⟩, h⟩
    refine ⟨_, _, ⟨rfl, rfl⟩, fun i hi => ?_⟩
    obtain ⟨nb, -, q, -⟩ := f4 i hi
    refine ⟨nb, rd_eq_ok.mpr q, fun hij => ?_⟩
    rw [List.mem_toFinset, ← hmem i nb hij q, ← h]
    simp only [listeners, Finset.mem_filter, Finset.mem_range]
    exact ⟨fun h => ⟨hi, hij, h⟩, fun h => h.2.2⟩
  · rintro ⟨N, g', ⟨rfl, rfl⟩, h⟩
    refine ⟨_, _, ⟨rfl, rfl⟩, ?_⟩
    ext i
    simp only [listeners, Finset.mem_filter, Finset.mem_range]
    constructor
    · rintro ⟨hi, hij, h1⟩
      obtain ⟨nb, q1, q2⟩ := h i hi
      exact (q2 hij).mp (List.mem_toFinset.mpr ((hmem i nb hij (rd_eq_ok.mp q1)).mp h1))
    · intro hiD
      obtain ⟨hij, hi⟩ := Finset.mem_erase.mp (hD hiD)
      have hi := Finset.mem_range.mp hi
      obtain ⟨nb, q1, q2⟩ := h i hi
      exact ⟨hi, hij, (hmem i nb hij (rd_eq_ok.mp q1)).mpr (List.mem_toFinset.mp ((q2 hij).mpr hiD))⟩

/-- C95: every other agent listens to agent `j` with probability `k / (n - 1)`, independently of the others: the probability that exactly the agents of the
set `D` listen to `j`. -/
theorem C95_listeners [Inhabited A] {r : Rng G ℝ} [IsProbabilityMeasure μ] (hr : r.IntLawful) (hi : FairIntegers r μ) (hu : Draws r.unit uniform μ) {n k : ℕ}
    (hk : k < n) (self : Bool) {j : ℕ} (hj : j < n) (D : Finset ℕ) (hD : D ⊆ (Finset.range n).erase j) :
    MeasurableSet {g | ∃ (N : Network A ℝ) (g' : G), nConnections r n k self g = .ok (N, g') ∧ listeners N n j = D} ∧
    μ {g | ∃ (N : Network A ℝ) (g' : G), nConnections r n k self g = .ok (N, g') ∧ listeners N n j = D} =
      (k / (n - 1 : ℕ)) ^ D.card * ((n - 1 - k : ℕ) / (n - 1 : ℕ)) ^ (n - 1 - D.card) := by
  have h := C95_neighbours (A := A) hr hi hu hk self (fun i => {B | i ≠ j → (j ∈ B ↔ i ∈ D)})
  have e : {g | ∃ (N : Network A ℝ) (g' : G), nConnections r n k self g = .ok (N, g') ∧ listeners N n j = D} = _ := Set.ext fun g => listeners_hits (A := A) hr hk self D hD g
  rw [e]
  refine ⟨h.1, h.2.trans ?_⟩
  rw [← Finset.mul_prod_erase _ _ (Finset.mem_range.mpr hj)]
  have h0 : setShare n k j {B | j ≠ j → (j ∈ B ↔ j ∈ D)} = 1 := by
    rw [show {B : Finset ℕ | j ≠ j → (j ∈ B ↔ j ∈ D)} = Set.univ from Set.eq_univ_of_forall fun B h => absurd rfl h]
    exact chance_all hk hj
  rw [h0, one_mul, ← Finset.prod_sdiff hD, mul_comm]
  congr 1
  · rw [Finset.prod_congr rfl (g := fun _ => (k / (n - 1 : ℕ) : ℝ≥0∞)), Finset.prod_const]
    intro i hiD
    obtain ⟨hij, hin⟩ := Finset.mem_erase.mp (hD hiD)
    rw [← chance_containing hk (Finset.mem_range.mp hin) hj hij.symm]
    congr 1
    ext B
    simp [hij, hiD]
  · rw [Finset.prod_congr rfl (g := fun _ => ((n - 1 - k : ℕ) / (n - 1 : ℕ) : ℝ≥0∞)), Finset.prod_const, Finset.card_sdiff_of_subset hD,
      Finset.card_erase_of_mem (Finset.mem_range.mpr hj), Finset.card_range]
    intro i hiD
    obtain ⟨hi1, hi2⟩ := Finset.mem_sdiff.mp hiD
    obtain ⟨hij, hin⟩ := Finset.mem_erase.mp hi1
    rw [← chance_without hk (Finset.mem_range.mp hin) hj hij.symm]
    congr 1
    ext B
    simp [hij, hi2]

/-- C95: agent `i` listens to the other agent `j` with probability `k / (n - 1)`. -/
theorem C95_edge [Inhabited A] {r : Rng G ℝ} [IsProbabilityMeasure μ] (hr : r.IntLawful) (hi : FairIntegers r μ) (hu : Draws r.unit uniform μ) {n k : ℕ}
    (hk : k < n) (self : Bool) {i j : ℕ} (hin : i < n) (hj : j < n) (hij : i ≠ j) :
    μ {g | ∃ (N : Network A ℝ) (g' : G) (nbrs : List ℕ), nConnections r n k self g = .ok (N, g') ∧ N.getNeighbours i = .ok nbrs ∧ j ∈ nbrs} =
      k / (n - 1 : ℕ) := by
  have := (C95_neighbours (A := A) hr hi hu hk self (fun l => if l = i then {B | j ∈ B} else Set.univ)).2
  rw [Finset.prod_eq_single i, if_pos rfl, chance_containing hk hin hj hij.symm] at this
  · rw [← this]
    congr 1
    ext g
    constructor
    · rintro ⟨N, g', nbrs, h1, h2, h3⟩
      refine ⟨N, g', h1, fun l hl => ?_⟩
      obtain ⟨as, bs, g1, hn, -, f4⟩ := nConnections_shape (A := A) hr hk self g
      rw [hn] at h1
      simp only [Except.ok.injEq, Prod.mk.injEq] at h1
      obtain ⟨rfl, rfl⟩ := h1
      obtain ⟨nb, -, q, -⟩ := f4 l hl
      refine ⟨nb, rd_eq_ok.mpr q, ?_⟩
      split
      · rename_i e
        subst e
        have : as[l]? = some nbrs := rd_eq_ok.mp h2
        rw [q] at this
        cases this
        rcases List.mem_append.mp h3 with h | h
        · exact List.mem_toFinset.mpr h
        · exfalso
          cases self <;> simp at h
          exact hij h.symm
      · trivial
    · rintro ⟨N, g', h1, h2⟩
      obtain ⟨nbrs, h3, h4⟩ := h2 i hin
      rw [if_pos rfl] at h4
      exact ⟨N, g', _, h1, h3, List.mem_append_left _ (List.mem_toFinset.mp h4)⟩
  · intro l hl hne
    rw [if_neg hne]
    exact chance_all hk (Finset.mem_range.mp hl)
  · intro h
    exact absurd (Finset.mem_range.mpr hin) h

/-- C95: the number of agents that listen to agent `j` has the binomial distribution with `n - 1` trials and probability `k / (n - 1)`. -/
theorem C95_audience [Inhabited A] {r : Rng G ℝ} [IsProbabilityMeasure μ] (hr : r.IntLawful) (hi : FairIntegers r μ) (hu : Draws r.unit uniform μ) {n k : ℕ}
    (hk : k < n) (self : Bool) {j : ℕ} (hj : j < n) (a : ℕ) :
    μ {g | ∃ (N : Network A ℝ) (g' : G), nConnections r n k self g = .ok (N, g') ∧ (listeners N n j).card = a} =
      ((n - 1).choose a : ℕ) * ((k / (n - 1 : ℕ)) ^ a * ((n - 1 - k : ℕ) / (n - 1 : ℕ)) ^ (n - 1 - a)) := by
  have hsub : ∀ N : Network A ℝ, listeners N n j ⊆ (Finset.range n).erase j := by
    intro N i hi
    simp only [listeners, Finset.mem_filter] at hi
    exact Finset.mem_erase.mpr ⟨hi.2.1, hi.1⟩
  have e : {g | ∃ (N : Network A ℝ) (g' : G), nConnections r n k self g = .ok (N, g') ∧ (listeners N n j).card = a} =
      ⋃ D ∈ ((Finset.range n).erase j).powersetCard a, {g | ∃ (N : Network A ℝ) (g' : G), nConnections r n k self g = .ok (N, g') ∧ listeners N n j = D} := by
    ext g
    simp only [Set.mem_ofPred_eq, Set.mem_iUnion, exists_prop, Finset.mem_powersetCard]
    constructor
    · rintro ⟨N, g', h1, h2⟩
      exact ⟨_, ⟨hsub N, h2⟩, N, g', h1, rfl⟩
    · rintro ⟨D, ⟨-, h2⟩, N, g', h3, rfl⟩
      exact ⟨N, g', h3, h2⟩
  rw [e, measure_biUnion_finset]
  · rw [Finset.sum_congr rfl (g := fun _ => ((k / (n - 1 : ℕ)) ^ a * ((n - 1 - k : ℕ) / (n - 1 : ℕ)) ^ (n - 1 - a) : ℝ≥0∞)), Finset.sum_const,
      Finset.card_powersetCard, Finset.card_erase_of_mem (Finset.mem_range.mpr hj), Finset.card_range, nsmul_eq_mul]
    intro D hD
    obtain ⟨h1, rfl⟩ := Finset.mem_powersetCard.mp hD
    exact (C95_listeners hr hi hu hk self hj D h1).2
  · intro D _ D' _ hne
    refine Set.disjoint_left.mpr ?_
    rintro g ⟨N, g1, h1, rfl⟩ ⟨N', g2, h2, h3⟩
    rw [h1] at h2
    cases h2
    exact hne h3
  · intro D hD
    exact (C95_listeners hr hi hu hk self hj D (Finset.mem_powersetCard.mp hD).1).1

theorem fullyConnectedRandom_eq [Inhabited A] (r : Rng G ℝ) (n : ℕ) (g : G) :
    fullyConnectedRandom (A := A) r n g = .ok (Network.ofLists (List.replicate n (List.range n))
      ((List.range n).map fun i => List.ofFn (inShares (units r n (after (units r n) i g)).1)) .incoming, after (units r n) n g) := by
  have := loop_eq (n := n) (f := fun _ (s : List (List Nat) × List (List ℝ) × G) =>
      let (ws, norm, g) := drawWeights r n 0 s.2.2
      .ok (s.1 ++ [List.range n], s.2.1 ++ [ws.map (· / norm)], g))
    (fun m => (List.replicate m (List.range n), (List.range m).map (fun i => List.ofFn (inShares (units r n (after (units r n) i g)).1)), after (units r n) m g)) (by
      intro m hm
      simp only [drawWeights_units, zero_add, List.map_ofFn, List.range_succ, List.map_append, List.replicate_succ', after_succ]
      rfl)
  simp only [fullyConnectedRandom, iotaBuffer_eq, Res.bind_ok]
  rw [show (([], [], g) : List (List Nat) × List (List ℝ) × G) = (List.replicate 0 (List.range n), (List.range 0).map (fun i => List.ofFn (inShares (units r n (after (units r n) i g)).1)), after (units r n) 0 g) from rfl, this]
  rfl

/-- C95: in the complete network with random weights, the rows are independent, and the weights of each row are distributed like independent uniform numbers
divided by their sum. -/
theorem C95_complete [Inhabited A] {r : Rng G ℝ} [IsProbabilityMeasure μ] (hu : Draws r.unit uniform μ) (n : ℕ)
    {S : ℕ → Set (Fin n → ℝ)} (hS : ∀ i, MeasurableSet (S i)) :
    μ {g | ∃ (N : Network A ℝ) (g' : G), fullyConnectedRandom r n g = .ok (N, g') ∧ ∀ i, i < n → ∃ ws : Fin n → ℝ, N.getWeights i = .ok (List.ofFn ws) ∧ ws ∈ S i} =
      ∏ i ∈ Finset.range n, sharesLaw n (S i) := by
  have h := (units_draws hu n).iid n (S := fun i => inShares ⁻¹' S i) fun i => inShares_measurable (hS i)
  have e : ∀ i, sharesLaw n (S i) = (Measure.pi fun _ => uniform) (inShares ⁻¹' S i) := fun i => by
    rw [sharesLaw, Measure.map_apply inShares_measurable (hS i)]
  simp only [e]
  rw [← h]
  congr 1
  ext g
  simp only [Set.mem_ofPred_eq, fullyConnectedRandom_eq, Except.ok.injEq, Prod.mk.injEq, Set.mem_preimage]
  constructor
  · rintro ⟨N, g', ⟨rfl, rfl⟩, h⟩ i hi
    obtain ⟨ws, h1, h2⟩ := h i hi
    have h1 : ((List.range n).map fun i => List.ofFn (inShares (units r n (after (units r n) i g)).1))[i]? = some (List.ofFn ws) := rd_eq_ok.mp h1
    rw [List.getElem?_map, List.getElem?_range hi] at h1
    simp only [Option.map_some, Option.some.injEq] at h1
    rw [List.ofFn_injective h1]
    exact h2
  · intro h
    refine ⟨_, _, ⟨rfl, rfl⟩, fun i hi => ⟨_, rd_eq_ok.mpr ?_, h i hi⟩⟩
    show ((List.range n).map fun i => List.ofFn (inShares (units r n (after (units r n) i g)).1))[i]? = _
    rw [List.getElem?_map, List.getElem?_range hi]
    rfl

/-- C95: the program generates its network this way when no network file is given, with one connection of every agent to itself. -/
theorem C95_program {G : Type} {env : Env ℝ G} {k : AgentKind} {options : Config.Options ℝ} (hf : Program.networkFile none options.network.file = none)
    (hn : options.network.nAgents < 2 ^ 31) (g : G) :
    Program.createNetwork env k options none g =
      nConnections env.rng options.network.nAgents options.network.nConnections true g := by
  unfold Program.createNetwork
  rw [hf]
  have h : Network.toSize (Network.toInt32 options.network.nAgents) = options.network.nAgents := by
    unfold Network.toSize Network.toInt32
    rw [Int.bmod_eq_of_le (by omega) (by omega)]
    omega
  simp only [h]

/-- Such generators exist: three agents with one connection each (and one to themselves); agents 1 and 2 both listen to agent 0 with probability 1/4. -/
example : tapes {g | ∃ (N : Network (SimpleAgent ℝ) ℝ) (g' : ℕ → ℝ), nConnections fairRng 3 1 true g = .ok (N, g') ∧ (listeners N 3 0).card = 2} = 1 / 4 := by
  rw [C95_audience fairRng_lawful fairRng_fair fairRng_unit (by norm_num) true (by norm_num) 2]
  have : ((1 : ℕ) / ((3 - 1 : ℕ) : ℝ≥0∞)) ^ 2 = 1 / 4 := by
    rw [div_eq_mul_inv, Nat.cast_one, one_mul, one_div, ← ENNReal.inv_pow]
    norm_num
  rw [this]
  norm_num

end Seldon
